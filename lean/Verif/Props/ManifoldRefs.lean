import Verif.Model.ManifoldRefs
import Verif.Props.ManifoldExceptions
import Verif.Props.OptSpline

/-!
# C91: what pointers to design variables need to stay valid
-/

set_option linter.unusedSectionVars false

namespace Verif

variable {K : Type*} [Field K] [LinearOrder K] [IsStrictOrderedRing K] {P V : Type*}

/-! ### Calls remove no knots -/

namespace MSpline

theorem sub_of_eq {l l' : List K} (h : l = l') : l ⊆ l' := h ▸ List.Subset.refl _

theorem keys_sub_mapInsert (x : Seg K P) (s : MSpline K P) : s.keys ⊆ ({ s with segs := mapInsert x s.segs } : MSpline K P).keys :=
  ((sublist_mapInsert x s.segs).map Seg.knot).subset

theorem keys_writeBasis (segs : List (Seg K P)) (x : K) (B : Mat K) : (writeBasis segs x B).map Seg.knot = segs.map Seg.knot := by
  unfold writeBasis
  rw [List.map_map]
  exact List.map_congr_left fun g _ => by simp only [Function.comp]; split <;> rfl

theorem keys_writeVertex (segs : List (Seg K P)) (x : K) (p : P) : (writeVertex segs x p).map Seg.knot = segs.map Seg.knot := by
  unfold writeVertex
  rw [List.map_map]
  exact List.map_congr_left fun g _ => by simp only [Function.comp]; split <;> rfl

theorem keys_basisLoop (ks : List K) (order : ℕ) (endIt : Iter K) : ∀ (rest : List K) (it : Iter K) (window : List K)
    (segs segs' : List (Seg K P)), basisLoop ks order endIt rest it window segs = .ok segs' → segs'.map Seg.knot = segs.map Seg.knot
  | [], _, _, segs, segs', h => by unfold basisLoop at h; cases h; rfl
  | x :: rest, it, window, segs, segs', h => by
    unfold basisLoop at h
    split at h
    · cases h; rfl
    · rcases it with _ | b
      · cases h
      · dsimp only at h
        rcases hi : itInc ks (some b) with it' | _ | _ <;> rw [hi] at h
        · rw [Outcome.bind_ok] at h
          rw [keys_basisLoop ks order endIt _ _ _ _ _ h, keys_writeBasis]
        · cases h
        · cases h

theorem keys_initBasis (s : MSpline K P) (e k b : Iter K) (segs : List (Seg K P)) (h : s.initBasis e k b = .ok segs) :
    segs.map Seg.knot = s.keys := by
  unfold initBasis at h
  rcases hc : collectKnots s.keys s.order b 0 (2 * s.order - 1) k [] with ⟨win, it⟩ | _ | _ <;> rw [hc] at h
  · rw [Outcome.bind_ok] at h
    exact keys_basisLoop _ _ _ _ _ _ _ _ h
  · cases h
  · cases h

theorem keys_init (s : MSpline K P) : s.init.2.keys = s.keys := by
  unfold init
  split
  · rfl
  · split
    · rfl
    · split
      · rfl
      · rfl
      · split
        · rfl
        · rfl
        · rename_i its _ _ h
          exact keys_initBasis _ _ _ _ _ h

theorem keys_appendLoop (M : Mfd K P V) (value : Option P) : ∀ (ts : List K) (it cur cur' : Iter K) (s s' : MSpline K P),
    appendLoop M value ts it cur s = .ok (cur', s') → s.keys ⊆ s'.keys
  | [], _, _, _, s, s', h => by unfold appendLoop at h; cases h; exact List.Subset.refl _
  | t :: ts, it, cur, cur', s, s', h => by
    unfold appendLoop at h
    dsimp only at h
    have h0 : s.keys ⊆ (s.addKnot M t).keys := keys_sub_mapInsert _ s
    rcases hc : itInc (s.addKnot M t).keys cur with c1 | _ | _ <;> rw [hc] at h
    · rw [Outcome.bind_ok] at h
      rcases value with _ | v
      · exact List.Subset.trans h0 (keys_appendLoop M none _ _ _ _ _ _ h)
      · rcases it with _ | x
        · cases h
        · dsimp only at h
          rcases hi : itInc ({ s.addKnot M t with segs := writeVertex (s.addKnot M t).segs x v } : MSpline K P).keys (some x) with i1 | _ | _ <;>
            rw [hi] at h
          · rw [Outcome.bind_ok] at h
            refine List.Subset.trans h0 (List.Subset.trans ?_ (keys_appendLoop M (some v) _ _ _ _ _ _ h))
            exact sub_of_eq (keys_writeVertex (s.addKnot M t).segs x v).symm
          · cases h
          · cases h
    · cases h
    · cases h

theorem keys_manipulateLoop (f : ℕ → P → P) : ∀ (xs : List K) (i n : ℕ) (segs : List (Seg K P)),
    (manipulateLoop f xs i n segs).map Seg.knot = segs.map Seg.knot
  | [], _, _, _ => rfl
  | _ :: _, _, 0, _ => rfl
  | x :: rest, i, (n + 1), segs => by
    unfold manipulateLoop
    rw [keys_manipulateLoop f rest (i + 1) n, List.map_map]
    exact List.map_congr_left fun g _ => by simp only [Function.comp]; split <;> rfl

/-- No call removes a knot. -/
theorem keys_call (M : Mfd K P V) (c : Call K P) (s : MSpline K P) : s.keys ⊆ (c.run M s).2.keys := by
  have hk : ∀ (ts : List K) (s' : MSpline K P), s.keys ⊆ s'.keys → s.keys ⊆ (forEach (fun t => total (addKnot M t)) ts s').2.keys := by
    intro ts s' h
    exact forEach_inv _ (fun x : MSpline K P => s.keys ⊆ x.keys) (fun t x hx => List.Subset.trans hx (keys_sub_mapInsert ⟨t, M.default, none⟩ x)) ts s' h
  have hv : ∀ (t : K) (p : P) (x : MSpline K P), s.keys ⊆ x.keys → s.keys ⊆ (addControlVertex M t p x).2.keys := by
    intro t p x hx
    unfold addControlVertex
    split
    · exact List.Subset.trans hx (keys_sub_mapInsert _ x)
    · exact hx
  have hat : ∀ (f g : MSpline K P → Outcome Unit × MSpline K P) (x : MSpline K P), s.keys ⊆ (f x).2.keys →
      (∀ y : MSpline K P, s.keys ⊆ y.keys → s.keys ⊆ (g y).2.keys) → s.keys ⊆ (andThen f g x).2.keys := by
    intro f g x hf hg
    unfold andThen
    split
    · rename_i y hy
      rw [hy] at hf
      exact hg y hf
    · rename_i o y _ hy
      rw [hy] at hf
      exact hf
  have hac : s.keys ⊆ (assertConstructing s).2.keys := by
    unfold assertConstructing
    split <;> exact List.Subset.refl _
  have hin : ∀ y : MSpline K P, s.keys ⊆ y.keys → s.keys ⊆ y.init.2.keys := fun y hy => by rw [keys_init]; exact hy
  cases c with
  | addKnot t => exact keys_sub_mapInsert _ s
  | addControlVertex t p => exact hv t p s (List.Subset.refl _)
  | addKnots ts => exact hat _ _ _ hac fun y hy => hk ts y hy
  | addKnotsAndControlVertices ts cs =>
    refine hat _ _ _ hac fun y hy => ?_
    split
    · exact hy
    · exact forEach_inv _ (fun x => s.keys ⊆ x.keys) (fun (tp : K × P) (x : MSpline K P) hx => hv tp.1 tp.2 x hx) _ y hy
  | init => exact hin s (List.Subset.refl _)
  | initWithKnots ts =>
    refine hat _ _ _ hac fun y hy => ?_
    split
    · exact hy
    · exact hat _ _ _ (hk ts y hy) hin
  | initWithKnotsAndControlVertices ts cs =>
    refine hat _ _ _ hac fun y hy => ?_
    split
    · exact hy
    · exact hat _ _ _ (forEach_inv _ (fun x => s.keys ⊆ x.keys) (fun (tp : K × P) (x : MSpline K P) hx => hv tp.1 tp.2 x hx) _ y hy) fun z hz =>
        hat _ _ _ (hk _ z hz) hin
  | initConstant ts p =>
    exact hat _ _ _ hac fun y hy => hat _ _ _ (forEach_inv _ (fun x => s.keys ⊆ x.keys) (fun t x hx => hv t p x hx) _ y hy) hin
  | append ts v =>
    show s.keys ⊆ (s.appendSegments M ts v).2.keys
    unfold appendSegments
    split
    · exact List.Subset.refl _
    · exact List.Subset.refl _
    · split
      · exact List.Subset.refl _
      · exact List.Subset.refl _
      · split
        · exact List.Subset.refl _
        · split
          · exact List.Subset.refl _
          · exact List.Subset.refl _
          · rename_i cur s1 hl
            have h1 := keys_appendLoop M v _ _ _ _ _ _ hl
            split
            · exact h1
            · split
              · exact List.Subset.refl _
              · exact h1
              · rename_i segs hb
                refine List.Subset.trans h1 ?_
                rcases ha : moveIter s1.keys _ s.absBegin (-1) with a | _ | _ <;> rw [ha] at hb
                · rw [Outcome.bind_ok] at hb
                  rcases hb' : moveIter s1.keys a s.absBegin (-((s.order : ℤ) - 1)) with b | _ | _ <;> rw [hb'] at hb
                  · rw [Outcome.bind_ok] at hb
                    exact sub_of_eq (keys_initBasis _ _ _ _ _ hb).symm
                  · cases hb
                  · cases hb
                · cases hb
                · cases hb
  | manipulate f n t o =>
    show s.keys ⊆ (s.manipulateControlVertices f n t o).2.keys
    unfold manipulateControlVertices
    split
    · exact List.Subset.refl _
    · exact List.Subset.refl _
    · exact sub_of_eq (keys_manipulateLoop f _ _ _ s.segs).symm

end MSpline

namespace RefWorld

open MSpline World

/-! ### What the operations do -/

theorem addr_some {w : RefWorld K P} {o m : ℕ} (h : w.addr o = some m) : ∃ ob, w.base.objs o = some ob ∧ ob.map = some m := by
  unfold addr at h
  rcases ho : w.base.objs o with _ | ob
  · rw [ho] at h; cases h
  · rw [ho] at h; exact ⟨ob, rfl, h⟩

theorem copyInto_eq {w : World K P} {src m : ℕ} {ob : SObj K} (h : w.objs src = some ob) (hm : ob.map = some m)
    (keep : Option (ℕ × Iters K)) (d : ℕ) : ∃ ob' : SObj K, ob'.map = some w.next ∧
      copyInto keep d src w = ⟨Function.update w.objs d (some ob'), Function.update w.heap w.next (w.heap m), w.next + 1⟩ := by
  unfold copyInto
  rw [h]
  dsimp only
  rw [hm]
  exact ⟨_, rfl, rfl⟩

theorem call_eq {w : World K P} {o m : ℕ} {ob : SObj K} (h : w.objs o = some ob) (hm : ob.map = some m) (f : MSpline K P → MSpline K P) :
    ∃ (s : MSpline K P) (ob' : SObj K), w.view o = some s ∧ s.segs = w.heap m ∧ ob'.map = some m ∧
      World.call f o w = ⟨Function.update w.objs o (some ob'), Function.update w.heap m (f s).segs, w.next⟩ := by
  have hv : w.view o = some ⟨ob.order, w.heap m, ob.state, (ob.iters.filter fun x => decide (x.1 = m)).map Prod.snd⟩ := by
    unfold view
    rw [h, Option.bind_some, hm]
    rfl
  have e : ∃ ob' : SObj K, ob'.map = some m ∧ World.call f o w = ⟨Function.update w.objs o (some ob'), Function.update w.heap m
      (f ⟨ob.order, w.heap m, ob.state, (ob.iters.filter fun x => decide (x.1 = m)).map Prod.snd⟩).segs, w.next⟩ := by
    unfold World.call
    rw [h]
    dsimp only
    rw [hm, hv]
    exact ⟨_, rfl, rfl⟩
  obtain ⟨ob', e1, e2⟩ := e
  exact ⟨_, ob', hv, rfl, e1, e2⟩

/-- An operation on objects: a new map for object `d`. -/
structure Fresh (w w' : RefWorld K P) (d : ℕ) (segs : List (Seg K P)) : Prop where
  objs : ∃ ob : SObj K, ob.map = some w.base.next ∧ w'.base.objs = Function.update w.base.objs d (some ob)
  heap : w'.base.heap = Function.update w.base.heap w.base.next segs
  next : w'.base.next = w.base.next + 1

theorem Fresh.addr_self {w w' : RefWorld K P} {d : ℕ} {segs : List (Seg K P)} (f : Fresh w w' d segs) : w'.addr d = some w.base.next := by
  obtain ⟨ob, h1, h2⟩ := f.objs
  unfold addr
  rw [h2, Function.update_self]
  exact h1

theorem Fresh.addr_ne {w w' : RefWorld K P} {d o : ℕ} {segs : List (Seg K P)} (f : Fresh w w' d segs) (h : o ≠ d) : w'.addr o = w.addr o := by
  obtain ⟨ob, -, h2⟩ := f.objs
  unfold addr
  rw [h2, Function.update_of_ne h]

theorem Fresh.keys_new {w w' : RefWorld K P} {d : ℕ} {segs : List (Seg K P)} (f : Fresh w w' d segs) :
    w'.keysAt w.base.next = segs.map Seg.knot := by
  unfold keysAt
  rw [f.heap, Function.update_self]

theorem Fresh.keys_old {w w' : RefWorld K P} {d m : ℕ} {segs : List (Seg K P)} (f : Fresh w w' d segs) (h : m < w.base.next) :
    w'.keysAt m = w.keysAt m := by
  unfold keysAt
  rw [f.heap, Function.update_of_ne h.ne]

theorem fresh_create (o k : ℕ) (w : RefWorld K P) : Fresh w (w.create o k) o [] := ⟨⟨_, rfl, rfl⟩, rfl, rfl⟩

theorem fresh_copy {w : RefWorld K P} {d s m : ℕ} (h : w.addr s = some m) : Fresh w (w.copy d s) d (w.base.heap m) := by
  obtain ⟨ob, h1, h2⟩ := addr_some h
  obtain ⟨ob', h3, h4⟩ := copyInto_eq h1 h2 none d
  have e : (w.copy d s).base = copyInto none d s w.base := by unfold copy; rw [h]; rfl
  exact ⟨⟨ob', h3, by rw [e, h4]⟩, by rw [e, h4], by rw [e, h4]⟩

theorem fresh_assign {w : RefWorld K P} {d s m : ℕ} {obd : SObj K} (hd : w.base.objs d = some obd) (h : w.addr s = some m) :
    Fresh w (w.assign d s) d (w.base.heap m) := by
  obtain ⟨ob, h1, h2⟩ := addr_some h
  obtain ⟨ob', h3, h4⟩ := copyInto_eq h1 h2 obd.iters d
  have e : (w.assign d s).base = copyInto obd.iters d s w.base := by
    unfold assign
    rw [h, hd]
    unfold World.assign
    simp only [hd]
  exact ⟨⟨ob', h3, by rw [e, h4]⟩, by rw [e, h4], by rw [e, h4]⟩

/-- The effect of a call. -/
theorem call_spec (M : Mfd K P V) {w : RefWorld K P} {o m : ℕ} (c : Call K P) (h : w.addr o = some m) :
    (∃ ob' : SObj K, ob'.map = some m ∧ (w.call M o c).base.objs = Function.update w.base.objs o (some ob')) ∧
      (∀ x, (w.call M o c).addr x = w.addr x) ∧ (∀ x, ((w.call M o c).base.objs x).isSome = (w.base.objs x).isSome) ∧
      (∀ a, a ≠ m → (w.call M o c).keysAt a = w.keysAt a) ∧ w.keysAt m ⊆ (w.call M o c).keysAt m ∧
      (w.call M o c).base.next = w.base.next ∧ (w.call M o c).life = w.life ∧ (w.call M o c).born = w.born ∧
      (w.call M o c).owner = Function.update w.owner m fun k => if k ∈ w.keysAt m then w.owner m k else w.life o := by
  obtain ⟨ob, h1, h2⟩ := addr_some h
  obtain ⟨s, ob', g1, g2, g3, g4⟩ := call_eq h1 h2 fun s => (c.run M s).2
  have e : w.call M o c = ⟨World.call (fun s => (c.run M s).2) o w.base, w.life, w.born,
      Function.update w.owner m fun k => if k ∈ w.keysAt m then w.owner m k else w.life o⟩ := by
    unfold call
    rw [h]
  have hobjs : (w.call M o c).base.objs = Function.update w.base.objs o (some ob') := by rw [e]; dsimp only; rw [g4]
  have hheap : (w.call M o c).base.heap = Function.update w.base.heap m (c.run M s).2.segs := by rw [e]; dsimp only; rw [g4]
  refine ⟨⟨ob', g3, hobjs⟩, fun x => ?_, fun x => ?_, fun a ha => ?_, ?_, by rw [e]; dsimp only; rw [g4], by rw [e], by rw [e], by rw [e]⟩
  · unfold addr
    rw [hobjs, Function.update_apply]
    split
    · rename_i hx
      subst hx
      rw [h1, Option.bind_some, Option.bind_some, g3, h2]
    · rfl
  · rw [hobjs, Function.update_apply]
    split
    · rename_i hx
      subst hx
      rw [h1]
      rfl
    · rfl
  · unfold keysAt
    rw [hheap, Function.update_of_ne ha]
  · unfold keysAt
    rw [hheap, Function.update_self, ← g2]
    exact keys_call M c s

theorem write_keys (w : RefWorld K P) (x : ℕ × K) (f : P → P) (m : ℕ) : (w.write x f).keysAt m = w.keysAt m := by
  unfold keysAt write OptWorld.writeThrough
  dsimp only
  rw [Function.update_apply]
  split
  · rename_i hm
    subst hm
    rw [List.map_map]
    exact List.map_congr_left fun g _ => by simp only [Function.comp]; split <;> rfl
  · rfl

theorem destroy_addr (w : RefWorld K P) (o x : ℕ) : (w.destroy o).addr x = if x = o then none else w.addr x := by
  unfold addr destroy
  dsimp only
  rw [Function.update_apply]
  split <;> rfl

/-! ### Later programs -/

/-- Objects after an operation are old ones or have a new serial number. -/
theorem run_alive (M : Mfd K P V) (op : ROp K P) (w : RefWorld K P) : w.born ≤ (op.run M w).born ∧
    ∀ o, ((op.run M w).base.objs o).isSome → ((w.base.objs o).isSome ∧ (op.run M w).life o = w.life o) ∨
      ((op.run M w).life o = w.born ∧ w.born < (op.run M w).born) := by
  have same : w.born ≤ w.born ∧ ∀ o, (w.base.objs o).isSome → ((w.base.objs o).isSome ∧ w.life o = w.life o) ∨
      (w.life o = w.born ∧ w.born < w.born) := ⟨le_rfl, fun o h => Or.inl ⟨h, rfl⟩⟩
  have fresh : ∀ (w' : RefWorld K P) (d : ℕ) (segs : List (Seg K P)), Fresh w w' d segs → w'.life = Function.update w.life d w.born →
      w'.born = w.born + 1 → w.born ≤ w'.born ∧ ∀ o, (w'.base.objs o).isSome → ((w.base.objs o).isSome ∧ w'.life o = w.life o) ∨
        (w'.life o = w.born ∧ w.born < w'.born) := by
    intro w' d segs f hl hb
    refine ⟨by omega, fun o ho => ?_⟩
    by_cases h : o = d
    · subst h
      exact Or.inr ⟨by rw [hl, Function.update_self], by omega⟩
    · obtain ⟨ob, -, e⟩ := f.objs
      rw [e, Function.update_of_ne h] at ho
      exact Or.inl ⟨ho, by rw [hl, Function.update_of_ne h]⟩
  cases op with
  | create o k => exact fresh _ o _ (fresh_create o k w) rfl rfl
  | copy d s =>
    rcases h : w.addr s with _ | m
    · have e : ROp.run M (.copy d s) w = w := by simp only [ROp.run, copy, h]
      rw [e]; exact same
    · exact fresh _ d _ (fresh_copy h) (by simp only [ROp.run, copy, h]) (by simp only [ROp.run, copy, h])
  | assign d s =>
    rcases hd : w.base.objs d with _ | obd
    · have e : ROp.run M (.assign d s) w = w := by simp only [ROp.run, assign, hd]
      rw [e]; exact same
    rcases h : w.addr s with _ | m
    · have e : ROp.run M (.assign d s) w = w := by simp only [ROp.run, assign, h, hd]
      rw [e]; exact same
    · have e1 : (ROp.run M (.assign d s) w).life = w.life := by simp only [ROp.run, assign, h, hd]
      have e2 : (ROp.run M (.assign d s) w).born = w.born := by simp only [ROp.run, assign, h, hd]
      rw [e1, e2]
      refine ⟨le_rfl, fun o ho => Or.inl ⟨?_, rfl⟩⟩
      obtain ⟨ob, -, e⟩ := (fresh_assign hd h).objs
      by_cases hx : o = d
      · subst hx; rw [hd]; rfl
      · change ((w.assign d s).base.objs o).isSome at ho
        rw [e, Function.update_of_ne hx] at ho
        exact ho
  | call o c =>
    rcases h : w.addr o with _ | m
    · have e : ROp.run M (.call o c) w = w := by simp only [ROp.run, call, h]
      rw [e]; exact same
    · obtain ⟨-, -, h3, -, -, -, h7, h8, -⟩ := call_spec M c h
      refine ⟨h8.ge, fun x hx => Or.inl ⟨?_, congrFun h7 x⟩⟩
      rw [← h3]
      exact hx
  | write x f => exact same
  | destroy o =>
    refine ⟨le_rfl, fun x hx => Or.inl ⟨?_, rfl⟩⟩
    change ((Function.update w.base.objs o none) x).isSome at hx
    rw [Function.update_apply] at hx
    split at hx
    · cases hx
    · exact hx

/-- Maps after an operation are old ones or new. -/
theorem run_live (M : Mfd K P V) (op : ROp K P) (w : RefWorld K P) : w.base.next ≤ (op.run M w).base.next ∧
    ∀ o m, (op.run M w).addr o = some m → w.addr o = some m ∨ (m = w.base.next ∧ w.base.next < (op.run M w).base.next) := by
  have same : w.base.next ≤ w.base.next ∧ ∀ o m, w.addr o = some m → w.addr o = some m ∨ (m = w.base.next ∧ w.base.next < w.base.next) :=
    ⟨le_rfl, fun o m h => Or.inl h⟩
  have fresh : ∀ (w' : RefWorld K P) (d : ℕ) (segs : List (Seg K P)), Fresh w w' d segs → w.base.next ≤ w'.base.next ∧
      ∀ o m, w'.addr o = some m → w.addr o = some m ∨ (m = w.base.next ∧ w.base.next < w'.base.next) := by
    intro w' d segs f
    refine ⟨by rw [f.next]; omega, fun o m ho => ?_⟩
    by_cases h : o = d
    · subst h
      rw [f.addr_self, Option.some.injEq] at ho
      exact Or.inr ⟨ho.symm, by rw [f.next]; omega⟩
    · rw [f.addr_ne h] at ho
      exact Or.inl ho
  cases op with
  | create o k => exact fresh _ o _ (fresh_create o k w)
  | copy d s =>
    rcases h : w.addr s with _ | m
    · have e : ROp.run M (.copy d s) w = w := by simp only [ROp.run, copy, h]
      rw [e]; exact same
    · exact fresh _ d _ (fresh_copy h)
  | assign d s =>
    rcases hd : w.base.objs d with _ | obd
    · have e : ROp.run M (.assign d s) w = w := by simp only [ROp.run, assign, hd]
      rw [e]; exact same
    rcases h : w.addr s with _ | m
    · have e : ROp.run M (.assign d s) w = w := by simp only [ROp.run, assign, h, hd]
      rw [e]; exact same
    · exact fresh _ d _ (fresh_assign hd h)
  | call o c =>
    rcases h : w.addr o with _ | m
    · have e : ROp.run M (.call o c) w = w := by simp only [ROp.run, call, h]
      rw [e]; exact same
    · obtain ⟨-, h2, -, -, -, h6, -⟩ := call_spec M c h
      refine ⟨h6.ge, fun x a hx => Or.inl ?_⟩
      rw [← h2]
      exact hx
  | write x f => exact same
  | destroy o =>
    refine ⟨le_rfl, fun x a hx => Or.inl ?_⟩
    change (w.destroy o).addr x = _ at hx
    rw [destroy_addr] at hx
    split at hx
    · cases hx
    · exact hx

/-! ### The invariant -/

/-- What holds in all program states; `own` are the objects that were made by the constructor and never assigned to. -/
structure RInv (w : RefWorld K P) (own : ℕ → Prop) : Prop where
  distinct : ∀ o o' m, w.addr o = some m → w.addr o' = some m → o = o'
  allocated : ∀ o m, w.addr o = some m → m < w.base.next
  young : ∀ o, (w.base.objs o).isSome → w.life o < w.born
  serial : ∀ o o', (w.base.objs o).isSome → (w.base.objs o').isSome → w.life o = w.life o' → o = o'
  owned : ∀ o m k, w.addr o = some m → k ∈ w.keysAt m → w.owner m k < w.born
  own : ∀ o m k, own o → w.addr o = some m → k ∈ w.keysAt m → w.owner m k = w.life o

/-- Is an object made by the constructor and never assigned to? -/
def _root_.Verif.ROp.own (w : RefWorld K P) (own : ℕ → Prop) : ROp K P → ℕ → Prop
  | .create o _, x => x = o ∨ own x
  | .copy d s, x => own x ∧ (x = d → w.addr s = none)
  | .assign d _, x => own x ∧ x ≠ d
  | _, x => own x

/-- Program states. -/
inductive PReach (M : Mfd K P V) : RefWorld K P → (ℕ → Prop) → Prop
  | empty : PReach M RefWorld.empty (fun _ => False)
  | step {w own} (op : ROp K P) : PReach M w own → PReach M (op.run M w) (op.own w own)

theorem addr_isSome {w : RefWorld K P} {o m : ℕ} (h : w.addr o = some m) : (w.base.objs o).isSome := by
  obtain ⟨ob, h1, -⟩ := addr_some h
  rw [h1]; rfl

theorem inv_fresh {w w' : RefWorld K P} {d : ℕ} {segs : List (Seg K P)} {own own' : ℕ → Prop} (h : RInv w own) (f : Fresh w w' d segs)
    (hb : w.born ≤ w'.born) (hl : ∀ o, o ≠ d → w'.life o = w.life o)
    (hd : (w'.life d = w.born ∧ w.born < w'.born) ∨ (w'.life d = w.life d ∧ (w.base.objs d).isSome))
    (hold : ∀ m, m < w.base.next → w'.owner m = w.owner m) (hnew : ∀ k ∈ segs.map Seg.knot, w'.owner w.base.next k < w'.born)
    (hown : ∀ o, own' o → o ≠ d → own o) (hself : own' d → ∀ k ∈ segs.map Seg.knot, w'.owner w.base.next k = w'.life d) : RInv w' own' := by
  have hsome : ∀ o, o ≠ d → (w'.base.objs o).isSome → (w.base.objs o).isSome := by
    intro o ho h'
    obtain ⟨ob, -, e⟩ := f.objs
    rw [e, Function.update_of_ne ho] at h'
    exact h'
  have hy : ∀ o, (w'.base.objs o).isSome → w'.life o < w'.born ∧ (o ≠ d → w'.life o < w.born) := by
    intro o ho
    by_cases hx : o = d
    · subst hx
      rcases hd with ⟨e1, e2⟩ | ⟨e1, e2⟩
      · exact ⟨by omega, fun h => absurd rfl h⟩
      · have := h.young _ e2
        exact ⟨by omega, fun h => absurd rfl h⟩
    · have := h.young o (hsome o hx ho)
      rw [hl o hx]
      exact ⟨by omega, fun _ => this⟩
  refine ⟨?_, ?_, fun o ho => (hy o ho).1, ?_, ?_, ?_⟩
  · intro o o' m ho ho'
    by_cases h1 : o = d <;> by_cases h2 : o' = d
    · rw [h1, h2]
    · subst h1
      rw [f.addr_self, Option.some.injEq] at ho
      rw [f.addr_ne h2] at ho'
      have := h.allocated o' m ho'
      omega
    · subst h2
      rw [f.addr_self, Option.some.injEq] at ho'
      rw [f.addr_ne h1] at ho
      have := h.allocated o m ho
      omega
    · rw [f.addr_ne h1] at ho
      rw [f.addr_ne h2] at ho'
      exact h.distinct o o' m ho ho'
  · intro o m ho
    rw [f.next]
    by_cases h1 : o = d
    · subst h1
      rw [f.addr_self, Option.some.injEq] at ho
      omega
    · rw [f.addr_ne h1] at ho
      have := h.allocated o m ho
      omega
  · intro o o' ho ho' e
    by_cases h1 : o = d <;> by_cases h2 : o' = d
    · rw [h1, h2]
    · subst h1
      have q := (hy o' ho').2 h2
      rcases hd with ⟨e1, -⟩ | ⟨e1, e2⟩
      · omega
      · exact h.serial _ _ e2 (hsome o' h2 ho') (by rw [← e1, e, hl o' h2])
    · subst h2
      have q := (hy o ho).2 h1
      rcases hd with ⟨e1, -⟩ | ⟨e1, e2⟩
      · omega
      · exact h.serial _ _ (hsome o h1 ho) e2 (by rw [← e1, ← e, hl o h1])
    · rw [hl o h1, hl o' h2] at e
      exact h.serial o o' (hsome o h1 ho) (hsome o' h2 ho') e
  · intro o m k ho hk
    by_cases h1 : o = d
    · subst h1
      rw [f.addr_self, Option.some.injEq] at ho
      subst ho
      rw [f.keys_new] at hk
      exact hnew k hk
    · rw [f.addr_ne h1] at ho
      have hm := h.allocated o m ho
      rw [f.keys_old hm] at hk
      rw [hold m hm]
      have := h.owned o m k ho hk
      omega
  · intro o m k hw ho hk
    by_cases h1 : o = d
    · subst h1
      rw [f.addr_self, Option.some.injEq] at ho
      subst ho
      rw [f.keys_new] at hk
      exact hself hw k hk
    · rw [f.addr_ne h1] at ho
      have hm := h.allocated o m ho
      rw [f.keys_old hm] at hk
      rw [hold m hm, hl o h1]
      exact h.own o m k (hown o hw h1) ho hk

theorem inv_run (M : Mfd K P V) {w : RefWorld K P} {own : ℕ → Prop} (h : RInv w own) (op : ROp K P) : RInv (op.run M w) (op.own w own) := by
  cases op with
  | create o k =>
    refine inv_fresh h (fresh_create o k w) (Nat.le_succ _) (fun x hx => ?_) (Or.inl ⟨?_, Nat.lt_succ_self _⟩) (fun _ _ => rfl) (fun k hk => ?_)
      (fun x hx hne => hx.resolve_left hne) fun _ k hk => ?_
    · exact Function.update_of_ne hx _ _
    · exact Function.update_self _ _ _
    · cases hk
    · cases hk
  | copy d s =>
    rcases ha : w.addr s with _ | m
    · have e : ROp.run M (.copy d s) w = w := by simp only [ROp.run, copy, ha]
      rw [e]
      exact ⟨h.distinct, h.allocated, h.young, h.serial, h.owned, fun o m k hw => h.own o m k hw.1⟩
    · have e : ROp.run M (.copy d s) w = ⟨World.copy d s w.base, Function.update w.life d w.born, w.born + 1,
          Function.update w.owner w.base.next (w.owner m)⟩ := by simp only [ROp.run, copy, ha]
      refine inv_fresh h (fresh_copy ha) ?_ (fun x hx => ?_) (Or.inl ?_) (fun a hm => ?_) (fun k hk => ?_) (fun x hx _ => hx.1) fun hx => ?_
      · change _ ≤ (ROp.run M (.copy d s) w).born
        rw [e]; exact Nat.le_succ _
      · change (ROp.run M (.copy d s) w).life x = _
        rw [e]; exact Function.update_of_ne hx _ _
      · change (ROp.run M (.copy d s) w).life d = _ ∧ _ < (ROp.run M (.copy d s) w).born
        rw [e]; exact ⟨Function.update_self _ _ _, Nat.lt_succ_self _⟩
      · change (ROp.run M (.copy d s) w).owner a = _
        rw [e]; exact Function.update_of_ne hm.ne _ _
      · change (ROp.run M (.copy d s) w).owner _ k < (ROp.run M (.copy d s) w).born
        rw [e]
        dsimp only
        rw [Function.update_self]
        exact Nat.lt_succ_of_lt (h.owned s m k ha hk)
      · have := hx.2 rfl
        rw [ha] at this
        cases this
  | assign d s =>
    have none : ROp.run M (.assign d s) w = w → RInv (ROp.run M (.assign d s) w) (ROp.own w own (.assign d s)) := fun e => by
      rw [e]
      exact ⟨h.distinct, h.allocated, h.young, h.serial, h.owned, fun o m k hw => h.own o m k hw.1⟩
    rcases hd : w.base.objs d with _ | obd
    · exact none (by simp only [ROp.run, assign, hd])
    rcases ha : w.addr s with _ | m
    · exact none (by simp only [ROp.run, assign, ha, hd])
    · have e : ROp.run M (.assign d s) w = ⟨World.assign d s w.base, w.life, w.born, Function.update w.owner w.base.next (w.owner m)⟩ := by
        simp only [ROp.run, assign, ha, hd]
      refine inv_fresh h (fresh_assign hd ha) ?_ (fun x hx => ?_) (Or.inr ⟨?_, by rw [hd]; rfl⟩) (fun a hm => ?_) (fun k hk => ?_)
        (fun x hx _ => hx.1) fun hx => absurd rfl hx.2
      · change _ ≤ (ROp.run M (.assign d s) w).born
        rw [e]
      · change (ROp.run M (.assign d s) w).life x = _
        rw [e]
      · change (ROp.run M (.assign d s) w).life d = _
        rw [e]
      · change (ROp.run M (.assign d s) w).owner a = _
        rw [e]; exact Function.update_of_ne hm.ne _ _
      · change (ROp.run M (.assign d s) w).owner _ k < (ROp.run M (.assign d s) w).born
        rw [e]
        dsimp only
        rw [Function.update_self]
        exact h.owned s m k ha hk
  | call o c =>
    rcases ha : w.addr o with _ | m
    · have e : ROp.run M (.call o c) w = w := by simp only [ROp.run, call, ha]
      rw [e]; exact h
    · obtain ⟨-, h2, h3, h4, h5, h6, h7, h8, h9⟩ := call_spec M c ha
      change RInv (w.call M o c) own
      have hown : ∀ x a k, w.addr x = some a → k ∈ (w.call M o c).keysAt a →
          ((w.call M o c).owner a k = w.owner a k ∧ k ∈ w.keysAt a) ∨ ((w.call M o c).owner a k = w.life o ∧ x = o) := by
        intro x a k hx hk
        rw [h9]
        by_cases hm : a = m
        · subst hm
          rw [Function.update_self]
          split
          · rename_i hk'; exact Or.inl ⟨rfl, hk'⟩
          · exact Or.inr ⟨rfl, h.distinct x o a hx ha⟩
        · rw [Function.update_of_ne hm]
          rw [h4 a hm] at hk
          exact Or.inl ⟨rfl, hk⟩
      refine ⟨?_, ?_, ?_, ?_, ?_, ?_⟩
      · intro x y a; rw [h2, h2]; exact h.distinct x y a
      · intro x a; rw [h2, h6]; exact h.allocated x a
      · intro x; rw [h3, h7, h8]; exact h.young x
      · intro x y; rw [h3, h3, h7]; exact h.serial x y
      · intro x a k hx hk
        rw [h2] at hx
        rw [h8]
        rcases hown x a k hx hk with ⟨e, hk'⟩ | ⟨e, -⟩ <;> rw [e]
        · exact h.owned x a k hx hk'
        · exact h.young o (addr_isSome ha)
      · intro x a k hw hx hk
        rw [h2] at hx
        rw [h7]
        rcases hown x a k hx hk with ⟨e, hk'⟩ | ⟨e, hxo⟩ <;> rw [e]
        · exact h.own x a k hw hx hk'
        · rw [hxo]
  | write x f =>
    refine ⟨h.distinct, h.allocated, h.young, h.serial, fun o m k ho hk => ?_, fun o m k hw ho hk => ?_⟩
    · exact h.owned o m k ho (by rw [← write_keys w x f]; exact hk)
    · exact h.own o m k hw ho (by rw [← write_keys w x f]; exact hk)
  | destroy o =>
    have ha : ∀ x m, (w.destroy o).addr x = some m → w.addr x = some m := by
      intro x m hx
      rw [destroy_addr] at hx
      split at hx
      · cases hx
      · exact hx
    have hs : ∀ x, ((w.destroy o).base.objs x).isSome → (w.base.objs x).isSome := by
      intro x hx
      change ((Function.update w.base.objs o none) x).isSome at hx
      rw [Function.update_apply] at hx
      split at hx
      · cases hx
      · exact hx
    exact ⟨fun x y m hx hy => h.distinct x y m (ha x m hx) (ha y m hy), fun x m hx => h.allocated x m (ha x m hx), fun x hx => h.young x (hs x hx),
      fun x y hx hy => h.serial x y (hs x hx) (hs y hy), fun x m k hx => h.owned x m k (ha x m hx), fun x m k hw hx => h.own x m k hw (ha x m hx)⟩

theorem PReach.inv {M : Mfd K P V} {w : RefWorld K P} {own : ℕ → Prop} (h : PReach M w own) : RInv w own := by
  induction h with
  | empty =>
    exact ⟨fun _ _ _ h => (by cases h), fun _ _ h => (by cases h), fun _ h => (by cases h), fun _ _ h => (by cases h),
      fun _ _ _ h => (by cases h), fun _ _ _ h => False.elim h⟩
  | step op _ ih => exact inv_run M ih op

/-! ### What further operations keep -/

/-- The operations that leave object `o` at its place with its map: all but constructing, assigning to, or destroying `o`. -/
def _root_.Verif.ROp.spares (o : ℕ) : ROp K P → Prop
  | .create x _ => x ≠ o
  | .copy d _ => d ≠ o
  | .assign d _ => d ≠ o
  | .destroy x => x ≠ o
  | _ => True

/-- Run operations one after the other. -/
def runs (M : Mfd K P V) (ops : List (ROp K P)) (w : RefWorld K P) : RefWorld K P := ops.foldl (fun w op => op.run M w) w

theorem keep_run (M : Mfd K P V) {w : RefWorld K P} {own : ℕ → Prop} (h : RInv w own) {o m : ℕ} (hm : w.addr o = some m) (op : ROp K P)
    (hs : op.spares o) : (op.run M w).addr o = some m ∧ (op.run M w).life o = w.life o ∧
      ∀ k ∈ w.keysAt m, k ∈ (op.run M w).keysAt m ∧ (op.run M w).owner m k = w.owner m k := by
  have hlt := h.allocated o m hm
  have fresh : ∀ (w' : RefWorld K P) (d : ℕ) (segs : List (Seg K P)), Fresh w w' d segs → d ≠ o → w'.life o = w.life o →
      w'.owner m = w.owner m → w'.addr o = some m ∧ w'.life o = w.life o ∧ ∀ k ∈ w.keysAt m, k ∈ w'.keysAt m ∧ w'.owner m k = w.owner m k := by
    intro w' d segs f hd hl ho
    exact ⟨by rw [f.addr_ne hd.symm, hm], hl, fun k hk => ⟨by rw [f.keys_old hlt]; exact hk, by rw [ho]⟩⟩
  have same : w.addr o = some m ∧ w.life o = w.life o ∧ ∀ k ∈ w.keysAt m, k ∈ w.keysAt m ∧ w.owner m k = w.owner m k :=
    ⟨hm, rfl, fun k hk => ⟨hk, rfl⟩⟩
  cases op with
  | create x k => exact fresh _ x _ (fresh_create x k w) hs (Function.update_of_ne (Ne.symm hs) _ _) rfl
  | copy d s =>
    rcases ha : w.addr s with _ | a
    · have e : ROp.run M (.copy d s) w = w := by simp only [ROp.run, copy, ha]
      rw [e]; exact same
    · refine fresh _ d _ (fresh_copy ha) hs ?_ ?_
      · simp only [ROp.run, copy, ha]; exact Function.update_of_ne (Ne.symm hs) _ _
      · simp only [ROp.run, copy, ha]; exact Function.update_of_ne hlt.ne _ _
  | assign d s =>
    rcases hd : w.base.objs d with _ | obd
    · have e : ROp.run M (.assign d s) w = w := by simp only [ROp.run, assign, hd]
      rw [e]; exact same
    rcases ha : w.addr s with _ | a
    · have e : ROp.run M (.assign d s) w = w := by simp only [ROp.run, assign, ha, hd]
      rw [e]; exact same
    · refine fresh _ d _ (fresh_assign hd ha) hs ?_ ?_
      · simp only [ROp.run, assign, ha, hd]
      · simp only [ROp.run, assign, ha, hd]; exact Function.update_of_ne hlt.ne _ _
  | call x c =>
    rcases ha : w.addr x with _ | a
    · have e : ROp.run M (.call x c) w = w := by simp only [ROp.run, call, ha]
      rw [e]; exact same
    · obtain ⟨-, h2, -, h4, h5, -, h7, -, h9⟩ := call_spec M c ha
      change (w.call M x c).addr o = _ ∧ (w.call M x c).life o = _ ∧ ∀ k ∈ _, k ∈ (w.call M x c).keysAt m ∧ (w.call M x c).owner m k = _
      refine ⟨by rw [h2]; exact hm, by rw [h7], fun k hk => ?_⟩
      rw [h9]
      by_cases hma : m = a
      · subst hma
        rw [Function.update_self, if_pos hk]
        exact ⟨h5 hk, rfl⟩
      · rw [Function.update_of_ne hma, h4 m hma]
        exact ⟨hk, rfl⟩
  | write x f => exact ⟨hm, rfl, fun k hk => ⟨by rw [← write_keys w x f] at hk; exact hk, rfl⟩⟩
  | destroy x =>
    refine ⟨?_, rfl, fun k hk => ⟨hk, rfl⟩⟩
    change (w.destroy x).addr o = _
    rw [destroy_addr, if_neg (Ne.symm hs)]
    exact hm

theorem keep_runs (M : Mfd K P V) {o m : ℕ} : ∀ (ops : List (ROp K P)) {w : RefWorld K P} {own : ℕ → Prop}, RInv w own → w.addr o = some m →
    (∀ op ∈ ops, op.spares o) → (∃ own', RInv (runs M ops w) own') ∧ (runs M ops w).addr o = some m ∧ (runs M ops w).life o = w.life o ∧
      ∀ k ∈ w.keysAt m, k ∈ (runs M ops w).keysAt m ∧ (runs M ops w).owner m k = w.owner m k
  | [], w, own, h, hm, _ => ⟨⟨own, h⟩, hm, rfl, fun k hk => ⟨hk, rfl⟩⟩
  | op :: ops, w, own, h, hm, hs => by
    obtain ⟨a1, a2, a3⟩ := keep_run M h hm op (hs op (by simp))
    obtain ⟨b0, b1, b2, b3⟩ := keep_runs M ops (inv_run M h op) a1 fun x hx => hs x (by simp [hx])
    refine ⟨b0, b1, b2.trans a2, fun k hk => ?_⟩
    obtain ⟨c1, c2⟩ := a3 k hk
    obtain ⟨d1, d2⟩ := b3 k c1
    exact ⟨d1, d2.trans c2⟩

theorem dead_runs (M : Mfd K P V) {n : ℕ} : ∀ (ops : List (ROp K P)) {w : RefWorld K P}, n < w.born → ¬ w.Alive n → ¬ (runs M ops w).Alive n
  | [], _, _, h => h
  | op :: ops, w, hn, h => by
    obtain ⟨a1, a2⟩ := run_alive M op w
    refine dead_runs M ops (lt_of_lt_of_le hn a1) ?_
    rintro ⟨o, ho, e⟩
    rcases a2 o ho with ⟨h1, h2⟩ | ⟨h1, -⟩
    · exact h ⟨o, h1, h2.symm.trans e⟩
    · have e' : (op.run M w).life o = n := e
      omega

theorem gone_runs (M : Mfd K P V) {m : ℕ} : ∀ (ops : List (ROp K P)) {w : RefWorld K P}, m < w.base.next → ¬ w.Live m → ¬ (runs M ops w).Live m
  | [], _, _, h => h
  | op :: ops, w, hn, h => by
    obtain ⟨a1, a2⟩ := run_live M op w
    refine gone_runs M ops (lt_of_lt_of_le hn a1) ?_
    rintro ⟨o, ho⟩
    rcases a2 o m ho with h1 | ⟨h1, -⟩
    · exact h ⟨o, h1⟩
    · omega

/-! ### The property -/

theorem update_ok (G : LieGrp P V) {w : RefWorld K P} {o m : ℕ} {k : K} (hm : w.addr o = some m) (hk : k ∈ w.keysAt m) (v : V)
    (ha : w.Alive (w.owner m k)) : w.update G (m, k) v = (.ok (), w.write (m, k) fun p => G.update p v) := by
  unfold update
  rw [if_pos ⟨⟨o, hm⟩, hk⟩, if_pos ha]

/-- **C91**: pointers to the design variables of an object made by the constructor and never assigned to stay valid as long as it lives,
whatever else the program does: the update succeeds, changes the vertex of that segment of that object by the group's update, and changes
nothing else.  (Missing: objects made by copying or assignment, see `C91_copy_violated` and `C91_assign_violated`.) -/
theorem C91_own_partial (M : Mfd K P V) (G : LieGrp P V) (w : RefWorld K P) (own : ℕ → Prop) (h : PReach M w own) (o : ℕ) (ho : own o)
    (m : ℕ) (k : K) (hm : w.addr o = some m) (hk : k ∈ w.keysAt m) (after : List (ROp K P)) (hs : ∀ op ∈ after, op.spares o) (v : V) :
    ((runs M after w).update G (m, k) v).1 = .ok () ∧
    (∃ s s', (runs M after w).base.view o = some s ∧ ((runs M after w).update G (m, k) v).2.base.view o = some s' ∧ s'.order = s.order ∧
      s'.state = s.state ∧ s'.iters = s.iters ∧ k ∈ s.keys ∧
      s'.segs = s.segs.map fun g => if g.knot = k then { g with vertex := G.update g.vertex v } else g) ∧
    ∀ x, x ≠ o → ((runs M after w).update G (m, k) v).2.base.view x = (runs M after w).base.view x := by
  obtain ⟨⟨own', hi⟩, a1, a2, a3⟩ := keep_runs M after h.inv hm hs
  obtain ⟨b1, b2⟩ := a3 k hk
  have hal : (runs M after w).Alive ((runs M after w).owner m k) := by
    refine ⟨o, addr_isSome a1, ?_⟩
    rw [a2, b2, h.inv.own o m k ho hm hk]
  rw [update_ok G a1 b1 v hal]
  obtain ⟨ob, o1, o2⟩ := addr_some a1
  generalize runs M after w = w' at *
  refine ⟨rfl, ⟨⟨ob.order, w'.base.heap m, ob.state, (ob.iters.filter fun x => decide (x.1 = m)).map Prod.snd⟩,
      ⟨ob.order, (w'.base.heap m).map fun g => if g.knot = k then { g with vertex := G.update g.vertex v } else g, ob.state,
        (ob.iters.filter fun x => decide (x.1 = m)).map Prod.snd⟩, ?_, ?_, rfl, rfl, rfl, b1, rfl⟩, fun x hx => ?_⟩
  · unfold view
    rw [o1, Option.bind_some, o2]
    rfl
  · show (w'.write (m, k) fun p => G.update p v).base.view o = _
    unfold view write OptWorld.writeThrough
    dsimp only
    rw [o1, Option.bind_some, o2]
    simp
  · show (w'.write (m, k) fun p => G.update p v).base.view x = _
    unfold view write OptWorld.writeThrough
    dsimp only
    rcases hob : w'.base.objs x with _ | obx
    · rfl
    · rw [Option.bind_some, Option.bind_some]
      rcases hmx : obx.map with _ | mx
      · rfl
      · have hne : mx ≠ m := by
          rintro rfl
          exact hx (hi.distinct x o mx (by unfold addr; rw [hob]; exact hmx) a1)
        rw [Option.map_some, Option.map_some, Function.update_of_ne hne]

/-- **C91**: the segments of a copy have the keys of those of the source and refer to the manifolds these refer to; so do those of an object
assigned to. -/
theorem C91_inherited (M : Mfd K P V) (w : RefWorld K P) (own : ℕ → Prop) (h : PReach M w own) (d s m : ℕ) (hs : w.addr s = some m)
    (op : ROp K P) (hop : op = .copy d s ∨ (op = .assign d s ∧ (w.base.objs d).isSome)) : ∃ m', (op.run M w).addr d = some m' ∧ ¬ w.Live m' ∧
      (op.run M w).keysAt m' = w.keysAt m ∧ ∀ k, (op.run M w).owner m' k = w.owner m k := by
  have hn : ¬ w.Live w.base.next := fun ⟨o, ho⟩ => lt_irrefl _ (h.inv.allocated o _ ho)
  rcases hop with rfl | ⟨rfl, hd⟩
  · refine ⟨w.base.next, (fresh_copy hs).addr_self, hn, (fresh_copy hs).keys_new, fun k => ?_⟩
    change (w.copy d s).owner _ k = _
    unfold copy
    rw [hs]
    dsimp only
    rw [Function.update_self]
  · obtain ⟨obd, hd⟩ := Option.isSome_iff_exists.1 hd
    refine ⟨w.base.next, (fresh_assign hd hs).addr_self, hn, (fresh_assign hd hs).keys_new, fun k => ?_⟩
    change (w.assign d s).owner _ k = _
    unfold assign
    rw [hs, hd]
    dsimp only
    rw [Function.update_self]

/-- A segment is a dangling design variable: updating it is undefined. -/
def Dangling (G : LieGrp P V) (w : RefWorld K P) (x : ℕ × K) : Prop := ∀ v, (w.update G x v).1 = .ub

/-- What happens to a copy or an object assigned to after the source is destroyed. -/
theorem inherited_dangling (M : Mfd K P V) (G : LieGrp P V) (w : RefWorld K P) (own : ℕ → Prop) (h : PReach M w own) (d s m : ℕ)
    (hs : w.addr s = some m) (ho : own s) (hne : d ≠ s) (op : ROp K P)
    (hop : op = .copy d s ∨ (op = .assign d s ∧ (w.base.objs d).isSome)) (after : List (ROp K P)) (ha : ∀ x ∈ after, x.spares d) :
    ∃ m', (runs M (op :: .destroy s :: after) w).addr d = some m' ∧
      ∀ k ∈ w.keysAt m, k ∈ (runs M (op :: .destroy s :: after) w).keysAt m' ∧
        Dangling G (runs M (op :: .destroy s :: after) w) (m', k) := by
  obtain ⟨m', a1, a2, a3, a4⟩ := C91_inherited M w own h d s m hs op hop
  have hi := inv_run M h.inv op
  have hsp : op.spares s := by rcases hop with rfl | ⟨rfl, -⟩ <;> exact hne
  obtain ⟨b1, b2, b3⟩ := keep_run M h.inv hs op hsp
  obtain ⟨-, c1, c2, c3⟩ := keep_runs M (.destroy s :: after) hi a1 fun x hx => by
    rcases List.mem_cons.1 hx with rfl | hx
    · exact hne.symm
    · exact ha x hx
  refine ⟨m', c1, fun k hk => ?_⟩
  obtain ⟨d1, d2⟩ := c3 k (by rw [a3]; exact hk)
  refine ⟨d1, fun v => ?_⟩
  have howner : (runs M (.destroy s :: after) (op.run M w)).owner m' k = w.life s := by
    rw [d2, a4, h.inv.own s m k ho hs hk]
  have hlt : w.life s < (op.run M w).born := lt_of_lt_of_le (h.inv.young s (addr_isSome hs)) (run_alive M op w).1
  have hdead : ¬ ((op.run M w).destroy s).Alive (w.life s) := by
    rintro ⟨o, e1, e2⟩
    change ((Function.update (op.run M w).base.objs s none) o).isSome at e1
    rw [Function.update_apply] at e1
    split at e1
    · cases e1
    · rename_i hos
      exact hos (hi.serial o s e1 (addr_isSome b1) (e2.trans b2.symm))
  have hfin : ¬ (runs M (.destroy s :: after) (op.run M w)).Alive (w.life s) := dead_runs M after hlt hdead
  change ((runs M (.destroy s :: after) (op.run M w)).update G (m', k) v).1 = .ub
  unfold update
  rw [if_pos ⟨⟨d, c1⟩, d1⟩, if_neg]
  rw [howner]
  exact hfin

/-- **C91 is violated by copying**: when the source of a copy is destroyed, updating any design variable the copy has from it is undefined,
for as long as the copy lives. -/
theorem C91_copy_violated (M : Mfd K P V) (G : LieGrp P V) (w : RefWorld K P) (own : ℕ → Prop) (h : PReach M w own) (d s m : ℕ)
    (hs : w.addr s = some m) (ho : own s) (hne : d ≠ s) (after : List (ROp K P)) (ha : ∀ x ∈ after, x.spares d) :
    ∃ m', (runs M (.copy d s :: .destroy s :: after) w).addr d = some m' ∧
      ∀ k ∈ w.keysAt m, k ∈ (runs M (.copy d s :: .destroy s :: after) w).keysAt m' ∧
        Dangling G (runs M (.copy d s :: .destroy s :: after) w) (m', k) :=
  inherited_dangling M G w own h d s m hs ho hne _ (Or.inl rfl) after ha

/-- **C91 is violated by assignment**: the same for an object assigned to. -/
theorem C91_assign_violated (M : Mfd K P V) (G : LieGrp P V) (w : RefWorld K P) (own : ℕ → Prop) (h : PReach M w own) (d s m : ℕ)
    (hs : w.addr s = some m) (ho : own s) (hne : d ≠ s) (hd : (w.base.objs d).isSome) (after : List (ROp K P))
    (ha : ∀ x ∈ after, x.spares d) :
    ∃ m', (runs M (.assign d s :: .destroy s :: after) w).addr d = some m' ∧
      ∀ k ∈ w.keysAt m, k ∈ (runs M (.assign d s :: .destroy s :: after) w).keysAt m' ∧
        Dangling G (runs M (.assign d s :: .destroy s :: after) w) (m', k) :=
  inherited_dangling M G w own h d s m hs ho hne _ (Or.inr ⟨rfl, hd⟩) after ha

/-- **C91**: as long as source and copy both live (and are not assigned to), the design variables of the copy can be updated. -/
theorem C91_copy_partial (M : Mfd K P V) (G : LieGrp P V) (w : RefWorld K P) (own : ℕ → Prop) (h : PReach M w own) (d s m : ℕ)
    (hs : w.addr s = some m) (ho : own s) (hne : d ≠ s) (op : ROp K P)
    (hop : op = .copy d s ∨ (op = .assign d s ∧ (w.base.objs d).isSome)) (after : List (ROp K P))
    (ha : ∀ x ∈ after, x.spares d ∧ x.spares s) :
    ∃ m', (runs M (op :: after) w).addr d = some m' ∧ ∀ k ∈ w.keysAt m, ∀ v, ((runs M (op :: after) w).update G (m', k) v).1 = .ok () := by
  obtain ⟨m', a1, a2, a3, a4⟩ := C91_inherited M w own h d s m hs op hop
  have hi := inv_run M h.inv op
  have hsp : op.spares s := by rcases hop with rfl | ⟨rfl, -⟩ <;> exact hne
  obtain ⟨b1, b2, b3⟩ := keep_run M h.inv hs op hsp
  obtain ⟨-, c1, c2, c3⟩ := keep_runs M after hi a1 fun x hx => (ha x hx).1
  obtain ⟨-, e1, e2, -⟩ := keep_runs M after hi b1 fun x hx => (ha x hx).2
  refine ⟨m', c1, fun k hk v => ?_⟩
  obtain ⟨d1, d2⟩ := c3 k (by rw [a3]; exact hk)
  have : (runs M after (op.run M w)).Alive ((runs M after (op.run M w)).owner m' k) :=
    ⟨s, addr_isSome e1, by rw [e2, b2, d2, a4, h.inv.own s m k ho hs hk]⟩
  change ((runs M after (op.run M w)).update G (m', k) v).1 = _
  rw [update_ok G c1 d1 v this]

/-- **C91**: all pointers to design variables of an object dangle for ever when it is assigned to, even if it is assigned to itself, and when it
is destroyed.  (So do evaluators and expressions of the object, which hold iterators into the same map.) -/
theorem C91_freed (M : Mfd K P V) (G : LieGrp P V) (w : RefWorld K P) (own : ℕ → Prop) (h : PReach M w own) (o m : ℕ) (hm : w.addr o = some m)
    (op : ROp K P) (hop : op = .destroy o ∨ ∃ s, op = .assign o s ∧ (w.addr s).isSome) (after : List (ROp K P)) (k : K) :
    Dangling G (runs M (op :: after) w) (m, k) := by
  have hlt := h.inv.allocated o m hm
  have hgone : ¬ (op.run M w).Live m := by
    rcases hop with rfl | ⟨s, rfl, hs⟩
    · rintro ⟨x, hx⟩
      change (w.destroy o).addr x = _ at hx
      rw [destroy_addr] at hx
      split at hx
      · cases hx
      · rename_i hne
        exact hne (h.inv.distinct x o m hx hm)
    · obtain ⟨a, hs⟩ := Option.isSome_iff_exists.1 hs
      obtain ⟨ob, o1, -⟩ := addr_some hm
      have f := fresh_assign o1 hs
      rintro ⟨x, hx⟩
      change (w.assign o s).addr x = _ at hx
      by_cases hne : x = o
      · subst hne
        rw [f.addr_self, Option.some.injEq] at hx
        omega
      · rw [f.addr_ne hne] at hx
        exact hne (h.inv.distinct x o m hx hm)
  have hfin : ¬ (runs M (op :: after) w).Live m := gone_runs M after (lt_of_lt_of_le hlt (run_live M op w).1) hgone
  intro v
  unfold update
  rw [if_neg]
  exact fun hc => hfin hc.1

/-- A program that makes a spline with five knots. -/
def demoOps : List (ROp ℚ ℚ) := [.create 0 2, .call 0 (.initWithKnotsAndControlVertices [0, 1, 2, 3, 5] [4, 5, 6])]

/-- Not vacuous: the spline of the program, its design variables, and a program that continues. -/
example : ∃ own, PReach halfLine (runs halfLine demoOps RefWorld.empty) own ∧ own 0 ∧ (runs halfLine demoOps RefWorld.empty).addr 0 = some 0 ∧
    (runs halfLine demoOps RefWorld.empty).keysAt 0 = [0, 1, 2, 3, 5] ∧
    (∀ op ∈ ([.copy 1 0, .call 0 (.append [7] none), .destroy 1, .write (0, 2) fun p => p + 1, .create 2 3] : List (ROp ℚ ℚ)), op.spares 0) ∧
    ∀ op ∈ ([.call 1 (.append [7] none), .assign 2 1, .create 0 2] : List (ROp ℚ ℚ)), op.spares 1 := by
  have h := PReach.step (M := halfLine) (.call 0 (.initWithKnotsAndControlVertices [0, 1, 2, 3, 5] [4, 5, 6])) (.step (.create 0 2) .empty)
  refine ⟨_, h, Or.inl rfl, by decide +kernel, by decide +kernel, ?_, ?_⟩ <;> simp [ROp.spares]

end RefWorld

end Verif
