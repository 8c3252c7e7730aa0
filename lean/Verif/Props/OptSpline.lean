import Verif.Model.OptSpline
import Verif.Props.ManifoldUpdate

/-!
# C43: the design variables of an optimisable manifold spline
-/

set_option linter.unusedSectionVars false

namespace Verif.OptWorld

variable {K : Type*} [Field K] [LinearOrder K] [IsStrictOrderedRing K] {P V : Type*}

open MSpline World

/-- What a program can do with optimisable splines; `change` is an optimiser writing a design variable. -/
inductive OOp (K P : Type*)
  | create (o order : ℕ)
  | copy (dst src : ℕ)
  | assign (dst src : ℕ)
  | call (o : ℕ) (c : Call K P)
  | change (o i : ℕ) (f : P → P)

/-- Run an operation. -/
def OOp.run (M : Mfd K P V) : OOp K P → OptWorld K P → Outcome Unit × OptWorld K P
  | .create o k, w => OptWorld.create o k w
  | .copy d s, w => OptWorld.copy d s w
  | .assign d s, w => OptWorld.assign d s w
  | .call o c, w => OptWorld.call M o c w
  | .change o i f, w => OptWorld.change o i f w

/-- Operations of a reasonable client, as in C22. -/
def OOp.Regular (w : OptWorld K P) : OOp K P → Prop
  | .create _ k => 1 ≤ k
  | .call o c => ∀ s, w.base.view o = some s → c.Regular s
  | _ => True

/-- Is the list of design variables of an object made properly?  Not by assignment and not by a successful `initWithKnots…`; by `init`
and `initConstantSpline` always. -/
def OOp.listed (M : Mfd K P V) (w : OptWorld K P) (fl : ℕ → Prop) : OOp K P → ℕ → Prop
  | .create o _, x => x = o ∨ fl x
  | .copy d s, x => (x = d ∧ (w.base.view s).isSome) ∨ (x ≠ d ∧ fl x) ∨ (x = d ∧ w.base.view s = none ∧ fl x)
  | .assign d _, x => x ≠ d ∧ fl x
  | .call o c, x => (x ≠ o ∧ fl x) ∨ (x = o ∧ match c with
      | .init | .initConstant _ _ => fl x ∨ ∀ s, w.base.view o = some s → (c.run M s).1 = .ok ()
      | .initWithKnots _ | .initWithKnotsAndControlVertices _ _ => fl x ∧ ∀ s, w.base.view o = some s → (c.run M s).1 ≠ .ok ()
      | _ => fl x)
  | .change _ _ _, x => fl x

/-- Program states of reasonable clients with the objects whose list is made properly. -/
inductive OReach (M : Mfd K P V) : OptWorld K P → (ℕ → Prop) → Prop
  | empty : OReach M OptWorld.empty (fun _ => False)
  | step {w fl} (op : OOp K P) : OReach M w fl → op.Regular w → OReach M (op.run M w).2 (op.listed M w fl)

/-! ### Loops -/

theorem walk_eq {ks : List K} (hn : ks.Nodup) : ∀ (n b : ℕ), b + n ≤ ks.length →
    walk ks[b + n]? (ks.drop b) = .ok ((ks.drop b).take n)
  | 0, b, h => by
    rcases h.eq_or_lt with h1 | h1
    · rw [Nat.add_zero] at h1
      subst h1
      rw [List.drop_length]
      simp [walk]
    · rw [Nat.add_zero] at h1
      rw [← List.cons_getElem_drop_succ (h := h1)]
      simp [walk]
  | (n + 1), b, h => by
    have h1 : b < ks.length := by omega
    rw [← List.cons_getElem_drop_succ (h := h1)]
    unfold walk
    rw [if_neg, show b + (n + 1) = b + 1 + n by omega, walk_eq hn n (b + 1) (by omega)]
    · rfl
    · rw [← List.getElem?_eq_getElem h1, at_inj hn h1.le h]
      omega

/-- The design variables a spline in the map at `m` should have. -/
def expected (m : ℕ) (s : MSpline K P) : List (ℕ × K) := (s.keys.take (s.keys.length - s.order)).map fun k => (m, k)

theorem freshList_eq {s : MSpline K P} (h : s.MWF) (he : s.state = .evaluable) (m : ℕ) : freshList m s = .ok (expected m s) := by
  have hk := h.order_pos
  have hn := h.enough he
  unfold freshList expected
  rw [h.iters_eq he]
  simp only []
  rw [itPos_at h.nodup (Nat.zero_le _)]
  have := walk_eq h.nodup (s.keys.length - s.order) 0 (by omega)
  rw [Nat.zero_add] at this
  rw [this, List.drop_zero]
  rfl

/-! ### Addresses and views -/

theorem addr_view {w : World K P} {o m : ℕ} (h : addr w o = some m) : ∃ s, w.view o = some s ∧ s.segs = w.heap m := by
  unfold addr at h
  unfold view
  rcases hob : w.objs o with _ | ob
  · rw [hob] at h; cases h
  · rw [hob] at h
    have h : ob.map = some m := h
    simp only [Option.bind_some, h, Option.map_some]
    exact ⟨_, rfl, rfl⟩

theorem view_addr {w : World K P} {o : ℕ} {s : MSpline K P} (h : w.view o = some s) : ∃ m, addr w o = some m := by
  unfold view at h
  unfold addr
  rcases hob : w.objs o with _ | ob
  · rw [hob] at h; cases h
  · rw [hob] at h
    rcases hm : ob.map with _ | m
    · simp only [Option.bind_some, hm, Option.map_none] at h; cases h
    · exact ⟨m, by simp [hm]⟩

theorem addr_call (f : MSpline K P → MSpline K P) (o x : ℕ) (w : World K P) : addr (World.call f o w) x = addr w x := by
  unfold addr World.call
  split
  · rfl
  · rename_i ob hob
    split
    · rename_i m s hm hs
      simp only [Function.update_apply]
      split
      · rename_i hx
        subst hx
        rw [hob]; simp [hm]
      · rfl
    · rfl

theorem addr_distinct {w : World K P} (h : Separate w) {o o' m : ℕ} (h1 : addr w o = some m) (h2 : addr w o' = some m) : o = o' := by
  unfold addr at h1 h2
  rcases a1 : w.objs o with _ | ob
  · rw [a1] at h1; cases h1
  · rcases a2 : w.objs o' with _ | ob'
    · rw [a2] at h2; cases h2
    · rw [a1] at h1
      rw [a2] at h2
      exact h.distinct o o' ob ob' m a1 a2 h1 h2

/-- Writing through a pointer changes vertices of one map only. -/
theorem view_writeThrough (f : P → P) (p : ℕ × K) (w : World K P) (x : ℕ) :
    (writeThrough f p w).view x = (w.view x).map fun s => if addr w x = some p.1 then
      ⟨s.order, s.segs.map fun g => if g.knot = p.2 then { g with vertex := f g.vertex } else g, s.state, s.iters⟩ else s := by
  unfold writeThrough view addr
  rcases hob : w.objs x with _ | ob
  · simp [hob]
  · rcases hm : ob.map with _ | m
    · simp [hob, hm]
    · simp only [hob, Option.bind_some, hm, Option.map_some, Option.some.injEq, Function.update_apply]
      split
      · rename_i h
        subst h
        rfl
      · rfl

theorem keys_written (f : P → P) (k : K) (segs : List (Seg K P)) :
    (segs.map fun g => if g.knot = k then { g with vertex := f g.vertex } else g).map Seg.knot = segs.map Seg.knot := by
  rw [List.map_map]
  refine List.map_congr_left fun g _ => ?_
  simp only [Function.comp]
  split <;> rfl

theorem mwf_written {s : MSpline K P} (h : s.MWF) (f : P → P) (k : K) :
    MWF ⟨s.order, s.segs.map fun g => if g.knot = k then { g with vertex := f g.vertex } else g, s.state, s.iters⟩ := by
  refine mwf_segs h _ (keys_written f k s.segs) fun j => ?_
  rw [List.getElem?_map, Option.map_map]
  congr 1
  funext g
  simp only [Function.comp]
  split <;> rfl

/-- Calls that neither append nor initialise leave the knots of an initialised spline alone. -/
theorem quiet (M : Mfd K P V) (c : Call K P) {s : MSpline K P} (h : s.MWF) (hr : c.Regular s)
    (hq : (∀ ts v, c ≠ .append ts v) ∨ (c.run M s).1 ≠ .ok ()) (hi : c.isInit → (c.run M s).1 ≠ .ok ())
    (he : (c.run M s).2.state = .evaluable) : s.state = .evaluable ∧ (c.run M s).2.keys = s.keys := by
  have hstuck : ∀ g : MSpline K P → Outcome Unit × MSpline K P, s.state = .evaluable →
      (andThen assertConstructing g s).2.keys = s.keys := by
    intro g hst; rw [assertConstructing_evaluable hst]
  cases c with
  | addKnot t =>
    have hr : s.state = .constructing := hr
    have he : s.state = .evaluable := he
    rw [hr] at he; cases he
  | addControlVertex t p =>
    have hr : s.state = .constructing := hr
    simp only [Call.run, addControlVertex_state, hr] at he
    cases he
  | addKnots ts =>
    rcases hst : s.state with _ | _
    · simp only [Call.run, addKnots] at he
      rw [assertConstructing_constructing hst, addKnotsLoop_state, hst] at he
      cases he
    · exact ⟨rfl, hstuck _ hst⟩
  | addKnotsAndControlVertices ts cs =>
    rcases hst : s.state with _ | _
    · simp only [Call.run, addKnotsAndControlVertices] at he
      rw [assertConstructing_constructing hst] at he
      split at he
      · rw [hst] at he; cases he
      · rw [addVertsLoop_state, hst] at he
        cases he
    · exact ⟨rfl, hstuck _ hst⟩
  | init =>
    have h1 := (isInit_state M (.init : Call K P) trivial s).2 (hi trivial)
    rw [h1] at he
    exact ⟨he, by simp only [Call.run]; rw [init_evaluable he]⟩
  | initWithKnots ts =>
    have h1 := (isInit_state M (.initWithKnots ts : Call K P) trivial s).2 (hi trivial)
    rw [h1] at he
    exact ⟨he, hstuck _ he⟩
  | initWithKnotsAndControlVertices ts cs =>
    have h1 := (isInit_state M (.initWithKnotsAndControlVertices ts cs : Call K P) trivial s).2 (hi trivial)
    rw [h1] at he
    exact ⟨he, hstuck _ he⟩
  | initConstant ts p =>
    have h1 := (isInit_state M (.initConstant ts p : Call K P) trivial s).2 (hi trivial)
    rw [h1] at he
    exact ⟨he, hstuck _ he⟩
  | append ts v =>
    rcases hst : s.state with _ | _
    · simp only [Call.run] at he
      unfold appendSegments at he
      rw [hst] at he
      have he : s.state = .evaluable := he
      rw [hst] at he; cases he
    · rcases hq with hq | hq
      · exact absurd rfl (hq ts v)
      · obtain ⟨s', r1, -⟩ := append_ok h hst M ts v (hr hst)
        simp only [Call.run] at hq
        rw [r1] at hq
        exact absurd rfl hq
  | manipulate f n t o =>
    simp only [Call.run]
    have hr : 0 ≤ o := hr
    obtain ⟨m, rfl⟩ := Int.eq_ofNat_of_zero_le hr
    rcases hc : s.state with _ | _
    · simp only [Call.run] at he
      unfold manipulateControlVertices numControlVertices at he
      rw [hc] at he
      have he : s.state = .evaluable := he
      rw [hc] at he; cases he
    · refine ⟨rfl, ?_⟩
      rcases Nat.lt_or_ge (s.keys.length - s.order) n with hn | hn
      · unfold manipulateControlVertices
        rw [numControlVertices_eq h hc, Outcome.bind_ok, if_pos hn]
      · rcases evaluable_total h hc t with ⟨i, hi⟩ | ht
        · rw [manipulate_nonneg h hc hi n hn]
          exact (manipulateLoop_spec f h.nodup n _ 0 s.segs rfl (by omega)).1
        · unfold manipulateControlVertices
          rw [numControlVertices_eq h hc, Outcome.bind_ok, if_neg (by omega), getSegmentIterator_throws h hc t ht]
          rfl

/-! ### The invariant -/

/-- Consistent splines, separate maps, and right lists for the objects in `fl`. -/
structure Inv (w : OptWorld K P) (fl : ℕ → Prop) : Prop where
  separate : Separate w.base
  old : ItersOld w.base
  mwf : ∀ o s, w.base.view o = some s → s.MWF
  list : ∀ o m s, fl o → addr w.base o = some m → w.base.view o = some s → s.state = .evaluable → w.dvs o = expected m s

theorem refresh_eq {w : OptWorld K P} {o m : ℕ} {s : MSpline K P} (ha : addr w.base o = some m) (hv : w.base.view o = some s)
    (h : s.MWF) (he : s.state = .evaluable) :
    refresh o w = (.ok (), ⟨w.base, Function.update w.dvs o (expected m s)⟩) := by
  unfold refresh
  rw [ha, hv]
  simp only []
  rw [freshList_eq h he]

theorem inv_copy (M : Mfd K P V) {w : OptWorld K P} {fl : ℕ → Prop} (h : Inv w fl) (d src : ℕ) :
    Inv (OptWorld.copy d src w).2 ((OOp.copy d src).listed M w fl) ∧ (OptWorld.copy d src w).1 = .ok () := by
  unfold OptWorld.copy
  rcases hs : w.base.view src with _ | s
  · refine ⟨⟨h.separate, h.old, h.mwf, fun o m s hf => h.list o m s ?_⟩, rfl⟩
    simp only [OOp.listed, hs, Option.isSome_none, Bool.false_eq_true, and_false, false_or, true_and] at hf
    tauto
  · simp only []
    have b1 : Separate (World.copy d src w.base) := separate_run M h.separate (.copy d src)
    have b2 : ItersOld (World.copy d src w.base) := itersOld_run M h.separate h.old (.copy d src)
    have b3 : ∀ o s, (World.copy d src w.base).view o = some s → s.MWF := mwf_run M h.separate h.old h.mwf (.copy d src) trivial
    have others : ∀ x, x ≠ d → (World.copy d src w.base).view x = w.base.view x ∧ addr (World.copy d src w.base) x = addr w.base x := by
      intro x hx
      refine ⟨view_copyInto h.separate none d src hx, ?_⟩
      unfold addr World.copy copyInto
      split
      · rfl
      · split
        · rfl
        · simp only [Function.update_apply, if_neg hx]
    obtain ⟨s', hv', -⟩ := view_copyInto_dst (dst := d) none hs
    have hv' : (World.copy d src w.base).view d = some s' := hv'
    obtain ⟨m', hm'⟩ := view_addr hv'
    rw [hv']
    simp only []
    have fin : ∀ l : List (ℕ × K), (s'.state = .evaluable → l = expected m' s') →
        Inv (⟨World.copy d src w.base, Function.update w.dvs d l⟩ : OptWorld K P) ((OOp.copy d src).listed M w fl) := by
      intro l hl
      refine ⟨b1, b2, b3, fun o m s0 hf ha hv he => ?_⟩
      simp only [Function.update_apply]
      by_cases ho : o = d
      · rw [if_pos ho]
        subst ho
        simp only [] at ha hv
        rw [hm', Option.some.injEq] at ha
        rw [hv', Option.some.injEq] at hv
        subst ha hv
        exact hl he
      · rw [if_neg ho]
        simp only [] at ha hv
        rw [(others o ho).2] at ha
        rw [(others o ho).1] at hv
        refine h.list o m s0 ?_ ha hv he
        simp only [OOp.listed] at hf
        tauto
    rcases hst : s'.state with _ | _
    · simp only []
      exact ⟨fin [] (fun h => by rw [hst] at h; cases h), trivial⟩
    · simp only []
      rw [refresh_eq (w := ⟨World.copy d src w.base, Function.update w.dvs d []⟩) hm' hv' (b3 d s' hv') hst]
      simp only [Function.update_idem]
      exact ⟨fin _ (fun _ => rfl), trivial⟩

theorem inv_assign (M : Mfd K P V) {w : OptWorld K P} {fl : ℕ → Prop} (h : Inv w fl) (d src : ℕ) :
    Inv (OptWorld.assign d src w).2 ((OOp.assign d src : OOp K P).listed M w fl) := by
  unfold OptWorld.assign
  split
  · have b1 : Separate (World.assign d src w.base) := separate_run M h.separate (.assign d src)
    have b2 : ItersOld (World.assign d src w.base) := itersOld_run M h.separate h.old (.assign d src)
    have b3 : ∀ o s, (World.assign d src w.base).view o = some s → s.MWF := mwf_run M h.separate h.old h.mwf (.assign d src) trivial
    refine ⟨b1, b2, b3, fun o m s hf ha hv he => ?_⟩
    obtain ⟨hod, hf⟩ : o ≠ d ∧ fl o := hf
    simp only [Function.update_apply, if_neg hod]
    refine h.list o m s hf ?_ ?_ he
    · rw [← ha]
      unfold addr World.assign
      split
      · rfl
      · unfold copyInto
        split
        · rfl
        · split
          · rfl
          · simp only [Function.update_apply, if_neg hod]
    · rw [← hv]
      exact (view_run M h.separate (.assign d src) (show ¬ (o = d) from hod)).symm
  · exact ⟨h.separate, h.old, h.mwf, fun o m s hf => h.list o m s hf.2⟩

theorem inv_call (M : Mfd K P V) {w : OptWorld K P} {fl : ℕ → Prop} (h : Inv w fl) (o : ℕ) (c : Call K P)
    (hr : ∀ s, w.base.view o = some s → c.Regular s) :
    Inv (OptWorld.call M o c w).2 ((OOp.call o c).listed M w fl) ∧
      ∀ s, w.base.view o = some s → (OptWorld.call M o c w).1 = (c.run M s).1 ∧
        (OptWorld.call M o c w).2.base.view o = some (c.run M s).2 := by
  unfold OptWorld.call
  rcases hv : w.base.view o with _ | s
  · have hnone : addr w.base o = none := by
      rcases ha : addr w.base o with _ | m
      · rfl
      · obtain ⟨s, hs, -⟩ := addr_view ha
        rw [hv] at hs; cases hs
    rw [hnone]
    refine ⟨⟨h.separate, h.old, h.mwf, fun x m s hf ha hvx he => ?_⟩, fun s hs => by cases hs⟩
    by_cases hx : x = o
    · subst hx
      rw [hv] at hvx; cases hvx
    · refine h.list x m s ?_ ha hvx he
      rcases hf with hf | hf
      · exact hf.2
      · exact absurd hf.1 hx
  · obtain ⟨m, ha⟩ := view_addr hv
    rw [ha]
    simp only []
    have hreg := hr s hv
    have hw := h.mwf o s hv
    have b1 : Separate (World.call (fun s => (c.run M s).2) o w.base) := separate_run M h.separate (.call o c)
    have b2 : ItersOld (World.call (fun s => (c.run M s).2) o w.base) := itersOld_run M h.separate h.old (.call o c)
    have b3 : ∀ o' s, (World.call (fun s => (c.run M s).2) o w.base).view o' = some s → s.MWF :=
      mwf_run M h.separate h.old h.mwf (.call o c) hr
    have hv' : (World.call (fun s => (c.run M s).2) o w.base).view o = some (c.run M s).2 := C24_call_effect M w.base o c s hv
    have ha' : ∀ x, addr (World.call (fun s => (c.run M s).2) o w.base) x = addr w.base x := fun x => addr_call _ o x w.base
    have others : ∀ x, x ≠ o → (World.call (fun s => (c.run M s).2) o w.base).view x = w.base.view x := fun x hx =>
      view_run M h.separate (.call o c) (show ¬ (x = o) from hx)
    have fin : ∀ l : List (ℕ × K), ((OOp.call o c).listed M w fl o → (c.run M s).2.state = .evaluable → l = expected m (c.run M s).2) →
        Inv (⟨World.call (fun s => (c.run M s).2) o w.base, Function.update w.dvs o l⟩ : OptWorld K P) ((OOp.call o c).listed M w fl) := by
      intro l hl
      refine ⟨b1, b2, b3, fun x m' s0 hf hax hvx he => ?_⟩
      simp only [Function.update_apply]
      simp only [] at hax hvx
      rw [ha'] at hax
      by_cases hx : x = o
      · subst hx
        rw [if_pos rfl]
        rw [ha, Option.some.injEq] at hax
        rw [hv', Option.some.injEq] at hvx
        subst hax hvx
        exact hl hf he
      · rw [if_neg hx]
        rw [others x hx] at hvx
        refine h.list x m' s0 ?_ hax hvx he
        rcases hf with hf | hf
        · exact hf.2
        · exact absurd hf.1 hx
    have same : ((OOp.call o c).listed M w fl o → (c.run M s).2.state = .evaluable → w.dvs o = expected m (c.run M s).2) →
        Inv (⟨World.call (fun s => (c.run M s).2) o w.base, w.dvs⟩ : OptWorld K P) ((OOp.call o c).listed M w fl) := by
      intro hl
      have := fin (w.dvs o) hl
      rwa [Function.update_eq_self] at this
    have quietCase : ((∀ ts v, c ≠ .append ts v) ∨ (c.run M s).1 ≠ .ok ()) → (c.isInit → (c.run M s).1 ≠ .ok ()) →
        ((OOp.call o c).listed M w fl o → fl o) →
        Inv (⟨World.call (fun s => (c.run M s).2) o w.base, w.dvs⟩ : OptWorld K P) ((OOp.call o c).listed M w fl) := by
      intro hq hi hfl
      refine same fun hf he => ?_
      obtain ⟨q1, q2⟩ := quiet M c hw hreg hq hi he
      rw [h.list o m s (hfl hf) ha hv q1]
      unfold expected
      rw [q2, (regular_mwf M c hw hreg).2.2]
    have doInit : c.isInit → (c.run M s).1 = .ok () →
        Inv (refresh o ⟨World.call (fun s => (c.run M s).2) o w.base, w.dvs⟩).2 ((OOp.call o c).listed M w fl) ∧
        (refresh o ⟨World.call (fun s => (c.run M s).2) o w.base, w.dvs⟩).1 = .ok () ∧
        (refresh o ⟨World.call (fun s => (c.run M s).2) o w.base, w.dvs⟩).2.base = World.call (fun s => (c.run M s).2) o w.base := by
      intro hi hok
      rw [refresh_eq (w := ⟨World.call (fun s => (c.run M s).2) o w.base, w.dvs⟩) ((ha' o).trans ha) hv' (b3 o _ hv')
        ((isInit_state M c hi s).1 hok).2]
      exact ⟨fin _ fun _ _ => rfl, rfl, rfl⟩
    rcases hout : (c.run M s).1 with u | _ | _
    · cases c with
      | init =>
        obtain ⟨r1, r2, r3⟩ := doInit trivial hout
        refine ⟨r1, fun s' hs' => ?_⟩
        rw [Option.some.injEq] at hs'
        subst hs'
        exact ⟨r2.trans hout.symm, by simp only []; rw [r3]; exact hv'⟩
      | initConstant ts p =>
        obtain ⟨r1, r2, r3⟩ := doInit trivial hout
        refine ⟨r1, fun s' hs' => ?_⟩
        rw [Option.some.injEq] at hs'
        subst hs'
        exact ⟨r2.trans hout.symm, by simp only []; rw [r3]; exact hv'⟩
      | append ts v =>
        have hst : s.state = .evaluable := by
          rcases hst : s.state with _ | _
          · simp only [Call.run] at hout
            unfold appendSegments at hout
            rw [hst] at hout
            cases hout
          · rfl
        obtain ⟨s', r1, r2, r3, r4, r5, -⟩ := append_ok hw hst M ts v (hreg hst)
        have hrun : ((Call.append ts v : Call K P).run M s).2 = s' := by simp only [Call.run]; rw [r1]
        rw [hrun]
        rw [hw.iters_eq hst, r2.iters_eq r4]
        simp only []
        have hk := hw.order_pos
        have hn := hw.enough hst
        have hkey : s.keys[s.keys.length - s.order]? = s'.keys[s.keys.length - s.order]? := by
          rw [r5, List.getElem?_append_left (by omega)]
        have hlen : s'.keys.length = s.keys.length + ts.length := by rw [r5]; simp
        have hwalk := walk_eq r2.nodup ts.length (s.keys.length - s.order) (by omega)
        rw [show s.keys.length - s.order + ts.length = s'.keys.length - s'.order by rw [r3]; omega] at hwalk
        rw [hkey, itPos_at r2.nodup (by omega), hwalk]
        simp only []
        refine ⟨fin _ fun hf he => ?_, fun x hx => ?_⟩
        · have hfo : fl o := by
            rcases hf with hf | hf
            · exact absurd rfl hf.1
            · exact hf.2
          rw [h.list o m s hfo ha hv hst, hrun]
          unfold expected
          rw [← List.map_append]
          congr 1
          rw [r3, hlen, show s.keys.length + ts.length - s.order = s.keys.length - s.order + ts.length by omega, List.take_add]
          congr 1
          rw [r5, List.take_append_of_le_length (by omega)]
        · rw [Option.some.injEq] at hx
          subst hx
          exact ⟨hout.symm, hv'⟩
      | initWithKnots ts =>
        refine ⟨same fun hf _ => ?_, fun s' hs' => by rw [Option.some.injEq] at hs'; subst hs'; exact ⟨hout.symm, hv'⟩⟩
        rcases hf with hf | hf
        · exact absurd rfl hf.1
        · exact absurd hout (hf.2.2 s hv)
      | initWithKnotsAndControlVertices ts cs =>
        refine ⟨same fun hf _ => ?_, fun s' hs' => by rw [Option.some.injEq] at hs'; subst hs'; exact ⟨hout.symm, hv'⟩⟩
        rcases hf with hf | hf
        · exact absurd rfl hf.1
        · exact absurd hout (hf.2.2 s hv)
      | addKnot _ | addControlVertex _ _ | addKnots _ | addKnotsAndControlVertices _ _ | manipulate _ _ _ _ =>
        refine ⟨quietCase (Or.inl fun _ _ hc => by cases hc) (fun hi => hi.elim) ?_, fun s' hs' => by
          rw [Option.some.injEq] at hs'; subst hs'; exact ⟨hout.symm, hv'⟩⟩
        intro hf
        rcases hf with hf | hf
        · exact absurd rfl hf.1
        · exact hf.2
    all_goals
      have hno : (c.run M s).1 ≠ .ok () := by rw [hout]; simp
      refine ⟨quietCase (Or.inr hno) (fun _ => hno) ?_, fun s' hs' => by
          rw [Option.some.injEq] at hs'; subst hs'; exact ⟨hout.symm, hv'⟩⟩
      intro hf
      rcases hf with hf | ⟨-, hf⟩
      · exact absurd rfl hf.1
      · cases c with
        | init | initConstant _ _ =>
          rcases hf with hf | hf
          · exact hf
          · exact absurd (hf s hv) hno
        | initWithKnots _ | initWithKnotsAndControlVertices _ _ => exact hf.1
        | addKnot _ | addControlVertex _ _ | addKnots _ | addKnotsAndControlVertices _ _ | manipulate _ _ _ _ | append _ _ => exact hf

theorem inv_change (M : Mfd K P V) {w : OptWorld K P} {fl : ℕ → Prop} (h : Inv w fl) (o i : ℕ) (f : P → P) :
    Inv (OptWorld.change o i f w).2 ((OOp.change o i f : OOp K P).listed M w fl) := by
  unfold OptWorld.change
  split
  · exact ⟨h.separate, h.old, h.mwf, h.list⟩
  · rename_i p _
    refine ⟨⟨h.separate.distinct, h.separate.allocated⟩, h.old, fun x s hv => ?_, fun x m s hf ha hv he => ?_⟩
    · simp only [] at hv
      rw [view_writeThrough] at hv
      obtain ⟨s0, h0, h1⟩ := Option.map_eq_some_iff.1 hv
      rw [← h1]
      split
      · exact mwf_written (h.mwf x s0 h0) f p.2
      · exact h.mwf x s0 h0
    · simp only [] at hv ha
      rw [view_writeThrough] at hv
      obtain ⟨s0, h0, h1⟩ := Option.map_eq_some_iff.1 hv
      have ha : addr w.base x = some m := ha
      have hst : s0.state = .evaluable := by
        rw [← h1] at he
        split at he <;> exact he
      simp only []
      rw [h.list x m s0 hf ha h0 hst, ← h1]
      unfold expected
      split
      · unfold keys
        simp only [keys_written]
      · rfl

theorem OReach.inv {M : Mfd K P V} {w : OptWorld K P} {fl : ℕ → Prop} (h : OReach M w fl) : Inv w fl := by
  induction h with
  | empty => exact ⟨separate_empty, fun _ _ _ h => by simp [OptWorld.empty, World.empty] at h,
      fun _ _ h => by simp [OptWorld.empty, World.empty, view] at h, fun _ _ _ h => h.elim⟩
  | @step w fl op _ hr ih =>
    cases op with
    | copy d s => exact (inv_copy M ih d s).1
    | assign d s => exact inv_assign M ih d s
    | call o c => exact (inv_call M ih o c hr).1
    | change o i f => exact inv_change M ih o i f
    | create o k =>
      refine ⟨separate_run M ih.separate (.create o k), itersOld_run M ih.separate ih.old (.create o k),
        mwf_run M ih.separate ih.old ih.mwf (.create o k) hr, fun x m s hf ha hv he => ?_⟩
      by_cases hx : x = o
      · subst hx
        exfalso
        have hv : (World.create x k w.base).view x = some s := hv
        unfold World.create view at hv
        simp only [Function.update_self, Option.bind_some, Option.map_some, Option.some.injEq] at hv
        rw [← hv] at he
        cases he
      · have e1 : (OOp.run M (.create o k) w).2.dvs x = w.dvs x := by
          change Function.update w.dvs o [] x = _
          rw [Function.update_apply, if_neg hx]
        rw [e1]
        refine ih.list x m s (hf.resolve_left hx) ?_ ?_ he
        · rw [← ha]
          change _ = addr (World.create o k w.base) x
          unfold addr World.create
          simp only [Function.update_apply, if_neg hx]
        · rw [← hv]
          exact (view_run M ih.separate (.create o k) (show ¬ (x = o) from hx)).symm

/-- C43: in every program state, the design variables of an initialised spline are exactly its control vertices, in order, as they lie
in its own segment map.  (What is missing: objects assigned to and objects initialised with `initWithKnots` or
`initWithKnotsAndControlVertices` are not in `fl`, see `OOp.listed`; for those the list is wrong, see the violations below.) -/
theorem C43_list_partial (M : Mfd K P V) (w : OptWorld K P) (fl : ℕ → Prop) (h : OReach M w fl) (o : ℕ) (hf : fl o) (s : MSpline K P)
    (hv : w.base.view o = some s) (he : s.state = .evaluable) :
    ∃ n m, s.numControlVertices = .ok n ∧ addr w.base o = some m ∧ (w.dvs o).length = n ∧
      w.dvs o = (s.segs.take n).map fun g => (m, g.knot) := by
  have hi := h.inv
  obtain ⟨m, hm⟩ := view_addr hv
  have hw := hi.mwf o s hv
  refine ⟨_, m, numControlVertices_eq hw he, hm, ?_, ?_⟩
  · rw [hi.list o m s hf hm hv he]
    unfold expected
    simp
  · rw [hi.list o m s hf hm hv he]
    unfold expected keys
    rw [List.map_take, List.map_take, List.map_map]
    rfl

/-- C43: the design variables of a time are those of the `order` control vertices that act there, a contiguous part of the list. -/
theorem C43_window_partial (M : Mfd K P V) (w : OptWorld K P) (fl : ℕ → Prop) (h : OReach M w fl) (o : ℕ) (hf : fl o) (s : MSpline K P)
    (hv : w.base.view o = some s) (he : s.state = .evaluable) (t : K) (i : ℕ) (hi : s.InSeg t i) :
    ∃ l, w.window o t = .ok l ∧ l.length = s.order ∧ l = (((w.dvs o).drop (i + 1 - s.order)).take s.order).map some := by
  have hinv := h.inv
  obtain ⟨m, hm⟩ := view_addr hv
  have hw := hinv.mwf o s hv
  have h1 := hi.lower
  have h2 := hi.upper
  have h3 := hw.order_pos
  obtain ⟨hr1, hr2⟩ := hi.range hw
  obtain ⟨i', hi', hit⟩ := getSegmentIterator_ok hw he t hr1 hr2
  obtain rfl := hi.unique hw hi'
  have hlen : (((s.keys.drop (i + 1 - s.order)).take s.order)).length = s.order := by
    rw [List.length_take, List.length_drop]; omega
  refine ⟨((s.keys.drop (i + 1 - s.order)).take s.order).map fun k => some (m, k), ?_, ?_, ?_⟩
  · unfold window
    rw [hm, hv]
    simp only []
    rw [hit, Outcome.bind_ok]
    unfold firstRelevantByLast absBegin
    rw [show -((s.order : ℤ) - 1) = -((s.order - 1 : ℕ) : ℤ) by omega, moveIter_bwd hw.nodup (Nat.zero_le _) (by omega),
      Outcome.bind_ok, itInc_at hw.nodup (by omega), Outcome.bind_ok, show max (i - (s.order - 1)) 0 = i + 1 - s.order by omega,
      itPos_at hw.nodup (by omega)]
    have := walk_eq hw.nodup s.order (i + 1 - s.order) (by omega)
    rw [show i + 1 - s.order + s.order = i + 1 by omega] at this
    rw [this, Outcome.bind_ok, if_neg (by omega), hlen, Nat.sub_self]
    simp
  · rw [List.length_map]; exact hlen
  · rw [hinv.list o m s hf hm hv he]
    unfold expected
    rw [← List.map_drop, ← List.map_take, List.map_map, List.drop_take, List.take_take]
    congr 2
    omega

/-- C43: changing design variable `i` changes control vertex `i` of this spline and nothing else, in this or another spline. -/
theorem C43_change_partial (M : Mfd K P V) (w : OptWorld K P) (fl : ℕ → Prop) (h : OReach M w fl) (o : ℕ) (hf : fl o) (s : MSpline K P)
    (hv : w.base.view o = some s) (he : s.state = .evaluable) (i n : ℕ) (hn : s.numControlVertices = .ok n) (f : P → P) :
    (i < n → ∃ s', (w.change o i f).1 = .ok () ∧ (w.change o i f).2.base.view o = some s' ∧ s'.order = s.order ∧ s'.state = s.state ∧
      s'.iters = s.iters ∧ (∀ j : ℕ, s'.segs[j]? = s.segs[j]?.map fun g => if j = i then ⟨g.knot, f g.vertex, g.basis⟩ else g) ∧
      ∀ x, x ≠ o → (w.change o i f).2.base.view x = w.base.view x) ∧
    (n ≤ i → w.change o i f = (.throws, w)) := by
  have hinv := h.inv
  obtain ⟨m, hm⟩ := view_addr hv
  have hw := hinv.mwf o s hv
  have hk := hw.order_pos
  rw [numControlVertices_eq hw he, Outcome.ok.injEq] at hn
  subst hn
  have hl := hinv.list o m s hf hm hv he
  constructor
  · intro hi
    have hlt : i < s.keys.length := by omega
    have hget : (w.dvs o)[i]? = some (m, s.kn i) := by
      rw [hl]
      unfold expected
      rw [List.getElem?_map, List.getElem?_take_of_lt hi, kn_getElem s hlt]
      rfl
    unfold change
    rw [hget]
    simp only []
    rw [view_writeThrough, hv, Option.map_some, if_pos hm]
    refine ⟨_, trivial, rfl, rfl, rfl, rfl, fun j => ?_, fun x hx => ?_⟩
    · simp only [List.getElem?_map]
      rcases hg : s.segs[j]? with _ | g
      · rfl
      · simp only [Option.map_some, Option.some.injEq]
        have hkj : s.keys[j]? = some g.knot := by unfold keys; rw [List.getElem?_map, hg]; rfl
        have hj : j < s.keys.length := by
          by_contra hc
          rw [List.getElem?_eq_none (by omega)] at hkj
          cases hkj
        have hiff : g.knot = s.kn i ↔ j = i := by
          rw [← at_inj hw.nodup hj.le hlt.le, hkj, kn_getElem s hlt, Option.some.injEq]
        by_cases h1 : j = i
        · rw [if_pos (hiff.2 h1), if_pos h1]
        · rw [if_neg (fun h => h1 (hiff.1 h)), if_neg h1]
    · rw [view_writeThrough]
      have hxa : ¬ addr w.base x = some m := fun hxa => hx (addr_distinct hinv.separate hxa hm)
      simp [hxa]
  · intro hi
    unfold change
    rw [hl, List.getElem?_eq_none]
    unfold expected
    simp only [List.length_map, List.length_take]
    omega

/-- C43 is violated by `initWithKnots` and `initWithKnotsAndControlVertices`: whenever they succeed on a new object, its list of
design variables stays empty although the spline has control vertices. -/
theorem C43_init_with_knots_violated (M : Mfd K P V) (w : OptWorld K P) (fl : ℕ → Prop) (h : OReach M w fl) (o order : ℕ) (ho : 1 ≤ order)
    (c : Call K P) (hc : (∃ ts, c = .initWithKnots ts) ∨ ∃ ts cs, c = .initWithKnotsAndControlVertices ts cs)
    (hok : (c.run M (MSpline.create order)).1 = .ok ()) :
    ∃ s' n, (OOp.call o c).run M ((OOp.create o order).run M w).2 = (.ok (), ((OOp.call o c).run M ((OOp.create o order).run M w).2).2) ∧
      ((OOp.call o c).run M ((OOp.create o order).run M w).2).2.base.view o = some s' ∧ s'.state = .evaluable ∧
      s'.numControlVertices = .ok n ∧ 1 ≤ n ∧ ((OOp.call o c).run M ((OOp.create o order).run M w).2).2.dvs o = [] := by
  have h1 : OReach M ((OOp.create o order).run M w).2 ((OOp.create o order).listed M w fl) := .step _ h ho
  have hv1 : ((OOp.create o order).run M w).2.base.view o = some (MSpline.create order) := by
    change (World.create o order w.base).view o = _
    unfold World.create view MSpline.create
    simp
  have hd1 : ((OOp.create o order).run M w).2.dvs o = [] := by
    change Function.update w.dvs o [] o = _
    rw [Function.update_self]
  have hreg : ∀ s, ((OOp.create o order).run M w).2.base.view o = some s → c.Regular s := by
    intro s _
    rcases hc with ⟨ts, rfl⟩ | ⟨ts, cs, rfl⟩ <;> trivial
  obtain ⟨hinv, hcall⟩ := inv_call M h1.inv o c hreg
  obtain ⟨e1, e2⟩ := hcall _ hv1
  have hi : c.isInit := by rcases hc with ⟨ts, rfl⟩ | ⟨ts, cs, rfl⟩ <;> trivial
  have hst := ((isInit_state M c hi (MSpline.create order)).1 hok).2
  have hw := hinv.mwf o _ e2
  obtain ⟨m, hm⟩ := view_addr hv1
  refine ⟨_, _, ?_, e2, hst, numControlVertices_eq hw hst, ?_, ?_⟩
  · change OptWorld.call M o c _ = (_, (OptWorld.call M o c _).2)
    rw [← hok, ← e1]
  · have := hw.enough hst
    have := hw.order_pos
    omega
  · change (OptWorld.call M o c _).2.dvs o = []
    unfold OptWorld.call
    rw [hm, hv1]
    simp only [hok]
    rcases hc with ⟨ts, rfl⟩ | ⟨ts, cs, rfl⟩ <;> exact hd1

/-- C43 is violated by assignment: afterwards the design variables of the target are those of the source, so changing one changes the
source and not the target. -/
theorem C43_assign_violated (M : Mfd K P V) (w : OptWorld K P) (fl : ℕ → Prop) (h : OReach M w fl) (dst src : ℕ) (hne : dst ≠ src)
    (hd : (w.base.objs dst).isSome) (hf : fl src) (s : MSpline K P) (hv : w.base.view src = some s) (he : s.state = .evaluable)
    (i n : ℕ) (hn : s.numControlVertices = .ok n) (hi : i < n) (f : P → P) :
    (((OOp.assign dst src).run M w).2.dvs dst = w.dvs src ∧
      ((OOp.change dst i f).run M ((OOp.assign dst src).run M w).2).1 = .ok () ∧
      ((OOp.change dst i f).run M ((OOp.assign dst src).run M w).2).2.base.view dst = ((OOp.assign dst src).run M w).2.base.view dst ∧
      ∃ s', ((OOp.change dst i f).run M ((OOp.assign dst src).run M w).2).2.base.view src = some s' ∧
        ∀ j : ℕ, s'.segs[j]? = s.segs[j]?.map fun g => if j = i then ⟨g.knot, f g.vertex, g.basis⟩ else g) := by
  have hreach : OReach M ((OOp.assign dst src).run M w).2 ((OOp.assign dst src : OOp K P).listed M w fl) := .step _ h trivial
  obtain ⟨ob, hob⟩ := Option.isSome_iff_exists.1 hd
  have e1 : ((OOp.assign dst src).run M w).2 = ⟨World.assign dst src w.base, Function.update w.dvs dst (w.dvs src)⟩ := by
    simp only [OOp.run]
    unfold OptWorld.assign
    rw [hob, hv]
  have hdv : ((OOp.assign dst src).run M w).2.dvs dst = w.dvs src := by rw [e1]; simp
  have hds : ((OOp.assign dst src).run M w).2.dvs src = w.dvs src := by
    rw [e1]; simp only [Function.update_apply, if_neg hne.symm]
  have hvs : ((OOp.assign dst src).run M w).2.base.view src = some s := by
    rw [e1, ← hv]
    exact view_run M h.inv.separate (.assign dst src) (show ¬ (src = dst) from hne.symm)
  have hfs : (OOp.assign dst src : OOp K P).listed M w fl src := ⟨hne.symm, hf⟩
  obtain ⟨s', r1, r2, -, -, -, r3, r4⟩ := (C43_change_partial M _ _ hreach src hfs s hvs he i n hn f).1 hi
  have hsame : OptWorld.change dst i f ((OOp.assign dst src).run M w).2 = OptWorld.change src i f ((OOp.assign dst src).run M w).2 := by
    unfold OptWorld.change
    rw [hdv, hds]
  refine ⟨hdv, ?_, ?_, s', ?_, r3⟩
  · change (OptWorld.change dst i f _).1 = _
    rw [hsame]; exact r1
  · change (OptWorld.change dst i f _).2.base.view dst = _
    rw [hsame]; exact r4 dst hne
  · change (OptWorld.change dst i f _).2.base.view src = _
    rw [hsame]; exact r2

/-! ### The theorems are not vacuous -/

/-- A program: object 0 is initialised with a constant, copied to object 1, and then extended. -/
def demoOps : List (OOp ℚ ℚ) :=
  [.create 0 2, .call 0 (.initConstant [0, 1, 2, 3] 1), .copy 1 0, .call 0 (.append [4, 5] none), .change 1 1 (· + 2)]

/-- The state after the program. -/
def demoWorld : OptWorld ℚ ℚ := demoOps.foldl (fun (w : OptWorld ℚ ℚ) op => (op.run halfLine w).2) OptWorld.empty

example : demoWorld.dvs 0 = [(0, 0), (0, 1), (0, 2), (0, 3)] ∧ demoWorld.dvs 1 = [(1, 0), (1, 1)] ∧
    (demoWorld.base.view 0).map (fun s => s.verts) = some [1, 1, 1, 1, 0, 0] ∧
    (demoWorld.base.view 1).map (fun s => s.verts) = some [1, 3, 1, 1] ∧
    demoWorld.window 0 (5 / 2) = .ok [some (0, 1), some (0, 2)] := by decide +kernel

/-- The program is that of a reasonable client, and the lists of both objects are among the right ones. -/
example : ∃ fl, OReach halfLine demoWorld fl ∧ fl 0 ∧ fl 1 := by
  have h1 : OReach halfLine _ _ := .step (.create 0 2) .empty (show 1 ≤ 2 by omega)
  have h2 : OReach halfLine _ _ := .step (.call 0 (.initConstant [0, 1, 2, 3] 1)) h1 (fun _ _ => trivial)
  have h3 : OReach halfLine _ _ := .step (.copy 1 0) h2 trivial
  have h4 : OReach halfLine _ _ := .step (.call 0 (.append [4, 5] none)) h3 (by
    intro s hs _
    have : some s.keys = some [0, 1, 2, 3] := by
      rw [← Option.map_some, ← hs]
      decide +kernel
    rw [Option.some.injEq] at this
    rw [this]
    decide +kernel)
  have h5 : OReach halfLine demoWorld _ := .step (.change 1 1 (· + 2)) h4 trivial
  refine ⟨_, h5, ?_, ?_⟩
  · refine Or.inr ⟨rfl, Or.inr (Or.inl ⟨by decide, Or.inr ⟨rfl, Or.inl (Or.inl rfl)⟩⟩)⟩
  · refine Or.inl ⟨by decide, Or.inl ⟨rfl, by decide +kernel⟩⟩

/-- The calls of the first violation do succeed. -/
example : ((Call.initWithKnots [0, 1, 2, 3]).run halfLine (MSpline.create 2 : MSpline ℚ ℚ)).1 = .ok () ∧
    ((Call.initWithKnotsAndControlVertices [0, 1, 2, 3] [5, 6]).run halfLine (MSpline.create 2 : MSpline ℚ ℚ)).1 = .ok () := by
  decide +kernel

end Verif.OptWorld
