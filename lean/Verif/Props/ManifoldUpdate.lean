import Verif.Props.ManifoldAppend
import Verif.Model.ManifoldObjects

/-!
# C24, C31: independent copies and bulk updates of control vertices
-/

set_option linter.unusedSectionVars false

namespace Verif.World

variable {K : Type*} [Field K] [LinearOrder K] [IsStrictOrderedRing K] {P V : Type*}

open MSpline

/-- What a program can do with spline objects. -/
inductive Op (K P : Type*)
  | create (o order : ℕ)
  | copy (dst src : ℕ)
  | assign (dst src : ℕ)
  | move (dst src : ℕ)
  | call (o : ℕ) (c : Call K P)

/-- Run an operation. -/
def Op.run (M : Mfd K P V) : Op K P → World K P → World K P
  | .create o k, w => World.create o k w
  | .copy d s, w => World.copy d s w
  | .assign d s, w => World.assign d s w
  | .move d s, w => World.move d s w
  | .call o c, w => World.call (fun s => (c.run M s).2) o w

/-- The objects an operation is meant to change. -/
def Op.changes : Op K P → ℕ → Prop
  | .create o _, x => x = o
  | .copy d _, x => x = d
  | .assign d _, x => x = d
  | .move d s, x => x = d ∨ x = s
  | .call o _, x => x = o

/-- No two objects share a map, and all maps in use were allocated. -/
structure Separate (w : World K P) : Prop where
  distinct : ∀ o o' ob ob' m, w.objs o = some ob → w.objs o' = some ob' → ob.map = some m → ob'.map = some m → o = o'
  allocated : ∀ o ob m, w.objs o = some ob → ob.map = some m → m < w.next

theorem separate_empty : Separate (empty : World K P) :=
  ⟨fun _ _ _ _ _ h => by simp [empty] at h, fun _ _ _ h => by simp [empty] at h⟩

theorem separate_fresh {w : World K P} (h : Separate w) (o : ℕ) (ob : SObj K) (hob : ob.map = some w.next) (segs : List (Seg K P)) :
    Separate (⟨Function.update w.objs o (some ob), Function.update w.heap w.next segs, w.next + 1⟩ : World K P) := by
  constructor
  · intro a b oa ob' m ha hb hma hmb
    simp only [Function.update_apply] at ha hb
    split at ha <;> split at hb
    · rename_i h1 h2; rw [h1, h2]
    · rw [Option.some.injEq] at ha
      rw [← ha, hob, Option.some.injEq] at hma
      have := h.allocated b ob' m hb hmb
      omega
    · rw [Option.some.injEq] at hb
      rw [← hb, hob, Option.some.injEq] at hmb
      have := h.allocated a oa m ha hma
      omega
    · exact h.distinct a b oa ob' m ha hb hma hmb
  · intro a oa m ha hma
    simp only [Function.update_apply] at ha
    change m < w.next + 1
    split at ha
    · rw [Option.some.injEq] at ha
      rw [← ha, hob, Option.some.injEq] at hma
      omega
    · have := h.allocated a oa m ha hma
      omega

theorem separate_copyInto {w : World K P} (h : Separate w) (keep : Option (ℕ × Iters K)) (d s : ℕ) : Separate (copyInto keep d s w) := by
  unfold copyInto
  split
  · exact h
  · split
    · exact h
    · exact separate_fresh h d _ rfl _

theorem separate_call {w : World K P} (h : Separate w) (f : MSpline K P → MSpline K P) (o : ℕ) : Separate (call f o w) := by
  unfold call
  split
  · exact h
  · rename_i ob hob
    split
    · rename_i m s hm hs
      have key : ∀ a oa, Function.update w.objs o (some ⟨(f s).order, (f s).state, some m, (f s).iters.map fun i => (m, i)⟩) a = some oa →
          ∃ oa', w.objs a = some oa' ∧ oa'.map = oa.map := by
        intro a oa ha
        rw [Function.update_apply] at ha
        split at ha
        · rename_i h1
          rw [Option.some.injEq] at ha
          exact ⟨ob, by rw [h1, hob], by rw [hm, ← ha]⟩
        · exact ⟨oa, ha, rfl⟩
      constructor
      · intro a b oa ob' m ha hb hma hmb
        obtain ⟨x, hx, hx'⟩ := key a oa ha
        obtain ⟨y, hy, hy'⟩ := key b ob' hb
        exact h.distinct a b x y m hx hy (hx'.trans hma) (hy'.trans hmb)
      · intro a oa m ha hma
        obtain ⟨x, hx, hx'⟩ := key a oa ha
        exact h.allocated a x m hx (hx'.trans hma)
    · exact h

theorem separate_move {w : World K P} (h : Separate w) (d s : ℕ) : Separate (move d s w) := by
  unfold move
  split
  · exact h
  · rename_i ob hob
    have key : ∀ a oa m, (Function.update (Function.update w.objs s (some { ob with map := none })) d (some ob)) a = some oa →
        oa.map = some m → (a = d ∧ oa = ob) ∨ (a ≠ d ∧ a ≠ s ∧ w.objs a = some oa) := by
      intro a oa m ha hma
      rw [Function.update_apply] at ha
      split at ha
      · rename_i h1
        rw [Option.some.injEq] at ha
        exact Or.inl ⟨h1, ha.symm⟩
      · rename_i h1
        rw [Function.update_apply] at ha
        split at ha
        · rw [Option.some.injEq] at ha
          rw [← ha] at hma
          cases hma
        · rename_i h2
          exact Or.inr ⟨h1, h2, ha⟩
    constructor
    · intro a b oa ob' m ha hb hma hmb
      rcases key a oa m ha hma with ⟨h1, h2⟩ | ⟨h1, h2, h3⟩ <;> rcases key b ob' m hb hmb with ⟨g1, g2⟩ | ⟨g1, g2, g3⟩
      · rw [h1, g1]
      · exact absurd (h.distinct s b ob ob' m hob g3 (by rw [← h2]; exact hma) hmb).symm g2
      · exact absurd (h.distinct a s oa ob m h3 hob hma (by rw [← g2]; exact hmb)) h2
      · exact h.distinct a b oa ob' m h3 g3 hma hmb
    · intro a oa m ha hma
      rcases key a oa m ha hma with ⟨h1, h2⟩ | ⟨h1, h2, h3⟩
      · exact h.allocated s ob m hob (by rw [← h2]; exact hma)
      · exact h.allocated a oa m h3 hma

theorem separate_run (M : Mfd K P V) {w : World K P} (h : Separate w) (op : Op K P) : Separate (op.run M w) := by
  cases op with
  | create o k => exact separate_fresh h o _ rfl _
  | copy d s => exact separate_copyInto h _ d s
  | assign d s =>
    simp only [Op.run]
    unfold assign
    split
    · exact h
    · exact separate_copyInto h _ d s
  | move d s => exact separate_move h d s
  | call o c => exact separate_call h _ o

/-- C24: in every program state no two objects share a segment map. -/
theorem C24_separate (M : Mfd K P V) (ops : List (Op K P)) : Separate (ops.foldl (fun w op => op.run M w) empty) := by
  have : ∀ (ops : List (Op K P)) (w : World K P), Separate w → Separate (ops.foldl (fun w op => op.run M w) w) := by
    intro ops
    induction ops with
    | nil => intro w h; exact h
    | cons op ops ih => intro w h; exact ih _ (separate_run M h op)
  exact this ops empty separate_empty

theorem view_eq_of {w w' : World K P} {o : ℕ} (ho : w'.objs o = w.objs o)
    (hh : ∀ ob m, w.objs o = some ob → ob.map = some m → w'.heap m = w.heap m) : w'.view o = w.view o := by
  unfold view
  rw [ho]
  rcases h : w.objs o with _ | ob
  · rfl
  · simp only [Option.bind_some]
    rcases hm : ob.map with _ | m
    · rfl
    · simp only [Option.map_some]
      rw [hh ob m h hm]

theorem view_fresh {w : World K P} (h : Separate w) (d : ℕ) (ob : SObj K) (segs : List (Seg K P)) {x : ℕ} (hx : x ≠ d) :
    (⟨Function.update w.objs d (some ob), Function.update w.heap w.next segs, w.next + 1⟩ : World K P).view x = w.view x := by
  refine view_eq_of (by simp only [Function.update_apply, if_neg hx]) fun ob' m h1 h2 => ?_
  have := h.allocated x ob' m h1 h2
  simp only [Function.update_apply]
  rw [if_neg (by omega)]

theorem view_copyInto {w : World K P} (h : Separate w) (keep : Option (ℕ × Iters K)) (d s : ℕ) {x : ℕ} (hx : x ≠ d) :
    (copyInto keep d s w).view x = w.view x := by
  unfold copyInto
  split
  · rfl
  · split
    · rfl
    · exact view_fresh h d _ _ hx

theorem view_run (M : Mfd K P V) {w : World K P} (h : Separate w) (op : Op K P) {x : ℕ} (hx : ¬ op.changes x) :
    (op.run M w).view x = w.view x := by
  cases op with
  | create o k => exact view_fresh h o _ _ hx
  | copy d s => exact view_copyInto h _ d s hx
  | assign d s =>
    simp only [Op.run]
    unfold assign
    split
    · rfl
    · exact view_copyInto h _ d s hx
  | move d s =>
    have hx : ¬ (x = d ∨ x = s) := hx
    simp only [Op.run]
    unfold move
    split
    · rfl
    · refine view_eq_of ?_ fun _ _ _ _ => rfl
      simp only [setObj, Function.update_apply]
      rw [if_neg (by tauto), if_neg (by tauto)]
  | call o c =>
    have hx : ¬ (x = o) := hx
    simp only [Op.run]
    unfold call
    split
    · rfl
    · rename_i ob hob
      split
      · rename_i m s hm hs
        refine view_eq_of (by simp only [Function.update_apply, if_neg hx]) fun ob' m' h1 h2 => ?_
        simp only [Function.update_apply]
        rw [if_neg]
        intro he
        rw [he] at h2
        exact hx (h.distinct x o ob' ob m h1 hob h2 hm)
      · rfl

/-- C24: in every program, operations on other objects never affect an object: its knots, control vertices, basis matrices, state
and valid interval stay what they were, so every later call on it has the same result. -/
theorem C24_independent (M : Mfd K P V) (before after : List (Op K P)) (x : ℕ) (hx : ∀ op ∈ after, ¬ op.changes x) :
    (after.foldl (fun w op => op.run M w) (before.foldl (fun w op => op.run M w) empty)).view x =
      (before.foldl (fun w op => op.run M w) empty).view x := by
  have hs := C24_separate M before
  generalize before.foldl (fun w op => op.run M w) empty = w at hs
  induction after generalizing w with
  | nil => rfl
  | cons op after ih =>
    rw [List.foldl_cons, ih (fun o ho => hx o (by simp [ho])) _ (separate_run M hs op)]
    exact view_run M hs op (hx op (by simp))

/-- The same for one call: it has the effect of the call on the spline the object stands for. -/
theorem C24_call_effect (M : Mfd K P V) (w : World K P) (o : ℕ) (c : Call K P) (s : MSpline K P) (hv : w.view o = some s) :
    ((Op.call o c).run M w).view o = some (c.run M s).2 := by
  simp only [Op.run]
  unfold call
  rcases hob : w.objs o with _ | ob
  · unfold view at hv; rw [hob] at hv; cases hv
  · rcases hm : ob.map with _ | m
    · unfold view at hv; rw [hob, Option.bind_some, hm] at hv; cases hv
    · simp only [hv, hm]
      unfold view
      simp only [Function.update_self, Option.bind_some, Option.map_some, Option.some.injEq]
      rcases hi : ((c.run M s).2).iters with _ | its
      · simp only [Option.map_none, Option.filter_none]
        rw [← hi]
      · simp only [Option.map_some, Option.filter_some, decide_true, if_true]
        rw [← hi]

/-! ### Copies are equal -/

theorem view_copyInto_dst {w : World K P} {dst src : ℕ} (keep : Option (ℕ × Iters K)) {s : MSpline K P} (hv : w.view src = some s) :
    ∃ s', (copyInto keep dst src w).view dst = some s' ∧ s'.order = s.order ∧ s'.segs = s.segs ∧ s'.state = s.state ∧
      (s.state = .evaluable → s.MWF → s' = s) := by
  unfold copyInto
  rcases hob : w.objs src with _ | ob
  · unfold view at hv; rw [hob] at hv; cases hv
  · rcases hm : ob.map with _ | m
    · unfold view at hv; rw [hob, Option.bind_some, hm] at hv; cases hv
    · simp only [hm]
      unfold view at hv
      rw [hob, Option.bind_some, hm, Option.map_some, Option.some.injEq] at hv
      refine ⟨_, by unfold view; simp only [Function.update_self, Option.bind_some, Option.map_some]; rfl, ?_, ?_, ?_, ?_⟩
      · rw [← hv]
      · rw [← hv]
      · rw [← hv]
      · intro he hmwf
        have e1 : ob.state = .evaluable := by rw [← hv] at he; exact he
        have hki := hmwf.iters_eq he
        have hsort := hmwf.sorted
        have henough := hmwf.enough he
        have hpos := hmwf.order_pos
        have hit := initIterators_ok (s := (⟨ob.order, w.heap m, ob.state, none⟩ : MSpline K P))
          (by rw [← hv] at hsort; exact hsort) (by rw [← hv] at hpos; exact hpos) (by rw [← hv] at henough; exact henough)
        rw [e1] at hit ⊢
        rw [hit]
        simp only [Option.filter_some, decide_true, if_true, Option.map_some]
        rcases s with ⟨so, ss, sst, si⟩
        simp only [MSpline.mk.injEq] at hv
        obtain ⟨h1, h2, h3, -⟩ := hv
        simp only [] at hki he
        rw [MSpline.mk.injEq]
        refine ⟨h1, h2, by rw [he], ?_⟩
        rw [hki]
        simp only [keys, h1, h2]

/-- An operation of a reasonable client. -/
def Op.Regular (w : World K P) : Op K P → Prop
  | .create _ k => 1 ≤ k
  | .call o c => ∀ s, w.view o = some s → c.Regular s
  | _ => True

/-- Program states of reasonable clients. -/
inductive RReach (M : Mfd K P V) : World K P → Prop
  | empty : RReach M World.empty
  | step {w} (op : Op K P) : RReach M w → op.Regular w → RReach M (op.run M w)

/-- Iterators point into allocated maps. -/
def ItersOld (w : World K P) : Prop := ∀ o ob x, w.objs o = some ob → ob.iters = some x → x.1 < w.next

theorem itersOld_fresh {w : World K P} (h : ItersOld w) (o : ℕ) (ob : SObj K) (hob : ∀ x, ob.iters = some x → x.1 < w.next + 1)
    (segs : List (Seg K P)) :
    ItersOld (⟨Function.update w.objs o (some ob), Function.update w.heap w.next segs, w.next + 1⟩ : World K P) := by
  intro a oa x ha hx
  simp only [Function.update_apply] at ha
  split at ha
  · rw [Option.some.injEq] at ha
    rw [← ha] at hx
    exact hob x hx
  · have := h a oa x ha hx
    change x.1 < w.next + 1
    omega

theorem itersOld_copyInto {w : World K P} (h : ItersOld w) (keep : Option (ℕ × Iters K)) (hk : ∀ x, keep = some x → x.1 < w.next)
    (d s : ℕ) : ItersOld (copyInto keep d s w) := by
  unfold copyInto
  split
  · exact h
  · split
    · exact h
    · refine itersOld_fresh h d _ ?_ _
      intro x hx
      simp only [] at hx
      split at hx
      · rw [Option.some.injEq] at hx
        rw [← hx]; simp
      · have := hk x hx; omega

theorem itersOld_run (M : Mfd K P V) {w : World K P} (hs : Separate w) (h : ItersOld w) (op : Op K P) : ItersOld (op.run M w) := by
  cases op with
  | create o k => exact itersOld_fresh h o _ (fun x hx => by cases hx) _
  | copy d s => exact itersOld_copyInto h _ (fun x hx => by cases hx) d s
  | assign d s =>
    simp only [Op.run]
    unfold assign
    split
    · exact h
    · rename_i ob hob
      exact itersOld_copyInto h _ (fun x hx => h d ob x hob hx) d s
  | move d s =>
    simp only [Op.run]
    unfold move
    split
    · exact h
    · rename_i ob hob
      intro a oa x ha hx
      simp only [setObj, Function.update_apply] at ha
      split at ha
      · rw [Option.some.injEq] at ha
        rw [← ha] at hx
        exact h s ob x hob hx
      · split at ha
        · rw [Option.some.injEq] at ha
          rw [← ha] at hx
          exact h s ob x hob hx
        · exact h a oa x ha hx
  | call o c =>
    simp only [Op.run]
    unfold call
    split
    · exact h
    · rename_i ob hob
      split
      · rename_i m s hm hv
        intro a oa x ha hx
        simp only [Function.update_apply] at ha
        split at ha
        · rw [Option.some.injEq] at ha
          rw [← ha] at hx
          obtain ⟨its, -, hits⟩ := Option.map_eq_some_iff.1 hx
          rw [← hits]
          exact hs.allocated o ob m hob hm
        · exact h a oa x ha hx
      · exact h

theorem mwf_run (M : Mfd K P V) {w : World K P} (i1 : Separate w) (i2 : ItersOld w) (i3 : ∀ o s, w.view o = some s → s.MWF)
    (op : Op K P) (hr : op.Regular w) (o : ℕ) (s : MSpline K P) (hv : (op.run M w).view o = some s) : s.MWF := by
  by_cases hc : op.changes o
  · have hcopy : ∀ keep dst src, (∀ x, keep = some x → x.1 < w.next) → (copyInto keep dst src w).view dst = some s →
        (copyInto keep dst src w = w → (w.view dst = some s)) → s.MWF := by
      intro keep dst src hk hv hid
      rcases hs : w.view src with _ | s0
      · apply i3 dst
        apply hid
        unfold copyInto
        unfold view at hs
        split
        · rfl
        · rename_i ob hob
          rw [hob, Option.bind_some] at hs
          split
          · rfl
          · rename_i m hm; rw [hm] at hs; cases hs
      · obtain ⟨s', r1, r2, r3, r4, r5⟩ := view_copyInto_dst (dst := dst) keep hs
        rw [hv, Option.some.injEq] at r1
        subst r1
        rcases hst : s0.state with _ | _
        · have h0 := i3 src s0 hs
          rw [hst] at r4
          refine ⟨by rw [r2]; exact h0.order_pos, by unfold keys; rw [r3]; exact h0.sorted, fun h => ?_, fun h => ?_, fun h => ?_⟩ <;>
            (rw [r4] at h; cases h)
        · rw [r5 hst (i3 src s0 hs)]; exact i3 src s0 hs
    cases op with
    | create o' k =>
      obtain rfl : o = o' := hc
      simp only [Op.run] at hv
      unfold World.create view at hv
      simp only [Function.update_self, Option.bind_some, Option.map_some, Option.some.injEq] at hv
      rw [← hv]
      exact ⟨hr, List.Pairwise.nil, fun h => (by cases h), fun h => (by cases h), fun h => (by cases h)⟩
    | copy d src =>
      obtain rfl : o = d := hc
      exact hcopy none o src (fun x hx => by cases hx) hv (fun he => by
        change (copyInto none o src w).view o = some s at hv
        rw [he] at hv; exact hv)
    | assign d src =>
      obtain rfl : o = d := hc
      simp only [Op.run] at hv
      unfold assign at hv
      split at hv
      · exact i3 o s hv
      · rename_i ob hob
        exact hcopy ob.iters o src (fun x hx => i2 o ob x hob hx) hv (fun he => by rw [he] at hv; exact hv)
    | move d src =>
      have hc : o = d ∨ o = src := hc
      simp only [Op.run] at hv
      unfold move at hv
      split at hv
      · exact i3 o s hv
      · rename_i ob hob
        by_cases h1 : o = d
        · refine i3 src s ?_
          rw [← hv, h1]
          unfold view setObj
          simp only [Function.update_self, hob]
        · have h2 : o = src := by tauto
          unfold view setObj at hv
          simp only [Function.update_apply, if_neg h1, if_pos h2, Option.bind_some, Option.map_none] at hv
          cases hv
    | call o' c =>
      obtain rfl : o = o' := hc
      rcases hs : w.view o with _ | s0
      · have : (Op.call o c).run M w = w := by
          simp only [Op.run]
          unfold call
          split
          · rfl
          · split
            · rename_i h; rw [hs] at h; cases h
            · rfl
        rw [this, hs] at hv; cases hv
      · rw [C24_call_effect M w o c s0 hs, Option.some.injEq] at hv
        rw [← hv]
        exact (regular_mwf M c (i3 o s0 hs) (hr s0 hs)).1
  · rw [view_run M i1 op hc] at hv
    exact i3 o s hv

theorem RReach.inv {M : Mfd K P V} {w : World K P} (h : RReach M w) :
    Separate w ∧ ItersOld w ∧ ∀ o s, w.view o = some s → s.MWF := by
  induction h with
  | empty => exact ⟨separate_empty, fun _ _ _ h => by simp [World.empty] at h, fun _ _ h => by simp [World.empty, view] at h⟩
  | @step w op _ hr ih =>
    obtain ⟨i1, i2, i3⟩ := ih
    exact ⟨separate_run M i1 op, itersOld_run M i1 i2 op, fun o s hv => mwf_run M i1 i2 i3 op hr o s hv⟩

/-- C24: right after copying (by constructor or assignment) the copy equals the original: same order, knots, control vertices, basis
matrices and state, and for an initialised spline also the same valid interval; so it evaluates like the original everywhere. -/
theorem C24_copy_equal (M : Mfd K P V) (w : World K P) (h : RReach M w) (dst src : ℕ) (s : MSpline K P) (hv : w.view src = some s) :
    (∃ s', ((Op.copy dst src).run M w).view dst = some s' ∧ s'.order = s.order ∧ s'.segs = s.segs ∧ s'.state = s.state ∧
      (s.state = .evaluable → s' = s) ∧ ∀ t, s'.evalGeneric M t = s.evalGeneric M t) ∧
    ((w.objs dst).isSome → ∃ s', ((Op.assign dst src).run M w).view dst = some s' ∧ s'.order = s.order ∧ s'.segs = s.segs ∧
      s'.state = s.state ∧ (s.state = .evaluable → s' = s) ∧ ∀ t, s'.evalGeneric M t = s.evalGeneric M t) := by
  obtain ⟨i1, i2, i3⟩ := h.inv
  have fin : ∀ s' : MSpline K P, s'.state = s.state → (s.state = .evaluable → s.MWF → s' = s) →
      (s.state = .evaluable → s' = s) ∧ ∀ t, s'.evalGeneric M t = s.evalGeneric M t := by
    intro s' h1 h2
    refine ⟨fun he => h2 he (i3 src s hv), fun t => ?_⟩
    rcases hst : s.state with _ | _
    · unfold evalGeneric evaluatorAt
      rw [h1, hst]
      rfl
    · rw [h2 hst (i3 src s hv)]
  constructor
  · obtain ⟨s', r1, r2, r3, r4, r5⟩ := view_copyInto_dst (dst := dst) none hv
    exact ⟨s', r1, r2, r3, r4, fin s' r4 r5⟩
  · intro hd
    obtain ⟨ob, hob⟩ := Option.isSome_iff_exists.1 hd
    obtain ⟨s', r1, r2, r3, r4, r5⟩ := view_copyInto_dst (dst := dst) ob.iters hv
    refine ⟨s', ?_, r2, r3, r4, fin s' r4 r5⟩
    simp only [Op.run]
    unfold assign
    rw [hob]
    exact r1

/-- Not vacuous: a spline, its copy, and an append to the original. -/
example : ∃ w, RReach halfLine w ∧ (∃ s, w.view 1 = some s ∧ s.getMaxTime = .ok 3) ∧ ∃ s, w.view 0 = some s ∧ s.getMaxTime = .ok 4 := by
  refine ⟨_, .step (.call 0 (.append [5] none)) (.step (.copy 1 0) (.step (.call 0 (.initWithKnots [0, 1, 2, 3, 4]))
    (.step (.create 0 2) .empty (show 1 ≤ 2 by omega)) (fun _ _ => trivial)) trivial) ?_, ⟨_, rfl, by decide +kernel⟩, _, rfl, by decide +kernel⟩
  intro s hs _
  obtain rfl := (Option.some.inj hs)
  decide +kernel

end Verif.World

namespace Verif.MSpline

variable {K : Type*} [Field K] [LinearOrder K] [IsStrictOrderedRing K] {P V : Type*}

/-- C31: asking for more vertices than the spline has raises an exception and changes nothing; so does a time outside the valid
interval. -/
theorem C31_rejected (M : Mfd K P V) (order : ℕ) (ho : 1 ≤ order) (s : MSpline K P) (h : RegularReach M order s)
    (he : s.state = .evaluable) (nv : ℕ) (hnv : s.numControlVertices = .ok nv) (f : ℕ → P → P) (n : ℕ) (t : K) (offset : ℤ)
    (hbad : nv < n ∨ s.evaluatorAt t = .throws) : s.manipulateControlVertices f n t offset = (.throws, s) := by
  obtain ⟨hw, rfl⟩ := h.mwf ho
  unfold manipulateControlVertices
  rw [hnv, Outcome.bind_ok]
  rcases Nat.lt_or_ge nv n with hn | hn
  · rw [if_pos hn]
  · rw [if_neg (by omega)]
    have hbad : s.evaluatorAt t = .throws := hbad.resolve_left (by omega)
    rcases evaluable_total hw he t with ⟨i, hi⟩ | ht
    · rw [evaluatorAt_eq hw he hi] at hbad
      cases hbad
    · rw [getSegmentIterator_throws hw he t ht, Outcome.bind_throws]

theorem manipulate_result {s : MSpline K P} (hw : s.MWF) (f : ℕ → P → P) (n p : ℕ) (hp : p ≤ s.keys.length) :
    let s' : MSpline K P := ⟨s.order, manipulateLoop f (s.keys.drop p) 0 n s.segs, s.state, s.iters⟩
    s'.keys = s.keys ∧ s'.segs.map Seg.basis = s.segs.map Seg.basis ∧
    ∀ j, s'.verts[j]? = s.verts[j]?.map fun v => if p ≤ j ∧ j < p + n then f (j - p) v else v := by
  obtain ⟨r1, r2⟩ := manipulateLoop_spec f hw.nodup n p 0 s.segs rfl hp
  refine ⟨r1, ?_, fun j => ?_⟩
  · apply List.ext_getElem?
    intro j
    rw [List.getElem?_map, List.getElem?_map, r2, Option.map_map]
    congr 1
    funext g
    simp only [Function.comp]
    split <;> rfl
  · unfold verts
    rw [List.getElem?_map, List.getElem?_map, r2, Option.map_map, Option.map_map]
    congr 1
    funext g
    simp only [Function.comp]
    split <;> simp

/-- C31 (partial: for offsets for which the program does what is claimed).  Let `a` be the position of the first control vertex that
is relevant at time `t`.  If the `n` vertices starting `offset` after `a` exist, then exactly they are changed, the `j`-th of them
with index `j`; knots, basis matrices and everything else stay.  For negative offsets this holds only if the requested start is not
before the `order`-th vertex, or if `a` itself is before it; see `C31_negative_clipped` and `C31_negative_undefined`. -/
theorem C31_exact_partial (M : Mfd K P V) (order : ℕ) (ho : 1 ≤ order) (s : MSpline K P) (h : RegularReach M order s)
    (he : s.state = .evaluable) (nv : ℕ) (hnv : s.numControlVertices = .ok nv) (f : ℕ → P → P) (n : ℕ) (t : K) (offset : ℤ)
    (e : Evaluator K) (hev : s.evaluatorAt t = .ok e) (a : ℕ) (ha : a < s.keys.length) (hae : e.firstIt = s.keys[a]?)
    (start : ℕ) (hstart : (start : ℤ) = a + offset) (hfit : start + n ≤ nv)
    (hneg : offset < 0 → order ≤ start + 1 ∨ a + 1 < order) :
    ∃ s', s.manipulateControlVertices f n t offset = (.ok (), s') ∧ s'.order = s.order ∧ s'.keys = s.keys ∧ s'.state = s.state ∧
      s'.iters = s.iters ∧ s'.segs.map Seg.basis = s.segs.map Seg.basis ∧
      ∀ j, s'.verts[j]? = s.verts[j]?.map fun v => if start ≤ j ∧ j < start + n then f (j - start) v else v := by
  obtain ⟨hw, rfl⟩ := h.mwf ho
  have hn := hw.enough he
  rw [numControlVertices_eq hw he, Outcome.ok.injEq] at hnv
  rcases evaluable_total hw he t with ⟨i, hi⟩ | ht
  · have l1 := hi.lower
    have l2 := hi.upper
    rw [evaluatorAt_eq hw he hi, Outcome.ok.injEq] at hev
    have ea : a = i + 1 - s.order := by
      rw [← hev] at hae
      have : (s.evaluatorOf t i).firstIt = s.keys[i + 1 - s.order]? := rfl
      rw [this, at_inj hw.nodup (by omega) (by omega)] at hae
      exact hae.symm
    have key : s.manipulateControlVertices f n t offset =
        (.ok (), ⟨s.order, manipulateLoop f (s.keys.drop start) 0 n s.segs, s.state, s.iters⟩) := by
      rcases le_or_gt 0 offset with h0 | h0
      · obtain ⟨m, rfl⟩ := Int.eq_ofNat_of_zero_le h0
        rw [manipulate_nonneg hw he hi n (by omega)]
        rw [show min (i + 1 - s.order + m) (s.keys.length - s.order) = start by omega]
      · rw [manipulate_start hw he hi n (by omega), if_neg (by omega)]
        obtain ⟨m, hm⟩ : ∃ m : ℕ, offset = -(m : ℤ) := ⟨(-offset).toNat, by omega⟩
        rw [hm]
        rcases hneg h0 with h1 | h1
        · rw [moveIter_bwd hw.nodup (by omega) (by omega)]
          simp only []
          rw [itPos_at hw.nodup (by omega), show max (i + 1 - s.order - m) (s.order - 1) = start by omega]
        · unfold moveIter
          rw [if_neg (by omega), if_neg (by omega), neg_neg, Int.toNat_natCast, moveBwd_past hw.nodup (by omega) _ _ (by omega),
            if_pos (by omega)]
          simp only []
          rw [itPos_at hw.nodup (by omega), show i + 1 - s.order - m = start by omega]
    obtain ⟨r1, r2, r3⟩ := manipulate_result hw f n start (by omega)
    exact ⟨_, key, rfl, r1, rfl, rfl, r2, r3⟩
  · rw [evaluatorAt_throws hw t (Or.inr ht)] at hev
    cases hev

/-- C31: with a non-negative offset the call never touches memory outside the spline, whatever the start, and changes at most the
requested vertices. -/
theorem C31_safe (M : Mfd K P V) (order : ℕ) (ho : 1 ≤ order) (s : MSpline K P) (h : RegularReach M order s)
    (f : ℕ → P → P) (n : ℕ) (t : K) (offset : ℕ) :
    (s.manipulateControlVertices f n t offset).1 ≠ .ub ∧ (s.manipulateControlVertices f n t offset).2.keys = s.keys := by
  obtain ⟨hw, rfl⟩ := h.mwf ho
  have h1 := regular_mwf M (.manipulate f n t offset) hw (show (0 : ℤ) ≤ offset by omega)
  refine ⟨h1.2.1, ?_⟩
  rcases hst : s.state with _ | _
  · unfold manipulateControlVertices numControlVertices
    rw [hst]
    rfl
  · rcases Nat.lt_or_ge (s.keys.length - s.order) n with hn | hn
    · unfold manipulateControlVertices
      rw [numControlVertices_eq hw hst, Outcome.bind_ok, if_pos hn]
    · rcases evaluable_total hw hst t with ⟨i, hi⟩ | ht
      · rw [manipulate_nonneg hw hst hi n hn]
        exact (manipulate_result hw f n _ (by omega)).1
      · unfold manipulateControlVertices
        rw [numControlVertices_eq hw hst, Outcome.bind_ok, if_neg (by omega), getSegmentIterator_throws hw hst t ht]
        rfl

/-- C31 without a time: the vertices are counted from the first one of the spline. -/
theorem C31_from_start (M : Mfd K P V) (order : ℕ) (ho : 1 ≤ order) (s : MSpline K P) (h : RegularReach M order s)
    (he : s.state = .evaluable) (nv : ℕ) (hnv : s.numControlVertices = .ok nv) (f : ℕ → P → P) (n offset : ℕ) (hfit : offset + n ≤ nv) :
    ∃ s', s.manipulateFromStart f n offset = (.ok (), s') ∧ s'.order = s.order ∧ s'.keys = s.keys ∧ s'.state = s.state ∧
      s'.iters = s.iters ∧ s'.segs.map Seg.basis = s.segs.map Seg.basis ∧
      ∀ j, s'.verts[j]? = s.verts[j]?.map fun v => if offset ≤ j ∧ j < offset + n then f (j - offset) v else v := by
  obtain ⟨hw, rfl⟩ := h.mwf ho
  have hn := hw.enough he
  have hi : s.InSeg (s.kn (s.order - 1)) (s.order - 1) :=
    ⟨by omega, by omega, le_rfl, Or.inl (hw.strict (by omega) (by omega))⟩
  unfold manipulateFromStart
  rw [getMinTime_eq hw he]
  refine C31_exact_partial M s.order ho s h he nv hnv f n _ offset _ (evaluatorAt_eq hw he hi) 0 (by omega) ?_ offset (by omega) hfit
    fun hneg => by omega
  change s.keys[s.order - 1 + 1 - s.order]? = s.keys[0]?
  rw [Nat.sub_add_cancel ho, Nat.sub_self]

/-- A spline of order 3 with seven control vertices on the knots 0, …, 9. -/
def demo3 : MSpline ℚ ℚ :=
  ((Call.initWithKnotsAndControlVertices [0, 1, 2, 3, 4, 5, 6, 7, 8, 9] [0, 0, 0, 0, 0, 0, 0]).run halfLine (create 3)).2

theorem demo3_reach : RegularReach halfLine 3 demo3 := .call _ .create trivial

/-- Violation of C31: a negative offset is cut off at the `order - 1`-th vertex although the vertices before it exist: asking for the
vertex three before the first relevant one at time 5 (position 3, so vertex 0) changes vertex 2. -/
theorem C31_negative_clipped : demo3.numControlVertices = .ok 7 ∧ (demo3.evaluatorAt 5).map (·.firstIt) = .ok demo3.keys[3]? ∧
    (demo3.manipulateControlVertices (fun _ _ => 9) 1 5 (-3)).1 = .ok () ∧
    (demo3.manipulateControlVertices (fun _ _ => 9) 1 5 (-3)).2.verts = [0, 0, 9, 0, 0, 0, 0, 0, 0, 0] := by
  decide +kernel

/-- Violation of C31: a negative offset from the first valid segment runs off the beginning of the map. -/
theorem C31_negative_undefined : (demo3.evaluatorAt 2).map (·.firstIt) = .ok demo3.keys[0]? ∧
    (demo3.manipulateControlVertices (fun _ _ => 9) 1 2 (-1)).1 = .ub := by
  decide +kernel

/-- Violation of C31: if fewer than `n` relevant vertices follow, the call reports success, writes vertices that no valid segment
uses and silently stops at the end. -/
theorem C31_positive_overrun : demo3.numControlVertices = .ok 7 ∧
    (demo3.manipulateControlVertices (fun i _ => (i : ℚ) + 1) 5 2 6).1 = .ok () ∧
    (demo3.manipulateControlVertices (fun i _ => (i : ℚ) + 1) 5 2 6).2.verts = [0, 0, 0, 0, 0, 0, 1, 2, 3, 4] := by
  decide +kernel

/-- Not vacuous: three vertices from the second relevant one at time 5. -/
example : demo3.numControlVertices = .ok 7 ∧ (demo3.evaluatorAt 5).map (·.firstIt) = .ok demo3.keys[3]? ∧
    (demo3.manipulateControlVertices (fun i _ => (i : ℚ) + 1) 3 5 1).1 = .ok () ∧
    (demo3.manipulateControlVertices (fun i _ => (i : ℚ) + 1) 3 5 1).2.verts = [0, 0, 0, 0, 1, 2, 3, 0, 0, 0] := by
  decide +kernel

example : demo3.numControlVertices = .ok 7 ∧ (demo3.manipulateFromStart (fun i _ => (i : ℚ) + 1) 3 2).1 = .ok () ∧
    (demo3.manipulateFromStart (fun i _ => (i : ℚ) + 1) 3 2).2.verts = [0, 0, 1, 2, 3, 0, 0, 0, 0, 0] := by
  decide +kernel

/-- C31: the four layouts of the matrix mean the same vertices: `n` vertices of dimension `D` given as columns, as rows, or one after
the other in a single row or column.  (`n = D` as rows is the exception: a square matrix is always read by columns.) -/
theorem C31_layouts (D n : ℕ) (hD : 2 ≤ D) (hn : 1 ≤ n) (v : ℕ → Fin D → K) (project : (Fin D → K) → Fin D → K) (t : K) (offset : ℤ)
    (s : MSpline K (Fin D → K)) (A : ℕ → ℕ → K) (rows cols : ℕ)
    (hA : (rows = D ∧ cols = n ∧ ∀ i < n, ∀ r : Fin D, A r i = v i r) ∨
      (rows = n ∧ cols = D ∧ n ≠ D ∧ ∀ i < n, ∀ r : Fin D, A i r = v i r) ∨
      (rows = 1 ∧ cols = n * D ∧ ∀ i < n, ∀ r : Fin D, A 0 (i * D + r) = v i r) ∨
      (rows = n * D ∧ cols = 1 ∧ ∀ i < n, ∀ r : Fin D, A (i * D + r) 0 = v i r)) :
    ∃ f : ℕ → (Fin D → K) → Fin D → K, (∀ i < n, ∀ x, f i x = project (v i)) ∧
      s.setControlVertices D project rows cols A t offset = s.manipulateControlVertices f n t offset := by
  have fin : ∀ m, decodeShape D rows cols = .ok (n, m) → (∀ i < n, ∀ r : Fin D, decodeEntry D A m i r = v i r) →
      (∀ i < n, decodeInside D rows cols m i = true) →
      ∃ f : ℕ → (Fin D → K) → Fin D → K, (∀ i < n, ∀ x, f i x = project (v i)) ∧
      s.setControlVertices D project rows cols A t offset = s.manipulateControlVertices f n t offset := by
    intro m h1 h2 h3
    refine ⟨fun i _ => project fun r => decodeEntry D A m i r, fun i hi _ => ?_, ?_⟩
    · exact congrArg project (funext fun r => h2 i hi r)
    · unfold setControlVertices
      rw [h1]
      simp only []
      split
      · rename_i s' heq
        rw [if_pos (by rw [List.all_eq_true]; intro i hi; exact h3 i (List.mem_range.1 hi)), heq]
      · rfl
  have hd : n * D / D = n := Nat.mul_div_cancel _ (by omega)
  have hd' : D * n / D = n := Nat.mul_div_cancel_left _ (by omega)
  have hlt : ∀ i < n, i * D + D ≤ n * D := fun i hi => by
    calc i * D + D = (i + 1) * D := by ring
      _ ≤ n * D := Nat.mul_le_mul_right _ hi
  rcases hA with ⟨h1, h2, h3⟩ | ⟨h1, h2, h3, h4⟩ | ⟨h1, h2, h3⟩ | ⟨h1, h2, h3⟩
  · refine fin .columns ?_ (fun i hi r => h3 i hi r) (fun i hi => ?_)
    · unfold decodeShape; rw [if_neg (by omega), if_pos h1, h1, h2, hd']
    · simp only [decodeInside, decide_eq_true_eq]; omega
  · refine fin .rows ?_ (fun i hi r => h4 i hi r) (fun i hi => ?_)
    · unfold decodeShape; rw [if_neg (by omega), if_neg (by omega), if_pos h2, h1, h2, hd]
    · simp only [decodeInside, decide_eq_true_eq]; omega
  · rcases Nat.lt_or_ge 1 n with hn1 | hn1
    · have : D < n * D := by nlinarith
      refine fin .stackedRow ?_ (fun i hi r => h3 i hi r) (fun i hi => ?_)
      · unfold decodeShape
        rw [if_neg (by omega), if_neg (by omega), if_neg (by omega), if_pos h1, h1, h2, one_mul, Nat.mul_mod_left, if_neg (by simp), hd]
      · simp only [decodeInside, decide_eq_true_eq]
        have := hlt i hi
        omega
    · obtain rfl : n = 1 := by omega
      refine fin .rows ?_ (fun i hi r => ?_) (fun i hi => ?_)
      · unfold decodeShape; rw [if_neg (by omega), if_neg (by omega), if_pos (by omega), h1, h2, one_mul, one_mul, Nat.div_self (by omega)]
      · have := h3 i hi r
        obtain rfl : i = 0 := by omega
        simp only [zero_mul, zero_add] at this
        exact this
      · simp only [decodeInside, decide_eq_true_eq]; omega
  · rcases Nat.lt_or_ge 1 n with hn1 | hn1
    · have : D < n * D := by nlinarith
      refine fin .stackedColumn ?_ (fun i hi r => h3 i hi r) (fun i hi => ?_)
      · unfold decodeShape
        rw [if_neg (by omega), if_neg (by omega), if_neg (by omega), if_neg (by omega), if_pos h2, h1, h2, mul_one, Nat.mul_mod_left,
          if_neg (by simp), hd]
      · simp only [decodeInside, decide_eq_true_eq]
        have := hlt i hi
        omega
    · obtain rfl : n = 1 := by omega
      refine fin .columns ?_ (fun i hi r => ?_) (fun i hi => ?_)
      · unfold decodeShape; rw [if_neg (by omega), if_pos (by omega), h1, h2, one_mul, mul_one, Nat.div_self (by omega)]
      · have := h3 i hi r
        obtain rfl : i = 0 := by omega
        simp only [zero_mul, zero_add] at this
        exact this
      · simp only [decodeInside, decide_eq_true_eq]; omega

/-- C31: a matrix of any other shape raises an exception and changes nothing. -/
theorem C31_bad_shape (D : ℕ) (hD : 2 ≤ D) (project : (Fin D → K) → Fin D → K) (rows cols : ℕ) (A : ℕ → ℕ → K) (t : K)
    (offset : ℤ) (s : MSpline K (Fin D → K)) (h1 : rows ≠ D) (h2 : cols ≠ D)
    (h3 : (rows ≠ 1 ∧ cols ≠ 1) ∨ ¬ D ∣ rows * cols) : s.setControlVertices D project rows cols A t offset = (.throws, s) := by
  unfold setControlVertices
  have : decodeShape D rows cols = .throws := by
    unfold decodeShape
    rw [if_neg (by omega), if_neg h1, if_neg h2]
    rcases h3 with ⟨h3, h4⟩ | h3
    · rw [if_neg h3, if_neg h4]
    · have : rows * cols % D ≠ 0 := fun h => h3 (Nat.dvd_of_mod_eq_zero h)
      split_ifs <;> rfl
  rw [this]

/-- Violation of C31: for one-dimensional points a matrix that is neither a row nor a column is accepted and read out of bounds. -/
theorem C31_one_dimensional_undefined : ∃ s : MSpline ℚ (Fin 1 → ℚ),
    (s.setControlVertices 1 id 2 2 (fun _ _ => 0) 1 0).1 = .ub :=
  ⟨(((create 1).addKnots (euclidean ℚ (Fin 1 → ℚ)) [0, 1, 2, 3, 4]).2.init).2, by decide +kernel⟩

/-- Not vacuous: two-dimensional vertices as columns and as a stacked row. -/
example : ((((create 1).addKnots (euclidean ℚ (Fin 2 → ℚ)) [0, 1, 2, 3]).2.init).2.setControlVertices 2 id 2 3
      (fun r c => (r : ℚ) + 10 * c) 0 0).2.verts.map (fun p => (p 0, p 1)) = [(0, 1), (10, 11), (20, 21), (0, 0)] ∧
    ((((create 1).addKnots (euclidean ℚ (Fin 2 → ℚ)) [0, 1, 2, 3]).2.init).2.setControlVertices 2 id 1 6
      (fun _ c => ((c % 2 : ℕ) : ℚ) + 10 * ((c / 2 : ℕ) : ℚ)) 0 0).2.verts.map (fun p => (p 0, p 1)) = [(0, 1), (10, 11), (20, 21), (0, 0)] := by
  decide +kernel

/-! ### Appending to a spline with loose knots -/

theorem mapInsert_prefix (x : Seg K P) : ∀ a b : List (Seg K P), (∀ g ∈ a, g.knot < x.knot) → mapInsert x (a ++ b) = a ++ mapInsert x b
  | [], _, _ => rfl
  | y :: ys, b, h => by
    have hy := h y (by simp)
    rw [List.cons_append, mapInsert, if_neg (not_lt.2 hy.le), if_neg hy.ne', mapInsert_prefix x ys b (fun g hg => h g (by simp [hg]))]
    rfl

theorem mapInsert_new_length (x : Seg K P) : ∀ l : List (Seg K P), x.knot ∉ l.map Seg.knot → (mapInsert x l).length = l.length + 1
  | [], _ => rfl
  | y :: ys, h => by
    unfold mapInsert
    split
    · simp
    · rw [if_neg (fun e => h (by simp [e]))]
      simp [mapInsert_new_length x ys fun e => h (by simp at e ⊢; tauto)]

/-- C23: when a knot was added behind the valid interval of an initialised spline without extending it, appending raises an exception and
changes nothing, instead of using the wrong vertices. -/
theorem C23_rejects_loose_knot (M : Mfd K P V) (order : ℕ) (ho : 1 ≤ order) (s : MSpline K P) (h : RegularReach M order s)
    (he : s.state = .evaluable) (tmax : K) (hmax : s.getMaxTime = .ok tmax) (t : K) (ht : tmax < t) (hnew : t ∉ s.keys) (ts : List K)
    (value : Option P) : (s.addKnot M t).appendSegments M ts value = (.throws, s.addKnot M t) := by
  obtain ⟨hw, rfl⟩ := h.mwf ho
  have hn := hw.enough he
  have hl := keys_length s
  rw [getMaxTime_eq hw he, Outcome.ok.injEq] at hmax
  subst hmax
  set x : Seg K P := ⟨t, M.default, none⟩ with hx
  set m := s.keys.length - s.order + 1 with hm
  have hmn : m ≤ s.segs.length := by omega
  have hsplit : (s.addKnot M t).segs = s.segs.take m ++ mapInsert x (s.segs.drop m) := by
    show mapInsert x s.segs = _
    conv_lhs => rw [← List.take_append_drop m s.segs]
    refine mapInsert_prefix x _ _ fun g hg => ?_
    obtain ⟨j, hj, rfl⟩ := List.getElem_of_mem hg
    rw [List.length_take] at hj
    rw [List.getElem_take]
    have e : s.segs[j].knot = s.kn j := by
      have := kn_getElem s (i := j) (by omega)
      unfold keys at this
      rw [List.getElem?_map, List.getElem?_eq_getElem (by omega)] at this
      exact Option.some.inj this
    rw [e]
    exact (hw.mono _ _ (by omega) (by omega)).trans_lt ht
  have hlen : (s.addKnot M t).keys.length = s.keys.length + 1 := by
    rw [keys_length, keys_length]
    exact mapInsert_new_length x s.segs hnew
  have hnd : (s.addKnot M t).keys.Nodup := nodup_of_sorted (mapInsert_sorted x s.segs hw.sorted)
  have hpos : (s.addKnot M t).keys[s.keys.length - s.order]? = s.keys[s.keys.length - s.order]? := by
    unfold keys
    rw [hsplit, List.map_append, List.getElem?_append_left (by simp only [List.length_map, List.length_take]; omega),
      List.map_take, List.getElem?_take, if_pos (by simp only [List.length_map]; omega)]
  unfold appendSegments
  rw [show (s.addKnot M t).state = .evaluable from he, show (s.addKnot M t).iters = _ from hw.iters_eq he]
  dsimp only
  rw [show (s.addKnot M t).order = s.order from rfl, at_end (s.addKnot M t).keys, absBegin, moveIter_bwd hnd (Nat.zero_le _) le_rfl]
  dsimp only
  rw [if_pos]
  rw [← hpos, Ne, at_inj hnd (by omega) (by omega)]
  omega

/-- Not vacuous. -/
example : (demo.addKnot halfLine 5).appendSegments halfLine [6, 7] none = (.throws, demo.addKnot halfLine 5) :=
  C23_rejects_loose_knot halfLine 2 (by omega) demo demo_reach (by decide +kernel) 3 (by decide +kernel) 5 (by norm_num) (by decide +kernel) _ _

end Verif.MSpline
