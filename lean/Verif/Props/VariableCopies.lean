import Verif.Model.VariableCopies
import Verif.Props.SplineVariables

/-!
# C92: copies of spline design variable objects
-/

set_option linter.unusedSectionVars false

namespace Verif

open BSpline

namespace VarWorld

variable {K : Type*} [Field K] [LinearOrder K] [IsStrictOrderedRing K] {D : ℕ}

/-! ### Specification -/

/-- The spline of an object. -/
def splineAt (w : VarWorld K D) (o : ℕ) : Option (BSpline K D) := (w.obj o).map fun ob => ob.own.spline

/-- Coefficient `i` of the spline of the object `o` has moved by `dp`; nothing else of that spline has changed. -/
def Moved (w w' : VarWorld K D) (o i : ℕ) (dp : Fin D → K) : Prop :=
  ∃ s s' : BSpline K D, w.splineAt o = some s ∧ w'.splineAt o = some s' ∧ s'.order = s.order ∧ s'.knots = s.knots ∧
    s'.basis = s.basis ∧ s'.coeffs.length = s.coeffs.length ∧ (∀ d, s'.col i d = s.col i d + dp d) ∧
    ∀ j, j ≠ i → s'.col j = s.col j

/-- No spline but that of the object `o` has changed. -/
def OthersKept (w w' : VarWorld K D) (o : ℕ) : Prop := ∀ o', o' ≠ o → w'.splineAt o' = w.splineAt o'

/-- What design variables are for: updating the `i`th design variable of the object moves the `i`th coefficient of its spline and
nothing else. -/
def Independent (solve : Solver K) (w : VarWorld K D) (o : ℕ) : Prop :=
  ∀ s, w.splineAt o = some s → ∀ i < s.coeffs.length, ∀ dp : Fin D → K,
    ∃ w', w.act solve o (.update i dp) = .ok w' ∧ Moved w w' o i dp ∧ OthersKept w w' o

/-- The design variables of the object point to their columns in the present memory of the object itself. -/
structure Own (w : VarWorld K D) (o : ℕ) (ob : VarObj K D) : Prop where
  here : w.obj o = some ob
  mirror : SplineVars.Mirror ob.own
  homes : ob.homes = List.replicate ob.own.vars.length o

/-! ### Objects -/

theorem of_map_ok {α β : Type*} {o : Outcome α} {f : α → β} {b : β} (h : o.map f = .ok b) : ∃ a, o = .ok a ∧ f a = b := by
  cases o with
  | ok a => exact ⟨a, rfl, Outcome.ok.inj h⟩
  | throws => exact nomatch h
  | ub => exact nomatch h

theorem obj_lt {w : VarWorld K D} {o : ℕ} {ob : VarObj K D} (h : w.obj o = some ob) : o < w.length := by
  by_contra hc
  unfold obj at h
  rw [List.getElem?_eq_none (not_lt.1 hc)] at h
  exact nomatch h

theorem obj_set_self {w : VarWorld K D} {o : ℕ} (h : o < w.length) (x : Option (VarObj K D)) :
    obj (w.set o x) o = x := by
  unfold obj
  rw [List.getElem?_set_self h]
  rfl

theorem obj_set_ne {w : VarWorld K D} {o o' : ℕ} (h : o' ≠ o) (x : Option (VarObj K D)) :
    obj (w.set o x) o' = w.obj o' := by
  unfold obj
  rw [List.getElem?_set_ne (Ne.symm h)]

theorem obj_append {w : VarWorld K D} {o : ℕ} (h : o < w.length) (x : Option (VarObj K D)) :
    obj (w ++ [x]) o = w.obj o := by
  unfold obj
  rw [List.getElem?_append_left h]

theorem obj_new (w : VarWorld K D) (x : Option (VarObj K D)) : obj (w ++ [x]) w.length = x := by
  unfold obj
  simp

theorem obj_beyond {w : VarWorld K D} {o : ℕ} (h : w.length < o) (x : Option (VarObj K D)) :
    obj (w ++ [x]) o = none := by
  unfold obj
  rw [List.getElem?_eq_none (by simp; omega)]
  rfl

theorem rehome_replicate (o n k : ℕ) : rehome o n (List.replicate k o) = List.replicate k o := by
  apply List.ext_getElem
  · simp [rehome]
  · intro i h1 h2
    simp [rehome]

theorem rehome_all {o n : ℕ} {l : List ℕ} (h : l.length ≤ n) : rehome o n l = List.replicate l.length o := by
  apply List.ext_getElem
  · simp [rehome]
  · intro i h1 h2
    have : i < l.length := by simpa [rehome] using h1
    simp only [rehome, List.getElem_map, List.getElem_zipIdx, List.getElem_replicate]
    rw [if_pos (by omega)]

theorem rehome_append {o n : ℕ} {l : List ℕ} (h : l.length = n) : rehome o n (l ++ [o]) = List.replicate (n + 1) o := by
  apply List.ext_getElem
  · simp [rehome, h]
  · intro i h1 h2
    simp only [rehome, List.getElem_map, List.getElem_zipIdx, List.getElem_replicate]
    split_ifs with hi
    · rfl
    · have : i = l.length := by
        simp only [List.length_replicate] at h2
        omega
      subst this
      simp

theorem store_eq {v : SplineVars K D} {x : MappedVar K D} {c : Fin D → K} {s : BSpline K D} (h : v.store x c = .ok s) :
    s = BSpline.mk (K := K) v.spline.order v.spline.knots (v.spline.coeffs.set x.column c) v.spline.basis := by
  unfold SplineVars.store at h
  obtain ⟨c0, -, e⟩ := of_map_ok h
  exact e.symm

theorem mirror_write {v : SplineVars K D} (h : SplineVars.Mirror v) (j : ℕ) (c : Fin D → K) :
    SplineVars.Mirror { v with
      spline := BSpline.mk (K := K) v.spline.order v.spline.knots (v.spline.coeffs.set j c) v.spline.basis } :=
  ⟨SplineVars.sized_set h.sized j c, by simpa using h.length, h.maps, h.nodup, h.fresh⟩

/-- What writing through a pointer does to the objects. -/
theorem writeAt_obj {w w' : VarWorld K D} {h : ℕ} {x : MappedVar K D} {c : Fin D → K} (e : w.writeAt h x c = .ok w') :
    ∃ hb, w.obj h = some hb ∧ hb.own.store x c =
        .ok (BSpline.mk (K := K) hb.own.spline.order hb.own.spline.knots (hb.own.spline.coeffs.set x.column c) hb.own.spline.basis) ∧
      w'.obj h = some ⟨{ hb.own with
        spline := BSpline.mk (K := K) hb.own.spline.order hb.own.spline.knots (hb.own.spline.coeffs.set x.column c)
          hb.own.spline.basis }, hb.homes⟩ ∧
      (∀ o, o ≠ h → w'.obj o = w.obj o) ∧ w'.length = w.length := by
  unfold writeAt at e
  cases hh : w.obj h with
  | none => rw [hh] at e; exact nomatch e
  | some hb =>
    rw [hh] at e
    obtain ⟨s, e1, rfl⟩ := of_map_ok e
    have := store_eq e1
    subst this
    exact ⟨hb, rfl, e1, obj_set_self (obj_lt hh) _, fun o ho => obj_set_ne ho _, by simp⟩

theorem remember_obj_ne {w : VarWorld K D} {o o' i : ℕ} {x : MappedVar K D} {c : Fin D → K} (h : o' ≠ o) :
    (w.remember o i x c).obj o' = w.obj o' := by
  unfold remember
  cases w.obj o with
  | none => rfl
  | some ob => exact obj_set_ne h _

theorem remember_obj {w : VarWorld K D} {o i : ℕ} {x : MappedVar K D} {c : Fin D → K} {ob : VarObj K D} (h : w.obj o = some ob) :
    (w.remember o i x c).obj o =
      some ⟨{ ob.own with vars := ob.own.vars.set i { x with saved := c } }, ob.homes⟩ := by
  unfold remember
  rw [h]
  exact obj_set_self (obj_lt h) _

theorem remember_spline {w : VarWorld K D} {o i : ℕ} {x : MappedVar K D} {c : Fin D → K} (o' : ℕ) :
    (w.remember o i x c).splineAt o' = w.splineAt o' := by
  unfold splineAt
  by_cases h : o' = o
  · subst h
    cases hh : w.obj o' with
    | none =>
      have : w.remember o' i x c = w := by unfold remember; rw [hh]
      rw [this, hh]
    | some ob => rw [remember_obj hh]; rfl
  · rw [remember_obj_ne h]

/-! ### An object whose design variables are its own -/

theorem own_create {s : BSpline K D} (h : SplineVars.Sized s) (w : VarWorld K D) :
    Own (w.create s) w.length ⟨SplineVars.create s, List.replicate s.coeffs.length w.length⟩ :=
  ⟨obj_new w _, SplineVars.mirror_create h, by simp [SplineVars.create]⟩

theorem own_target {w : VarWorld K D} {o : ℕ} {ob : VarObj K D} (h : Own w o ob) (i : ℕ) {x : MappedVar K D}
    (hx : ob.own.vars[i]? = some x) : target ob i = .ok (x, o) := by
  have hi := (List.getElem?_eq_some_iff.1 hx).1
  unfold target SplineVars.designVariable
  rw [hx]
  simp only [Outcome.bind_ok]
  rw [h.homes, List.getElem?_replicate, if_pos hi]

theorem target_throws {ob : VarObj K D} {i : ℕ} (hx : ob.own.vars[i]? = none) : target ob i = .throws := by
  unfold target SplineVars.designVariable
  rw [hx]
  rfl

/-- The object among others does what the object alone does. -/
theorem act_own (solve : Solver K) {w : VarWorld K D} {o : ℕ} {ob : VarObj K D} (h : Own w o ob) (op : SplineVars.Op K D) :
    w.act solve o op = (ob.own.step solve op).map fun v => w.set o (some ⟨v, List.replicate v.vars.length o⟩) := by
  have hm := h.mirror
  have hlen : ob.own.serials.length = ob.own.vars.length := by simp [SplineVars.serials]
  unfold act
  rw [h.here]
  cases op with
  | add t p junk =>
    dsimp only [SplineVars.step]
    rcases SplineVars.add_outcome solve hm t p junk with ⟨-, e⟩ | ⟨-, v, e, hv, hs, -⟩
    · rw [e]; rfl
    · rw [e]
      have hl : v.vars.length = ob.own.vars.length + 1 := by
        have := congrArg List.length hs
        simp only [SplineVars.serials, List.length_map, List.length_append, List.length_singleton] at this
        exact this
      simp only [Outcome.map_ok]
      rw [h.homes, rehome_append (by have := hv.length; simp; omega), hl, ← hv.length, hl]
      rfl
  | add2 t p lambda junk =>
    dsimp only [SplineVars.step]
    rcases SplineVars.add2_outcome solve hm t p lambda junk with ⟨-, e⟩ | ⟨-, v, e, hv, hs, -⟩
    · rw [e]; rfl
    · rw [e]
      have hl : v.vars.length = ob.own.vars.length + 1 := by
        have := congrArg List.length hs
        simp only [SplineVars.serials, List.length_map, List.length_append, List.length_singleton] at this
        exact this
      simp only [Outcome.map_ok]
      rw [h.homes, rehome_append (by have := hv.length; simp; omega), hl, ← hv.length, hl]
      rfl
  | remove =>
    dsimp only [SplineVars.step]
    by_cases hc : ob.own.spline.coeffs = []
    · have hv : ob.own.vars = [] := by
        have := hm.length
        rw [hc] at this
        exact List.length_eq_zero_iff.1 this
      have : ob.own.removeSegment = .ub := by
        unfold SplineVars.removeSegment
        rw [hv]
      rw [this]
      rfl
    · obtain ⟨v, e, hv, hs, -⟩ := SplineVars.remove_ok hm hc
      rw [e]
      have hl : v.vars.length = ob.own.vars.length - 1 := by
        have := congrArg List.length hs
        simp only [SplineVars.serials, List.length_map, List.length_tail] at this
        exact this
      simp only [Outcome.map_ok]
      rw [h.homes, List.tail_replicate, rehome_replicate, hl]
  | update i dp =>
    dsimp only [SplineVars.step]
    rcases Nat.lt_or_ge i ob.own.vars.length with hi | hi
    · have hx := List.getElem?_eq_getElem hi
      generalize ob.own.vars[i] = x at hx
      have hd := (hm.deref hx).1
      rw [own_target h i hx]
      simp only [Outcome.bind_ok]
      have hr : w.readAt o x = .ok (ob.own.spline.col i) := by
        unfold readAt
        rw [h.here]
        exact hd
      rw [hr]
      simp only [Outcome.bind_ok]
      unfold writeAt
      rw [h.here]
      dsimp only
      rw [SplineVars.store_ok hm hx]
      unfold SplineVars.update SplineVars.designVariable
      rw [hx]
      simp only [Outcome.bind_ok]
      rw [hd]
      simp only [Outcome.bind_ok]
      rw [SplineVars.store_ok hm hx]
      simp only [Outcome.map_ok]
      unfold remember
      rw [obj_set_self (obj_lt h.here)]
      dsimp only
      rw [List.set_set, h.homes, List.length_set]
    · have hx := List.getElem?_eq_none hi
      rw [target_throws hx]
      unfold SplineVars.update SplineVars.designVariable
      rw [hx]
      rfl
  | revert i =>
    dsimp only [SplineVars.step]
    rcases Nat.lt_or_ge i ob.own.vars.length with hi | hi
    · have hx := List.getElem?_eq_getElem hi
      generalize ob.own.vars[i] = x at hx
      rw [own_target h i hx]
      simp only [Outcome.bind_ok]
      unfold writeAt
      rw [h.here]
      dsimp only
      rw [SplineVars.store_ok hm hx]
      unfold SplineVars.revert SplineVars.designVariable
      rw [hx]
      simp only [Outcome.bind_ok]
      rw [SplineVars.store_ok hm hx]
      simp only [Outcome.map_ok]
      rw [h.homes]
    · have hx := List.getElem?_eq_none hi
      rw [target_throws hx]
      unfold SplineVars.revert SplineVars.designVariable
      rw [hx]
      rfl

theorem col_set_self {s : BSpline K D} {i : ℕ} (hi : i < s.coeffs.length) (c : Fin D → K) :
    (BSpline.mk (K := K) s.order s.knots (s.coeffs.set i c) s.basis).col i = c := by
  show List.getD (s.coeffs.set i c) i 0 = c
  rw [List.getD_eq_getElem?_getD, List.getElem?_set_self hi]
  rfl

theorem col_set_ne {s : BSpline K D} {i j : ℕ} (hj : j ≠ i) (c : Fin D → K) :
    (BSpline.mk (K := K) s.order s.knots (s.coeffs.set i c) s.basis).col j = s.col j := by
  show List.getD (s.coeffs.set i c) j 0 = List.getD s.coeffs j 0
  rw [List.getD_eq_getElem?_getD, List.getD_eq_getElem?_getD, List.getElem?_set_ne (Ne.symm hj)]

/-- A write of coefficient `i` is what `Moved` and `OthersKept` say. -/
theorem writeAt_moved {w w' : VarWorld K D} {h i : ℕ} {x : MappedVar K D} {hb : VarObj K D} {dp : Fin D → K}
    (hh : w.obj h = some hb) (hx : x.column = i) (hi : i < hb.own.spline.coeffs.length)
    (e : w.writeAt h x (fun d => hb.own.spline.col i d + dp d) = .ok w') : Moved w w' h i dp ∧ OthersKept w w' h := by
  obtain ⟨hb', h1, -, h2, h3, -⟩ := writeAt_obj e
  obtain rfl : hb = hb' := Option.some.inj (hh.symm.trans h1)
  subst hx
  refine ⟨⟨hb.own.spline, BSpline.mk (K := K) hb.own.spline.order hb.own.spline.knots
    (hb.own.spline.coeffs.set x.column fun d => hb.own.spline.col x.column d + dp d) hb.own.spline.basis, by unfold splineAt; rw [hh]; rfl, by unfold splineAt; rw [h2]; rfl, rfl, rfl, rfl, by simp, fun d => ?_, fun j hj => ?_⟩,
    fun o ho => ?_⟩
  · rw [col_set_self hi]
  · exact col_set_ne hj _
  · unfold splineAt
    rw [h3 o ho]

theorem moved_remember {w w' : VarWorld K D} {o i o' i' : ℕ} {x : MappedVar K D} {c dp : Fin D → K} (h : Moved w w' o i dp) :
    Moved w (w'.remember o' i' x c) o i dp := by
  obtain ⟨s, s', h1, h2, h3⟩ := h
  exact ⟨s, s', h1, by rw [remember_spline]; exact h2, h3⟩

theorem kept_remember {w w' : VarWorld K D} {o o' i' : ℕ} {x : MappedVar K D} {c : Fin D → K} (h : OthersKept w w' o) :
    OthersKept w (w'.remember o' i' x c) o := fun o1 h1 => by rw [remember_spline]; exact h o1 h1

/-- Updating a design variable moves the coefficient it points to. -/
theorem update_through (solve : Solver K) {w : VarWorld K D} {o h i : ℕ} {ob hb : VarObj K D} {x : MappedVar K D} (ho : w.obj o = some ob)
    (hx : ob.own.vars[i]? = some x) (hh : ob.homes[i]? = some h) (hhb : w.obj h = some hb) (hbuf : x.buffer = hb.own.buffer)
    (hcol : x.column = i) (hi : i < hb.own.spline.coeffs.length) (dp : Fin D → K) :
    ∃ w', w.act solve o (.update i dp) = .ok w' ∧ Moved w w' h i dp ∧ OthersKept w w' h := by
  have hd : hb.own.deref x = .ok (hb.own.spline.col i) := by
    unfold SplineVars.deref col
    rw [if_pos hbuf, hcol, List.getD_eq_getElem?_getD, List.getElem?_eq_getElem hi]
    rfl
  have hw : ∃ w1, w.writeAt h x (fun d => hb.own.spline.col i d + dp d) = .ok w1 := by
    unfold writeAt SplineVars.store
    rw [hhb]
    dsimp only
    rw [hd]
    exact ⟨_, rfl⟩
  obtain ⟨w1, hw⟩ := hw
  have hm := writeAt_moved hhb hcol hi hw
  refine ⟨w1.remember o i x (hb.own.spline.col i), ?_, moved_remember hm.1, kept_remember hm.2⟩
  unfold act
  rw [ho]
  dsimp only
  have ht : target ob i = .ok (x, h) := by
    unfold target SplineVars.designVariable
    rw [hx]
    simp only [Outcome.bind_ok]
    rw [hh]
  rw [ht]
  simp only [Outcome.bind_ok]
  have hr : w.readAt h x = .ok (hb.own.spline.col i) := by
    unfold readAt
    rw [hhb]
    exact hd
  rw [hr]
  simp only [Outcome.bind_ok]
  rw [hw]
  rfl

theorem own_independent (solve : Solver K) {w : VarWorld K D} {o : ℕ} {ob : VarObj K D} (h : Own w o ob) : Independent solve w o := by
  intro s hs i hi dp
  have hs' : s = ob.own.spline := by
    unfold splineAt at hs
    rw [h.here] at hs
    exact (Option.some.inj hs).symm
  subst hs'
  have hi' : i < ob.own.vars.length := by rw [h.mirror.length]; exact hi
  have hx := List.getElem?_eq_getElem hi'
  obtain ⟨hb, hc⟩ := h.mirror.maps i _ hx
  exact update_through solve h.here hx (by rw [h.homes, List.getElem?_replicate, if_pos hi']) h.here hb hc hi dp

/-! ### Histories -/

/-- The event gives the object `o` other design variables, or ends it. -/
def VOp.Replaces (o : ℕ) : VOp K D → Prop
  | .assign dst _ => dst = o
  | .destroy o' => o' = o
  | _ => False

theorem step_own (solve : Solver K) {w w' : VarWorld K D} {o : ℕ} {ob : VarObj K D} (h : Own w o ob) (op : VOp K D)
    (hop : ¬ op.Replaces o) (e : w.step solve op = .ok w') : ∃ ob', Own w' o ob' := by
  have hlt := obj_lt h.here
  cases op with
  | create s =>
    obtain rfl := Outcome.ok.inj e
    exact ⟨ob, (obj_append hlt _).trans h.here, h.mirror, h.homes⟩
  | copy src =>
    have e : w.copy src = .ok w' := e
    unfold copy at e
    cases hs : w.obj src with
    | none => rw [hs] at e; exact nomatch e
    | some sb =>
      rw [hs] at e
      obtain rfl := Outcome.ok.inj e
      exact ⟨ob, (obj_append hlt _).trans h.here, h.mirror, h.homes⟩
  | assign dst src =>
    have e : w.assign dst src = .ok w' := e
    have hne : o ≠ dst := fun hc => hop hc.symm
    unfold assign at e
    cases hd : w.obj dst with
    | none => rw [hd] at e; exact nomatch e
    | some db =>
      cases hs : w.obj src with
      | none => rw [hd, hs] at e; exact nomatch e
      | some sb =>
        rw [hd, hs] at e
        obtain rfl := Outcome.ok.inj e
        exact ⟨ob, (obj_set_ne hne _).trans h.here, h.mirror, h.homes⟩
  | destroy o' =>
    have e : w.destroy o' = .ok w' := e
    have hne : o ≠ o' := fun hc => hop hc.symm
    unfold destroy at e
    cases hd : w.obj o' with
    | none => rw [hd] at e; exact nomatch e
    | some db =>
      rw [hd] at e
      obtain rfl := Outcome.ok.inj e
      exact ⟨ob, (obj_set_ne hne _).trans h.here, h.mirror, h.homes⟩
  | act o' op =>
    have e : w.act solve o' op = .ok w' := e
    by_cases hne : o = o'
    · subst hne
      rw [act_own solve h op] at e
      obtain ⟨v, e1, rfl⟩ := of_map_ok e
      have hv : SplineVars.Mirror v := by
        rcases SplineVars.step_mirror solve h.mirror op with ⟨v', e2, hv⟩ | e2 | ⟨-, -, e2⟩
        · rw [e1] at e2
          obtain rfl := Outcome.ok.inj e2
          exact hv
        · rw [e1] at e2
          exact nomatch e2
        · rw [e1] at e2
          exact nomatch e2
      exact ⟨_, obj_set_self hlt _, hv, rfl⟩
    · have wr : ∀ {x : MappedVar K D} {g : ℕ} {c : Fin D → K} {w1 : VarWorld K D}, w.writeAt g x c = .ok w1 → ∃ ob', Own w1 o ob' := by
        intro x g c w1 e
        obtain ⟨hb, h1, -, h2, h3, -⟩ := writeAt_obj e
        by_cases hg : o = g
        · subst hg
          obtain rfl : ob = hb := Option.some.inj (h.here.symm.trans h1)
          exact ⟨_, h2, mirror_write h.mirror _ _, h.homes⟩
        · exact ⟨ob, (h3 o hg).trans h.here, h.mirror, h.homes⟩
      unfold act at e
      cases hd : w.obj o' with
      | none => rw [hd] at e; exact nomatch e
      | some ob1 =>
        rw [hd] at e
        cases op with
        | add t p junk =>
          obtain ⟨v, -, rfl⟩ := of_map_ok e
          exact ⟨ob, (obj_set_ne hne _).trans h.here, h.mirror, h.homes⟩
        | add2 t p lambda junk =>
          obtain ⟨v, -, rfl⟩ := of_map_ok e
          exact ⟨ob, (obj_set_ne hne _).trans h.here, h.mirror, h.homes⟩
        | remove =>
          obtain ⟨v, -, rfl⟩ := of_map_ok e
          exact ⟨ob, (obj_set_ne hne _).trans h.here, h.mirror, h.homes⟩
        | update i dp =>
          obtain ⟨r, -, e⟩ := Outcome.bind_eq_ok.1 e
          obtain ⟨c, -, e⟩ := Outcome.bind_eq_ok.1 e
          obtain ⟨w1, e1, rfl⟩ := of_map_ok e
          obtain ⟨ob', h'⟩ := wr e1
          exact ⟨ob', (remember_obj_ne hne).trans h'.here, h'.mirror, h'.homes⟩
        | revert i =>
          obtain ⟨r, -, e⟩ := Outcome.bind_eq_ok.1 e
          exact wr e

theorem run_own (solve : Solver K) : ∀ (ops : List (VOp K D)) (w w' : VarWorld K D) (o : ℕ), (∃ ob, Own w o ob) →
    (∀ op ∈ ops, ¬ VOp.Replaces o op) → w.run solve ops = .ok w' → ∃ ob, Own w' o ob
  | [], w, w', o, h, _, e => by
    obtain rfl := Outcome.ok.inj e
    exact h
  | op :: ops, w, w', o, ⟨ob, h⟩, hops, e => by
    unfold run at e
    cases e1 : w.step solve op with
    | ok w1 =>
      rw [e1] at e
      exact run_own solve ops w1 w' o (step_own solve h op (hops op (by simp)) e1) (fun op' h' => hops op' (by simp [h'])) e
    | throws =>
      rw [e1] at e
      exact run_own solve ops w w' o ⟨ob, h⟩ (fun op' h' => hops op' (by simp [h'])) e
    | ub =>
      rw [e1] at e
      exact nomatch e

/-! ### What every object keeps -/

/-- What holds for every object, copied or not. -/
structure Shape (ob : VarObj K D) : Prop where
  sized : SplineVars.Sized ob.own.spline
  length : ob.own.vars.length = ob.own.spline.coeffs.length
  nodup : ob.own.serials.Nodup
  fresh : ∀ n ∈ ob.own.serials, n < ob.own.fresh
  homes : ob.homes.length = ob.own.vars.length

theorem Own.shape {w : VarWorld K D} {o : ℕ} {ob : VarObj K D} (h : Own w o ob) : Shape ob :=
  ⟨h.mirror.sized, h.mirror.length, h.mirror.nodup, h.mirror.fresh, by rw [h.homes]; simp⟩

/-- The same object with pointers to its own memory. -/
def norm (v : SplineVars K D) : SplineVars K D :=
  { v with vars := v.vars.zipIdx.map fun p => ⟨p.1.serial, v.buffer, p.2, p.1.saved⟩ }

theorem norm_serials (v : SplineVars K D) : (norm v).serials = v.serials := by
  unfold norm SplineVars.serials
  apply List.ext_getElem
  · simp
  · intro i h1 h2
    simp

theorem Shape.norm {ob : VarObj K D} (h : Shape ob) : SplineVars.Mirror (norm ob.own) := by
  refine ⟨h.sized, ?_, ?_, ?_, ?_⟩
  · show (List.map _ ob.own.vars.zipIdx).length = _
    rw [List.length_map, List.length_zipIdx]
    exact h.length
  · intro i x hx
    have hx : (ob.own.vars.zipIdx.map fun p => (⟨p.1.serial, ob.own.buffer, p.2, p.1.saved⟩ : MappedVar K D))[i]? = some x := hx
    rw [List.getElem?_map, Option.map_eq_some_iff] at hx
    obtain ⟨⟨y, j⟩, hy, rfl⟩ := hx
    rw [List.getElem?_zipIdx, Option.map_eq_some_iff] at hy
    obtain ⟨y0, -, he⟩ := hy
    simp only [Prod.mk.injEq, Nat.zero_add] at he
    exact ⟨rfl, he.2.symm⟩
  · rw [norm_serials]
    exact h.nodup
  · intro n hn
    rw [norm_serials] at hn
    exact h.fresh n hn

theorem remap_norm (b c n : ℕ) (l : List (MappedVar K D)) (h : l.length = n) (r : List (MappedVar K D)) :
    SplineVars.remap b ((l.zipIdx.map fun p => (⟨p.1.serial, c, p.2, p.1.saved⟩ : MappedVar K D)) ++ r) n =
      SplineVars.remap b (l ++ r) n := by
  unfold SplineVars.remap
  have hl : ((l.zipIdx.map fun p => (⟨p.1.serial, c, p.2, p.1.saved⟩ : MappedVar K D)) ++ r).length = (l ++ r).length := by simp
  rw [hl]
  split_ifs with hc
  · rfl
  · congr 1
    apply List.ext_getElem
    · simp
    · intro i h1 h2
      simp only [List.getElem_map, List.getElem_zipIdx, Nat.zero_add]
      rcases Nat.lt_or_ge i l.length with hi | hi
      · rw [if_pos (by omega), if_pos (by omega), List.getElem_append_left (by simpa using hi), List.getElem_append_left hi]
        simp
      · rw [if_neg (by omega), if_neg (by omega), List.getElem_append_right (by simpa using hi), List.getElem_append_right hi]
        simp

theorem attach_norm {ob : VarObj K D} (h : Shape ob) {s' : BSpline K D} (a : SplineVars.Appended ob.own.spline s') :
    (norm ob.own).attach s' = ob.own.attach s' := by
  unfold SplineVars.attach
  split_ifs with hc
  · rfl
  · dsimp only [norm]
    rw [remap_norm _ _ _ _ (by have := a.coeffs; have := h.length; omega)]

theorem add_norm (solve : Solver K) {ob : VarObj K D} (h : Shape ob) (t : K) (p junk : Fin D → K) :
    (norm ob.own).addSegment solve t p junk = ob.own.addSegment solve t p junk := by
  unfold SplineVars.addSegment
  show (ob.own.spline.addCurveSegment solve t p junk).bind _ = _
  by_cases hc : SplineVars.CanAppend ob.own.spline t
  · obtain ⟨s', e, a⟩ := SplineVars.add_sized solve h.sized hc.1 t hc.2 p junk
    rw [e]
    exact attach_norm h a
  · unfold addCurveSegment
    rw [SplineVars.extend_throws hc]
    rfl

theorem add2_norm (solve : Solver K) {ob : VarObj K D} (h : Shape ob) (t : K) (p : Fin D → K) (lambda : K) (junk : Fin D → K) :
    (norm ob.own).addSegment2 solve t p lambda junk = ob.own.addSegment2 solve t p lambda junk := by
  unfold SplineVars.addSegment2
  show (ob.own.spline.addCurveSegment2 solve t p lambda junk).bind _ = _
  by_cases hc : SplineVars.CanAppend ob.own.spline t
  · obtain ⟨s', e, a⟩ := SplineVars.add2_sized solve h.sized hc.1 t hc.2 p lambda junk
    rw [e]
    exact attach_norm h a
  · unfold addCurveSegment2
    rw [SplineVars.extend_throws hc]
    rfl

/-- The calls that renew all pointers. -/
def Renews : SplineVars.Op K D → Prop
  | .add .. => True
  | .add2 .. => True
  | .remove => True
  | _ => False

/-- A call that renews the pointers gives the object design variables of its own. -/
theorem renew_own (solve : Solver K) {w w' : VarWorld K D} {o : ℕ} {ob : VarObj K D} (ho : w.obj o = some ob) (h : Shape ob)
    (op : SplineVars.Op K D) (hop : Renews op) (e : w.act solve o op = .ok w') :
    ∃ ob', Own w' o ob' ∧ ∀ o', o' ≠ o → w'.obj o' = w.obj o' := by
  have hlt := obj_lt ho
  unfold act at e
  rw [ho] at e
  cases op with
  | add t p junk =>
    obtain ⟨v, e1, rfl⟩ := of_map_ok e
    rw [← add_norm solve h] at e1
    rcases SplineVars.add_outcome solve h.norm t p junk with ⟨-, e2⟩ | ⟨-, v', e2, hv, hs, -⟩
    · rw [e1] at e2
      exact nomatch e2
    · rw [e1] at e2
      obtain rfl := Outcome.ok.inj e2
      rw [norm_serials] at hs
      have hl : v.vars.length = ob.own.vars.length + 1 := by
        have := congrArg List.length hs
        simpa [SplineVars.serials] using this
      refine ⟨_, ⟨obj_set_self hlt _, hv, ?_⟩, fun o' ho' => obj_set_ne ho' _⟩
      dsimp only
      rw [rehome_append (by have := hv.length; have := h.homes; omega), ← hv.length, hl]
      rfl
  | add2 t p lambda junk =>
    obtain ⟨v, e1, rfl⟩ := of_map_ok e
    rw [← add2_norm solve h] at e1
    rcases SplineVars.add2_outcome solve h.norm t p lambda junk with ⟨-, e2⟩ | ⟨-, v', e2, hv, hs, -⟩
    · rw [e1] at e2
      exact nomatch e2
    · rw [e1] at e2
      obtain rfl := Outcome.ok.inj e2
      rw [norm_serials] at hs
      have hl : v.vars.length = ob.own.vars.length + 1 := by
        have := congrArg List.length hs
        simpa [SplineVars.serials] using this
      refine ⟨_, ⟨obj_set_self hlt _, hv, ?_⟩, fun o' ho' => obj_set_ne ho' _⟩
      dsimp only
      rw [rehome_append (by have := hv.length; have := h.homes; omega), ← hv.length, hl]
      rfl
  | remove =>
    obtain ⟨v, e1, rfl⟩ := of_map_ok e
    have hne : ob.own.spline.coeffs ≠ [] := by
      intro hc
      have hv : ob.own.vars = [] := by
        have := h.length
        rw [hc] at this
        exact List.length_eq_zero_iff.1 this
      unfold SplineVars.removeSegment at e1
      rw [hv] at e1
      exact nomatch e1
    have hpos : 0 < ob.own.vars.length := by rw [h.length]; exact List.length_pos_iff.2 hne
    obtain ⟨v', e2, hv, hs, hsp, hco⟩ := SplineVars.remove_ok h.norm hne
    have hvv : v = v' := by
      have e3 : (norm ob.own).removeSegment = .ok v := by
        rw [← e1]
        unfold SplineVars.removeSegment
        cases hvs : ob.own.vars with
        | nil => rw [hvs] at hpos; simp at hpos
        | cons y rest =>
          have hn : (norm ob.own).vars = ⟨y.serial, ob.own.buffer, 0, y.saved⟩ ::
              (rest.zipIdx 1).map fun p => (⟨p.1.serial, ob.own.buffer, p.2, p.1.saved⟩ : MappedVar K D) := by
            unfold norm
            rw [hvs]
            simp
          rw [hn]
          have hco' : ob.own.spline.removeCurveSegment.coeffs.length = rest.length := by
            have h1 : v'.spline.coeffs.length = ob.own.spline.removeCurveSegment.coeffs.length := by rw [hsp]; rfl
            have h2 : v'.spline.coeffs.length = ob.own.spline.coeffs.length - 1 := by rw [hco, List.length_tail]; rfl
            have h3 := h.length
            rw [hvs, List.length_cons] at h3
            omega
          show (SplineVars.remap _ ((rest.zipIdx 1).map _) ob.own.spline.removeCurveSegment.coeffs.length).map _ =
            (SplineVars.remap _ rest ob.own.spline.removeCurveSegment.coeffs.length).map _
          have : ∀ b n, n = rest.length → SplineVars.remap b
              ((rest.zipIdx 1).map fun p => (⟨p.1.serial, ob.own.buffer, p.2, p.1.saved⟩ : MappedVar K D)) n =
                SplineVars.remap b rest n := by
            rintro b _ rfl
            unfold SplineVars.remap
            rw [if_neg (by simp), if_neg (by simp)]
            congr 1
            apply List.ext_getElem
            · simp
            · intro i h1 h2
              simp only [List.getElem_map, List.getElem_zipIdx]
              have : i < rest.length := by simpa using h2
              rw [if_pos (by omega), if_pos (by omega)]
          rw [this _ _ hco']
          rfl
      rw [e3] at e2
      exact Outcome.ok.inj e2
    subst hvv
    rw [norm_serials] at hs
    have hl : v.vars.length = ob.own.vars.length - 1 := by
      have := congrArg List.length hs
      simpa [SplineVars.serials] using this
    refine ⟨_, ⟨obj_set_self hlt _, hv, ?_⟩, fun o' ho' => obj_set_ne ho' _⟩
    dsimp only
    have h1 := h.homes
    rw [rehome_all (by rw [List.length_tail, ← hv.length]; omega), List.length_tail, hl, h1]
  | update i dp => exact hop.elim
  | revert i => exact hop.elim

theorem shape_write {ob : VarObj K D} (h : Shape ob) (j : ℕ) (c : Fin D → K) :
    Shape ⟨{ ob.own with
      spline := BSpline.mk (K := K) ob.own.spline.order ob.own.spline.knots (ob.own.spline.coeffs.set j c) ob.own.spline.basis },
      ob.homes⟩ :=
  ⟨SplineVars.sized_set h.sized j c, by simpa using h.length, h.nodup, h.fresh, h.homes⟩

theorem shape_remember {ob : VarObj K D} (h : Shape ob) {i : ℕ} {x : MappedVar K D} (hx : ob.own.vars[i]? = some x) (c : Fin D → K) :
    Shape ⟨{ ob.own with vars := ob.own.vars.set i { x with saved := c } }, ob.homes⟩ := by
  have hs : (ob.own.vars.set i { x with saved := c }).map MappedVar.serial = ob.own.serials := SplineVars.serials_set hx _ rfl
  refine ⟨h.sized, by simpa using h.length, ?_, ?_, by simpa using h.homes⟩
  · show (List.map _ _).Nodup
    rw [hs]
    exact h.nodup
  · intro n hn
    have hn : n ∈ (ob.own.vars.set i { x with saved := c }).map MappedVar.serial := hn
    rw [hs] at hn
    exact h.fresh n hn

/-- Every object of the world has its shape. -/
def Shaped (w : VarWorld K D) : Prop := ∀ o ob, w.obj o = some ob → Shape ob

theorem shaped_append {w : VarWorld K D} (h : Shaped w) {ob : VarObj K D} (hob : Shape ob) : Shaped (w ++ [some ob]) := by
  intro o ob' ho
  rcases lt_trichotomy o w.length with h1 | h1 | h1
  · rw [obj_append h1] at ho
    exact h o ob' ho
  · subst h1
    rw [obj_new] at ho
    obtain rfl := Option.some.inj ho
    exact hob
  · rw [obj_beyond h1] at ho
    exact nomatch ho

theorem shaped_set {w : VarWorld K D} (h : Shaped w) {o : ℕ} {x : Option (VarObj K D)} (hx : ∀ ob, x = some ob → Shape ob) :
    Shaped (w.set o x) := by
  intro o' ob' ho
  by_cases hne : o' = o
  · subst hne
    have hlt : o' < w.length := by
      have := obj_lt ho
      simpa using this
    rw [obj_set_self hlt] at ho
    exact hx ob' ho
  · rw [obj_set_ne hne] at ho
    exact h o' ob' ho

theorem shaped_writeAt {w w' : VarWorld K D} (h : Shaped w) {g : ℕ} {x : MappedVar K D} {c : Fin D → K} (e : w.writeAt g x c = .ok w') :
    Shaped w' := by
  obtain ⟨hb, h1, -, h2, h3, -⟩ := writeAt_obj e
  intro o ob ho
  by_cases hg : o = g
  · subst hg
    rw [h2] at ho
    obtain rfl := Option.some.inj ho
    exact shape_write (h o hb h1) _ _
  · rw [h3 o hg] at ho
    exact h o ob ho

/-- Events with splines as the constructors of `BSpline` and its functions make them. -/
def VOp.Fair : VOp K D → Prop
  | .create s => SplineVars.Sized s
  | _ => True

theorem step_shaped (solve : Solver K) {w w' : VarWorld K D} (h : Shaped w) (op : VOp K D) (hop : op.Fair)
    (e : w.step solve op = .ok w') : Shaped w' := by
  cases op with
  | create s =>
    obtain rfl := Outcome.ok.inj e
    exact shaped_append h (own_create hop w).shape
  | copy src =>
    have e : w.copy src = .ok w' := e
    unfold copy at e
    cases hs : w.obj src with
    | none => rw [hs] at e; exact nomatch e
    | some sb =>
      rw [hs] at e
      obtain rfl := Outcome.ok.inj e
      have := h src sb hs
      exact shaped_append h ⟨this.sized, this.length, this.nodup, this.fresh, this.homes⟩
  | assign dst src =>
    have e : w.assign dst src = .ok w' := e
    unfold assign at e
    cases hd : w.obj dst with
    | none => rw [hd] at e; exact nomatch e
    | some db =>
      cases hs : w.obj src with
      | none => rw [hd, hs] at e; exact nomatch e
      | some sb =>
        rw [hd, hs] at e
        obtain rfl := Outcome.ok.inj e
        have := h src sb hs
        refine shaped_set h fun ob hob => ?_
        obtain rfl := Option.some.inj hob
        exact ⟨this.sized, this.length, this.nodup, this.fresh, this.homes⟩
  | destroy o' =>
    have e : w.destroy o' = .ok w' := e
    unfold destroy at e
    cases hd : w.obj o' with
    | none => rw [hd] at e; exact nomatch e
    | some db =>
      rw [hd] at e
      obtain rfl := Outcome.ok.inj e
      exact shaped_set h fun ob hob => nomatch hob
  | act o op =>
    have e : w.act solve o op = .ok w' := e
    by_cases hr : Renews op
    · cases ho : w.obj o with
      | none =>
        unfold act at e
        rw [ho] at e
        exact nomatch e
      | some ob =>
        obtain ⟨ob', h', hk⟩ := renew_own solve ho (h o ob ho) op hr e
        intro o1 ob1 h1
        by_cases hne : o1 = o
        · subst hne
          rw [h'.here] at h1
          obtain rfl := Option.some.inj h1
          exact h'.shape
        · rw [hk o1 hne] at h1
          exact h o1 ob1 h1
    · unfold act at e
      cases ho : w.obj o with
      | none => rw [ho] at e; exact nomatch e
      | some ob =>
        rw [ho] at e
        cases op with
        | add t p junk => exact absurd trivial hr
        | add2 t p lambda junk => exact absurd trivial hr
        | remove => exact absurd trivial hr
        | update i dp =>
          obtain ⟨r, e0, e⟩ := Outcome.bind_eq_ok.1 e
          obtain ⟨c, -, e⟩ := Outcome.bind_eq_ok.1 e
          obtain ⟨w1, e1, rfl⟩ := of_map_ok e
          have hx : ob.own.vars[i]? = some r.1 := by
            unfold target SplineVars.designVariable at e0
            cases hv : ob.own.vars[i]? with
            | none => rw [hv] at e0; exact nomatch e0
            | some x =>
              rw [hv] at e0
              simp only [Outcome.bind_ok] at e0
              cases hh : ob.homes[i]? with
              | none => rw [hh] at e0; exact nomatch e0
              | some g =>
                rw [hh] at e0
                rw [← Outcome.ok.inj e0]
          have h1 := shaped_writeAt h e1
          have hob1 : ∃ ob1, w1.obj o = some ob1 ∧ ob1.own.vars = ob.own.vars := by
            obtain ⟨hb, g1, -, g2, g3, -⟩ := writeAt_obj e1
            by_cases hg : o = r.2
            · rw [← hg] at g1 g2
              rw [ho] at g1
              obtain rfl := Option.some.inj g1
              exact ⟨_, g2, rfl⟩
            · exact ⟨ob, (g3 o hg).trans ho, rfl⟩
          obtain ⟨ob1, ho1, hv1⟩ := hob1
          intro o2 ob2 h2
          by_cases hne : o2 = o
          · subst hne
            rw [remember_obj ho1] at h2
            obtain rfl := Option.some.inj h2
            exact shape_remember (h1 _ _ ho1) (by rw [hv1]; exact hx) c
          · rw [remember_obj_ne hne] at h2
            exact h1 _ _ h2
        | revert i =>
          obtain ⟨r, -, e⟩ := Outcome.bind_eq_ok.1 e
          exact shaped_writeAt h e

theorem run_shaped (solve : Solver K) : ∀ (ops : List (VOp K D)) (w w' : VarWorld K D), Shaped w →
    (∀ op ∈ ops, VOp.Fair op) → w.run solve ops = .ok w' → Shaped w'
  | [], w, w', h, _, e => by
    obtain rfl := Outcome.ok.inj e
    exact h
  | op :: ops, w, w', h, hops, e => by
    unfold run at e
    cases e1 : w.step solve op with
    | ok w1 =>
      rw [e1] at e
      exact run_shaped solve ops w1 w' (step_shaped solve h op (hops op (by simp)) e1) (fun op' h' => hops op' (by simp [h'])) e
    | throws =>
      rw [e1] at e
      exact run_shaped solve ops w w' h (fun op' h' => hops op' (by simp [h'])) e
    | ub =>
      rw [e1] at e
      exact nomatch e

theorem shaped_nil : Shaped ([] : VarWorld K D) := by
  intro o ob h
  exact nomatch h

/-! ### C92 -/

/-- **C92** (partial: an object made by copying or assigned to is excluded, see `C92_copy_violated`): an object made by the constructor
from a spline stays independent through every history in which it is neither assigned to nor destroyed, whatever is done with its
copies: updating its `i`th design variable moves the `i`th coefficient of its own spline and nothing else. -/
theorem C92_constructed_partial (solve : Solver K) (w w' : VarWorld K D) (s : BSpline K D) (hs : SplineVars.Sized s) (ops : List (VOp K D))
    (hops : ∀ op ∈ ops, ¬ VOp.Replaces w.length op) (e : (w.create s).run solve ops = .ok w') :
    (∃ s', w'.splineAt w.length = some s') ∧ Independent solve w' w.length := by
  obtain ⟨ob, h⟩ := run_own solve ops _ w' w.length ⟨_, own_create hs w⟩ hops e
  exact ⟨⟨ob.own.spline, by unfold splineAt; rw [h.here]; rfl⟩, own_independent solve h⟩

/-- **C92**: a copy has the spline of its source, and no other spline changes. -/
theorem C92_copy_value (w w' : VarWorld K D) (src : ℕ) (e : w.copy src = .ok w') :
    w'.splineAt w.length = w.splineAt src ∧ (w.splineAt src).isSome ∧ OthersKept w w' w.length := by
  unfold copy at e
  cases hs : w.obj src with
  | none => rw [hs] at e; exact nomatch e
  | some sb =>
    rw [hs] at e
    obtain rfl := Outcome.ok.inj e
    refine ⟨?_, ?_, fun o ho => ?_⟩
    · unfold splineAt
      rw [obj_new, hs]
      rfl
    · unfold splineAt
      rw [hs]
      rfl
    · unfold splineAt
      rcases lt_or_gt_of_ne ho with h1 | h1
      · rw [obj_append h1]
      · rw [obj_beyond h1]
        unfold obj
        rw [List.getElem?_eq_none h1.le]
        rfl

theorem copy_obj {w w' : VarWorld K D} {src : ℕ} {ob : VarObj K D} (hs : w.obj src = some ob) (e : w.copy src = .ok w') :
    w'.obj w.length = some ⟨{ ob.own with buffer := 0 }, ob.homes⟩ ∧ ∀ o < w.length, w'.obj o = w.obj o := by
  unfold copy at e
  rw [hs] at e
  obtain rfl := Outcome.ok.inj e
  exact ⟨obj_new w _, fun o ho => obj_append ho _⟩

/-- **C92, violated**: updating a design variable of a copy moves the coefficient of the *source*, and leaves the copy as it is. -/
theorem C92_copy_violated (solve : Solver K) (w w' : VarWorld K D) (src : ℕ) (ob : VarObj K D) (h : Own w src ob) (e : w.copy src = .ok w')
    (i : ℕ) (hi : i < ob.own.spline.coeffs.length) (dp : Fin D → K) :
    ∃ w'', w'.act solve w.length (.update i dp) = .ok w'' ∧ Moved w' w'' src i dp ∧ OthersKept w' w'' src ∧
      w''.splineAt w.length = w'.splineAt w.length ∧ (dp ≠ 0 → ¬ Independent solve w' w.length) := by
  obtain ⟨h1, h2⟩ := copy_obj h.here e
  have hlt := obj_lt h.here
  have hi' : i < ob.own.vars.length := by rw [h.mirror.length]; exact hi
  have hx := List.getElem?_eq_getElem hi'
  obtain ⟨hb, hc⟩ := h.mirror.maps i _ hx
  obtain ⟨w'', e1, hm, hk⟩ := update_through solve (o := w.length) h1 hx
    (by show ob.homes[i]? = some src; rw [h.homes, List.getElem?_replicate, if_pos hi']) ((h2 src hlt).trans h.here) hb hc hi dp
  refine ⟨w'', e1, hm, hk, hk _ (Ne.symm (ne_of_lt hlt)), fun hdp hind => ?_⟩
  obtain ⟨w3, e3, -, hk3⟩ := hind ob.own.spline (by unfold splineAt; rw [h1]; rfl) i hi dp
  rw [e1] at e3
  obtain rfl := Outcome.ok.inj e3
  have hsrc := hk3 src (ne_of_lt hlt)
  obtain ⟨s, s', g1, g2, -, -, -, -, g3, -⟩ := hm
  rw [hsrc, g1] at g2
  obtain rfl := Option.some.inj g2
  apply hdp
  funext d
  have := g3 d
  show dp d = 0
  linarith

/-- **C92, violated**: when the source is destroyed, or gets or loses a segment, the design variables of the copy point to memory
that is gone: updating one is undefined behaviour. -/
theorem C92_dangling (solve : Solver K) (w w1 w2 : VarWorld K D) (src : ℕ) (ob : VarObj K D) (h : Own w src ob) (e : w.copy src = .ok w1)
    (op : VOp K D) (hop : op = .destroy src ∨ ∃ c, Renews c ∧ op = .act src c) (e2 : w1.step solve op = .ok w2)
    (i : ℕ) (hi : i < ob.own.spline.coeffs.length) (dp : Fin D → K) :
    w2.act solve w.length (.update i dp) = .ub ∧ w2.splineAt w.length = w.splineAt src := by
  obtain ⟨h1, h2⟩ := copy_obj h.here e
  have hlt := obj_lt h.here
  have hne : w.length ≠ src := Ne.symm (ne_of_lt hlt)
  have hi' : i < ob.own.vars.length := by rw [h.mirror.length]; exact hi
  have hx := List.getElem?_eq_getElem hi'
  have hown : Own w1 src ob := ⟨(h2 src hlt).trans h.here, h.mirror, h.homes⟩
  have hc : w2.obj w.length = w1.obj w.length ∧ ∀ sb, w2.obj src = some sb → sb.own.buffer ≠ ob.own.buffer := by
    rcases hop with rfl | ⟨c, hc, rfl⟩
    · have e2 : w1.destroy src = .ok w2 := e2
      unfold destroy at e2
      rw [hown.here] at e2
      obtain rfl := Outcome.ok.inj e2
      refine ⟨obj_set_ne hne _, fun sb hsb => ?_⟩
      rw [obj_set_self (obj_lt hown.here)] at hsb
      exact nomatch hsb
    · have e2 : w1.act solve src c = .ok w2 := e2
      rw [act_own solve hown] at e2
      obtain ⟨v, e3, rfl⟩ := of_map_ok e2
      refine ⟨obj_set_ne hne _, fun sb hsb => ?_⟩
      rw [obj_set_self (obj_lt hown.here)] at hsb
      obtain rfl := Option.some.inj hsb
      show v.buffer ≠ ob.own.buffer
      have att : ∀ s', ob.own.attach s' = .ok v → v.buffer = ob.own.buffer + 1 := by
        intro s' ha
        unfold SplineVars.attach at ha
        split_ifs at ha
        obtain ⟨_, -, rfl⟩ := of_map_ok ha
        rfl
      cases c with
      | add t p junk =>
        have e3 : ob.own.addSegment solve t p junk = .ok v := e3
        unfold SplineVars.addSegment at e3
        obtain ⟨s', -, ha⟩ := Outcome.bind_eq_ok.1 e3
        have := att s' ha
        omega
      | add2 t p lambda junk =>
        have e3 : ob.own.addSegment2 solve t p lambda junk = .ok v := e3
        unfold SplineVars.addSegment2 at e3
        obtain ⟨s', -, ha⟩ := Outcome.bind_eq_ok.1 e3
        have := att s' ha
        omega
      | remove =>
        have e3 : ob.own.removeSegment = .ok v := e3
        obtain ⟨v', e4, -, -, -, hco⟩ := SplineVars.remove_ok h.mirror (by intro hc0; rw [hc0] at hi; simp at hi)
        rw [e3] at e4
        obtain rfl := Outcome.ok.inj e4
        unfold SplineVars.removeSegment at e3
        cases hvs : ob.own.vars with
        | nil => rw [hvs] at hi'; simp at hi'
        | cons y rest =>
          rw [hvs] at e3
          obtain ⟨vars', -, e5⟩ := of_map_ok e3
          have hlen : v.spline.coeffs.length = ob.own.spline.coeffs.length - 1 := by rw [hco, List.length_tail]
          rw [← e5] at hlen
          have hlen : ob.own.spline.removeCurveSegment.coeffs.length = ob.own.spline.coeffs.length - 1 := hlen
          rw [← e5]
          show (if ob.own.spline.removeCurveSegment.coeffs.length = ob.own.spline.coeffs.length then ob.own.buffer
            else ob.own.buffer + 1) ≠ ob.own.buffer
          rw [if_neg (by omega)]
          omega
      | update i dp => exact hc.elim
      | revert i => exact hc.elim
  obtain ⟨hc1, hc2⟩ := hc
  constructor
  · unfold act
    rw [hc1, h1]
    dsimp only
    have ht : target (⟨{ ob.own with buffer := 0 }, ob.homes⟩ : VarObj K D) i = .ok (ob.own.vars[i], src) := by
      unfold target SplineVars.designVariable
      dsimp only
      rw [hx]
      simp only [Outcome.bind_ok]
      rw [h.homes, List.getElem?_replicate, if_pos hi']
    rw [ht]
    simp only [Outcome.bind_ok]
    have hr : w2.readAt src ob.own.vars[i] = .ub := by
      unfold readAt
      cases hs : w2.obj src with
      | none => rfl
      | some sb =>
        dsimp only
        unfold SplineVars.deref
        rw [if_neg]
        rw [(h.mirror.maps i _ hx).1]
        exact Ne.symm (hc2 sb hs)
    rw [hr]
    rfl
  · unfold splineAt
    rw [hc1, h1, h.here]
    rfl

/-- **C92, violated**: after `dst = src` updating a design variable of `dst` moves the coefficient of `src`. -/
theorem C92_assign_violated (solve : Solver K) (w w' : VarWorld K D) (dst src : ℕ) (ob : VarObj K D) (h : Own w src ob) (hne : dst ≠ src)
    (e : w.assign dst src = .ok w') (i : ℕ) (hi : i < ob.own.spline.coeffs.length) (dp : Fin D → K) :
    w'.splineAt dst = w.splineAt src ∧ OthersKept w w' dst ∧
    ∃ w'', w'.act solve dst (.update i dp) = .ok w'' ∧ Moved w' w'' src i dp ∧ OthersKept w' w'' src := by
  have hi' : i < ob.own.vars.length := by rw [h.mirror.length]; exact hi
  have hx := List.getElem?_eq_getElem hi'
  obtain ⟨hb, hc⟩ := h.mirror.maps i _ hx
  unfold assign at e
  cases hd : w.obj dst with
  | none => rw [hd] at e; exact nomatch e
  | some db =>
    rw [hd, h.here] at e
    obtain rfl := Outcome.ok.inj e
    have hd' := obj_set_self (obj_lt hd) (some (⟨{ ob.own with buffer := if db.own.spline.coeffs.length = ob.own.spline.coeffs.length
      then db.own.buffer else db.own.buffer + 1 }, ob.homes⟩ : VarObj K D))
    refine ⟨?_, fun o ho => ?_, update_through solve hd' hx
      (by show ob.homes[i]? = some src; rw [h.homes, List.getElem?_replicate, if_pos hi'])
      ((obj_set_ne (Ne.symm hne) _).trans h.here) hb hc hi dp⟩
    · unfold splineAt
      rw [obj_set_self (obj_lt hd), h.here]
      rfl
    · unfold splineAt
      rw [obj_set_ne ho]

/-- **C92**: every object, copied or not, becomes independent by its first successful `addSegment`, `addSegment2` or
`removeSegment`, and stays so through every later history in which it is neither assigned to nor destroyed. -/
theorem C92_renewed (solve : Solver K) (pre post : List (VOp K D)) (w w1 w2 : VarWorld K D) (hpre : ∀ op ∈ pre, VOp.Fair op)
    (e : run solve [] pre = .ok w) (o : ℕ) (op : SplineVars.Op K D) (hop : Renews op) (e1 : w.act solve o op = .ok w1)
    (hpost : ∀ op ∈ post, ¬ VOp.Replaces o op) (e2 : w1.run solve post = .ok w2) : Independent solve w2 o := by
  have hs := run_shaped solve pre [] w shaped_nil hpre e
  cases ho : w.obj o with
  | none =>
    unfold act at e1
    rw [ho] at e1
    exact nomatch e1
  | some ob =>
    obtain ⟨ob', h', -⟩ := renew_own solve ho (hs o ob ho) op hop e1
    obtain ⟨ob2, h2⟩ := run_own solve post w1 w2 o ⟨ob', h'⟩ hpost e2
    exact own_independent solve h2

/-! ### The spline of a copy is its own -/

/-- The event names the object. -/
def VOp.Names (c : ℕ) : VOp K D → Prop
  | .create _ => False
  | .copy src => src = c
  | .assign dst src => dst = c ∨ src = c
  | .destroy o => o = c
  | .act o _ => o = c

/-- No other object has a pointer into the memory of the object `c`. -/
def Unshared (w : VarWorld K D) (c : ℕ) : Prop := c < w.length ∧ ∀ o ob, w.obj o = some ob → o ≠ c → c ∉ ob.homes

theorem mem_rehome {o n h : ℕ} {l : List ℕ} (e : h ∈ rehome o n l) : h = o ∨ h ∈ l := by
  unfold rehome at e
  rw [List.mem_map] at e
  obtain ⟨⟨a, j⟩, ha, rfl⟩ := e
  dsimp only
  split_ifs
  · exact Or.inl rfl
  · exact Or.inr (List.fst_mem_of_mem_zipIdx ha)

theorem target_mem {ob : VarObj K D} {i : ℕ} {r : MappedVar K D × ℕ} (e : target ob i = .ok r) : r.2 ∈ ob.homes := by
  unfold target at e
  obtain ⟨x, -, e⟩ := Outcome.bind_eq_ok.1 e
  cases hh : ob.homes[i]? with
  | none => rw [hh] at e; exact nomatch e
  | some g =>
    rw [hh] at e
    rw [← Outcome.ok.inj e]
    exact List.mem_of_getElem? hh

theorem length_writeAt {w w' : VarWorld K D} {g : ℕ} {x : MappedVar K D} {c : Fin D → K} (e : w.writeAt g x c = .ok w') :
    w'.length = w.length := by
  obtain ⟨-, -, -, -, -, h⟩ := writeAt_obj e
  exact h

theorem homes_writeAt {w w' : VarWorld K D} {g : ℕ} {x : MappedVar K D} {c : Fin D → K} (e : w.writeAt g x c = .ok w') (o : ℕ)
    (ob' : VarObj K D) (h : w'.obj o = some ob') : ∃ ob, w.obj o = some ob ∧ ob'.homes = ob.homes := by
  obtain ⟨hb, h1, -, h2, h3, -⟩ := writeAt_obj e
  by_cases hg : o = g
  · subst hg
    rw [h2] at h
    obtain rfl := Option.some.inj h
    exact ⟨hb, h1, rfl⟩
  · rw [h3 o hg] at h
    exact ⟨ob', h, rfl⟩

theorem length_remember (w : VarWorld K D) (o i : ℕ) (x : MappedVar K D) (c : Fin D → K) : (w.remember o i x c).length = w.length := by
  unfold remember
  cases w.obj o with
  | none => rfl
  | some ob => exact List.length_set

theorem homes_remember {w : VarWorld K D} {g i : ℕ} {x : MappedVar K D} {c : Fin D → K} (o : ℕ)
    (ob' : VarObj K D) (h : (w.remember g i x c).obj o = some ob') : ∃ ob, w.obj o = some ob ∧ ob'.homes = ob.homes := by
  by_cases hg : o = g
  · subst hg
    cases hh : w.obj o with
    | none =>
      have : w.remember o i x c = w := by unfold remember; rw [hh]
      rw [this, hh] at h
      exact nomatch h
    | some ob =>
      rw [remember_obj hh] at h
      obtain rfl := Option.some.inj h
      exact ⟨ob, rfl, rfl⟩
  · rw [remember_obj_ne hg] at h
    exact ⟨ob', h, rfl⟩

theorem unshared_set {w : VarWorld K D} {c : ℕ} (h : Unshared w c) {o : ℕ} (hne : o ≠ c) {x : Option (VarObj K D)}
    (hx : ∀ ob, x = some ob → c ∉ ob.homes) : Unshared (w.set o x) c ∧ splineAt (w.set o x) c = w.splineAt c := by
  refine ⟨⟨by simpa using h.1, fun o' ob ho hc => ?_⟩, ?_⟩
  · by_cases ho' : o' = o
    · subst ho'
      have hlt : o' < w.length := by simpa using obj_lt ho
      rw [obj_set_self hlt] at ho
      exact hx ob ho
    · rw [obj_set_ne ho'] at ho
      exact h.2 o' ob ho hc
  · unfold splineAt
    rw [obj_set_ne (Ne.symm hne)]

theorem unshared_append {w : VarWorld K D} {c : ℕ} (h : Unshared w c) {ob : VarObj K D} (hob : c ∉ ob.homes) :
    Unshared (w ++ [some ob]) c ∧ splineAt (w ++ [some ob]) c = w.splineAt c := by
  have h1 := h.1
  refine ⟨⟨by simp; omega, fun o' ob' ho hc => ?_⟩, ?_⟩
  · rcases lt_trichotomy o' w.length with h2 | h2 | h2
    · rw [obj_append h2] at ho
      exact h.2 o' ob' ho hc
    · subst h2
      rw [obj_new] at ho
      obtain rfl := Option.some.inj ho
      exact hob
    · rw [obj_beyond h2] at ho
      exact nomatch ho
  · unfold splineAt
    rw [obj_append h1]

theorem step_unshared (solve : Solver K) {w w' : VarWorld K D} {c : ℕ} (h : Unshared w c) (op : VOp K D) (hop : ¬ op.Names c)
    (e : w.step solve op = .ok w') : Unshared w' c ∧ w'.splineAt c = w.splineAt c := by
  cases op with
  | create s =>
    obtain rfl := Outcome.ok.inj e
    refine unshared_append h fun hc => ?_
    have := List.eq_of_mem_replicate hc
    have := h.1
    omega
  | copy src =>
    have e : w.copy src = .ok w' := e
    unfold copy at e
    cases hs : w.obj src with
    | none => rw [hs] at e; exact nomatch e
    | some sb =>
      rw [hs] at e
      obtain rfl := Outcome.ok.inj e
      exact unshared_append h (h.2 src sb hs hop)
  | assign dst src =>
    have e : w.assign dst src = .ok w' := e
    have hd0 : dst ≠ c := fun hc => hop (Or.inl hc)
    have hs0 : src ≠ c := fun hc => hop (Or.inr hc)
    unfold assign at e
    cases hd : w.obj dst with
    | none => rw [hd] at e; exact nomatch e
    | some db =>
      cases hs : w.obj src with
      | none => rw [hd, hs] at e; exact nomatch e
      | some sb =>
        rw [hd, hs] at e
        obtain rfl := Outcome.ok.inj e
        refine unshared_set h hd0 fun ob hob => ?_
        obtain rfl := Option.some.inj hob
        exact h.2 src sb hs hs0
  | destroy o' =>
    have e : w.destroy o' = .ok w' := e
    have hne : o' ≠ c := hop
    unfold destroy at e
    cases hd : w.obj o' with
    | none => rw [hd] at e; exact nomatch e
    | some db =>
      rw [hd] at e
      obtain rfl := Outcome.ok.inj e
      exact unshared_set h hne fun ob hob => nomatch hob
  | act o op =>
    have e : w.act solve o op = .ok w' := e
    have hne : o ≠ c := hop
    unfold act at e
    cases ho : w.obj o with
    | none => rw [ho] at e; exact nomatch e
    | some ob =>
      have hc := h.2 o ob ho hne
      rw [ho] at e
      have wr : ∀ {x : MappedVar K D} {g : ℕ} {y : Fin D → K} {w1 : VarWorld K D}, g ≠ c → w.writeAt g x y = .ok w1 →
          Unshared w1 c ∧ w1.splineAt c = w.splineAt c := by
        intro x g y w1 hg e
        refine ⟨⟨by rw [length_writeAt e]; exact h.1, fun o' ob' ho' hc' => ?_⟩, ?_⟩
        · obtain ⟨ob1, h1, h2⟩ := homes_writeAt e o' ob' ho'
          rw [h2]
          exact h.2 o' ob1 h1 hc'
        · obtain ⟨hb, -, -, -, h3, -⟩ := writeAt_obj e
          unfold splineAt
          rw [h3 c (Ne.symm hg)]
      cases op with
      | add t p junk =>
        obtain ⟨v, -, rfl⟩ := of_map_ok e
        refine unshared_set h hne fun ob1 h1 => ?_
        obtain rfl := Option.some.inj h1
        intro hm
        rcases mem_rehome hm with h2 | h2
        · exact hne h2.symm
        · rcases List.mem_append.1 h2 with h3 | h3
          · exact hc h3
          · exact hne (List.mem_singleton.1 h3).symm
      | add2 t p lambda junk =>
        obtain ⟨v, -, rfl⟩ := of_map_ok e
        refine unshared_set h hne fun ob1 h1 => ?_
        obtain rfl := Option.some.inj h1
        intro hm
        rcases mem_rehome hm with h2 | h2
        · exact hne h2.symm
        · rcases List.mem_append.1 h2 with h3 | h3
          · exact hc h3
          · exact hne (List.mem_singleton.1 h3).symm
      | remove =>
        obtain ⟨v, -, rfl⟩ := of_map_ok e
        refine unshared_set h hne fun ob1 h1 => ?_
        obtain rfl := Option.some.inj h1
        intro hm
        rcases mem_rehome hm with h2 | h2
        · exact hne h2.symm
        · exact hc (List.mem_of_mem_tail h2)
      | update i dp =>
        obtain ⟨r, e0, e⟩ := Outcome.bind_eq_ok.1 e
        obtain ⟨y, -, e⟩ := Outcome.bind_eq_ok.1 e
        obtain ⟨w1, e1, rfl⟩ := of_map_ok e
        have hr : r.2 ≠ c := fun hrc => hc (hrc ▸ target_mem e0)
        obtain ⟨h1, h2⟩ := wr hr e1
        refine ⟨⟨by rw [length_remember]; exact h1.1, fun o' ob' ho' hc' => ?_⟩, by rw [remember_spline, h2]⟩
        obtain ⟨ob1, g1, g2⟩ := homes_remember o' ob' ho'
        rw [g2]
        exact h1.2 o' ob1 g1 hc'
      | revert i =>
        obtain ⟨r, e0, e⟩ := Outcome.bind_eq_ok.1 e
        exact wr (fun hrc => hc (hrc ▸ target_mem e0)) e

theorem run_unshared (solve : Solver K) : ∀ (ops : List (VOp K D)) (w w' : VarWorld K D) (c : ℕ), Unshared w c →
    (∀ op ∈ ops, ¬ VOp.Names c op) → w.run solve ops = .ok w' → w'.splineAt c = w.splineAt c
  | [], w, w', c, h, _, e => by
    obtain rfl := Outcome.ok.inj e
    rfl
  | op :: ops, w, w', c, h, hops, e => by
    unfold run at e
    cases e1 : w.step solve op with
    | ok w1 =>
      rw [e1] at e
      obtain ⟨h1, h2⟩ := step_unshared solve h op (hops op (by simp)) e1
      rw [← h2]
      exact run_unshared solve ops w1 w' c h1 (fun op' h' => hops op' (by simp [h'])) e
    | throws =>
      rw [e1] at e
      exact run_unshared solve ops w w' c h (fun op' h' => hops op' (by simp [h'])) e
    | ub =>
      rw [e1] at e
      exact nomatch e

/-- All pointers lead to objects made so far. -/
def Bounded (w : VarWorld K D) : Prop := ∀ o ob, w.obj o = some ob → ∀ h ∈ ob.homes, h < w.length

theorem bounded_set {w : VarWorld K D} (h : Bounded w) {o : ℕ} {x : Option (VarObj K D)}
    (hx : ∀ ob, x = some ob → ∀ g ∈ ob.homes, g < w.length) : Bounded (w.set o x) := by
  intro o' ob ho g hg
  rw [List.length_set]
  by_cases ho' : o' = o
  · subst ho'
    have hlt : o' < w.length := by simpa using obj_lt ho
    rw [obj_set_self hlt] at ho
    exact hx ob ho g hg
  · rw [obj_set_ne ho'] at ho
    exact h o' ob ho g hg

theorem bounded_append {w : VarWorld K D} (h : Bounded w) {ob : VarObj K D} (hob : ∀ g ∈ ob.homes, g ≤ w.length) :
    Bounded (w ++ [some ob]) := by
  intro o' ob' ho g hg
  rw [List.length_append, List.length_singleton]
  rcases lt_trichotomy o' w.length with h2 | h2 | h2
  · rw [obj_append h2] at ho
    have := h o' ob' ho g hg
    omega
  · subst h2
    rw [obj_new] at ho
    obtain rfl := Option.some.inj ho
    have := hob g hg
    omega
  · rw [obj_beyond h2] at ho
    exact nomatch ho

theorem step_bounded (solve : Solver K) {w w' : VarWorld K D} (h : Bounded w) (op : VOp K D)
    (e : w.step solve op = .ok w') : Bounded w' := by
  cases op with
  | create s =>
    obtain rfl := Outcome.ok.inj e
    exact bounded_append h fun g hg => (List.eq_of_mem_replicate hg).le
  | copy src =>
    have e : w.copy src = .ok w' := e
    unfold copy at e
    cases hs : w.obj src with
    | none => rw [hs] at e; exact nomatch e
    | some sb =>
      rw [hs] at e
      obtain rfl := Outcome.ok.inj e
      exact bounded_append h fun g hg => (h src sb hs g hg).le
  | assign dst src =>
    have e : w.assign dst src = .ok w' := e
    unfold assign at e
    cases hd : w.obj dst with
    | none => rw [hd] at e; exact nomatch e
    | some db =>
      cases hs : w.obj src with
      | none => rw [hd, hs] at e; exact nomatch e
      | some sb =>
        rw [hd, hs] at e
        obtain rfl := Outcome.ok.inj e
        refine bounded_set h fun ob hob => ?_
        obtain rfl := Option.some.inj hob
        exact h src sb hs
  | destroy o' =>
    have e : w.destroy o' = .ok w' := e
    unfold destroy at e
    cases hd : w.obj o' with
    | none => rw [hd] at e; exact nomatch e
    | some db =>
      rw [hd] at e
      obtain rfl := Outcome.ok.inj e
      exact bounded_set h fun ob hob => nomatch hob
  | act o op =>
    have e : w.act solve o op = .ok w' := e
    unfold act at e
    cases ho : w.obj o with
    | none => rw [ho] at e; exact nomatch e
    | some ob =>
      have hlt := obj_lt ho
      rw [ho] at e
      have wr : ∀ {x : MappedVar K D} {g : ℕ} {y : Fin D → K} {w1 : VarWorld K D}, w.writeAt g x y = .ok w1 → Bounded w1 := by
        intro x g y w1 e o' ob' ho' j hj
        obtain ⟨ob1, h1, h2⟩ := homes_writeAt e o' ob' ho'
        rw [h2] at hj
        rw [length_writeAt e]
        exact h o' ob1 h1 j hj
      have re : ∀ (n : ℕ) (l : List ℕ), (∀ g ∈ l, g < w.length) → ∀ g ∈ rehome o n l, g < w.length := by
        intro n l hl g hg
        rcases mem_rehome hg with rfl | h1
        · exact hlt
        · exact hl g h1
      have ap : ∀ g ∈ ob.homes ++ [o], g < w.length := by
        intro g hg
        rcases List.mem_append.1 hg with h1 | h1
        · exact h o ob ho g h1
        · rw [List.mem_singleton.1 h1]
          exact hlt
      cases op with
      | add t p junk =>
        obtain ⟨v, -, rfl⟩ := of_map_ok e
        refine bounded_set h fun ob1 h1 => ?_
        obtain rfl := Option.some.inj h1
        exact re _ _ ap
      | add2 t p lambda junk =>
        obtain ⟨v, -, rfl⟩ := of_map_ok e
        refine bounded_set h fun ob1 h1 => ?_
        obtain rfl := Option.some.inj h1
        exact re _ _ ap
      | remove =>
        obtain ⟨v, -, rfl⟩ := of_map_ok e
        refine bounded_set h fun ob1 h1 => ?_
        obtain rfl := Option.some.inj h1
        exact re _ _ fun g hg => h o ob ho g (List.mem_of_mem_tail hg)
      | update i dp =>
        obtain ⟨r, -, e⟩ := Outcome.bind_eq_ok.1 e
        obtain ⟨y, -, e⟩ := Outcome.bind_eq_ok.1 e
        obtain ⟨w1, e1, rfl⟩ := of_map_ok e
        intro o' ob' ho' j hj
        obtain ⟨ob1, g1, g2⟩ := homes_remember o' ob' ho'
        rw [g2] at hj
        rw [length_remember]
        exact wr e1 o' ob1 g1 j hj
      | revert i =>
        obtain ⟨r, -, e⟩ := Outcome.bind_eq_ok.1 e
        exact wr e

theorem run_bounded (solve : Solver K) : ∀ (ops : List (VOp K D)) (w w' : VarWorld K D), Bounded w →
    w.run solve ops = .ok w' → Bounded w'
  | [], w, w', h, e => by
    obtain rfl := Outcome.ok.inj e
    exact h
  | op :: ops, w, w', h, e => by
    unfold run at e
    cases e1 : w.step solve op with
    | ok w1 =>
      rw [e1] at e
      exact run_bounded solve ops w1 w' (step_bounded solve h op e1) e
    | throws =>
      rw [e1] at e
      exact run_bounded solve ops w w' h e
    | ub =>
      rw [e1] at e
      exact nomatch e

/-- **C92**: a copy keeps the spline it was given, whatever happens to the source and all other objects, as long as no event
names the copy itself. -/
theorem C92_copy_keeps (solve : Solver K) (pre post : List (VOp K D)) (w w1 w2 : VarWorld K D) (src : ℕ)
    (e : run solve [] pre = .ok w) (e1 : w.copy src = .ok w1) (hpost : ∀ op ∈ post, ¬ VOp.Names w.length op)
    (e2 : w1.run solve post = .ok w2) : w2.splineAt w.length = w.splineAt src := by
  have hb := run_bounded solve pre [] w (by intro o ob h; exact nomatch h) e
  have hv := (C92_copy_value w w1 src e1).1
  rw [← hv]
  refine run_unshared solve post w1 w2 w.length ?_ hpost e2
  unfold copy at e1
  cases hs : w.obj src with
  | none => rw [hs] at e1; exact nomatch e1
  | some sb =>
    rw [hs] at e1
    obtain rfl := Outcome.ok.inj e1
    refine ⟨by simp, fun o ob ho hne hm => ?_⟩
    rcases lt_trichotomy o w.length with h2 | h2 | h2
    · rw [obj_append h2] at ho
      have := hb o ob ho _ hm
      omega
    · exact hne h2
    · rw [obj_beyond h2] at ho
      exact nomatch ho

/-! ### Examples -/

/-- What can be seen of the objects. -/
def seen (w : VarWorld K D) : List (Option (List (Fin D → K) × List ℕ)) :=
  w.map fun x => x.map fun ob => (ob.own.spline.coeffs, ob.homes)

/-- The hypotheses of `C92_copy_violated`: an object made from the spline of C42, and a copy of it.  The update of the copy moves the
coefficient of the source. -/
example : ∃ ob, Own (create SplineVars.demo []) 0 ob ∧ 2 < ob.own.spline.coeffs.length :=
  ⟨_, own_create (SplineVars.sized_of_wf SplineVars.demo_wf) [], by decide +kernel⟩

example : (run SplineVars.demoSolver [] [.create SplineVars.demo, .copy 0, .act 1 (.update 2 ![10])]).map seen =
    .ok [some ([![1], ![2], ![10], ![5], ![4], ![3]], [0, 0, 0, 0, 0, 0]),
      some ([![1], ![2], ![0], ![5], ![4], ![3]], [0, 0, 0, 0, 0, 0])] := by
  decide +kernel

/-- `C92_dangling`: after a segment is removed from the source, or the source is destroyed, the update of the copy is undefined. -/
example : (run SplineVars.demoSolver [] [.create SplineVars.demo, .copy 0, .act 0 .remove]).map seen =
      .ok [some ([![2], ![0], ![5], ![4], ![3]], [0, 0, 0, 0, 0]), some ([![1], ![2], ![0], ![5], ![4], ![3]], [0, 0, 0, 0, 0, 0])] ∧
    (run SplineVars.demoSolver [] [.create SplineVars.demo, .copy 0, .act 0 .remove, .act 1 (.update 2 ![10])]).map seen = .ub ∧
    (run SplineVars.demoSolver [] [.create SplineVars.demo, .copy 0, .destroy 0, .act 1 (.update 2 ![10])]).map seen = .ub := by
  refine ⟨?_, ?_, ?_⟩ <;> decide +kernel

/-- `C92_renewed`: a copy that has lost a segment has its own design variables. -/
example : (run SplineVars.demoSolver [] [.create SplineVars.demo, .copy 0, .act 1 .remove, .act 1 (.update 2 ![10]), .act 0 (.update 0 ![7])]).map
      seen = .ok [some ([![8], ![2], ![0], ![5], ![4], ![3]], [0, 0, 0, 0, 0, 0]), some ([![2], ![0], ![15], ![4], ![3]], [1, 1, 1, 1, 1])] := by
  decide +kernel

/-- `C92_assign_violated`. -/
example : (run SplineVars.demoSolver [] [.create SplineVars.demo, .create SplineVars.demo, .act 0 (.update 0 ![6]), .assign 1 0,
      .act 1 (.update 1 ![40])]).map seen =
    .ok [some ([![7], ![42], ![0], ![5], ![4], ![3]], [0, 0, 0, 0, 0, 0]), some ([![7], ![2], ![0], ![5], ![4], ![3]], [0, 0, 0, 0, 0, 0])] := by
  decide +kernel

end VarWorld
end Verif
