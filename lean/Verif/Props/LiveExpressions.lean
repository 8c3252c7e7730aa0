import Verif.Model.LiveExpressions
import Verif.Props.SplineVariables
import Verif.Props.TimedExpressions
import Verif.Lemmas.PoseDemo

/-!
# C93: expressions stay right while their spline changes
-/

set_option linter.unusedSectionVars false

namespace Verif

open Matrix Finset BSpline Pose

namespace SplineVars

section general

variable {K : Type*} [Field K] [LinearOrder K] [IsStrictOrderedRing K] {D : ℕ}

/-! ## Specification -/

/-- Specification: the change that a container of blocks predicts for the change `dp` of one design variable. -/
def predicted {m : ℕ} (em : Emission m D K) (n : ℕ) (dp : Fin D → K) : Fin m → K :=
  (em.map fun p => if p.1 = n then p.2.mulVec dp else 0).sum

/-- Specification: an expression is right in a state: value and Jacobian are defined, all blocks are for existing design
variables, and whatever the design variable that is updated, the value changes by what the blocks predict. -/
def Faithful (n : VarNode K) (v : SplineVars K D) : Prop :=
  ∃ y em, n.value v = .ok y ∧ n.jacobians v = .ok em ∧ (∀ p ∈ em, p.1 ∈ v.serials) ∧
    ∀ i x dp v', v.designVariable i = .ok x → v.update i dp = .ok v' → n.value v' = .ok (y + predicted em x.serial dp)

/-- Specification: the time is in the valid interval, whose end has not moved. -/
def InRange (v : SplineVars K D) (t : K) : Prop := ∃ a, v.spline.tMin = .ok a ∧ a ≤ t

/-! ## Collected design variables -/

theorem pointers_eq (v : SplineVars K D) : ∀ (is l : List ℕ), v.pointers is = .ok l ↔ is.map (fun i => v.serials[i]?) = l.map some
  | [], l => by
    cases l <;> simp [pointers]
  | i :: is, l => by
    have ih := pointers_eq v is
    have hs : v.serials[i]? = (v.vars[i]?).map MappedVar.serial := by unfold serials; rw [List.getElem?_map]
    unfold pointers pointer
    cases hx : v.vars[i]? with
    | none =>
      rw [hx] at hs
      simp only [Outcome.bind_ub, List.map_cons, hs]
      cases l <;> simp
    | some x =>
      rw [hx] at hs
      simp only [Outcome.bind_ok, List.map_cons, hs]
      cases l with
      | nil =>
        cases hp : v.pointers is <;> simp [Outcome.map]
      | cons n l =>
        rw [List.map_cons]
        cases hp : v.pointers is with
        | ok l' =>
          have := (ih l').1 hp
          simp only [Outcome.map_ok, Outcome.ok.injEq, List.cons.injEq, Option.map_some, Option.some.injEq]
          rw [this, (List.map_injective_iff.2 (Option.some_injective ℕ)).eq_iff]
        | throws =>
          have : ¬ is.map (fun i => v.serials[i]?) = l.map some := fun hc => by
            rw [(ih l).2 hc] at hp; exact nomatch hp
          simp [Outcome.map, this]
        | ub =>
          have : ¬ is.map (fun i => v.serials[i]?) = l.map some := fun hc => by
            rw [(ih l).2 hc] at hp; exact nomatch hp
          simp [Outcome.map, this]

theorem toExpression_eq (v : SplineVars K D) (t : K) (der : ℤ) (n : VarNode K) :
    v.toExpression t der = .ok n ↔ v.captured t = .ok (n.vars.map some) ∧ n.time = t ∧ n.order = der := by
  unfold toExpression captured
  cases hl : v.spline.localVvCoefficientVectorIndices t with
  | throws => simp [Outcome.map]
  | ub => simp [Outcome.map]
  | ok is =>
    simp only [Outcome.bind_ok, Outcome.map_ok, Outcome.ok.injEq]
    cases hp : v.pointers is with
    | ok l =>
      have := (pointers_eq v is l).1 hp
      rw [this, Outcome.map_ok, (List.map_injective_iff.2 (Option.some_injective ℕ)).eq_iff]
      constructor
      · intro h
        obtain rfl := Outcome.ok.inj h
        exact ⟨rfl, rfl, rfl⟩
      · rintro ⟨rfl, rfl, rfl⟩
        rfl
    | throws =>
      constructor
      · intro h; exact nomatch h
      · rintro ⟨h, -⟩
        rw [(pointers_eq v is _).2 h] at hp
        exact nomatch hp
    | ub =>
      constructor
      · intro h; exact nomatch h
      · rintro ⟨h, -⟩
        rw [(pointers_eq v is _).2 h] at hp
        exact nomatch hp

theorem tIndex_throws {s : BSpline K D} {t : K}
    (h : s.knots.length < 2 * s.order ∨ t < s.kn (s.order - 1)) (ho : 2 ≤ s.order) : s.computeTIndex t = .throws := by
  unfold computeTIndex tMin tMax minimumKnotsRequired numKnotsRequired numCoefficientsRequired
  by_cases hc : s.knots.length < 1 + s.order - 1 + s.order
  · rw [if_pos hc]; rfl
  · rw [if_neg hc, if_neg hc]
    simp only [Outcome.bind_ok]
    rcases h with h | h
    · omega
    · rw [if_pos h]

theorem inRange_iff {v : SplineVars K D} (ho : 2 ≤ v.spline.order) (t : K) :
    v.InRange t ↔ 2 * v.spline.order ≤ v.spline.knots.length ∧ v.spline.kn (v.spline.order - 1) ≤ t := by
  unfold InRange tMin minimumKnotsRequired numKnotsRequired numCoefficientsRequired
  by_cases hc : v.spline.knots.length < 1 + v.spline.order - 1 + v.spline.order
  · rw [if_pos hc]
    constructor
    · rintro ⟨a, h, -⟩; exact nomatch h
    · rintro ⟨h, -⟩; omega
  · rw [if_neg hc]
    constructor
    · rintro ⟨a, h, h1⟩
      exact ⟨by omega, by rw [Outcome.ok.inj h]; exact h1⟩
    · rintro ⟨-, h⟩
      exact ⟨_, rfl, h⟩

theorem tMin_of {s : BSpline K D} (ho : 2 ≤ s.order) (hn : 2 * s.order ≤ s.knots.length) : s.tMin = .ok (s.kn (s.order - 1)) := by
  unfold tMin minimumKnotsRequired numKnotsRequired numCoefficientsRequired
  rw [if_neg (by omega)]

theorem tMax_of {s : BSpline K D} (ho : 2 ≤ s.order) (hn : 2 * s.order ≤ s.knots.length) :
    s.tMax = .ok (s.kn (s.knots.length - s.order)) := by
  unfold tMax minimumKnotsRequired numKnotsRequired numCoefficientsRequired
  rw [if_neg (by omega)]

/-! ## What a history keeps -/

/-- One of the design variables has been destroyed for good. -/
def Gone (l : List (Option ℕ)) (v : SplineVars K D) : Prop := ∃ m, some m ∈ l ∧ m ∉ v.serials ∧ m < v.fresh

/-- Invariant: the spline is too short, or its end is not before `b` and the time has been removed (and with it a design variable) or the
collected design variables are still `l`. -/
structure Kept (t b : K) (l : List (Option ℕ)) (v : SplineVars K D) : Prop where
  mirror : Mirror v
  len : l.length = v.spline.order
  kept : v.spline.knots.length < 2 * v.spline.order ∨ (b ≤ v.spline.kn (v.spline.knots.length - v.spline.order) ∧
    ((t < v.spline.kn (v.spline.order - 1) ∧ Gone l v) ∨ v.captured t = .ok l))

theorem ok_of_map {α β : Type*} {o : Outcome α} {f : α → β} {b : β} (h : o.map f = .ok b) : ∃ a, o = .ok a ∧ f a = b := by
  cases o with
  | ok a => exact ⟨a, rfl, Outcome.ok.inj h⟩
  | throws => exact nomatch h
  | ub => exact nomatch h

theorem fresh_remove {v v' : SplineVars K D} (h : v.removeSegment = .ok v') : v'.fresh = v.fresh := by
  unfold removeSegment at h
  cases hv : v.vars with
  | nil => rw [hv] at h; exact nomatch h
  | cons x rest =>
    rw [hv] at h
    obtain ⟨vars, -, rfl⟩ := ok_of_map h
    rfl

theorem fresh_update {v v' : SplineVars K D} {i : ℕ} {dp : Fin D → K} (h : v.update i dp = .ok v') : v'.fresh = v.fresh := by
  unfold update at h
  obtain ⟨x, -, h⟩ := Outcome.bind_eq_ok.1 h
  obtain ⟨c, -, h⟩ := Outcome.bind_eq_ok.1 h
  obtain ⟨s, -, rfl⟩ := ok_of_map h
  rfl

theorem fresh_revert {v v' : SplineVars K D} {i : ℕ} (h : v.revert i = .ok v') : v'.fresh = v.fresh := by
  unfold revert at h
  obtain ⟨x, -, h⟩ := Outcome.bind_eq_ok.1 h
  obtain ⟨s, -, rfl⟩ := ok_of_map h
  rfl

theorem captured_inRange {v : SplineVars K D} (hm : Mirror v) {t : K} {l : List (Option ℕ)} (h : v.captured t = .ok l) : v.InRange t := by
  rw [inRange_iff hm.sized.order]
  by_contra hc
  have : v.spline.computeTIndex t = .throws := tIndex_throws (by
    by_cases h1 : v.spline.knots.length < 2 * v.spline.order
    · exact Or.inl h1
    · right
      by_contra h2
      exact hc ⟨not_lt.1 h1, not_lt.1 h2⟩) hm.sized.order
  unfold captured localVvCoefficientVectorIndices at h
  rw [this] at h
  exact nomatch h

theorem captured_congr {v v' : SplineVars K D} (h1 : v'.spline.order = v.spline.order) (h2 : v'.spline.knots = v.spline.knots)
    (h3 : v'.serials = v.serials) (t : K) : v'.captured t = v.captured t := by
  unfold captured localVvCoefficientVectorIndices computeTIndex tMin tMax kn bidxOf
  rw [h1, h2, h3]

theorem Kept.congr {t b : K} {l : List (Option ℕ)} {v v' : SplineVars K D} (h : Kept t b l v) (hm : Mirror v')
    (h1 : v'.spline.order = v.spline.order) (h2 : v'.spline.knots = v.spline.knots) (h3 : v'.serials = v.serials)
    (h4 : v'.fresh = v.fresh) : Kept t b l v' := by
  refine ⟨hm, h.len.trans h1.symm, ?_⟩
  unfold Gone
  rw [h3, h4]
  rw [captured_congr h1 h2 h3, h1, h2]
  have : v'.spline.kn = v.spline.kn := by unfold kn; rw [h2]
  rw [this]
  exact h.kept

theorem Kept.append {t b : K} {l : List (Option ℕ)} {v v' : SplineVars K D} (h : Kept t b l v) (htb : t + snapTol ≤ b) (hm' : Mirror v')
    (hser : v'.serials = v.serials ++ [v.fresh]) (ap : Appended v.spline v'.spline) (hn : 2 * v.spline.order ≤ v.spline.knots.length) :
    Kept t b l v' := by
  have ho := h.mirror.sized.order
  refine ⟨hm', h.len.trans ap.order.symm, Or.inr ?_⟩
  rcases h.kept with hc | ⟨h1, h2⟩
  · omega
  have hb : b ≤ v'.spline.kn (v'.spline.knots.length - v'.spline.order) := by
    refine h1.trans ?_
    rw [← ap.old_kn _ le_rfl]
    exact ap.wf.mono _ _ (by rw [ap.knots, ap.order]; omega) (by have := ap.knots; have := ap.order; omega)
  refine ⟨hb, ?_⟩
  rcases h2 with ⟨h2, m, g1, g2, g3⟩ | h2
  · left
    rw [ap.order, ap.old_kn _ (by omega)]
    have := hm'.fresh v.fresh (by rw [hser]; simp)
    refine ⟨h2, m, g1, ?_, by omega⟩
    rw [hser, List.mem_append, List.mem_singleton]
    rintro (hc | hc)
    · exact g2 hc
    · omega
  · right
    have h3 := ((inRange_iff ho t).1 (captured_inRange h.mirror h2)).2
    rw [← h2]
    exact (captured_append h.mirror hm' hser ap hn t _ _ (tMin_of ho hn) (tMax_of ho hn) h3 (htb.trans h1)).2

theorem Kept.step (solve : Solver K) {t b : K} {l : List (Option ℕ)} (htb : t + snapTol ≤ b) {v v' : SplineVars K D} (h : Kept t b l v)
    (op : Op K D) (e : v.step solve op = .ok v') : Kept t b l v' := by
  have ho := h.mirror.sized.order
  cases op with
  | add te p junk =>
    rcases add_outcome solve h.mirror te p junk with ⟨-, e'⟩ | ⟨hc, v'', e', hm', hser, ap⟩
    · exact nomatch e'.symm.trans e
    · obtain rfl := Outcome.ok.inj (e'.symm.trans e)
      exact h.append htb hm' hser ap hc.1
  | add2 te p lambda junk =>
    rcases add2_outcome solve h.mirror te p lambda junk with ⟨-, e'⟩ | ⟨hc, v'', e', hm', hser, ap⟩
    · exact nomatch e'.symm.trans e
    · obtain rfl := Outcome.ok.inj (e'.symm.trans e)
      exact h.append htb hm' hser ap hc.1
  | remove =>
    have e : v.removeSegment = .ok v' := e
    have hne : v.spline.coeffs ≠ [] := by
      intro hc
      have hv : v.vars = [] := by
        have := h.mirror.length
        rw [hc] at this
        exact List.length_eq_zero_iff.1 this
      unfold removeSegment at e
      rw [hv] at e
      exact nomatch e
    obtain ⟨v'', e', hm', hser, hsp, hco⟩ := remove_ok h.mirror hne
    obtain rfl := Outcome.ok.inj (e'.symm.trans e)
    have hpos : 0 < v.spline.coeffs.length := List.length_pos_iff.2 hne
    have hkn : 0 < v.spline.knots.length := by have := h.mirror.sized.coeffs; omega
    obtain ⟨r1, r2, -, -⟩ := remove_sizes v.spline hkn hpos
    have r3 := remove_kn v.spline hkn hpos
    rw [← hsp] at r1 r2 r3
    refine ⟨hm', h.len.trans r1.symm, ?_⟩
    by_cases hn' : v''.spline.knots.length < 2 * v''.spline.order
    · exact Or.inl hn'
    right
    have hn : 2 * v.spline.order ≤ v.spline.knots.length := by omega
    have hw := h.mirror.sized.wf hn
    have hmono : MonoBelow v.spline.kn v.spline.knots.length := hw.mono
    rcases h.kept with hc | ⟨h1, h2⟩
    · omega
    have hmax : v''.spline.kn (v''.spline.knots.length - v''.spline.order) = v.spline.kn (v.spline.knots.length - v.spline.order) := by
      rw [r3]; congr 1; omega
    refine ⟨by rw [hmax]; exact h1, ?_⟩
    have hfr := fresh_remove e
    rcases h2 with ⟨h2, m, g1, g2, g3⟩ | h2
    · left
      rw [r3]
      exact ⟨lt_of_lt_of_le h2 (hmono _ _ (by omega) (by omega)), m, g1, fun hc => g2 (List.mem_of_mem_tail (hser ▸ hc)), by omega⟩
    · by_cases h3 : v''.spline.kn (v''.spline.order - 1) ≤ t
      · right
        rw [← h2]
        have htol : (0 : K) < snapTol := by unfold snapTol; positivity
        refine (captured_remove h.mirror e t _ _ (tMin_of hm'.sized.order (not_lt.1 hn')) (tMax_of hm'.sized.order (not_lt.1 hn')) h3 ?_).2.symm
        rw [hmax]
        linarith
      · left
        have h3 := not_le.1 h3
        refine ⟨h3, ?_⟩
        have h4 := ((inRange_iff ho t).1 (captured_inRange h.mirror h2)).2
        obtain ⟨i, hT, j1, j2, j3, j4⟩ := lookup_interior hw t h4 (htb.trans h1)
        have hT : v.spline.computeTIndex t = .ok (v.spline.kn (i + 1) - v.spline.kn i, i) := hT
        have j1 : v.spline.order - 1 ≤ i := j1
        have j2 : i + 1 ≤ v.spline.knots.length - v.spline.order := j2
        have j3 : v.spline.kn i ≤ t := j3
        have hi : i = v.spline.order - 1 := by
          by_contra hne
          rw [r3, r1] at h3
          exact absurd (lt_of_le_of_lt j3 h3) (not_lt.2 (hmono _ _ (by omega) (by omega)))
        have hl := Outcome.ok.inj (h2.symm.trans (captured_eq h.mirror.sized hT j1))
        have hsl : v.serials.length = v.spline.coeffs.length := by simpa [serials] using h.mirror.length
        cases hs : v.serials with
        | nil => rw [hs] at hsl; simp at hsl; omega
        | cons m rest =>
          refine ⟨m, ?_, ?_, ?_⟩
          · rw [hl, List.mem_map]
            exact ⟨0, List.mem_range.2 (by omega), by rw [show i + 1 - v.spline.order + 0 = 0 by omega, hs]; rfl⟩
          · rw [hser, hs]
            have := h.mirror.nodup
            rw [hs] at this
            exact (List.nodup_cons.1 this).1
          · rw [hfr]
            exact h.mirror.fresh m (by rw [hs]; simp)
  | update i dp =>
    have e : v.update i dp = .ok v' := e
    by_cases hi : i < v.spline.coeffs.length
    · obtain ⟨v'', x, e', hm', hser, -, -, -, hs⟩ := update_ok h.mirror i hi dp
      obtain rfl := Outcome.ok.inj (e'.symm.trans e)
      exact h.congr hm' (by rw [hs]) (by rw [hs]) hser (fresh_update e)
    · unfold update at e
      rw [designVariable_throws h.mirror i (not_lt.1 hi)] at e
      exact nomatch e
  | revert i =>
    have e : v.revert i = .ok v' := e
    by_cases hi : i < v.spline.coeffs.length
    · obtain ⟨x, -, hx⟩ := designVariable_ok h.mirror i hi
      obtain ⟨v'', e', hm', hser, hs⟩ := revert_ok h.mirror i x hx
      obtain rfl := Outcome.ok.inj (e'.symm.trans e)
      exact h.congr hm' (by rw [hs]) (by rw [hs]) hser (fresh_revert e)
    · unfold revert at e
      rw [designVariable_throws h.mirror i (not_lt.1 hi)] at e
      exact nomatch e

theorem Kept.run (solve : Solver K) {t b : K} {l : List (Option ℕ)} (htb : t + snapTol ≤ b) :
    ∀ (ops : List (Op K D)) (v v' : SplineVars K D), Kept t b l v → v.run solve ops = .ok v' → Kept t b l v'
  | [], v, v', h, e => by
    obtain rfl := Outcome.ok.inj e
    exact h
  | op :: ops, v, v', h, e => by
    unfold SplineVars.run at e
    cases hs : v.step solve op with
    | ok v1 =>
      rw [hs] at e
      exact Kept.run solve htb ops v1 v' (h.step solve htb op hs) e
    | throws =>
      rw [hs] at e
      exact Kept.run solve htb ops v v' h e
    | ub =>
      rw [hs] at e
      exact nomatch e

/-! ## Jacobians -/

theorem sum_range_map {M : Type*} [AddCommMonoid M] (f : ℕ → M) : ∀ k, ((List.range k).map f).sum = ∑ j ∈ range k, f j
  | 0 => rfl
  | k + 1 => by
    rw [List.range_succ, List.map_append, List.sum_append, sum_range_map f k, Finset.sum_range_succ]
    simp

/-- The blocks are for the design variables of the coefficients. -/
theorem emit_named {m : ℕ} (v : SplineVars K D) (l : List ℕ) (k lo : ℕ)
    (h : l.map some = (List.range k).map fun j => v.serials[lo + j]?) (J : Fin m → ℕ → K) :
    emitBlocks D l J = (emitBlocks D (linSpacedIdx k lo) J).map fun p => (v.serials.getD p.1 0, p.2) := by
  have hl : l.length = k := by simpa using congrArg List.length h
  rw [emitBlocks_eq, List.map_map]
  apply List.ext_getElem
  · simp [emitBlocks, hl]
  · intro q h1 h2
    have hq : q < k := by simpa using h2
    have he : some (l[q]'(by omega)) = v.serials[lo + q]? := by
      have : (l.map some)[q]? = ((List.range k).map fun j => v.serials[lo + j]?)[q]? := by rw [h]
      rw [List.getElem?_map, List.getElem?_map, List.getElem?_range hq, List.getElem?_eq_getElem (by omega : q < l.length)] at this
      exact Option.some.inj this
    simp only [emitBlocks, List.getElem_map, List.getElem_zipIdx, List.getElem_range, Function.comp, Nat.zero_add, Prod.mk.injEq, and_true]
    rw [List.getD_eq_getElem?_getD, ← he]
    rfl

/-- Specification: the change of the coefficient vector when the design variable with index `i` changes by `dp`. -/
def bump (n i : ℕ) (dp : Fin D → K) : List K :=
  (List.range (n * D)).map fun q => if h : q % D < D then (if q / D = i then dp ⟨q % D, h⟩ else 0) else 0

theorem bump_length (n i : ℕ) (dp : Fin D → K) : (bump n i dp).length = n * D := by simp [bump]

theorem entry_bump {n i j : ℕ} (hj : j < n) (dp : Fin D → K) (c : Fin D) :
    entry (bump n i dp) (j * D + c) = if j = i then dp c else 0 := by
  have hc := c.2
  have hlt : j * D + c < n * D := by
    calc j * D + c < j * D + D := by omega
      _ = (j + 1) * D := by ring
      _ ≤ n * D := Nat.mul_le_mul_right _ hj
  have h1 : (j * D + c) % D = c := by rw [Nat.mul_add_mod_self_right, Nat.mod_eq_of_lt hc]
  have h2 : (j * D + (c : ℕ)) / D = j := by
    rw [Nat.mul_comm, Nat.mul_add_div (by omega), Nat.div_eq_of_lt hc, Nat.add_zero]
  unfold entry bump
  rw [List.getD_eq_getElem?_getD, List.getElem?_map, List.getElem?_range hlt, Option.map_some, Option.getD_some]
  simp only [h1, h2, hc, dite_true]

theorem predicted_eq {m : ℕ} {v : SplineVars K D} (hm : Mirror v) (em : Emission m D K) (hem : ∀ p ∈ em, p.1 < v.spline.coeffs.length) {i : ℕ}
    {x : MappedVar K D} (hx : v.vars[i]? = some x) (dp : Fin D → K) :
    predicted (em.map fun p => (v.serials.getD p.1 0, p.2)) x.serial dp = emissionEffect em (bump v.spline.coeffs.length i dp) := by
  have hsl : v.serials.length = v.spline.coeffs.length := by simpa [serials] using hm.length
  have hi : v.serials[i]? = some x.serial := by unfold serials; rw [List.getElem?_map, hx]; rfl
  unfold predicted emissionEffect
  rw [List.map_map]
  congr 1
  refine List.map_congr_left fun p hp => ?_
  have hlt := hem p hp
  simp only [Function.comp]
  have he : (fun c : Fin D => entry (bump v.spline.coeffs.length i dp) (p.1 * D + c)) = fun c => if p.1 = i then dp c else 0 := by
    ext c
    exact entry_bump hlt dp c
  rw [he]
  have hs : v.serials.getD p.1 0 = v.serials[p.1]'(by omega) := by
    rw [List.getD_eq_getElem?_getD, List.getElem?_eq_getElem (by omega)]; rfl
  obtain ⟨hi1, hi2⟩ := List.getElem?_eq_some_iff.1 hi
  rw [hs, ← hi2]
  have : v.serials[p.1]'(by omega) = v.serials[i] ↔ p.1 = i := hm.nodup.getElem_inj_iff
  by_cases hpi : p.1 = i
  · rw [if_pos (this.2 hpi)]; simp [hpi]
  · rw [if_neg (fun hc => hpi (this.1 hc))]
    simp only [hpi, if_false]
    exact (Matrix.mulVec_zero p.2).symm

theorem col_set (s : BSpline K D) (i : ℕ) (hi : i < s.coeffs.length) (c : Fin D → K) (j : ℕ) :
    (BSpline.mk (K := K) s.order s.knots (s.coeffs.set i c) s.basis).col j = if j = i then c else s.col j := by
  unfold BSpline.col
  simp only [List.getD_eq_getElem?_getD, List.getElem?_set]
  by_cases h : i = j
  · subst h; simp [hi]
  · rw [if_neg h, if_neg (Ne.symm h)]

/-- The design variables a Jacobian of the spline is for. -/
theorem jacobian_captured {v : SplineVars K D} (hm : Mirror v) {t : K} {der : ℤ} {r : ValJac K D}
    (hJ : v.spline.evalDAndJacobian t der = .ok r) :
    ∃ lo, lo + v.spline.order ≤ v.spline.coeffs.length ∧ r.indices = linSpacedIdx (v.spline.order * D) (lo * D) ∧
      v.captured t = .ok ((List.range v.spline.order).map fun j => v.serials[lo + j]?) := by
  obtain ⟨x, u, idx, B, hd, hT, hU, h1, hb, h2, hB, rfl⟩ := evalDAndJacobian_inv hJ
  have ho := hm.sized.order
  exact ⟨idx + 1 - v.spline.order, h2, rfl, captured_eq hm.sized hT (by omega)⟩

theorem linSpaced_inj {n a b : ℕ} (hn : 0 < n) (h : linSpacedIdx n a = linSpacedIdx n b) : a = b := by
  have : (linSpacedIdx n a)[0]? = (linSpacedIdx n b)[0]? := by rw [h]
  simpa [linSpacedIdx, hn] using this

/-- The value of a spline after the update of a design variable. -/
theorem evalD_update {v v' : SplineVars K D} (hm : Mirror v) {t : K} {der : ℤ} {r : ValJac K D}
    (hJ : v.spline.evalDAndJacobian t der = .ok r) {i : ℕ} (hi : i < v.spline.coeffs.length) (dp : Fin D → K) (hu : v.update i dp = .ok v')
    {lo : ℕ} (hidx : r.indices = linSpacedIdx (v.spline.order * D) (lo * D)) (hlo : lo + v.spline.order ≤ v.spline.coeffs.length) :
    v'.spline.evalD t der = .ok (r.value + emissionEffect (emitBlocks D (linSpacedIdx v.spline.order lo) (fun (a : Fin D) q => r.jacobian a q))
      (bump v.spline.coeffs.length i dp)) := by
  obtain ⟨x, u, idx, B, hd, hT, hU, h1, hb, h2, hB, rfl⟩ := evalDAndJacobian_inv hJ
  have ho := hm.sized.order
  obtain ⟨v'', y, e', -, -, -, -, -, hs⟩ := update_ok hm i hi dp
  obtain rfl := Outcome.ok.inj (e'.symm.trans hu)
  have hU' : v''.spline.computeUAndTIndex t = .ok (u, idx) := by
    rw [← hU, hs]; rfl
  have hB' : v''.spline.blockAt idx = .ok (idx + 1 - v.spline.order, B) := by
    rw [← hB, hs]; unfold blockAt; simp only [List.length_set]
  have hkn : v''.spline.kn = v.spline.kn := by rw [hs]; rfl
  have hord : v''.spline.order = v.spline.order := by rw [hs]
  unfold evalD evalDNat
  rw [if_neg hd, hU', Outcome.bind_ok]
  dsimp only
  rw [hB', Outcome.bind_ok]
  dsimp only
  rw [hkn, hord]
  generalize transposeMul v.spline.order B (computeU v.spline.kn v.spline.order u idx der.toNat) = w
  congr 1
  ext d
  have hD : 0 < D := d.pos
  obtain rfl : idx + 1 - v.spline.order = lo :=
    Nat.eq_of_mul_eq_mul_right hD (linSpaced_inj (Nat.mul_pos (by omega) hD) hidx)
  rw [emitBlocks_eq]
  unfold emissionEffect
  rw [List.map_map, sum_range_map]
  rw [Pi.add_apply, Finset.sum_apply]
  unfold blockMul
  rw [hord, ← Finset.sum_add_distrib]
  refine Finset.sum_congr rfl fun j hj => ?_
  have hj := Finset.mem_range.1 hj
  simp only [Function.comp, Matrix.mulVec, dotProduct, Matrix.of_apply]
  rw [hs, col_set _ _ hi]
  have hsum : (∑ c : Fin D, identityBlocks D w d (j * D + c) * entry (bump v.spline.coeffs.length i dp) ((idx + 1 - v.spline.order + j) * D + c))
      = w j * (if idx + 1 - v.spline.order + j = i then dp d else 0) := by
    rw [Finset.sum_eq_single d]
    · rw [entry_bump (by omega)]
      unfold identityBlocks
      rw [Nat.mul_add_mod_self_right, Nat.mod_eq_of_lt d.2, if_pos rfl, Nat.mul_comm j, Nat.mul_add_div hD, Nat.div_eq_of_lt d.2, Nat.add_zero]
    · intro c _ hc
      unfold identityBlocks
      rw [Nat.mul_add_mod_self_right, Nat.mod_eq_of_lt c.2, if_neg (fun h => hc (Fin.ext h)), zero_mul]
    · intro h; exact absurd (Finset.mem_univ d) h
  rw [hsum]
  by_cases h : idx + 1 - v.spline.order + j = i
  · simp only [h, if_true]; ring
  · simp only [h, if_false]; ring

theorem designVariable_some {v : SplineVars K D} (hm : Mirror v) {i : ℕ} {x : MappedVar K D} (h : v.designVariable i = .ok x) :
    i < v.spline.coeffs.length ∧ v.vars[i]? = some x := by
  by_cases hi : i < v.spline.coeffs.length
  · obtain ⟨y, h1, h2⟩ := designVariable_ok hm i hi
    obtain rfl := Outcome.ok.inj (h1.symm.trans h)
    exact ⟨hi, h2⟩
  · rw [designVariable_throws hm i (not_lt.1 hi)] at h
    exact nomatch h

theorem captured_alive {v : SplineVars K D} {l : List ℕ} {k lo : ℕ} (h : l.map some = (List.range k).map fun j => v.serials[lo + j]?) :
    ∀ n ∈ l, n ∈ v.serials := by
  intro n hn
  have : some n ∈ l.map some := List.mem_map_of_mem hn
  rw [h] at this
  obtain ⟨j, -, hj⟩ := List.mem_map.1 this
  exact List.mem_of_getElem? hj

theorem alive_iff (v : SplineVars K D) (n : ℕ) : v.alive n = true ↔ n ∈ v.serials := by
  unfold alive serials
  simp [List.any_eq_true, List.mem_map]

theorem touch_ok {α : Type*} {v : SplineVars K D} {l : List ℕ} (h : ∀ n ∈ l, n ∈ v.serials) (r : α) : v.touch l r = .ok r := by
  unfold touch
  rw [if_pos]
  rw [List.all_eq_true]
  exact fun n hn => (alive_iff v n).2 (h n hn)

/-- An expression that collected the design variables the spline uses now is right. -/
theorem faithful_of_captured {v : SplineVars K D} (hm : Mirror v) {n : VarNode K} (hc : v.captured n.time = .ok (n.vars.map some))
    {y : Fin D → K} (hy : n.value v = .ok y) : Faithful n v := by
  obtain ⟨r, hr, hry⟩ : ∃ r, v.spline.evalDAndJacobian n.time n.order = .ok r ∧ r.value = y := by
    have := C07_jacobian_defined v.spline n.time n.order
    unfold VarNode.value at hy
    rw [hy] at this
    cases hr : v.spline.evalDAndJacobian n.time n.order with
    | ok r => rw [hr] at this; exact ⟨r, rfl, Outcome.ok.inj this⟩
    | throws => rw [hr] at this; exact nomatch this
    | ub => rw [hr] at this; exact nomatch this
  subst hry
  obtain ⟨lo, hlo, hidx, hcap⟩ := jacobian_captured hm hr
  have hl := Outcome.ok.inj (hc.symm.trans hcap)
  have hal := captured_alive hl
  have hlen : n.vars.length = v.spline.order := by simpa using congrArg List.length hl
  refine ⟨r.value, emitBlocks D n.vars (fun (i : Fin D) q => r.jacobian i q), hy, ?_, ?_, ?_⟩
  · unfold VarNode.jacobians
    rw [hr, Outcome.bind_ok, if_pos hlen.le]
    exact touch_ok hal _
  · intro p hp
    have : p.1 ∈ (emitBlocks D n.vars (fun (i : Fin D) q => r.jacobian i q)).map Prod.fst := List.mem_map_of_mem hp
    rw [emitBlocks_fst] at this
    exact hal _ this
  · intro i x dp v' hx hu
    obtain ⟨hi, hx'⟩ := designVariable_some hm hx
    have := evalD_update hm hr hi dp hu hidx hlo
    unfold VarNode.value
    rw [this, emit_named v n.vars v.spline.order lo hl, predicted_eq hm _ ?_ hx']
    intro p hp
    rw [emitBlocks_eq] at hp
    obtain ⟨j, hj, rfl⟩ := List.mem_map.1 hp
    have := List.mem_range.1 hj
    show lo + j < _
    omega

theorem captured_nodup {v : SplineVars K D} (hm : Mirror v) {t : K} {l : List ℕ} (h : v.captured t = .ok (l.map some)) :
    l.Nodup ∧ l.length = v.spline.order := by
  have h0 := h
  unfold captured localVvCoefficientVectorIndices bidxOf at h
  cases hT : v.spline.computeTIndex t with
  | throws => rw [hT] at h; exact nomatch h
  | ub => rw [hT] at h; exact nomatch h
  | ok xi =>
    obtain ⟨x, i⟩ := xi
    rw [hT] at h
    by_cases hi : i + 1 < v.spline.order
    · simp only [Outcome.bind_ok, if_pos hi, Outcome.bind_ub] at h
      exact nomatch h
    · have he := Outcome.ok.inj (h0.symm.trans (captured_eq hm.sized hT (by omega)))
      have hlen : l.length = v.spline.order := by simpa using congrArg List.length he
      refine ⟨?_, hlen⟩
      rw [List.nodup_iff_injective_get]
      intro a b hab
      have key : ∀ q : Fin l.length, v.serials[i + 1 - v.spline.order + q]? = some (l.get q) := by
        intro q
        have : (l.map some)[(q : ℕ)]? = ((List.range v.spline.order).map fun j => v.serials[i + 1 - v.spline.order + j]?)[(q : ℕ)]? := by rw [he]
        rw [List.getElem?_map, List.getElem?_map, List.getElem?_range (by omega), List.getElem?_eq_getElem q.2] at this
        exact (Option.some.inj this).symm
      have h1 := key a
      have h2 := key b
      rw [hab, ← h2] at h1
      have hlt := (List.getElem?_eq_some_iff.1 h2).1
      have h3 := key a
      have hlt' := (List.getElem?_eq_some_iff.1 h3).1
      rw [List.getElem?_eq_getElem hlt, List.getElem?_eq_getElem hlt'] at h1
      have := hm.nodup.getElem_inj_iff.1 (Option.some.inj h1)
      exact Fin.ext (by omega)

/-- Whatever happens to the spline, either the time of an expression is still covered and the expression has the design variables of that time,
or the lookup of the time throws and a design variable has been destroyed. -/
theorem kept_cases (solve : Solver K) (s : BSpline K D) (h : Sized s) (ops0 ops : List (Op K D)) (v0 v : SplineVars K D)
    (hv0 : (create s).run solve ops0 = .ok v0) (t b : K) (der : ℤ) (n : VarNode K) (hn : v0.toExpression t der = .ok n)
    (hb : v0.spline.tMax = .ok b) (htb : t + snapTol ≤ b) (hv : v0.run solve ops = .ok v) :
    Mirror v ∧ (v.InRange t → v.captured t = .ok (n.vars.map some) ∧ t + snapTol ≤ v.spline.kn (v.spline.knots.length - v.spline.order)) ∧
      (¬ v.InRange t → v.spline.computeTIndex t = .throws ∧ ∃ m ∈ n.vars, m ∉ v.serials) := by
  have hm0 := run_mirror solve ops0 _ v0 (mirror_create h) hv0
  obtain ⟨hc0, ht, hd⟩ := (toExpression_eq v0 t der n).1 hn
  have hr0 := captured_inRange hm0 hc0
  rw [inRange_iff hm0.sized.order] at hr0
  obtain ⟨hnd, hlen⟩ := captured_nodup hm0 hc0
  have hk0 : Kept t b (n.vars.map some) v0 := by
    refine ⟨hm0, by rw [List.length_map]; exact hlen, Or.inr ⟨?_, Or.inr hc0⟩⟩
    rw [tMax_of hm0.sized.order hr0.1] at hb
    exact (Outcome.ok.inj hb).ge
  have hk := hk0.run solve htb ops v0 v hv
  rw [inRange_iff hk.mirror.sized.order]
  refine ⟨hk.mirror, fun hr => ?_, fun hr => ?_⟩
  · rcases hk.kept with hc | ⟨h1, hc | hc⟩
    · omega
    · exact absurd hc.1 (not_lt.2 hr.2)
    · exact ⟨hc, htb.trans h1⟩
  · refine ⟨tIndex_throws (by
      by_cases h1 : v.spline.knots.length < 2 * v.spline.order
      · exact Or.inl h1
      · right
        by_contra h2
        exact hr ⟨not_lt.1 h1, not_lt.1 h2⟩) hk.mirror.sized.order, ?_⟩
    rcases hk.kept with hc | ⟨h1, ⟨-, m, g1, g2, -⟩ | hc⟩
    · by_contra hcon
      push Not at hcon
      have h1 := (List.Nodup.subperm hnd hcon).length_le
      have h2 : v.serials.length = v.spline.coeffs.length := by simpa [serials] using hk.mirror.length
      have h3 := hk.len
      rw [List.length_map] at h3
      have h4 := hk.mirror.sized.coeffs
      have h5 := hk.mirror.sized.order
      omega
    · obtain ⟨m', hm', he⟩ := List.mem_map.1 g1
      obtain rfl := Option.some.inj he
      exact ⟨_, hm', g2⟩
    · exact absurd ((inRange_iff hk.mirror.sized.order t).1 (captured_inRange hk.mirror hc)) hr

/-- **C93**, holds for expressions made for a time before the end of the spline (by the tolerance of the lookup): after any further
history, making the expression again gives the same expression, unless its time has been removed; then it throws. -/
theorem C93_same_partial (solve : Solver K) (s : BSpline K D) (h : Sized s) (ops0 ops : List (Op K D)) (v0 v : SplineVars K D)
    (hv0 : (create s).run solve ops0 = .ok v0) (t b : K) (der : ℤ) (n : VarNode K) (hn : v0.toExpression t der = .ok n)
    (hb : v0.spline.tMax = .ok b) (htb : t + snapTol ≤ b) (hv : v0.run solve ops = .ok v) :
    (v.InRange t → v.toExpression t der = .ok n) ∧ (¬ v.InRange t → v.toExpression t der = .throws) := by
  obtain ⟨-, h1, h2⟩ := kept_cases solve s h ops0 ops v0 v hv0 t b der n hn hb htb hv
  obtain ⟨-, ht, hd⟩ := (toExpression_eq v0 t der n).1 hn
  refine ⟨fun hr => (toExpression_eq v t der n).2 ⟨(h1 hr).1, ht, hd⟩, fun hr => ?_⟩
  unfold toExpression localVvCoefficientVectorIndices
  rw [(h2 hr).1]
  rfl

theorem value_defined {v : SplineVars K D} (hm : Mirror v) {t : K} (hr : v.InRange t)
    (hb : t + snapTol ≤ v.spline.kn (v.spline.knots.length - v.spline.order)) {der : ℤ} (hder : 0 ≤ der) : ∃ y, v.spline.evalD t der = .ok y := by
  rw [inRange_iff hm.sized.order] at hr
  have ho := hm.sized.order
  have hbs := hm.sized.basis
  have hco := hm.sized.coeffs
  obtain ⟨i, hT, h1, h2, h3, h4⟩ := lookup_interior (hm.sized.wf hr.1) t hr.2 hb
  have hT : v.spline.computeTIndex t = .ok (v.spline.kn (i + 1) - v.spline.kn i, i) := hT
  have h1 : v.spline.order - 1 ≤ i := h1
  have h2 : i + 1 ≤ v.spline.knots.length - v.spline.order := h2
  have h5 : v.spline.kn i < v.spline.kn (i + 1) := lt_of_le_of_lt h3 h4
  have hU := computeU_ok t i h5 hT
  have hB : v.spline.blockAt i = .ok (i + 1 - v.spline.order, v.spline.basis[i + 1 - v.spline.order]'(by omega)) := by
    unfold blockAt
    rw [if_neg (by omega)]
    dsimp only
    rw [List.getElem?_eq_getElem (by omega)]
    dsimp only
    rw [if_pos (by omega)]
  unfold evalD evalDNat
  rw [if_neg (not_lt.2 hder), hU, Outcome.bind_ok]
  dsimp only
  rw [hB]
  exact ⟨_, rfl⟩

/-- **C93**, holds for expressions made for a time before the end of the spline, for a derivative of non-negative order: after any
further history the expression is right (value, Jacobian and design variables belong together, whatever was added, removed or
updated since), unless its time has been removed; then value and Jacobian throw, and the expression announces a design variable that has been
destroyed. -/
theorem C93_faithful_partial (solve : Solver K) (s : BSpline K D) (h : Sized s) (ops0 ops : List (Op K D)) (v0 v : SplineVars K D)
    (hv0 : (create s).run solve ops0 = .ok v0) (t b : K) (der : ℤ) (n : VarNode K) (hn : v0.toExpression t der = .ok n)
    (hb : v0.spline.tMax = .ok b) (htb : t + snapTol ≤ b) (hder : 0 ≤ der) (hv : v0.run solve ops = .ok v) :
    (v.InRange t → Faithful n v) ∧ (¬ v.InRange t → n.value v = .throws ∧ n.jacobians v = .throws ∧ ∃ m ∈ n.vars, m ∉ v.serials) := by
  obtain ⟨hm, h1, h2⟩ := kept_cases solve s h ops0 ops v0 v hv0 t b der n hn hb htb hv
  obtain ⟨-, rfl, rfl⟩ := (toExpression_eq v0 t der n).1 hn
  refine ⟨fun hr => ?_, fun hr => ?_⟩
  · obtain ⟨y, hy⟩ := value_defined hm hr (h1 hr).2 hder
    exact faithful_of_captured hm (h1 hr).1 hy
  · unfold VarNode.value VarNode.jacobians evalD evalDNat evalDAndJacobian computeUAndTIndex
    rw [(h2 hr).1, if_neg (not_lt.2 hder), if_neg (not_lt.2 hder)]
    exact ⟨rfl, rfl, (h2 hr).2⟩

/-- **C93**, at the end: an expression for the end of the spline collects the last design variables; after a segment has been added an
expression for the same time has one design variable fewer at the front and the new one at the back. -/
theorem C93_end (solve : Solver K) (s : BSpline K D) (h : Sized s) (ops0 : List (Op K D)) (v0 v : SplineVars K D)
    (hv0 : (create s).run solve ops0 = .ok v0) (t b : K) (der : ℤ) (ht : v0.spline.tMax = .ok t) (te : K) (p junk : Fin D → K)
    (hv : v0.addSegment solve te p junk = .ok v) (hb : v.spline.tMax = .ok b) (htb : t + snapTol ≤ b) :
    ∃ n, v0.toExpression t der = .ok n ∧ v.toExpression t der = .ok ⟨n.vars.tail ++ [v0.fresh], t, der⟩ := by
  have hm0 := run_mirror solve ops0 _ v0 (mirror_create h) hv0
  rcases add_outcome solve hm0 te p junk with ⟨-, e⟩ | ⟨hc, v'', e, hm', hser, ap⟩
  · exact nomatch e.symm.trans hv
  obtain rfl := Outcome.ok.inj (e.symm.trans hv)
  have ho := hm0.sized.order
  have hn := hc.1
  have hw := hm0.sized.wf hn
  have hco := hm0.sized.coeffs
  have hsl : v0.serials.length = v0.spline.coeffs.length := by simpa [serials] using hm0.length
  rw [tMax_of ho hn] at ht
  rw [tMax_of hm'.sized.order (by rw [ap.order, ap.knots]; omega)] at hb
  have ht := Outcome.ok.inj ht
  have hb := Outcome.ok.inj hb
  have hmono : MonoBelow v0.spline.kn v0.spline.knots.length := hw.mono
  have hmono' : MonoBelow v''.spline.kn v''.spline.knots.length := ap.wf.mono
  have hmin : v0.spline.kn (v0.spline.order - 1) ≤ t := by rw [← ht]; exact hmono _ _ (by omega) (by omega)
  have hT : v0.spline.computeTIndex t = .ok (v0.spline.kn (v0.spline.knots.length - v0.spline.order)
      - v0.spline.kn (v0.spline.knots.length - v0.spline.order - 1), v0.spline.knots.length - v0.spline.order - 1) := by
    refine lookup_end (s := v0.spline.initializeBasisMatrices) hw t hmin ?_
    have : v0.spline.initializeBasisMatrices.kn (v0.spline.initializeBasisMatrices.knots.length - v0.spline.initializeBasisMatrices.order) = t := ht
    rw [this, sub_self, abs_zero]
    unfold snapTol; positivity
  have hc0 := captured_eq hm0.sized hT (by omega)
  obtain ⟨i, hT', h1, h2, h3, h4⟩ := lookup_interior ap.wf t (by rw [ap.order, ap.old_kn _ (by omega)]; exact hmin) (by rw [hb]; exact htb)
  have hc1 := captured_eq hm'.sized hT' h1
  rw [ap.order, ap.knots] at h2
  have hi : i = v0.spline.knots.length - v0.spline.order := by
    by_contra hne
    have : v''.spline.kn (i + 1) ≤ v''.spline.kn (v0.spline.knots.length - v0.spline.order) :=
      hmono' _ _ (by omega) (by rw [ap.knots]; omega)
    rw [ap.old_kn _ le_rfl, ht] at this
    exact absurd h4 (not_lt.2 this)
  obtain ⟨k, hk⟩ : ∃ k, v0.spline.order = k + 1 := ⟨v0.spline.order - 1, by omega⟩
  obtain ⟨lo, hlo⟩ : ∃ lo, v0.spline.knots.length - v0.spline.order = lo + k + 1 := ⟨v0.spline.knots.length - v0.spline.order - k - 1, by omega⟩
  have hl0 : (v0.serials.drop lo).map some = (List.range (k + 1)).map fun j => v0.serials[lo + j]? := by
    apply List.ext_getElem
    · simp; omega
    · intro q g1 g2
      have : lo + q < v0.serials.length := by simp at g1; omega
      simp [List.getElem?_eq_getElem this]
  refine ⟨⟨v0.serials.drop lo, t, der⟩, (toExpression_eq _ _ _ _).2 ⟨?_, rfl, rfl⟩, (toExpression_eq _ _ _ _).2 ⟨?_, rfl, rfl⟩⟩
  · rw [hc0, hk, hl0]
    congr 3
    ext1 j
    congr 1
    omega
  · rw [hc1, ap.order, hk, hser, hi]
    congr 1
    have e1 : (v0.serials.drop lo).tail = v0.serials.drop (lo + 1) := by rw [List.tail_drop]
    show _ = ((v0.serials.drop lo).tail ++ [v0.fresh]).map some
    rw [e1]
    apply List.ext_getElem
    · simp; omega
    · intro q g1 g2
      have g1 : q < k + 1 := by simpa using g1
      simp only [List.getElem_map, List.getElem_range]
      rw [show v0.spline.knots.length - v0.spline.order + 1 - (k + 1) + q = lo + 1 + q by omega]
      by_cases hq : q < k
      · rw [List.getElem?_append_left (by omega), List.getElem_append_left (by simp; omega), List.getElem_drop,
          List.getElem?_eq_getElem (by omega)]
      · rw [List.getElem?_append_right (by omega), List.getElem_append_right (by simp; omega)]
        rw [show lo + 1 + q - v0.serials.length = 0 by omega]
        simp

end general

section pose

/-! ## Expressions of a pose spline -/

theorem entry_bump_smul {D n i : ℕ} (ε : ℝ) (dp : Fin D → ℝ) (q : ℕ) : entry (bump n i (ε • dp)) q = ε * entry (bump n i dp) q := by
  unfold entry bump
  rw [List.getD_eq_getElem?_getD, List.getD_eq_getElem?_getD, List.getElem?_map, List.getElem?_map]
  cases (List.range (n * D))[q]? with
  | none => simp
  | some x =>
    simp only [Option.map_some, Option.getD_some, Pi.smul_apply, smul_eq_mul]
    split_ifs <;> simp

theorem emissionEffect_smul {m D n i : ℕ} (em : Emission m D ℝ) (ε : ℝ) (dp : Fin D → ℝ) :
    emissionEffect em (bump n i (ε • dp)) = ε • emissionEffect em (bump n i dp) := by
  unfold emissionEffect
  rw [List.smul_sum, List.map_map]
  congr 1
  refine List.map_congr_left fun p _ => ?_
  simp only [Function.comp, entry_bump_smul]
  rw [← Matrix.mulVec_smul]
  rfl

/-- The derivative of the transformation when a design variable is updated. -/
theorem transformation_update {v : SplineVars ℝ 6} (hm : Mirror v) {R : Rotation ℝ} (hd : Differential R) {t : ℝ} {b : ValJac ℝ 6}
    (hb : v.spline.evalDAndJacobian t 0 = .ok b) {i : ℕ} (hi : i < v.spline.coeffs.length) (dp : Fin 6 → ℝ) (a c : Fin 4) :
    HasDerivAt (fun ε : ℝ => ((v.update i (ε • dp)).bind fun v' => (v'.pose R).transformation t).getD 0 a c)
      ((boxPlus (effect (mulJac (curveValueJacobian R b.value) (rows6 b.jacobian)) b.indices (bump v.spline.coeffs.length i dp))
        * curveValueToTransformation R b.value) a c) 0 := by
  have htJ : (v.pose R).transformationAndJacobian t = .ok
      { value := curveValueToTransformation R b.value
        jacobian := mulJac (curveValueJacobian R b.value) (rows6 b.jacobian)
        indices := b.indices } := by
    unfold transformationAndJacobian
    show Outcome.map _ (v.spline.evalDAndJacobian t 0) = _
    rw [hb]
    rfl
  have hlen : (bump v.spline.coeffs.length i dp).length = v.spline.coefficientVector.length := by
    rw [bump_length]; simp [coefficientVector]
  have key := (C56_transformation (v.pose R) hd t _ htJ _ hlen).2.2 a c
  refine key.congr_of_eventuallyEq (Filter.Eventually.of_forall fun ε => ?_)
  obtain ⟨v', -, hu, -⟩ := update_ok hm i hi (ε • dp)
  obtain ⟨lo, hlo, hidx, -⟩ := jacobian_captured hm hb
  have h1 := evalD_update hm hb hi (ε • dp) hu hidx hlo
  have h2 := moved_evalD v.spline t 0 b hb _ hlen ε
  have h3 : v'.spline.evalD t 0 = (moved v.spline (bump v.spline.coeffs.length i dp) ε).evalD t 0 := by
    rw [h1, h2]
    congr 1
    ext d
    rw [emissionEffect_smul, emit_effect, ← hidx]
    rfl
  show ((v.update i (ε • dp)).bind fun v' => (v'.pose R).transformation t).getD 0 a c = _
  rw [hu, Outcome.bind_ok]
  unfold transformation BSpline.eval
  have h4 : (v'.pose R).spline.evalD t 0 = ((v.pose R).along (bump v.spline.coeffs.length i dp) ε).spline.evalD t 0 := h3
  rw [h4]
  rfl

/-- Specification: the expression for the transformation is right in a state: like `Faithful`, with the derivative of the value. -/
def TransformationFaithful (n : VarNode ℝ) (v : SplineVars ℝ 6) (R : Rotation ℝ) : Prop :=
  ∃ T em, n.transformation v R = .ok T ∧ n.transformationJacobians v R = .ok em ∧ em.map Prod.fst = n.vars ∧ (∀ p ∈ em, p.1 ∈ v.serials) ∧
    ∀ i x dp, v.designVariable i = .ok x → ∀ a c : Fin 4,
      HasDerivAt (fun ε : ℝ => ((v.update i (ε • dp)).bind fun v' => n.transformation v' R).getD 0 a c)
        ((boxPlus (predicted em x.serial dp) * T) a c) 0

/-- **C93**, the expression for the transformation of a pose spline; holds for a time before the end of the spline. -/
theorem C93_transformation_partial (solve : Solver ℝ) (s : BSpline ℝ 6) (h : Sized s) (ops0 ops : List (Op ℝ 6)) (v0 v : SplineVars ℝ 6)
    (hv0 : (create s).run solve ops0 = .ok v0) (t b : ℝ) (n : VarNode ℝ) (hn : v0.toExpression t 0 = .ok n)
    (hb : v0.spline.tMax = .ok b) (htb : t + snapTol ≤ b) (hv : v0.run solve ops = .ok v) (R : Rotation ℝ) (hd : Differential R) :
    (v.InRange t → TransformationFaithful n v R) ∧
      (¬ v.InRange t → n.transformation v R = .throws ∧ n.transformationJacobians v R = .throws) := by
  obtain ⟨hm, h1, h2⟩ := kept_cases solve s h ops0 ops v0 v hv0 t b 0 n hn hb htb hv
  obtain ⟨-, rfl, hord⟩ := (toExpression_eq v0 t 0 n).1 hn
  refine ⟨fun hr => ?_, fun hr => ?_⟩
  · obtain ⟨hc, hend⟩ := h1 hr
    obtain ⟨y, hy⟩ := value_defined hm hr hend (der := 0) le_rfl
    obtain ⟨r, hJ, rfl⟩ := jacobian_of_value hy
    obtain ⟨lo, hlo, hidx, hcap⟩ := jacobian_captured hm hJ
    have hl := Outcome.ok.inj (hc.symm.trans hcap)
    have hal := captured_alive hl
    have hlen : n.vars.length = v.spline.order := by simpa using congrArg List.length hl
    refine ⟨curveValueToTransformation R r.value, emitBlocks 6 n.vars (mulJac (curveValueJacobian R r.value) (rows6 r.jacobian)), ?_, ?_,
      emitBlocks_fst _ _ _, ?_, ?_⟩
    · unfold VarNode.transformation transformationNodeValue Pose.transformation
      have : (v.pose R).spline.eval n.time = .ok r.value := hy
      rw [this]
      rfl
    · unfold VarNode.transformationJacobians transformationNodeJacobians transformationAndJacobian emitFor
      have : (v.pose R).spline.evalDAndJacobian n.time 0 = .ok r := hJ
      rw [this, Outcome.map_ok, Outcome.bind_ok]
      have h3 : n.vars.length ≤ (v.pose R).spline.order := hlen.le
      rw [if_pos h3, Outcome.bind_ok]
      exact touch_ok hal _
    · intro p hp
      have : p.1 ∈ (emitBlocks 6 n.vars (mulJac (curveValueJacobian R r.value) (rows6 r.jacobian))).map Prod.fst := List.mem_map_of_mem hp
      rw [emitBlocks_fst] at this
      exact hal _ this
    · intro i x dp hx a c
      obtain ⟨hi, hx'⟩ := designVariable_some hm hx
      have := transformation_update hm hd hJ hi dp a c
      rw [emit_named v n.vars v.spline.order lo hl, predicted_eq hm _ ?_ hx', emit_effect, ← hidx]
      · exact this
      · intro p hp
        rw [emitBlocks_eq] at hp
        obtain ⟨j, hj, rfl⟩ := List.mem_map.1 hp
        have := List.mem_range.1 hj
        show lo + j < _
        omega
  · have hT : (v.pose R).spline.computeTIndex n.time = .throws := (h2 hr).1
    unfold VarNode.transformation transformationNodeValue Pose.transformation VarNode.transformationJacobians transformationNodeJacobians
      transformationAndJacobian BSpline.eval evalD evalDNat evalDAndJacobian computeUAndTIndex
    rw [hT]
    exact ⟨rfl, rfl⟩

/-! ## The expression for a moving time -/

/-- Specification: the history removes no segment. -/
def NoRemoval : List (Op ℝ 6) → Prop
  | [] => True
  | .remove :: _ => False
  | _ :: ops => NoRemoval ops

/-- What a history without removals keeps. -/
structure Grown (v0 v : SplineVars ℝ 6) : Prop where
  mirror : Mirror v
  wf : v.spline.WF
  order : v.spline.order = v0.spline.order
  len : v0.spline.knots.length ≤ v.spline.knots.length
  kn : ∀ i, i ≤ v0.spline.knots.length - v0.spline.order → v.spline.kn i = v0.spline.kn i
  serials : v0.serials <+: v.serials

theorem wf_set {s : BSpline ℝ 6} (h : s.WF) (i : ℕ) (c : Fin 6 → ℝ) : (BSpline.mk (K := ℝ) s.order s.knots (s.coeffs.set i c) s.basis).WF :=
  ⟨h.order_pos, h.sorted, h.enough, by simpa using h.coeffs_len, h.basis_len, h.basis_eq⟩

theorem Grown.append {v0 v v' : SplineVars ℝ 6} (g : Grown v0 v) (hm' : Mirror v') (hser : v'.serials = v.serials ++ [v.fresh])
    (ap : Appended v.spline v'.spline) : Grown v0 v' := by
  refine ⟨hm', ap.wf, ap.order.trans g.order, by have := g.len; rw [ap.knots]; omega, fun i hi => ?_, ?_⟩
  · rw [ap.old_kn i (by have := g.len; have := g.order; omega)]
    exact g.kn i hi
  · rw [hser]
    exact g.serials.trans (List.prefix_append _ _)

theorem Grown.run (solve : Solver ℝ) {v0 : SplineVars ℝ 6} : ∀ (ops : List (Op ℝ 6)) (v v' : SplineVars ℝ 6), NoRemoval ops → Grown v0 v →
    v.run solve ops = .ok v' → Grown v0 v'
  | [], v, v', _, g, e => by
    obtain rfl := Outcome.ok.inj e
    exact g
  | op :: ops, v, v', hno, g, e => by
    have hops : NoRemoval ops := by
      cases op with
      | remove => exact hno.elim
      | _ => exact hno
    unfold SplineVars.run at e
    cases hs : v.step solve op with
    | throws =>
      rw [hs] at e
      exact Grown.run solve ops v v' hops g e
    | ub =>
      rw [hs] at e
      exact nomatch e
    | ok v1 =>
      rw [hs] at e
      refine Grown.run solve ops v1 v' hops ?_ e
      cases op with
      | remove => exact hno.elim
      | add te p junk =>
        rcases add_outcome solve g.mirror te p junk with ⟨-, e'⟩ | ⟨-, v'', e', hm', hser, ap⟩
        · exact nomatch e'.symm.trans hs
        · obtain rfl := Outcome.ok.inj (e'.symm.trans hs)
          exact g.append hm' hser ap
      | add2 te p lambda junk =>
        rcases add2_outcome solve g.mirror te p lambda junk with ⟨-, e'⟩ | ⟨-, v'', e', hm', hser, ap⟩
        · exact nomatch e'.symm.trans hs
        · obtain rfl := Outcome.ok.inj (e'.symm.trans hs)
          exact g.append hm' hser ap
      | update i dp =>
        have hs : v.update i dp = .ok v1 := hs
        by_cases hi : i < v.spline.coeffs.length
        · obtain ⟨v'', x, e', hm', hser, -, -, -, hsp⟩ := update_ok g.mirror i hi dp
          obtain rfl := Outcome.ok.inj (e'.symm.trans hs)
          exact ⟨hm', by rw [hsp]; exact wf_set g.wf _ _, by rw [hsp]; exact g.order, by rw [hsp]; exact g.len,
            by rw [hsp]; exact g.kn, by rw [hser]; exact g.serials⟩
        · unfold SplineVars.update at hs
          rw [designVariable_throws g.mirror i (not_lt.1 hi)] at hs
          exact nomatch hs
      | revert i =>
        have hs : v.revert i = .ok v1 := hs
        by_cases hi : i < v.spline.coeffs.length
        · obtain ⟨x, -, hx⟩ := designVariable_ok g.mirror i hi
          obtain ⟨v'', e', hm', hser, hsp⟩ := revert_ok g.mirror i x hx
          obtain rfl := Outcome.ok.inj (e'.symm.trans hs)
          exact ⟨hm', by rw [hsp]; exact wf_set g.wf _ _, by rw [hsp]; exact g.order, by rw [hsp]; exact g.len,
            by rw [hsp]; exact g.kn, by rw [hser]; exact g.serials⟩
        · unfold SplineVars.revert at hs
          rw [designVariable_throws g.mirror i (not_lt.1 hi)] at hs
          exact nomatch hs

theorem windowVariables_ok {v : SplineVars ℝ 6} (hm : Mirror v) : ∀ is : List ℕ, (∀ i ∈ is, i < v.spline.coeffs.length) →
    v.windowVariables is = .ok (is.map fun i => v.serials.getD i 0)
  | [], _ => rfl
  | i :: is, h => by
    obtain ⟨x, h1, h2⟩ := designVariable_ok hm i (h i (by simp))
    unfold windowVariables
    rw [h1, Outcome.bind_ok, windowVariables_ok hm is (fun j hj => h j (by simp [hj])), Outcome.map_ok]
    congr 2
    show x.serial = v.serials.getD i 0
    unfold SplineVars.serials
    rw [List.getD_eq_getElem?_getD, List.getElem?_map, h2]
    rfl

/-- Specification: the expression for a moving time is right in a state, with the announced design variables `l`. -/
def WindowFaithful (w : TimeWindow ℝ) (t : ℝ) (l : List ℕ) (v : SplineVars ℝ 6) (R : Rotation ℝ) : Prop :=
  ∃ T em, v.windowValue R w t = .ok T ∧ v.windowJacobians R w t = .ok em ∧ em.map Prod.fst = l ∧ (∀ p ∈ em, p.1 ∈ v.serials) ∧
    ∀ i x dp, v.designVariable i = .ok x → ∀ a c : Fin 4,
      HasDerivAt (fun ε : ℝ => ((v.update i (ε • dp)).bind fun v' => v'.windowValue R w t).getD 0 a c)
        ((boxPlus (predicted em x.serial dp) * T) a c) 0

/-- **C93**, the expression for a moving time; holds for histories that remove no segment: the expression keeps announcing the same design
variables and stays right at every time in its window. -/
theorem C93_window_partial (solve : Solver ℝ) (s : BSpline ℝ 6) (h : Sized s) (ops0 ops : List (Op ℝ 6)) (v0 v : SplineVars ℝ 6)
    (hv0 : (create s).run solve ops0 = .ok v0) (hwf : v0.spline.WF) (hw0 : v0.spline.WideLast) (R : Rotation ℝ) (hd : Differential R)
    (init lo hi : ℝ) (w : TimeWindow ℝ) (hwin : (v0.pose R).timeWindow init lo hi = .ok w) (hno : NoRemoval ops)
    (hv : v0.run solve ops = .ok v) (hw : v.spline.WideLast) :
    ∃ l, v0.windowVariables w.indices = .ok l ∧ v.windowVariables w.indices = .ok l ∧
      ∀ t, w.tmin ≤ t → t < w.tmax → WindowFaithful w t l v R := by
  have hm0 := run_mirror solve ops0 _ v0 (mirror_create h) hv0
  have g : Grown v0 v := Grown.run solve ops v0 v hno ⟨hm0, hwf, rfl, le_rfl, fun _ _ => rfl, List.prefix_refl _⟩ hv
  have hm := g.mirror
  have ho := hm0.sized.order
  have hgo := g.order
  have hgl := g.len
  have hco0 := hm0.sized.coeffs
  have hco := hm.sized.coeffs
  have hsl0 : v0.serials.length = v0.spline.coeffs.length := by simpa [SplineVars.serials] using hm0.length
  obtain ⟨l, r, hidx, hr, hmin, hmax, hin⟩ := window_inv (s := v0.pose R) hwf hw0 hwin
  have hr : r < v0.spline.coeffs.length := hr
  have hb0 : ∀ i ∈ w.indices, i < v0.spline.coeffs.length := by
    intro i hi
    rw [hidx] at hi
    simp only [linSpacedIdx, List.mem_map, List.mem_range] at hi
    obtain ⟨q, hq, rfl⟩ := hi
    omega
  have hb1 : ∀ i ∈ w.indices, i < v.spline.coeffs.length := fun i hi => by have := hb0 i hi; omega
  have hsame : (w.indices.map fun i => v.serials.getD i 0) = w.indices.map fun i => v0.serials.getD i 0 := by
    refine List.map_congr_left fun i hi => ?_
    obtain ⟨rest, hrest⟩ := g.serials
    rw [← hrest, List.getD_eq_getElem?_getD, List.getElem?_append_left (by have := hb0 i hi; omega), List.getD_eq_getElem?_getD]
  refine ⟨_, windowVariables_ok hm0 _ hb0, (windowVariables_ok hm _ hb1).trans (by rw [hsame]), fun t h1 h2 => ?_⟩
  obtain ⟨i, hseg, -, hl1, hr1⟩ := hin t h1 h2
  have j1 : v0.spline.order - 1 ≤ i := hseg.lower
  have j2 : i + 1 ≤ v0.spline.knots.length - v0.spline.order := hseg.upper
  have j3 : v0.spline.kn i ≤ t := hseg.left
  have hl1 : l ≤ i + 1 - v0.spline.order := hl1
  have hlast : t < v0.spline.kn (v0.spline.knots.length - v0.spline.order) := lt_of_lt_of_le h2 hmax
  have j4 : t < v0.spline.kn (i + 1) := by
    rcases hseg.right with hc | ⟨hc, hc'⟩
    · exact hc
    · have hc' : i + 1 = v0.spline.knots.length - v0.spline.order := hc'
      rw [← hc'] at hlast
      exact hlast
  have hmono : MonoBelow v.spline.kn v.spline.knots.length := g.wf.mono
  have hlow : v.spline.kn (v.spline.order - 1) ≤ t := by
    rw [hgo, g.kn _ (by omega)]
    exact le_trans hmin h1
  have hhigh : t ≤ v.spline.kn (v.spline.knots.length - v.spline.order) := by
    refine hlast.le.trans ?_
    rw [← g.kn _ le_rfl]
    exact hmono _ _ (by omega) (by omega)
  obtain ⟨i', hT, hseg', hloc⟩ := lookup_wide g.wf hw hlow hhigh
  have hii : i' = i := by
    have k1 := hseg'.left
    have k2 := hseg'.le
    have k3 := hseg'.upper
    rcases lt_trichotomy i' i with hc | hc | hc
    · exfalso
      have e1 : v.spline.kn (i' + 1) ≤ v.spline.kn i := hmono _ _ (by omega) (by omega)
      rw [g.kn i (by omega)] at e1
      rcases hseg'.right with e2 | ⟨-, e3⟩
      · linarith
      · omega
    · exact hc
    · exfalso
      have e1 : v.spline.kn (i + 1) ≤ v.spline.kn i' := hmono _ _ (by omega) (by omega)
      rw [g.kn (i + 1) (by omega)] at e1
      linarith
  subst hii
  obtain ⟨y, hy⟩ : ∃ y, v.spline.evalD t 0 = .ok y := ⟨_, evalDNat_eq g.wf t i' 0 hseg'.lower hseg'.upper hseg'.pos hT⟩
  obtain ⟨b, hb, rfl⟩ := jacobian_of_value hy
  obtain ⟨d, hd1, g2, g3, g4, g5⟩ := window_jacobians_of (s := v.pose R) (w := w) (by show 0 < v.spline.order; omega) hidx
    (by show r < v.spline.coeffs.length; omega) h1 h2 hb hloc (by rw [hgo]; exact hl1) (by show i' + 1 - v.spline.order + v.spline.order ≤ r + 1; omega)
  have hvw : ∀ v' : SplineVars ℝ 6, v'.windowValue R w t = (v'.pose R).transformation t := fun v' => if_pos ⟨h1, h2⟩
  obtain ⟨B, hB⟩ : ∃ B : ℕ → Matrix (Fin 6) (Fin 6) ℝ, B = fun x =>
      if i' + 1 - v.spline.order ≤ x ∧ x ≤ i' + 1 - v.spline.order + (v.pose R).spline.order - 1 then
        Matrix.of fun r (c : Fin 6) => mulJac (curveValueJacobian (v.pose R).rotation b.value) (rows6 b.jacobian) r
          ((x - (i' + 1 - v.spline.order)) * 6 + c) else 0 := ⟨_, rfl⟩
  have hblocks : (v.pose R).timeOffsetJacobians w t = .ok (TimedEmission.mk (w.indices.map fun x => (x, B x))
      ((curveValueJacobian (v.pose R).rotation b.value).mulVec d)) := by rw [hB]; exact g2
  have heff : ∀ δ, emissionEffect (w.indices.map fun x => (x, B x)) δ
      = effect (mulJac (curveValueJacobian R b.value) (rows6 b.jacobian)) b.indices δ := by rw [hB]; exact g5
  clear hB g2 g5
  refine ⟨curveValueToTransformation R b.value, (w.indices.map fun x => (x, B x)).map fun p => (v.serials.getD p.1 0, p.2), ?_, ?_, ?_, ?_, ?_⟩
  · rw [hvw]
    unfold Pose.transformation
    have : (v.pose R).spline.eval t = .ok b.value := hy
    rw [this]
    rfl
  · unfold windowJacobians
    rw [hblocks, Outcome.bind_ok]
    have e1 : (w.indices.map fun x => (x, B x)).map Prod.fst = w.indices := by simp [Function.comp_def]
    dsimp only
    rw [e1, windowVariables_ok hm _ hb1, Outcome.map_ok]
    congr 1
    rw [List.map_map, List.map_map, List.zip_map']
    rfl
  · rw [← hsame, List.map_map, List.map_map]
    rfl
  · intro p hp
    obtain ⟨q, hq, rfl⟩ := List.mem_map.1 hp
    obtain ⟨x, hx, rfl⟩ := List.mem_map.1 hq
    have hlt : x < v.serials.length := by
      have h3 : v.serials.length = v.spline.coeffs.length := by simpa [SplineVars.serials] using hm.length
      have := hb1 x hx
      omega
    show v.serials.getD x 0 ∈ v.serials
    rw [List.getD_eq_getElem?_getD, List.getElem?_eq_getElem hlt]
    exact List.getElem_mem hlt
  · intro j x dp hx a c
    obtain ⟨hj, hx'⟩ := designVariable_some hm hx
    rw [predicted_eq hm _ ?_ hx', heff]
    · simp only [hvw]
      exact transformation_update hm hd hb hj dp a c
    · intro p hp
      obtain ⟨x, hx, rfl⟩ := List.mem_map.1 hp
      exact hb1 x hx

end pose

section witnesses

/-! ## Where expressions go wrong, and examples -/

/-- **C93** fails at the end of the spline: an expression for the end time, made before a segment is added, is wrong afterwards: updating the
design variable with index five changes its value, but the Jacobian says it does not. -/
theorem C93_end_violated : ∃ (v : SplineVars ℚ 1) (n : VarNode ℚ), demo.WF ∧ (create demo).spline.tMax = .ok 6 ∧
    (create demo).toExpression 6 0 = .ok n ∧ Faithful n (create demo) ∧ (create demo).run demoSolver [.add 7 ![1] ![0]] = .ok v ∧
    v.InRange 6 ∧ ¬ Faithful n v := by
  have hn : (create demo).toExpression 6 0 = .ok ⟨[2, 3, 4, 5], 6, 0⟩ :=
    (toExpression_eq _ _ _ _).2 ⟨by decide +kernel, rfl, rfl⟩
  have hm0 := mirror_create (sized_of_wf demo_wf)
  have hv0 : ((create demo).run demoSolver [.add 7 ![1] ![0]]).map (fun _ => ()) = .ok () := by decide +kernel
  obtain ⟨v, hv, -⟩ := ok_of_map hv0
  have hval : ∃ y, (VarNode.mk [2, 3, 4, 5] (6 : ℚ) 0).value (create demo) = .ok y := ⟨![4], by decide +kernel⟩
  have hval1 : ((create demo).run demoSolver [.add 7 ![1] ![0]]).bind (fun v => v.spline.tMin) = .ok 3 := by decide +kernel
  rw [hv, Outcome.bind_ok] at hval1
  refine ⟨v, ⟨[2, 3, 4, 5], 6, 0⟩, demo_wf, by decide +kernel, hn, ?_, hv, ⟨3, hval1, by norm_num⟩, ?_⟩
  · obtain ⟨y, hy⟩ := hval
    exact faithful_of_captured hm0 ((toExpression_eq _ _ _ _).1 hn).1 hy
  · rintro ⟨y, em, h1, h2, -, h4⟩
    have e1 : ((create demo).run demoSolver [.add 7 ![1] ![0]]).bind (fun v => (VarNode.mk [2, 3, 4, 5] (6 : ℚ) 0).value v)
        = .ok ![4] := by decide +kernel
    have e2 : ((create demo).run demoSolver [.add 7 ![1] ![0]]).bind (fun v => ((VarNode.mk [2, 3, 4, 5] (6 : ℚ) 0).jacobians v).map
        fun em => predicted em 5 ![6]) = .ok ![0] := by decide +kernel
    have e3 : ((create demo).run demoSolver [.add 7 ![1] ![0]]).bind (fun v => (v.designVariable 5).map fun x => x.serial) = .ok 5 := by
      decide +kernel
    have e4 : ((create demo).run demoSolver [.add 7 ![1] ![0]]).bind (fun v => (v.update 5 ![6]).bind fun v' =>
        (VarNode.mk [2, 3, 4, 5] (6 : ℚ) 0).value v') = .ok ![5] := by decide +kernel
    rw [hv, Outcome.bind_ok] at e1 e2 e3 e4
    obtain ⟨x, hx, hx5⟩ := ok_of_map e3
    obtain ⟨v', hu, e4⟩ := Outcome.bind_eq_ok.1 e4
    have := h4 5 x ![6] v' hx hu
    rw [h2, Outcome.map_ok] at e2
    rw [hx5, Outcome.ok.inj e2, e4, Outcome.ok.inj (h1.symm.trans e1)] at this
    have := congrFun (Outcome.ok.inj this) 0
    norm_num at this

/-- A pose spline of order 2 over the rationals: knots 0 … 9, eight coefficients. -/
def line : BSpline ℚ 6 := initializeBasisMatrices (BSpline.mk (K := ℚ) 2 [0, 1, 2, 3, 4, 5, 6, 7, 8, 9]
  [![0, 0, 0, 0, 0, 0], ![1, 0, 0, 0, 0, 0], ![2, 0, 0, 0, 0, 0], ![3, 0, 0, 0, 0, 0], ![4, 0, 0, 0, 0, 0], ![5, 0, 0, 0, 0, 0],
    ![6, 0, 0, 0, 0, 0], ![7, 0, 0, 0, 0, 0]] [])

/-- Rotation that is always the identity. -/
def still : Rotation ℚ := ⟨fun _ => 1, fun _ => 0, fun _ => 0, fun _ _ => 0, fun _ _ => 0⟩

/-- **C93** fails for the expression for a moving time when a segment is removed: it then announces other design variables, and
updating a design variable that it does not announce changes its value at a time in its window. -/
theorem C93_window_violated : ∃ (w : TimeWindow ℚ) (v v' : SplineVars ℚ 6) (x : MappedVar ℚ 6) (l0 l : List ℕ), line.WF ∧
    ((create line).pose still).timeWindow (9/2) 0 0 = .ok w ∧ w.tmin ≤ 9/2 ∧ 9/2 < w.tmax ∧
    (create line).windowVariables w.indices = .ok l0 ∧ (create line).removeSegment = .ok v ∧ v.InRange (9/2) ∧
    v.windowVariables w.indices = .ok l ∧ l ≠ l0 ∧ v.designVariable 2 = .ok x ∧ x.serial ∉ l ∧
    v.update 2 ![2, 0, 0, 0, 0, 0] = .ok v' ∧ (v.windowValue still w (9/2)).map (fun T => T 0 3) = .ok (7/2) ∧
    (v'.windowValue still w (9/2)).map (fun T => T 0 3) = .ok (9/2) := by
  have hw : (((create line).pose still).timeWindow (9/2) 0 0).map (fun w => (w.tmin, w.tmax, w.indices)) = .ok (4, 5, [3, 4]) := by decide +kernel
  obtain ⟨⟨wa, wb, wi⟩, hw, hw'⟩ := ok_of_map hw
  simp only [Prod.mk.injEq] at hw'
  obtain ⟨rfl, rfl, rfl⟩ := hw'
  have e0 : (create line).removeSegment.map (fun _ => ()) = .ok () := by decide +kernel
  obtain ⟨v, hv, -⟩ := ok_of_map e0
  have e1 : (create line).removeSegment.bind (fun v => v.windowVariables [3, 4]) = .ok [4, 5] := by decide +kernel
  have e2 : (create line).removeSegment.bind (fun v => (v.designVariable 2).map fun x => x.serial) = .ok 3 := by decide +kernel
  have e3 : (create line).removeSegment.bind (fun v => (v.update 2 ![2, 0, 0, 0, 0, 0]).bind fun v' =>
      (v'.windowValue still ⟨4, 5, [3, 4]⟩ (9/2)).map (fun T => T 0 3)) = .ok (9/2) := by decide +kernel
  have e4 : (create line).removeSegment.bind (fun v => (v.windowValue still ⟨4, 5, [3, 4]⟩ (9/2)).map (fun T => T 0 3)) = .ok (7/2) := by
    decide +kernel
  have e5 : (create line).removeSegment.bind (fun v => v.spline.tMin) = .ok 2 := by decide +kernel
  rw [hv, Outcome.bind_ok] at e1 e2 e3 e4 e5
  obtain ⟨x, hx, hx3⟩ := ok_of_map e2
  obtain ⟨v', hu, e3⟩ := Outcome.bind_eq_ok.1 e3
  exact ⟨_, v, v', x, [3, 4], [4, 5], initializeBasisMatrices_wf _ (by decide) (by decide +kernel) (by decide) (by decide), hw,
    by norm_num, by norm_num, by decide +kernel, hv, ⟨2, e5, by norm_num⟩, e1, by decide, hx, by rw [hx3]; decide, hu, e4, e3⟩

/-- The hypotheses of `C93_same_partial` and `C93_faithful_partial`: an expression for time `9/2` and a history in which everything happens,
after which the time is still covered; two more removals and it is not. -/
example : Sized demo ∧ (create demo).toExpression (9/2) 1 = .ok ⟨[1, 2, 3, 4], 9/2, 1⟩ ∧ (create demo).spline.tMax = .ok 6 ∧
    (9/2 : ℚ) + snapTol ≤ 6 ∧
    ((create demo).run demoSolver [.add 7 ![1] ![0], .update 4 ![10], .remove, .revert 3]).bind (fun v => v.spline.tMin) = .ok 4 ∧
    ((create demo).run demoSolver [.add 7 ![1] ![0], .remove, .update 4 ![10], .remove]).bind (fun v => v.spline.tMin) = .ok 5 := by
  refine ⟨sized_of_wf demo_wf, (toExpression_eq _ _ _ _).2 ⟨by decide +kernel, rfl, rfl⟩, ?_, ?_, ?_, ?_⟩ <;> decide +kernel

/-- The hypotheses of `C93_end`. -/
example : (create demo).spline.tMax = .ok 6 ∧ ((create demo).addSegment demoSolver 7 ![1] ![0]).bind (fun v => v.spline.tMax) = .ok 7 ∧
    (6 : ℚ) + snapTol ≤ 7 := by
  refine ⟨?_, ?_, ?_⟩ <;> decide +kernel

/-- The hypotheses of `C93_transformation_partial` and `C93_window_partial`: a pose spline, an expression and a window for time `5/2`; then a
design variable is updated and a segment is added. -/
example (c0 c1 c2 dp p : Fin 6 → ℝ) : ∃ n w v, Sized (Pose.demo c0 c1 c2) ∧ (create (Pose.demo c0 c1 c2)).spline.WF ∧
    (create (Pose.demo c0 c1 c2)).spline.WideLast ∧
    (create (Pose.demo c0 c1 c2)).toExpression (5/2) 0 = .ok n ∧ (create (Pose.demo c0 c1 c2)).spline.tMax = .ok 3 ∧
    ((create (Pose.demo c0 c1 c2)).pose (rodrigues ℝ)).timeWindow (5/2) (1/10) (1/10) = .ok w ∧ w.tmin ≤ 5/2 ∧ 5/2 < w.tmax ∧
    NoRemoval [.update 1 dp, .add 4 p 0] ∧ (create (Pose.demo c0 c1 c2)).run choiceSolver [.update 1 dp, .add 4 p 0] = .ok v ∧
    v.InRange (5/2) ∧ v.spline.WideLast := by
  have hwf := Pose.demo_wf c0 c1 c2
  have hs := sized_of_wf hwf
  have hm0 := mirror_create hs
  have hn : (create (Pose.demo c0 c1 c2)).toExpression (5/2) 0 = .ok ⟨[0, 1, 2], 5/2, 0⟩ := by
    refine (toExpression_eq _ _ _ _).2 ⟨?_, rfl, rfl⟩
    rw [captured_eq hs (Pose.demo_index c0 c1 c2 (5/2) (by norm_num) (by norm_num)) le_rfl]
    rfl
  obtain ⟨w, hw1, hw2, hw3, hw4⟩ := C45_defined ((create (Pose.demo c0 c1 c2)).pose (rodrigues ℝ)) hwf (demo_wide _ _ _) (5/2) (1/10) (1/10) 2 3
    rfl rfl (by norm_num) (by norm_num) (by norm_num) (by norm_num)
  have hwt := hw4 (5/2) (by norm_num) (by norm_num) (by norm_num) (by norm_num)
  obtain ⟨v1, x, hu, hm1, -, -, -, -, hsp⟩ := update_ok hm0 1 (by show 1 < 3; decide) dp
  have hc : CanAppend v1.spline 4 := by
    rw [hsp]
    refine ⟨by show 2 * 3 ≤ 6; norm_num, ?_⟩
    show (3 : ℝ) < 4
    norm_num
  have hwf1 : v1.spline.WF := by rw [hsp]; exact wf_set hwf _ _
  have hmax1 : v1.spline.tMax = .ok 3 := by rw [hsp]; rfl
  have hlast1 : v1.spline.kn (v1.spline.knots.length - v1.spline.order - 1) < 3 := by
    rw [hsp]
    show (2 : ℝ) < 3
    norm_num
  obtain ⟨s', p0, e1, -, -, hseg, hmin', hmax', -⟩ := C14_append choiceSolver choiceSolver_regular v1.spline hwf1 3 hmax1 hlast1 4 (by norm_num) p 0
  rcases add_outcome choiceSolver hm1 4 p 0 with ⟨hc', -⟩ | ⟨-, v, e, hm', hser, ap⟩
  · exact absurd hc hc'
  have hsv : v.spline = s' := by
    have := e
    unfold addSegment at this
    rw [e1, Outcome.bind_ok] at this
    obtain ⟨v'', h1, -, h2, -⟩ := attach_ok hm1 (s' := s') (by
      obtain ⟨s'', e3, a'⟩ := add_sized choiceSolver hm1.sized hc.1 4 hc.2 p 0
      rw [e1] at e3
      obtain rfl := Outcome.ok.inj e3
      exact a')
    rw [this] at h1
    obtain rfl := Outcome.ok.inj h1
    exact h2
  have hmin1 : v1.spline.tMin = .ok 2 := by rw [hsp]; rfl
  refine ⟨_, w, v, hs, hwf, demo_wide _ _ _, hn, rfl, hw1, hwt.1, hwt.2, trivial, ?_, ⟨2, ?_, by norm_num⟩, ?_⟩
  · unfold SplineVars.run
    have : (create (Pose.demo c0 c1 c2)).step choiceSolver (.update 1 dp) = .ok v1 := hu
    rw [this]
    show SplineVars.run choiceSolver v1 [.add 4 p 0] = _
    unfold SplineVars.run
    have : v1.step choiceSolver (.add 4 p 0) = .ok v := e
    rw [this]
    rfl
  · rw [hsv, hmin', hmin1]
  · intro a b hab
    obtain ⟨i, j1, j2, rfl, rfl, j3⟩ := timeIntervalOf_eq ap.wf hab
    have ho : v.spline.order = 3 := ap.order.trans (by rw [hsp]; rfl)
    have hk : v.spline.knots.length = 7 := ap.knots.trans (by rw [hsp]; rfl)
    have hseg : v.spline.numValidTimeSegments = 2 := by rw [hsv, hseg, hsp]; rfl
    rw [hseg, ho] at j3
    obtain rfl : i = 3 := by omega
    have e5 : v.spline.kn 3 = 3 := (ap.old_kn 3 (by rw [hsp]; show 3 ≤ 6 - 3; decide)).trans (by rw [hsp]; rfl)
    have e6 : v.spline.kn 4 = 4 := by
      have h1 := tMax_of hm'.sized.order (by rw [ho, hk]; norm_num)
      rw [hsv, hmax', ← hsv] at h1
      rw [ho, hk] at h1
      exact (Outcome.ok.inj h1).symm
    rw [e5, e6]
    norm_num

end witnesses
end SplineVars
end Verif
