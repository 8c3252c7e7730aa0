import Verif.Lemmas.Fit
import Verif.Lemmas.Linear
import Verif.Props.State

/-!
# Properties C15 and C52: two point initialisation, reproduction of straight lines
-/

set_option linter.unusedSectionVars false

namespace Verif

open Finset Polynomial BSpline

variable {K : Type*} [Field K] [LinearOrder K] [IsStrictOrderedRing K] {D : ℕ}

/-! ## C52: straight lines -/

/-- Sum of the polynomial pieces over all coefficients reduces to the local ones. -/
theorem segPoly_local {s : BSpline K D} (h : s.WF) (i : ℕ) (h1 : s.order - 1 ≤ i)
    (h2 : i + 1 ≤ s.knots.length - s.order) (f : ℕ → K) :
    ∑ j ∈ range s.coeffs.length, C (f j) * piece s.kn i (s.order - 1) j
      = ∑ j ∈ Ico (i - (s.order - 1)) (i + 1), C (f j) * piece s.kn i (s.order - 1) j := by
  have hk := h.order_pos
  have hn := h.enough
  have hc := h.coeffs_len
  symm
  apply sum_subset
  · intro j hj
    have := mem_Ico.1 hj
    exact mem_range.2 (by omega)
  · intro j _ hj
    have hj' : j < i - (s.order - 1) ∨ i < j := by
      by_contra hcon
      exact hj (mem_Ico.2 (by omega))
    rcases hj' with hj' | hj'
    · rw [piece_zero_of_gt _ _ _ _ (by omega), mul_zero]
    · rw [piece_zero_of_lt _ _ _ _ hj', mul_zero]

/-- A spline whose coefficients are the values of a straight line at the averages of `order - 1` consecutive
inner knots follows the line on every segment. -/
theorem segPoly_line {s : BSpline K D} (h : s.WF) (a b : Fin D → K)
    (hc : ∀ j < s.coeffs.length, ∀ d, s.col j d
      = a d + b d * ((∑ l ∈ range (s.order - 1), s.kn (j + 1 + l)) / ((s.order - 1 : ℕ) : K)))
    (i : ℕ) (h1 : s.order - 1 ≤ i) (h2 : i + 1 ≤ s.knots.length - s.order) (hlt : s.kn i < s.kn (i + 1))
    (d : Fin D) : s.segPoly i d = C (a d) + C (b d) * X := by
  have hk := h.order_pos
  have hn := h.enough
  have hc' := h.coeffs_len
  have hk0 : ((s.order - 1 : ℕ) : K) ≠ 0 := by exact_mod_cast (by omega : s.order - 1 ≠ 0)
  unfold segPoly
  rw [segPoly_local h i h1 h2 (fun j => s.col j d)]
  have e : ∀ j ∈ Ico (i - (s.order - 1)) (i + 1), C (s.col j d) * piece s.kn i (s.order - 1) j
      = C (a d) * piece s.kn i (s.order - 1) j
        + C (b d * (1 / ((s.order - 1 : ℕ) : K)))
          * (C (knotSum s.kn (s.order - 1) j) * piece s.kn i (s.order - 1) j) := by
    intro j hj
    have := mem_Ico.1 hj
    rw [hc j (by omega) d]
    unfold knotSum
    rw [← mul_assoc, ← C_mul, ← add_mul, ← C_add]
    congr 3
    ring
  rw [sum_congr rfl e, sum_add_distrib, ← mul_sum, ← mul_sum,
    piece_sum_one s.kn s.knots.length i h.mono hlt _ h1 (by omega),
    piece_linear s.kn s.knots.length i h.mono hlt _ h1 (by omega), ← mul_assoc, ← C_mul]
  have : b d * (1 / ((s.order - 1 : ℕ) : K)) * ((s.order - 1 : ℕ) : K) = b d := by
    field_simp
  rw [this, mul_one]

theorem line_derivs (a b t : K) (der : ℕ) :
    (derivative^[der] (C a + C b * X)).eval t = if der = 0 then a + b * t else if der = 1 then b else 0 := by
  rcases der with _ | _ | der
  · simp
  · simp
  · simp only [Function.iterate_succ_apply]
    simp

/-- **C52**: coefficients taken from a straight line at the averages of `order - 1` consecutive inner knots make the curve
that straight line: value, velocity and vanishing higher derivatives at every valid time, for every nondecreasing knot
sequence. -/
theorem C52_straight_lines (s : BSpline K D) (h : s.WF) (a b : Fin D → K)
    (hc : ∀ j < s.coeffs.length, ∀ d, s.col j d
      = a d + b d * ((∑ l ∈ range (s.order - 1), s.kn (j + 1 + l)) / ((s.order - 1 : ℕ) : K)))
    (t : K) (ha : s.Admissible t) :
    s.eval t = .ok (fun d => a d + b d * t) ∧ s.evalD t 1 = .ok b ∧
      ∀ der : ℤ, 2 ≤ der → s.evalD t der = .ok 0 := by
  obtain ⟨i, hi, -, hev⟩ := evalDNat_admissible h t ha
  have hs := segPoly_line h a b hc i hi.lower hi.upper hi.pos
  unfold BSpline.eval evalD
  refine ⟨?_, ?_, ?_⟩
  · rw [if_neg (by omega), hev]
    congr 1
    funext d
    rw [hs d, line_derivs]
    simp
  · rw [if_neg (by omega), hev]
    congr 1
    funext d
    rw [hs d, line_derivs]
    simp
  · intro der hd
    rw [if_neg (by omega), hev]
    congr 1
    funext d
    rw [hs d, line_derivs, if_neg (by omega), if_neg (by omega)]
    rfl

/-- Knots 0,0,1,2,4,5,7,7 and order 3: averages 1/2, 3/2, 3, 9/2, 6; the line `1 + 2 t`. -/
def exLine : BSpline ℚ 1 :=
  initializeBasisMatrices ⟨3, exKnots, [![2], ![4], ![7], ![10], ![13]], []⟩

theorem exLine_wf : exLine.WF :=
  initializeBasisMatrices_wf _ (by decide) (by decide +kernel) (by decide) (by decide)

example : exLine.WF ∧ exLine.Admissible (9/2) ∧ exLine.eval (9/2) = .ok ![10] ∧
    (∀ j < exLine.coeffs.length, ∀ d, exLine.col j d
      = ![1] d + ![2] d * ((∑ l ∈ range (exLine.order - 1), exLine.kn (j + 1 + l)) / ((exLine.order - 1 : ℕ) : ℚ))) := by
  refine ⟨exLine_wf, ?_, by decide +kernel, by decide +kernel⟩
  unfold Admissible
  decide +kernel

/-! ## C15 -/

theorem uniformKnots_getD (k n : ℕ) (t0 dt : K) (i : ℕ) (h : i < n) :
    (uniformKnots k n t0 dt).getD i 0 = t0 + ((i : K) - (k : K) + 1) * dt := by
  simp [uniformKnots, List.getD_eq_getElem?_getD, h]

theorem uniformKnots_sorted (k n : ℕ) (t0 dt : K) (hdt : 0 ≤ dt) : (uniformKnots k n t0 dt).Pairwise (· ≤ ·) := by
  apply pairwise_of_adjacent
  intro j h1 h2
  have h2' : j < n := by simpa [uniformKnots] using h2
  rw [uniformKnots_getD _ _ _ _ _ (by omega), uniformKnots_getD _ _ _ _ _ h2']
  have : ((j - 1 : ℕ) : K) = (j : K) - 1 := by push_cast [Nat.cast_sub h1]; ring
  rw [this]
  nlinarith

/-- The constraints written by `initSpline` are those of a straight line. -/
theorem initConstraints_spec (k : ℕ) (hk : 2 ≤ k) (t0 t1 : K) (h : t0 < t1) (p0 p1 : Fin D → K) :
    (initConstraints k t0 t1 (t1 - t0) p0 p1).length = k + k % 2 ∧
    (∀ c ∈ initConstraints k t0 t1 (t1 - t0) p0 p1, 0 ≤ c.der ∧ c.weight = 1 ∧ (c.time = t0 ∨ c.time = t1) ∧
      ∀ d, c.value d = (derivative^[c.der.toNat] (C (p0 d - t0 * ((p1 d - p0 d) / (t1 - t0)))
        + C ((p1 d - p0 d) / (t1 - t0)) * X)).eval c.time) ∧
    ∀ r < (k + k % 2) / 2, (∃ c ∈ initConstraints k t0 t1 (t1 - t0) p0 p1, c.time = t0 ∧ c.der = r) ∧
      ∃ c ∈ initConstraints k t0 t1 (t1 - t0) p0 p1, c.time = t1 ∧ c.der = r := by
  have hne : t1 - t0 ≠ 0 := by
    have : 0 < t1 - t0 := by linarith
    exact this.ne'
  have hlen : ∀ n (f : ℕ → Constraint K D) (g : ℕ → Constraint K D),
      ((List.range n).flatMap (fun j => [f j, g j])).length = 2 * n := by
    intro n f g
    rw [List.length_flatMap]
    simp [mul_comm]
  refine ⟨?_, ?_, ?_⟩
  · unfold initConstraints
    simp only [List.length_append, List.length_cons, List.length_nil]
    by_cases h2 : 2 < k
    · rw [if_pos h2]
      by_cases h4 : 4 < k
      · rw [if_pos h4, hlen]
        simp only [List.length_cons, List.length_nil]
        omega
      · rw [if_neg h4]
        simp only [List.length_cons, List.length_nil]
        omega
    · rw [if_neg h2, if_neg (by omega)]
      simp only [List.length_nil]
      omega
  · intro c hc
    unfold initConstraints at hc
    simp only [List.mem_append] at hc
    rcases hc with (hc | hc) | hc
    · simp only [List.mem_cons, List.not_mem_nil, or_false] at hc
      rcases hc with rfl | rfl
      · refine ⟨le_rfl, rfl, Or.inl rfl, fun d => ?_⟩
        simp only [Int.toNat_zero, line_derivs, if_true]
        ring
      · refine ⟨le_rfl, rfl, Or.inr rfl, fun d => ?_⟩
        simp only [Int.toNat_zero, line_derivs, if_true]
        field_simp
        ring
    · split_ifs at hc with h2
      · simp only [List.mem_cons, List.not_mem_nil, or_false] at hc
        rcases hc with rfl | rfl
        · exact ⟨by norm_num, rfl, Or.inl rfl, fun d => by simp⟩
        · exact ⟨by norm_num, rfl, Or.inr rfl, fun d => by simp⟩
      · simp at hc
    · split_ifs at hc with h4
      · obtain ⟨j, -, hj⟩ := List.mem_flatMap.1 hc
        have e : ((j : ℤ) + 2).toNat = j + 2 := by omega
        simp only [List.mem_cons, List.not_mem_nil, or_false] at hj
        rcases hj with rfl | rfl
        · refine ⟨by simp only []; omega, rfl, Or.inl rfl, fun d => ?_⟩
          simp only [e, line_derivs]
          simp
        · refine ⟨by simp only []; omega, rfl, Or.inr rfl, fun d => ?_⟩
          simp only [e, line_derivs]
          simp
      · simp at hc
  · intro r hr
    unfold initConstraints
    dsimp only
    rcases r with _ | _ | r
    · constructor
      · exact ⟨_, List.mem_append_left _ (List.mem_append_left _ (List.mem_cons_self)), rfl, rfl⟩
      · exact ⟨⟨t1, 0, 1, p1⟩, List.mem_append_left _ (List.mem_append_left _ (by simp)), rfl, rfl⟩
    · have h2 : 2 < k := by omega
      rw [if_pos h2]
      constructor
      · exact ⟨⟨t0, 1, 1, fun d => (p1 d - p0 d) / (t1 - t0)⟩, List.mem_append_left _ (List.mem_append_right _ (by simp)), rfl, rfl⟩
      · exact ⟨⟨t1, 1, 1, fun d => (p1 d - p0 d) / (t1 - t0)⟩, List.mem_append_left _ (List.mem_append_right _ (by simp)), rfl, rfl⟩
    · have h4 : 4 < k := by omega
      rw [if_pos h4]
      constructor
      · refine ⟨⟨t0, (r : ℤ) + 2, 1, 0⟩, List.mem_append_right _ (List.mem_flatMap.2 ⟨r, ?_, by simp⟩), rfl, ?_⟩
        · exact List.mem_range.2 (by omega)
        · simp only []; push_cast; ring
      · refine ⟨⟨t1, (r : ℤ) + 2, 1, 0⟩, List.mem_append_right _ (List.mem_flatMap.2 ⟨r, ?_, by simp⟩), rfl, ?_⟩
        · exact List.mem_range.2 (by omega)
        · simp only []; push_cast; ring

/-- **C15**: two point initialisation (of a spline that holds no more knots than it is going to hold, e.g. a new one), for
every order: the result has one segment on exactly the given interval and its curve is the straight line between the two
points: it takes the given values at both ends, moves with the mean velocity throughout (hence at both ends) and has
vanishing higher derivatives. The solver is only assumed to solve systems with trivial kernel. (What is missing: a spline that
already holds more knots, where the check of the new knots reads out of range, as in C12.) -/
theorem C15_two_points_partial (solve : Solver K) (hsolve : SolvesRegular solve) (s : BSpline K D) (ho : 2 ≤ s.order)
    (hold : s.knots.length ≤ 2 * s.order) (t0 t1 : K) (p0 p1 : Fin D → K) (ht : t0 < t1) :
    ∃ s', s.initSpline solve t0 t1 p0 p1 = .ok s' ∧ s'.WF ∧ s'.order = s.order ∧ s'.numValidTimeSegments = 1 ∧
      s'.timeInterval = .ok (t0, t1) ∧ s'.eval t0 = .ok p0 ∧ s'.eval t1 = .ok p1 ∧
      ∀ t, t0 ≤ t → t ≤ t1 →
        s'.eval t = .ok (fun d => p0 d + (t - t0) / (t1 - t0) * (p1 d - p0 d)) ∧
        s'.evalD t 1 = .ok (fun d => (p1 d - p0 d) / (t1 - t0)) ∧
        ∀ der : ℤ, 2 ≤ der → s'.evalD t der = .ok 0 := by
  have hdt : 0 < t1 - t0 := by linarith
  have hnK : numKnotsRequired s.order 1 = 2 * s.order := by
    unfold numKnotsRequired numCoefficientsRequired; omega
  have hnC : numCoefficientsRequired s.order 1 = s.order := by
    unfold numCoefficientsRequired; omega
  set kns := uniformKnots s.order (2 * s.order) t0 (t1 - t0) with hkns
  have hklen : kns.length = 2 * s.order := by simp [hkns, uniformKnots]
  have hsorted : kns.Pairwise (· ≤ ·) := uniformKnots_sorted _ _ _ _ hdt.le
  have hset := set_ok ho (kns := kns) (cs := List.replicate s.order (0 : Fin D → K)) (by omega) hsorted (by omega)
    (by rw [List.length_replicate, hklen]; omega)
  set s1 := initializeBasisMatrices
    { s with knots := kns, coeffs := List.replicate s.order (0 : Fin D → K) } with hs1
  have hwf : s1.WF := set_wf ho hsorted hset
  have hord : s1.order = s.order := rfl
  have hkk : s1.knots.length = 2 * s.order := hklen
  have hcc : s1.coeffs.length = s.order := by
    change (List.replicate s.order (0 : Fin D → K)).length = _
    simp
  have hkn : ∀ i, i < 2 * s.order → s1.kn i = t0 + ((i : K) - (s.order : K) + 1) * (t1 - t0) := by
    intro i hi
    exact uniformKnots_getD _ _ _ _ _ hi
  have hk1 : s1.kn (s.order - 1) = t0 := by
    rw [hkn _ (by omega)]
    push_cast [Nat.cast_sub (show 1 ≤ s.order by omega)]; ring
  have hk2 : s1.kn s.order = t1 := by
    rw [hkn _ (by omega)]; ring
  have hk1' : s1.kn (s1.order - 1) = t0 := hk1
  have hlast : s1.knots.length - s1.order = s.order := by rw [hkk, hord]; omega
  -- every time of the interval is found in the only segment
  have hadm : ∀ (s2 : BSpline K D), s2.knots = s1.knots → s2.order = s1.order → ∀ t, t0 ≤ t → t ≤ t1 →
      s2.Admissible t := by
    intro s2 e1 e2 t h1 h2
    have ek : ∀ i, s2.kn i = s1.kn i := fun i => by unfold kn; rw [e1]
    unfold Admissible
    rw [ek, ek, ek, e1, e2, hlast, hord, hk1, hk2]
    exact ⟨h1, h2, Or.inr ⟨h1, ht⟩⟩
  have hT : ∀ t, t0 ≤ t → t ≤ t1 → s1.computeTIndex t = .ok (s1.kn s.order - s1.kn (s.order - 1), s.order - 1) := by
    intro t h1 h2
    obtain ⟨i, hT, hi⟩ := lookup hwf t (hadm s1 rfl rfl t h1 h2)
    have a1 := hi.lower
    have a2 := hi.upper
    rw [hlast] at a2
    rw [hord] at a1
    have : i = s.order - 1 := by omega
    subst this
    rw [show s.order - 1 + 1 = s.order by omega] at hT
    exact hT
  have hseg : s1.kn (s.order - 1) < s1.kn (s.order - 1 + 1) := by
    rw [hk1, show s.order - 1 + 1 = s.order by omega, hk2]; exact ht
  have hevw : ∀ y t, t0 ≤ t → t ≤ t1 → ∀ der : ℕ, (s1.withVec y).evalD t der
      = .ok (fun d => (derivative^[der] ((s1.withVec y).segPoly (s.order - 1) d)).eval t) := by
    intro y t h1 h2 der
    unfold evalD
    rw [if_neg (by omega), Int.toNat_natCast]
    refine evalDNat_eq (withVec_wf hwf y) t (s.order - 1) der le_rfl ?_ hseg ?_
    · change s.order - 1 + 1 ≤ s1.knots.length - s1.order
      rw [hlast]; omega
    · have := hT t h1 h2
      rw [show s.order - 1 + 1 = s.order by omega]
      exact this
  obtain ⟨hcl, hcs, hce⟩ := initConstraints_spec s.order ho t0 t1 ht p0 p1
  set cs := initConstraints s.order t0 t1 (t1 - t0) p0 p1 with hcsdef
  obtain ⟨rows, hrows, hrl, hspec⟩ := blockRows_spec hwf (fun _ => .ok 0) cs (by
    intro c hc
    obtain ⟨c1, c2, c3, c4⟩ := hcs c hc
    have : t0 ≤ c.time ∧ c.time ≤ t1 := by
      rcases c3 with e | e <;> rw [e]
      · exact ⟨le_rfl, ht.le⟩
      · exact ⟨ht.le, le_rfl⟩
    refine ⟨c1, _, _, hT c.time this.1 this.2, by rw [hord], by rw [hlast]; omega, ?_⟩
    rw [hord, show s.order - 1 + 1 - s.order = 0 by omega, Nat.zero_mul])
  set L : Fin D → K[X] := fun d => C (p0 d - t0 * ((p1 d - p0 d) / (t1 - t0)))
        + C ((p1 d - p0 d) / (t1 - t0)) * X with hL
  -- a row in terms of the segment polynomial
  have hrow : ∀ y j (hj : j < cs.length) (d : Fin D),
      mulV (s1.coeffs.length * D) (rowsMat (s1.order * D) rows) y (j * D + d)
        = (derivative^[(cs[j]).der.toNat] ((s1.withVec y).segPoly (s.order - 1) d)).eval (cs[j]).time ∧
      rowsVec rows (j * D + d) = (derivative^[(cs[j]).der.toNat] (L d)).eval (cs[j]).time := by
    intro y j hj d
    obtain ⟨a1, a2⟩ := hspec j hj d
    obtain ⟨v, hv1, hv2⟩ := a2 y
    obtain ⟨c1, c2, c3, c4⟩ := hcs (cs[j]) (List.getElem_mem hj)
    refine ⟨?_, by rw [a1, c4]⟩
    rw [hv2, c2, one_mul]
    have : t0 ≤ (cs[j]).time ∧ (cs[j]).time ≤ t1 := by
      rcases c3 with e | e <;> rw [e]
      · exact ⟨le_rfl, ht.le⟩
      · exact ⟨ht.le, le_rfl⟩
    have := hevw y (cs[j]).time this.1 this.2 (cs[j]).der.toNat
    rw [Int.toNat_of_nonneg c1, hv1] at this
    exact congrFun (Outcome.ok.inj this) d
  -- a solution of all rows is unique
  have huniq : ∀ (y : ℕ → K) (M : Fin D → K[X]), (∀ d, (M d).natDegree ≤ s.order - 1) →
      (∀ j (hj : j < cs.length) (d : Fin D), mulV (s1.coeffs.length * D) (rowsMat (s1.order * D) rows) y (j * D + d)
        = (derivative^[(cs[j]).der.toNat] (M d)).eval (cs[j]).time) →
      ∀ d, (s1.withVec y).segPoly (s.order - 1) d = M d := by
    intro y M hM hy d
    have hdeg : ((s1.withVec y).segPoly (s.order - 1) d - M d).natDegree ≤ s.order - 1 := by
      refine (natDegree_sub_le _ _).trans (max_le ?_ (hM d))
      unfold segPoly
      refine natDegree_sum_le_of_forall_le _ _ fun j _ => ?_
      exact (natDegree_C_mul_le _ _).trans (piece_natDegree _ _ _ _)
    have hz : ∀ (τ : K) (r : ℕ), (∃ c ∈ cs, c.time = τ ∧ c.der = r) →
        (derivative^[r] ((s1.withVec y).segPoly (s.order - 1) d - M d)).eval τ = 0 := by
      rintro τ r ⟨c, hc, e1, e2⟩
      obtain ⟨j, hj, rfl⟩ := List.getElem_of_mem hc
      have h1 := (hrow y j hj d).1
      rw [hy j hj d] at h1
      have e3 : (cs[j]).der.toNat = r := by rw [e2]; simp
      rw [e3, e1] at h1
      rw [iterate_derivative_sub, eval_sub, h1, sub_self]
    have := hermite_unique _ ((s.order + s.order % 2) / 2) t0 t1 ht.ne (lt_of_le_of_lt hdeg (by omega))
      (fun r hr => hz t0 r (hce r hr).1) (fun r hr => hz t1 r (hce r hr).2)
    exact sub_eq_zero.1 this
  have hm : (s.order + s.order % 2) * D = cs.length * D := by rw [hcl]
  have hidx : ∀ r < cs.length * D, ∃ j, ∃ _ : j < cs.length, ∃ d : Fin D, r = j * D + d := by
    intro r hr
    have hD : 0 < D := Nat.pos_of_ne_zero fun h => by
      have := (Nat.mul_eq_zero.2 (Or.inr h) : cs.length * D = 0); omega
    exact ⟨r / D, (Nat.div_lt_iff_lt_mul hD).2 hr, ⟨r % D, Nat.mod_lt _ hD⟩, (Nat.div_add_mod' r D).symm⟩
  -- trivial kernel
  have hinj : ∀ x, (∀ r < cs.length * D, mulV (s1.coeffs.length * D) (rowsMat (s1.order * D) rows) x r = 0) →
      ∀ q < s1.coeffs.length * D, x q = 0 := by
    intro x hx q hq
    have hD : 0 < D := Nat.pos_of_ne_zero fun h => by
      have := (Nat.mul_eq_zero.2 (Or.inr h) : s1.coeffs.length * D = 0); omega
    have hzero := huniq x (fun _ => 0) (by simp) (by
      intro j hj d
      rw [hx _ (by
        calc j * D + d < j * D + D := by omega
          _ = (j + 1) * D := by ring
          _ ≤ _ := Nat.mul_le_mul_right _ hj)]
      simp)
    have hq' : q / D < s1.coeffs.length := (Nat.div_lt_iff_lt_mul hD).2 hq
    have h0 := hzero ⟨q % D, Nat.mod_lt _ hD⟩
    unfold segPoly at h0
    have hwf' := withVec_wf hwf x
    have h0' := (segPoly_local hwf' (s.order - 1) le_rfl (by
      change s.order - 1 + 1 ≤ s1.knots.length - s1.order
      rw [hlast]; omega) (fun j => (s1.withVec x).col j ⟨q % D, Nat.mod_lt _ hD⟩)).symm.trans h0
    have := piece_independent (s1.withVec x).kn (s1.withVec x).knots.length (s.order - 1) hwf'.mono hseg
      ((s1.withVec x).order - 1) le_rfl (by
        change s.order - 1 + (s.order - 1) + 1 < s1.knots.length
        rw [hkk]; omega) _ h0' (q / D) (by
        change s.order - 1 - (s.order - 1) ≤ q / D
        rw [Nat.sub_self]
        exact Nat.zero_le _) (by rw [hcc] at hq'; exact Nat.le_sub_one_of_lt hq')
    rw [withVec_col s1 x _ hq'] at this
    rw [← this]
    congr 1
    exact (Nat.div_add_mod' q D).symm
  -- the straight line solves the system
  have hexact : ∃ x, ∀ r < cs.length * D,
      mulV (s1.coeffs.length * D) (rowsMat (s1.order * D) rows) x r = rowsVec rows r := by
    refine ⟨fun q => if hq : q % D < D then
      (p0 ⟨q % D, hq⟩ - t0 * ((p1 ⟨q % D, hq⟩ - p0 ⟨q % D, hq⟩) / (t1 - t0)))
        + ((p1 ⟨q % D, hq⟩ - p0 ⟨q % D, hq⟩) / (t1 - t0))
          * ((∑ l ∈ range (s1.order - 1), s1.kn (q / D + 1 + l)) / ((s1.order - 1 : ℕ) : K)) else 0, ?_⟩
    intro r hr
    obtain ⟨j, hj, d, rfl⟩ := hidx r hr
    have hD : 0 < D := by have := d.2; omega
    rw [(hrow _ j hj d).1, (hrow 0 j hj d).2]
    congr 2
    refine segPoly_line (withVec_wf hwf _) (fun d => p0 d - t0 * ((p1 d - p0 d) / (t1 - t0)))
      (fun d => (p1 d - p0 d) / (t1 - t0)) ?_ (s.order - 1) le_rfl ?_ hseg d
    · intro j hj d
      rw [withVec_col s1 _ _ (by simpa using hj)]
      have e1 : (j * D + (d : ℕ)) / D = j := by
        rw [Nat.add_comm, Nat.add_mul_div_right _ _ hD, Nat.div_eq_of_lt d.2, Nat.zero_add]
      have e2 : (j * D + (d : ℕ)) % D = d := by
        rw [Nat.add_comm, Nat.add_mul_mod_self_right, Nat.mod_eq_of_lt d.2]
      simp only [e1, e2, d.2, dif_pos, Fin.eta]
      rfl
    · change s.order - 1 + 1 ≤ s1.knots.length - s1.order
      rw [hlast]; omega
  -- the computed coefficients
  obtain ⟨x, hx1, hx2⟩ : ∃ x, s.initSpline solve t0 t1 p0 p1 = .ok (s1.withVec x) ∧
      ∀ r < cs.length * D, mulV (s1.coeffs.length * D) (rowsMat (s1.order * D) rows) x r = rowsVec rows r := by
    have hmin : s1.tMin = .ok t0 := by rw [tMin_eq hwf, hk1']
    have hmax : s1.tMax = .ok t1 := by rw [tMax_eq hwf, hlast, hk2]
    have hbase : s.initSpline solve t0 t1 p0 p1 = (if (s.order + s.order % 2) * D = s.order * D then
        s1.setSolved solve (s.order * D) (rowsMat (s.order * D) rows) (rowsVec rows)
        else s1.setSolved solve (s.order * D) (gram ((s.order + s.order % 2) * D) (rowsMat (s.order * D) rows))
          (transposeVec ((s.order + s.order % 2) * D) (rowsMat (s.order * D) rows) (rowsVec rows))) := by
      unfold initSpline
      rw [if_neg (not_le.2 ht), hnK, hnC]
      simp only []
      rw [hset]
      simp only [Outcome.bind_ok]
      rw [hmin, hmax]
      simp only [Outcome.bind_ok]
      rw [hrows]
      rfl
    rw [hbase]
    split_ifs with he
    · refine ⟨solve (s1.coeffs.length * D) (rowsMat (s1.order * D) rows) (rowsVec rows), ?_, ?_⟩
      · have := setSolved_eq s1 solve (rowsMat (s1.order * D) rows) (rowsVec rows)
        rw [hcc] at this ⊢
        exact this
      · have e : cs.length * D = s1.coeffs.length * D := by rw [hcc, ← he, hcl]
        rw [e] at hinj ⊢
        exact hsolve _ _ _ hinj
    · refine ⟨solve (s1.coeffs.length * D) (gram (cs.length * D) (rowsMat (s1.order * D) rows))
        (transposeVec (cs.length * D) (rowsMat (s1.order * D) rows) (rowsVec rows)), ?_, ?_⟩
      · have := setSolved_eq s1 solve (gram (cs.length * D) (rowsMat (s1.order * D) rows))
          (transposeVec (cs.length * D) (rowsMat (s1.order * D) rows) (rowsVec rows))
        rw [hm]
        rw [hcc] at this ⊢
        exact this
      · exact normal_exact _ _ _ _ _ hexact (hsolve _ _ _ (gram_regular _ _ _ hinj))
  have hpoly := huniq x L (by
    intro d
    refine (natDegree_add_le _ _).trans (max_le ?_ ?_)
    · rw [natDegree_C]; omega
    · exact (natDegree_C_mul_le _ _).trans (natDegree_X_le.trans (by omega))) (by
    intro j hj d
    rw [hx2 _ (by
      calc j * D + d < j * D + D := by omega
        _ = (j + 1) * D := by ring
        _ ≤ _ := Nat.mul_le_mul_right _ hj), (hrow x j hj d).2])
  have hfinal : ∀ t, t0 ≤ t → t ≤ t1 →
        (s1.withVec x).eval t = .ok (fun d => p0 d + (t - t0) / (t1 - t0) * (p1 d - p0 d)) ∧
        (s1.withVec x).evalD t 1 = .ok (fun d => (p1 d - p0 d) / (t1 - t0)) ∧
        ∀ der : ℤ, 2 ≤ der → (s1.withVec x).evalD t der = .ok 0 := by
    intro t h1 h2
    refine ⟨?_, ?_, ?_⟩
    · have := hevw x t h1 h2 0
      unfold BSpline.eval
      rw [show (0 : ℤ) = ((0 : ℕ) : ℤ) from rfl, this]
      congr 1
      funext d
      rw [hpoly d]
      simp only [hL, line_derivs, if_true]
      field_simp
      ring
    · have := hevw x t h1 h2 1
      rw [show (1 : ℤ) = ((1 : ℕ) : ℤ) from rfl, this]
      congr 1
      funext d
      rw [hpoly d]
      simp [hL]
    · intro der hd
      have := hevw x t h1 h2 der.toNat
      rw [Int.toNat_of_nonneg (by omega)] at this
      rw [this]
      congr 1
      funext d
      rw [hpoly d]
      simp only [hL, line_derivs]
      rw [if_neg (by omega), if_neg (by omega)]
      rfl
  refine ⟨s1.withVec x, hx1, withVec_wf hwf x, rfl, ?_, ?_, ?_, ?_, hfinal⟩
  · change s1.knots.length + 1 - 2 * s.order = 1
    rw [hkk]; omega
  · unfold timeInterval
    have hwf' := withVec_wf hwf x
    rw [tMin_eq hwf', tMax_eq hwf']
    change Outcome.bind (.ok (s1.kn (s1.order - 1))) (fun a => Outcome.bind
      (.ok (s1.kn (s1.knots.length - s1.order))) fun b => .ok (a, b)) = _
    rw [hlast, hk1', hk2]
    rfl
  · rw [(hfinal t0 le_rfl ht.le).1]
    congr 1
    funext d
    simp
  · rw [(hfinal t1 ht.le le_rfl).1]
    congr 1
    funext d
    rw [div_self hdt.ne']
    ring

/-- Times that are not increasing are rejected. -/
theorem C15_rejects (solve : Solver K) (s : BSpline K D) (t0 t1 : K) (p0 p1 : Fin D → K) (ht : t1 ≤ t0) :
    s.initSpline solve t0 t1 p0 p1 = .throws := by
  unfold initSpline
  rw [if_pos ht]

/-- A new spline of order 5 (odd, so solved by normal equations) between two points of the plane. -/
example : ∃ s', (⟨5, [], [], []⟩ : BSpline ℚ 2).initSpline choiceSolver 1 3 ![0, 4] ![2, -4] = .ok s' ∧
    s'.eval (3/2) = .ok ![1/2, 2] := by
  obtain ⟨s', h1, -, -, -, -, -, -, h2⟩ := C15_two_points_partial choiceSolver choiceSolver_regular
    (⟨5, [], [], []⟩ : BSpline ℚ 2) (by decide) (by decide) 1 3 ![0, 4] ![2, -4] (by norm_num)
  refine ⟨s', h1, ?_⟩
  rw [(h2 (3/2) (by norm_num) (by norm_num)).1]
  decide +kernel

/-- The restriction on the number of knots already held is needed: re-initialising a spline with more knots reads past the
end of the new knot vector (see C12). -/
theorem C15_reinit_reads_out_of_range (solve : Solver ℚ) :
    exSpline.initSpline solve 0 1 ![0, 0] ![1, 1] = .ub := by
  unfold initSpline
  rw [if_neg (by norm_num)]
  dsimp only
  have : (exSpline.setKnotsAndCoefficients
      (uniformKnots exSpline.order (numKnotsRequired exSpline.order 1) 0 (1 - 0))
      (List.replicate (numCoefficientsRequired exSpline.order 1) 0)).bind (fun _ => .ok ()) = .ub := by decide +kernel
  generalize hS : exSpline.setKnotsAndCoefficients
      (uniformKnots exSpline.order (numKnotsRequired exSpline.order 1) 0 (1 - 0))
      (List.replicate (numCoefficientsRequired exSpline.order 1) 0) = S at this ⊢
  cases S <;> simp_all

end Verif
