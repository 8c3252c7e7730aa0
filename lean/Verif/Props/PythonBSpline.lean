import Verif.Model.PythonBSpline
import Verif.Props.State
import Verif.Lemmas.Linear
import Verif.Props.SegmentViews

/-!
# Property C75: the Python interface of B-splines
-/

set_option linter.unusedSectionVars false

namespace Verif

open Finset Polynomial BSpline

variable {K : Type*} [Field K] [LinearOrder K] [IsStrictOrderedRing K] {D : ℕ}

theorem copyEntries_eq (v : List K) : copyEntries v = v := by
  unfold copyEntries
  apply List.ext_getElem (by simp)
  intro i h1 h2
  rw [List.getElem_map, List.getElem_range, List.getD_eq_getElem?_getD, List.getElem?_eq_getElem h2, Option.getD_some]

/-- **C75**, knots and coefficients: what is set is what is read, with the sizes which the accessors report; setting by vector does what
setting by `std::vector` does. -/
theorem C75_knots (s : BSpline K D) (ho : 2 ≤ s.order) (kns : List K) (cs : List (Fin D → K)) :
    s.setKnotVectorAndCoefficients kns cs = s.setKnotsAndCoefficients kns cs ∧
    ∀ s', s.setKnotVectorAndCoefficients kns cs = .ok s' →
      s'.knotVector = kns ∧ s'.coeffs = cs ∧ s'.numVvCoefficients = cs.length ∧ s'.numVvCoefficients + s.order = kns.length ∧
      s'.coefficientVectorLength = s'.coefficientVector.length ∧ s'.polynomialDegree + 1 = s.order := by
  have e : s.setKnotVectorAndCoefficients kns cs = s.setKnotsAndCoefficients kns cs := by
    unfold setKnotVectorAndCoefficients
    rw [copyEntries_eq]
  refine ⟨e, fun s' h => ?_⟩
  rw [e] at h
  obtain ⟨rfl, h1, h2⟩ := set_inv (by omega) h
  refine ⟨copyEntries_eq _, rfl, rfl, ?_, ?_, ?_⟩
  · simp only [numVvCoefficients, initializeBasisMatrices]
    omega
  · simp [coefficientVectorLength, coefficientVector, mul_comm]
  · simp only [polynomialDegree, initializeBasisMatrices]
    omega

/-- **C75**, degree: derivatives of an order above the reported degree vanish. -/
theorem C75_degree (s : BSpline K D) (h : s.WF) (t : K) (ha : s.Admissible t) (der : ℕ) (hd : s.polynomialDegree < der) :
    s.evalD t der = .ok 0 := by
  obtain ⟨i, hi, -, hev⟩ := evalDNat_admissible h t ha
  unfold evalD
  rw [if_neg (by omega), Int.toNat_natCast, hev]
  refine congrArg Outcome.ok (funext fun d => ?_)
  have : (s.segPoly i d).natDegree ≤ s.order - 1 := by
    unfold segPoly
    exact natDegree_sum_le_of_forall_le _ _ fun j _ => (natDegree_C_mul_le _ _).trans (piece_natDegree _ _ _ _)
  rw [iterate_derivative_eq_zero (lt_of_le_of_lt this hd), eval_zero]
  rfl

/-- The basis function values of all coefficients: sum and sign. -/
theorem weight_facts {s : BSpline K D} (h : s.WF) {t : K} (ha : s.Admissible t) {i : ℕ} (hi : s.InSegment t i) :
    ∑ l ∈ range s.coeffs.length, Spec.weight s.order s.kn (s.kn (s.knots.length - s.order)) l t = 1 ∧
      ∀ l, l < s.coeffs.length → 0 ≤ Spec.weight s.order s.kn (s.kn (s.knots.length - s.order)) l t := by
  have hk := h.order_pos
  have hn := h.enough
  have hcl := h.coeffs_len
  constructor
  · have := sum_range_derivative h i 0 hi.lower hi.upper hi.pos t
    rw [if_pos rfl] at this
    rw [← this]
    exact sum_congr rfl fun l hl => weight_eq_piece' h ha hi l (mem_range.1 hl)
  · intro l hl
    rw [weight_eq_piece' h ha hi l hl]
    exact piece_nonneg s.kn s.knots.length i h.mono t hi.left hi.le _ _ (by omega)

theorem eval_weights {s : BSpline K D} (h : s.WF) {t : K} (ha : s.Admissible t) {i : ℕ} (hi : s.InSegment t i) :
    s.eval t = .ok (fun d => ∑ j ∈ range s.coeffs.length,
      s.col j d * Spec.weight s.order s.kn (s.kn (s.knots.length - s.order)) j t) := by
  unfold BSpline.eval evalD
  simp only [lt_irrefl, if_false, Int.toNat_zero]
  rw [evalDNat_of_inSegment h ha hi]
  congr 1
  funext d
  refine sum_congr rfl fun j hj => ?_
  rw [weight_eq_piece' h ha hi j (mem_range.1 hj)]
  rfl

/-- **C75**, basis functions: the function returned for a time gives for *every* integer the basis function value of the coefficient with
this index, zero for integers which are not the index of a coefficient.  Unlike the vector of C20 nothing is cut off: the values are not
negative, sum to one, and the weighted sum of the coefficients is the curve. -/
theorem C75_bi_function (s : BSpline K D) (h : s.WF) (t tmax : K) (ha : s.Admissible t) (hmax : s.tMax = .ok tmax) :
    ∃ f, s.biFunction t = .ok f ∧
      (∀ j : ℕ, j < s.numVvCoefficients → f j = Spec.weight s.order s.kn tmax j t) ∧
      (∀ i : ℤ, i < 0 ∨ (s.numVvCoefficients : ℤ) ≤ i → f i = 0) ∧ (∀ i, 0 ≤ f i) ∧
      ∑ j ∈ range s.numVvCoefficients, f j = 1 ∧
      s.eval t = .ok (fun d => ∑ j ∈ range s.numVvCoefficients, f j * s.col j d) := by
  have hk := h.order_pos
  have hn := h.enough
  have hcl := h.coeffs_len
  rw [tMax_eq h] at hmax
  obtain rfl := Outcome.ok.inj hmax
  obtain ⟨i, bi, hi, hs, hb, hbe⟩ := biVector_facts h ha
  have hl := hi.lower
  have hu := hi.upper
  obtain ⟨hsum, hnn⟩ := weight_facts h ha hi
  have hval : ∀ j : ℕ, j < s.coeffs.length → biAt (i + 1 - s.order) s.order bi 0 (j : ℤ)
      = Spec.weight s.order s.kn (s.kn (s.knots.length - s.order)) j t := by
    intro j hj
    unfold biAt
    dsimp only
    split_ifs with h1 h2
    · rw [weight_zero h ha hi j hj (by omega)]
    · rw [weight_zero h ha hi j hj (by omega)]
    · rw [hbe _ (by omega)]
      congr 1; omega
  have hout : ∀ m : ℤ, m < 0 ∨ (s.coeffs.length : ℤ) ≤ m → biAt (i + 1 - s.order) s.order bi 0 m = 0 := by
    intro m hm
    unfold biAt
    dsimp only
    split_ifs with h1 h2
    · rfl
    · rfl
    · omega
  refine ⟨biAt (i + 1 - s.order) s.order bi 0, ?_, hval, hout, fun m => ?_, ?_, ?_⟩
  · unfold biFunction
    rw [hs, hb]
    rfl
  · by_cases hm : m < 0 ∨ (s.coeffs.length : ℤ) ≤ m
    · rw [hout m hm]
    · obtain ⟨j, rfl⟩ := Int.eq_ofNat_of_zero_le (show 0 ≤ m by omega)
      rw [hval j (by omega)]
      exact hnn j (by omega)
  · rw [← hsum]
    exact sum_congr rfl fun j hj => hval j (mem_range.1 hj)
  · rw [eval_weights h ha hi]
    refine congrArg Outcome.ok (funext fun d => sum_congr rfl fun j hj => ?_)
    rw [hval j (mem_range.1 hj), mul_comm]

/-- Summation by parts: the cumulative form of a weighted sum. -/
theorem cumulative_form (c w : ℕ → K) (n : ℕ) (hw : ∑ l ∈ range (n + 1), w l = 1) :
    ∑ j ∈ range (n + 1), c j * w j = c 0 + ∑ j ∈ range n, (∑ l ∈ Ico (j + 1) (n + 1), w l) * (c (j + 1) - c j) := by
  induction n generalizing w with
  | zero => simpa using by rw [sum_range_one] at hw; rw [hw, mul_one]
  | succ n ih =>
    set w' : ℕ → K := Function.update w n (w n + w (n + 1)) with hw'
    have hne : ∀ l, l < n → w' l = w l := fun l hl => Function.update_of_ne (by omega) _ _
    have hsame : w' n = w n + w (n + 1) := Function.update_self _ _ _
    have h1 : ∑ l ∈ range (n + 1), w' l = 1 := by
      rw [sum_range_succ, hsame, sum_congr rfl fun l hl => hne l (mem_range.1 hl), ← hw, sum_range_succ, sum_range_succ]
      ring
    have h2 := ih w' h1
    rw [sum_range_succ, hsame, sum_congr rfl fun l hl => by rw [hne l (mem_range.1 hl)]] at h2
    have h3 : ∀ j, j < n → ∑ l ∈ Ico (j + 1) (n + 1), w' l = ∑ l ∈ Ico (j + 1) (n + 2), w l := by
      intro j hj
      rw [sum_Ico_succ_top (by omega), sum_Ico_succ_top (by omega), sum_Ico_succ_top (by omega), hsame,
        sum_congr rfl fun l hl => hne l (mem_Ico.1 hl).2]
      ring
    have h4 : ∑ j ∈ range n, (∑ l ∈ Ico (j + 1) (n + 1), w' l) * (c (j + 1) - c j)
        = ∑ j ∈ range n, (∑ l ∈ Ico (j + 1) (n + 2), w l) * (c (j + 1) - c j) :=
      sum_congr rfl fun j hj => by rw [h3 j (mem_range.1 hj)]
    rw [h4] at h2
    rw [sum_range_succ, sum_range_succ, sum_range_succ, ← add_assoc, ← h2, sum_Ico_succ_top (by omega), Ico_self, sum_empty]
    ring

/-- **C75**, cumulative basis functions: the function returned gives for every index of a coefficient the sum of the basis function values
from this coefficient on, one for all integers up to zero, zero behind the coefficients; it never increases, and with it the curve is the
first coefficient plus the weighted differences of neighbours. -/
theorem C75_cumulative_function (s : BSpline K D) (h : s.WF) (t tmax : K) (ha : s.Admissible t) (hmax : s.tMax = .ok tmax) :
    ∃ g, s.cumulativeBiFunction t = .ok g ∧
      (∀ j : ℕ, g j = ∑ l ∈ Ico j s.numVvCoefficients, Spec.weight s.order s.kn tmax l t) ∧
      (∀ i : ℤ, i ≤ 0 → g i = 1) ∧ Antitone g ∧
      s.eval t = .ok (fun d => s.col 0 d + ∑ j ∈ range (s.numVvCoefficients - 1), g (j + 1) * (s.col (j + 1) d - s.col j d)) := by
  have hk := h.order_pos
  have hn := h.enough
  have hcl := h.coeffs_len
  rw [tMax_eq h] at hmax
  obtain rfl := Outcome.ok.inj hmax
  obtain ⟨i, bi, hi, hs, hb, hbe⟩ := biVector_facts h ha
  have hl := hi.lower
  have hu := hi.upper
  obtain ⟨hWsum, hWnn⟩ := weight_facts h ha hi
  set W := fun l => Spec.weight s.order s.kn (s.kn (s.knots.length - s.order)) l t with hW
  have hhead : ∀ j, j ≤ i + 1 - s.order → ∑ l ∈ Ico j s.coeffs.length, W l = 1 := by
    intro j hj
    rw [← hWsum, Finset.range_eq_Ico]
    apply sum_subset
    · intro x hx; simp at hx ⊢; omega
    · intro x hx hx'
      simp at hx hx'
      exact weight_zero h ha hi x (by omega) (by omega)
  set g := biAt (i + 1 - s.order) s.order (Function.update (cumulate (s.order - 1) bi) 0 1) 1 with hg
  have hfull : ∀ j : ℕ, g j = ∑ l ∈ Ico j s.coeffs.length, W l := by
    intro j
    rw [hg]
    unfold biAt
    dsimp only
    split_ifs with h1 h2
    · rw [hhead j (by omega)]
    · symm
      apply sum_eq_zero
      intro x hx
      have := mem_Ico.1 hx
      exact weight_zero h ha hi x (by omega) (by omega)
    · have e : ((j : ℤ) - ((i + 1 - s.order : ℕ) : ℤ)).toNat = j - (i + 1 - s.order) := by omega
      rw [e]
      by_cases h0 : j - (i + 1 - s.order) = 0
      · rw [h0, Function.update_self, hhead j (by omega)]
      · rw [Function.update_of_ne h0, cumulate_eq _ _ _ (by omega) (by omega)]
        have : ∑ l ∈ Ico j s.coeffs.length, W l = ∑ l ∈ Icc j i, W l := by
          symm
          apply sum_subset
          · intro x hx; simp at hx ⊢; omega
          · intro x hx hx'
            simp at hx hx'
            exact weight_zero h ha hi x (by omega) (by omega)
        rw [this]
        apply sum_bij' (fun l _ => i + 1 - s.order + l) (fun l _ => l - (i + 1 - s.order))
        · intro l hl; simp at hl ⊢; omega
        · intro l hl; simp at hl ⊢; omega
        · intro l hl; simp at hl ⊢
        · intro l hl; simp at hl ⊢; omega
        · intro l hl
          simp at hl
          exact hbe l (by omega)
  have hneg : ∀ m : ℤ, m ≤ 0 → g m = 1 := by
    intro m hm
    rcases hm.eq_or_lt with rfl | hm
    · have := hfull 0
      rw [Nat.cast_zero] at this
      rw [this, hhead 0 (by omega)]
    · rw [hg]
      unfold biAt
      dsimp only
      rw [if_pos (by omega)]
  refine ⟨g, ?_, hfull, hneg, antitone_int_of_succ_le fun m => ?_, ?_⟩
  · unfold cumulativeBiFunction getLocalCumulativeBiVector
    rw [hs, hb]
    rfl
  · rcases lt_or_ge m 0 with hm | hm
    · rw [hneg m (by omega), hneg (m + 1) (by omega)]
    · obtain ⟨j, rfl⟩ := Int.eq_ofNat_of_zero_le hm
      have e := hfull (j + 1)
      push_cast at e
      rw [e, hfull j]
      rcases lt_or_ge j s.coeffs.length with hj | hj
      · rw [Finset.sum_eq_sum_Ico_succ_bot hj]
        have := hWnn j hj
        linarith
      · rw [Ico_eq_empty (by omega), Ico_eq_empty (by omega)]
  · rw [eval_weights h ha hi]
    refine congrArg Outcome.ok (funext fun d => ?_)
    have hc1 : s.coeffs.length = s.coeffs.length - 1 + 1 := by omega
    have := cumulative_form (fun j => s.col j d) W (s.coeffs.length - 1) (by rw [← hc1]; exact hWsum)
    rw [← hc1] at this
    rw [this]
    refine congrArg (s.col 0 d + ·) (sum_congr rfl fun j _ => ?_)
    have e := hfull (j + 1)
    push_cast at e
    rw [e]

/-- **C75**, basis matrices: the matrix of a segment holds the coefficients of the polynomials of its basis functions in the position
within the segment; it is the one found by the knot index of the segment; other numbers are rejected. -/
theorem C75_basis_matrix (s : BSpline K D) (h : s.WF) :
    (∀ i : ℤ, i < 0 ∨ (s.numValidTimeSegments : ℤ) ≤ i → s.basisMatrix i = .throws) ∧
    ∀ i : ℕ, i < s.numValidTimeSegments → ∃ B, s.basisMatrix i = .ok B ∧
      s.basisMatrixFromKnotIndex (s.startingKnotIndexFromBasisMatrixIndex i) = .ok B ∧
      ∀ t tmax a b, s.Admissible t → s.tMax = .ok tmax → s.segmentIndex t = .ok i → s.timeIntervalOf i = .ok (a, b) → ∀ j, j < s.order →
        ∑ r ∈ range s.order, ((t - a) / (b - a)) ^ r * B r j = Spec.weight s.order s.kn tmax (i + j) t := by
  have hk := h.order_pos
  have hn := h.enough
  refine ⟨fun i hi => ?_, fun i hi => ?_⟩
  · unfold basisMatrix
    rw [if_pos hi]
  · have hi' := hi
    unfold numValidTimeSegments numValidTimeSegmentsOf at hi'
    have hlt : i < s.basis.length := lt_of_lt_of_le hi' h.basis_len
    have hg := List.getElem?_eq_getElem hlt
    refine ⟨s.basis[i], ?_, ?_, ?_⟩
    · unfold basisMatrix
      rw [if_neg (by omega), Int.toNat_natCast, hg]
    · unfold basisMatrixFromKnotIndex basisMatrixIndexFromStartingKnotIndex startingKnotIndexFromBasisMatrixIndex
      dsimp only
      rw [if_neg (by omega), show ((s.order : ℤ) + (i : ℤ) - 1 - s.order + 1).toNat = i by omega, hg]
    · intro t tmax a b ha hmax hseg hint j hj
      rw [tMax_eq h] at hmax
      obtain rfl := Outcome.ok.inj hmax
      obtain ⟨m, hT, hm⟩ := lookup h t ha
      have hml := hm.lower
      have hmu := hm.upper
      have hseg' : s.segmentIndex t = .ok (m + 1 - s.order) := by
        unfold segmentIndex bidxOf
        rw [hT]
        simp only [Outcome.bind_ok]
        rw [if_neg (by omega)]
      rw [hseg] at hseg'
      have hmi := Outcome.ok.inj hseg'
      obtain rfl : m = i + s.order - 1 := by omega
      unfold timeIntervalOf minimumKnotsRequired numKnotsRequired numCoefficientsRequired at hint
      rw [if_neg (by omega), if_neg (by omega), Int.toNat_natCast] at hint
      obtain ⟨rfl, rfl⟩ := Prod.mk.inj (Outcome.ok.inj hint)
      have e1 : s.order + i - 1 = i + s.order - 1 := by omega
      have e2 : s.order + i = i + s.order - 1 + 1 := by omega
      rw [e1, e2, show i + j = i + s.order - 1 + 1 - s.order + j by omega, weight_eq_piece' h ha hm _ (by have := h.coeffs_len; omega)]
      have := weights_eq h t (i + s.order - 1) 0 hml hmu hm.pos s.basis[i]
        (fun r hr c hc => h.basis_eq i _ hi' hg r hr c hc) j hj
      simp only [Function.iterate_zero, id_eq] at this
      rw [← this]
      unfold transposeMul
      refine sum_congr rfl fun r hr => ?_
      unfold computeU
      dsimp only
      rw [if_pos ⟨by omega, mem_range.1 hr⟩, if_pos (by linarith [hm.pos])]
      simp [dmul, mul_comm]

/-- **C75**, partial: asked for a segment `n`, Python gets the coefficients of the segment into which the *time* `n` falls; they are those
of segment `n` if the time `n` falls into segment `n`.  Missing: all other cases, where the answer is wrong (`C75_segment_violated`). -/
theorem C75_segment_partial (s : BSpline K D) (h : s.WF) (n seg : ℕ) (hseg : s.segmentIndex (n : K) = .ok seg)
    (hlt : seg < s.numValidTimeSegments) :
    s.pySegmentCoefficientVector n = s.segmentCoefficientVector seg ∧
      (seg = n → s.pySegmentCoefficientVector n = s.segmentCoefficientVector n) := by
  have : s.pySegmentCoefficientVector n = s.segmentCoefficientVector seg := by
    unfold pySegmentCoefficientVector
    rw [Int.cast_natCast]
    exact (C10_segment_views_by_time s h (n : K) seg hseg hlt).1
  exact ⟨this, by rintro rfl; exact this⟩

/-- The full property is false: for the first segment of a valid spline the call throws, for the last one it returns the coefficients of
the first one, while the indices returned by `segmentCoefficientVectorIndices` are those of the last one. -/
theorem C75_segment_violated :
    exUniform.WF ∧ exUniform.numValidTimeSegments = 3 ∧
      exUniform.segmentCoefficientVector 0 = .ok [1, 4, -2] ∧ exUniform.pySegmentCoefficientVector 0 = .throws ∧
      exUniform.segmentCoefficientVector 2 = .ok [-2, 0, 6] ∧ exUniform.pySegmentCoefficientVector 2 = .ok [1, 4, -2] ∧
      exUniform.segmentCoefficientVectorIndices 2 = .ok [2, 3, 4] :=
  ⟨initializeBasisMatrices_wf _ (by decide) (by decide +kernel) (by decide) (by decide), rfl, by decide +kernel, by decide +kernel,
    by decide +kernel, by decide +kernel, by decide +kernel⟩

/-- Values of the functions at all kinds of integers, the vectors of C20 being cut off after three entries. -/
example : exUniform.Admissible (9/2) ∧ exUniform.tMax = .ok 5 ∧
    ((exUniform.biFunction (9/2)).map fun f => [f (-7), f 0, f 1, f 2, f 3, f 4, f 5, f 90]) = .ok [0, 0, 0, 1/8, 3/4, 1/8, 0, 0] ∧
    ((exUniform.cumulativeBiFunction (9/2)).map fun f => [f (-7), f 0, f 1, f 2, f 3, f 4, f 5, f 90])
      = .ok [1, 1, 1, 1, 7/8, 1/8, 0, 0] :=
  ⟨admissible_of_wide _ (by decide +kernel) (by decide +kernel) (by decide +kernel), by decide +kernel, by decide +kernel,
    by decide +kernel⟩

example : exUniform.segmentIndex 3 = .ok 1 ∧ exUniform.evalD (7/2) 2 ≠ .ok 0 ∧ exUniform.evalD (7/2) 3 = .ok 0 := by decide +kernel

/-- A spline whose knots make the time `n` fall into segment `n`. -/
def exFromZero : BSpline ℚ 1 := initializeBasisMatrices ⟨3, [-2, -1, 0, 1, 2, 3, 4, 5], [![1], ![4], ![-2], ![0], ![6]], []⟩

example : exFromZero.WF ∧ exFromZero.segmentIndex 2 = .ok 2 ∧ exFromZero.pySegmentCoefficientVector 2 = .ok [-2, 0, 6] :=
  ⟨initializeBasisMatrices_wf _ (by decide) (by decide +kernel) (by decide) (by decide), by decide +kernel, by decide +kernel⟩

example : ((⟨3, [], [], []⟩ : BSpline ℚ 1).setKnotVectorAndCoefficients [0, 1, 2, 3, 4, 5] [![1], ![4], ![-2]]).map
    (fun s => (s.knotVector, s.numVvCoefficients, s.coefficientVectorLength, s.polynomialDegree)) = .ok ([0, 1, 2, 3, 4, 5], 3, 3, 2) := by
  decide +kernel

end Verif
