import Verif.Props.Views
import Verif.Props.ManifoldInit
import Verif.Model.Knots

/-!
# Property C10, continued: the views of the coefficients of one segment; property C11, continued: counts of `KnotArithmetics.hpp`
-/

set_option linter.unusedSectionVars false

namespace Verif

open Finset BSpline

variable {K : Type*} [Field K] [LinearOrder K] [IsStrictOrderedRing K] {D : ℕ}

theorem linSpacedIdx_getElem? (n lo j : ℕ) (h : j < n) : (linSpacedIdx n lo)[j]? = some (lo + j) := by
  unfold linSpacedIdx
  rw [List.getElem?_map, List.getElem?_range h]
  rfl

/-- **C10**: for each segment of a spline the coefficients of the segment, their indices in the stacked vector and the indices of the
vector-valued coefficients describe the same `order` consecutive coefficients, starting with the number of the segment. -/
theorem C10_segment_views (s : BSpline K D) (h : s.WF) (seg : ℕ) (hseg : seg < s.numValidTimeSegments) :
    ∃ c iv iw, s.segmentCoefficientVector seg = .ok c ∧ s.segmentCoefficientVectorIndices seg = .ok iv ∧
      s.segmentVvCoefficientVectorIndices seg = .ok iw ∧ c.length = s.order * D ∧ iv.length = s.order * D ∧ iw.length = s.order ∧
      (∀ q, q < s.order * D → ∃ a, iv[q]? = some a ∧ a < s.coefficientVector.length ∧ entry c q = entry s.coefficientVector a) ∧
      (∀ j, j < s.order → iw[j]? = some (seg + j) ∧ seg + j < s.coeffs.length ∧
        s.vvCoefficientVector (seg + j : ℕ) = .ok (segmentOf c j) ∧ ∀ d : Fin D, iv[j * D + d]? = some ((seg + j) * D + d)) := by
  have hl : seg + s.order ≤ s.coeffs.length := by
    have h1 := h.coeffs_len
    have h2 := h.enough
    unfold numValidTimeSegments numValidTimeSegmentsOf at hseg
    omega
  have hcv : s.coefficientVector.length = s.coeffs.length * D := by simp [coefficientVector]
  refine ⟨stack s.order (fun i => s.col (i + seg)), linSpacedIdx (s.order * D) (seg * D), linSpacedIdx s.order seg, ?_, ?_, ?_, stack_length _ _, ?_, ?_,
    fun q hq => ?_, fun j hj => ⟨linSpacedIdx_getElem? _ _ _ hj, by omega, ?_, fun d => ?_⟩⟩
  · unfold segmentCoefficientVector
    rw [if_neg (by omega), Int.toNat_natCast, if_pos hl]
  · unfold segmentCoefficientVectorIndices
    rw [if_neg (by omega), Int.toNat_natCast]
  · unfold segmentVvCoefficientVectorIndices
    rw [if_neg (by omega), Int.toNat_natCast]
  · simp [linSpacedIdx]
  · simp [linSpacedIdx]
  · have hD : 0 < D := by
      rcases Nat.eq_zero_or_pos D with h | h
      · subst h; simp at hq
      · exact h
    have hq' : q / D < s.order := Nat.div_lt_of_lt_mul (by rw [Nat.mul_comm]; exact hq)
    refine ⟨seg * D + q, linSpacedIdx_getElem? _ _ _ hq, ?_, ?_⟩
    · rw [hcv]
      calc seg * D + q < seg * D + s.order * D := by omega
        _ = (seg + s.order) * D := by ring
        _ ≤ _ := Nat.mul_le_mul_right _ hl
    · have e1 := stack_getD s.order (fun i => s.col (i + seg)) (q / D) hq' ⟨q % D, Nat.mod_lt _ hD⟩
      have e2 := stack_getD s.coeffs.length (fun i => s.col i) (q / D + seg) (by omega) ⟨q % D, Nat.mod_lt _ hD⟩
      have a1 : q / D * D + q % D = q := by rw [Nat.mul_comm, Nat.div_add_mod]
      have a2 : (q / D + seg) * D + q % D = seg * D + q := by rw [add_mul]; omega
      simp only [a1, a2] at e1 e2
      unfold entry coefficientVector
      rw [e1, e2]
  · unfold vvCoefficientVector
    rw [if_neg (by push Not; constructor <;> omega), Int.toNat_natCast, segmentOf_stack _ _ _ hj, Nat.add_comm]
  · have : j * D + d < s.order * D := by
      calc j * D + d < j * D + D := by omega
        _ = (j + 1) * D := by ring
        _ ≤ _ := Nat.mul_le_mul_right _ hj
    rw [linSpacedIdx_getElem? _ _ _ this]
    congr 1
    ring

/-- **C10**: a number that is not the number of a segment is rejected by all three queries. -/
theorem C10_segment_views_rejected (s : BSpline K D) (seg : ℤ) (hseg : seg < 0 ∨ (s.numValidTimeSegments : ℤ) ≤ seg) :
    s.segmentCoefficientVector seg = .throws ∧ s.segmentCoefficientVectorIndices seg = .throws ∧
      s.segmentVvCoefficientVectorIndices seg = .throws := by
  unfold segmentCoefficientVector segmentCoefficientVectorIndices segmentVvCoefficientVectorIndices
  rw [if_pos hseg, if_pos hseg, if_pos hseg]
  exact ⟨rfl, rfl, rfl⟩

/-- **C10**: the queries by time agree with the queries by segment, for the segment reported for that time. -/
theorem C10_segment_views_by_time (s : BSpline K D) (h : s.WF) (t : K) (seg : ℕ) (ht : s.segmentIndex t = .ok seg)
    (hseg : seg < s.numValidTimeSegments) :
    s.localCoefficientVector t = s.segmentCoefficientVector seg ∧
      s.localCoefficientVectorIndices t = s.segmentCoefficientVectorIndices seg ∧
      s.localVvCoefficientVectorIndices t = s.segmentVvCoefficientVectorIndices seg := by
  have hl : seg + s.order ≤ s.coeffs.length := by
    have h1 := h.coeffs_len
    have h2 := h.enough
    unfold numValidTimeSegments numValidTimeSegmentsOf at hseg
    omega
  obtain ⟨⟨x, i⟩, hT, hb⟩ := Outcome.bind_eq_ok.1 ht
  simp only [] at hb
  refine ⟨?_, ?_, ?_⟩
  · unfold localCoefficientVector segmentCoefficientVector
    rw [hT, if_neg (by omega)]
    simp only [Outcome.bind_ok, hb, Int.toNat_natCast]
  · unfold localCoefficientVectorIndices segmentCoefficientVectorIndices
    rw [hT, if_neg (by omega)]
    simp only [Outcome.bind_ok, hb, Int.toNat_natCast]
  · unfold localVvCoefficientVectorIndices segmentVvCoefficientVectorIndices
    rw [hT, if_neg (by omega)]
    simp only [Outcome.bind_ok, hb, Int.toNat_natCast]

/-- On the example spline: the last of its segments, by number and by time, and the number behind it. -/
example : exSpline.numValidTimeSegments = 3 ∧ exSpline.segmentIndex (9 / 2) = .ok 2 ∧
    exSpline.segmentCoefficientVectorIndices 2 = .ok [4, 5, 6, 7, 8, 9] ∧ exSpline.segmentVvCoefficientVectorIndices 2 = .ok [2, 3, 4] ∧
    exSpline.segmentCoefficientVector 2 = exSpline.localCoefficientVector (9 / 2) ∧ exSpline.segmentCoefficientVector 3 = .throws := by
  decide +kernel

/-! ## C11: the counts of manifold splines -/

/-- **C11**: the counts of `KnotArithmetics.hpp` are consistent with each other and with those of `BSpline`. -/
theorem C11_knot_arithmetics (order n : ℕ) (ho : 1 ≤ order) :
    numValidTimeSegmentsInt (numKnotsRequiredInt n order) order = n ∧
    numKnotsRequiredInt n order = numControlVerticesRequired n order + order ∧
    (numKnotsRequired order n : ℤ) = numKnotsRequiredInt n order ∧
    (∀ m : ℕ, (numValidTimeSegmentsOf order m : ℤ) = numValidTimeSegmentsInt m order) ∧
    numKnotsRequiredInt (n + 1) order = numKnotsRequiredInt n order + 1 := by
  unfold numValidTimeSegmentsInt numKnotsRequiredInt numControlVerticesRequired numKnotsRequired numCoefficientsRequired numValidTimeSegmentsOf
  refine ⟨?_, rfl, ?_, fun m => ?_, by ring⟩
  · rw [max_eq_left] <;> omega
  · omega
  · rcases le_total ((m : ℤ) - 2 * (order : ℤ) + 1) 0 with h | h
    · rw [max_eq_right h]; omega
    · rw [max_eq_left h]; omega

/-- **C11**: a manifold spline that can be evaluated has as many segments and control vertices as `KnotArithmetics.hpp` says for its number
of knots, and the number of knots is what is required for its number of segments. -/
theorem C11_manifold_counts {P V : Type*} (M : Mfd K P V) (order : ℕ) (ho : 1 ≤ order) (s : MSpline K P) (h : MSpline.RegularReach M order s)
    (he : s.state = .evaluable) :
    (s.numValidTimeSegments : ℤ) = numValidTimeSegmentsInt s.keys.length order ∧ 1 ≤ s.numValidTimeSegments ∧
    (s.keys.length : ℤ) = numKnotsRequiredInt s.numValidTimeSegments order ∧
    ∃ n : ℕ, s.numControlVertices = .ok n ∧ (n : ℤ) = numControlVerticesRequired s.numValidTimeSegments order := by
  obtain ⟨hw, rfl⟩ := h.mwf ho
  have hl : 2 * s.order ≤ s.keys.length := hw.enough he
  have hk : s.keys.length = s.segs.length := by simp [MSpline.keys]
  unfold numValidTimeSegmentsInt numKnotsRequiredInt numControlVerticesRequired
  refine ⟨?_, ?_, ?_, s.numValidTimeSegments + s.order - 1, ?_, ?_⟩
  · rw [max_eq_left (by omega)]
    unfold MSpline.numValidTimeSegments
    omega
  · unfold MSpline.numValidTimeSegments
    omega
  · unfold MSpline.numValidTimeSegments
    omega
  · unfold MSpline.numControlVertices
    rw [he]
  · unfold MSpline.numValidTimeSegments
    omega

example : numKnotsRequiredInt 3 4 = 10 ∧ numValidTimeSegmentsInt 10 4 = 3 ∧ numValidTimeSegmentsInt 5 4 = 0 := by decide

end Verif
