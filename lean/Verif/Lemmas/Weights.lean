import Verif.Lemmas.State
import Verif.Lemmas.PieceFacts

/-!
# The weights of the coefficients at a time
-/

set_option linter.unusedSectionVars false

namespace Verif.BSpline

open Finset Polynomial

variable {K : Type*} [Field K] [LinearOrder K] [IsStrictOrderedRing K] {D : ℕ}

/-- Lookup of an arbitrary time of the valid interval. -/
theorem lookup_valid {s : BSpline K D} (h : s.WF) (t : K) (h1 : s.kn (s.order - 1) ≤ t)
    (h2 : t < s.kn (s.knots.length - s.order) + snapTol) :
    ∃ i, s.computeTIndex t = .ok (s.kn (i + 1) - s.kn i, i) ∧ s.order - 1 ≤ i ∧
      i + 1 ≤ s.knots.length - s.order := by
  have hk := h.order_pos
  have hn := h.enough
  by_cases hs : t + snapTol ≤ s.kn (s.knots.length - s.order)
  · obtain ⟨i, e, a, b, -, -⟩ := lookup_interior h t h1 hs
    exact ⟨i, e, a, b⟩
  · have habs : |s.kn (s.knots.length - s.order) - t| < snapTol := by
      rw [abs_lt]; constructor <;> linarith [not_le.1 hs]
    have hi : s.knots.length - s.order - 1 + 1 = s.knots.length - s.order := by omega
    refine ⟨s.knots.length - s.order - 1, ?_, by omega, by omega⟩
    rw [lookup_end h t h1 habs, hi]

/-- The value of `evalDNat` as a combination of all coefficients. -/
theorem evalDNat_sum {s : BSpline K D} (h : s.WF) (t : K) (i der : ℕ) (h1 : s.order - 1 ≤ i)
    (h2 : i + 1 ≤ s.knots.length - s.order) (hlt : s.kn i < s.kn (i + 1))
    (hT : s.computeTIndex t = .ok (s.kn (i + 1) - s.kn i, i)) :
    s.evalDNat t der = .ok (fun d => ∑ j ∈ range s.coeffs.length,
      s.col j d * (derivative^[der] (piece s.kn i (s.order - 1) j)).eval t) := by
  rw [evalDNat_eq h t i der h1 h2 hlt hT]
  congr 1
  funext d
  unfold segPoly
  rw [iterate_derivative_sum, eval_finsetSum]
  refine sum_congr rfl fun j _ => ?_
  rw [iterate_derivative_C_mul, eval_mul, eval_C]

theorem sum_range_pieces {s : BSpline K D} (h : s.WF) (i : ℕ) (h1 : s.order - 1 ≤ i)
    (h2 : i + 1 ≤ s.knots.length - s.order) (hlt : s.kn i < s.kn (i + 1)) :
    ∑ j ∈ range s.coeffs.length, piece s.kn i (s.order - 1) j = 1 := by
  have hk := h.order_pos
  have hn := h.enough
  have hc := h.coeffs_len
  rw [← piece_sum_one s.kn s.knots.length i h.mono hlt (s.order - 1) h1 (by omega)]
  symm
  apply sum_subset
  · intro x hx; simp at hx ⊢; omega
  · intro j hj hj'
    simp at hj hj'
    by_cases hji : i < j
    · exact piece_zero_of_lt _ _ _ _ hji
    · exact piece_zero_of_gt _ _ _ _ (by omega)

theorem sum_range_derivative {s : BSpline K D} (h : s.WF) (i der : ℕ) (h1 : s.order - 1 ≤ i)
    (h2 : i + 1 ≤ s.knots.length - s.order) (hlt : s.kn i < s.kn (i + 1)) (t : K) :
    ∑ j ∈ range s.coeffs.length, (derivative^[der] (piece s.kn i (s.order - 1) j)).eval t
      = if der = 0 then 1 else 0 := by
  rw [← eval_finsetSum, ← iterate_derivative_sum, sum_range_pieces h i h1 h2 hlt]
  by_cases hd : der = 0
  · simp [hd]
  · rw [if_neg hd, iterate_derivative_one (Nat.pos_of_ne_zero hd)]; simp

/-- The local basis vector of the model. -/
theorem localBi_eq {s : BSpline K D} (h : s.WF) (t : K) (i : ℕ) (h1 : s.order - 1 ≤ i)
    (h2 : i + 1 ≤ s.knots.length - s.order) (hlt : s.kn i < s.kn (i + 1))
    (hT : s.computeTIndex t = .ok (s.kn (i + 1) - s.kn i, i)) :
    ∃ w, s.getLocalBiVector t = .ok w ∧ ∀ c, c < s.order →
      w c = (piece s.kn i (s.order - 1) (i + 1 - s.order + c)).eval t := by
  obtain ⟨B, -, hB, hBe⟩ := blockAt_ok h i h1 h2
  have hk := h.order_pos
  refine ⟨fun j => ∑ r ∈ range s.order,
    computeU s.kn s.order ((t - s.kn i) / (s.kn (i + 1) - s.kn i)) i 0 r * B r j, ?_, ?_⟩
  · unfold getLocalBiVector segmentIndex
    rw [hT, computeU_ok t i hlt hT]
    simp only [Outcome.bind_ok, bidxOf]
    rw [if_neg (by omega)]
    simp only [Outcome.bind_ok, hB]
  · intro c hc
    have := weights_eq h t i 0 h1 h2 hlt B hBe c hc
    simp only [Function.iterate_zero, id_eq] at this
    rw [← this]
    unfold transposeMul
    refine sum_congr rfl fun r _ => mul_comm _ _

/-- Sum over the local weights as a sum over all coefficients. -/
theorem sum_local_eq {s : BSpline K D} (h : s.WF) (i : ℕ) (h1 : s.order - 1 ≤ i)
    (h2 : i + 1 ≤ s.knots.length - s.order) (der : ℕ) (t : K) (f : ℕ → K) :
    ∑ c ∈ range s.order, f (i + 1 - s.order + c) *
        (derivative^[der] (piece s.kn i (s.order - 1) (i + 1 - s.order + c))).eval t
      = ∑ j ∈ range s.coeffs.length,
        f j * (derivative^[der] (piece s.kn i (s.order - 1) j)).eval t := by
  have hk := h.order_pos
  have hn := h.enough
  have hc := h.coeffs_len
  have := sum_local s.coeffs.length i (s.order - 1)
    (fun j => f j * (derivative^[der] (piece s.kn i (s.order - 1) j)).eval t) h1 (by omega)
    (by
      intro j _ hj
      have : piece s.kn i (s.order - 1) j = 0 := by
        rcases hj with hj | hj
        · exact piece_zero_of_gt _ _ _ _ (by omega)
        · exact piece_zero_of_lt _ _ _ _ hj
      simp [this])
  rw [← this, show s.order - 1 + 1 = s.order by omega]
  refine sum_congr rfl fun c _ => ?_
  rw [show i - (s.order - 1) + c = i + 1 - s.order + c by omega]

/-- Indices and local coefficients reported for a time of segment `i`. -/
theorem localIndices_eq {s : BSpline K D} (h : s.WF) (t : K) (i : ℕ) (h1 : s.order - 1 ≤ i)
    (x : K) (hT : s.computeTIndex t = .ok (x, i)) :
    s.localVvCoefficientVectorIndices t = .ok (linSpacedIdx s.order (i + 1 - s.order)) := by
  have hk := h.order_pos
  unfold localVvCoefficientVectorIndices bidxOf
  rw [hT]
  simp only [Outcome.bind_ok]
  rw [if_neg (by omega)]
  rfl

theorem localCoefficientMatrix_eq {s : BSpline K D} (h : s.WF) (t : K) (i : ℕ) (h1 : s.order - 1 ≤ i)
    (h2 : i + 1 ≤ s.knots.length - s.order) (x : K) (hT : s.computeTIndex t = .ok (x, i)) :
    s.localCoefficientMatrix t
      = .ok ((List.range s.order).map (fun c => s.col (i + 1 - s.order + c))) := by
  have hk := h.order_pos
  have hn := h.enough
  have hc := h.coeffs_len
  unfold localCoefficientMatrix bidxOf
  rw [hT]
  simp only [Outcome.bind_ok]
  rw [if_neg (by omega)]
  simp only [Outcome.bind_ok]
  rw [if_pos (by omega)]

end Verif.BSpline
