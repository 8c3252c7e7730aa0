import Verif.Lemmas.QuadForm
import Verif.Props.Calculus
import Mathlib.MeasureTheory.Integral.IntervalIntegral.FundThmCalculus

/-!
# Integrals of the polynomial pieces
-/

set_option linter.unusedSectionVars false

namespace Verif

open Finset Polynomial BSpline MeasureTheory

variable {D : ℕ}

/-- The power basis coefficients of component `d` on the knot interval `i`. -/
noncomputable def powerCoeffs (s : BSpline ℝ D) (B : Mat ℝ) (i : ℕ) (d : Fin D) : ℕ → ℝ := fun r =>
  ∑ j ∈ range s.order, B r j * s.col (i + 1 - s.order + j) d

theorem polyOf_powerCoeffs {s : BSpline ℝ D} (h : s.WF) (i : ℕ) (h1 : s.order - 1 ≤ i)
    (h2 : i + 1 ≤ s.knots.length - s.order) (hlt : s.kn i < s.kn (i + 1)) (B : Mat ℝ)
    (hB : ∀ r, r < s.order → ∀ c, c < s.order → B r c = basisM s.kn i s.order r c) (d : Fin D) :
    polyOf s.order (powerCoeffs s B i d)
      = (s.segPoly i d).comp (C (s.kn (i + 1) - s.kn i) * X + C (s.kn i)) := by
  have hk := h.order_pos
  have hn := h.enough
  have hc := h.coeffs_len
  unfold polyOf powerCoeffs segPoly
  have e1 : ∑ r ∈ range s.order, C (∑ j ∈ range s.order, B r j * s.col (i + 1 - s.order + j) d) * X ^ r
      = ∑ j ∈ range s.order, C (s.col (i + 1 - s.order + j) d) * colPoly s.kn i s.order j := by
    unfold colPoly
    simp only [map_sum, sum_mul, mul_sum]
    rw [sum_comm]
    refine sum_congr rfl fun j hj => sum_congr rfl fun r hr => ?_
    rw [hB r (mem_range.1 hr) j (mem_range.1 hj), C_mul]
    ring
  rw [e1]
  have e2 : ∑ j ∈ range s.order, C (s.col (i + 1 - s.order + j) d) * colPoly s.kn i s.order j
      = ∑ j ∈ range s.order, (C (s.col (i + 1 - s.order + j) d)
          * piece s.kn i (s.order - 1) (i + 1 - s.order + j)).comp
            (C (s.kn (i + 1) - s.kn i) * X + C (s.kn i)) := by
    refine sum_congr rfl fun j hj => ?_
    have hj' := mem_range.1 hj
    have := colPoly_eq_piece s.kn s.knots.length i h.mono hlt (s.order - 1) j h1 (by omega) (by omega)
    rw [show s.order - 1 + 1 = s.order by omega,
      show i - (s.order - 1) + j = i + 1 - s.order + j by omega] at this
    rw [this, mul_comp, C_comp]
  rw [e2]
  have := sum_local s.coeffs.length i (s.order - 1)
    (fun j => (C (s.col j d) * piece s.kn i (s.order - 1) j).comp
      (C (s.kn (i + 1) - s.kn i) * X + C (s.kn i))) h1 (by omega)
    (by
      intro j _ hj
      have : piece s.kn i (s.order - 1) j = 0 := by
        rcases hj with hj | hj
        · exact piece_zero_of_gt _ _ _ _ (by omega)
        · exact piece_zero_of_lt _ _ _ _ hj
      simp [this])
  rw [Polynomial.sum_comp, ← this, show s.order - 1 + 1 = s.order by omega]
  refine sum_congr rfl fun c _ => ?_
  rw [show i - (s.order - 1) + c = i + 1 - s.order + c by omega]

/-- Derivatives of the piece from the power basis coefficients. -/
theorem segPoly_derivative_eval {s : BSpline ℝ D} (h : s.WF) (i : ℕ) (h1 : s.order - 1 ≤ i)
    (h2 : i + 1 ≤ s.knots.length - s.order) (hlt : s.kn i < s.kn (i + 1)) (B : Mat ℝ)
    (hB : ∀ r, r < s.order → ∀ c, c < s.order → B r c = basisM s.kn i s.order r c) (d : Fin D)
    (der : ℕ) (x : ℝ) :
    (derivative^[der] (s.segPoly i d)).eval x
      = (polyOf s.order ((dop s.order (1 / (s.kn (i + 1) - s.kn i)))^[der]
          (powerCoeffs s B i d))).eval ((x - s.kn i) / (s.kn (i + 1) - s.kn i)) := by
  have hw : s.kn (i + 1) - s.kn i ≠ 0 := by linarith
  rw [polyOf_dop_iter, polyOf_powerCoeffs h i h1 h2 hlt B hB d, iterate_derivative_comp_linear]
  simp only [eval_mul, eval_C, eval_comp, eval_add, eval_X]
  rw [← mul_assoc, ← mul_pow, one_div, inv_mul_cancel₀ hw, one_pow, one_mul]
  congr 1
  field_simp
  ring

/-- Integral of a polynomial in the relative time. -/
theorem integral_polyOf (k : ℕ) (a : ℕ → ℝ) (t0 w t : ℝ) (hw : w ≠ 0) :
    ∫ x in t0..t, (polyOf k a).eval ((x - t0) / w)
      = w * ∑ r ∈ range k, a r * powerIntegrals ((t - t0) / w) r := by
  have hd : ∀ x ∈ Set.uIcc t0 t, HasDerivAt
      (fun x => w * ∑ r ∈ range k, a r * powerIntegrals ((x - t0) / w) r)
      ((polyOf k a).eval ((x - t0) / w)) x := by
    intro x _
    have h1 : ∀ r ∈ range k, HasDerivAt (fun x => a r * powerIntegrals ((x - t0) / w) r)
        (a r * (((x - t0) / w) ^ r * (1 / w))) x := by
      intro r _
      apply HasDerivAt.const_mul
      unfold powerIntegrals
      have hu : HasDerivAt (fun x => (x - t0) / w) (1 / w) x :=
        ((hasDerivAt_id x).sub_const t0).div_const w
      have := (hu.pow (r + 1)).div_const ((r : ℝ) + 1)
      refine this.congr_deriv ?_
      have : ((r : ℝ) + 1) ≠ 0 := by positivity
      push_cast
      field_simp
    have := (HasDerivAt.fun_sum h1).const_mul w
    refine this.congr_deriv ?_
    rw [polyOf_eval, mul_sum]
    refine sum_congr rfl fun r _ => ?_
    field_simp
  have hcont : Continuous (fun x : ℝ => (polyOf k a).eval ((x - t0) / w)) :=
    (Polynomial.continuous _).comp (by fun_prop)
  rw [intervalIntegral.integral_eq_sub_of_hasDerivAt hd (hcont.intervalIntegrable _ _)]
  have : ∑ r ∈ range k, a r * powerIntegrals ((t0 - t0) / w) r = 0 := by
    apply sum_eq_zero
    intro r _
    simp [powerIntegrals]
  rw [this]; ring

/-- The Hilbert type matrix `Vi` is the Gram matrix of the powers of the relative time. -/
theorem bil_hilbert (k : ℕ) (a b : ℕ → ℝ) (t0 t1 : ℝ) (hw : t0 < t1) :
    bil k (fun r c => 1 / (((r + c : ℕ) : ℝ) + 1) * (t1 - t0)) a b
      = ∫ x in t0..t1, (polyOf k a).eval ((x - t0) / (t1 - t0))
          * (polyOf k b).eval ((x - t0) / (t1 - t0)) := by
  have hw' : t1 - t0 ≠ 0 := by linarith
  -- the product is a polynomial with coefficients indexed by pairs; integrate term by term
  have hmono : ∀ n : ℕ, ∫ x in t0..t1, ((x - t0) / (t1 - t0)) ^ n = (t1 - t0) / ((n : ℝ) + 1) := by
    intro n
    have := integral_polyOf (n + 1) (fun r => if r = n then 1 else 0) t0 (t1 - t0) t1 hw'
    simp only [polyOf_eval, ite_mul, one_mul, zero_mul, sum_ite_eq', mem_range, Nat.lt_succ_self,
      if_true, powerIntegrals, div_self hw', one_pow] at this
    rw [this]; ring
  have e : ∀ x : ℝ, (polyOf k a).eval ((x - t0) / (t1 - t0))
      * (polyOf k b).eval ((x - t0) / (t1 - t0))
      = ∑ r ∈ range k, ∑ c ∈ range k, a r * b c * ((x - t0) / (t1 - t0)) ^ (r + c) := by
    intro x
    rw [polyOf_eval, polyOf_eval, sum_mul_sum]
    refine sum_congr rfl fun r _ => sum_congr rfl fun c _ => ?_
    rw [pow_add]; ring
  simp only [e]
  rw [intervalIntegral.integral_finsetSum]
  · unfold bil
    refine sum_congr rfl fun r _ => ?_
    rw [intervalIntegral.integral_finsetSum]
    · refine sum_congr rfl fun c _ => ?_
      rw [intervalIntegral.integral_const_mul, hmono]
      ring
    · intro c _
      apply Continuous.intervalIntegrable
      fun_prop
  · intro r _
    apply Continuous.intervalIntegrable
    fun_prop

/-! ### Integrals of piecewise defined functions over the knots -/

section
variable {E : Type*} [NormedAddCommGroup E] [NormedSpace ℝ E] {kn : ℕ → ℝ} {g : ℝ → E} {P : ℕ → ℝ → E} {lo hi : ℕ}

theorem piece_integrable (hP : ∀ i, Continuous (P i)) (i : ℕ) (t : ℝ) (h1 : kn i ≤ t)
    (heq : ∀ x, kn i < x → x < t → g x = P i x) :
    IntervalIntegrable g volume (kn i) t ∧ ∫ x in kn i..t, g x = ∫ x in kn i..t, P i x := by
  have he : Set.EqOn (P i) g (Set.uIoo (kn i) t) := by
    intro x hx
    rw [Set.uIoo_of_le h1] at hx
    exact (heq x hx.1 hx.2).symm
  refine ⟨((hP i).intervalIntegrable (μ := volume) (kn i) t).congr_uIoo he, ?_⟩
  exact intervalIntegral.integral_congr_uIoo fun x hx => (he hx).symm

/-- Integral of a function that is given by `P i` on the knot interval `i`. -/
theorem pieces_integral (hP : ∀ i, Continuous (P i))
    (hmono : ∀ i, lo ≤ i → i < hi → kn i ≤ kn (i + 1))
    (heq : ∀ i, lo ≤ i → i < hi → ∀ x, kn i < x → x < kn (i + 1) → g x = P i x) (n : ℕ)
    (h1 : lo ≤ n) (h2 : n ≤ hi) :
    IntervalIntegrable g volume (kn lo) (kn n) ∧
      ∫ x in kn lo..kn n, g x = ∑ i ∈ Ico lo n, ∫ x in kn i..kn (i + 1), P i x := by
  have hi1 : ∀ i ∈ Set.Ico lo n, IntervalIntegrable g volume (kn i) (kn (i + 1)) := by
    intro i hi'
    exact (piece_integrable hP i _ (hmono i hi'.1 (by have := hi'.2; omega))
      (heq i hi'.1 (by have := hi'.2; omega))).1
  refine ⟨IntervalIntegrable.trans_iterate_Ico h1 hi1, ?_⟩
  rw [← intervalIntegral.sum_integral_adjacent_intervals_Ico h1 hi1]
  refine sum_congr rfl fun i hi' => ?_
  have := mem_Ico.1 hi'
  exact (piece_integrable hP i _ (hmono i (by omega) (by omega)) (heq i (by omega) (by omega))).2

theorem pieces_integral_to (hP : ∀ i, Continuous (P i))
    (hmono : ∀ i, lo ≤ i → i < hi → kn i ≤ kn (i + 1))
    (heq : ∀ i, lo ≤ i → i < hi → ∀ x, kn i < x → x < kn (i + 1) → g x = P i x) (n : ℕ)
    (h1 : lo ≤ n) (h2 : n < hi) (t : ℝ) (ht1 : kn n ≤ t) (ht2 : t ≤ kn (n + 1)) :
    IntervalIntegrable g volume (kn lo) t ∧
      ∫ x in kn lo..t, g x
        = ∑ i ∈ Ico lo n, (∫ x in kn i..kn (i + 1), P i x) + ∫ x in kn n..t, P n x := by
  obtain ⟨a1, a2⟩ := pieces_integral hP hmono heq n h1 h2.le
  obtain ⟨b1, b2⟩ := piece_integrable hP n t ht1 (fun x hx1 hx2 => heq n h1 h2 x hx1 (by linarith))
  refine ⟨a1.trans b1, ?_⟩
  rw [← intervalIntegral.integral_add_adjacent_intervals a1 b1, a2, b2]

end
end Verif
