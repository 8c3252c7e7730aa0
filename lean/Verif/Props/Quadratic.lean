import Verif.Props.Integral
import Verif.Lemmas.Views

/-!
# Property C09: the quadratic integrals
-/

set_option linter.unusedSectionVars false

namespace Verif

open Finset Polynomial BSpline MeasureTheory

variable {D : ℕ}

/-- The weights accepted by the quadratic integrals: symmetric up to `1e-14`. -/
def AcceptedWeight (D : ℕ) (W : Mat ℝ) : Prop := ∀ r < D, ∀ c < D, |W r c - W c r| ≤ 1 / 10 ^ 14

theorem bil_congr (n : ℕ) (A : Mat ℝ) (x x' y y' : ℕ → ℝ) (hx : ∀ r, r < n → x r = x' r)
    (hy : ∀ r, r < n → y r = y' r) : bil n A x y = bil n A x' y' := by
  unfold bil
  refine sum_congr rfl fun a ha => sum_congr rfl fun b hb => ?_
  rw [hx a (mem_range.1 ha), hy b (mem_range.1 hb)]

/-- Power basis coefficients of component `d` for a stacked vector of local coefficients. -/
noncomputable def localPower (D k : ℕ) (B : Mat ℝ) (x : ℕ → ℝ) (d : ℕ) : ℕ → ℝ := fun r =>
  ∑ j ∈ range k, B r j * x (j * D + d)

/-- The polynomial (in the relative time) of the `der`-th derivative for a stacked vector. -/
noncomputable def localPoly (D k : ℕ) (B : Mat ℝ) (w : ℝ) (der : ℕ) (x : ℕ → ℝ) (d : ℕ) : ℝ[X] :=
  polyOf k ((dop k (1 / w))^[der] (localPower D k B x d))

/-- The bilinear form of one segment. -/
theorem segmentQ {s : BSpline ℝ D} (h : s.WF) (W : Mat ℝ) (hW : AcceptedWeight D W) (der n : ℕ)
    (hn : n < s.numValidTimeSegments) (B : Mat ℝ) (hB : s.basis[n]? = some B) :
    ∃ Q, s.segmentQuadraticIntegral W n der = .ok Q ∧ ∀ x y,
      bil (s.order * D) Q x y
        = ∑ d ∈ range D, ∑ e ∈ range D, W d e *
            ∫ t in s.kn (s.order - 1 + n)..s.kn (s.order - 1 + n + 1),
              (localPoly D s.order B (s.kn (s.order - 1 + n + 1) - s.kn (s.order - 1 + n)) der x d).eval
                ((t - s.kn (s.order - 1 + n)) / (s.kn (s.order - 1 + n + 1) - s.kn (s.order - 1 + n)))
              * (localPoly D s.order B (s.kn (s.order - 1 + n + 1) - s.kn (s.order - 1 + n)) der y e).eval
                ((t - s.kn (s.order - 1 + n)) / (s.kn (s.order - 1 + n + 1) - s.kn (s.order - 1 + n))) := by
  have hk := h.order_pos
  have hen := h.enough
  have hbl : n < s.basis.length := by
    by_contra hc
    rw [List.getElem?_eq_none (by omega)] at hB
    cases hB
  have hti : s.timeIntervalOf n
      = .ok (s.kn (s.order - 1 + n), s.kn (s.order - 1 + n + 1)) := by
    unfold timeIntervalOf minimumKnotsRequired numKnotsRequired numCoefficientsRequired
    rw [if_neg (by omega), if_neg (by push Not; constructor <;> omega)]
    congr 3 <;> omega
  unfold numValidTimeSegments numValidTimeSegmentsOf at hn
  have hmono := h.mono (s.order - 1 + n) (s.order - 1 + n + 1) (by omega) (by omega)
  set a := s.kn (s.order - 1 + n) with ha
  set b := s.kn (s.order - 1 + n + 1) with hb
  unfold segmentQuadraticIntegral Dii Vi Mi
  rw [if_neg (by push Not; constructor <;> omega), if_neg (by push Not; constructor <;> omega),
    if_neg (by unfold numValidTimeSegments numValidTimeSegmentsOf; push Not; constructor <;> omega), hti]
  simp only [Outcome.bind_ok, Int.toNat_natCast, hB]
  rw [if_neg (by push Not; constructor <;> omega)]
  simp only [Outcome.bind_ok]
  rw [if_pos (show ∀ r < D, ∀ c < D, |W r c - W c r| ≤ 1 / 10 ^ 14 from hW)]
  refine ⟨_, rfl, fun x y => ?_⟩
  rw [bil_congruence, bil_kron]
  refine sum_congr rfl fun d hd => sum_congr rfl fun e he => ?_
  congr 1
  rw [bil_congr _ _ _ (localPower D s.order B x d) _ (localPower D s.order B y e)
    (fun r hr => Mi_mul s.order B x d r hr (mem_range.1 hd))
    (fun r hr => Mi_mul s.order B y e r hr (mem_range.1 he))]
  rw [derivV_bil]
  rcases hmono.eq_or_lt with heq | hlt
  · rw [← heq]
    simp only [sub_self, mul_zero, intervalIntegral.integral_same]
    unfold bil
    simp
  · rw [bil_hilbert _ _ _ _ _ hlt, if_pos (by linarith)]
    rfl

/-- Offsets: the local part of a stacked vector. -/
def shiftV (x : ℕ → ℝ) (n : ℕ) : ℕ → ℝ := fun p => x (n + p)

theorem sumBlocks_bil {s : BSpline ℝ D} (h : s.WF) (segQ : ℕ → Outcome (Mat ℝ)) (F : ℕ → (ℕ → ℝ) → (ℕ → ℝ) → ℝ)
    (hseg : ∀ n, n < s.numValidTimeSegments → ∃ Q, segQ n = .ok Q ∧ ∀ x y, bil (s.order * D) Q x y = F n x y) :
    ∀ n, n ≤ s.numValidTimeSegments → ∃ Q, s.sumBlocks segQ n = .ok Q ∧ ∀ x y,
      bil (s.coeffs.length * D) Q x y
        = ∑ i ∈ range n, F i (shiftV x (i * D)) (shiftV y (i * D))
  | 0, _ => ⟨_, rfl, fun x y => by simp [bil]⟩
  | (n + 1), hn => by
    have hk := h.order_pos
    have hen := h.enough
    have hc := h.coeffs_len
    obtain ⟨Q, hQ, hb⟩ := sumBlocks_bil h segQ F hseg n (by omega)
    obtain ⟨Qi, hQi, hbi⟩ := hseg n (by omega)
    have hle : n + s.order ≤ s.coeffs.length := by
      unfold numValidTimeSegments numValidTimeSegmentsOf at hn
      omega
    refine ⟨addBlock Q (n * D) (s.order * D) Qi, ?_, fun x y => ?_⟩
    · unfold sumBlocks
      rw [hQ, hQi]
      simp only [Outcome.bind_ok]
      rw [if_pos hle]
    · rw [bil_addBlock _ _ _ (by rw [← Nat.add_mul]; exact Nat.mul_le_mul_right _ hle), hb x y,
        sum_range_succ, hbi]
      rfl

/-- The basis matrix of segment `n`. -/
noncomputable def segBasis (s : BSpline ℝ D) (n : ℕ) : Mat ℝ := (s.basis[n]?).getD (fun _ _ => 0)

theorem segBasis_spec {s : BSpline ℝ D} (h : s.WF) (n : ℕ) (hn : n < s.numValidTimeSegments) :
    s.basis[n]? = some (segBasis s n) ∧ ∀ r, r < s.order → ∀ c, c < s.order →
      segBasis s n r c = basisM s.kn (s.order - 1 + n) s.order r c := by
  have hk := h.order_pos
  have hen := h.enough
  unfold numValidTimeSegments numValidTimeSegmentsOf at hn
  obtain ⟨B, -, hB, hBe⟩ := blockAt_ok h (s.order - 1 + n) (by omega) (by omega)
  rw [show s.order - 1 + n + 1 - s.order = n by omega] at hB
  unfold segBasis
  rw [hB]
  exact ⟨rfl, hBe⟩

/-- The bilinear form of the whole matrix. -/
theorem curveQ {s : BSpline ℝ D} (h : s.WF) (W : Mat ℝ) (hW : AcceptedWeight D W) (der : ℕ) :
    ∃ Q, s.curveQuadraticIntegral W der = .ok Q ∧ ∀ x y,
      bil (s.coeffs.length * D) Q x y
        = ∑ n ∈ range s.numValidTimeSegments, ∑ d ∈ range D, ∑ e ∈ range D, W d e *
            ∫ t in s.kn (s.order - 1 + n)..s.kn (s.order - 1 + n + 1),
              (localPoly D s.order (segBasis s n) (s.kn (s.order - 1 + n + 1) - s.kn (s.order - 1 + n))
                  der (shiftV x (n * D)) d).eval
                ((t - s.kn (s.order - 1 + n)) / (s.kn (s.order - 1 + n + 1) - s.kn (s.order - 1 + n)))
              * (localPoly D s.order (segBasis s n) (s.kn (s.order - 1 + n + 1) - s.kn (s.order - 1 + n))
                  der (shiftV y (n * D)) e).eval
                ((t - s.kn (s.order - 1 + n)) / (s.kn (s.order - 1 + n + 1) - s.kn (s.order - 1 + n))) := by
  have := sumBlocks_bil h (fun seg => s.segmentQuadraticIntegral W seg der)
    (fun n x y => ∑ d ∈ range D, ∑ e ∈ range D, W d e *
            ∫ t in s.kn (s.order - 1 + n)..s.kn (s.order - 1 + n + 1),
              (localPoly D s.order (segBasis s n) (s.kn (s.order - 1 + n + 1) - s.kn (s.order - 1 + n))
                  der x d).eval
                ((t - s.kn (s.order - 1 + n)) / (s.kn (s.order - 1 + n + 1) - s.kn (s.order - 1 + n)))
              * (localPoly D s.order (segBasis s n) (s.kn (s.order - 1 + n + 1) - s.kn (s.order - 1 + n))
                  der y e).eval
                ((t - s.kn (s.order - 1 + n)) / (s.kn (s.order - 1 + n + 1) - s.kn (s.order - 1 + n))))
    (fun n hn => segmentQ h W hW der n hn _ (segBasis_spec h n hn).1) s.numValidTimeSegments le_rfl
  exact this

theorem localPoly_continuous (k : ℕ) (B : Mat ℝ) (w a : ℝ) (der : ℕ) (x : ℕ → ℝ) (d : ℕ) :
    Continuous (fun t : ℝ => (localPoly D k B w der x d).eval ((t - a) / w)) :=
  (Polynomial.continuous _).comp (by fun_prop)

/-- Exchange of the double sum with the integral over an interval. -/
theorem sum_integral (W : Mat ℝ) (f g : ℕ → ℝ → ℝ) (hf : ∀ d, Continuous (f d)) (hg : ∀ d, Continuous (g d))
    (a b : ℝ) :
    ∑ d ∈ range D, ∑ e ∈ range D, W d e * ∫ t in a..b, f d t * g e t
      = ∫ t in a..b, ∑ d ∈ range D, ∑ e ∈ range D, W d e * (f d t * g e t) := by
  have hc : ∀ d e, Continuous (fun t => W d e * (f d t * g e t)) := fun d e =>
    continuous_const.mul ((hf d).mul (hg e))
  rw [intervalIntegral.integral_finsetSum]
  · refine sum_congr rfl fun d _ => ?_
    rw [intervalIntegral.integral_finsetSum]
    · refine sum_congr rfl fun e _ => ?_
      rw [intervalIntegral.integral_const_mul]
    · intro e _
      exact (hc d e).intervalIntegrable _ _
  · intro d _
    exact (continuous_finsetSum _ fun e _ => hc d e).intervalIntegrable _ _

/-- The stacked coefficients of the spline as a function of the position. -/
noncomputable def stacked (s : BSpline ℝ D) (p : ℕ) : ℝ := s.coefficientVector.getD p 0

theorem stacked_at (s : BSpline ℝ D) (i : ℕ) (hi : i < s.coeffs.length) (d : Fin D) :
    stacked s (i * D + d) = s.col i d := by
  unfold stacked coefficientVector
  exact stack_getD _ _ i hi d

/-- **C09** (value): for every valid spline, every accepted weight matrix and every derivative order `der`, the matrix
is built, and as a quadratic form in the stacked coefficients of the spline it is the integral over the valid
interval of the weighted square of the `der`-th derivative of the curve. -/
theorem C09_quadratic_integral (s : BSpline ℝ D) (h : s.WF) (hw : s.WideLast) (W : Mat ℝ)
    (hW : AcceptedWeight D W) (der : ℕ) (lo hi : ℝ) (hlo : s.tMin = .ok lo) (hhi : s.tMax = .ok hi) :
    ∃ Q, s.curveQuadraticIntegral W der = .ok Q ∧
      (∑ p ∈ range (s.coeffs.length * D), ∑ q ∈ range (s.coeffs.length * D),
        s.coefficientVector.getD p 0 * Q p q * s.coefficientVector.getD q 0)
      = ∫ t in lo..hi, ∑ d : Fin D, ∑ e : Fin D,
          W d e * ((s.evalD t der).getD 0 d * (s.evalD t der).getD 0 e) := by
  rw [tMin_eq h] at hlo
  rw [tMax_eq h] at hhi
  obtain rfl := Outcome.ok.inj hlo
  obtain rfl := Outcome.ok.inj hhi
  have hk := h.order_pos
  have hen := h.enough
  have hcl := h.coeffs_len
  obtain ⟨Q, hQ, hb⟩ := curveQ h W hW der
  refine ⟨Q, hQ, ?_⟩
  have hb' := hb (stacked s) (stacked s)
  unfold bil at hb'
  refine hb'.trans ?_
  -- the integral as a sum over the segments
  have hpieces := (pieces_integral (kn := s.kn) (lo := s.order - 1) (hi := s.knots.length - s.order)
    (g := fun t => ∑ d : Fin D, ∑ e : Fin D, W d e * ((s.evalD t der).getD 0 d * (s.evalD t der).getD 0 e))
    (P := fun i t => ∑ d : Fin D, ∑ e : Fin D, W d e *
      ((derivative^[der] (s.segPoly i d)).eval t * (derivative^[der] (s.segPoly i e)).eval t))
    (fun i => continuous_finsetSum _ fun d _ => continuous_finsetSum _ fun e _ =>
      continuous_const.mul ((Polynomial.continuous _).mul (Polynomial.continuous _)))
    (fun i _ h2 => h.mono i (i + 1) (by omega) (by omega))
    (by
      intro i h1 h2 x hx1 hx2
      rw [evalD_on_segment h hw h1 h2 der x hx1.le (.inl hx2)]
      rfl)
    (s.knots.length - s.order) (by omega) le_rfl).2
  rw [hpieces, sum_Ico_eq_sum_range]
  have hnum : s.numValidTimeSegments = s.knots.length - s.order - (s.order - 1) := by
    unfold numValidTimeSegments numValidTimeSegmentsOf
    omega
  rw [hnum]
  refine sum_congr rfl fun n hn' => ?_
  have hn := mem_range.1 hn'
  have hnv : n < s.numValidTimeSegments := by omega
  rw [sum_integral W _ _ (fun d => localPoly_continuous _ _ _ _ _ _ _)
    (fun d => localPoly_continuous _ _ _ _ _ _ _)]
  rcases (h.mono (s.order - 1 + n) (s.order - 1 + n + 1) (by omega) (by omega)).eq_or_lt with heq | hlt
  · rw [← heq]; simp
  refine intervalIntegral.integral_congr fun t _ => ?_
  have hloc : ∀ d : Fin D, (localPoly D s.order (segBasis s n)
      (s.kn (s.order - 1 + n + 1) - s.kn (s.order - 1 + n)) der (shiftV (stacked s) (n * D)) d).eval
      ((t - s.kn (s.order - 1 + n)) / (s.kn (s.order - 1 + n + 1) - s.kn (s.order - 1 + n)))
      = (derivative^[der] (s.segPoly (s.order - 1 + n) d)).eval t := by
    intro d
    rw [segPoly_derivative_eval h (s.order - 1 + n) (by omega) (by omega) hlt (segBasis s n)
      (segBasis_spec h n hnv).2 d der t]
    unfold localPoly
    congr 3
    funext r
    unfold localPower powerCoeffs
    refine sum_congr rfl fun j hj => ?_
    have := mem_range.1 hj
    unfold shiftV
    rw [show n * D + (j * D + (d : ℕ)) = (n + j) * D + d by ring, stacked_at s (n + j) (by omega) d]
    rw [show s.order - 1 + n + 1 - s.order + j = n + j by omega]
  rw [Finset.sum_range]
  refine sum_congr rfl fun d _ => ?_
  rw [Finset.sum_range]
  refine sum_congr rfl fun e _ => ?_
  rw [hloc, hloc]

theorem bil_unit (n : ℕ) (Q : Mat ℝ) (p q : ℕ) (hp : p < n) (hq : q < n) :
    bil n Q (fun a => if a = p then 1 else 0) (fun b => if b = q then 1 else 0) = Q p q := by
  unfold bil
  rw [Finset.sum_eq_single p, Finset.sum_eq_single q]
  · simp
  · intro b _ hb; simp [hb]
  · intro h; exact absurd (mem_range.2 hq) h
  · intro a _ ha; simp [ha]
  · intro h; exact absurd (mem_range.2 hp) h

/-- **C09** (symmetry): for a symmetric weight the matrix is symmetric. -/
theorem C09_symmetric (s : BSpline ℝ D) (h : s.WF) (W : Mat ℝ) (hW : ∀ r < D, ∀ c < D, W r c = W c r)
    (der : ℕ) :
    ∃ Q, s.curveQuadraticIntegral W der = .ok Q ∧
      ∀ p < s.coeffs.length * D, ∀ q < s.coeffs.length * D, Q p q = Q q p := by
  have hacc : AcceptedWeight D W := by
    intro r hr c hc
    rw [hW r hr c hc, sub_self, abs_zero]
    norm_num
  obtain ⟨Q, hQ, hb⟩ := curveQ h W hacc der
  refine ⟨Q, hQ, fun p hp q hq => ?_⟩
  rw [← bil_unit _ Q p q hp hq, ← bil_unit _ Q q p hq hp, hb, hb]
  refine sum_congr rfl fun n _ => ?_
  rw [sum_comm]
  refine sum_congr rfl fun e he => sum_congr rfl fun d hd => ?_
  rw [hW d (mem_range.1 hd) e (mem_range.1 he)]
  congr 1
  refine intervalIntegral.integral_congr fun t _ => ?_
  exact mul_comm _ _

/-- **C09** (positive semidefinite): for a positive semidefinite weight the matrix is positive semidefinite. -/
theorem C09_psd (s : BSpline ℝ D) (h : s.WF) (W : Mat ℝ) (hW : AcceptedWeight D W)
    (hpsd : ∀ y : ℕ → ℝ, 0 ≤ ∑ d ∈ range D, ∑ e ∈ range D, y d * W d e * y e) (der : ℕ) :
    ∃ Q, s.curveQuadraticIntegral W der = .ok Q ∧ ∀ x : ℕ → ℝ,
      0 ≤ ∑ p ∈ range (s.coeffs.length * D), ∑ q ∈ range (s.coeffs.length * D), x p * Q p q * x q := by
  have hk := h.order_pos
  have hen := h.enough
  obtain ⟨Q, hQ, hb⟩ := curveQ h W hW der
  refine ⟨Q, hQ, fun x => ?_⟩
  have hb' := hb x x
  unfold bil at hb'
  rw [hb']
  refine sum_nonneg fun n hn => ?_
  have hn' := mem_range.1 hn
  unfold numValidTimeSegments numValidTimeSegmentsOf at hn'
  rw [sum_integral W _ _ (fun d => localPoly_continuous _ _ _ _ _ _ _)
    (fun d => localPoly_continuous _ _ _ _ _ _ _)]
  refine intervalIntegral.integral_nonneg (h.mono _ _ (by omega) (by omega)) fun t _ => ?_
  refine (hpsd (fun d => (localPoly D s.order (segBasis s n)
      (s.kn (s.order - 1 + n + 1) - s.kn (s.order - 1 + n)) der (shiftV x (n * D)) d).eval
      ((t - s.kn (s.order - 1 + n)) / (s.kn (s.order - 1 + n + 1) - s.kn (s.order - 1 + n))))).trans_eq ?_
  refine sum_congr rfl fun d _ => sum_congr rfl fun e _ => ?_
  ring

/-- A weight that is not symmetric up to the tolerance is rejected (if there is a segment). -/
theorem C09_rejects_asymmetric (s : BSpline ℝ D) (h : s.WF) (W : Mat ℝ) (hW : ¬ AcceptedWeight D W) (der : ℕ) :
    s.curveQuadraticIntegral W der = .throws := by
  have hk := h.order_pos
  have hen := h.enough
  have hpos : 0 < s.numValidTimeSegments := by
    unfold numValidTimeSegments numValidTimeSegmentsOf; omega
  have hB := (segBasis_spec h 0 hpos).1
  have hbl : 0 < s.basis.length := by
    by_contra hc
    rw [List.getElem?_eq_none (by omega)] at hB
    cases hB
  have h0 : s.segmentQuadraticIntegral W ((0 : ℕ) : ℤ) der = .throws := by
    have hti : s.timeIntervalOf ((0 : ℕ) : ℤ)
        = .ok (s.kn (s.order - 1), s.kn (s.order - 1 + 1)) := by
      unfold timeIntervalOf minimumKnotsRequired numKnotsRequired numCoefficientsRequired
      rw [if_neg (by omega), if_neg (by push Not; constructor <;> omega)]
      congr 3 <;> simp <;> omega
    unfold segmentQuadraticIntegral Dii Vi Mi
    rw [if_neg (by push Not; constructor <;> omega), if_neg (by push Not; constructor <;> omega),
      if_neg (by push Not; constructor <;> omega), hti]
    simp only [Outcome.bind_ok, Int.toNat_natCast, hB]
    rw [if_neg (by push Not; constructor <;> omega)]
    exact if_neg hW
  have : ∀ n, s.sumBlocks (fun seg => s.segmentQuadraticIntegral W seg der) (n + 1) = .throws := by
    intro n
    induction n with
    | zero =>
      unfold sumBlocks sumBlocks
      simp only [Outcome.bind_ok]
      rw [h0]; rfl
    | succ n ih =>
      rw [sumBlocks, ih]; rfl
  unfold curveQuadraticIntegral
  obtain ⟨m, hm⟩ := Nat.exists_eq_succ_of_ne_zero hpos.ne'
  rw [hm]
  exact this m

/-- **C09** (diagonal weights): the variant for diagonal weights is the general one with the diagonal matrix. -/
theorem C09_diagonal (s : BSpline ℝ D) (w : ℕ → ℝ) (der : ℕ) :
    s.curveQuadraticIntegralDiag w der
      = s.curveQuadraticIntegral (fun r c => if r = c then w r else 0) der := by
  have hsym : ∀ r < D, ∀ c < D,
      |(if r = c then w r else 0) - (if c = r then w c else 0)| ≤ (1 : ℝ) / 10 ^ 14 := by
    intro r _ c _
    by_cases hrc : r = c
    · subst hrc; simp
    · rw [if_neg hrc, if_neg (Ne.symm hrc)]; norm_num
  have : ∀ seg : ℤ, s.segmentQuadraticIntegralDiag w seg der
      = s.segmentQuadraticIntegral (fun r c => if r = c then w r else 0) seg der := by
    intro seg
    unfold segmentQuadraticIntegralDiag segmentQuadraticIntegral
    simp only [if_pos hsym, ite_mul, zero_mul]
  unfold curveQuadraticIntegralDiag curveQuadraticIntegral
  simp only [this]

theorem sparse_dense (s : BSpline ℝ D) (segQ : ℕ → Outcome (Mat ℝ)) : ∀ n Q, s.sumBlocks segQ n = .ok Q →
    ∃ Qs, s.sumSparse segQ n = .ok Qs ∧
      (∀ bi bj, (Qs bi bj).isSome = true ↔ ∃ seg < n, (seg ≤ bi ∧ bi < seg + s.order) ∧ (seg ≤ bj ∧ bj < seg + s.order)) ∧
      ∀ bi bj r c, r < D → c < D → ((Qs bi bj).getD (fun _ _ => 0)) r c = Q (bi * D + r) (bj * D + c)
  | 0, Q, hQ => by
    obtain rfl := Outcome.ok.inj hQ
    exact ⟨_, rfl, by simp, by simp⟩
  | (n + 1), Q, hQ => by
    unfold sumBlocks at hQ
    obtain ⟨Q0, h0, hQ⟩ := Outcome.bind_eq_ok.1 hQ
    obtain ⟨Qi, hi, hQ⟩ := Outcome.bind_eq_ok.1 hQ
    split_ifs at hQ with hle
    obtain rfl := Outcome.ok.inj hQ
    obtain ⟨Qs, hs, ha, he⟩ := sparse_dense s segQ n Q0 h0
    refine ⟨addSparse D s.order Qs n Qi, ?_, ?_, ?_⟩
    · unfold sumSparse
      rw [hs, hi]
      simp only [Outcome.bind_ok]
      rw [if_pos hle]
    · intro bi bj
      unfold addSparse
      split_ifs with hc
      · simp only [Option.isSome_some, true_iff]
        exact ⟨n, by omega, hc⟩
      · rw [ha]
        constructor
        · rintro ⟨seg, h1, h2⟩; exact ⟨seg, by omega, h2⟩
        · rintro ⟨seg, h1, h2⟩
          have : seg ≠ n := by rintro rfl; exact hc h2
          exact ⟨seg, by omega, h2⟩
    · intro bi bj r c hr hc
      have key : ∀ b r, r < D → ((n * D ≤ b * D + r ∧ b * D + r < n * D + s.order * D)
          ↔ (n ≤ b ∧ b < n + s.order)) := by
        intro b r hr
        rw [← Nat.add_mul]
        constructor
        · rintro ⟨h1, h2⟩
          constructor
          · by_contra hlt
            have : (b + 1) * D ≤ n * D := Nat.mul_le_mul_right _ (by omega)
            rw [Nat.add_mul] at this
            omega
          · by_contra hge
            have : (n + s.order) * D ≤ b * D := Nat.mul_le_mul_right _ (by omega)
            omega
        · rintro ⟨h1, h2⟩
          constructor
          · have := Nat.mul_le_mul_right D h1
            omega
          · have : (b + 1) * D ≤ (n + s.order) * D := Nat.mul_le_mul_right _ (by omega)
            rw [Nat.add_mul b] at this
            omega
      unfold addSparse addBlock
      simp only [key bi r hr, key bj c hc]
      split_ifs with hcond
      · simp only [Option.getD_some]
        rw [he bi bj r c hr hc]
        have e : ∀ b r, n ≤ b → b * D + r - n * D = (b - n) * D + r := by
          intro b r hb
          rw [Nat.sub_mul]
          have := Nat.mul_le_mul_right D hb
          omega
        rw [e bi r hcond.1.1, e bj c hcond.2.1]
      · rw [he bi bj r c hr hc, add_zero]

/-- **C09** (sparse variant): the sparse matrix holds the same entries as the dense one, and exactly the blocks of
coefficient pairs that share a segment are allocated. -/
theorem C09_sparse (s : BSpline ℝ D) (W : Mat ℝ) (der : ℕ) (Q : Mat ℝ)
    (hQ : s.curveQuadraticIntegral W der = .ok Q) :
    ∃ Qs, s.curveQuadraticIntegralSparse W der = .ok Qs ∧
      (∀ bi bj, (Qs bi bj).isSome = true ↔ ∃ seg < s.numValidTimeSegments,
        (seg ≤ bi ∧ bi < seg + s.order) ∧ (seg ≤ bj ∧ bj < seg + s.order)) ∧
      ∀ bi bj r c, r < D → c < D → ((Qs bi bj).getD (fun _ _ => 0)) r c = Q (bi * D + r) (bj * D + c) :=
  sparse_dense s _ _ Q hQ

/-- The same for the sparse variant with diagonal weights. -/
theorem C09_diagonal_sparse (s : BSpline ℝ D) (w : ℕ → ℝ) (der : ℕ) (Q : Mat ℝ)
    (hQ : s.curveQuadraticIntegralDiag w der = .ok Q) :
    ∃ Qs, s.curveQuadraticIntegralDiagSparse w der = .ok Qs ∧
      (∀ bi bj, (Qs bi bj).isSome = true ↔ ∃ seg < s.numValidTimeSegments,
        (seg ≤ bi ∧ bi < seg + s.order) ∧ (seg ≤ bj ∧ bj < seg + s.order)) ∧
      ∀ bi bj r c, r < D → c < D → ((Qs bi bj).getD (fun _ _ => 0)) r c = Q (bi * D + r) (bj * D + c) :=
  sparse_dense s _ _ Q hQ

/-- The hypotheses hold for a spline with a double knot and the weight 3, second derivatives. -/
example : ∃ Q, exReal.curveQuadraticIntegral (fun _ _ => 3) 2 = .ok Q ∧
    (∑ p ∈ range 6, ∑ q ∈ range 6,
        exReal.coefficientVector.getD p 0 * Q p q * exReal.coefficientVector.getD q 0)
      = ∫ t in (2 : ℝ)..4, ∑ _d : Fin 1, ∑ _e : Fin 1,
          3 * ((exReal.evalD t (2 : ℕ)).getD 0 _d * (exReal.evalD t (2 : ℕ)).getD 0 _e) :=
  C09_quadratic_integral exReal exReal_wf exReal_wide (fun _ _ => 3) (by intro r _ c _; norm_num) 2 2 4 rfl rfl

example := C09_psd exReal exReal_wf (fun _ _ => 3) (by intro r _ c _; norm_num)
  (by intro y; simp; nlinarith [mul_self_nonneg (y 0)]) 2

example := C09_symmetric exReal exReal_wf (fun _ _ => 3) (by intro r _ c _; rfl) 2

end Verif
