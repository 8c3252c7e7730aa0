import Verif.Lemmas.Variation
import Verif.Props.Hodograph
import Verif.Props.Euclidean
import Verif.Props.ManifoldInit

/-!
# C101: curves wiggle at most as much as their control polygons
-/

set_option linter.unusedSectionVars false

namespace Verif

open Finset Polynomial

section Real

/-- The sign changes of a curve over closed segments. -/
theorem signs_closed {kn : ℕ → ℝ} {n N p : ℕ} {c : ℕ → ℝ} (hm : MonoBelow kn n) (hN : N + p + 1 = n) (m : ℕ) (xs vs : ℕ → ℝ)
    (hx : ∀ k < m, xs k < xs (k + 1)) (halt : ∀ k < m, vs k * vs (k + 1) < 0) (hv : ∀ k ≤ m, vs k ≠ 0)
    (hseg : ∀ k ≤ m, ∃ i, p ≤ i ∧ i + p + 1 < n ∧ kn i < kn (i + 1) ∧ kn i ≤ xs k ∧ xs k ≤ kn (i + 1) ∧
      (∑ j ∈ Ico (i - p) (i + 1), C (c j) * piece kn i p j).eval (xs k) = vs k) : SignsFollow c N m vs := by
  obtain ⟨ε, hε, hgap⟩ : ∃ ε > 0, ∀ k < m, 2 * ε ≤ xs (k + 1) - xs k := by
    clear halt hv hseg
    induction m with
    | zero => exact ⟨1, one_pos, fun k hk => absurd hk (by omega)⟩
    | succ m ih =>
      obtain ⟨ε, hε, h⟩ := ih fun k hk => hx k (by omega)
      have := hx m (by omega)
      refine ⟨min ε ((xs (m + 1) - xs m) / 2), lt_min hε (by linarith), fun k hk => ?_⟩
      rcases Nat.lt_or_ge k m with h1 | h1
      · have := h k h1
        have := min_le_left ε ((xs (m + 1) - xs m) / 2)
        linarith
      · obtain rfl : k = m := by omega
        have := min_le_right ε ((xs (k + 1) - xs k) / 2)
        linarith
  have key : ∀ k, ∃ y w, k ≤ m → (∃ a, MidAt kn n p 0 c y w a) ∧ 0 < w * vs k ∧ xs k - ε < y ∧ y < xs k + ε := by
    intro k
    by_cases hk : k ≤ m
    · obtain ⟨i, h1, h2, h3, h4, h5, h6⟩ := hseg k hk
      set P := ∑ j ∈ Ico (i - p) (i + 1), C (c j) * piece kn i p j with hP
      have hopen : IsOpen {y : ℝ | 0 < P.eval y * vs k} := isOpen_lt continuous_const (P.continuous.mul continuous_const)
      have hmem : xs k ∈ {y : ℝ | 0 < P.eval y * vs k} := by
        show 0 < P.eval (xs k) * vs k
        rw [h6]
        exact mul_self_pos.2 (hv k hk)
      obtain ⟨δ, hδ, hball⟩ := Metric.isOpen_iff.1 hopen _ hmem
      set η := min (min δ ε) (kn (i + 1) - kn i) / 4 with hη
      have q0 : 0 < min (min δ ε) (kn (i + 1) - kn i) := lt_min (lt_min hδ hε) (by linarith)
      have q1 : min (min δ ε) (kn (i + 1) - kn i) ≤ δ := (min_le_left _ _).trans (min_le_left _ _)
      have q2 : min (min δ ε) (kn (i + 1) - kn i) ≤ ε := (min_le_left _ _).trans (min_le_right _ _)
      have q3 : min (min δ ε) (kn (i + 1) - kn i) ≤ kn (i + 1) - kn i := min_le_right _ _
      have pick : ∀ y, |y - xs k| ≤ η → kn i < y → y < kn (i + 1) →
          ∃ y w, k ≤ m → (∃ a, MidAt kn n p 0 c y w a) ∧ 0 < w * vs k ∧ xs k - ε < y ∧ y < xs k + ε := by
        intro y hy hy1 hy2
        have hy' := abs_le.1 hy
        refine ⟨y, P.eval y, fun _ => ⟨⟨i, h1, by omega, hy1, fun l _ _ => by omega, hy2, rfl⟩, ?_, by linarith, by linarith⟩⟩
        refine hball ?_
        rw [Metric.mem_ball, Real.dist_eq]
        linarith
      rcases le_or_gt (xs k) ((kn i + kn (i + 1)) / 2) with hh | hh
      · refine pick (xs k + η) ?_ (by linarith) ?_
        · rw [add_sub_cancel_left, abs_of_pos (by linarith)]
        · linarith
      · refine pick (xs k - η) ?_ ?_ (by linarith)
        · rw [sub_sub_cancel_left, abs_neg, abs_of_pos (by linarith)]
        · linarith
    · exact ⟨0, 0, fun h => absurd h hk⟩
  choose ys ws hyw using key
  have hw : ∀ k ≤ m, ws k ≠ 0 := fun k hk h0 => by
    have := (hyw k hk).2.1
    rw [h0, zero_mul] at this
    exact lt_irrefl _ this
  obtain ⟨b, hb, hinc⟩ := signs_follow p m ys ws
    (fun k hk => by
      have := hgap k hk
      have := (hyw k hk.le).2.2.2
      have := (hyw (k + 1) hk).2.2.1
      linarith)
    (fun k hk => by
      have h1 := (hyw k hk.le).2.1
      have h2 := (hyw (k + 1) hk).2.1
      have h3 := halt k hk
      have h4 := mul_pos h1 h2
      by_contra hc
      have := mul_nonneg (not_lt.1 hc) (neg_nonneg.2 h3.le)
      nlinarith)
    hw _ kn n N c (fun _ => 0) hm hN (fun k hk => ⟨Nat.zero_le _, (hyw k hk).1⟩) le_rfl
  refine ⟨b, fun k hk => ⟨(hb k hk).1, ?_⟩, hinc⟩
  have h1 := (hb k hk).2
  have h2 := (hyw k hk).2.1
  have h4 := mul_pos h1 h2
  by_contra hc
  have := mul_nonneg (mul_self_nonneg (ws k)) (neg_nonneg.2 (not_lt.1 hc))
  nlinarith

/-- The mean of the `p` knots after knot `j`: the time at which the control polygon has its vertex `j`. -/
noncomputable def Spec.knotMean (kn : ℕ → ℝ) (p j : ℕ) : ℝ := (∑ l ∈ range p, kn (j + 1 + l)) / p

theorem knotMean_reproduces {kn : ℕ → ℝ} {n p i : ℕ} (hm : MonoBelow kn n) (hlt : kn i < kn (i + 1)) (hp0 : 1 ≤ p) (hp : p ≤ i)
    (hn : i + p + 1 < n) : ∑ j ∈ Ico (i - p) (i + 1), C (Spec.knotMean kn p j) * piece kn i p j = X := by
  have := monomial_reproduced kn n i hm hlt p hp hn 1 hp0
  rw [pow_one] at this
  rw [← this]
  refine sum_congr rfl fun j _ => ?_
  congr 2
  unfold Spec.knotMean knotPoly
  have hc : ∀ q : ℕ, (∏ l ∈ range (q + 1), (C (kn (j + 1 + l)) - X : ℝ[X])).coeff q = (-1) ^ q * ∑ l ∈ range (q + 1), kn (j + 1 + l) ∧
      (∏ l ∈ range (q + 1), (C (kn (j + 1 + l)) - X : ℝ[X])).coeff (q + 1) = (-1) ^ (q + 1) := by
    intro q
    induction q with
    | zero => simp
    | succ q ih =>
      have hdeg : (∏ l ∈ range (q + 1), (C (kn (j + 1 + l)) - X : ℝ[X])).coeff (q + 1 + 1) = 0 := by
        refine coeff_eq_zero_of_natDegree_lt (lt_of_le_of_lt (natDegree_prod_le _ _) ?_)
        refine lt_of_le_of_lt (sum_le_sum fun l _ => show _ ≤ 1 from ?_) (by simp)
        exact (natDegree_sub_le _ _).trans (by simp)
      rw [prod_range_succ, mul_sub, coeff_sub, coeff_sub, coeff_mul_C, coeff_mul_C, coeff_mul_X, coeff_mul_X, ih.1, ih.2, hdeg,
        sum_range_succ _ (q + 1)]
      constructor <;> ring
  obtain ⟨q, rfl⟩ : ∃ q, p = q + 1 := ⟨p - 1, by omega⟩
  rw [Nat.add_sub_cancel, (hc q).1, ← mul_assoc, ← mul_pow, Nat.choose_one_right]
  simp

theorem line_poly {kn : ℕ → ℝ} {n p i : ℕ} (hm : MonoBelow kn n) (hlt : kn i < kn (i + 1)) (α β : ℝ) (hα : 1 ≤ p ∨ α = 0) (hp : p ≤ i)
    (hn : i + p + 1 < n) (c : ℕ → ℝ) (t : ℝ) :
    (∑ j ∈ Ico (i - p) (i + 1), C (c j - (α * Spec.knotMean kn p j + β)) * piece kn i p j).eval t =
      (∑ j ∈ Ico (i - p) (i + 1), C (c j) * piece kn i p j).eval t - (α * t + β) := by
  have hone := piece_sum_one kn n i hm hlt p hp hn
  have hX : ∑ j ∈ Ico (i - p) (i + 1), C (α * Spec.knotMean kn p j) * piece kn i p j = C α * X := by
    rcases hα with h | rfl
    · rw [← knotMean_reproduces hm hlt h hp hn, mul_sum]
      exact sum_congr rfl fun j _ => by rw [C_mul, mul_assoc]
    · simp
  have : ∑ j ∈ Ico (i - p) (i + 1), C (c j - (α * Spec.knotMean kn p j + β)) * piece kn i p j
      = ∑ j ∈ Ico (i - p) (i + 1), C (c j) * piece kn i p j - (C α * X + C β) := by
    conv_rhs => rw [← hX, ← mul_one (C β), ← hone, mul_sum, ← sum_add_distrib, ← sum_sub_distrib]
    refine sum_congr rfl fun j _ => ?_
    simp only [C_sub, C_add]
    ring
  rw [this]
  simp

end Real

namespace BSpline

variable {D : ℕ}

/-- The polynomial that a linear functional of the curve follows. -/
theorem functional_value {s : BSpline ℝ D} (h : s.WF) {t : ℝ} {i : ℕ} (hi : s.InSegment t i) (f : (Fin D → ℝ) →ₗ[ℝ] ℝ) :
    f (fun d => (s.segPoly i d).eval t) =
      (∑ j ∈ Ico (i - (s.order - 1)) (i + 1), C (f (s.col j)) * piece s.kn i (s.order - 1) j).eval t := by
  have hk := h.order_pos
  have hn := h.enough
  have hc := h.coeffs_len
  have h1 := hi.lower
  have h2 := hi.upper
  have e : (fun d => (s.segPoly i d).eval t) = ∑ j ∈ range s.coeffs.length, (piece s.kn i (s.order - 1) j).eval t • s.col j := by
    funext d
    unfold segPoly
    rw [eval_finsetSum, Finset.sum_apply]
    refine sum_congr rfl fun j _ => ?_
    rw [eval_mul, eval_C, Pi.smul_apply, smul_eq_mul, mul_comm]
  rw [e, map_sum, eval_finsetSum]
  symm
  have : ∀ j, (C (f (s.col j)) * piece s.kn i (s.order - 1) j).eval t = f ((piece s.kn i (s.order - 1) j).eval t • s.col j) := fun j => by
    rw [eval_mul, eval_C, map_smul, smul_eq_mul, mul_comm]
  simp only [this]
  apply sum_subset
  · intro x hx
    simp at hx ⊢
    omega
  · intro x hx hx'
    simp at hx hx'
    rcases Nat.lt_or_ge i x with h3 | h3
    · rw [piece_zero_of_lt _ _ _ _ h3, eval_zero, zero_smul, map_zero]
    · rw [piece_zero_of_gt _ _ _ _ (by omega), eval_zero, zero_smul, map_zero]

/-- **C101** (crossings): if the curve is on alternating sides of a moving hyperplane at some times, then so are control points, the
hyperplane taken at the mean of the inner knots of each control point.  With `α = 0` the hyperplane does not move. -/
theorem C101_crossings (s : BSpline ℝ D) (h : s.WF) (f : (Fin D → ℝ) →ₗ[ℝ] ℝ) (α β : ℝ) (m : ℕ) (x : ℕ → ℝ) (v : ℕ → Fin D → ℝ)
    (hx : ∀ k < m, x k < x (k + 1)) (hadm : ∀ k ≤ m, s.Admissible (x k)) (hv : ∀ k ≤ m, s.eval (x k) = .ok (v k))
    (hne : ∀ k ≤ m, f (v k) ≠ α * x k + β)
    (halt : ∀ k < m, (f (v k) - (α * x k + β)) * (f (v (k + 1)) - (α * x (k + 1) + β)) < 0) :
    ∃ b : ℕ → ℕ, (∀ k < m, b k < b (k + 1)) ∧ ∀ k ≤ m, b k < s.coeffs.length ∧
      0 < (f (s.col (b k)) - (α * Spec.knotMean s.kn (s.order - 1) (b k) + β)) * (f (v k) - (α * x k + β)) := by
  have hk := h.order_pos
  have hn := h.enough
  have hc := h.coeffs_len
  suffices hs : SignsFollow (fun j => f (s.col j) - (α * Spec.knotMean s.kn (s.order - 1) j + β)) (s.coeffs.length) m fun k => f (v k) - (α * x k + β) by
    obtain ⟨b, hb, hinc⟩ := hs
    exact ⟨b, hinc, hb⟩
  refine signs_closed (kn := s.kn) (n := s.knots.length) (p := s.order - 1) h.mono (by omega) m x _ hx halt (fun k hk => sub_ne_zero.2 (hne k hk)) ?_
  intro k hkm
  obtain ⟨i, hi, -, e⟩ := evalDNat_admissible h (x k) (hadm k hkm)
  have h1 := hi.lower
  have h2 := hi.upper
  refine ⟨i, h1, by omega, hi.pos, hi.left, hi.le, ?_⟩
  have ev := hv k hkm
  unfold eval evalD at ev
  rw [if_neg (by omega), Int.toNat_zero, e 0, Outcome.ok.injEq] at ev
  rw [← ev, line_poly h.mono hi.pos α β (Or.inl (by omega)) h1 (by omega) fun j => f (s.col j)]
  rw [← functional_value h hi f]
  rfl

theorem slope_admissible {s : BSpline ℝ D} (h : s.WF) (hk3 : 3 ≤ s.order) {t : ℝ} (ha : s.Admissible t) :
    (initializeBasisMatrices ⟨s.order - 1, s.slopeKnots, s.slopeCoeffs, []⟩ : BSpline ℝ D).Admissible t := by
  have hn := h.enough
  have hl : s.slopeKnots.length = s.knots.length - 2 := by simp [slopeKnots]; omega
  have hl' : (initializeBasisMatrices ⟨s.order - 1, s.slopeKnots, s.slopeCoeffs, []⟩ : BSpline ℝ D).knots.length = s.knots.length - 2 := hl
  have ho : (initializeBasisMatrices ⟨s.order - 1, s.slopeKnots, s.slopeCoeffs, []⟩ : BSpline ℝ D).order = s.order - 1 := rfl
  unfold Admissible at ha ⊢
  rw [ho, hl', slope_kn _ (by omega), slope_kn _ (by omega), slope_kn _ (by omega), show s.order - 1 - 1 + 1 = s.order - 1 by omega,
    show s.knots.length - 2 - (s.order - 1) + 1 = s.knots.length - s.order by omega,
    show s.knots.length - 2 - (s.order - 1) - 1 + 1 = s.knots.length - s.order - 1 by omega]
  exact ha

theorem slope_functional {s : BSpline ℝ D} (f : (Fin D → ℝ) →ₗ[ℝ] ℝ) (j : ℕ) (hj : j + 1 < s.coeffs.length) :
    f ((initializeBasisMatrices ⟨s.order - 1, s.slopeKnots, s.slopeCoeffs, []⟩ : BSpline ℝ D).col j) =
      Spec.slope s.order s.kn (fun i => f (s.col i)) j := by
  have : (initializeBasisMatrices ⟨s.order - 1, s.slopeKnots, s.slopeCoeffs, []⟩ : BSpline ℝ D).col j =
      (((s.order - 1 : ℕ) : ℝ) / (s.kn (j + s.order) - s.kn (j + 1))) • (s.col (j + 1) - s.col j) := by
    funext d
    rw [slope_col j hj]
    simp only [Spec.slope, Pi.smul_apply, Pi.sub_apply, smul_eq_mul]
    ring
  rw [this, map_smul, map_sub, smul_eq_mul]
  unfold Spec.slope
  ring

/-- A slope has the sign of the difference of its control points. -/
theorem slope_sign {kn : ℕ → ℝ} {n k : ℕ} (hm : MonoBelow kn n) (hk : 1 ≤ k) (c : ℕ → ℝ) (j : ℕ) (hj : j + k < n) (w : ℝ)
    (h : 0 < Spec.slope k kn c j * w) : 0 < (c (j + 1) - c j) * w := by
  unfold Spec.slope at h
  have hd := hm (j + 1) (j + k) (by omega) hj
  have hq : 0 ≤ ((k - 1 : ℕ) : ℝ) / (kn (j + k) - kn (j + 1)) := div_nonneg (Nat.cast_nonneg _) (by linarith)
  rw [mul_div_right_comm, mul_assoc] at h
  exact (pos_iff_pos_of_mul_pos h).1 (lt_of_le_of_ne hq fun h0 => by rw [← h0, zero_mul] at h; exact lt_irrefl _ h)

/-- **C101** (turns): a linear functional of the curve, for instance a component, turns between rising and falling at most as often as its
control points do. -/
theorem C101_turns (s : BSpline ℝ D) (h : s.WF) (hk3 : 3 ≤ s.order) (f : (Fin D → ℝ) →ₗ[ℝ] ℝ) (m : ℕ) (x : ℕ → ℝ) (v : ℕ → Fin D → ℝ)
    (hx : ∀ k < m, x k < x (k + 1)) (hadm : ∀ k ≤ m, s.Admissible (x k)) (hv : ∀ k ≤ m, s.evalD (x k) 1 = .ok (v k))
    (hne : ∀ k ≤ m, f (v k) ≠ 0) (halt : ∀ k < m, f (v k) * f (v (k + 1)) < 0) :
    ∃ b : ℕ → ℕ, (∀ k < m, b k < b (k + 1)) ∧ ∀ k ≤ m, b k + 1 < s.coeffs.length ∧
      0 < Spec.slope s.order s.kn (fun i => f (s.col i)) (b k) * f (v k) ∧ 0 < (f (s.col (b k + 1)) - f (s.col (b k))) * f (v k) := by
  have hn := h.enough
  have hc := h.coeffs_len
  obtain ⟨s', hs', hw', he⟩ := C82_derivative_spline s h hk3
  rw [slope_set h hk3, Outcome.ok.injEq] at hs'
  have hl' : s'.coeffs.length = s.coeffs.length - 1 := by rw [← hs']; simp [slopeCoeffs, initializeBasisMatrices]
  obtain ⟨b, hinc, hb⟩ := C101_crossings s' hw' f 0 0 m x v hx (fun k hk => by rw [← hs']; exact slope_admissible h hk3 (hadm k hk))
    (fun k hk => by rw [← hv k hk]; exact he (x k) 0) (fun k hk => by simpa using hne k hk) (fun k hk => by simpa using halt k hk)
  refine ⟨b, hinc, fun k hk => ?_⟩
  obtain ⟨h1, h2⟩ := hb k hk
  simp only [zero_mul, add_zero, sub_zero] at h2
  rw [← hs', slope_functional f (b k) (by omega)] at h2
  exact ⟨by omega, h2, slope_sign h.mono (by omega) _ _ (by omega) _ h2⟩

/-- **C101** (inflections): it changes between bending upwards and downwards at most as often as the slopes of its control points turn. -/
theorem C101_inflections (s : BSpline ℝ D) (h : s.WF) (hk4 : 4 ≤ s.order) (f : (Fin D → ℝ) →ₗ[ℝ] ℝ) (m : ℕ) (x : ℕ → ℝ)
    (v : ℕ → Fin D → ℝ) (hx : ∀ k < m, x k < x (k + 1)) (hadm : ∀ k ≤ m, s.Admissible (x k))
    (hv : ∀ k ≤ m, s.evalD (x k) 2 = .ok (v k)) (hne : ∀ k ≤ m, f (v k) ≠ 0) (halt : ∀ k < m, f (v k) * f (v (k + 1)) < 0) :
    ∃ b : ℕ → ℕ, (∀ k < m, b k < b (k + 1)) ∧ ∀ k ≤ m, b k + 2 < s.coeffs.length ∧
      0 < (Spec.slope s.order s.kn (fun i => f (s.col i)) (b k + 1) - Spec.slope s.order s.kn (fun i => f (s.col i)) (b k)) * f (v k) := by
  have hn := h.enough
  have hc := h.coeffs_len
  obtain ⟨s', hs', hw', he⟩ := C82_derivative_spline s h (by omega)
  rw [slope_set h (by omega), Outcome.ok.injEq] at hs'
  have hl' : s'.coeffs.length = s.coeffs.length - 1 := by rw [← hs']; simp [slopeCoeffs, initializeBasisMatrices]
  have ho' : s'.order = s.order - 1 := by rw [← hs']; rfl
  obtain ⟨b, hinc, hb⟩ := C101_turns s' hw' (by omega) f m x v hx
    (fun k hk => by rw [← hs']; exact slope_admissible h (by omega) (hadm k hk)) (fun k hk => by rw [← hv k hk]; exact he (x k) 1) hne halt
  refine ⟨b, hinc, fun k hk => ?_⟩
  obtain ⟨h1, -, h2⟩ := hb k hk
  rw [← hs', slope_functional f _ (by omega), slope_functional f _ (by omega)] at h2
  exact ⟨by omega, h2⟩

/-- **C101** (monotone): a linear functional of the curve is nondecreasing if it is so on the control points; also for knots of any
multiplicity. -/
theorem C101_monotone (s : BSpline ℝ D) (h : s.WF) (f : (Fin D → ℝ) →ₗ[ℝ] ℝ)
    (hf : ∀ j, j + 1 < s.coeffs.length → f (s.col j) ≤ f (s.col (j + 1))) (t1 t2 : ℝ) (h12 : t1 ≤ t2) (ha1 : s.Admissible t1)
    (ha2 : s.Admissible t2) (v1 v2 : Fin D → ℝ) (e1 : s.eval t1 = .ok v1) (e2 : s.eval t2 = .ok v2) : f v1 ≤ f v2 := by
  have hmono : ∀ i j, i ≤ j → j < s.coeffs.length → f (s.col i) ≤ f (s.col j) := by
    intro i j hij
    induction j, hij using Nat.le_induction with
    | base => exact fun _ => le_rfl
    | succ j hj ih => exact fun hl => (ih (by omega)).trans (hf j hl)
  by_contra hc
  have hc := not_le.1 hc
  rcases h12.eq_or_lt with rfl | hlt
  · rw [e1, Outcome.ok.injEq] at e2
    rw [e2] at hc
    exact lt_irrefl _ hc
  obtain ⟨b, hinc, hb⟩ := C101_crossings s h f 0 ((f v1 + f v2) / 2) 1 (fun k => if k = 0 then t1 else t2) (fun k => if k = 0 then v1 else v2)
    (fun k hk => by obtain rfl : k = 0 := by omega
                    simpa using hlt)
    (fun k _ => by split <;> assumption) (fun k _ => by split <;> assumption)
    (fun k _ => by rw [zero_mul, zero_add]; split <;> intro h0 <;> linarith)
    (fun k hk => by obtain rfl : k = 0 := by omega
                    simp only [if_true, one_ne_zero, if_false, zero_mul, zero_add]
                    nlinarith [mul_pos (sub_pos.2 hc) (sub_pos.2 hc)])
  have hb01 := hinc 0 (by norm_num)
  obtain ⟨l0, p0⟩ := hb 0 (by norm_num)
  obtain ⟨l1, p1⟩ := hb 1 le_rfl
  simp only [if_true, one_ne_zero, if_false, zero_mul, zero_add] at p0 p1
  have hle := hmono _ _ hb01.le l1
  have q0 := (pos_iff_pos_of_mul_pos p0).2 (by linarith)
  have q1 : f (s.col (b 1)) - (f v1 + f v2) / 2 < 0 := by
    by_contra h0
    have := mul_nonneg (not_lt.1 h0) (show 0 ≤ -(f v2 - (f v1 + f v2) / 2) by linarith)
    linarith
  rw [show 0 + 1 = 1 from rfl] at *
  linarith

/-- **C101** (convex): it is convex, i.e. its derivative nondecreasing, if the slopes of its control points are nondecreasing. -/
theorem C101_convex (s : BSpline ℝ D) (h : s.WF) (hk3 : 3 ≤ s.order) (f : (Fin D → ℝ) →ₗ[ℝ] ℝ)
    (hf : ∀ j, j + 2 < s.coeffs.length → Spec.slope s.order s.kn (fun i => f (s.col i)) j ≤ Spec.slope s.order s.kn (fun i => f (s.col i)) (j + 1))
    (t1 t2 : ℝ) (h12 : t1 ≤ t2) (ha1 : s.Admissible t1) (ha2 : s.Admissible t2) (v1 v2 : Fin D → ℝ) (e1 : s.evalD t1 1 = .ok v1)
    (e2 : s.evalD t2 1 = .ok v2) : f v1 ≤ f v2 := by
  obtain ⟨s', hs', hw', he⟩ := C82_derivative_spline s h hk3
  rw [slope_set h hk3, Outcome.ok.injEq] at hs'
  have hl' : s'.coeffs.length = s.coeffs.length - 1 := by rw [← hs']; simp [slopeCoeffs, initializeBasisMatrices]
  refine C101_monotone s' hw' f (fun j hj => ?_) t1 t2 h12 (by rw [← hs']; exact slope_admissible h hk3 ha1)
    (by rw [← hs']; exact slope_admissible h hk3 ha2) v1 v2 (by rw [← e1]; exact he t1 0) (by rw [← e2]; exact he t2 0)
  rw [← hs', slope_functional f _ (by omega), slope_functional f _ (by omega)]
  exact hf j (by omega)

/-! ### Not vacuous -/

/-- A spline of order two that goes up and down. -/
noncomputable def exZig : BSpline ℝ 1 := initializeBasisMatrices ⟨2, [0, 1, 2, 3, 4, 5], [![1], ![-1], ![2], ![3]], []⟩

theorem exZig_wf : exZig.WF := initializeBasisMatrices_wf _ (by decide) (by norm_num) (by decide) (by decide)

theorem exZig_admissible (t : ℝ) (h1 : 1 ≤ t) (h2 : t ≤ 3) : exZig.Admissible t := by
  refine ⟨?_, ?_, .inl ?_⟩ <;> norm_num [BSpline.kn, exZig, initializeBasisMatrices, snapTol] <;> linarith

theorem exZig_eval (i : ℕ) (hi : i < 3) : exZig.eval ((i : ℝ) + 1) = .ok (exZig.coeffs.getD i 0) := by
  have hi' : (i : ℝ) ≤ 2 := by exact_mod_cast Nat.le_of_lt_succ hi
  have hi0 : (0 : ℝ) ≤ i := Nat.cast_nonneg i
  obtain ⟨l, hl, -, e⟩ := evalDNat_admissible exZig_wf ((i : ℝ) + 1) (exZig_admissible _ (by linarith) (by linarith))
  have hseg : exZig.InSegment ((i : ℝ) + 1) (i + 1) := by
    refine ⟨?_, ?_, ?_, ?_, .inl ?_⟩ <;> interval_cases i <;> norm_num [BSpline.kn, exZig, initializeBasisMatrices]
  obtain rfl := hl.unique exZig_wf hseg
  unfold eval evalD
  rw [if_neg (by omega), Int.toNat_zero, e 0]
  congr 1
  funext d
  fin_cases d
  interval_cases i <;> norm_num [segPoly, piece, sum_range_succ, BSpline.kn, BSpline.col, exZig, initializeBasisMatrices]

/-- The curve is at 1, then at -1, then at 2: so control points are on both sides of zero, too. -/
example : ∃ b : ℕ → ℕ, (∀ k < 2, b k < b (k + 1)) ∧ ∀ k ≤ 2, b k < 4 ∧
    0 < (exZig.col (b k) 0 - (0 * Spec.knotMean exZig.kn 1 (b k) + 0)) * (exZig.coeffs.getD k 0 0 - (0 * ((k : ℝ) + 1) + 0)) := by
  refine C101_crossings exZig exZig_wf (LinearMap.proj 0) 0 0 2 (fun k => (k : ℝ) + 1) (fun k => exZig.coeffs.getD k 0) ?_ ?_ ?_ ?_ ?_
  · intro k _
    push_cast
    linarith
  · intro k hk
    have : (k : ℝ) ≤ 2 := by exact_mod_cast hk
    exact exZig_admissible _ (by linarith [Nat.cast_nonneg (α := ℝ) k]) (by linarith)
  · exact fun k hk => exZig_eval k (by omega)
  · intro k hk
    interval_cases k <;> norm_num [exZig, initializeBasisMatrices]
  · intro k hk
    interval_cases k <;> norm_num [exZig, initializeBasisMatrices]

example (t1 t2 : ℝ) (h12 : t1 ≤ t2) (ha1 : exRise.Admissible t1) (ha2 : exRise.Admissible t2) (v1 v2 : Fin 1 → ℝ)
    (e1 : exRise.eval t1 = .ok v1) (e2 : exRise.eval t2 = .ok v2) : v1 0 ≤ v2 0 := by
  refine C101_monotone exRise exRise_wf (LinearMap.proj 0) ?_ t1 t2 h12 ha1 ha2 v1 v2 e1 e2
  intro j hj
  have h0 : j + 1 < 6 := hj
  have : j < 5 := by omega
  interval_cases j <;> norm_num [exRise, initializeBasisMatrices, BSpline.col]

/-- A convex spline of order three. -/
noncomputable def exBowl : BSpline ℝ 1 := initializeBasisMatrices ⟨3, [0, 1, 2, 3, 4, 5, 6, 7], [![4], ![1], ![0], ![1], ![4]], []⟩

theorem exBowl_wf : exBowl.WF := initializeBasisMatrices_wf _ (by decide) (by norm_num) (by decide) (by decide)

theorem exBowl_admissible (t : ℝ) (h1 : 2 ≤ t) (h2 : t ≤ 4) : exBowl.Admissible t := by
  refine ⟨?_, ?_, .inl ?_⟩ <;> norm_num [BSpline.kn, exBowl, initializeBasisMatrices, snapTol] <;> linarith

example (t1 t2 : ℝ) (h12 : t1 ≤ t2) (ha1 : exBowl.Admissible t1) (ha2 : exBowl.Admissible t2) (v1 v2 : Fin 1 → ℝ)
    (e1 : exBowl.evalD t1 1 = .ok v1) (e2 : exBowl.evalD t2 1 = .ok v2) : v1 0 ≤ v2 0 := by
  refine C101_convex exBowl exBowl_wf le_rfl (LinearMap.proj 0) ?_ t1 t2 h12 ha1 ha2 v1 v2 e1 e2
  intro j hj
  have h0 : j + 2 < 5 := hj
  have : j < 3 := by omega
  interval_cases j <;> norm_num [Spec.slope, exBowl, initializeBasisMatrices, BSpline.col, BSpline.kn]

theorem exBowl_slope (i : ℕ) (hi : i < 2) : exBowl.evalD (2 * (i : ℝ) + 2) 1 = .ok fun _ => 4 * (i : ℝ) - 3 := by
  have hi' : (i : ℝ) ≤ 1 := by exact_mod_cast Nat.le_of_lt_succ hi
  have hi0 : (0 : ℝ) ≤ i := Nat.cast_nonneg i
  obtain ⟨l, hl, -, e⟩ := evalDNat_admissible exBowl_wf (2 * (i : ℝ) + 2) (exBowl_admissible _ (by linarith) (by linarith))
  have hseg : exBowl.InSegment (2 * (i : ℝ) + 2) (2 * i + 2) := by
    refine ⟨?_, ?_, ?_, ?_, .inl ?_⟩ <;> interval_cases i <;> norm_num [BSpline.kn, exBowl, initializeBasisMatrices]
  obtain rfl := hl.unique exBowl_wf hseg
  unfold evalD
  rw [if_neg (by omega), Int.toNat_one, e 1]
  congr 1
  funext d
  fin_cases d
  interval_cases i <;> norm_num [segPoly, piece, sum_range_succ, BSpline.kn, BSpline.col, exBowl, initializeBasisMatrices]

/-- The curve falls, then it rises. -/
example : ∃ b : ℕ → ℕ, (∀ k < 1, b k < b (k + 1)) ∧ ∀ k ≤ 1, b k + 1 < 5 ∧
    0 < Spec.slope 3 exBowl.kn (fun i => exBowl.col i 0) (b k) * (4 * (k : ℝ) - 3) ∧
    0 < (exBowl.col (b k + 1) 0 - exBowl.col (b k) 0) * (4 * (k : ℝ) - 3) := by
  refine C101_turns exBowl exBowl_wf le_rfl (LinearMap.proj 0) 1 (fun k => 2 * (k : ℝ) + 2) (fun k _ => 4 * (k : ℝ) - 3) ?_ ?_ ?_ ?_ ?_
  · intro k _
    push_cast
    linarith
  · intro k hk
    have : (k : ℝ) ≤ 1 := by exact_mod_cast hk
    exact exBowl_admissible _ (by linarith [Nat.cast_nonneg (α := ℝ) k]) (by linarith)
  · exact fun k hk => exBowl_slope k (by omega)
  · intro k hk
    interval_cases k <;> norm_num
  · intro k hk
    interval_cases k
    norm_num

/-- A spline of order four that bends upwards, then downwards. -/
noncomputable def exBend4 : BSpline ℝ 1 :=
  initializeBasisMatrices ⟨4, [0, 1, 2, 3, 4, 5, 6, 7, 8], [![4], ![1], ![0], ![1], ![0]], []⟩

theorem exBend4_wf : exBend4.WF := initializeBasisMatrices_wf _ (by decide) (by norm_num) (by decide) (by decide)

theorem exBend4_admissible (i : ℕ) (hi : i < 2) : exBend4.Admissible (2 * (i : ℝ) + 3) := by
  interval_cases i
  · refine ⟨?_, ?_, .inl ?_⟩ <;> norm_num [BSpline.kn, exBend4, initializeBasisMatrices, snapTol]
  · refine ⟨?_, ?_, .inr ⟨?_, ?_⟩⟩ <;> norm_num [BSpline.kn, exBend4, initializeBasisMatrices]

theorem exBend4_second (i : ℕ) (hi : i < 2) : exBend4.evalD (2 * (i : ℝ) + 3) 2 = .ok fun _ => 2 - 4 * (i : ℝ) := by
  obtain ⟨l, hl, -, e⟩ := evalDNat_admissible exBend4_wf (2 * (i : ℝ) + 3) (exBend4_admissible i hi)
  have hseg : exBend4.InSegment (2 * (i : ℝ) + 3) (i + 3) := by
    interval_cases i
    · refine ⟨?_, ?_, ?_, ?_, .inl ?_⟩ <;> norm_num [BSpline.kn, exBend4, initializeBasisMatrices]
    · refine ⟨?_, ?_, ?_, ?_, .inr ⟨?_, ?_⟩⟩ <;> norm_num [BSpline.kn, exBend4, initializeBasisMatrices]
  obtain rfl := hl.unique exBend4_wf hseg
  unfold evalD
  rw [if_neg (by omega), show (2 : ℤ).toNat = 2 from rfl, e 2]
  congr 1
  funext d
  fin_cases d
  interval_cases i <;> norm_num [segPoly, piece, sum_range_succ, BSpline.kn, BSpline.col, exBend4, initializeBasisMatrices]

example : ∃ b : ℕ → ℕ, (∀ k < 1, b k < b (k + 1)) ∧ ∀ k ≤ 1, b k + 2 < 5 ∧
    0 < (Spec.slope 4 exBend4.kn (fun i => exBend4.col i 0) (b k + 1) - Spec.slope 4 exBend4.kn (fun i => exBend4.col i 0) (b k)) *
      (2 - 4 * (k : ℝ)) := by
  refine C101_inflections exBend4 exBend4_wf le_rfl (LinearMap.proj 0) 1 (fun k => 2 * (k : ℝ) + 3) (fun k _ => 2 - 4 * (k : ℝ)) ?_ ?_ ?_ ?_ ?_
  · intro k _
    push_cast
    linarith
  · exact fun k hk => exBend4_admissible k (by omega)
  · exact fun k hk => exBend4_second k (by omega)
  · intro k hk
    interval_cases k <;> norm_num
  · intro k hk
    interval_cases k
    norm_num

end BSpline

namespace MSpline

/-- **C101** (Euclidean manifold splines): crossings of moving hyperplanes. -/
theorem C101_euclidean {P : Type*} [AddCommGroup P] [Module ℝ P] (order : ℕ) (ho : 1 ≤ order) (s : MSpline ℝ P)
    (h : RegularReach (euclidean ℝ P) order s) (he : s.state = .evaluable) (f : P →ₗ[ℝ] ℝ) (α β : ℝ) (hα : 2 ≤ order ∨ α = 0) (m : ℕ)
    (x : ℕ → ℝ) (v : ℕ → P) (hx : ∀ k < m, x k < x (k + 1)) (hv : ∀ k ≤ m, s.euclideanEval (x k) = .ok (v k))
    (hne : ∀ k ≤ m, f (v k) ≠ α * x k + β)
    (halt : ∀ k < m, (f (v k) - (α * x k + β)) * (f (v (k + 1)) - (α * x (k + 1) + β)) < 0) :
    ∃ b : ℕ → ℕ, (∀ k < m, b k < b (k + 1)) ∧ ∀ k ≤ m, b k < s.keys.length - order ∧
      0 < (f (s.vert (b k)) - (α * Spec.knotMean s.kn (order - 1) (b k) + β)) * (f (v k) - (α * x k + β)) := by
  obtain ⟨hw, rfl⟩ := h.mwf ho
  have hn := hw.enough he
  suffices hs : SignsFollow (fun j => f (s.vert j) - (α * Spec.knotMean s.kn (s.order - 1) j + β)) (s.keys.length - s.order) m fun k => f (v k) - (α * x k + β) by
    obtain ⟨b, hb, hinc⟩ := hs
    exact ⟨b, hinc, hb⟩
  refine signs_closed (kn := s.kn) (n := s.keys.length) (p := s.order - 1) hw.mono (by omega) m x _ hx halt (fun k hk => sub_ne_zero.2 (hne k hk)) ?_
  intro k hkm
  rcases evaluable_total hw he (x k) with ⟨i, hi⟩ | ht
  · have h1 := hi.lower
    have h2 := hi.upper
    refine ⟨i, by omega, by omega, hw.strict (by omega) (by omega), hi.left, hi.right_le, ?_⟩
    have ev := hv k hkm
    unfold euclideanEval at ev
    rw [show (0 : ℤ) = ((0 : ℕ) : ℤ) from rfl, euclideanEvalD_eq hw he hi none 0 (by simp), Outcome.ok.injEq] at ev
    rw [line_poly hw.mono (hw.strict (by omega) (by omega)) α β (hα.imp_left fun h => by omega) (by omega) (by omega) fun j => f (s.vert j), ← ev]
    congr 1
    unfold segSum
    rw [map_sum, eval_finsetSum]
    have : ∀ j, (C (f (s.vert j)) * piece s.kn i (s.order - 1) j).eval (x k) =
        f ((derivative^[0] (piece s.kn i (s.order - 1) j)).eval (x k) • s.vert j) := fun j => by
      rw [eval_mul, eval_C, map_smul, smul_eq_mul, mul_comm]
      rfl
    simp only [this]
    apply sum_subset
    · intro z hz
      have := mem_Ico.1 hz
      exact mem_range.2 (by omega)
    · intro z hz hz'
      rw [mem_range] at hz
      rw [mem_Ico] at hz'
      rcases Nat.lt_or_ge i z with h3 | h3
      · rw [piece_zero_of_lt _ _ _ _ h3]
        simp
      · rw [piece_zero_of_gt _ _ _ _ (by omega)]
        simp
  · have ev := hv k hkm
    unfold euclideanEval euclideanEvalD at ev
    rw [evaluatorAt_throws hw _ (Or.inr ht)] at ev
    cases ev

/-- A Euclidean spline of order two on both sides of zero. -/
example : ∃ s : MSpline ℝ ℝ, RegularReach (euclidean ℝ ℝ) 2 s ∧ s.euclideanEval 1 = .ok 1 ∧ s.euclideanEval 2 = .ok (-1) ∧
    ∃ b : ℕ → ℕ, (∀ k < 1, b k < b (k + 1)) ∧ ∀ k ≤ 1, b k < s.keys.length - 2 ∧
      0 < (s.vert (b k) - (0 * Spec.knotMean s.kn 1 (b k) + 0)) * (1 - 2 * (k : ℝ) - (0 * ((k : ℝ) + 1) + 0)) := by
  obtain ⟨s, -, h1, h2, h3, -, h5, -⟩ := C55_init_with_vertices (euclidean ℝ ℝ) 2 (by norm_num) [0, 1, 2, 3, 4, 5] [1, -1, 2, 3]
    (by simp [List.pairwise_cons]; norm_num) rfl (by simp) (by simp [euclidean])
  obtain ⟨hw, ho⟩ := h1.mwf (by norm_num)
  have hkn : ∀ m, s.kn m = [0, 1, 2, 3, 4, 5].getD m (0 : ℝ) := fun m => by unfold MSpline.kn; rw [h3]
  have hvt : ∀ m, m < 4 → s.vert m = [1, -1, 2, 3].getD m (0 : ℝ) := by
    intro m hm
    have e := congrArg (fun l => l[m]?) h5
    simp only [List.getElem?_take, List.length_cons, List.length_nil] at e
    rw [if_pos (by omega)] at e
    unfold MSpline.vert
    rw [List.getD_eq_getElem?_getD, List.getD_eq_getElem?_getD, e]
  have ev : ∀ k : ℕ, k ≤ 1 → s.euclideanEval ((k : ℝ) + 1) = .ok (1 - 2 * (k : ℝ)) := by
    intro k hk
    have hi : s.InSeg ((k : ℝ) + 1) (k + 1) := by
      refine ⟨by rw [ho]; omega, by rw [ho, h3]; simp; omega, ?_, .inl ?_⟩ <;> rw [hkn] <;> interval_cases k <;> norm_num
    unfold euclideanEval
    rw [show (0 : ℤ) = ((0 : ℕ) : ℤ) from rfl, euclideanEvalD_eq hw h2 hi none 0 (by simp)]
    congr 1
    unfold segSum
    rw [ho, h3]
    show ∑ j ∈ range 4, _ = _
    rw [sum_range_succ, sum_range_succ, sum_range_succ, sum_range_one, hvt 0 (by norm_num), hvt 1 (by norm_num), hvt 2 (by norm_num),
      hvt 3 (by norm_num)]
    interval_cases k <;> norm_num [piece, hkn]
  refine ⟨s, h1, by simpa using ev 0 (by norm_num), by have := ev 1 le_rfl; norm_num at this; exact this, ?_⟩
  refine C101_euclidean 2 (by norm_num) s h1 h2 LinearMap.id 0 0 (Or.inr rfl) 1 (fun k => (k : ℝ) + 1) (fun k => 1 - 2 * (k : ℝ)) ?_ ev ?_ ?_
  · intro k _
    push_cast
    linarith
  · intro k hk
    interval_cases k <;> norm_num
  · intro k hk
    interval_cases k
    norm_num

end MSpline
end Verif
