import Verif.Props.RoundingManifoldExact
import Verif.Props.RoundingRotation
import Verif.Props.Euclidean

/-!
# C107: examples

A Euclidean spline over the rationals with the rounding of `double`, and quaternion functions whose results are rounded correctly.
-/

set_option linter.unusedSectionVars false

namespace Verif

open Quaternion MSpline

/-! ### Euclidean splines -/

/-- Not vacuous: the value and the derivative of `demoE` at time 3. -/
example : (∃ v v', demoE.euclideanEvalD none 3 1 = .ok v ∧ Rounding.euclideanEvalD (Rounding.Summation.pairwise Rounding.ieee)
      (Rounding.Power.rounded Rounding.ieee) (Rounding.withFloatBasis (Rounding.Summation.pairwise Rounding.ieee) demoE) 3 1 = .ok v' ∧
    ∀ d, |v' d - v d| ≤ (Rounding.grow ^ Rounding.operations 3 - 1) * Rounding.magnitude 3 1 2 5) := by
  have := Rounding.C107_euclidean (R := Rounding.ieee) (Rounding.Summation.pairwise Rounding.ieee) (Rounding.Power.rounded Rounding.ieee)
    (by omega) demoE_reach (by decide +kernel) (by unfold Rounding.FloatKeys Rounding.IsFloat; decide +kernel) (t := 3)
    (by unfold Rounding.IsFloat; decide +kernel) (i := 2) ⟨by decide +kernel, by decide +kernel, by decide +kernel, Or.inl (by decide +kernel)⟩ 1
    (by omega) ⟨by decide +kernel, by decide +kernel⟩ 5 (by decide +kernel) (by
      intro j h1 h2 v hv d
      have : j = 0 ∨ j = 1 ∨ j = 2 := by omega
      have key : ∀ j : Fin 3, ∀ d : Fin 2, ∀ v ∈ demoE.verts[(j : ℕ)]?, |v d| ≤ 5 := by decide +kernel
      rcases this with rfl | rfl | rfl
      · exact key 0 d v hv
      · exact key 1 d v hv
      · exact key 2 d v hv)
  have e : demoE.kn (2 + 1) - demoE.kn 2 = 2 := by decide +kernel
  rw [e] at this
  exact this

/-- Not vacuous: the weights of `demoE` at time 3. -/
example : ∃ e e' w w', demoE.evaluatorAt 3 = .ok e ∧ demoE.localCumulativeBi e 0 = .ok w ∧
    Rounding.ieee.evaluatorAt (Rounding.withFloatBasis (Rounding.Summation.pairwise Rounding.ieee) demoE) 3 = .ok e' ∧ e'.firstIt = e.firstIt ∧
    Rounding.localCumulativeBi (Rounding.Summation.pairwise Rounding.ieee) (Rounding.Power.rounded Rounding.ieee)
      (Rounding.withFloatBasis (Rounding.Summation.pairwise Rounding.ieee) demoE) e' 0 = .ok w' ∧
    ∀ c, c < 3 → (0 ≤ w c ∧ w c ≤ 1) ∧ Rounding.ieee.IsFloat (w' c) ∧ |w' c - w c| ≤ (Rounding.grow ^ Rounding.operations 3 - 1) * 4 ^ (3 - 1) :=
  Rounding.C107_weights (R := Rounding.ieee) (Rounding.Summation.pairwise Rounding.ieee) (Rounding.Power.rounded Rounding.ieee) _
    (by omega) demoE_reach (by decide +kernel) (by unfold Rounding.FloatKeys Rounding.IsFloat; decide +kernel) (t := 3)
    (by unfold Rounding.IsFloat; decide +kernel) (i := 2) ⟨by decide +kernel, by decide +kernel, by decide +kernel, Or.inl (by decide +kernel)⟩

/-- A cubic spline in the plane. -/
def cubicE : MSpline ℚ (Fin 2 → ℚ) :=
  ((Call.initWithKnotsAndControlVertices [0, 1, 2, 3, 4, 5, 6, 7] [![1, 2], ![3, 5], ![-1, 0], ![2, 2]]).run
    (euclidean ℚ (Fin 2 → ℚ)) (create 4)).2

theorem cubicE_reach : RegularReach (euclidean ℚ (Fin 2 → ℚ)) 4 cubicE := .call _ .create trivial

/-- Not vacuous: the value of `cubicE` at the `double` next to 3.3. -/
example : ∃ v v', cubicE.euclideanEvalD none (double (33 / 10)) 0 = .ok v ∧ Rounding.euclideanEvalD (Rounding.Summation.fromLeft Rounding.ieee)
      (Rounding.Power.rounded Rounding.ieee) (Rounding.withFloatBasis (Rounding.Summation.fromLeft Rounding.ieee) cubicE) (double (33 / 10)) 0 = .ok v' ∧
    ∀ d, |v' d - v d| ≤ 1 / 10 ^ 12 * 5 :=
  Rounding.C107_euclidean_cubic (R := Rounding.ieee) _ _ cubicE_reach (by decide +kernel)
    (by unfold Rounding.FloatKeys Rounding.IsFloat; decide +kernel) (Rounding.ieee.idem _) (i := 3)
    ⟨by decide +kernel, by decide +kernel, by decide +kernel, Or.inl (by decide +kernel)⟩ 5 (by decide +kernel) (by
      intro j h1 h2 v hv d
      have key : ∀ j : Fin 4, ∀ d : Fin 2, ∀ v ∈ cubicE.verts[(j : ℕ)]?, |v d| ≤ 5 := by decide +kernel
      exact key ⟨j, by omega⟩ d v hv)

/-- The two answers are not the same: rounding shows. -/
example : (cubicE.euclideanEvalD none (double (33 / 10)) 0).map (fun v => v 0) ≠
    (Rounding.euclideanEvalD (Rounding.Summation.fromLeft Rounding.ieee) (Rounding.Power.rounded Rounding.ieee)
      (Rounding.withFloatBasis (Rounding.Summation.fromLeft Rounding.ieee) cubicE) (double (33 / 10)) 0).map (fun v => v 0) := by
  decide +kernel

/-- Not vacuous: times outside are rejected. -/
example : Rounding.euclideanEvalD (Rounding.Summation.fromLeft Rounding.ieee) (Rounding.Power.rounded Rounding.ieee)
    (Rounding.withFloatBasis (Rounding.Summation.fromLeft Rounding.ieee) cubicE) 5 0 = .throws :=
  (Rounding.C107_rejects (D := 2) _ _ (euclidean ℚ (Fin 2 → ℚ)) (by omega) 5).2 cubicE cubicE_reach
    (Or.inr ⟨3, 4, by decide +kernel, by decide +kernel, Or.inr (by decide +kernel)⟩) 0

/-! ### Quaternions -/

/-- Every entry rounded. -/
def roundQ (R : Rounding ℝ) (q : ℍ[ℝ]) : ℍ[ℝ] := ⟨R.rnd q.re, R.rnd q.imI, R.rnd q.imJ, R.rnd q.imK⟩

theorem roundQ_near (R : Rounding ℝ) (q : ℍ[ℝ]) : ‖roundQ R q - q‖ ≤ R.eps * ‖q‖ + 2 * R.tiny :=
  QuatFloat.norm_le_of_parts R.eps_nonneg R.tiny_nonneg (R.err _) (R.err _) (R.err _) (R.err _)

/-- Quaternion functions with correctly rounded results. -/
noncomputable def QuatFloat.rounded (R : Rounding ℝ) (lg : ℍ[ℝ] → V3) : QuatFloat where
  mult a b := roundQ R (qplus a b)
  exp v := roundQ R (axisAngle2quat v)
  log q i := R.rnd (lg q i)
  norm q := R.rnd ‖q‖
  multErr := R.eps + 8 * R.tiny
  expErr := R.eps + 2 * R.tiny
  normErr := R.eps + 4 * R.tiny
  range := 100
  range_nonneg := by norm_num
  mult_err a b := by
    refine (roundQ_near R _).trans ?_
    rw [qplus_eq, norm_mul, mul_comm ‖b‖]
    have h1 := R.eps_nonneg
    have h2 := R.tiny_nonneg
    have a1 := mul_le_mul_of_nonneg_left (le_max_left (‖a‖ * ‖b‖) (1 / 4)) h1
    have a2 := mul_le_mul_of_nonneg_left (le_max_right (‖a‖ * ‖b‖) (1 / 4)) h2
    linarith
  exp_err v _ := by
    refine (roundQ_near R _).trans ?_
    rw [norm_axisAngle2quat, mul_one]
  norm_err q := by
    refine (R.err _).trans ?_
    rw [abs_of_nonneg (norm_nonneg q)]
    have h1 := R.eps_nonneg
    have h2 := R.tiny_nonneg
    have a1 := mul_le_mul_of_nonneg_left (le_max_left ‖q‖ (1 / 4)) h1
    have a2 := mul_le_mul_of_nonneg_left (le_max_right ‖q‖ (1 / 4)) h2
    linarith

namespace QuatFloat

theorem rounded_small (R : Rounding ℝ) (lg : ℍ[ℝ] → V3) : (rounded R lg).multErr ≤ 1 / 10 ^ 14 ∧ (rounded R lg).expErr ≤ 1 / 10 ^ 14 ∧
    (rounded R lg).normErr ≤ 1 / 10 ^ 14 ∧ 8 ≤ (rounded R lg).range := by
  have t1 := tiny_small R
  have t2 := eps_small R
  refine ⟨?_, ?_, ?_, ?_⟩ <;> simp only [rounded] <;> norm_num at * <;> linarith

/-- Correctly rounded functions are good enough for updates. -/
theorem rounded_usable (R : Rounding ℝ) (lg : ℍ[ℝ] → V3) : (rounded R lg).Usable (R := R) := by
  have t1 := tiny_small R
  have t2 := eps_small R
  have t3 := R.tiny_nonneg
  have t4 := R.eps_nonneg
  refine ⟨?_, ?_, ?_⟩
  · simp only [rounded]
    norm_num at *
    linarith
  · simp only [rounded]
    have : (R.eps + 8 * R.tiny) * (1 + (R.eps + 2 * R.tiny)) ≤ 1 / 10 ^ 14 * 2 :=
      mul_le_mul (by norm_num at *; linarith) (by norm_num at *; linarith) (by positivity) (by positivity)
    norm_num at *
    linarith
  · unfold unitErr
    simp only [rounded]
    norm_num at *
    linarith

/-- The logarithm is accurate where the relative rotation is a number of the format. -/
theorem rounded_log (R : Rounding ℝ) (lg : ℍ[ℝ] → V3) {x y : ℍ[ℝ]} (h : roundQ R (qplus (quatInv x) y) = qplus (quatInv x) y) {Φ : ℝ}
    (hΦ : norm3 (lg (qplus (quatInv x) y)) ≤ Φ) : (rounded R lg).LogNear R lg (R.eps * Φ + 2 * R.tiny) Φ x y := by
  refine ⟨?_, hΦ⟩
  have e : ((rounded R lg).group R).log x y = fun i => R.rnd (lg (qplus (quatInv x) y) i) := by
    show (fun i => R.rnd (lg (roundQ R (qplus (quatInv x) y)) i)) = _
    rw [h]
  rw [e]
  set v := lg (qplus (quatInv x) y) with hv
  show norm3 ((fun i => R.rnd (v i)) - v) ≤ _
  have b : norm3 ((fun i => R.rnd (v i)) - v) ≤ norm3 ((R.eps • fun i => |v i|) + fun _ => R.tiny) :=
    norm3_mono fun i => R.err (v i)
  have c := norm3_add_le (R.eps • fun i => |v i|) (fun _ => R.tiny)
  have d : norm3 (fun i => |v i|) = norm3 v := by simp [norm3, sq_abs]
  rw [norm3_smul, d, abs_of_nonneg R.eps_nonneg] at c
  have := norm3_const R.tiny_nonneg
  have := mul_le_mul_of_nonneg_left hΦ R.eps_nonneg
  linarith

/-- The logarithm of the examples: right for turns about the first axis by the angles 0 and π. -/
noncomputable def demoLog (q : ℍ[ℝ]) : V3 := ![Real.pi * q.imI, 0, 0]

theorem demoLog_right : axisAngle2quat (demoLog 1) = 1 ∧ axisAngle2quat (demoLog quatI) = quatI := by
  constructor
  · have : demoLog 1 = 0 := by
      funext i
      fin_cases i <;> simp [demoLog]
    rw [this]
    have hn : norm3 (0 : V3) = 0 := by simp [norm3]
    ext <;> simp [axisAngle2quat, hn]
  · have hn : norm3 ![Real.pi, 0, 0] = Real.pi := by
      simp [norm3, Real.sqrt_sq Real.pi_pos.le]
    have h2 : Real.pi ≠ 0 := Real.pi_ne_zero
    ext <;> simp [axisAngle2quat, demoLog, quatI, hn, h2]

theorem exact_one (R : Rounding ℝ) : R.rnd 1 = 1 := by simpa using R.int 1 (by norm_num)

/-- The relative rotations of the example. -/
theorem demo_logNear (R : Rounding ℝ) : (rounded R demoLog).LogNear R demoLog (1 / 10 ^ 13) 7 1 quatI ∧
    (rounded R demoLog).LogNear R demoLog (1 / 10 ^ 13) 7 quatI 1 := by
  have hz := R.rnd_zero
  have h1 := exact_one R
  have hm : R.rnd (-1) = -1 := by rw [R.neg, h1]
  have t1 := tiny_small R
  have t2 := eps_small R
  have small : R.eps * 7 + 2 * R.tiny ≤ 1 / 10 ^ 13 := by norm_num at *; linarith
  have hpi : Real.pi ≤ 7 := by linarith [Real.pi_le_four]
  constructor
  · have e : qplus (quatInv 1) quatI = quatI := by
      ext <;> simp [qplus, quatInv, quatI]
    have := rounded_log R demoLog (x := 1) (y := quatI) (Φ := 7) (by
        rw [e]
        ext <;> simp [roundQ, quatI, hz, h1]) (by
        rw [e]
        simp [norm3, demoLog, quatI, Real.sqrt_sq Real.pi_pos.le]
        exact hpi)
    exact ⟨this.1.trans small, this.2⟩
  · have e : qplus (quatInv quatI) 1 = ⟨0, -1, 0, 0⟩ := by
      ext <;> simp [qplus, quatInv, quatI]
    have := rounded_log R demoLog (x := quatI) (y := 1) (Φ := 7) (by
        rw [e]
        ext <;> simp [roundQ, hz, hm]) (by
        rw [e]
        simp [norm3, demoLog, Real.sqrt_sq Real.pi_pos.le]
        exact hpi)
    exact ⟨this.1.trans small, this.2⟩

/-- Not vacuous: a cubic quaternion spline through rotations by 0 and π in turn, with correctly rounded functions. -/
example : ∃ s : MSpline ℝ ℍ[ℝ], s.verts.take 4 = [1, quatI, 1, quatI] ∧ ∃ q q', s.quatEvalD demoLog 7 0 = .ok q ∧
    (rounded Rounding.ieee demoLog).eval (Rounding.Summation.fromLeft Rounding.ieee) (Rounding.Power.rounded Rounding.ieee)
      (Rounding.withFloatBasis (Rounding.Summation.fromLeft Rounding.ieee) s) 7 = .ok q' ∧ ‖q' - q‖ ≤ 3 / 10 ^ 11 ∧
    ((rounded Rounding.ieee demoLog).group Rounding.ieee).isIn q' = true := by
  have hu : ∀ c ∈ [1, quatI, 1, quatI], ‖c‖ = 1 := by
    intro c hc
    simp only [List.mem_cons, List.not_mem_nil, or_false] at hc
    rcases hc with rfl | rfl | rfl | rfl <;> first | exact norm_one | exact norm_quatI
  obtain ⟨s, h1, h2, h3, h4, h5, -⟩ := quat_spline_exists demoLog 4 (by norm_num) [0, 2, 4, 6, 8, 10, 12, 14] [1, quatI, 1, quatI] (by
    simp [List.pairwise_cons]; norm_num) rfl (by decide) hu
  have h5 : s.verts.take 4 = [1, quatI, 1, quatI] := h5
  have hv : ∀ j, j < 4 → s.verts[j]? = [1, quatI, 1, quatI][j]? := by
    intro j hj
    rw [← h5, List.getElem?_take_of_lt hj]
  obtain ⟨b1, b2, b3, b4⟩ := rounded_small Rounding.ieee demoLog
  have ho := (h1.mwf (by norm_num)).2
  refine ⟨s, h5, (rounded Rounding.ieee demoLog).C107_quaternion_cubic _ _ demoLog _ h1 h2 ?_ ?_ (i := 3) ?_ b1 b2 b3 b4 ?_ ?_⟩
  · intro x hx
    rw [h3] at hx
    have : ∃ m : ℤ, |m| ≤ 2 ^ 53 ∧ x = m := by
      simp only [List.mem_cons, List.not_mem_nil, or_false] at hx
      rcases hx with rfl | rfl | rfl | rfl | rfl | rfl | rfl | rfl
      exacts [⟨0, by norm_num, by norm_num⟩, ⟨2, by norm_num, by norm_num⟩, ⟨4, by norm_num, by norm_num⟩, ⟨6, by norm_num, by norm_num⟩,
        ⟨8, by norm_num, by norm_num⟩, ⟨10, by norm_num, by norm_num⟩, ⟨12, by norm_num, by norm_num⟩, ⟨14, by norm_num, by norm_num⟩]
    obtain ⟨m, hm, rfl⟩ := this
    exact Rounding.ieee.int m hm
  · have := Rounding.ieee (K := ℝ) |>.int 7 (by norm_num)
    unfold Rounding.IsFloat
    simpa using this
  · refine ⟨by rw [ho], by rw [ho, h3]; simp, ?_, Or.inl ?_⟩
    · rw [MSpline.kn_eq_knOf, h3]; norm_num [knOf]
    · rw [MSpline.kn_eq_knOf, h3]; norm_num [knOf]
  · intro c hc
    rw [hv 0 (by norm_num)] at hc
    obtain rfl : (1 : ℍ[ℝ]) = c := by simpa using hc
    rw [norm_one, sub_self, abs_zero]
    positivity
  · obtain ⟨l1, l2⟩ := demo_logNear Rounding.ieee
    intro j x y hj1 hj2 hx hy
    rw [hv j (by omega)] at hx
    rw [hv (j + 1) (by omega)] at hy
    have : j = 0 ∨ j = 1 ∨ j = 2 := by omega
    rcases this with rfl | rfl | rfl <;> simp at hx hy <;> subst hx <;> subst hy
    exacts [l1, l2, l1]

/-- Not vacuous: many updates with correctly rounded functions. -/
example (n : ℕ) : ((rounded Rounding.ieee demoLog).group Rounding.ieee).isIn
    ((List.replicate (n + 1) ![1, 2, 3]).foldl ((rounded Rounding.ieee demoLog).group Rounding.ieee).update quatI) = true := by
  obtain ⟨b1, b2, b3, -⟩ := rounded_small Rounding.ieee demoLog
  refine C107_update_isIn _ b1 b2 b3 (by rw [norm_quatI]; norm_num) _ (by simp) ?_
  intro v hv
  rw [List.eq_of_mem_replicate hv]
  show norm3 ![1, 2, 3] ≤ 100
  unfold norm3
  rw [show (100 : ℝ) = Real.sqrt (100 ^ 2) by rw [Real.sqrt_sq (by norm_num)]]
  apply Real.sqrt_le_sqrt
  simp
  norm_num

/-- Not vacuous: the drift from the exact rotation. -/
example (n : ℕ) : ‖(List.replicate n ![0, 0, 1]).foldl ((rounded Rounding.ieee demoLog).group Rounding.ieee).update quatI -
    (List.replicate n ![0, 0, 1]).foldl (quatGroup demoLog).update quatI‖ ≤ n * (rounded Rounding.ieee demoLog).driftErr Rounding.ieee := by
  have := ((rounded Rounding.ieee demoLog).C107_drift demoLog (rounded_usable Rounding.ieee demoLog) (List.replicate n ![0, 0, 1]) norm_quatI
    (p' := quatI) (E := 0) (by
      rw [norm_quatI, sub_self, abs_zero]
      unfold unitErr
      have a1 := (rounded Rounding.ieee demoLog).normErr_nonneg
      have a2 := (Rounding.ieee (K := ℝ)).eps_nonneg
      have a3 := (Rounding.ieee (K := ℝ)).tiny_nonneg
      linarith) (by simp) (by
      intro v hv
      rw [List.eq_of_mem_replicate hv]
      show norm3 ![0, 0, 1] ≤ 100
      simp [norm3])).2
  rw [List.length_replicate, zero_add] at this
  exact this

end QuatFloat

end Verif
