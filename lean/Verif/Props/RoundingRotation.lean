import Verif.Props.RoundingManifold
import Verif.Props.LieGroup
import Mathlib.Analysis.SpecialFunctions.Trigonometric.Bounds

/-!
# Property C107: evaluation of manifold splines in floating point — unit quaternion splines
-/

set_option linter.unusedSectionVars false

namespace Verif

open Quaternion MSpline

/-! ### Vectors and their exponentials -/

theorem norm3_eq (v : V3) : norm3 v = 2 * ‖quatV v‖ := by rw [norm_quatV]; ring

theorem quatV_add (v w : V3) : quatV (v + w) = quatV v + quatV w := by
  ext <;> simp [add_div]

theorem quatV_sub (v w : V3) : quatV (v - w) = quatV v - quatV w := by
  ext <;> simp [sub_div]

theorem norm3_nonneg (v : V3) : 0 ≤ norm3 v := Real.sqrt_nonneg _

theorem norm3_add_le (v w : V3) : norm3 (v + w) ≤ norm3 v + norm3 w := by
  rw [norm3_eq, norm3_eq, norm3_eq, quatV_add]
  linarith [norm_add_le (quatV v) (quatV w)]

theorem norm3_smul (c : ℝ) (v : V3) : norm3 (c • v) = |c| * norm3 v := by
  rw [norm3_eq, norm3_eq, quatV_smul, norm_smul, Real.norm_eq_abs]
  ring

theorem norm3_mono {v w : V3} (h : ∀ i, |v i| ≤ w i) : norm3 v ≤ norm3 w := by
  unfold norm3
  have hi : ∀ i, v i ^ 2 ≤ w i ^ 2 := fun i => by
    rw [← sq_abs (v i)]
    exact pow_le_pow_left₀ (abs_nonneg _) (h i) 2
  exact Real.sqrt_le_sqrt (by linarith [hi 0, hi 1, hi 2])

theorem norm3_const {c : ℝ} (hc : 0 ≤ c) : norm3 (fun _ => c) ≤ 2 * c := by
  unfold norm3
  rw [Real.sqrt_le_left (by positivity)]
  nlinarith

theorem norm3_sq (v : V3) : norm3 v ^ 2 = v 0 ^ 2 + v 1 ^ 2 + v 2 ^ 2 := Real.sq_sqrt (by positivity)

/-- The angle between two vectors. -/
theorem inner_angle (v w : V3) : ∃ c : ℝ, -1 ≤ c ∧ c ≤ 1 ∧ v 0 * w 0 + v 1 * w 1 + v 2 * w 2 = norm3 v * norm3 w * c := by
  have hv := norm3_sq v
  have hw := norm3_sq w
  have nv := norm3_nonneg v
  have nw := norm3_nonneg w
  have cs : (v 0 * w 0 + v 1 * w 1 + v 2 * w 2) ^ 2 ≤ (norm3 v * norm3 w) ^ 2 := by
    rw [mul_pow, hv, hw]
    nlinarith [sq_nonneg (v 0 * w 1 - v 1 * w 0), sq_nonneg (v 0 * w 2 - v 2 * w 0), sq_nonneg (v 1 * w 2 - v 2 * w 1)]
  have ab := abs_le.1 (abs_le_of_sq_le_sq cs (mul_nonneg nv nw))
  rcases (mul_nonneg nv nw).eq_or_lt with h0 | h0
  · refine ⟨0, by norm_num, by norm_num, ?_⟩
    rw [← h0] at ab
    rw [mul_zero]
    exact le_antisymm ab.2 (by linarith [ab.1])
  · refine ⟨(v 0 * w 0 + v 1 * w 1 + v 2 * w 2) / (norm3 v * norm3 w), ?_, ?_, ?_⟩
    · rw [le_div_iff₀ h0]; linarith [ab.1]
    · rw [div_le_one h0]; exact ab.2
    · rw [mul_div_cancel₀ _ h0.ne']

/-- Exponentials of close vectors are close. -/
theorem axisAngle2quat_lipschitz (v w : V3) : ‖axisAngle2quat v - axisAngle2quat w‖ ≤ norm3 (v - w) / 2 := by
  obtain ⟨c, c1, c2, hc⟩ := inner_angle v w
  have hv := norm3_sq v
  have hw := norm3_sq w
  set α := norm3 v / 2 with hα
  set β := norm3 w / 2 with hβ
  have sinv : ∀ x : V3, Real.sin (norm3 x / 2) / norm3 x * norm3 x = Real.sin (norm3 x / 2) := by
    intro x
    by_cases h : norm3 x = 0
    · rw [h]; simp
    · field_simp
  have sv := sinv v
  have sw := sinv w
  rw [← hα] at sv
  rw [← hβ] at sw
  have key : ‖axisAngle2quat v - axisAngle2quat w‖ ^ 2 ≤ (norm3 (v - w) / 2) ^ 2 := by
    rw [sq, ← Quaternion.normSq_eq_norm_mul_self, Quaternion.normSq_def', div_pow, norm3_sq]
    rw [Quaternion.re_sub, Quaternion.imI_sub, Quaternion.imJ_sub, Quaternion.imK_sub]
    simp only [axisAngle2quat, Pi.sub_apply]
    rw [← hα, ← hβ]
    set a := Real.sin α / norm3 v
    set b := Real.sin β / norm3 w
    have f1 := Real.one_sub_sq_div_two_le_cos (x := α - β)
    have f2 := Real.one_sub_sq_div_two_le_cos (x := α + β)
    rw [Real.cos_sub] at f1
    rw [Real.cos_add] at f2
    have s1 := Real.sin_sq_add_cos_sq α
    have s2 := Real.sin_sq_add_cos_sq β
    have vα : norm3 v = 2 * α := by rw [hα]; ring
    have wβ : norm3 w = 2 * β := by rw [hβ]; ring
    have e1 : a ^ 2 * (v 0 ^ 2 + v 1 ^ 2 + v 2 ^ 2) = Real.sin α ^ 2 := by rw [← hv, ← mul_pow, sv]
    have e2 : b ^ 2 * (w 0 ^ 2 + w 1 ^ 2 + w 2 ^ 2) = Real.sin β ^ 2 := by rw [← hw, ← mul_pow, sw]
    have e3 : a * b * (v 0 * w 0 + v 1 * w 1 + v 2 * w 2) = Real.sin α * Real.sin β * c := by
      rw [hc, ← sv, ← sw]; ring
    have e4 : v 0 * w 0 + v 1 * w 1 + v 2 * w 2 = 4 * α * β * c := by rw [hc, vα, wβ]; ring
    have e5 : v 0 ^ 2 + v 1 ^ 2 + v 2 ^ 2 = 4 * α ^ 2 := by rw [← hv, vα]; ring
    have e6 : w 0 ^ 2 + w 1 ^ 2 + w 2 ^ 2 = 4 * β ^ 2 := by rw [← hw, wβ]; ring
    have l1 : 0 ≤ (1 + c) * (Real.cos α * Real.cos β + Real.sin α * Real.sin β - (1 - (α - β) ^ 2 / 2)) :=
      mul_nonneg (by linarith) (by linarith)
    have l2 : 0 ≤ (1 - c) * (Real.cos α * Real.cos β - Real.sin α * Real.sin β - (1 - (α + β) ^ 2 / 2)) :=
      mul_nonneg (by linarith) (by linarith)
    have lhs : (Real.cos α - Real.cos β) ^ 2 + (v 0 * a - w 0 * b) ^ 2 + (v 1 * a - w 1 * b) ^ 2 + (v 2 * a - w 2 * b) ^ 2 =
        2 - 2 * (Real.cos α * Real.cos β) - 2 * (Real.sin α * Real.sin β * c) := by
      rw [← e3]
      linear_combination e1 + e2 + s1 + s2
    have rhs : ((v 0 - w 0) ^ 2 + (v 1 - w 1) ^ 2 + (v 2 - w 2) ^ 2) / 2 ^ 2 = α ^ 2 + β ^ 2 - 2 * α * β * c := by
      linear_combination e5 / 4 + e6 / 4 - e4 / 2
    rw [lhs, rhs]
    linarith
  exact le_of_sq_le_sq key (by have := norm3_nonneg (v - w); linarith)

/-! ### One step of the loop -/

namespace QuatFloat

variable {R : Rounding ℝ} (F : QuatFloat)

theorem multErr_nonneg : 0 ≤ F.multErr := by
  have := (norm_nonneg _).trans (F.mult_err 1 1)
  rw [norm_one, mul_one, max_eq_left (by norm_num), mul_one] at this
  exact this

theorem expErr_nonneg : 0 ≤ F.expErr := (norm_nonneg _).trans (F.exp_err 0 (by
  have : norm3 0 = 0 := by simp [norm3]
  rw [this]
  exact F.range_nonneg))

/-- The error of a tangent vector that is scaled by a weight: `ω` bounds the error of the weight, `l` that of the vector and `Φ` its length. -/
def scaleErr (R : Rounding ℝ) (ω l Φ : ℝ) : ℝ := (1 + ω) * (R.eps * (Φ + l) + l) + 2 * R.tiny + ω * Φ

/-- The error of its exponential. -/
noncomputable def stepErr (R : Rounding ℝ) (ω l Φ : ℝ) : ℝ := F.expErr + scaleErr R ω l Φ / 2

/-- The growth of the error in one step of the loop. -/
noncomputable def growth (R : Rounding ℝ) (ω l Φ : ℝ) : ℝ := (1 + F.multErr) * (1 + F.stepErr R ω l Φ)

theorem scaleErr_nonneg {ω l Φ : ℝ} (hω : 0 ≤ ω) (hl : 0 ≤ l) (hΦ : 0 ≤ Φ) : 0 ≤ scaleErr R ω l Φ := by
  have := R.eps_nonneg
  have := R.tiny_nonneg
  unfold scaleErr
  positivity

theorem scaled_near {w w' ω l Φ : ℝ} {φ φ' : V3} (h0 : 0 ≤ w) (h1 : w ≤ 1) (hw : |w' - w| ≤ ω) (hφ : norm3 (φ' - φ) ≤ l) (hΦ : norm3 φ ≤ Φ) :
    norm3 ((fun i => R.mul (φ' i) w') - w • φ) ≤ scaleErr R ω l Φ := by
  have he := R.eps_nonneg
  have ht := R.tiny_nonneg
  have hl : 0 ≤ l := (norm3_nonneg _).trans hφ
  have hω : 0 ≤ ω := (abs_nonneg _).trans hw
  have hφ' : norm3 φ' ≤ Φ + l := by
    have := norm3_add_le (φ' - φ) φ
    rw [sub_add_cancel] at this
    linarith
  have hw' : |w'| ≤ 1 + ω := by
    have := abs_add_le (w' - w) w
    rw [sub_add_cancel, abs_of_nonneg h0] at this
    linarith
  have a1 : norm3 ((fun i => R.mul (φ' i) w') - w' • φ') ≤ R.eps * (|w'| * norm3 φ') + 2 * R.tiny := by
    have b1 : norm3 ((fun i => R.mul (φ' i) w') - w' • φ') ≤ norm3 ((R.eps • fun i => |w' * φ' i|) + fun _ => R.tiny) := by
      refine norm3_mono fun i => ?_
      have := R.err (φ' i * w')
      simp only [Pi.sub_apply, Pi.add_apply, Pi.smul_apply, smul_eq_mul]
      rw [mul_comm w']
      exact this
    have b2 : norm3 (fun i => |w' * φ' i|) = |w'| * norm3 φ' := by
      rw [← norm3_smul]
      unfold norm3
      simp only [sq_abs, Pi.smul_apply, smul_eq_mul]
    refine b1.trans ((norm3_add_le _ _).trans ?_)
    rw [norm3_smul, b2, abs_of_nonneg he]
    linarith [norm3_const ht]
  have a2 : norm3 (w' • (φ' - φ)) ≤ (1 + ω) * l := by
    rw [norm3_smul]
    exact mul_le_mul hw' hφ (norm3_nonneg _) (by linarith)
  have a3 : norm3 ((w' - w) • φ) ≤ ω * Φ := by
    rw [norm3_smul]
    exact mul_le_mul hw hΦ (norm3_nonneg _) hω
  have e : (fun i => R.mul (φ' i) w') - w • φ = ((fun i => R.mul (φ' i) w') - w' • φ') + (w' • (φ' - φ) + (w' - w) • φ) := by
    module
  rw [e]
  refine (norm3_add_le _ _).trans ?_
  have b := norm3_add_le (w' • (φ' - φ)) ((w' - w) • φ)
  have a4 : R.eps * (|w'| * norm3 φ') ≤ R.eps * ((1 + ω) * (Φ + l)) :=
    mul_le_mul_of_nonneg_left (mul_le_mul hw' hφ' (norm3_nonneg _) (by linarith)) he
  unfold scaleErr
  linarith

/-- The logarithm of the relative rotation of two quaternions is computed to within `l`, and it is not longer than `Φ`. -/
def LogNear (R : Rounding ℝ) (lg : ℍ[ℝ] → V3) (l Φ : ℝ) (x y : ℍ[ℝ]) : Prop :=
  norm3 ((F.group R).log x y - (quatGroup lg).log x y) ≤ l ∧ norm3 ((quatGroup lg).log x y) ≤ Φ

theorem step_near (lg : ℍ[ℝ] → V3) {w w' ω l Φ ρ E : ℝ} (h0 : 0 ≤ w) (h1 : w ≤ 1) (hw : |w' - w| ≤ ω) {a c p p' : ℍ[ℝ]}
    (hl : F.LogNear R lg l Φ a c) (hr : Φ + scaleErr R ω l Φ ≤ F.range) (hρ4 : 1 / 4 ≤ ρ) (hp : ‖p‖ = ρ) (hE : ‖p' - p‖ ≤ E) :
    ‖(if w' = 0 then p' else (F.toMfd R).exp p' ((F.toMfd R).scale ((F.toMfd R).log a c) w')) -
      (if w = 0 then p else ((quatGroup lg).toMfd (K := ℝ)).exp p
        (((quatGroup lg).toMfd (K := ℝ)).scale (((quatGroup lg).toMfd (K := ℝ)).log a c) w))‖ ≤ (ρ + E) * F.growth R ω l Φ - ρ := by
  obtain ⟨hφ, hΦ⟩ := hl
  set φ := (quatGroup lg).log a c with hφd
  set φ' := (F.group R).log a c with hφd'
  have hl0 : 0 ≤ l := (norm3_nonneg _).trans hφ
  have hΦ0 : 0 ≤ Φ := (norm3_nonneg _).trans hΦ
  have hω : 0 ≤ ω := (abs_nonneg _).trans hw
  have hμ := F.multErr_nonneg
  have hε := F.expErr_nonneg
  have hσ := scaleErr_nonneg (R := R) hω hl0 hΦ0
  have hρ : 0 ≤ ρ := hp ▸ norm_nonneg _
  have hE0 : 0 ≤ E := (norm_nonneg _).trans hE
  set δ := F.stepErr R ω l Φ with hδ
  have hδ0 : 0 ≤ δ := by rw [hδ]; unfold stepErr; linarith
  have hp' : ‖p'‖ ≤ ρ + E := by
    have := norm_add_le (p' - p) p
    rw [sub_add_cancel, hp] at this
    linarith
  have exact_step : (if w = 0 then p else ((quatGroup lg).toMfd (K := ℝ)).exp p
      (((quatGroup lg).toMfd (K := ℝ)).scale (((quatGroup lg).toMfd (K := ℝ)).log a c) w)) = qplus p (axisAngle2quat (w • φ)) := by
    split
    · rename_i h
      rw [h, zero_smul]
      have : axisAngle2quat 0 = 1 := by
        rw [axisAngle2quat_eq]
        have : quatV 0 = 0 := by ext <;> simp
        rw [this, NormedSpace.exp_zero]
      rw [this, qplus_eq, _root_.one_mul]
    · rfl
  rw [exact_step]
  have hg : (ρ + E) * F.growth R ω l Φ - ρ = (ρ + E) * (F.multErr * (1 + δ) + δ) + E := by
    unfold growth
    rw [← hδ]; ring
  rw [hg]
  have hne := norm_axisAngle2quat (w • φ)
  by_cases hz : w' = 0
  · rw [if_pos hz]
    have d0 : ‖axisAngle2quat (w • φ) - 1‖ ≤ δ := by
      have := axisAngle2quat_lipschitz (w • φ) 0
      have e1 : axisAngle2quat 0 = 1 := by
        rw [axisAngle2quat_eq]
        have : quatV 0 = 0 := by ext <;> simp
        rw [this, NormedSpace.exp_zero]
      rw [e1, sub_zero, norm3_smul] at this
      rw [hz, zero_sub, abs_neg] at hw
      have b : |w| * norm3 φ ≤ ω * Φ := mul_le_mul hw hΦ (norm3_nonneg _) hω
      have t0 := R.tiny_nonneg
      have e0 := R.eps_nonneg
      have b2 : 0 ≤ (1 + ω) * (R.eps * (Φ + l) + l) := by positivity
      have : ω * Φ ≤ scaleErr R ω l Φ := by unfold scaleErr; linarith
      rw [hδ]; unfold stepErr
      linarith
    have e : p' - qplus p (axisAngle2quat (w • φ)) = (p' - p) - (axisAngle2quat (w • φ) - 1) * p := by
      rw [qplus_eq]; noncomm_ring
    rw [e]
    refine (norm_sub_le _ _).trans ?_
    rw [norm_mul, hp]
    have b1 : ‖axisAngle2quat (w • φ) - 1‖ * ρ ≤ δ * ρ := mul_le_mul_of_nonneg_right d0 hρ
    have b2 : 0 ≤ (ρ + E) * (F.multErr * (1 + δ)) := by positivity
    nlinarith [mul_nonneg hE0 hδ0]
  · rw [if_neg hz]
    have e0 : (F.toMfd R).exp p' ((F.toMfd R).scale ((F.toMfd R).log a c) w') = F.mult p' (F.exp fun i => R.mul (φ' i) w') := rfl
    rw [e0]
    set v' : V3 := fun i => R.mul (φ' i) w' with hv'
    have hs : norm3 (v' - w • φ) ≤ scaleErr R ω l Φ := scaled_near h0 h1 hw hφ hΦ
    have hex : ‖F.exp v' - axisAngle2quat (w • φ)‖ ≤ δ := by
      have hv'n : norm3 v' ≤ F.range := by
        have := norm3_add_le (v' - w • φ) (w • φ)
        rw [sub_add_cancel, norm3_smul w φ, abs_of_nonneg h0] at this
        have : w * norm3 φ ≤ 1 * Φ := mul_le_mul h1 hΦ (norm3_nonneg _) zero_le_one
        linarith
      have b1 := F.exp_err v' hv'n
      have b2 := axisAngle2quat_lipschitz v' (w • φ)
      have b3 := norm_add_le (F.exp v' - axisAngle2quat v') (axisAngle2quat v' - axisAngle2quat (w • φ))
      rw [sub_add_sub_cancel] at b3
      rw [hδ]; unfold stepErr
      linarith
    have hen : ‖F.exp v'‖ ≤ 1 + δ := by
      have := norm_add_le (F.exp v' - axisAngle2quat (w • φ)) (axisAngle2quat (w • φ))
      rw [sub_add_cancel, hne] at this
      linarith
    have m := F.mult_err p' (F.exp v')
    have e : F.mult p' (F.exp v') - qplus p (axisAngle2quat (w • φ)) = (F.mult p' (F.exp v') - qplus p' (F.exp v')) +
        ((F.exp v' - axisAngle2quat (w • φ)) * p' + axisAngle2quat (w • φ) * (p' - p)) := by
      rw [qplus_eq, qplus_eq]; noncomm_ring
    rw [e]
    refine (norm_add_le _ _).trans ?_
    have b := norm_add_le ((F.exp v' - axisAngle2quat (w • φ)) * p') (axisAngle2quat (w • φ) * (p' - p))
    rw [norm_mul, norm_mul, hne, _root_.one_mul] at b
    have b1 : ‖F.exp v' - axisAngle2quat (w • φ)‖ * ‖p'‖ ≤ δ * (ρ + E) := mul_le_mul hex hp' (norm_nonneg _) hδ0
    have b2 : F.multErr * max (‖p'‖ * ‖F.exp v'‖) (1 / 4) ≤ F.multErr * ((ρ + E) * (1 + δ)) :=
      mul_le_mul_of_nonneg_left (max_le (mul_le_mul hp' hen (norm_nonneg _) (by linarith)) (by nlinarith)) hμ
    nlinarith

/-! ### The loop -/

theorem loop_near (lg : ℍ[ℝ] → V3) {ω l Φ ρ : ℝ} (w w' : ℕ → ℝ) (hr : Φ + scaleErr R ω l Φ ≤ F.range) (hρ4 : 1 / 4 ≤ ρ) :
    ∀ (cs : List ℍ[ℝ]) (i : ℕ) (a p p' : ℍ[ℝ]) (E : ℝ), (∀ j, i ≤ j → j < i + cs.length → (0 ≤ w j ∧ w j ≤ 1) ∧ |w' j - w j| ≤ ω) →
      (∀ j x y, (a :: cs)[j]? = some x → (a :: cs)[j + 1]? = some y → F.LogNear R lg l Φ x y) → ‖p‖ = ρ → ‖p' - p‖ ≤ E →
      ‖genericLoop (F.toMfd R) w' i a p' cs - genericLoop ((quatGroup lg).toMfd (K := ℝ)) w i a p cs‖ ≤
        (ρ + E) * F.growth R ω l Φ ^ cs.length - ρ
  | [], _, _, _, _, _, _, _, _, hE => by
    simp only [genericLoop, List.length_nil, pow_zero, mul_one]
    linarith
  | c :: cs, i, a, p, p', E, hw, hl, hp, hE => by
    unfold genericLoop
    obtain ⟨⟨h0, h1⟩, h2⟩ := hw i le_rfl (by simp)
    have st := F.step_near (R := R) lg h0 h1 h2 (hl 0 a c rfl rfl) hr hρ4 hp hE
    have hn : ‖(if w i = 0 then p else ((quatGroup lg).toMfd (K := ℝ)).exp p
        (((quatGroup lg).toMfd (K := ℝ)).scale (((quatGroup lg).toMfd (K := ℝ)).log a c) (w i)))‖ = ρ := by
      have := genericLoop_norm lg w [c] i a p
      unfold genericLoop at this
      rw [hp] at this
      exact this
    have := loop_near lg w w' hr hρ4 cs (i + 1) c _ _ _ (fun j h3 h4 => hw j (by omega) (by simp; omega))
      (fun j x y h3 h4 => hl (j + 1) x y h3 h4) hn st
    refine this.trans (le_of_eq ?_)
    rw [List.length_cons, pow_succ]
    ring

/-- The bound of the error of a cumulative weight, `C107_weights`. -/
noncomputable def weightErr (order : ℕ) : ℝ := (Rounding.grow ^ Rounding.operations order - 1) * 4 ^ (order - 1)

/-- **C107**: values of a quaternion spline.  The quaternion that the evaluator returns in floating point differs from the exact one by at most
`growth ^ (order - 1) - 1`, relative to the norm of the first control vertex in use. -/
theorem C107_quaternion (S : Rounding.Summation R) (P : Rounding.Power R) (lg : ℍ[ℝ] → V3) (M : Mfd ℝ ℍ[ℝ] V3) {s : MSpline ℝ ℍ[ℝ]} {order : ℕ}
    (ho : 2 ≤ order) (h : RegularReach M order s) (he : s.state = .evaluable) (hf : R.FloatKeys s) {t : ℝ} (ht : R.IsFloat t) {i : ℕ}
    (hi : s.InSeg t i) {l Φ : ℝ} (hr : Φ + scaleErr R (weightErr order) l Φ ≤ F.range)
    (hu : ∀ c, s.verts[i + 1 - order]? = some c → 1 / 4 ≤ ‖c‖)
    (hl : ∀ j x y, i + 1 ≤ j + order → j + 1 ≤ i → s.verts[j]? = some x → s.verts[j + 1]? = some y → F.LogNear R lg l Φ x y) :
    ∃ q q' c, s.quatEvalD lg t 0 = .ok q ∧ F.eval S P (Rounding.withFloatBasis S s) t = .ok q' ∧ s.verts[i + 1 - order]? = some c ∧
      ‖q‖ = ‖c‖ ∧ ‖q' - q‖ ≤ ‖c‖ * (F.growth R (weightErr order) l Φ ^ (order - 1) - 1) := by
  obtain ⟨e, e', w, w', h1, h2, h3, h4, h5, h6⟩ := Rounding.C107_weights S P M ho h he hf ht hi
  obtain ⟨hm, hord⟩ := h.mwf (by omega)
  subst hord
  have hlo := hi.lower
  have hup := hi.upper
  rw [MSpline.keys_length] at hup
  have hv : i + 1 - s.order < s.verts.length := by simp [MSpline.verts]; omega
  have hlist : (s.verts.drop (i + 1 - s.order)).take s.order = s.verts[i + 1 - s.order] :: (s.verts.drop (i + 1 - s.order + 1)).take (s.order - 1) := by
    rw [← List.cons_getElem_drop_succ (h := hv), List.take_cons (by omega)]
  have hlen : ((s.verts.drop (i + 1 - s.order + 1)).take (s.order - 1)).length = s.order - 1 := by
    simp [MSpline.verts]; omega
  have e1 : e.firstIt = s.keys[i + 1 - s.order]? := by
    rw [MSpline.evaluatorAt_eq hm he hi, Outcome.ok.injEq] at h1
    rw [← h1]; rfl
  have hex : s.quatEvalD lg t 0 = .ok (genericLoop ((quatGroup lg).toMfd (K := ℝ)) w 1 s.verts[i + 1 - s.order] s.verts[i + 1 - s.order]
      ((s.verts.drop (i + 1 - s.order + 1)).take (s.order - 1))) := by
    unfold MSpline.quatEvalD
    rw [if_pos rfl]
    unfold MSpline.evalGeneric
    rw [h1, Outcome.bind_ok, h2, Outcome.bind_ok, e1, MSpline.readVertices_eq hm _ _ (by omega), Outcome.bind_ok, hlist]
  have hfl : F.eval S P (Rounding.withFloatBasis S s) t = .ok (genericLoop (F.toMfd R) w' 1 s.verts[i + 1 - s.order] s.verts[i + 1 - s.order]
      ((s.verts.drop (i + 1 - s.order + 1)).take (s.order - 1))) := by
    unfold QuatFloat.eval Rounding.evalGeneric
    rw [h3, Outcome.bind_ok, h5, Outcome.bind_ok, h4, e1, show (Rounding.withFloatBasis S s).order = s.order from rfl,
      Rounding.readVertices_float S hm _ _ (by omega), Outcome.bind_ok, hlist]
  refine ⟨_, _, s.verts[i + 1 - s.order], hex, hfl, List.getElem?_eq_getElem hv, genericLoop_norm lg w _ _ _ _, ?_⟩
  have := F.loop_near (R := R) lg (ω := weightErr s.order) (l := l) (Φ := Φ) (ρ := ‖s.verts[i + 1 - s.order]‖) w w' hr
    (hu _ (List.getElem?_eq_getElem hv))
    ((s.verts.drop (i + 1 - s.order + 1)).take (s.order - 1)) 1 s.verts[i + 1 - s.order] s.verts[i + 1 - s.order] s.verts[i + 1 - s.order] 0
    (fun j a b => ⟨(h6 j (by rw [hlen] at b; omega)).1, (h6 j (by rw [hlen] at b; omega)).2.2⟩)
    (fun j x y a b => by
      rw [← hlist] at a b
      rw [List.getElem?_take, List.getElem?_drop] at a b
      have hj : j + 1 < s.order := by
        by_contra hc
        rw [if_neg hc] at b
        cases b
      rw [if_pos (by omega)] at a
      rw [if_pos hj] at b
      exact hl (i + 1 - s.order + j) x y (by omega) (by omega) a b)
    rfl (by simp)
  rw [hlen] at this
  refine this.trans (le_of_eq ?_)
  ring

theorem tiny_small (R : Rounding ℝ) : R.tiny ≤ 1 / 10 ^ 30 := by
  refine R.tiny_le.trans ?_
  refine one_div_le_one_div_of_le (by positivity) ?_
  calc (10 : ℝ) ^ 30 ≤ 2 ^ 100 := by norm_num
    _ ≤ 2 ^ 1075 := pow_le_pow_right₀ (by norm_num) (by norm_num)

theorem eps_small (R : Rounding ℝ) : R.eps ≤ 1 / 10 ^ 15 := R.eps_le.trans (by norm_num)

/-- The test of `isInManifold` in floating point. -/
theorem isIn_near {q : ℍ[ℝ]} (hn : F.normErr ≤ 1 / 10 ^ 12) (hq : |‖q‖ - 1| ≤ 1 / 10 ^ 9 / 2) : (F.group R).isIn q = true := by
  show decide (|R.sub (F.norm q) 1| < R.rnd (1 / 10 ^ 9)) = true
  rw [decide_eq_true_eq]
  have e1 := F.norm_err q
  have t1 := tiny_small R
  have t2 := eps_small R
  have e0 := R.eps_nonneg
  have hb : ‖q‖ ≤ 2 := by have := (abs_le.1 hq).2; norm_num at this; linarith
  have e2 : F.normErr * max ‖q‖ (1 / 4) ≤ 1 / 10 ^ 12 * 2 :=
    mul_le_mul hn (max_le hb (by norm_num)) (le_max_of_le_left (norm_nonneg _)) (by positivity)
  have e3 : |F.norm q - 1| ≤ 6 / 10 ^ 10 := by
    have := abs_add_le (F.norm q - ‖q‖) (‖q‖ - 1)
    rw [sub_add_sub_cancel] at this
    norm_num at *
    linarith
  have e4 := R.err (F.norm q - 1)
  have e5 : R.eps * |F.norm q - 1| ≤ 1 / 10 ^ 15 * (6 / 10 ^ 10) := mul_le_mul t2 e3 (abs_nonneg _) (by positivity)
  have e6 : |R.sub (F.norm q) 1| ≤ 7 / 10 ^ 10 := by
    have := abs_add_le (R.sub (F.norm q) 1 - (F.norm q - 1)) (F.norm q - 1)
    rw [sub_add_cancel] at this
    have e4' : |R.sub (F.norm q) 1 - (F.norm q - 1)| ≤ R.eps * |F.norm q - 1| + R.tiny := e4
    norm_num at *
    linarith
  have e7 := R.err (1 / 10 ^ 9)
  have e8 : R.eps * |(1 : ℝ) / 10 ^ 9| ≤ 1 / 10 ^ 15 * (1 / 10 ^ 9) := by
    rw [abs_of_pos (by positivity)]
    exact mul_le_mul_of_nonneg_right t2 (by positivity)
  have e9 := (abs_le.1 e7).1
  norm_num at *
  linarith

/-- **C107**: values of a cubic quaternion spline.  If products, exponentials and logarithms are accurate to a few units in the last place and the
first control vertex in use is close to a unit quaternion, then the quaternion returned is exact to within `3 10 ^ -11` and passes the test of
`isInManifold`. -/
theorem C107_quaternion_cubic (S : Rounding.Summation R) (P : Rounding.Power R) (lg : ℍ[ℝ] → V3) (M : Mfd ℝ ℍ[ℝ] V3) {s : MSpline ℝ ℍ[ℝ]}
    (h : RegularReach M 4 s) (he : s.state = .evaluable) (hf : R.FloatKeys s) {t : ℝ} (ht : R.IsFloat t) {i : ℕ} (hi : s.InSeg t i)
    (hm : F.multErr ≤ 1 / 10 ^ 14) (hx : F.expErr ≤ 1 / 10 ^ 14) (hn : F.normErr ≤ 1 / 10 ^ 14) (hr : 8 ≤ F.range)
    (hu : ∀ c, s.verts[i - 3]? = some c → |‖c‖ - 1| ≤ 1 / 10 ^ 10)
    (hl : ∀ j x y, i ≤ j + 3 → j + 1 ≤ i → s.verts[j]? = some x → s.verts[j + 1]? = some y → F.LogNear R lg (1 / 10 ^ 13) 7 x y) :
    ∃ q q', s.quatEvalD lg t 0 = .ok q ∧ F.eval S P (Rounding.withFloatBasis S s) t = .ok q' ∧ ‖q' - q‖ ≤ 3 / 10 ^ 11 ∧
      (F.group R).isIn q' = true := by
  have hm0 := F.multErr_nonneg
  have hx0 := F.expErr_nonneg
  have t1 := tiny_small R
  have t2 := eps_small R
  have t10 := R.tiny_nonneg
  have t20 := R.eps_nonneg
  have hw : weightErr 4 ≤ 1 / 10 ^ 12 := by unfold weightErr Rounding.operations Rounding.grow; norm_num
  have hw0 : 0 ≤ weightErr 4 := by
    have := Rounding.one_le_grow_pow (K := ℝ) (Rounding.operations 4)
    exact mul_nonneg (by linarith) (by positivity)
  set ω := weightErr 4
  have hs : scaleErr R ω (1 / 10 ^ 13) 7 ≤ 8 / 10 ^ 12 := by
    unfold scaleErr
    have a1 : R.eps * (7 + 1 / 10 ^ 13) ≤ 1 / 10 ^ 15 * 8 := mul_le_mul t2 (by norm_num) (by positivity) (by positivity)
    have a2 : (1 + ω) * (R.eps * (7 + 1 / 10 ^ 13) + 1 / 10 ^ 13) ≤ 2 * (1 / 10 ^ 15 * 8 + 1 / 10 ^ 13) :=
      mul_le_mul (by norm_num at hw ⊢; linarith) (by linarith) (by positivity) (by norm_num)
    norm_num at *
    linarith
  obtain ⟨q, q', c, e1, e2, e3, e4, e5⟩ := F.C107_quaternion S P lg M (by omega) h he hf ht hi (l := 1 / 10 ^ 13) (Φ := 7)
    (by norm_num at *; linarith) (fun c hc => by
      have := abs_le.1 (hu c (by rw [show i - 3 = i + 1 - 4 by omega]; exact hc))
      norm_num at *
      linarith)
    fun j x y a b => hl j x y (by omega) b
  have hc := hu c (by rw [show i - 3 = i + 1 - 4 by omega]; exact e3)
  have hs0 := scaleErr_nonneg (R := R) hw0 (show (0 : ℝ) ≤ 1 / 10 ^ 13 by positivity) (show (0 : ℝ) ≤ 7 by norm_num)
  have hd : F.stepErr R ω (1 / 10 ^ 13) 7 ≤ 5 / 10 ^ 12 := by
    unfold stepErr
    norm_num at *
    linarith
  have hd0 : 0 ≤ F.stepErr R ω (1 / 10 ^ 13) 7 := by unfold stepErr; linarith
  have hg : F.growth R ω (1 / 10 ^ 13) 7 ≤ 1 + 6 / 10 ^ 12 := by
    unfold growth
    have : (1 + F.multErr) * (1 + F.stepErr R ω (1 / 10 ^ 13) 7) ≤ (1 + 1 / 10 ^ 14) * (1 + 5 / 10 ^ 12) :=
      mul_le_mul (by linarith) (by linarith) (by linarith) (by positivity)
    norm_num at *
    linarith
  have hg0 : 0 ≤ F.growth R ω (1 / 10 ^ 13) 7 := by unfold growth; positivity
  have hg1 : F.growth R ω (1 / 10 ^ 13) 7 ^ 3 ≤ (1 + 6 / 10 ^ 12) ^ 3 := pow_le_pow_left₀ hg0 hg 3
  have hcn : ‖c‖ ≤ 1 + 1 / 10 ^ 10 := by linarith [(abs_le.1 hc).2]
  have key : ‖q' - q‖ ≤ 3 / 10 ^ 11 := by
    refine e5.trans ?_
    have a1 : F.growth R ω (1 / 10 ^ 13) 7 ^ (4 - 1) - 1 ≤ 2 / 10 ^ 11 := by
      norm_num at *
      linarith
    have a2 : ‖c‖ * (F.growth R ω (1 / 10 ^ 13) 7 ^ (4 - 1) - 1) ≤ ‖c‖ * (2 / 10 ^ 11) := mul_le_mul_of_nonneg_left a1 (norm_nonneg _)
    have a3 : ‖c‖ * (2 / 10 ^ 11) ≤ (1 + 1 / 10 ^ 10) * (2 / 10 ^ 11) := mul_le_mul_of_nonneg_right hcn (by positivity)
    norm_num at *
    linarith
  refine ⟨q, q', e1, e2, key, F.isIn_near (hn.trans (by norm_num)) ?_⟩
  have a1 := abs_norm_sub_norm_le q' q
  rw [e4] at a1
  have a2 := abs_add_le (‖q'‖ - ‖c‖) (‖c‖ - 1)
  rw [sub_add_sub_cancel] at a2
  norm_num at *
  linarith

/-! ### Updates -/

/-- How far a quaternion is from a unit quaternion after `projectIntoManifold`. -/
def unitErr (R : Rounding ℝ) : ℝ := 2 * F.normErr + 2 * R.eps + 2 * R.tiny

theorem normErr_nonneg : 0 ≤ F.normErr := by
  have := (abs_nonneg _).trans (F.norm_err 1)
  rw [norm_one, max_eq_left (by norm_num), mul_one] at this
  exact this

theorem norm_le_of_parts {x y : ℍ[ℝ]} {e c : ℝ} (he : 0 ≤ e) (hc : 0 ≤ c) (h1 : |x.re| ≤ e * |y.re| + c) (h2 : |x.imI| ≤ e * |y.imI| + c)
    (h3 : |x.imJ| ≤ e * |y.imJ| + c) (h4 : |x.imK| ≤ e * |y.imK| + c) : ‖x‖ ≤ e * ‖y‖ + 2 * c := by
  set z : ℍ[ℝ] := ⟨e * |y.re| + c, e * |y.imI| + c, e * |y.imJ| + c, e * |y.imK| + c⟩ with hz
  have nsq : ∀ q : ℍ[ℝ], ‖q‖ ^ 2 = q.re ^ 2 + q.imI ^ 2 + q.imJ ^ 2 + q.imK ^ 2 := by
    intro q
    rw [sq, ← Quaternion.normSq_eq_norm_mul_self, Quaternion.normSq_def']
  have b1 : ‖x‖ ≤ ‖z‖ := by
    refine le_of_sq_le_sq ?_ (norm_nonneg _)
    rw [nsq, nsq, hz]
    have p : ∀ {a b : ℝ}, |a| ≤ b → a ^ 2 ≤ b ^ 2 := fun {a b} h => by
      rw [← sq_abs a]
      exact pow_le_pow_left₀ (abs_nonneg _) h 2
    have := p h1
    have := p h2
    have := p h3
    have := p h4
    simp only
    linarith
  set a : ℍ[ℝ] := ⟨|y.re|, |y.imI|, |y.imJ|, |y.imK|⟩ with ha
  set o : ℍ[ℝ] := ⟨c, c, c, c⟩ with ho
  have ea : ‖a‖ = ‖y‖ := by
    refine (sq_eq_sq₀ (norm_nonneg _) (norm_nonneg _)).1 ?_
    rw [nsq, nsq, ha]
    simp only [sq_abs]
  have eo : ‖o‖ = 2 * c := by
    refine (sq_eq_sq₀ (norm_nonneg _) (by positivity)).1 ?_
    rw [nsq, ho]
    simp only
    ring
  have ez : z = e • a + o := by
    ext <;> rfl
  rw [ez] at b1
  refine b1.trans ((norm_add_le _ _).trans ?_)
  rw [norm_smul, ea, eo, Real.norm_eq_abs, abs_of_nonneg he]

/-- `projectIntoManifold` in floating point is close to the exact normalisation. -/
theorem project_near (hn : F.normErr ≤ 1 / 2) {q : ℍ[ℝ]} (hq : 1 / 4 ≤ ‖q‖) : ‖(F.group R).project q - (‖q‖)⁻¹ • q‖ ≤ F.unitErr R := by
  have hp : 0 < ‖q‖ := by linarith
  have h0 := F.normErr_nonneg
  have e1' := F.norm_err q
  rw [max_eq_left hq] at e1'
  have e1 := abs_le.1 e1'
  have t0 := R.tiny_nonneg
  have e0 := R.eps_nonneg
  set n := F.norm q with hnd
  set ν := F.normErr
  have hlow : ‖q‖ / 2 ≤ n := by nlinarith
  have hnp : 0 < n := by linarith
  have hr : |n⁻¹ * ‖q‖ - 1| ≤ 2 * ν := by
    have : n⁻¹ * ‖q‖ - 1 = (‖q‖ - n) / n := by field_simp
    rw [this, abs_div, abs_of_pos hnp, div_le_iff₀ hnp, abs_sub_comm]
    nlinarith
  have a1 : ‖(F.group R).project q - n⁻¹ • q‖ ≤ R.eps * ‖n⁻¹ • q‖ + 2 * R.tiny := by
    have part : ∀ x : ℝ, |R.div x n - n⁻¹ * x| ≤ R.eps * |n⁻¹ * x| + R.tiny := by
      intro x
      have := R.err (x / n)
      rw [div_eq_inv_mul] at this
      unfold Rounding.div
      rw [div_eq_inv_mul]
      exact this
    exact norm_le_of_parts e0 t0 (part q.re) (part q.imI) (part q.imJ) (part q.imK)
  have a2 : ‖n⁻¹ • q - (‖q‖)⁻¹ • q‖ ≤ 2 * ν := by
    rw [← sub_smul, norm_smul, Real.norm_eq_abs]
    have : |n⁻¹ - (‖q‖)⁻¹| * ‖q‖ = |n⁻¹ * ‖q‖ - 1| := by
      rw [← abs_of_pos hp, ← abs_mul, abs_of_pos hp, sub_mul, inv_mul_cancel₀ hp.ne']
    rw [this]
    exact hr
  have a3 : ‖n⁻¹ • q‖ ≤ 2 := by
    rw [norm_smul, Real.norm_eq_abs, abs_of_pos (inv_pos.2 hnp)]
    have := (abs_le.1 hr).2
    linarith
  have a4 : R.eps * ‖n⁻¹ • q‖ ≤ R.eps * 2 := mul_le_mul_of_nonneg_left a3 e0
  have := norm_add_le ((F.group R).project q - n⁻¹ • q) (n⁻¹ • q - (‖q‖)⁻¹ • q)
  rw [sub_add_sub_cancel] at this
  unfold unitErr
  linarith

/-- The quaternion before it is projected: its norm is about that of the old one. -/
theorem mult_near {v : V3} (hv : norm3 v ≤ F.range) {p : ℍ[ℝ]} (hp : 1 / 4 ≤ ‖p‖) :
    ‖F.mult (F.exp v) p - qplus (axisAngle2quat v) p‖ ≤ (F.multErr * (1 + F.expErr) + F.expErr) * ‖p‖ := by
  have hx := F.exp_err v hv
  have hε := F.expErr_nonneg
  have hm := F.mult_err (F.exp v) p
  have hne := norm_axisAngle2quat v
  have hen : ‖F.exp v‖ ≤ 1 + F.expErr := by
    have := norm_add_le (F.exp v - axisAngle2quat v) (axisAngle2quat v)
    rw [sub_add_cancel, hne] at this
    linarith
  have e : F.mult (F.exp v) p - qplus (axisAngle2quat v) p = (F.mult (F.exp v) p - qplus (F.exp v) p) + p * (F.exp v - axisAngle2quat v) := by
    rw [qplus_eq, qplus_eq]; noncomm_ring
  rw [e]
  refine (norm_add_le _ _).trans ?_
  rw [norm_mul]
  have b1 : ‖p‖ * ‖F.exp v - axisAngle2quat v‖ ≤ ‖p‖ * F.expErr := mul_le_mul_of_nonneg_left hx (norm_nonneg _)
  have b2 : F.multErr * max (‖F.exp v‖ * ‖p‖) (1 / 4) ≤ F.multErr * ((1 + F.expErr) * ‖p‖) :=
    mul_le_mul_of_nonneg_left (max_le (mul_le_mul_of_nonneg_right hen (norm_nonneg _)) (by nlinarith)) F.multErr_nonneg
  linarith

/-- The arithmetic is good enough: relative errors are at most one half. -/
structure Usable : Prop where
  norm : F.normErr ≤ 1 / 2
  step : F.multErr * (1 + F.expErr) + F.expErr ≤ 1 / 2
  unit : F.unitErr R ≤ 1 / 2

theorem mult_norm (h : F.Usable (R := R)) {v : V3} (hv : norm3 v ≤ F.range) {p : ℍ[ℝ]} (hp : 1 / 2 ≤ ‖p‖) : 1 / 4 ≤ ‖F.mult (F.exp v) p‖ := by
  have a1 := F.mult_near hv (p := p) (by linarith)
  have a2 := abs_norm_sub_norm_le (F.mult (F.exp v) p) (qplus (axisAngle2quat v) p)
  rw [qplus_eq, norm_mul, norm_axisAngle2quat, mul_one, ← qplus_eq] at a2
  have a3 := (abs_le.1 (a2.trans a1)).1
  nlinarith [h.step]

/-- One update makes a unit quaternion up to `unitErr`. -/
theorem update_near (h : F.Usable (R := R)) {v : V3} (hv : norm3 v ≤ F.range) {p : ℍ[ℝ]} (hp : 1 / 2 ≤ ‖p‖) :
    |‖(F.group R).update p v‖ - 1| ≤ F.unitErr R := by
  have hq := F.mult_norm h hv hp
  have hn : 0 < ‖F.mult (F.exp v) p‖ := by linarith
  have := F.project_near (R := R) h.norm hq
  have e : ‖(‖F.mult (F.exp v) p‖)⁻¹ • F.mult (F.exp v) p‖ = 1 := by
    rw [norm_smul, Real.norm_eq_abs, abs_of_pos (inv_pos.2 hn), inv_mul_cancel₀ hn.ne']
  have a := abs_norm_sub_norm_le ((F.group R).project (F.mult (F.exp v) p)) ((‖F.mult (F.exp v) p‖)⁻¹ • F.mult (F.exp v) p)
  rw [e] at a
  exact a.trans this

theorem half_le_of_near (h : F.Usable (R := R)) {p : ℍ[ℝ]} (hp : |‖p‖ - 1| ≤ F.unitErr R) : 1 / 2 ≤ ‖p‖ := by
  have := (abs_le.1 hp).1
  linarith [h.unit]

/-- **C107**: updates.  However many updates a control vertex has had, it is a unit quaternion up to the error of one projection: the errors of the
norm do not add up. -/
theorem C107_update (h : F.Usable (R := R)) {p : ℍ[ℝ]} (hp : 1 / 2 ≤ ‖p‖) (vs : List V3) (hvs : vs ≠ []) (hv : ∀ v ∈ vs, norm3 v ≤ F.range) :
    |‖vs.foldl (F.group R).update p‖ - 1| ≤ F.unitErr R := by
  induction vs generalizing p with
  | nil => exact absurd rfl hvs
  | cons v vs ih =>
    have h1 := F.update_near h (hv v (by simp)) hp
    rcases vs with _ | ⟨u, us⟩
    · exact h1
    · exact ih (F.half_le_of_near h h1) (by simp) fun x hx => hv x (List.mem_cons_of_mem _ hx)

/-- **C107**: a control vertex passes the test of `isInManifold` after any number of updates. -/
theorem C107_update_isIn (hm : F.multErr ≤ 1 / 10 ^ 14) (hx : F.expErr ≤ 1 / 10 ^ 14) (hn : F.normErr ≤ 1 / 10 ^ 14) {p : ℍ[ℝ]}
    (hp : 1 / 2 ≤ ‖p‖) (vs : List V3) (hvs : vs ≠ []) (hv : ∀ v ∈ vs, norm3 v ≤ F.range) : (F.group R).isIn (vs.foldl (F.group R).update p) = true := by
  have t1 := tiny_small R
  have t2 := eps_small R
  have hu : F.unitErr R ≤ 1 / 10 ^ 13 := by
    unfold unitErr
    norm_num at *
    linarith
  have hus : F.Usable (R := R) := by
    refine ⟨by norm_num at *; linarith, ?_, by norm_num at *; linarith⟩
    have a0 := F.expErr_nonneg
    have a1 : F.multErr * (1 + F.expErr) ≤ 1 / 10 ^ 14 * 2 := mul_le_mul hm (by norm_num at *; linarith) (by linarith) (by positivity)
    norm_num at *
    linarith
  refine F.isIn_near (hn.trans (by norm_num)) ((F.C107_update hus hp vs hvs hv).trans ?_)
  norm_num at *
  linarith

/-- What one update adds to the distance from the exact rotation. -/
def driftErr (R : Rounding ℝ) : ℝ := 2 * (F.multErr * (1 + F.expErr) + F.expErr) * (1 + F.unitErr R) + 2 * F.unitErr R

/-- **C107**: the distance from the exactly updated rotation grows at most linearly with the number of updates. -/
theorem C107_drift (lg : ℍ[ℝ] → V3) (h : F.Usable (R := R)) (vs : List V3) {p p' : ℍ[ℝ]} {E : ℝ} (hp : ‖p‖ = 1) (hp' : |‖p'‖ - 1| ≤ F.unitErr R)
    (hE : ‖p' - p‖ ≤ E) (hv : ∀ v ∈ vs, norm3 v ≤ F.range) :
    ‖vs.foldl (quatGroup lg).update p‖ = 1 ∧
      ‖vs.foldl (F.group R).update p' - vs.foldl (quatGroup lg).update p‖ ≤ E + vs.length * F.driftErr R := by
  induction vs generalizing p p' E with
  | nil => exact ⟨hp, by simpa using hE⟩
  | cons v vs ih =>
    have hne' := F.half_le_of_near h hp'
    have hv0 := hv v (by simp)
    have eq1 : (quatGroup lg).update p v = qplus (axisAngle2quat v) p := by
      show (‖qplus (axisAngle2quat v) p‖)⁻¹ • qplus (axisAngle2quat v) p = _
      rw [qplus_eq, norm_mul, norm_axisAngle2quat, mul_one, hp, inv_one, one_smul]
    have n1 : ‖(quatGroup lg).update p v‖ = 1 := by rw [eq1, qplus_eq, norm_mul, norm_axisAngle2quat, mul_one, hp]
    have b1 := F.mult_near hv0 (p := p') (by linarith)
    have κ0 : 0 ≤ F.multErr * (1 + F.expErr) + F.expErr := by
      have := F.multErr_nonneg
      have := F.expErr_nonneg
      positivity
    have b1' : ‖F.mult (F.exp v) p' - qplus (axisAngle2quat v) p'‖ ≤ (F.multErr * (1 + F.expErr) + F.expErr) * (1 + F.unitErr R) :=
      b1.trans (mul_le_mul_of_nonneg_left (by linarith [(abs_le.1 hp').2]) κ0)
    set κ := (F.multErr * (1 + F.expErr) + F.expErr) * (1 + F.unitErr R) with hκ
    have hq := F.mult_norm h hv0 hne'
    have b2 := F.project_near (R := R) h.norm hq
    set q' := F.mult (F.exp v) p' with hq'
    have hn : 0 < ‖q'‖ := by linarith
    have b3 : |‖q'‖ - 1| ≤ κ + F.unitErr R := by
      have a1 := abs_norm_sub_norm_le q' (qplus (axisAngle2quat v) p')
      have a2 : ‖qplus (axisAngle2quat v) p'‖ = ‖p'‖ := by rw [qplus_eq, norm_mul, norm_axisAngle2quat, mul_one]
      rw [a2] at a1
      have a3 := abs_add_le (‖q'‖ - ‖p'‖) (‖p'‖ - 1)
      rw [sub_add_sub_cancel] at a3
      linarith
    have b4 : ‖(‖q'‖)⁻¹ • q' - q'‖ ≤ κ + F.unitErr R := by
      have a1 : (‖q'‖)⁻¹ • q' - q' = ((‖q'‖)⁻¹ - 1) • q' := by rw [sub_smul, one_smul]
      have a2 : |(‖q'‖)⁻¹ - 1| * ‖q'‖ = |‖q'‖ - 1| := by
        rw [← abs_of_pos hn, ← abs_mul, abs_of_pos hn, sub_mul, inv_mul_cancel₀ hn.ne', _root_.one_mul, abs_sub_comm]
      rw [a1, norm_smul, Real.norm_eq_abs, a2]
      exact b3
    have b5 : ‖qplus (axisAngle2quat v) p' - qplus (axisAngle2quat v) p‖ ≤ E := by
      rw [qplus_eq, qplus_eq, ← sub_mul, norm_mul, norm_axisAngle2quat, mul_one]
      exact hE
    have st : ‖(F.group R).update p' v - (quatGroup lg).update p v‖ ≤ E + F.driftErr R := by
      rw [eq1]
      have e : (F.group R).update p' v - qplus (axisAngle2quat v) p = ((F.group R).project q' - (‖q'‖)⁻¹ • q') + (((‖q'‖)⁻¹ • q' - q') +
          ((q' - qplus (axisAngle2quat v) p') + (qplus (axisAngle2quat v) p' - qplus (axisAngle2quat v) p))) := by
        have : (F.group R).update p' v = (F.group R).project q' := rfl
        rw [this]
        abel
      rw [e]
      have c1 := norm_add_le ((F.group R).project q' - (‖q'‖)⁻¹ • q') (((‖q'‖)⁻¹ • q' - q') +
          ((q' - qplus (axisAngle2quat v) p') + (qplus (axisAngle2quat v) p' - qplus (axisAngle2quat v) p)))
      have c2 := norm_add_le ((‖q'‖)⁻¹ • q' - q') ((q' - qplus (axisAngle2quat v) p') + (qplus (axisAngle2quat v) p' - qplus (axisAngle2quat v) p))
      have c3 := norm_add_le (q' - qplus (axisAngle2quat v) p') (qplus (axisAngle2quat v) p' - qplus (axisAngle2quat v) p)
      unfold driftErr
      rw [hκ] at *
      linarith
    obtain ⟨r1, r2⟩ := ih n1 (F.update_near h hv0 hne') st fun x hx => hv x (List.mem_cons_of_mem _ hx)
    refine ⟨r1, r2.trans (le_of_eq ?_)⟩
    rw [List.length_cons]
    push_cast
    ring

end QuatFloat

end Verif
