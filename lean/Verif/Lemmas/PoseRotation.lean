import Verif.Props.Pose
import Mathlib.LinearAlgebra.Matrix.Adjugate
import Mathlib.Tactic.LinearCombination
import Mathlib.Analysis.Calculus.Deriv.Inv
import Mathlib.Tactic.FieldSimp

/-!
# Rotations: specification of a parametrisation and its differential, and a concrete one
-/

set_option linter.unusedSectionVars false

namespace Verif

open Matrix

namespace Pose

section Algebra
variable {K : Type*} [Field K]

/-- Specification: a proper rotation matrix. -/
def Proper (R : Matrix (Fin 3) (Fin 3) K) : Prop := Orthogonal R ∧ R.det = 1

theorem Proper.cofactor {R : Matrix (Fin 3) (Fin 3) K} (h : Proper R) : R.adjugate = Rᵀ := by
  have h1 : R * R.adjugate = 1 := by rw [Matrix.mul_adjugate, h.2, one_smul]
  calc R.adjugate = (Rᵀ * R) * R.adjugate := by rw [h.1.2, Matrix.one_mul]
    _ = Rᵀ := by rw [Matrix.mul_assoc, h1, Matrix.mul_one]

theorem cross_conj {R : Matrix (Fin 3) (Fin 3) K} (h : Proper R) (v : Fin 3 → K) :
    crossMx (R.mulVec v) = R * crossMx v * Rᵀ := by
  have hc := h.cofactor
  rw [Matrix.adjugate_fin_three] at hc
  have e : ∀ i j, R j i = _ := fun i j => (congrFun (congrFun hc i) j).symm
  have e00 := e 0 0
  have e01 := e 0 1
  have e02 := e 0 2
  have e10 := e 1 0
  have e11 := e 1 1
  have e12 := e 1 2
  have e20 := e 2 0
  have e21 := e 2 1
  have e22 := e 2 2
  simp at e00 e01 e02 e10 e11 e12 e20 e21 e22
  ext i j
  fin_cases i <;> fin_cases j <;>
    simp [crossMx, Matrix.mul_apply, Fin.sum_univ_three, Matrix.mulVec, dotProduct]
  · ring
  · linear_combination (-v 0) * e02 - v 1 * e12 - v 2 * e22
  · linear_combination v 0 * e01 + v 1 * e11 + v 2 * e21
  · linear_combination v 0 * e02 + v 1 * e12 + v 2 * e22
  · ring
  · linear_combination (-v 0) * e00 - v 1 * e10 - v 2 * e20
  · linear_combination (-v 0) * e01 - v 1 * e11 - v 2 * e21
  · linear_combination v 0 * e00 + v 1 * e10 + v 2 * e20
  · ring

theorem Proper.transpose {R : Matrix (Fin 3) (Fin 3) K} (h : Proper R) : Proper Rᵀ :=
  ⟨⟨by rw [Matrix.transpose_transpose]; exact h.1.2, by rw [Matrix.transpose_transpose]; exact h.1.1⟩,
    by rw [Matrix.det_transpose, h.2]⟩

theorem cross_mulVec_swap (a b : Fin 3 → K) : (crossMx a).mulVec b = -((crossMx b).mulVec a) := by
  ext i
  fin_cases i <;> simp [crossMx, Matrix.mulVec, dotProduct, Fin.sum_univ_three] <;> ring

theorem crossMx_neg (a : Fin 3 → K) : crossMx (-a) = -crossMx a := by
  ext i j
  fin_cases i <;> fin_cases j <;> simp [crossMx]

/-- The Rodrigues parametrisation (`sm::kinematics::EulerRodriguez` up to sign conventions): a rational parametrisation of the
rotations.  Used only as a witness that the assumptions on parametrisations can be met. -/
def rodrigues (K : Type*) [Field K] : Rotation K where
  toMatrix p := (1 / (1 + p ⬝ᵥ p)) • ((1 - p ⬝ᵥ p) • (1 : Matrix (Fin 3) (Fin 3) K) + (2 : K) • Matrix.vecMulVec p p - (2 : K) • crossMx p)
  sMatrix p := (2 / (1 + p ⬝ᵥ p)) • (1 - crossMx p)
  ofMatrix R := fun i => (1 / (1 + R 0 0 + R 1 1 + R 2 2)) * ![R 1 2 - R 2 1, R 2 0 - R 0 2, R 0 1 - R 1 0] i
  rate p v := ((2 / (1 + p ⬝ᵥ p)) • (1 - crossMx p)).mulVec v
  rateJacobian p v := fun i j =>
    if h : j.1 < 3 then
      (2 / (1 + p ⬝ᵥ p)) * crossMx v i ⟨j, h⟩
        - (2 * (2 * p ⟨j, h⟩) / (1 + p ⬝ᵥ p) ^ 2) * ((1 - crossMx p).mulVec v) i
    else ((2 / (1 + p ⬝ᵥ p)) • (1 - crossMx p)) i ⟨j.1 - 3, by omega⟩

theorem rodrigues_proper [LinearOrder K] [IsStrictOrderedRing K] (p : Fin 3 → K) : Proper ((rodrigues K).toMatrix p) := by
  have hpos : 1 + (p 0 * p 0 + p 1 * p 1 + p 2 * p 2) ≠ 0 := by
    have := mul_self_nonneg (p 0)
    have := mul_self_nonneg (p 1)
    have := mul_self_nonneg (p 2)
    positivity
  refine ⟨⟨?_, ?_⟩, ?_⟩
  · ext i j
    fin_cases i <;> fin_cases j <;>
      simp [rodrigues, crossMx, Matrix.mul_apply, Fin.sum_univ_three, dotProduct, Matrix.vecMulVec_apply] <;> field_simp <;> ring
  · ext i j
    fin_cases i <;> fin_cases j <;>
      simp [rodrigues, crossMx, Matrix.mul_apply, Fin.sum_univ_three, dotProduct, Matrix.vecMulVec_apply] <;> field_simp <;> ring
  · rw [Matrix.det_fin_three]
    simp [rodrigues, crossMx, Fin.sum_univ_three, dotProduct, Matrix.vecMulVec_apply]
    field_simp
    ring

theorem rodrigues_round_trip [LinearOrder K] [IsStrictOrderedRing K] (p : Fin 3 → K) :
    (rodrigues K).ofMatrix ((rodrigues K).toMatrix p) = p := by
  have hpos : 1 + (p 0 * p 0 + p 1 * p 1 + p 2 * p 2) ≠ 0 := by
    have := mul_self_nonneg (p 0)
    have := mul_self_nonneg (p 1)
    have := mul_self_nonneg (p 2)
    positivity
  ext i
  fin_cases i <;>
    simp [rodrigues, crossMx, Fin.sum_univ_three, dotProduct, Matrix.vecMulVec_apply] <;> field_simp <;> ring

end Algebra

/-- Specification: `S` describes the differential of the rotation matrix: along any curve of parameters the matrix changes
by `-(S v)^× R`, where `v` is the rate of the parameters. -/
def Differential (rot : Rotation ℝ) : Prop :=
  ∀ (γ : ℝ → Fin 3 → ℝ) (v : Fin 3 → ℝ) (x : ℝ), HasDerivAt γ v x →
    ∀ i j, HasDerivAt (fun τ => rot.toMatrix (γ τ) i j)
      ((-(crossMx ((rot.sMatrix (γ x)).mulVec v)) * rot.toMatrix (γ x)) i j) x

/-- Specification: `angularVelocityAndJacobian` returns `S(p) v`. -/
def RateIsS (rot : Rotation ℝ) : Prop := ∀ p v, rot.rate p v = (rot.sMatrix p).mulVec v

/-- Specification: the Jacobian of `angularVelocityAndJacobian` is the derivative of its value with respect to the parameters
(first three columns) and their rates (last three columns). -/
def RateJacobianCorrect (rot : Rotation ℝ) : Prop :=
  ∀ (γ η : ℝ → Fin 3 → ℝ) (v w : Fin 3 → ℝ) (x : ℝ), HasDerivAt γ v x → HasDerivAt η w x →
    HasDerivAt (fun τ => rot.rate (γ τ) (η τ))
      (fun i => ∑ k : Fin 3, (rot.rateJacobian (γ x) (η x) i ⟨k.1, by omega⟩ * v k
        + rot.rateJacobian (γ x) (η x) i ⟨k.1 + 3, by omega⟩ * w k)) x

theorem hasDerivAt_congr {E : Type*} [NormedAddCommGroup E] [NormedSpace ℝ E] {f g : ℝ → E} {f' g' : E} {x : ℝ}
    (h : HasDerivAt f f' x) (hf : ∀ τ, g τ = f τ) (hd : g' = f') : HasDerivAt g g' x := by
  obtain rfl : g = f := funext hf
  exact hd ▸ h

theorem crossMx_hasDerivAt {γ : ℝ → Fin 3 → ℝ} {v : Fin 3 → ℝ} {x : ℝ} (h : HasDerivAt γ v x) (i j : Fin 3) :
    HasDerivAt (fun τ => crossMx (γ τ) i j) (crossMx v i j) x := by
  have h0 := hasDerivAt_pi.1 h 0
  have h1 := hasDerivAt_pi.1 h 1
  have h2 := hasDerivAt_pi.1 h 2
  fin_cases i <;> fin_cases j <;> simp only [crossMx, Matrix.of_apply] <;>
    first | exact hasDerivAt_const _ _ | exact h0 | exact h1 | exact h2 | exact h0.neg | exact h1.neg | exact h2.neg

theorem normSq_hasDerivAt {γ : ℝ → Fin 3 → ℝ} {v : Fin 3 → ℝ} {x : ℝ} (h : HasDerivAt γ v x) :
    HasDerivAt (fun τ => 1 + γ τ ⬝ᵥ γ τ) (2 * (γ x ⬝ᵥ v)) x := by
  have h0 := hasDerivAt_pi.1 h 0
  have h1 := hasDerivAt_pi.1 h 1
  have h2 := hasDerivAt_pi.1 h 2
  have := ((h0.mul h0).add (h1.mul h1)).add (h2.mul h2)
  refine hasDerivAt_congr (this.const_add 1) (fun τ => ?_) ?_
  · simp [dotProduct, Fin.sum_univ_three]
  · simp [dotProduct, Fin.sum_univ_three]
    ring

theorem one_add_normSq_ne (p : Fin 3 → ℝ) : 1 + p ⬝ᵥ p ≠ 0 := by
  have : 0 ≤ p ⬝ᵥ p := by
    simp only [dotProduct]
    exact Finset.sum_nonneg fun i _ => mul_self_nonneg _
  positivity

theorem rodrigues_differential : Differential (rodrigues ℝ) := by
  intro γ v x h i j
  have hn := one_add_normSq_ne (γ x)
  have hD := normSq_hasDerivAt h
  have hN : HasDerivAt (fun τ => (1 - γ τ ⬝ᵥ γ τ) * (1 : Matrix (Fin 3) (Fin 3) ℝ) i j + 2 * (γ τ i * γ τ j) - 2 * crossMx (γ τ) i j)
      (-(2 * (γ x ⬝ᵥ v)) * (1 : Matrix (Fin 3) (Fin 3) ℝ) i j + 2 * (v i * γ x j + γ x i * v j) - 2 * crossMx v i j) x := by
    have h1 : HasDerivAt (fun τ => 1 - γ τ ⬝ᵥ γ τ) (-(2 * (γ x ⬝ᵥ v))) x := by
      exact hasDerivAt_congr (hD.const_sub 2) (fun τ => by ring) rfl
    exact ((h1.mul_const _).add (((hasDerivAt_pi.1 h i).mul (hasDerivAt_pi.1 h j)).const_mul 2)).sub
      ((crossMx_hasDerivAt h i j).const_mul 2)
  have hR := hN.div hD hn
  refine hasDerivAt_congr hR (fun τ => ?_) ?_
  · simp [rodrigues, Matrix.vecMulVec_apply]
    ring
  have hn' : 1 + (γ x 0 * γ x 0 + γ x 1 * γ x 1 + γ x 2 * γ x 2) ≠ 0 := by
    simpa [dotProduct, Fin.sum_univ_three] using hn
  fin_cases i <;> fin_cases j <;>
    simp [rodrigues, crossMx, Matrix.mul_apply, Fin.sum_univ_three, dotProduct, Matrix.vecMulVec_apply, Matrix.mulVec] <;>
    field_simp <;> ring

theorem rodrigues_rateIsS : RateIsS (rodrigues ℝ) := fun _ _ => rfl

theorem rodrigues_rateJacobian : RateJacobianCorrect (rodrigues ℝ) := by
  intro γ η v w x h hη
  rw [hasDerivAt_pi]
  intro i
  have hn := one_add_normSq_ne (γ x)
  have hD := normSq_hasDerivAt h
  have hN : HasDerivAt (fun τ => 2 * ∑ k, ((1 : Matrix (Fin 3) (Fin 3) ℝ) i k - crossMx (γ τ) i k) * η τ k)
      (2 * ∑ k, (-(crossMx v i k) * η x k + ((1 : Matrix (Fin 3) (Fin 3) ℝ) i k - crossMx (γ x) i k) * w k)) x := by
    refine HasDerivAt.const_mul 2 (HasDerivAt.fun_sum fun k _ => ?_)
    have h1 := ((crossMx_hasDerivAt h i k).const_sub ((1 : Matrix (Fin 3) (Fin 3) ℝ) i k)).mul (hasDerivAt_pi.1 hη k)
    exact h1
  refine hasDerivAt_congr (hN.div hD hn) (fun τ => ?_) ?_
  · simp only [rodrigues, Matrix.mulVec, dotProduct, Matrix.smul_apply, Matrix.sub_apply, smul_eq_mul, Pi.div_apply]
    rw [Finset.mul_sum, Finset.sum_div]
    exact Finset.sum_congr rfl fun k _ => by ring
  · have hn' : 1 + (γ x 0 * γ x 0 + γ x 1 * γ x 1 + γ x 2 * γ x 2) ≠ 0 := by
      simpa [dotProduct, Fin.sum_univ_three] using hn
    have hL : ∀ k : Fin 3, (rodrigues ℝ).rateJacobian (γ x) (η x) i ⟨k.1, by omega⟩
        = (2 / (1 + γ x ⬝ᵥ γ x)) * crossMx (η x) i k
          - (2 * (2 * γ x k) / (1 + γ x ⬝ᵥ γ x) ^ 2) * ((1 - crossMx (γ x)).mulVec (η x)) i :=
      fun k => dif_pos k.2
    have hR : ∀ k : Fin 3, (rodrigues ℝ).rateJacobian (γ x) (η x) i ⟨k.1 + 3, by omega⟩
        = ((2 / (1 + γ x ⬝ᵥ γ x)) • (1 - crossMx (γ x))) i k := by
      intro k
      simp only [rodrigues]
      rw [dif_neg (by omega)]
      rfl
    simp only [hL, hR]
    clear hL hR hN
    obtain rfl | rfl | rfl : i = 0 ∨ i = 1 ∨ i = 2 := by fin_cases i <;> simp
    all_goals
      simp [crossMx, Fin.sum_univ_three, dotProduct, Matrix.mulVec]
      field_simp
      ring

end Pose
end Verif
