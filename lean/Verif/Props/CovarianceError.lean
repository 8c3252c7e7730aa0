import Verif.Model.CovarianceError
import Verif.Props.TimedExpressions
import Verif.Lemmas.PoseDemo
import Mathlib.LinearAlgebra.Matrix.ToLinearEquiv

/-!
# The reprojection error with a propagated covariance (C65)

The rolling shutter residual of a measurement `y` of a world point `w` is `y − π(T(t(y))⁻¹ w)`, where the time `t(y)` of the observation
depends on the measured row.  To first order the noise of `y` reaches the residual through the Jacobian of that map; the error term
should weight the residual with the inverse of the covariance propagated through this Jacobian.
-/

set_option linter.unusedSectionVars false

namespace Verif

open Filter Topology BSpline

namespace CovError

open Pose

/-! ## Specification -/

/-- Specification: the reported Jacobian of the camera is the derivative of its projection at `p`. -/
def CameraSound (cam : Camera ℝ) (p : Fin 4 → ℝ) : Prop :=
  ∀ (q : ℝ → Fin 4 → ℝ) (q' : Fin 4 → ℝ) (x : ℝ), q x = p → HasDerivAt q q' x →
    HasDerivAt (fun τ => cam.project (q τ)) ((cam.jacobian p).mulVec q') x

/-- Specification: the residual of the measurement `y` of the world point `w`, observed at `t0 + y 1 * ℓ` from the pose `s`. -/
noncomputable def residual (cam : Camera ℝ) (s : Pose ℝ) (t0 ℓ : ℝ) (w : Fin 4 → ℝ) (y : Fin 2 → ℝ) : Fin 2 → ℝ :=
  y - cam.project (((s.inverseTransformation (t0 + y 1 * ℓ)).getD 0).mulVec w)

/-- Specification: the line delay of an error term: the value of the line delay design variable if there is one, and otherwise that
of the shutter of the camera. -/
def delay (e : CovError ℝ) : ℝ := e.lineDelayDv.getD e.camera.lineDelay

theorem lineDelay_eq (e : CovError ℝ) : e.lineDelay = e.delay := by
  unfold lineDelay delay
  cases e.lineDelayDv <;> rfl

/-- Specification: `A` is the matrix of partial derivatives of `f` at `y`. -/
def IsJacobian (f : (Fin 2 → ℝ) → Fin 2 → ℝ) (y : Fin 2 → ℝ) (A : Matrix (Fin 2) (Fin 2) ℝ) : Prop :=
  ∀ j, HasDerivAt (fun x => f (Function.update y j x)) (fun i => A i j) (y j)

/-- Specification: a symmetric positive definite 2 × 2 matrix. -/
def Definite (M : Matrix (Fin 2) (Fin 2) ℝ) : Prop := M.transpose = M ∧ ∀ x, x ≠ 0 → 0 < x ⬝ᵥ M.mulVec x

theorem IsJacobian.unique {f : (Fin 2 → ℝ) → Fin 2 → ℝ} {y : Fin 2 → ℝ} {A B : Matrix (Fin 2) (Fin 2) ℝ}
    (hA : IsJacobian f y A) (hB : IsJacobian f y B) : A = B := by
  ext i j
  exact congrFun ((hA j).unique (hB j)) i

/-! ## The time derivative of the point in the camera frame -/

theorem mulVec_hasDerivAt {m n : ℕ} {A : ℝ → Matrix (Fin m) (Fin n) ℝ} {A' : Matrix (Fin m) (Fin n) ℝ} {v : ℝ → Fin n → ℝ}
    {v' : Fin n → ℝ} {t : ℝ} (hA : ∀ i j, HasDerivAt (fun x => A x i j) (A' i j) t) (hv : HasDerivAt v v' t) :
    HasDerivAt (fun x => (A x).mulVec (v x)) (A'.mulVec (v t) + (A t).mulVec v') t := by
  refine hasDerivAt_pi.2 fun i => ?_
  have := HasDerivAt.fun_sum (u := Finset.univ) fun k _ => (hA i k).fun_mul (hasDerivAt_pi.1 hv k)
  refine this.congr_deriv ?_
  rw [Finset.sum_add_distrib]
  rfl

theorem inverse_point_time (s : Pose ℝ) (h : s.spline.WF) (hw : s.spline.WideLast) (hd : Differential s.rotation)
    (horth : ∀ θ, Orthogonal (s.rotation.toMatrix θ)) (t : ℝ) (ht : s.spline.Regular 0 t) (w : Fin 4 → ℝ) :
    ∃ c c', s.spline.evalD t 0 = .ok c ∧ s.spline.evalD t 1 = .ok c' ∧
      s.inverseTransformation t = .ok (invertInPlace (curveValueToTransformation s.rotation c)) ∧
      HasDerivAt (fun x => ((s.inverseTransformation x).getD 0).mulVec w)
        (-(invertInPlace (curveValueToTransformation s.rotation c)).mulVec
          ((boxMinus w).mulVec ((curveValueJacobian s.rotation c).mulVec c'))) t := by
  obtain ⟨hnear, -⟩ := C04_regular s.spline h hw 0 t ht
  obtain ⟨-, c1, hc1', hder⟩ := C04_regular s.spline h hw 0 t ht
  have hder : HasDerivAt (fun x => (s.spline.evalD x 0).getD 0) c1 t := hder
  obtain ⟨c, c', hc, hc', hT, hTd⟩ := transformation_time s h hw hd t ht
  have hinv := fun x => C40_inverse s horth x
  have hev : s.spline.eval t = .ok c := hc
  have hIt : s.inverseTransformation t = .ok (invertInPlace (curveValueToTransformation s.rotation c)) := by
    unfold inverseTransformation
    rw [hev, Outcome.map_ok]
  refine ⟨c, c', hc, hc', hIt, ?_⟩
  -- the inverse transformation is differentiable
  have hR := fun a b => hd _ _ _ (hasDerivAt_tail hder) a b
  obtain ⟨I', hI⟩ : ∃ I' : Matrix (Fin 4) (Fin 4) ℝ, ∀ i j, HasDerivAt (fun x => (s.inverseTransformation x).getD 0 i j) (I' i j) t := by
    have hv := (mulVec_hasDerivAt (A := fun x => (s.rotation.toMatrix (tail ((s.spline.evalD x 0).getD 0))).transpose)
      (A' := (-crossMx ((s.rotation.sMatrix (tail ((s.spline.evalD t 0).getD 0))).mulVec (tail c1)) *
          s.rotation.toMatrix (tail ((s.spline.evalD t 0).getD 0))).transpose) (fun a b => hR b a) (hasDerivAt_head hder)).fun_neg
    obtain ⟨v, hvv⟩ : ∃ v, v = -((-crossMx ((s.rotation.sMatrix (tail ((s.spline.evalD t 0).getD 0))).mulVec (tail c1)) *
                s.rotation.toMatrix (tail ((s.spline.evalD t 0).getD 0))).transpose.mulVec
          (head ((s.spline.evalD t 0).getD 0)) +
        (s.rotation.toMatrix (tail ((s.spline.evalD t 0).getD 0))).transpose.mulVec (head c1)) := ⟨_, rfl⟩
    rw [← hvv] at hv
    refine ⟨tangent (-crossMx ((s.rotation.sMatrix (tail ((s.spline.evalD t 0).getD 0))).mulVec (tail c1)) *
          s.rotation.toMatrix (tail ((s.spline.evalD t 0).getD 0))).transpose v, fun i j => ?_⟩
    have := rigid_hasDerivAt (R := fun x => (s.rotation.toMatrix (tail ((s.spline.evalD x 0).getD 0))).transpose)
      (M := (-crossMx ((s.rotation.sMatrix (tail ((s.spline.evalD t 0).getD 0))).mulVec (tail c1)) *
          s.rotation.toMatrix (tail ((s.spline.evalD t 0).getD 0))).transpose) (fun a b => hR b a) hv i j
    refine this.congr_of_eventuallyEq ?_
    filter_upwards [hnear] with x hx
    obtain ⟨u, hu⟩ := hx
    have hu0 : s.spline.evalD x 0 = .ok u := hu
    have hu1 : s.spline.eval x = .ok u := hu
    unfold inverseTransformation
    rw [hu1, hu0, Outcome.map_ok, Outcome.getD_ok, Outcome.getD_ok, curveValueToTransformation_eq, invertInPlace_rigid]
  have hq : HasDerivAt (fun x => ((s.inverseTransformation x).getD 0).mulVec w) (I'.mulVec w) t := by
    simpa using mulVec_hasDerivAt hI (hasDerivAt_const t w)
  -- product rule for `T T⁻¹ w = w`
  set T := curveValueToTransformation s.rotation c with hTdef
  set B := boxPlus ((curveValueJacobian s.rotation c).mulVec c') with hB
  obtain ⟨T', hT', hTT', hT'T⟩ := (hinv t).2.2 T hT
  rw [hIt] at hT'
  obtain rfl := Outcome.ok.inj hT'
  have hprod : HasDerivAt (fun x => ((s.transformation x).getD 0).mulVec (((s.inverseTransformation x).getD 0).mulVec w))
      ((B * T).mulVec ((invertInPlace T).mulVec w) + T.mulVec (I'.mulVec w)) t := by
    have := mulVec_hasDerivAt hTd hq
    rwa [hT, hIt, Outcome.getD_ok, Outcome.getD_ok] at this
  have hconst : HasDerivAt (fun x => ((s.transformation x).getD 0).mulVec (((s.inverseTransformation x).getD 0).mulVec w)) 0 t := by
    refine (hasDerivAt_const t w).congr_of_eventuallyEq ?_
    filter_upwards [hnear] with x hx
    obtain ⟨u, hu⟩ := hx
    have hu1 : s.spline.eval x = .ok u := hu
    have hTx : s.transformation x = .ok (curveValueToTransformation s.rotation u) := by
      unfold transformation
      rw [hu1, Outcome.map_ok]
    obtain ⟨U, hU, hU1, -⟩ := (hinv x).2.2 _ hTx
    rw [hTx, hU, Outcome.getD_ok, Outcome.getD_ok, Matrix.mulVec_mulVec, hU1, Matrix.one_mulVec]
  have hz := hprod.unique hconst
  refine hq.congr_deriv ?_
  have h1 : T.mulVec (I'.mulVec w) = -(B.mulVec w) := by
    rw [← Matrix.mulVec_mulVec, Matrix.mulVec_mulVec w T, hTT', Matrix.one_mulVec, add_comm] at hz
    exact eq_neg_of_add_eq_zero_left hz
  calc I'.mulVec w = (invertInPlace T * T).mulVec (I'.mulVec w) := by rw [hT'T, Matrix.one_mulVec]
    _ = _ := by rw [← Matrix.mulVec_mulVec, h1, hB, boxMinus_mulVec, Matrix.mulVec_neg]

/-! ## The Jacobian of the residual -/

/-- The true Jacobian of the residual with respect to the measurement. -/
theorem residual_jacobian (cam : Camera ℝ) (s : Pose ℝ) (h : s.spline.WF) (hw : s.spline.WideLast) (hd : Differential s.rotation)
    (horth : ∀ θ, Orthogonal (s.rotation.toMatrix θ)) (t0 ℓ : ℝ) (w : Fin 4 → ℝ) (y : Fin 2 → ℝ)
    (ht : s.spline.Regular 0 (t0 + y 1 * ℓ))
    (hcam : ∀ Ti, s.inverseTransformation (t0 + y 1 * ℓ) = .ok Ti → CameraSound cam (Ti.mulVec w)) :
    ∃ c c', s.spline.evalD (t0 + y 1 * ℓ) 0 = .ok c ∧ s.spline.evalD (t0 + y 1 * ℓ) 1 = .ok c' ∧
      s.inverseTransformation (t0 + y 1 * ℓ) = .ok (invertInPlace (curveValueToTransformation s.rotation c)) ∧
      curveValueToTransformation s.rotation c * invertInPlace (curveValueToTransformation s.rotation c) = 1 ∧
      ∀ J : Fin 2 → ℝ, J = ℓ • (cam.jacobian ((invertInPlace (curveValueToTransformation s.rotation c)).mulVec w)).mulVec
          ((invertInPlace (curveValueToTransformation s.rotation c)).mulVec
            ((boxMinus w).mulVec ((curveValueJacobian s.rotation c).mulVec c'))) →
        IsJacobian (residual cam s t0 ℓ w) y !![1, J 0; 0, 1 + J 1] := by
  obtain ⟨c, c', hc, hc', hI, hq⟩ := inverse_point_time s h hw hd horth _ ht w
  have hTT : curveValueToTransformation s.rotation c * invertInPlace (curveValueToTransformation s.rotation c) = 1 := by
    have hev : s.spline.eval (t0 + y 1 * ℓ) = .ok c := hc
    have hT : s.transformation (t0 + y 1 * ℓ) = .ok (curveValueToTransformation s.rotation c) := by
      unfold transformation
      rw [hev, Outcome.map_ok]
    obtain ⟨U, hU, hU1, -⟩ := (C40_inverse s horth _).2.2 _ hT
    rw [hI] at hU
    obtain rfl := Outcome.ok.inj hU
    exact hU1
  refine ⟨c, c', hc, hc', hI, hTT, fun J hJ j => ?_⟩
  set Ti := invertInPlace (curveValueToTransformation s.rotation c) with hTi
  have hupd : ∀ j : Fin 2, HasDerivAt (fun x => Function.update y j x) (Pi.single j (1 : ℝ)) (y j) := by
    intro j
    refine hasDerivAt_pi.2 fun i => ?_
    by_cases hij : i = j
    · subst hij
      simp only [Function.update_self, Pi.single_eq_same]
      exact hasDerivAt_id' (y i)
    · simpa [hij] using hasDerivAt_const (y j) (y i)
  obtain rfl | rfl : j = 0 ∨ j = 1 := by omega
  · have hconst : ∀ x, residual cam s t0 ℓ w (Function.update y 0 x) = Function.update y 0 x
        - cam.project (((s.inverseTransformation (t0 + y 1 * ℓ)).getD 0).mulVec w) := by
      intro x
      simp [residual]
    simp only [hconst]
    refine ((hupd 0).sub_const _).congr_deriv ?_
    ext i
    obtain rfl | rfl : i = 0 ∨ i = 1 := by omega
    · simp
    · simp
  · have hproj := hcam Ti hI (fun x => ((s.inverseTransformation (t0 + x * ℓ)).getD 0).mulVec w)
      (ℓ • -(Ti.mulVec ((boxMinus w).mulVec ((curveValueJacobian s.rotation c).mulVec c')))) (y 1)
      (by simp only [hI, Outcome.getD_ok])
      (by
        have hlin : HasDerivAt (fun x : ℝ => t0 + x * ℓ) ℓ (y 1) := by
          simpa using ((hasDerivAt_id (y 1)).mul_const ℓ).const_add t0
        exact HasDerivAt.scomp (y 1) hq hlin)
    have heq : ∀ x, residual cam s t0 ℓ w (Function.update y 1 x) = Function.update y 1 x
        - cam.project (((s.inverseTransformation (t0 + x * ℓ)).getD 0).mulVec w) := by
      intro x
      simp [residual]
    simp only [heq]
    refine ((hupd 1).sub hproj).congr_deriv ?_
    ext i
    rw [hJ]
    obtain rfl | rfl : i = 0 ∨ i = 1 := by omega
    · simp [Matrix.mulVec_smul, Matrix.mulVec_neg]
    · simp [Matrix.mulVec_smul, Matrix.mulVec_neg]

/-- **C65**, when the propagated noise is right: for every error term whose point is the world point `w` seen from the spline at the
observation time, the matrix is defined, and it is the Jacobian of the residual with respect to the measurement exactly when the
missing factor `T⁻¹` makes no difference in the image. -/
theorem C65_jacobian_iff (e : CovError ℝ) (s : Pose ℝ) (h : s.spline.WF) (hw : s.spline.WideLast) (hd : Differential s.rotation)
    (horth : ∀ θ, Orthogonal (s.rotation.toMatrix θ)) (w : Fin 4 → ℝ) (ht : s.spline.Regular 0 e.observationTime)
    (hp : ∀ Ti, s.inverseTransformation e.observationTime = .ok Ti → e.point = Ti.mulVec w)
    (hcam : CameraSound e.camera e.point) :
    ∃ A Ti c c', e.covarianceMatrix s = .ok A ∧ s.inverseTransformation e.observationTime = .ok Ti ∧
      s.spline.evalD e.observationTime 0 = .ok c ∧ s.spline.evalD e.observationTime 1 = .ok c' ∧
      (IsJacobian (residual e.camera s e.keypoint.time e.delay w) e.keypoint.y A ↔
        e.delay • (e.camera.jacobian e.point).mulVec (Ti.mulVec ((boxMinus w).mulVec ((curveValueJacobian s.rotation c).mulVec c'))
          - (boxMinus w).mulVec ((curveValueJacobian s.rotation c).mulVec c')) = 0) := by
  rw [← lineDelay_eq]
  obtain ⟨c, c', hc, hc', hI, hTT, hJ⟩ := residual_jacobian e.camera s h hw hd horth e.keypoint.time e.lineDelay w e.keypoint.y ht
    (fun Ti hTi => by rw [← hp Ti hTi]; exact hcam)
  have hpt := hp _ hI
  have hTp : (curveValueToTransformation s.rotation c).mulVec e.point = w := by
    rw [hpt, Matrix.mulVec_mulVec, hTT, Matrix.one_mulVec]
  have hJ' := hJ _ rfl
  rw [← hpt] at hJ'
  have hA : e.covarianceMatrix s = .ok !![1, (e.lineDelay • (e.camera.jacobian e.point).mulVec
        ((boxMinus w).mulVec ((curveValueJacobian s.rotation c).mulVec c'))) 0;
      0, 1 + (e.lineDelay • (e.camera.jacobian e.point).mulVec
        ((boxMinus w).mulVec ((curveValueJacobian s.rotation c).mulVec c'))) 1] := by
    unfold covarianceMatrix
    rw [show e.observationTime = e.keypoint.time + e.keypoint.y 1 * e.lineDelay from rfl, hc, hc', Outcome.bind_ok, Outcome.map_ok]
    dsimp only
    rw [hTp, zero_add, ← Matrix.mulVec_mulVec, ← Matrix.mulVec_mulVec]
  refine ⟨_, _, c, c', hA, hI, hc, hc', ?_⟩
  have hiff : ∀ J K : Fin 2 → ℝ, IsJacobian (residual e.camera s e.keypoint.time e.lineDelay w) e.keypoint.y !![1, J 0; 0, 1 + J 1] →
      (IsJacobian (residual e.camera s e.keypoint.time e.lineDelay w) e.keypoint.y !![1, K 0; 0, 1 + K 1] ↔ J - K = 0) := by
    intro J K hJ
    constructor
    · intro hK
      have := hJ.unique hK
      have h0 : J 0 = K 0 := congrFun (congrFun this 0) 1
      have h1 : 1 + J 1 = 1 + K 1 := congrFun (congrFun this 1) 1
      ext i
      obtain rfl | rfl : i = 0 ∨ i = 1 := by omega
      · simp [h0]
      · simp [add_left_cancel h1]
    · intro hz
      rwa [← sub_eq_zero.1 hz]
  rw [hiff _ _ hJ', Matrix.mulVec_sub, smul_sub]

/-- **C65**, the line delay: with a line delay design variable the observation time, the propagation matrix and the whole evaluation
use its value and not that of the camera; without one they use the camera's. -/
theorem C65_line_delay (e : CovError ℝ) :
    e.observationTime = e.keypoint.time + e.keypoint.y 1 * e.delay ∧
    (∀ l, e.lineDelayDv = some l → ∀ (s : Pose ℝ) (l' : ℝ),
      covarianceMatrix { e with camera := { e.camera with lineDelay := l' } } s = e.covarianceMatrix s ∧
      covarianceMatrix { e with camera := { e.camera with lineDelay := l }, lineDelayDv := none } s = e.covarianceMatrix s) := by
  refine ⟨by rw [← lineDelay_eq]; rfl, fun l hl s l' => ⟨?_, ?_⟩⟩ <;>
    simp only [covarianceMatrix, observationTime, lineDelay, hl]

/-- A term with the line delay 2 and a camera with the line delay 1 observes row 3 at time 6. -/
example (s : Pose ℝ) : observationTime (K := ℝ)
    { camera := { project := fun _ => 0, jacobian := fun _ => 0, lineDelay := 1 }, keypoint := { y := ![0, 3], invR := 1, time := 0 },
      point := 0, spline := some s, lineDelayDv := some 2, error := 0, invR := 1 } = 6 := by
  rw [(C65_line_delay _).1]
  norm_num [delay]

/-- **C65**, partially: when the spline has the identity orientation at the observation time, the matrix used to propagate the
noise is the Jacobian of the residual with respect to the measurement.  Missing: other orientations, for which the code omits the
rotation from the world into the camera (`C65_violated`). -/
theorem C65_propagation_partial (e : CovError ℝ) (s : Pose ℝ) (h : s.spline.WF) (hw : s.spline.WideLast) (hd : Differential s.rotation)
    (horth : ∀ θ, Orthogonal (s.rotation.toMatrix θ)) (w : Fin 4 → ℝ) (ht : s.spline.Regular 0 e.observationTime)
    (hp : ∀ Ti, s.inverseTransformation e.observationTime = .ok Ti → e.point = Ti.mulVec w)
    (hcam : CameraSound e.camera e.point) (hid : s.orientation e.observationTime = .ok 1) :
    ∃ A, e.covarianceMatrix s = .ok A ∧
      IsJacobian (residual e.camera s e.keypoint.time e.delay w) e.keypoint.y A := by
  obtain ⟨A, Ti, c, c', hA, hI, hc, hc', hiff⟩ := C65_jacobian_iff e s h hw hd horth w ht hp hcam
  refine ⟨A, hA, hiff.2 ?_⟩
  have hev : s.spline.eval e.observationTime = .ok c := hc
  unfold orientation at hid
  unfold inverseTransformation at hI
  rw [hev, Outcome.map_ok] at hid hI
  have hR : s.rotation.toMatrix (tail c) = 1 := Outcome.ok.inj hid
  have hTi := Outcome.ok.inj hI
  rw [curveValueToTransformation_eq, invertInPlace_rigid, hR, Matrix.transpose_one] at hTi
  have : ∀ ξ : Fin 6 → ℝ, Ti.mulVec ((boxMinus w).mulVec ξ) = (boxMinus w).mulVec ξ := by
    intro ξ
    rw [← boxMinus_mulVec, ← hTi]
    ext i
    fin_cases i <;> simp [boxPlus, rigid, Matrix.mulVec, dotProduct, Fin.sum_univ_four]
  rw [this, sub_self, Matrix.mulVec_zero, smul_zero]

/-! ## The weight -/

theorem inverse2_ok {K : Type*} [Field K] [DecidableEq K] (M : Matrix (Fin 2) (Fin 2) K) (hM : M.det ≠ 0) :
    ∃ N, inverse2 M = .ok N ∧ M * N = 1 ∧ N * M = 1 := by
  have hd : M 0 0 * M 1 1 - M 0 1 * M 1 0 ≠ 0 := by rwa [Matrix.det_fin_two] at hM
  obtain ⟨d, hdd⟩ : ∃ d, d = M 0 0 * M 1 1 - M 0 1 * M 1 0 := ⟨_, rfl⟩
  refine ⟨!![M 1 1 / d, -M 0 1 / d; -M 1 0 / d, M 0 0 / d], ?_, ?_, ?_⟩
  · rw [hdd]
    exact if_neg hd
  all_goals
    rw [← hdd] at hd
    ext i j
    fin_cases i <;> fin_cases j <;> simp [Matrix.mul_apply, Fin.sum_univ_two] <;> field_simp <;>
      first | ring1 | linear_combination -hdd

theorem inverse2_ub {K : Type*} [Field K] [DecidableEq K] (M : Matrix (Fin 2) (Fin 2) K) (hM : M.det = 0) : inverse2 M = .ub := by
  rw [Matrix.det_fin_two] at hM
  exact if_pos hM

theorem Definite.det_ne {M : Matrix (Fin 2) (Fin 2) ℝ} (h : Definite M) : M.det ≠ 0 := by
  intro h0
  obtain ⟨v, hv, hMv⟩ := Matrix.exists_mulVec_eq_zero_iff.2 h0
  have := h.2 v hv
  rw [hMv, dotProduct_zero] at this
  exact lt_irrefl _ this

/-- **C65**, the weight: with a spline, an invertible propagation matrix `A` and a positive definite keypoint weight, the evaluation
succeeds, sets the error to measurement minus projection and the weight to the inverse of the propagated covariance `A R Aᵀ`; the
weight is positive definite, and the cost is the keypoint's cost of the noise that explains the error. -/
theorem C65_weight (e : CovError ℝ) (s : Pose ℝ) (hs : e.spline = some s) (A : Matrix (Fin 2) (Fin 2) ℝ)
    (hA : e.covarianceMatrix s = .ok A) (hdet : A.det ≠ 0) (hM : Definite e.keypoint.invR) :
    ∃ e' cost, e.evaluateError = .ok (e', cost) ∧
      e'.error = e.keypoint.y - e.camera.project e.point ∧
      (∀ R, R * e.keypoint.invR = 1 → e'.invR * (A * R * A.transpose) = 1) ∧
      Definite e'.invR ∧
      cost = e'.error ⬝ᵥ e'.invR.mulVec e'.error ∧
      (∀ n, A.mulVec n = e'.error → cost = n ⬝ᵥ e.keypoint.invR.mulVec n) ∧
      0 ≤ cost ∧ (cost = 0 ↔ e'.error = 0) := by
  set M := e.keypoint.invR with hMdef
  obtain ⟨R, hR, hMR, hRM⟩ := inverse2_ok M hM.det_ne
  obtain ⟨B, -, hAB, hBA⟩ := inverse2_ok A hdet
  have hdR : R.det ≠ 0 := by
    intro h0
    have := congrArg Matrix.det hMR
    rw [Matrix.det_mul, h0, mul_zero, Matrix.det_one] at this
    exact zero_ne_one this
  have hP : (A * R * A.transpose).det ≠ 0 := by
    rw [Matrix.det_mul, Matrix.det_mul, Matrix.det_transpose]
    exact mul_ne_zero (mul_ne_zero hdet hdR) hdet
  obtain ⟨W, hW, hPW, hWP⟩ := inverse2_ok _ hP
  have hBt : B.transpose * A.transpose = 1 := by rw [← Matrix.transpose_mul, hAB, Matrix.transpose_one]
  have hWeq : W = B.transpose * M * B := by
    have h1 : (B.transpose * M * B) * (A * R * A.transpose) = 1 := by
      calc (B.transpose * M * B) * (A * R * A.transpose) = B.transpose * M * (B * A) * R * A.transpose := by
            simp only [Matrix.mul_assoc]
        _ = B.transpose * (M * R) * A.transpose := by rw [hBA, Matrix.mul_one]; simp only [Matrix.mul_assoc]
        _ = 1 := by rw [hMR, Matrix.mul_one, hBt]
    calc W = ((B.transpose * M * B) * (A * R * A.transpose)) * W := by rw [h1, Matrix.one_mul]
      _ = _ := by rw [Matrix.mul_assoc, hPW, Matrix.mul_one]
  have hquad : ∀ v, v ⬝ᵥ W.mulVec v = B.mulVec v ⬝ᵥ M.mulVec (B.mulVec v) := by
    intro v
    rw [hWeq, ← Matrix.mulVec_mulVec, ← Matrix.mulVec_mulVec, Matrix.dotProduct_mulVec, Matrix.vecMul_transpose]
  have hpos : ∀ v, v ≠ 0 → 0 < v ⬝ᵥ W.mulVec v := by
    intro v hv
    rw [hquad]
    refine hM.2 _ fun h0 => hv ?_
    rw [← Matrix.one_mulVec v, ← hAB, ← Matrix.mulVec_mulVec, h0, Matrix.mulVec_zero]
  have hdef : Definite W := by
    refine ⟨?_, hpos⟩
    rw [hWeq, Matrix.transpose_mul, Matrix.transpose_mul, Matrix.transpose_transpose, hM.1, Matrix.mul_assoc]
  set r := e.keypoint.y - e.camera.project e.point with hr
  refine ⟨{ e with error := r, invR := W }, r ⬝ᵥ W.mulVec r, ?_, rfl, ?_, hdef, rfl, ?_, ?_, ?_⟩
  · unfold evaluateError
    rw [hs]
    have hA' : covarianceMatrix { e with error := e.keypoint.y - e.camera.project e.point } s = .ok A := hA
    simp only []
    rw [← hs, hA', Outcome.bind_ok, ← hMdef, hR, Outcome.bind_ok, hW, Outcome.map_ok]
  · intro R' hR'
    have : R' = R := by
      calc R' = R' * (M * R) := by rw [hMR, Matrix.mul_one]
        _ = R := by rw [← Matrix.mul_assoc, hR', Matrix.one_mul]
    rw [this]
    exact hWP
  · intro n hn
    have hn' : A.mulVec n = r := hn
    rw [hquad, ← hn', Matrix.mulVec_mulVec, hBA, Matrix.one_mulVec]
  · by_cases h0 : r = 0
    · rw [h0]; simp
    · exact (hpos r h0).le
  · constructor
    · intro hc
      by_contra h0
      have := hpos r h0
      rw [hc] at this
      exact lt_irrefl _ this
    · intro h0
      have h0' : r = 0 := h0
      rw [h0']
      simp

/-- **C65**, undefined weight: whenever the propagation matrix is singular, the weight is undefined (infinities or NaN). -/
theorem C65_singular (e : CovError ℝ) (s : Pose ℝ) (hs : e.spline = some s) (A : Matrix (Fin 2) (Fin 2) ℝ)
    (hA : e.covarianceMatrix s = .ok A) (hdet : A.det = 0) : e.evaluateError = .ub := by
  have hA' : covarianceMatrix { e with error := e.keypoint.y - e.camera.project e.point } s = .ok A := hA
  unfold evaluateError
  rw [hs]
  simp only []
  rw [← hs, hA', Outcome.bind_ok]
  by_cases hM : e.keypoint.invR.det = 0
  · rw [inverse2_ub _ hM]
    rfl
  · obtain ⟨R, hR, -⟩ := inverse2_ok _ hM
    rw [hR, Outcome.bind_ok, inverse2_ub _ (by rw [Matrix.det_mul, Matrix.det_mul, hdet, zero_mul, zero_mul])]
    rfl

/-- **C65**, the propagation matrix of every error term: the first column is that of the identity, so that it is singular exactly
when its last entry vanishes. -/
theorem C65_shape (e : CovError ℝ) (s : Pose ℝ) (A : Matrix (Fin 2) (Fin 2) ℝ) (hA : e.covarianceMatrix s = .ok A) :
    A 0 0 = 1 ∧ A 1 0 = 0 ∧ A.det = A 1 1 ∧ (e.delay = 0 → A = 1) := by
  rw [← lineDelay_eq]
  unfold covarianceMatrix at hA
  obtain ⟨c, hc, hA⟩ := Outcome.bind_eq_ok.1 hA
  cases hc' : s.spline.evalD e.observationTime 1 with
  | throws => rw [hc'] at hA; exact (nomatch hA)
  | ub => rw [hc'] at hA; exact (nomatch hA)
  | ok c' =>
  rw [hc', Outcome.map_ok] at hA
  obtain rfl := Outcome.ok.inj hA
  refine ⟨rfl, rfl, ?_, fun h0 => ?_⟩
  · rw [Matrix.det_fin_two]
    simp
  · ext i j
    fin_cases i <;> fin_cases j <;> simp [h0]

/-- **C65**, without a spline: the evaluation always succeeds, and weight and cost do not depend on the covariance of the keypoint:
the weight is whatever the base class holds. -/
theorem C65_no_spline (e : CovError ℝ) (hs : e.spline = none) (N : Matrix (Fin 2) (Fin 2) ℝ) :
    ∃ e' e'' cost, e.evaluateError = .ok (e', cost) ∧ e'.invR = e.invR ∧
      e'.error = e.keypoint.y - e.camera.project e.point ∧ cost = e'.error ⬝ᵥ e.invR.mulVec e'.error ∧
      evaluateError { e with keypoint := { e.keypoint with invR := N } } = .ok (e'', cost) ∧ e''.invR = e.invR := by
  refine ⟨{ e with error := e.keypoint.y - e.camera.project e.point },
    { e with error := e.keypoint.y - e.camera.project e.point, keypoint := { e.keypoint with invR := N } }, _, ?_, rfl, rfl, rfl, ?_, rfl⟩
  · unfold evaluateError
    rw [hs]
  · unfold evaluateError
    rw [hs]

/-- **C65**, Jacobian: for a fixed camera, if the point moves, the error changes by the Jacobian handed to the point expression. -/
theorem C65_point_jacobian (e : CovError ℝ) (hcam : CameraSound e.camera e.point) (q : ℝ → Fin 4 → ℝ) (q' : Fin 4 → ℝ) (x : ℝ)
    (hq : q x = e.point) (hd : HasDerivAt q q' x) :
    HasDerivAt (fun τ => e.keypoint.y - e.camera.project (q τ)) (e.pointJacobian.mulVec q') x := by
  refine ((hcam q q' x hq hd).const_sub e.keypoint.y).congr_deriv ?_
  rw [pointJacobian, Matrix.neg_mulVec]

/-! ## Witnesses -/

/-- A pinhole camera with focal length 1. -/
noncomputable def pinhole : Camera ℝ where
  project p := ![p 0 / p 2, p 1 / p 2]
  jacobian p := !![1 / p 2, 0, -p 0 / p 2 ^ 2, 0; 0, 1 / p 2, -p 1 / p 2 ^ 2, 0]
  lineDelay := 1

theorem pinhole_sound (p : Fin 4 → ℝ) (hp : p 2 ≠ 0) : CameraSound pinhole p := by
  intro q q' x hq hd
  subst hq
  have h := hasDerivAt_pi.1 hd
  refine hasDerivAt_pi.2 fun i => ?_
  obtain rfl | rfl : i = 0 ∨ i = 1 := by omega
  · refine ((h 0).fun_div (h 2) hp).congr_deriv ?_
    simp [pinhole, Matrix.mulVec, dotProduct, Fin.sum_univ_four]
    field_simp
    ring
  · refine ((h 1).fun_div (h 2) hp).congr_deriv ?_
    simp [pinhole, Matrix.mulVec, dotProduct, Fin.sum_univ_four]
    field_simp
    ring

/-- A pose spline with constant orientation `(0, 0, θ)` moving with velocity `(a, b, 0)`. -/
noncomputable def slider (a b θ : ℝ) : Pose ℝ := ⟨demo ![0, 0, 0, 0, 0, θ] ![a, b, 0, 0, 0, θ] ![2 * a, 2 * b, 0, 0, 0, θ], rodrigues ℝ⟩

/-- An error term that observes a point on the optical axis at depth 1 from the middle of the segment. -/
noncomputable def sliderTerm (a b θ : ℝ) : CovError ℝ :=
  ⟨pinhole, ⟨0, 1, 5 / 2⟩, ![0, 0, 1, 1], some (slider a b θ), none, 0, 1⟩

theorem slider_time (a b θ : ℝ) : (sliderTerm a b θ).observationTime = 5 / 2 := by
  simp [sliderTerm, observationTime]

theorem slider_value (a b θ : ℝ) : (slider a b θ).spline.evalD (5 / 2) 0 = .ok ![a, b, 0, 0, 0, θ] := by
  have h : (slider a b θ).spline.evalD (5 / 2) 0 = .ok _ := (demo_evalD _ _ _ (5 / 2) (by norm_num) (by norm_num)).1
  rw [h]
  refine congrArg Outcome.ok ?_
  ext i
  fin_cases i <;> simp <;> ring

theorem slider_rate (a b θ : ℝ) : (slider a b θ).spline.evalD (5 / 2) 1 = .ok ![a, b, 0, 0, 0, 0] := by
  have h : (slider a b θ).spline.evalD (5 / 2) 1 = .ok _ := (demo_evalD _ _ _ (5 / 2) (by norm_num) (by norm_num)).2.1
  rw [h]
  refine congrArg Outcome.ok ?_
  ext i
  fin_cases i <;> simp <;> ring

theorem slider_regular (a b θ : ℝ) : (slider a b θ).spline.Regular 0 (sliderTerm a b θ).observationTime := by
  rw [slider_time]
  exact Or.inl ⟨0, 2, 3, demo_seg _ _ _, by norm_num, by norm_num⟩

/-- The world point seen by `sliderTerm`. -/
noncomputable def sliderWorld (a b : ℝ) : Fin 4 → ℝ := ![a, b, 1, 1]

theorem slider_point (a b θ : ℝ) : ∀ Ti, (slider a b θ).inverseTransformation (sliderTerm a b θ).observationTime = .ok Ti →
    (sliderTerm a b θ).point = Ti.mulVec (sliderWorld a b) := by
  intro Ti hTi
  rw [slider_time] at hTi
  have hev : (slider a b θ).spline.eval (5 / 2) = .ok ![a, b, 0, 0, 0, θ] := slider_value a b θ
  unfold inverseTransformation at hTi
  rw [hev, Outcome.map_ok, curveValueToTransformation_eq, invertInPlace_rigid] at hTi
  rw [← Outcome.ok.inj hTi]
  have hpos : 1 + θ * θ ≠ 0 := by
    have := mul_self_nonneg θ
    positivity
  ext i
  fin_cases i <;>
    simp [sliderTerm, sliderWorld, slider, rigid, rodrigues, Matrix.mulVec, dotProduct, Fin.sum_univ_four, Fin.sum_univ_three,
      tail, head, crossMx, Matrix.vecMulVec_apply] <;> field_simp <;> ring

theorem slider_matrix (a b θ : ℝ) : (sliderTerm a b θ).covarianceMatrix (slider a b θ) = .ok !![1, a; 0, 1 + b] := by
  unfold covarianceMatrix
  rw [slider_time, slider_value, slider_rate, Outcome.bind_ok, Outcome.map_ok]
  have hpos : 1 + θ * θ ≠ 0 := by
    have := mul_self_nonneg θ
    positivity
  have hT : (curveValueToTransformation (slider a b θ).rotation ![a, b, 0, 0, 0, θ]).mulVec (sliderTerm a b θ).point
      = sliderWorld a b := by
    rw [curveValueToTransformation_eq]
    ext i
    fin_cases i <;>
      simp [sliderTerm, sliderWorld, slider, rigid, rodrigues, Matrix.mulVec, dotProduct, Fin.sum_univ_four, Fin.sum_univ_three,
        tail, head, crossMx, Matrix.vecMulVec_apply] <;> field_simp <;> ring
  have hJ : (curveValueJacobian (slider a b θ).rotation ![a, b, 0, 0, 0, θ]).mulVec ![a, b, 0, 0, 0, 0] = ![a, b, 0, 0, 0, 0] := by
    have ht0 : tail (![a, b, 0, 0, 0, 0] : Fin 6 → ℝ) = 0 := by
      ext i
      fin_cases i <;> simp [tail]
    apply ext_head_tail
    · rw [curveValueJacobian, head_blocks6, ht0]
      simp
    · rw [curveValueJacobian, tail_blocks6, ht0]
      simp
  have hB : (boxMinus (sliderWorld a b)).mulVec ![a, b, 0, 0, 0, 0] = ![a, b, 0, 0] := by
    rw [← boxMinus_mulVec]
    ext i
    fin_cases i <;> simp [boxPlus, sliderWorld, Matrix.mulVec, dotProduct, Fin.sum_univ_four]
  refine congrArg Outcome.ok ?_
  dsimp only
  rw [← Matrix.mulVec_mulVec, ← Matrix.mulVec_mulVec, hT, hJ, hB]
  ext i j
  fin_cases i <;> fin_cases j <;>
    simp [sliderTerm, lineDelay, pinhole, Matrix.mulVec, dotProduct, Fin.sum_univ_four]

theorem slider_orthogonal (a b θ : ℝ) : ∀ θ', Orthogonal ((slider a b θ).rotation.toMatrix θ') := fun θ' =>
  (rodrigues_proper θ').1

/-- **C65**, violated: a camera rotated by 90° about its optical axis that slides along the world's x axis and observes a point on
its axis.  Every assumption holds, but the propagation matrix is not the Jacobian of the residual: the code propagates the row noise
into the column of the image. -/
theorem C65_violated : ∃ (e : CovError ℝ) (s : Pose ℝ) (w : Fin 4 → ℝ) (A : Matrix (Fin 2) (Fin 2) ℝ),
    s.spline.WF ∧ s.spline.WideLast ∧ Differential s.rotation ∧ (∀ θ, Orthogonal (s.rotation.toMatrix θ)) ∧
    s.spline.Regular 0 e.observationTime ∧
    (∀ Ti, s.inverseTransformation e.observationTime = .ok Ti → e.point = Ti.mulVec w) ∧
    CameraSound e.camera e.point ∧ e.spline = some s ∧ e.covarianceMatrix s = .ok A ∧
    ¬IsJacobian (residual e.camera s e.keypoint.time e.delay w) e.keypoint.y A := by
  have hcam : CameraSound (sliderTerm 1 0 1).camera (sliderTerm 1 0 1).point := pinhole_sound _ (by simp [sliderTerm])
  refine ⟨sliderTerm 1 0 1, slider 1 0 1, sliderWorld 1 0, _, demo_wf _ _ _, demo_wide _ _ _, rodrigues_differential,
    slider_orthogonal _ _ _, slider_regular _ _ _, slider_point _ _ _, hcam, rfl, slider_matrix _ _ _, ?_⟩
  obtain ⟨A, Ti, c, c', hA, hI, hc, hc', hiff⟩ := C65_jacobian_iff (sliderTerm 1 0 1) (slider 1 0 1) (demo_wf _ _ _) (demo_wide _ _ _)
    rodrigues_differential (slider_orthogonal _ _ _) (sliderWorld 1 0) (slider_regular _ _ _) (slider_point _ _ _) hcam
  rw [slider_matrix] at hA
  obtain rfl := Outcome.ok.inj hA
  rw [hiff]
  rw [slider_time] at hI hc hc'
  have hev : (slider 1 0 1).spline.eval (5 / 2) = .ok ![1, 0, 0, 0, 0, 1] := slider_value 1 0 1
  unfold inverseTransformation at hI
  rw [hev, Outcome.map_ok, curveValueToTransformation_eq, invertInPlace_rigid] at hI
  rw [slider_value] at hc
  rw [slider_rate] at hc'
  obtain rfl := Outcome.ok.inj hc
  obtain rfl := Outcome.ok.inj hc'
  have hTi := Outcome.ok.inj hI
  have hJ : (curveValueJacobian (slider 1 0 1).rotation ![1, 0, 0, 0, 0, 1]).mulVec ![1, 0, 0, 0, 0, 0] = ![1, 0, 0, 0, 0, 0] := by
    have ht0 : tail (![1, 0, 0, 0, 0, 0] : Fin 6 → ℝ) = 0 := by
      ext i
      fin_cases i <;> simp [tail]
    apply ext_head_tail
    · rw [curveValueJacobian, head_blocks6, ht0]
      simp
    · rw [curveValueJacobian, tail_blocks6, ht0]
      simp
  have hB : (boxMinus (sliderWorld 1 0)).mulVec ![1, 0, 0, 0, 0, 0] = ![1, 0, 0, 0] := by
    rw [← boxMinus_mulVec]
    ext i
    fin_cases i <;> simp [boxPlus, sliderWorld, Matrix.mulVec, dotProduct, Fin.sum_univ_four]
  rw [hJ, hB, ← hTi]
  intro h0
  have := congrFun h0 0
  revert this
  simp [sliderTerm, delay, pinhole, slider, rigid, rodrigues, Matrix.mulVec, dotProduct, Fin.sum_univ_four, Fin.sum_univ_three,
      tail, crossMx, Matrix.vecMulVec_apply, Matrix.vecHead]

/-- The hypotheses of `C65_propagation_partial` and `C65_weight` are met by a camera with identity orientation that moves. -/
example : ∃ A, (sliderTerm 1 2 0).covarianceMatrix (slider 1 2 0) = .ok A ∧ A = !![1, 1; 0, 3] ∧
    IsJacobian (residual pinhole (slider 1 2 0) (5 / 2) 1 (sliderWorld 1 2)) 0 A := by
  obtain ⟨A, hA, hJ⟩ := C65_propagation_partial (sliderTerm 1 2 0) (slider 1 2 0) (demo_wf _ _ _) (demo_wide _ _ _)
    rodrigues_differential (slider_orthogonal _ _ _) (sliderWorld 1 2) (slider_regular _ _ _) (slider_point _ _ _)
    (pinhole_sound _ (by simp [sliderTerm])) (by
      rw [slider_time]
      have hev : (slider 1 2 0).spline.eval (5 / 2) = .ok ![1, 2, 0, 0, 0, 0] := slider_value 1 2 0
      unfold orientation
      rw [hev, Outcome.map_ok]
      refine congrArg Outcome.ok ?_
      ext i j
      fin_cases i <;> fin_cases j <;>
        simp [slider, rodrigues, tail, crossMx, dotProduct, Fin.sum_univ_three, Matrix.vecMulVec_apply])
  refine ⟨A, hA, ?_, hJ⟩
  rw [slider_matrix] at hA
  rw [← Outcome.ok.inj hA]
  norm_num

theorem definite_one : Definite (1 : Matrix (Fin 2) (Fin 2) ℝ) := by
  refine ⟨Matrix.transpose_one, fun x hx => ?_⟩
  rw [Matrix.one_mulVec]
  simp only [dotProduct, Fin.sum_univ_two]
  by_contra hneg
  have h0 := mul_self_nonneg (x 0)
  have h1 := mul_self_nonneg (x 1)
  refine hx (funext fun i => ?_)
  obtain rfl | rfl : i = 0 ∨ i = 1 := by omega
  · exact mul_self_eq_zero.1 (by linarith)
  · exact mul_self_eq_zero.1 (by linarith)

example : ∃ e' cost, (sliderTerm 1 2 0).evaluateError = .ok (e', cost) ∧ Definite e'.invR := by
  obtain ⟨e', cost, h1, -, -, h2, -⟩ := C65_weight (sliderTerm 1 2 0) (slider 1 2 0) rfl _ (slider_matrix 1 2 0)
    (by rw [Matrix.det_fin_two]; norm_num) definite_one
  exact ⟨e', cost, h1, h2⟩

/-- The weight is undefined for a camera that moves against the readout so fast that the image of the point stands still on the
sensor row. -/
example : (sliderTerm 0 (-1) 0).evaluateError = .ub :=
  C65_singular _ (slider 0 (-1) 0) rfl _ (slider_matrix 0 (-1) 0) (by rw [Matrix.det_fin_two]; norm_num)

example : ({ sliderTerm 1 2 0 with spline := none } : CovError ℝ).spline = none := rfl

end CovError

end Verif
