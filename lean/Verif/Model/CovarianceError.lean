import Verif.Model.Pose

/-!
# The reprojection error with a propagated covariance

Models aslam_splines/include/aslam/backend/CovarianceReprojectionError.hpp and
aslam_splines/include/aslam/backend/implementation/CovarianceReprojectionError.hpp.

Simplifications: the camera geometry (`homogeneousToKeypoint`) is external and enters as a pair of functions, the keypoint dimension
is 2 (the code indexes `J(0)`, `J(1)` and builds a 2 × 2 matrix), the point expression enters by its current value, and exact
arithmetic is used.  Inverting a singular matrix gives infinities or NaN in the code; here it is the outcome `ub`.
-/

namespace Verif

/-- What the error term uses of `camera_geometry_t` (external): `homogeneousToKeypoint(p, hat_y, outJp)` as the projection and its
reported Jacobian, and `shutter().lineDelay()`. -/
structure Camera (K : Type*) where
  project : (Fin 4 → K) → Fin 2 → K
  jacobian : (Fin 4 → K) → Matrix (Fin 2) (Fin 4) K
  lineDelay : K

/-- What the error term uses of a keypoint of the frame: `y()`, `invR()` and `keypointTime(_).toSec()`. -/
structure Keypoint (K : Type*) where
  y : Fin 2 → K
  invR : Matrix (Fin 2) (Fin 2) K
  time : K

/-- The members of `CovarianceReprojectionError` (hpp 58-72): frame and keypoint, the value of `_point`, the optional spline, the
value of the optional `_lineDelayDv`, and the members `error()` and `invR()` of the base class. -/
structure CovError (K : Type*) where
  camera : Camera K
  keypoint : Keypoint K
  point : Fin 4 → K
  spline : Option (Pose K)
  lineDelayDv : Option K
  error : Fin 2 → K
  invR : Matrix (Fin 2) (Fin 2) K

namespace CovError

variable {K : Type*} [Field K]

/-- Eigen's inverse of a 2 × 2 matrix; `ub` for a singular one. -/
def inverse2 [DecidableEq K] (M : Matrix (Fin 2) (Fin 2) K) : Outcome (Matrix (Fin 2) (Fin 2) K) :=
  let d := M 0 0 * M 1 1 - M 0 1 * M 1 0
  if d = 0 then .ub else .ok !![M 1 1 / d, -M 0 1 / d; -M 1 0 / d, M 0 0 / d]

/-- The line delay in use: implementation 48-52 and 117-121. -/
def lineDelay (e : CovError K) : K :=
  match e.lineDelayDv with
  | some l => l
  | none => e.camera.lineDelay

/-- `observationTime`, implementation 114-123 (and 54). -/
def observationTime (e : CovError K) : K := e.keypoint.time + e.keypoint.y 1 * e.lineDelay

variable [LinearOrder K]

/-- `covarianceMatrix`, implementation 36-83, for the spline `s` behind `_spline`. -/
def covarianceMatrix (e : CovError K) (s : Pose K) : Outcome (Matrix (Fin 2) (Fin 2) K) :=
  (s.spline.evalD e.observationTime 0).bind fun c =>
  (s.spline.evalD e.observationTime 1).map fun cdot =>
    let JT := Pose.curveValueJacobian s.rotation c
    let T := Pose.curveValueToTransformation s.rotation c
    let J : Fin 2 → K :=
      e.lineDelay • (((e.camera.jacobian e.point * Pose.boxMinus (T.mulVec e.point)) * JT).mulVec cdot)
    !![1, 0 + J 0; 0, 1 + J 1]

/-- `evaluateErrorImplementation`, implementation 86-112: the new state of the error term and the returned cost. -/
def evaluateError (e : CovError K) : Outcome (CovError K × K) :=
  let e1 : CovError K := { e with error := e.keypoint.y - e.camera.project e.point }
  match e.spline with
  | none => .ok (e1, e1.error ⬝ᵥ e1.invR.mulVec e1.error)
  | some s =>
    (e1.covarianceMatrix s).bind fun A =>
    (inverse2 e.keypoint.invR).bind fun R =>
    (inverse2 (A * R * A.transpose)).map fun W =>
      ({ e1 with invR := W }, e1.error ⬝ᵥ W.mulVec e1.error)

/-- The Jacobian handed to the point expression by `evaluateJacobiansImplementation`, implementation 127-142 (line 138). -/
def pointJacobian (e : CovError K) : Matrix (Fin 2) (Fin 4) K := -e.camera.jacobian e.point

end CovError

end Verif
