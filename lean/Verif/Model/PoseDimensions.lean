import Verif.Model.Dimensions
import Verif.Model.Pose

/-!
# Model: pose splines whose dimension is not six

`bsplines::BSplinePose` derives publicly from `BSpline`, so that all initialising functions of the base class can be called for it, with points
of any dimension.  Its queries take the first and the last three components of the curve value (`head<3>()`, `tail<3>()`) and multiply
Jacobians by matrices with six columns; the size of a curve value is compared with six in debug builds only (386, 396).  `Model/Pose` has
dimension six by typing; here the dimension is part of the state.

Source: `/repo/bsplines/src/BSplinePose.cpp` (lines given at each definition).

Simplifications: those of `Model/Pose`, except that the Jacobian is an optional output here (`J`).  Blocks that reach beyond a matrix and
products of matrices whose sizes do not match violate assertions of Eigen, which are compiled out, and are `ub`.
-/

namespace Verif

open Matrix Pose

/-- The data members of `BSplinePose`, with a base class of any dimension. -/
structure DPose (K : Type*) where
  base : DSpline K
  rotation : Rotation K

/-- A value with a Jacobian if one was requested. -/
structure OptJacobian (α : Type*) (m : ℕ) (K : Type*) where
  value : α
  jacobian : Option (Fin m → ℕ → K)
  indices : List ℕ

namespace DPose

section Algebra
variable {K : Type*}

/-- `c.head<3>()`. -/
def headOf {D : ℕ} (c : Fin D → K) : Outcome (Fin 3 → K) := if h : 3 ≤ D then .ok fun i => c ⟨i, by omega⟩ else .ub

/-- `c.tail<3>()`. -/
def tailOf {D : ℕ} (c : Fin D → K) : Outcome (Fin 3 → K) := if h : 3 ≤ D then .ok fun i => c ⟨D - 3 + i, by omega⟩ else .ub

variable [Field K]

/-- The product of a matrix with six columns and the spline Jacobian, a matrix with `D` rows. -/
def timesJac {m : ℕ} (D : ℕ) (A : Matrix (Fin m) (Fin 6) K) (JS : Mat K) : Outcome (Fin m → ℕ → K) :=
  if D = 6 then .ok (mulJac A (rows6 JS)) else .ub

/-- `if(J) { *J = …; }`. -/
def ifRequested {α : Type*} (J : Bool) (o : Outcome α) : Outcome (Option α) := if J then o.map some else .ok none

/-- `Jpdot.block(0,0,3,cols) = Jp.block(3,0,3,cols)`, e.g. BSplinePose.cpp 239. -/
def stackOf (D : ℕ) (Jp Jpdot : Mat K) : Outcome (Mat K) :=
  if 6 ≤ D then .ok fun r q => if r < 3 then Jp (r + 3) q else Jpdot r q else .ub

/-- `curveValueToTransformation`, BSplinePose.cpp 384-392. -/
def curveValueToTransformation {D : ℕ} (rot : Rotation K) (c : Fin D → K) : Outcome (Matrix (Fin 4) (Fin 4) K) :=
  (tailOf c).bind fun r =>
  (headOf c).map fun p => setTopRight (setTopLeft 1 (rot.toMatrix r)) p

/-- `curveValueToTransformationAndJacobian`, BSplinePose.cpp 394-411. -/
def curveValueToTransformationAndJacobian {D : ℕ} (rot : Rotation K) (c : Fin D → K) :
    Outcome (Matrix (Fin 4) (Fin 4) K × Matrix (Fin 6) (Fin 6) K) :=
  (tailOf c).bind fun r =>
  (headOf c).map fun p =>
    (setTopRight (setTopLeft 1 (rot.toMatrix r)) p, blocks6 1 (-(crossMx p) * rot.sMatrix r) 0 (rot.sMatrix r))

end Algebra

variable {K : Type*} [Field K] [LinearOrder K]

/-- `transformation`, BSplinePose.cpp 21-24. -/
def transformation (s : DPose K) (t : K) : Outcome (Matrix (Fin 4) (Fin 4) K) :=
  (s.base.spline.eval t).bind (curveValueToTransformation s.rotation)

/-- `transformationAndJacobian`, BSplinePose.cpp 26-41. -/
def transformationAndJacobian (s : DPose K) (J : Bool) (t : K) : Outcome (OptJacobian (Matrix (Fin 4) (Fin 4) K) 6 K) :=
  (s.base.spline.evalDAndJacobian t 0).bind fun r =>
  (curveValueToTransformationAndJacobian s.rotation r.value).bind fun T =>
  (ifRequested J (timesJac s.base.dim T.2 r.jacobian)).map fun j => ⟨T.1, j, r.indices⟩

/-- `orientationAndJacobian`, BSplinePose.cpp 43-61. -/
def orientationAndJacobian (s : DPose K) (J : Bool) (t : K) : Outcome (OptJacobian (Matrix (Fin 3) (Fin 3) K) 3 K) :=
  (s.base.spline.evalDAndJacobian t 0).bind fun r =>
  (tailOf r.value).bind fun p =>
  (ifRequested J (timesJac s.base.dim (orientationBlock (s.rotation.sMatrix p)) r.jacobian)).map fun j =>
    ⟨s.rotation.toMatrix p, j, r.indices⟩

/-- `inverseOrientationAndJacobian`, BSplinePose.cpp 64-83. -/
def inverseOrientationAndJacobian (s : DPose K) (J : Bool) (t : K) : Outcome (OptJacobian (Matrix (Fin 3) (Fin 3) K) 3 K) :=
  (s.base.spline.evalDAndJacobian t 0).bind fun r =>
  (tailOf r.value).bind fun p =>
  (ifRequested J (timesJac s.base.dim (-(s.rotation.toMatrix p)ᵀ * orientationBlock (s.rotation.sMatrix p)) r.jacobian)).map fun j =>
    ⟨(s.rotation.toMatrix p)ᵀ, j, r.indices⟩

/-- `inverseTransformationAndJacobian`, BSplinePose.cpp 86-111. -/
def inverseTransformationAndJacobian (s : DPose K) (J : Bool) (t : K) : Outcome (OptJacobian (Matrix (Fin 4) (Fin 4) K) 6 K) :=
  (s.base.spline.evalDAndJacobian t 0).bind fun r =>
  (curveValueToTransformationAndJacobian s.rotation r.value).bind fun T =>
  (ifRequested J (timesJac s.base.dim (-(boxTimes (invertInPlace T.1)) * T.2) r.jacobian)).bind fun j =>
  (s.base.spline.localCoefficientVectorIndices t).map fun idx => ⟨invertInPlace T.1, j, idx⟩

/-- `inverseTransformation`, BSplinePose.cpp 114-120. -/
def inverseTransformation (s : DPose K) (t : K) : Outcome (Matrix (Fin 4) (Fin 4) K) :=
  (s.base.spline.eval t).bind fun c => (curveValueToTransformation s.rotation c).map invertInPlace

/-- `transformVectorAndJacobian`, BSplinePose.cpp 124-136; the Jacobian of the transformation is always requested. -/
def transformVectorAndJacobian (s : DPose K) (J : Bool) (t : K) (v : Fin 4 → K) : Outcome (OptJacobian (Fin 4 → K) 4 K) :=
  (s.transformationAndJacobian true t).bind fun r =>
  match r.jacobian with
  | none => .ub
  | some JT => .ok ⟨r.value.mulVec v, if J then some (mulJac (boxMinus (r.value.mulVec v)) JT) else none, r.indices⟩

/-- `position`, BSplinePose.cpp 139-142. -/
def position (s : DPose K) (t : K) : Outcome (Fin 3 → K) := (s.base.spline.eval t).bind headOf

/-- `orientation`, BSplinePose.cpp 146-149. -/
def orientation (s : DPose K) (t : K) : Outcome (Matrix (Fin 3) (Fin 3) K) :=
  (s.base.spline.eval t).bind fun c => (tailOf c).map s.rotation.toMatrix

/-- `inverseOrientation`, BSplinePose.cpp 151-154. -/
def inverseOrientation (s : DPose K) (t : K) : Outcome (Matrix (Fin 3) (Fin 3) K) :=
  (s.base.spline.eval t).bind fun c => (tailOf c).map fun p => (s.rotation.toMatrix p)ᵀ

/-- `linearVelocity` (158-161, `der = 1`) and `linearAcceleration` (170-173, `der = 2`). -/
def linear (s : DPose K) (der : ℤ) (t : K) : Outcome (Fin 3 → K) := (s.base.spline.evalD t der).bind headOf

/-- `linearVelocityBodyFrame` (163-168, `der = 1`) and `linearAccelerationBodyFrame` (175-180, `der = 2`). -/
def linearBodyFrame (s : DPose K) (der : ℤ) (t : K) : Outcome (Fin 3 → K) :=
  (s.base.spline.evalD t 0).bind fun r =>
  (tailOf r).bind fun p =>
  (s.base.spline.evalD t der).bind fun v =>
  (headOf v).map fun h => (s.rotation.toMatrix p)ᵀ.mulVec h

/-- `linearAccelerationAndJacobian`, BSplinePose.cpp 182-191: `conservativeResize` keeps the first three rows. -/
def linearAccelerationAndJacobian (s : DPose K) (J : Bool) (t : K) : Outcome (OptJacobian (Fin 3 → K) 3 K) :=
  (s.base.spline.evalDAndJacobian t 2).bind fun r =>
  (headOf r.value).map fun a => ⟨a, if J then some fun i q => r.jacobian i q else none, r.indices⟩

/-- `angularVelocity`, BSplinePose.cpp 195-204. -/
def angularVelocity (s : DPose K) (t : K) : Outcome (Fin 3 → K) :=
  (s.base.spline.evalD t 0).bind fun r =>
  (s.base.spline.evalD t 1).bind fun v =>
  (tailOf r).bind fun p =>
  (tailOf v).map fun w => (-(s.rotation.sMatrix p)).mulVec w

/-- `angularVelocityBodyFrame` (207-219, `der = 1`) and `angularAccelerationBodyFrame` (288-301, `der = 2`). -/
def angularBodyFrame (s : DPose K) (der : ℤ) (t : K) : Outcome (Fin 3 → K) :=
  (s.base.spline.evalD t 0).bind fun r =>
  (s.base.spline.evalD t der).bind fun v =>
  (tailOf r).bind fun p =>
  (tailOf v).map fun w => (-(s.rotation.toMatrix p)ᵀ * s.rotation.sMatrix p).mulVec w

/-- `angularVelocityBodyFrameAndJacobian` (222-253, `der = 1`) and `angularAccelerationBodyFrameAndJacobian` (303-331, `der = 2`); the
Jacobian of the orientation is always requested. -/
def angularBodyFrameAndJacobian (s : DPose K) (J : Bool) (der : ℤ) (t : K) : Outcome (OptJacobian (Fin 3 → K) 3 K) :=
  (s.base.spline.evalDAndJacobian t 0).bind fun r0 =>
  (tailOf r0.value).bind fun p =>
  (s.base.spline.evalDAndJacobian t der).bind fun r1 =>
  (tailOf r1.value).bind fun pdot =>
  (s.inverseOrientationAndJacobian true t).bind fun o =>
  (stackOf s.base.dim r0.jacobian r1.jacobian).bind fun Jpdot =>
  match o.jacobian with
  | none => .ub
  | some Jr =>
    (ifRequested J ((timesJac s.base.dim (-o.value * s.rotation.rateJacobian p pdot) Jpdot).map fun A => fun i q =>
      A i q + mulJac (crossMx ((-o.value).mulVec (s.rotation.rate p pdot))) Jr i q)).map fun j =>
      ⟨(-o.value).mulVec (s.rotation.rate p pdot), j, r1.indices⟩

/-- `angularVelocityAndJacobian` (257-285, `der = 1`) and `angularAccelerationAndJacobian` (335-359, `der = 2`). -/
def angularAndJacobian (s : DPose K) (J : Bool) (der : ℤ) (t : K) : Outcome (OptJacobian (Fin 3 → K) 3 K) :=
  (s.base.spline.evalDAndJacobian t 0).bind fun r0 =>
  (tailOf r0.value).bind fun p =>
  (s.base.spline.evalDAndJacobian t der).bind fun r1 =>
  (tailOf r1.value).bind fun pdot =>
  (stackOf s.base.dim r0.jacobian r1.jacobian).bind fun Jpdot =>
  (ifRequested J (timesJac s.base.dim (s.rotation.rateJacobian p pdot) Jpdot)).map fun j => ⟨s.rotation.rate p pdot, j, r1.indices⟩

/-- The calls that change a pose spline through poses: `initPoseSpline` (361-367), `addPoseSegment` (369-374), `addPoseSegment2` (376-381),
`initPoseSpline2` (423-426), `initPoseSpline3` (428-431), `initPoseSplineSparse` (433-436), `initPoseSplineSparseKnots` (438-441; the Python
function of this name is bound to `initSplineSparseKnots`, which is the same).  The points of the three before the last have six rows by type
(`Eigen::Matrix<double, 6, Eigen::Dynamic>`), those of the last have any number of rows (`Eigen::MatrixXd`). -/
inductive PoseCall (K : Type*)
  | init (t0 t1 : K) (T0 T1 : Matrix (Fin 4) (Fin 4) K)
  | init2 (times : List K) (cols : ℕ) (poses : ℕ → ℕ → K) (numSegments : ℤ) (lambda : K)
  | init3 (times : List K) (cols : ℕ) (poses : ℕ → ℕ → K) (numSegments : ℤ) (lambda : K)
  | initSparse (times : List K) (cols : ℕ) (poses : ℕ → ℕ → K) (numSegments : ℤ) (lambda : K)
  | initSparseKnots (times : List K) (points : EigenMat K) (knots : List K) (lambda : K)
  | add (t : K) (T : Matrix (Fin 4) (Fin 4) K) (junk : List K)
  | add2 (t : K) (T : Matrix (Fin 4) (Fin 4) K) (lambda : K) (junk : List K)

/-- `transformationToCurveValue` as an `Eigen::VectorXd` with six entries, BSplinePose.cpp 414-421. -/
def curveValue (rot : Rotation K) (T : Matrix (Fin 4) (Fin 4) K) : List K := List.ofFn (transformationToCurveValue rot T)

/-- The call of the base class made by a call. -/
def PoseCall.call (rot : Rotation K) : PoseCall K → DSpline.Call K
  | .init t0 t1 T0 T1 => .init t0 t1 (curveValue rot T0) (curveValue rot T1)
  | .init2 times cols poses n lambda => .init2 times ⟨6, cols, poses⟩ n lambda
  | .init3 times cols poses n lambda => .init3 times ⟨6, cols, poses⟩ n lambda
  | .initSparse times cols poses n lambda => .initSparse times ⟨6, cols, poses⟩ n lambda
  | .initSparseKnots times points knots lambda => .initSparseKnots times points knots lambda
  | .add t T junk => .append t (curveValue rot T) junk
  | .add2 t T lambda junk => .append2 t (curveValue rot T) lambda junk

/-- A program of calls through poses that catches exceptions. -/
def runPoses (solve : Solver K) (s : DPose K) (cs : List (PoseCall K)) : Outcome Unit × DPose K :=
  let r := DSpline.runCatching solve (cs.map (PoseCall.call s.rotation)) s.base
  (r.1, ⟨r.2, s.rotation⟩)

end DPose
end Verif
