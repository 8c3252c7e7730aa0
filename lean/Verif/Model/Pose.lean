import Verif.Model.BSplineFit
import Mathlib.Data.Matrix.Mul
import Mathlib.LinearAlgebra.Matrix.Notation
import Mathlib.Algebra.BigOperators.Fin

/-!
# Model of `bsplines::BSplinePose`

Source: `/repo/bsplines/src/BSplinePose.cpp`.  A pose spline is a spline with six-dimensional values: the first three
components are the position, the last three the parameters of the rotation.

Simplifications:

* The rotation parametrisation (`sm::kinematics::RotationalKinematics`, not part of the repository) is a parameter: a record
  of its five functions.  Nothing is assumed about them here.
* `crossMx`, `boxMinus` and `boxTimes` come from `sm/kinematics` (not part of the repository); they are modelled by their
  formulas.
* Fixed size Eigen vectors and matrices are functions on `Fin n` and `Matrix`; a Jacobian with respect to the local coefficients
  has a variable number of columns and is `Fin m → ℕ → K`.
* The optional outputs are always requested.
* The debug assertions on the size of a curve value hold by typing.
-/

namespace Verif

open Matrix

/-- `sm::kinematics::RotationalKinematics`: parameters to matrix, the `S` matrix, matrix to parameters, and
`angularVelocityAndJacobian` (value and Jacobian with respect to the stacked parameters and their rates). -/
structure Rotation (K : Type*) where
  toMatrix : (Fin 3 → K) → Matrix (Fin 3) (Fin 3) K
  sMatrix : (Fin 3 → K) → Matrix (Fin 3) (Fin 3) K
  ofMatrix : Matrix (Fin 3) (Fin 3) K → (Fin 3 → K)
  rate : (Fin 3 → K) → (Fin 3 → K) → (Fin 3 → K)
  rateJacobian : (Fin 3 → K) → (Fin 3 → K) → Matrix (Fin 3) (Fin 6) K

/-- A value with its Jacobian with respect to the coefficients with the given indices. -/
structure WithJacobian (α : Type*) (m : ℕ) (K : Type*) where
  value : α
  jacobian : Fin m → ℕ → K
  indices : List ℕ

/-- The data members of `BSplinePose`: the base class and `rotation_`. -/
structure Pose (K : Type*) where
  spline : BSpline K 6
  rotation : Rotation K

namespace Pose

section Algebra
variable {K : Type*}

/-- `v.head<3>()` of a vector of size 6. -/
def head (c : Fin 6 → K) : Fin 3 → K := fun i => c ⟨i.1, by omega⟩

/-- `v.tail<3>()` of a vector of size 6. -/
def tail (c : Fin 6 → K) : Fin 3 → K := fun i => c ⟨i.1 + 3, by omega⟩

/-- `T.topLeftCorner<3,3>()`. -/
def topLeft (T : Matrix (Fin 4) (Fin 4) K) : Matrix (Fin 3) (Fin 3) K := fun i j => T i.castSucc j.castSucc

/-- `T.topRightCorner<3,1>()`. -/
def topRight (T : Matrix (Fin 4) (Fin 4) K) : Fin 3 → K := fun i => T i.castSucc 3

/-- `T.topLeftCorner<3,3>() = R`. -/
def setTopLeft (T : Matrix (Fin 4) (Fin 4) K) (R : Matrix (Fin 3) (Fin 3) K) : Matrix (Fin 4) (Fin 4) K := fun i j =>
  if h : i.1 < 3 ∧ j.1 < 3 then R ⟨i, h.1⟩ ⟨j, h.2⟩ else T i j

/-- `T.topRightCorner<3,1>() = p`. -/
def setTopRight (T : Matrix (Fin 4) (Fin 4) K) (p : Fin 3 → K) : Matrix (Fin 4) (Fin 4) K := fun i j =>
  if h : i.1 < 3 ∧ j.1 = 3 then p ⟨i, h.1⟩ else T i j

/-- A 6 × 6 matrix of four 3 × 3 blocks. -/
def blocks6 (A B C D : Matrix (Fin 3) (Fin 3) K) : Matrix (Fin 6) (Fin 6) K := fun i j =>
  if hi : i.1 < 3 then (if hj : j.1 < 3 then A ⟨i, hi⟩ ⟨j, hj⟩ else B ⟨i, hi⟩ ⟨j.1 - 3, by omega⟩)
  else (if hj : j.1 < 3 then C ⟨i.1 - 3, by omega⟩ ⟨j, hj⟩ else D ⟨i.1 - 3, by omega⟩ ⟨j.1 - 3, by omega⟩)

variable [Field K]

/-- `sm::kinematics::crossMx`: the matrix of the cross product with `v`. -/
def crossMx (v : Fin 3 → K) : Matrix (Fin 3) (Fin 3) K :=
  !![0, -v 2, v 1; v 2, 0, -v 0; -v 1, v 0, 0]

/-- `sm::kinematics::boxMinus` of a homogeneous point: the 4 × 6 matrix `[p₃ I, crossMx(p); 0, 0]`. -/
def boxMinus (p : Fin 4 → K) : Matrix (Fin 4) (Fin 6) K := fun i j =>
  if hi : i.1 < 3 then
    (if hj : j.1 < 3 then (if i.1 = j.1 then p 3 else 0)
     else crossMx (fun k : Fin 3 => p k.castSucc) ⟨i, hi⟩ ⟨j.1 - 3, by omega⟩)
  else 0

/-- `sm::kinematics::boxTimes` of a transformation with rotation `C` and translation `r`:
the 6 × 6 matrix `[C, -crossMx(r) C; 0, C]`. -/
def boxTimes (T : Matrix (Fin 4) (Fin 4) K) : Matrix (Fin 6) (Fin 6) K :=
  blocks6 (topLeft T) (-(crossMx (topRight T) * topLeft T)) 0 (topLeft T)

/-- Product of a fixed size matrix with a Jacobian stored with a dynamic number of columns. -/
def mulJac {m n : ℕ} (A : Matrix (Fin m) (Fin n) K) (J : Fin n → ℕ → K) : Fin m → ℕ → K := fun r q =>
  ∑ k, A r k * J k q

/-- The Jacobian returned by `evalDAndJacobian`, as a matrix with six rows. -/
def rows6 (J : Mat K) : Fin 6 → ℕ → K := fun r q => J r q

/-- `curveValueToTransformation`, BSplinePose.cpp 384-392. -/
def curveValueToTransformation (rot : Rotation K) (c : Fin 6 → K) : Matrix (Fin 4) (Fin 4) K :=
  setTopRight (setTopLeft 1 (rot.toMatrix (tail c))) (head c)

/-- The Jacobian of `curveValueToTransformationAndJacobian`, BSplinePose.cpp 394-411. -/
def curveValueJacobian (rot : Rotation K) (c : Fin 6 → K) : Matrix (Fin 6) (Fin 6) K :=
  blocks6 1 (-(crossMx (head c)) * rot.sMatrix (tail c)) 0 (rot.sMatrix (tail c))

/-- `transformationToCurveValue`, BSplinePose.cpp 414-421. -/
def transformationToCurveValue (rot : Rotation K) (T : Matrix (Fin 4) (Fin 4) K) : Fin 6 → K := fun i =>
  if h : i.1 < 3 then topRight T ⟨i, h⟩ else rot.ofMatrix (topLeft T) ⟨i.1 - 3, by omega⟩

/-- The in-place inversion of a transformation, BSplinePose.cpp 97-98 and 117-118: transpose the rotation, then
replace the translation by minus the (already transposed) rotation times the translation. -/
def invertInPlace (T : Matrix (Fin 4) (Fin 4) K) : Matrix (Fin 4) (Fin 4) K :=
  let T1 := setTopLeft T (topLeft T)ᵀ
  setTopRight T1 ((-(topLeft T1)).mulVec (topRight T1))

/-- The matrix `JO`: zero with `S` in the last three columns (BSplinePose.cpp 53-54, 73-74). -/
def orientationBlock (S : Matrix (Fin 3) (Fin 3) K) : Matrix (Fin 3) (Fin 6) K := fun i j =>
  if h : 3 ≤ j.1 then S i ⟨j.1 - 3, by omega⟩ else 0

/-- `Jpdot.block(0,0,3,cols) = Jp.block(3,0,3,cols)`, e.g. BSplinePose.cpp 239. -/
def stackJac (Jp Jpdot : Fin 6 → ℕ → K) : Fin 6 → ℕ → K := fun r q =>
  if h : r.1 < 3 then Jp ⟨r.1 + 3, by omega⟩ q else Jpdot r q

end Algebra

variable {K : Type*} [Field K] [LinearOrder K]

/-- `transformation`, BSplinePose.cpp 21-24. -/
def transformation (s : Pose K) (t : K) : Outcome (Matrix (Fin 4) (Fin 4) K) :=
  (s.spline.eval t).map (curveValueToTransformation s.rotation)

/-- `transformationAndJacobian`, BSplinePose.cpp 26-41. -/
def transformationAndJacobian (s : Pose K) (t : K) : Outcome (WithJacobian (Matrix (Fin 4) (Fin 4) K) 6 K) :=
  (s.spline.evalDAndJacobian t 0).map fun r =>
    { value := curveValueToTransformation s.rotation r.value
      jacobian := mulJac (curveValueJacobian s.rotation r.value) (rows6 r.jacobian)
      indices := r.indices }

/-- `orientationAndJacobian`, BSplinePose.cpp 43-61. -/
def orientationAndJacobian (s : Pose K) (t : K) : Outcome (WithJacobian (Matrix (Fin 3) (Fin 3) K) 3 K) :=
  (s.spline.evalDAndJacobian t 0).map fun r =>
    { value := s.rotation.toMatrix (tail r.value)
      jacobian := mulJac (orientationBlock (s.rotation.sMatrix (tail r.value))) (rows6 r.jacobian)
      indices := r.indices }

/-- `inverseOrientationAndJacobian`, BSplinePose.cpp 64-83. -/
def inverseOrientationAndJacobian (s : Pose K) (t : K) : Outcome (WithJacobian (Matrix (Fin 3) (Fin 3) K) 3 K) :=
  (s.spline.evalDAndJacobian t 0).map fun r =>
    let C := (s.rotation.toMatrix (tail r.value))ᵀ
    { value := C
      jacobian := mulJac (-C * orientationBlock (s.rotation.sMatrix (tail r.value))) (rows6 r.jacobian)
      indices := r.indices }

/-- `inverseTransformationAndJacobian`, BSplinePose.cpp 86-111. -/
def inverseTransformationAndJacobian (s : Pose K) (t : K) : Outcome (WithJacobian (Matrix (Fin 4) (Fin 4) K) 6 K) :=
  (s.spline.evalDAndJacobian t 0).bind fun r =>
  (s.spline.localCoefficientVectorIndices t).map fun idx =>
    let T := invertInPlace (curveValueToTransformation s.rotation r.value)
    { value := T
      jacobian := mulJac (-(boxTimes T) * curveValueJacobian s.rotation r.value) (rows6 r.jacobian)
      indices := idx }

/-- `inverseTransformation`, BSplinePose.cpp 114-120. -/
def inverseTransformation (s : Pose K) (t : K) : Outcome (Matrix (Fin 4) (Fin 4) K) :=
  (s.spline.eval t).map fun c => invertInPlace (curveValueToTransformation s.rotation c)

/-- `transformVectorAndJacobian`, BSplinePose.cpp 124-136. -/
def transformVectorAndJacobian (s : Pose K) (t : K) (v : Fin 4 → K) : Outcome (WithJacobian (Fin 4 → K) 4 K) :=
  (s.transformationAndJacobian t).map fun r =>
    let vn := r.value.mulVec v
    { value := vn, jacobian := mulJac (boxMinus vn) r.jacobian, indices := r.indices }

/-- `position`, BSplinePose.cpp 139-142. -/
def position (s : Pose K) (t : K) : Outcome (Fin 3 → K) := (s.spline.eval t).map head

/-- `orientation`, BSplinePose.cpp 146-149. -/
def orientation (s : Pose K) (t : K) : Outcome (Matrix (Fin 3) (Fin 3) K) :=
  (s.spline.eval t).map fun c => s.rotation.toMatrix (tail c)

/-- `inverseOrientation`, BSplinePose.cpp 151-154. -/
def inverseOrientation (s : Pose K) (t : K) : Outcome (Matrix (Fin 3) (Fin 3) K) :=
  (s.spline.eval t).map fun c => (s.rotation.toMatrix (tail c))ᵀ

/-- `linearVelocity`, BSplinePose.cpp 158-161. -/
def linearVelocity (s : Pose K) (t : K) : Outcome (Fin 3 → K) := (s.spline.evalD t 1).map head

/-- `linearVelocityBodyFrame`, BSplinePose.cpp 163-168. -/
def linearVelocityBodyFrame (s : Pose K) (t : K) : Outcome (Fin 3 → K) :=
  (s.spline.evalD t 0).bind fun r =>
  (s.spline.evalD t 1).map fun v => (s.rotation.toMatrix (tail r))ᵀ.mulVec (head v)

/-- `linearAcceleration`, BSplinePose.cpp 170-173. -/
def linearAcceleration (s : Pose K) (t : K) : Outcome (Fin 3 → K) := (s.spline.evalD t 2).map head

/-- `linearAccelerationBodyFrame`, BSplinePose.cpp 175-180. -/
def linearAccelerationBodyFrame (s : Pose K) (t : K) : Outcome (Fin 3 → K) :=
  (s.spline.evalD t 0).bind fun r =>
  (s.spline.evalD t 2).map fun a => (s.rotation.toMatrix (tail r))ᵀ.mulVec (head a)

/-- `linearAccelerationAndJacobian`, BSplinePose.cpp 182-191: the first three rows of the spline Jacobian. -/
def linearAccelerationAndJacobian (s : Pose K) (t : K) : Outcome (WithJacobian (Fin 3 → K) 3 K) :=
  (s.spline.evalDAndJacobian t 2).map fun r =>
    { value := head r.value, jacobian := fun i q => r.jacobian i q, indices := r.indices }

/-- `angularVelocity`, BSplinePose.cpp 195-204. -/
def angularVelocity (s : Pose K) (t : K) : Outcome (Fin 3 → K) :=
  (s.spline.evalD t 0).bind fun r =>
  (s.spline.evalD t 1).map fun v => (-(s.rotation.sMatrix (tail r))).mulVec (tail v)

/-- `angularVelocityBodyFrame`, BSplinePose.cpp 207-219. -/
def angularVelocityBodyFrame (s : Pose K) (t : K) : Outcome (Fin 3 → K) :=
  (s.spline.evalD t 0).bind fun r =>
  (s.spline.evalD t 1).map fun v =>
    (-(s.rotation.toMatrix (tail r))ᵀ * s.rotation.sMatrix (tail r)).mulVec (tail v)

/-- Common body of `angularVelocityBodyFrameAndJacobian` (BSplinePose.cpp 222-253, `der = 1`) and
`angularAccelerationBodyFrameAndJacobian` (303-331, `der = 2`). -/
def angularBodyFrameAndJacobian (s : Pose K) (t : K) (der : ℤ) : Outcome (WithJacobian (Fin 3 → K) 3 K) :=
  (s.spline.evalDAndJacobian t 0).bind fun r0 =>
  (s.spline.evalDAndJacobian t der).bind fun r1 =>
  (s.inverseOrientationAndJacobian t).map fun o =>
    let p := tail r0.value
    let pdot := tail r1.value
    let omega := (-o.value).mulVec (s.rotation.rate p pdot)
    let Jo := -o.value * s.rotation.rateJacobian p pdot
    { value := omega
      jacobian := fun i q => mulJac Jo (stackJac (rows6 r0.jacobian) (rows6 r1.jacobian)) i q
        + mulJac (crossMx omega) o.jacobian i q
      indices := r1.indices }

/-- Common body of `angularVelocityAndJacobian` (BSplinePose.cpp 257-285, `der = 1`) and
`angularAccelerationAndJacobian` (335-359, `der = 2`). -/
def angularAndJacobian (s : Pose K) (t : K) (der : ℤ) : Outcome (WithJacobian (Fin 3 → K) 3 K) :=
  (s.spline.evalDAndJacobian t 0).bind fun r0 =>
  (s.spline.evalDAndJacobian t der).map fun r1 =>
    let p := tail r0.value
    let pdot := tail r1.value
    { value := s.rotation.rate p pdot
      jacobian := mulJac (s.rotation.rateJacobian p pdot) (stackJac (rows6 r0.jacobian) (rows6 r1.jacobian))
      indices := r1.indices }

/-- `angularVelocityBodyFrameAndJacobian`, BSplinePose.cpp 222-253. -/
def angularVelocityBodyFrameAndJacobian (s : Pose K) (t : K) : Outcome (WithJacobian (Fin 3 → K) 3 K) :=
  s.angularBodyFrameAndJacobian t 1

/-- `angularVelocityAndJacobian`, BSplinePose.cpp 257-285. -/
def angularVelocityAndJacobian (s : Pose K) (t : K) : Outcome (WithJacobian (Fin 3 → K) 3 K) :=
  s.angularAndJacobian t 1

/-- `angularAccelerationBodyFrame`, BSplinePose.cpp 288-301. -/
def angularAccelerationBodyFrame (s : Pose K) (t : K) : Outcome (Fin 3 → K) :=
  (s.spline.evalD t 0).bind fun r =>
  (s.spline.evalD t 2).map fun v =>
    (-(s.rotation.toMatrix (tail r))ᵀ * s.rotation.sMatrix (tail r)).mulVec (tail v)

/-- `angularAccelerationBodyFrameAndJacobian`, BSplinePose.cpp 303-331. -/
def angularAccelerationBodyFrameAndJacobian (s : Pose K) (t : K) : Outcome (WithJacobian (Fin 3 → K) 3 K) :=
  s.angularBodyFrameAndJacobian t 2

/-- `angularAccelerationAndJacobian`, BSplinePose.cpp 335-359. -/
def angularAccelerationAndJacobian (s : Pose K) (t : K) : Outcome (WithJacobian (Fin 3 → K) 3 K) :=
  s.angularAndJacobian t 2

/-- `initPoseSpline`, BSplinePose.cpp 361-367. -/
def initPoseSpline (solve : Solver K) (s : Pose K) (t0 t1 : K) (T0 T1 : Matrix (Fin 4) (Fin 4) K) : Outcome (Pose K) :=
  (s.spline.initSpline solve t0 t1 (transformationToCurveValue s.rotation T0)
    (transformationToCurveValue s.rotation T1)).map fun b => { s with spline := b }

/-- `addPoseSegment`, BSplinePose.cpp 369-374 (`junk`: see `addCurveSegment`). -/
def addPoseSegment (solve : Solver K) (s : Pose K) (t : K) (T : Matrix (Fin 4) (Fin 4) K) (junk : Fin 6 → K) :
    Outcome (Pose K) :=
  (s.spline.addCurveSegment solve t (transformationToCurveValue s.rotation T) junk).map fun b => { s with spline := b }

end Pose
end Verif
