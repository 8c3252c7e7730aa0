import Verif.Model.Pose

/-!
# Model of the spline expressions of `aslam_splines`

Source: `/repo/aslam_splines/src/BSplineExpressions.cpp`, `/repo/aslam_splines/src/BSplineRSExpressions.cpp`,
`/repo/aslam_splines/src/BSplinePoseDesignVariable.cpp`.

Simplifications:

* A design variable is represented by the index of its coefficient.  What an expression adds to the
  `JacobianContainer` (`aslam_backend`, not part of the repository) is the list of the pairs of design variable and block, in
  the order of the calls to `add`.
* Blocks read beyond the columns of a Jacobian are undefined behaviour.
* The scalar time expression is represented by its value; `_time.evaluateJacobians(outJacobians, v)` is represented by
  the chain rule factor `v`.
* The debug assertions on the sizes of the Jacobians are omitted.
-/

namespace Verif

open Matrix

/-- The calls `outJacobians.add(designVariable, block)` of an expression with `m` rows and blocks of `D` columns. -/
abbrev Emission (m D : ℕ) (K : Type*) := List (ℕ × Matrix (Fin m) (Fin D) K)

namespace Pose

section
variable {K : Type*}

/-- The loop `outJacobians.add(dvs[i], J.block<m,D>(0, i*D))`, e.g. BSplineExpressions.cpp 27-30. -/
def emitBlocks {m : ℕ} (D : ℕ) (dvs : List ℕ) (J : Fin m → ℕ → K) : Emission m D K :=
  dvs.zipIdx.map fun p => (p.1, Matrix.of fun r c => J r (p.2 * D + c))

end

variable {K : Type*} [Field K] [LinearOrder K]

/-- `getDesignVariables(tk)` and the same loop in the functions creating expressions,
BSplinePoseDesignVariable.cpp 45-191: the design variables of the coefficients active at a time. -/
def activeVariables (s : Pose K) (t : K) : Outcome (List ℕ) := s.spline.localVvCoefficientVectorIndices t

/-- Emission of a Jacobian for the design variables of a node; a node with more design variables than the order reads beyond
the columns. -/
def emitFor {α : Type*} {m : ℕ} (s : Pose K) (dvs : List ℕ) (r : WithJacobian α m K) : Outcome (Emission m 6 K) :=
  if dvs.length ≤ s.spline.order then .ok (emitBlocks 6 dvs r.jacobian) else .ub

/-- `BSplineTransformationExpressionNode`, BSplineExpressions.cpp 18-31: value. -/
def transformationNodeValue (s : Pose K) (t : K) : Outcome (Matrix (Fin 4) (Fin 4) K) := s.transformation t

/-- `BSplineTransformationExpressionNode`, BSplineExpressions.cpp 23-31: Jacobians. -/
def transformationNodeJacobians (s : Pose K) (dvs : List ℕ) (t : K) : Outcome (Emission 6 6 K) :=
  (s.transformationAndJacobian t).bind (s.emitFor dvs)

/-- `BSplineRotationExpressionNode`, BSplineExpressions.cpp 58-61: value. -/
def rotationNodeValue (s : Pose K) (t : K) : Outcome (Matrix (Fin 3) (Fin 3) K) := s.orientation t

/-- `BSplineRotationExpressionNode`, BSplineExpressions.cpp 63-75: Jacobians. -/
def rotationNodeJacobians (s : Pose K) (dvs : List ℕ) (t : K) : Outcome (Emission 3 6 K) :=
  (s.orientationAndJacobian t).bind (s.emitFor dvs)

/-- The values of the position (`der = 0`, BSplineExpressions.cpp 100-104), velocity (`der = 1`, 143-147) and acceleration
(`der = 2`, 188-192) nodes. -/
def euclideanNodeValue (s : Pose K) (t : K) (der : ℤ) : Outcome (Fin 3 → K) := (s.spline.evalD t der).map head

/-- The Jacobians of the position (BSplineExpressions.cpp 106-117), velocity (149-160) and acceleration (194-205) nodes:
the first three rows of the spline Jacobian. -/
def euclideanNodeJacobians (s : Pose K) (dvs : List ℕ) (t : K) (der : ℤ) : Outcome (Emission 3 6 K) :=
  (s.spline.evalDAndJacobian t der).bind fun r =>
    s.emitFor dvs { value := (), jacobian := fun (i : Fin 3) q => r.jacobian i q, indices := r.indices }

/-- `BSplineAccelerationBodyFrameExpressionNode`, BSplineExpressions.cpp 228-231: value. -/
def accelerationBodyNodeValue (s : Pose K) (t : K) : Outcome (Fin 3 → K) := s.linearAccelerationBodyFrame t

/-- `BSplineAccelerationBodyFrameExpressionNode`, BSplineExpressions.cpp 233-244: Jacobians (the same as those of the
acceleration node). -/
def accelerationBodyNodeJacobians (s : Pose K) (dvs : List ℕ) (t : K) : Outcome (Emission 3 6 K) :=
  (s.spline.evalDAndJacobian t 2).bind fun r =>
    s.emitFor dvs { value := (), jacobian := fun (i : Fin 3) q => r.jacobian i q, indices := r.indices }

/-- `BSplineAngularVelocityBodyFrameExpressionNode`, BSplineExpressions.cpp 266-270: value. -/
def angularVelocityBodyNodeValue (s : Pose K) (t : K) : Outcome (Fin 3 → K) := s.angularVelocityBodyFrame t

/-- `BSplineAngularVelocityBodyFrameExpressionNode`, BSplineExpressions.cpp 272-283: Jacobians. -/
def angularVelocityBodyNodeJacobians (s : Pose K) (dvs : List ℕ) (t : K) : Outcome (Emission 3 6 K) :=
  (s.angularVelocityBodyFrameAndJacobian t).bind (s.emitFor dvs)

/-- `BSplineAngularAccelerationBodyFrameExpressionNode`, BSplineExpressions.cpp 454-456: value. -/
def angularAccelerationBodyNodeValue (s : Pose K) (t : K) : Outcome (Fin 3 → K) := s.angularAccelerationBodyFrame t

/-- `BSplineAngularAccelerationBodyFrameExpressionNode`, BSplineExpressions.cpp 458-466: Jacobians. -/
def angularAccelerationBodyNodeJacobians (s : Pose K) (dvs : List ℕ) (t : K) : Outcome (Emission 3 6 K) :=
  (s.angularAccelerationBodyFrameAndJacobian t).bind (s.emitFor dvs)

/-- `BSplineEuclideanExpressionNode`, BSplineExpressions.cpp 417-420: value (for a spline with three components). -/
def vectorNodeValue (b : BSpline K 3) (t : K) (der : ℤ) : Outcome (Fin 3 → K) := b.evalD t der

/-- `BSplineEuclideanExpressionNode`, BSplineExpressions.cpp 422-432: Jacobians. -/
def vectorNodeJacobians (b : BSpline K 3) (dvs : List ℕ) (t : K) (der : ℤ) : Outcome (Emission 3 3 K) :=
  (b.evalDAndJacobian t der).bind fun r =>
    if dvs.length ≤ b.order then .ok (emitBlocks 3 dvs (fun (i : Fin 3) q => r.jacobian i q)) else .ub

/-! ## Expressions with a moving time -/

/-- The members of `TransformationTimeOffsetExpressionNode` set by its constructor: `_bufferTmin`, `_bufferTmax`,
`_localCoefficientIndices`. -/
structure TimeWindow (K : Type*) where
  tmin : K
  tmax : K
  indices : List ℕ

/-- The constructor of `TransformationTimeOffsetExpressionNode`, BSplineExpressions.cpp 297-328.  `lo`, `hi` are the
margins, `init` the time at construction.  An index range that ends more than one before its beginning is a vector of negative
size (undefined behaviour). -/
def timeWindow (s : Pose K) (init lo hi : K) : Outcome (TimeWindow K) :=
  let b := s.spline
  b.tMax.bind fun tmax =>
  (if tmax < hi + init then .ok ((b.numValidTimeSegments : ℤ) - 1)
    else (b.segmentIndex (init + hi)).map fun i : ℕ => (i : ℤ)).bind fun right =>
  b.tMin.bind fun tmin =>
  (if init - lo < tmin then .ok (0 : ℤ)
    else (b.segmentIndex (init - lo)).map fun i : ℕ => (i : ℤ)).bind fun left =>
  (b.timeIntervalOf right).bind fun ri =>
  (b.timeIntervalOf left).bind fun li =>
  (b.localVvCoefficientVectorIndices ((li.1 + li.2) / 2)).bind fun leftCoeff =>
  (b.localVvCoefficientVectorIndices ((ri.1 + ri.2) / 2)).bind fun rightCoeff =>
    match leftCoeff.head?, rightCoeff.getLast? with
    | some l, some r =>
      if r + 1 < l then .ub
      else .ok { tmin := li.1, tmax := ri.2, indices := (List.range (r + 1 - l)).map (fun i => l + i) }
    | _, _ => .ub

/-- `toTransformationMatrixImplementation`, BSplineExpressions.cpp 336-340. -/
def timeOffsetValue (s : Pose K) (w : TimeWindow K) (t : K) : Outcome (Matrix (Fin 4) (Fin 4) K) :=
  if w.tmin ≤ t ∧ t < w.tmax then s.transformation t else .throws

/-- What a node with a moving time adds: blocks for the design variables and the factor for the time variable. -/
structure TimedEmission (K : Type*) where
  blocks : Emission 6 6 K
  timeColumn : Fin 6 → K

/-- One iteration of the loop BSplineExpressions.cpp 371-382; the counter `j` counts the emitted nonzero blocks. -/
def windowStep (J : Fin 6 → ℕ → K) (minIdx maxIdx : ℕ) (acc : ℕ × Emission 6 6 K) (idx : ℕ) : ℕ × Emission 6 6 K :=
  if minIdx ≤ idx ∧ idx ≤ maxIdx then (acc.1 + 1, acc.2 ++ [(idx, Matrix.of fun r (c : Fin 6) => J r (acc.1 * 6 + c))])
  else (acc.1, acc.2 ++ [(idx, 0)])

/-- `evaluateJacobiansImplementation` of the time offset node, BSplineExpressions.cpp 342-389. `designVariable(i)` throws for
an index out of bounds. -/
def timeOffsetJacobians (s : Pose K) (w : TimeWindow K) (t : K) : Outcome (TimedEmission K) :=
  if w.tmin ≤ t ∧ t < w.tmax then
    (s.spline.localVvCoefficientVectorIndices t).bind fun dvidxs =>
    (s.spline.evalDAndJacobian t 0).bind fun r =>
      let JT := curveValueJacobian s.rotation r.value
      match dvidxs.head?, dvidxs.getLast? with
      | some minIdx, some maxIdx =>
        if w.indices.all (fun i => decide (i < s.spline.coeffs.length)) then
          let out := w.indices.foldl (windowStep (mulJac JT (rows6 r.jacobian)) minIdx maxIdx) (0, [])
          (s.spline.evalD t 1).map fun d => { blocks := out.2, timeColumn := JT.mulVec d }
        else .throws
      | _, _ => .ub
  else .throws

/-- `toTransformationMatrixImplementation` of the rolling shutter node, BSplineRSExpressions.cpp 27-33
(`LINEDELAY_UNIT` is 1). -/
def rollingShutterValue (s : Pose K) (start line lineDelay : K) : Outcome (Matrix (Fin 4) (Fin 4) K) :=
  s.transformation (lineDelay * 1 * line + start)

/-- `evaluateJacobiansImplementation` of the rolling shutter node, BSplineRSExpressions.cpp 35-62; the column is the
Jacobian with respect to the line delay. -/
def rollingShutterJacobians (s : Pose K) (start line lineDelay : K) : Outcome (TimedEmission K) :=
  let t := lineDelay * 1 * line + start
  (s.spline.localVvCoefficientVectorIndices t).bind fun dvidxs =>
  (s.spline.evalDAndJacobian t 0).bind fun r =>
    let JT := curveValueJacobian s.rotation r.value
    if dvidxs.all (fun i => decide (i < s.spline.coeffs.length)) then
      (s.spline.evalD t 1).map fun d =>
        { blocks := emitBlocks 6 dvidxs (mulJac JT (rows6 r.jacobian))
          timeColumn := fun i => JT.mulVec d i * line * 1 }
    else .throws

/-- The design variables announced by the rolling shutter node, BSplineRSExpressions.cpp 64-73 (without the line delay). -/
def rollingShutterVariables (s : Pose K) (start line lineDelay : K) : Outcome (List ℕ) :=
  s.spline.localVvCoefficientVectorIndices (lineDelay * 1 * line + start)

end Pose
end Verif
