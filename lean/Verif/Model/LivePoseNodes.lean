import Verif.Model.LiveExpressions

/-!
# Model: the expressions for a constant time of a pose spline that changes

Source: `/repo/aslam_splines/src/BSplineExpressions.cpp` 58-75, 100-117, 143-160, 188-205, 228-244, 266-283, 454-466, and
`/repo/aslam_splines/src/BSplinePoseDesignVariable.cpp` 60-191 (the functions that create them; all collect the design variables as
`SplineVars.toExpression` does).

Like the expression for the transformation in `Model/LiveExpressions`: a node keeps the pointers of the design variables active at its time when it
was made, reads the spline as it is now, and uses the pointers when it adds its blocks.
-/

namespace Verif

/-- The expressions of a pose spline with three components. -/
inductive PoseVector
  | position
  | velocity
  | acceleration
  | accelerationBody
  | angularVelocityBody
  | angularAccelerationBody
  deriving DecidableEq

namespace PoseVector

variable {K : Type*} [Field K] [LinearOrder K]

/-- The `toEuclideanImplementation` of the nodes, BSplineExpressions.cpp 100-104, 143-147, 188-192, 228-231, 266-270, 454-456. -/
def value : PoseVector → Pose K → K → Outcome (Fin 3 → K)
  | .position, s, t => s.euclideanNodeValue t 0
  | .velocity, s, t => s.euclideanNodeValue t 1
  | .acceleration, s, t => s.euclideanNodeValue t 2
  | .accelerationBody, s, t => s.accelerationBodyNodeValue t
  | .angularVelocityBody, s, t => s.angularVelocityBodyNodeValue t
  | .angularAccelerationBody, s, t => s.angularAccelerationBodyNodeValue t

/-- The `evaluateJacobiansImplementation` of the nodes, BSplineExpressions.cpp 106-117, 149-160, 194-205, 233-244, 272-283, 458-466. -/
def jacobians : PoseVector → Pose K → List ℕ → K → Outcome (Emission 3 6 K)
  | .position, s, dvs, t => s.euclideanNodeJacobians dvs t 0
  | .velocity, s, dvs, t => s.euclideanNodeJacobians dvs t 1
  | .acceleration, s, dvs, t => s.euclideanNodeJacobians dvs t 2
  | .accelerationBody, s, dvs, t => s.accelerationBodyNodeJacobians dvs t
  | .angularVelocityBody, s, dvs, t => s.angularVelocityBodyNodeJacobians dvs t
  | .angularAccelerationBody, s, dvs, t => s.angularAccelerationBodyNodeJacobians dvs t

end PoseVector

namespace VarNode

variable {K : Type*} [Field K] [LinearOrder K]

/-- `BSplineRotationExpressionNode`: value, BSplineExpressions.cpp 58-61. -/
def rotation (n : VarNode K) (v : SplineVars K 6) (R : Rotation K) : Outcome (Matrix (Fin 3) (Fin 3) K) :=
  (v.pose R).rotationNodeValue n.time

/-- `BSplineRotationExpressionNode`: Jacobians, BSplineExpressions.cpp 63-75. -/
def rotationJacobians (n : VarNode K) (v : SplineVars K 6) (R : Rotation K) : Outcome (Emission 3 6 K) :=
  ((v.pose R).rotationNodeJacobians n.vars n.time).bind (v.touch n.vars)

/-- The value of an expression with three components, now. -/
def vector (n : VarNode K) (q : PoseVector) (v : SplineVars K 6) (R : Rotation K) : Outcome (Fin 3 → K) := q.value (v.pose R) n.time

/-- The blocks an expression with three components adds, now. -/
def vectorJacobians (n : VarNode K) (q : PoseVector) (v : SplineVars K 6) (R : Rotation K) : Outcome (Emission 3 6 K) :=
  (q.jacobians (v.pose R) n.vars n.time).bind (v.touch n.vars)

end VarNode
end Verif
