import Verif.Model.SplineVariables
import Verif.Model.PoseExpressions

/-!
# Model of expressions that outlive changes of their spline

Source: `/repo/aslam_splines/include/aslam/splines/implementation/BSplineDesignVariable.hpp` 46-73,
`/repo/aslam_splines/src/BSplinePoseDesignVariable.cpp` 45-177, 211-223, `/repo/aslam_splines/src/EuclideanBSplineDesignVariable.cpp` 20-31,
`/repo/aslam_splines/include/aslam/splines/implementation/BSplineExpressions.hpp` and `/repo/aslam_splines/src/BSplineExpressions.cpp`.

`Model/PoseExpressions` and `Model/SimpleErrors` describe an expression and the spline at one moment and name a design variable by
the index of its coefficient.  Here the design variables are objects (serial numbers as in `Model/SplineVariables`), and an expression is
kept while segments are added and removed:

* an expression for a constant time holds a pointer to the spline, pointers to the design variables of the coefficients active
  when it was made, and the time;
* the expression for a moving time (`TransformationTimeOffsetExpressionNode`) holds a pointer to the object that owns the
  spline and the design variables, the indices of coefficients, and the limits of its window; it asks the object for the design
  variables by index each time.

Assumed of the external class `JacobianContainer`: `add(designVariable, block)` uses the design variable (it asks whether it is
active and where its block is), so adding a block for a destroyed design variable is undefined behaviour.
`set_t` is a set of pointers; inserting a pointer does not use the object.
-/

namespace Verif

open BSpline Matrix

/-- The members of the expression nodes for a constant time, besides the pointer to the spline: `_designVariables`, `_time`, and the
order of the derivative (nodes without a derivative order: zero). -/
structure VarNode (K : Type*) where
  vars : List ℕ
  time : K
  order : ℤ

namespace SplineVars

variable {K : Type*} [Field K] [LinearOrder K] {D : ℕ}

/-- `&_designVariables[i]`: indexing beyond the end is undefined behaviour. -/
def pointer (v : SplineVars K D) (i : ℕ) : Outcome ℕ :=
  match v.vars[i]? with
  | none => .ub
  | some x => .ok x.serial

/-- The loop `dvs.push_back(&_designVariables[dvidxs[i]])`. -/
def pointers (v : SplineVars K D) : List ℕ → Outcome (List ℕ)
  | [] => .ok []
  | i :: is => (v.pointer i).bind fun n => (v.pointers is).map fun ns => n :: ns

/-- `toExpression(tk, derivativeOrder)`, BSplineDesignVariable.hpp 46-60; `toEuclideanExpression`,
EuclideanBSplineDesignVariable.cpp 20-31; `transformation(tk)`, `orientation(tk)`, `position(tk)` and so on,
BSplinePoseDesignVariable.cpp 62-177. -/
def toExpression (v : SplineVars K D) (t : K) (order : ℤ) : Outcome (VarNode K) :=
  (v.spline.localVvCoefficientVectorIndices t).bind fun is => (v.pointers is).map fun l => ⟨l, t, order⟩

/-- The design variable exists. -/
def alive (v : SplineVars K D) (n : ℕ) : Bool := v.vars.any fun x => x.serial == n

/-- The loop `outJacobians.add(_designVariables[i], …)` uses the design variables. -/
def touch {α : Type*} (v : SplineVars K D) (vars : List ℕ) (r : α) : Outcome α :=
  if vars.all v.alive then .ok r else .ub

/-- The pose spline of a `BSplinePoseDesignVariable`. -/
def pose (v : SplineVars K 6) (R : Rotation K) : Pose K := ⟨v.spline, R⟩

/-- `getDesignVariablesImplementation` of the time offset expression, BSplineExpressions.cpp 391-400 (without those of the time):
`designVariable(i)` throws for an index out of bounds. -/
def windowVariables (v : SplineVars K D) : List ℕ → Outcome (List ℕ)
  | [] => .ok []
  | i :: is => (v.designVariable i).bind fun x => (v.windowVariables is).map fun ns => x.serial :: ns

end SplineVars

namespace VarNode

variable {K : Type*} [Field K] [LinearOrder K] {D : ℕ}

/-- `evaluateImplementation` of the expression of a plain spline, BSplineExpressions.hpp 18-22 (and BSplineExpressions.cpp 417-420). -/
def value (n : VarNode K) (v : SplineVars K D) : Outcome (Fin D → K) := v.spline.evalD n.time n.order

/-- `evaluateJacobiansImplementation` of the expression of a plain spline, BSplineExpressions.hpp 25-35 (and BSplineExpressions.cpp
422-432). -/
def jacobians (n : VarNode K) (v : SplineVars K D) : Outcome (Emission D D K) :=
  (v.spline.evalDAndJacobian n.time n.order).bind fun r =>
    if n.vars.length ≤ v.spline.order then
      v.touch n.vars (Pose.emitBlocks D n.vars (fun (i : Fin D) q => r.jacobian i q))
    else .ub

/-- `BSplineTransformationExpressionNode`: value, BSplineExpressions.cpp 18-21. -/
def transformation (n : VarNode K) (v : SplineVars K 6) (R : Rotation K) : Outcome (Matrix (Fin 4) (Fin 4) K) :=
  (v.pose R).transformationNodeValue n.time

/-- `BSplineTransformationExpressionNode`: Jacobians, BSplineExpressions.cpp 23-31. -/
def transformationJacobians (n : VarNode K) (v : SplineVars K 6) (R : Rotation K) : Outcome (Emission 6 6 K) :=
  ((v.pose R).transformationNodeJacobians n.vars n.time).bind (v.touch n.vars)

end VarNode

namespace SplineVars

variable {K : Type*} [Field K] [LinearOrder K]

/-- `toTransformationMatrixImplementation` of the time offset expression, BSplineExpressions.cpp 336-340. -/
def windowValue (v : SplineVars K 6) (R : Rotation K) (w : Pose.TimeWindow K) (t : K) : Outcome (Matrix (Fin 4) (Fin 4) K) :=
  (v.pose R).timeOffsetValue w t

/-- `evaluateJacobiansImplementation` of the time offset expression, BSplineExpressions.cpp 342-389: the blocks, each with the design
variable that the object has at that index now. -/
def windowJacobians (v : SplineVars K 6) (R : Rotation K) (w : Pose.TimeWindow K) (t : K) : Outcome (Emission 6 6 K) :=
  ((v.pose R).timeOffsetJacobians w t).bind fun em =>
    (v.windowVariables (em.blocks.map Prod.fst)).map fun ns => ns.zip (em.blocks.map Prod.snd)

end SplineVars
end Verif
