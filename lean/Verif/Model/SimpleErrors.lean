import Verif.Model.PoseExpressions

/-!
# Model: expressions of plain splines and the simple error term

Source: `/repo/aslam_splines/include/aslam/splines/implementation/BSplineExpressions.hpp` (`BSplineVectorExpressionNode<D>`) and
`/repo/aslam_splines/include/aslam/backend/implementation/SimpleSplineError.hpp`.

`SimpleSplineError` derives from `ErrorTermFs<1>` for splines of every dimension and is only instantiated for dimension one (python export
and test); only this case is modelled.
-/

namespace Verif
namespace SimpleErrors

open Pose

variable {K : Type*} [Field K] [LinearOrder K] {D : ℕ}

/-- The members of `BSplineVectorExpressionNode<D>`: spline (a pointer: evaluation sees later changes), design variables (as
coefficient indices), time, derivative order. -/
structure VectorNode (K : Type*) where
  dvs : List ℕ
  time : K
  order : ℤ

/-- The constructor, BSplineExpressions.hpp 5-10, with `rows` the number of rows of the coefficient matrix. -/
def VectorNode.create (D rows : ℕ) (order : ℤ) (dvs : List ℕ) (time : K) : Outcome (VectorNode K) :=
  if rows ≠ D then .throws else .ok ⟨dvs, time, order⟩

/-- `toExpression(time, order)`, implementation/BSplineDesignVariable.hpp 46-60: the node for the coefficients active at a time. -/
def toExpression (b : BSpline K D) (time : K) (order : ℤ) : Outcome (VectorNode K) :=
  (b.localVvCoefficientVectorIndices time).bind fun dvs => VectorNode.create D D order dvs time

/-- `evaluateImplementation`, BSplineExpressions.hpp 18-22. -/
def VectorNode.value (n : VectorNode K) (b : BSpline K D) : Outcome (Fin D → K) := b.evalD n.time n.order

/-- `evaluateJacobiansImplementation`, BSplineExpressions.hpp 25-35; a block beyond the matrix is undefined behaviour. -/
def VectorNode.jacobians (n : VectorNode K) (b : BSpline K D) : Outcome (Emission D D K) :=
  (b.evalDAndJacobian n.time n.order).bind fun r =>
    if n.dvs.length ≤ b.order then .ok (emitBlocks D n.dvs (fun (i : Fin D) q => r.jacobian i q)) else .ub

/-- The members of `SimpleSplineError<BSplineDesignVariable<1>>` that are used: the expression and the measured value. -/
structure SimpleError (K : Type*) where
  expr : VectorNode K
  y : Fin 1 → K

/-- The error and what `evaluateErrorImplementation` returns, SimpleSplineError.hpp 33-41. -/
def SimpleError.evaluateError (e : SimpleError K) (b : BSpline K 1) : Outcome ((Fin 1 → K) × K) :=
  (e.expr.value b).map fun v => (v - e.y, ∑ i, (v - e.y) i * (v - e.y) i)

/-- `evaluateJacobiansImplementation`, SimpleSplineError.hpp 44-53. -/
def SimpleError.jacobians (e : SimpleError K) (b : BSpline K 1) : Outcome (Emission 1 1 K) := e.expr.jacobians b

end SimpleErrors
end Verif
