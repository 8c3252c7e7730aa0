import Verif.Model.SplineVariables
import Verif.Model.PoseExpressions

/-!
# The design variables of a rolling shutter pose spline, and Euclidean expressions

Source: `/repo/aslam_splines/src/BSplineRSPoseDesignVariable.cpp` and `/repo/aslam_splines/src/EuclideanBSplineDesignVariable.cpp`.

The line delay is a `aslam::backend::DesignVariableVector<1>` (external): assumed is that the constructor sets value and saved value,
`update` saves the value and adds in place, `revertUpdate` restores the saved value.  The class offers neither adding nor removing of
segments; the pose design variable is private.  Pointers are never freed (the destructor does nothing).
-/

namespace Verif

open BSpline

/-- The members of `BSplineRSPoseDesignVariable`: the spline kept aside (`_bsplinePose`), the pose design variable with its own copy
of the spline (`_bsplinePoseDV`; the parametrisation of rotations is shared), the line delay variable (`_lineDelayDV`). -/
structure RSVars (K : Type*) where
  kept : BSpline K 6
  rotation : Rotation K
  pose : SplineVars K 6
  lineDelay : K
  lineSaved : K

namespace RSVars

/-- What `designVariable(i)` points to. -/
inductive Var (K : Type*)
  | coefficient (x : MappedVar K 6)
  | lineDelay

variable {K : Type*} [Field K] [LinearOrder K]

/-- Constructor, BSplineRSPoseDesignVariable.cpp 14-24. -/
def create (s : Pose K) (lineDelay : K) : RSVars K :=
  { kept := s.spline, rotation := s.rotation, pose := SplineVars.create s.spline, lineDelay := lineDelay, lineSaved := lineDelay }

/-- `spline()`, BSplineRSPoseDesignVariable.cpp 32-35. -/
def spline (v : RSVars K) : Pose K := ⟨v.pose.spline, v.rotation⟩

/-- `numDesignVariables()`, BSplineRSPoseDesignVariable.cpp 43-46. -/
def numDesignVariables (v : RSVars K) : ℕ := v.pose.vars.length + 1

/-- `designVariable(i)`, BSplineRSPoseDesignVariable.cpp 48-56. -/
def designVariable (v : RSVars K) (i : ℕ) : Outcome (Var K) :=
  if v.numDesignVariables ≤ i then .throws
  else if i = v.numDesignVariables - 1 then .ok .lineDelay
  else (v.pose.designVariable i).map .coefficient

/-- `getActiveDesignVariableIndices(tk)`, BSplineRSPoseDesignVariable.cpp 58-61: asks the spline kept aside. -/
def getActiveDesignVariableIndices (v : RSVars K) (t : K) : Outcome (List ℕ) := v.kept.localVvCoefficientVectorIndices t

/-- `transformation(t0, line)`, BSplineRSPoseDesignVariable.cpp 63-71: the value of the node it creates. -/
def transformationValue (v : RSVars K) (t0 line : K) : Outcome (Matrix (Fin 4) (Fin 4) K) :=
  v.spline.rollingShutterValue t0 line v.lineDelay

/-- `transformation(t0, line)`: the coefficients whose variables the node announces (besides the line delay). -/
def transformationVariables (v : RSVars K) (t0 line : K) : Outcome (List ℕ) :=
  v.spline.rollingShutterVariables t0 line v.lineDelay

/-- `transformation(t0, line)`: what the node adds to the Jacobians. -/
def transformationJacobians (v : RSVars K) (t0 line : K) : Outcome (Pose.TimedEmission K) :=
  v.spline.rollingShutterJacobians t0 line v.lineDelay

/-- What a user can do: update or revert `designVariable(i)`.  The change has the dimension of the variable: `dp` is used for
a coefficient, `dl` for the line delay. -/
inductive Op (K : Type*)
  | update (i : ℕ) (dp : Fin 6 → K) (dl : K)
  | revert (i : ℕ)

/-- `designVariable(i)->update(..)`, `designVariable(i)->revertUpdate()`. -/
def step (v : RSVars K) : Op K → Outcome (RSVars K)
  | .update i dp dl =>
    (v.designVariable i).bind fun x =>
    match x with
    | .lineDelay => .ok { v with lineDelay := v.lineDelay + dl, lineSaved := v.lineDelay }
    | .coefficient _ => (v.pose.update i dp).map fun p => { v with pose := p }
  | .revert i =>
    (v.designVariable i).bind fun x =>
    match x with
    | .lineDelay => .ok { v with lineDelay := v.lineSaved }
    | .coefficient _ => (v.pose.revert i).map fun p => { v with pose := p }

/-- A sequence of operations; exceptions are caught and leave the state as it is. -/
def run (v : RSVars K) : List (Op K) → Outcome (RSVars K)
  | [] => .ok v
  | op :: ops =>
    match v.step op with
    | .ok v' => v'.run ops
    | .throws => v.run ops
    | .ub => .ub

end RSVars

/-! ## `EuclideanBSplineDesignVariable` -/

namespace SplineVars

variable {K : Type*} [Field K] [LinearOrder K]

/-- The loop `dvs.push_back(&_designVariables[dvidxs[i]])`; `boost::ptr_vector` does not check the index (release build). -/
def pick (vars : List (MappedVar K 3)) : List ℕ → Outcome (List (MappedVar K 3))
  | [] => .ok []
  | i :: is =>
    match vars[i]? with
    | none => .ub
    | some x => (pick vars is).map fun xs => x :: xs

/-- `toEuclideanExpression(time, order)`, EuclideanBSplineDesignVariable.cpp 20-31: the design variables of the node it creates. -/
def toEuclideanExpression (v : SplineVars K 3) (t : K) : Outcome (List (MappedVar K 3)) :=
  (v.spline.localVvCoefficientVectorIndices t).bind (pick v.vars)

/-- `toEuclidean(time, order)`, EuclideanBSplineDesignVariable.cpp 34-37. -/
def toEuclidean (v : SplineVars K 3) (t : K) (order : ℤ) : Outcome (Fin 3 → K) := v.spline.evalD t order

end SplineVars
end Verif
