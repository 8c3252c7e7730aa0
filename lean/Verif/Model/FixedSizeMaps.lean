import Verif.Model.SplineVariables

/-!
# Model: design variables of a fixed size on a spline of another dimension

`BSplineDesignVariable<E>` (`/repo/aslam_splines/include/aslam/splines/implementation/BSplineDesignVariable.hpp` 6-107),
`EuclideanBSplineDesignVariable` (`E = 3`, `/repo/aslam_splines/src/EuclideanBSplineDesignVariable.cpp` 9-13) and
`BSplinePoseDesignVariable` (`E = 6`, `/repo/aslam_splines/src/BSplinePoseDesignVariable.cpp` 9-19) take a spline of any dimension `D`.
`fixedSizeVvCoefficientVector<E>(i)` (`/repo/bsplines/include/bsplines/BSpline.hpp` 361-368) compares `D` with `E` in debug builds only and
returns a map of `E` numbers that begins at the address of `coefficients_(0, i)`.

`Model/SplineVariables` is about `E = D`.  Here the memory of the coefficient matrix is one block of `D * n` numbers, column after column
(Eigen's default), and a design variable is `E` numbers of it from the offset `i * D`.  Reading or writing beyond the block is undefined
behaviour.  The other simplifications are those of `Model/SplineVariables`.
-/

namespace Verif

open BSpline

/-- `BSplineDesignVariable<E>` for a spline of dimension `D`. -/
structure WideVars (K : Type*) (D E : ℕ) where
  spline : BSpline K D
  buffer : ℕ
  vars : List (MappedVar K E)
  fresh : ℕ

namespace WideVars

variable {K : Type*} [Field K] [LinearOrder K] {D E : ℕ}

/-- Constructor, BSplineDesignVariable.hpp 7-18. -/
def create (s : BSpline K D) : WideVars K D E :=
  { spline := s
    buffer := 0
    vars := (List.range s.coeffs.length).map fun i => { serial := i, buffer := 0, column := i, saved := 0 }
    fresh := s.coeffs.length }

/-- The number at an offset from the beginning of the block. -/
def memory (s : BSpline K D) (q : ℕ) : K := if h : 0 < D then s.col (q / D) ⟨q % D, Nat.mod_lt q h⟩ else 0

/-- The block after `E` numbers have been written from an offset on. -/
def poke (s : BSpline K D) (offset : ℕ) (c : Fin E → K) : BSpline K D :=
  BSpline.mk (K := K) s.order s.knots
    ((List.range s.coeffs.length).map fun j d =>
      if h : offset ≤ j * D + d ∧ j * D + d < offset + E then c ⟨j * D + d - offset, by omega⟩ else s.col j d) s.basis

/-- The numbers a design variable points to. -/
def deref (v : WideVars K D E) (x : MappedVar K E) : Outcome (Fin E → K) :=
  if x.buffer = v.buffer ∧ x.column < v.spline.coeffs.length ∧ x.column * D + E ≤ v.spline.coeffs.length * D then
    .ok fun e => memory v.spline (x.column * D + e)
  else .ub

/-- Writing through a pointer. -/
def store (v : WideVars K D E) (x : MappedVar K E) (c : Fin E → K) : Outcome (BSpline K D) :=
  (v.deref x).map fun _ => poke v.spline (x.column * D) c

/-- The common part of `addSegment` and `addSegment2`, BSplineDesignVariable.hpp 79-83, 91-95. -/
def attach (v : WideVars K D E) (s : BSpline K D) : Outcome (WideVars K D E) :=
  if s.coeffs.length = 0 then .throws
  else
    let n := s.coeffs.length
    (SplineVars.remap (v.buffer + 1)
      (v.vars ++ [{ serial := v.fresh, buffer := v.buffer + 1, column := n - 1, saved := 0 }]) (n - 1)).map fun vars =>
      { spline := s, buffer := v.buffer + 1, vars := vars, fresh := v.fresh + 1 }

/-- `addSegment`, BSplineDesignVariable.hpp 75-84; the point must have the dimension of the spline (C95). -/
def addSegment (solve : Solver K) (v : WideVars K D E) (t : K) (p junk : Fin D → K) : Outcome (WideVars K D E) :=
  (v.spline.addCurveSegment solve t p junk).bind v.attach

/-- `addSegment2`, BSplineDesignVariable.hpp 87-95. -/
def addSegment2 (solve : Solver K) (v : WideVars K D E) (t : K) (p : Fin D → K) (lambda : K) (junk : Fin D → K) :
    Outcome (WideVars K D E) :=
  (v.spline.addCurveSegment2 solve t p lambda junk).bind v.attach

/-- `removeSegment`, BSplineDesignVariable.hpp 98-107. -/
def removeSegment (v : WideVars K D E) : Outcome (WideVars K D E) :=
  let s := v.spline.removeCurveSegment
  let buffer := if s.coeffs.length = v.spline.coeffs.length then v.buffer else v.buffer + 1
  match v.vars with
  | [] => .ub
  | _ :: rest => (SplineVars.remap buffer rest s.coeffs.length).map fun vars =>
      { spline := s, buffer := buffer, vars := vars, fresh := v.fresh }

/-- `designVariable(i)`, BSplineDesignVariable.hpp 39-44. -/
def designVariable (v : WideVars K D E) (i : ℕ) : Outcome (MappedVar K E) :=
  match v.vars[i]? with
  | none => .throws
  | some x => .ok x

/-- `designVariable(i)->update(dp)` (external class). -/
def update (v : WideVars K D E) (i : ℕ) (dp : Fin E → K) : Outcome (WideVars K D E) :=
  (v.designVariable i).bind fun x =>
  (v.deref x).bind fun c =>
  (v.store x (fun e => c e + dp e)).map fun s =>
    { spline := s, buffer := v.buffer, fresh := v.fresh
      vars := v.vars.set i { serial := x.serial, buffer := x.buffer, column := x.column, saved := c } }

/-- `designVariable(i)->revertUpdate()` (external class). -/
def revert (v : WideVars K D E) (i : ℕ) : Outcome (WideVars K D E) :=
  (v.designVariable i).bind fun x =>
  (v.store x x.saved).map fun s => { spline := s, buffer := v.buffer, vars := v.vars, fresh := v.fresh }

/-- The operations. -/
inductive Op (K : Type*) (D E : ℕ)
  | add (t : K) (p junk : Fin D → K)
  | add2 (t : K) (p : Fin D → K) (lambda : K) (junk : Fin D → K)
  | remove
  | update (i : ℕ) (dp : Fin E → K)
  | revert (i : ℕ)

/-- One operation. -/
def step (solve : Solver K) (v : WideVars K D E) : Op K D E → Outcome (WideVars K D E)
  | .add t p junk => v.addSegment solve t p junk
  | .add2 t p lambda junk => v.addSegment2 solve t p lambda junk
  | .remove => v.removeSegment
  | .update i dp => v.update i dp
  | .revert i => v.revert i

/-- A sequence of operations; the caller catches exceptions and goes on. -/
def run (solve : Solver K) (v : WideVars K D E) : List (Op K D E) → Outcome (WideVars K D E)
  | [] => .ok v
  | op :: ops =>
    match v.step solve op with
    | .ok v' => v'.run solve ops
    | .throws => v.run solve ops
    | .ub => .ub

/-- `toExpression(t, order)`, BSplineDesignVariable.hpp 46-58: the indices of the active coefficients; the constructor of
`BSplineVectorExpressionNode<E>` (implementation/BSplineExpressions.hpp 6-10) compares `D` with `E`. -/
def toExpression (v : WideVars K D E) (t : K) : Outcome (List ℕ) :=
  (v.spline.localVvCoefficientVectorIndices t).bind fun l => if D = E then .ok l else .throws

/-- `toEuclideanExpression(t, order)` of `EuclideanBSplineDesignVariable`, cpp 20-31 (`E = 3`): the constructor of
`BSplineEuclideanExpressionNode` (BSplineExpressions.cpp 406-410) compares nothing. -/
def toEuclideanExpression (v : WideVars K D E) (t : K) : Outcome (List ℕ) := v.spline.localVvCoefficientVectorIndices t

/-- `evaluateImplementation` of `BSplineEuclideanExpressionNode`, BSplineExpressions.cpp 417-420: the value, a vector with as many entries as
the spline has dimensions, becomes an `Eigen::Vector3d` (`E = 3`).  Another size violates an assertion of Eigen, which is compiled out. -/
def euclideanValue (v : WideVars K D E) (t : K) (order : ℤ) : Outcome (Fin E → K) :=
  (v.spline.evalD t order).bind fun x => if h : E = D then .ok fun e => x ⟨e, h ▸ e.2⟩ else .ub

end WideVars
end Verif
