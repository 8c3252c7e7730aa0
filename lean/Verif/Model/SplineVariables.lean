import Verif.Model.BSplineFit

/-!
# Model of the design variables of vector-space splines

Source: `/repo/aslam_splines/include/aslam/splines/implementation/BSplineDesignVariable.hpp` (all dimensions) and
`/repo/aslam_splines/src/BSplinePoseDesignVariable.cpp` 8-41, 179-209, which has the same text for dimension six, with
`addPoseSegment(t, T)` in place of `addCurveSegment(t, p)`: it calls `addCurveSegment` with the curve value of `T`
(`Model/Pose`).

The design variables are `aslam::backend::DesignVariableMappedVector<D>` objects (external package): a pointer to `D` numbers
(`Eigen::Map`) and a copy of the value before the last update.  Assumed of that class: the constructor stores the map,
`updateMap(p)` replaces the pointer and nothing else, `update(dp)` saves the value and adds `dp` in place, `revertUpdate()` writes the
saved value back.

Memory: a pointer is the identity of an allocated block of numbers and a column in it.  `coefficients_` owns one block at a
time; assigning a matrix of another size frees it and allocates a new one (`Eigen`).  Using a pointer into a block that is
not the current one is undefined behaviour.  Every design variable is an object of its own on the heap
(`boost::ptr_vector`); it is identified by a serial number.
-/

namespace Verif

open BSpline

/-- `DesignVariableMappedVector<D>`: identity of the object, pointer, saved value. -/
structure MappedVar (K : Type*) (D : ℕ) where
  serial : ℕ
  buffer : ℕ
  column : ℕ
  saved : Fin D → K

/-- `BSplineDesignVariable<D>` / `BSplinePoseDesignVariable`: the spline (its own copy), the block of memory that holds its
coefficients, the design variables; `fresh` is the serial number of the next object. -/
structure SplineVars (K : Type*) (D : ℕ) where
  spline : BSpline K D
  buffer : ℕ
  vars : List (MappedVar K D)
  fresh : ℕ

namespace SplineVars

variable {K : Type*} [Field K] [LinearOrder K] {D : ℕ}

/-- Constructor, BSplineDesignVariable.hpp 7-18: a copy of the spline, one design variable for each column. -/
def create (s : BSpline K D) : SplineVars K D :=
  { spline := s
    buffer := 0
    vars := (List.range s.coeffs.length).map fun i => { serial := i, buffer := 0, column := i, saved := 0 }
    fresh := s.coeffs.length }

/-- The loop `_designVariables[i].updateMap(fixedSizeVvCoefficientVector(i).data())` for `i < n`; indexing beyond the
design variables is undefined behaviour. -/
def remap (buffer : ℕ) (vars : List (MappedVar K D)) (n : ℕ) : Outcome (List (MappedVar K D)) :=
  if vars.length < n then .ub
  else .ok ((vars.zipIdx).map fun p =>
    if p.2 < n then { serial := p.1.serial, buffer := buffer, column := p.2, saved := p.1.saved } else p.1)

/-- The common part of `addSegment` and `addSegment2`, BSplineDesignVariable.hpp 79-83, 91-95: a new design variable for the
last column, then all others are mapped to the columns.  The coefficients are in a new block. -/
def attach (v : SplineVars K D) (s : BSpline K D) : Outcome (SplineVars K D) :=
  if s.coeffs.length = 0 then .throws
  else
    let n := s.coeffs.length
    (remap (v.buffer + 1)
      (v.vars ++ [{ serial := v.fresh, buffer := v.buffer + 1, column := n - 1, saved := 0 }]) (n - 1)).map fun vars =>
      { spline := s, buffer := v.buffer + 1, vars := vars, fresh := v.fresh + 1 }

/-- `addSegment`, BSplineDesignVariable.hpp 75-84. -/
def addSegment (solve : Solver K) (v : SplineVars K D) (t : K) (p junk : Fin D → K) : Outcome (SplineVars K D) :=
  (v.spline.addCurveSegment solve t p junk).bind v.attach

/-- `addSegment2`, BSplineDesignVariable.hpp 87-95. -/
def addSegment2 (solve : Solver K) (v : SplineVars K D) (t : K) (p : Fin D → K) (lambda : K) (junk : Fin D → K) :
    Outcome (SplineVars K D) :=
  (v.spline.addCurveSegment2 solve t p lambda junk).bind v.attach

/-- `removeSegment`, BSplineDesignVariable.hpp 98-107: erasing the first element of an empty vector is undefined behaviour. -/
def removeSegment (v : SplineVars K D) : Outcome (SplineVars K D) :=
  let s := v.spline.removeCurveSegment
  let buffer := if s.coeffs.length = v.spline.coeffs.length then v.buffer else v.buffer + 1
  match v.vars with
  | [] => .ub
  | _ :: rest => (remap buffer rest s.coeffs.length).map fun vars =>
      { spline := s, buffer := buffer, vars := vars, fresh := v.fresh }

/-- `designVariable(i)`, BSplineDesignVariable.hpp 39-44. -/
def designVariable (v : SplineVars K D) (i : ℕ) : Outcome (MappedVar K D) :=
  match v.vars[i]? with
  | none => .throws
  | some x => .ok x

/-- The numbers a design variable points to. -/
def deref (v : SplineVars K D) (x : MappedVar K D) : Outcome (Fin D → K) :=
  if x.buffer = v.buffer then
    match v.spline.coeffs[x.column]? with
    | none => .ub
    | some c => .ok c
  else .ub

/-- Writing through a pointer. -/
def store (v : SplineVars K D) (x : MappedVar K D) (c : Fin D → K) : Outcome (BSpline K D) :=
  (v.deref x).map fun _ => BSpline.mk (K := K) v.spline.order v.spline.knots (v.spline.coeffs.set x.column c) v.spline.basis

/-- `designVariable(i)->update(dp)` (external class): the value is saved, then changed in place. -/
def update (v : SplineVars K D) (i : ℕ) (dp : Fin D → K) : Outcome (SplineVars K D) :=
  (v.designVariable i).bind fun x =>
  (v.deref x).bind fun c =>
  (v.store x (fun d => c d + dp d)).map fun s =>
    { spline := s, buffer := v.buffer, fresh := v.fresh
      vars := v.vars.set i { serial := x.serial, buffer := x.buffer, column := x.column, saved := c } }

/-- `designVariable(i)->revertUpdate()` (external class). -/
def revert (v : SplineVars K D) (i : ℕ) : Outcome (SplineVars K D) :=
  (v.designVariable i).bind fun x =>
  (v.store x x.saved).map fun s => { spline := s, buffer := v.buffer, vars := v.vars, fresh := v.fresh }

/-- The operations. -/
inductive Op (K : Type*) (D : ℕ)
  | add (t : K) (p junk : Fin D → K)
  | add2 (t : K) (p : Fin D → K) (lambda : K) (junk : Fin D → K)
  | remove
  | update (i : ℕ) (dp : Fin D → K)
  | revert (i : ℕ)

/-- One operation. -/
def step (solve : Solver K) (v : SplineVars K D) : Op K D → Outcome (SplineVars K D)
  | .add t p junk => v.addSegment solve t p junk
  | .add2 t p lambda junk => v.addSegment2 solve t p lambda junk
  | .remove => v.removeSegment
  | .update i dp => v.update i dp
  | .revert i => v.revert i

/-- A sequence of operations; the caller catches exceptions and goes on.  (`C42_add` shows that the only exceptions are
those of the checks at the very beginning of an operation, before anything is changed.) -/
def run (solve : Solver K) (v : SplineVars K D) : List (Op K D) → Outcome (SplineVars K D)
  | [] => .ok v
  | op :: ops =>
    match v.step solve op with
    | .ok v' => v'.run solve ops
    | .throws => v.run solve ops
    | .ub => .ub

end SplineVars
end Verif
