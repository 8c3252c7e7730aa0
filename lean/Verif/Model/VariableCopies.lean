import Verif.Model.SplineVariables

/-!
# Model of several spline design variable objects: copying and assigning them

Source: `/repo/aslam_splines/include/aslam/splines/BSplineDesignVariable.hpp` 18-59 and
`/repo/aslam_splines/include/aslam/splines/BSplinePoseDesignVariable.hpp` 18-74.  The classes declare no copy constructor and no
assignment operator, so the compiler writes them member by member; the Python module exports the classes as copyable
(`/repo/aslam_splines_python/src/spline_module.cpp` 26, 55, 79).

* `_bspline` is copied with its coefficients (a new block of memory; on assignment the block is kept if the matrix has the same size).
* `_designVariables` is a `boost::ptr_vector`: every design variable is cloned with its copy constructor.  Assumed of the
  external class `DesignVariableMappedVector<D>`: its copy constructor is the implicit one, which copies the pointer inside
  the `Eigen::Map` and the saved value.  The pointer of the clone is therefore the pointer of the original.

Memory: every object has a number of its own, never used again.  The blocks of memory of one object are numbered as in
`Model/SplineVariables`; a pointer is now the number of an object (`home`) together with a block and a column of that object.
Using a pointer whose home is gone or has another block now is undefined behaviour.  The serial numbers of design variables
are kept by copying; they tell apart the variables of one object only.
-/

namespace Verif

open BSpline

/-- A `BSplineDesignVariable<D>` among others: its spline and design variables, and for every design variable the object
its pointer leads to. -/
structure VarObj (K : Type*) (D : ℕ) where
  own : SplineVars K D
  homes : List ℕ

/-- All objects made so far, by number; `none` stands for a destroyed one. -/
abbrev VarWorld (K : Type*) (D : ℕ) := List (Option (VarObj K D))

namespace VarWorld

variable {K : Type*} [Field K] [LinearOrder K] {D : ℕ}

/-- The object with a number. -/
def obj (w : VarWorld K D) (o : ℕ) : Option (VarObj K D) := (w[o]?).join

/-- The constructor, implementation/BSplineDesignVariable.hpp 7-18. -/
def create (s : BSpline K D) (w : VarWorld K D) : VarWorld K D :=
  w ++ [some ⟨SplineVars.create s, List.replicate s.coeffs.length w.length⟩]

/-- The implicit copy constructor: the spline goes to a new block, the pointers stay. -/
def copy (src : ℕ) (w : VarWorld K D) : Outcome (VarWorld K D) :=
  match w.obj src with
  | none => .ub
  | some ob => .ok (w ++ [some ⟨{ ob.own with buffer := 0 }, ob.homes⟩])

/-- The implicit assignment operator `dst = src`. -/
def assign (dst src : ℕ) (w : VarWorld K D) : Outcome (VarWorld K D) :=
  match w.obj dst, w.obj src with
  | some old, some ob =>
    let buffer := if old.own.spline.coeffs.length = ob.own.spline.coeffs.length then old.own.buffer else old.own.buffer + 1
    .ok (w.set dst (some ⟨{ ob.own with buffer := buffer }, ob.homes⟩))
  | _, _ => .ub

/-- The destructor. -/
def destroy (o : ℕ) (w : VarWorld K D) : Outcome (VarWorld K D) :=
  match w.obj o with
  | none => .ub
  | some _ => .ok (w.set o none)

/-- The homes after the loop of `updateMap` over the first `n` design variables. -/
def rehome (o n : ℕ) (homes : List ℕ) : List ℕ := homes.zipIdx.map fun p => if p.2 < n then o else p.1

/-- Writing `c` through the pointer `x` into the memory of object `h`. -/
def writeAt (h : ℕ) (x : MappedVar K D) (c : Fin D → K) (w : VarWorld K D) : Outcome (VarWorld K D) :=
  match w.obj h with
  | none => .ub
  | some hb => (hb.own.store x c).map fun s => w.set h (some ⟨{ hb.own with spline := s }, hb.homes⟩)

/-- Reading through the pointer `x` from the memory of object `h`. -/
def readAt (h : ℕ) (x : MappedVar K D) (w : VarWorld K D) : Outcome (Fin D → K) :=
  match w.obj h with
  | none => .ub
  | some hb => hb.own.deref x

/-- The design variable `i` of the object `o` remembers a value. -/
def remember (o i : ℕ) (x : MappedVar K D) (c : Fin D → K) (w : VarWorld K D) : VarWorld K D :=
  match w.obj o with
  | none => w
  | some ob => w.set o (some ⟨{ ob.own with vars := ob.own.vars.set i { x with saved := c } }, ob.homes⟩)

/-- `designVariable(i)` of an object, with the home of its pointer. -/
def target (ob : VarObj K D) (i : ℕ) : Outcome (MappedVar K D × ℕ) :=
  (ob.own.designVariable i).bind fun x =>
    match ob.homes[i]? with
    | none => .ub
    | some h => .ok (x, h)

/-- One call on the object `o`: `addSegment`, `addSegment2`, `removeSegment` as in `Model/SplineVariables`, with the pointers
they renew; `update` and `revertUpdate` of a design variable (external class) go to the memory its pointer leads to. -/
def act (solve : Solver K) (o : ℕ) (op : SplineVars.Op K D) (w : VarWorld K D) : Outcome (VarWorld K D) :=
  match w.obj o with
  | none => .ub
  | some ob =>
    match op with
    | .add t p junk => (ob.own.addSegment solve t p junk).map fun v =>
        w.set o (some ⟨v, rehome o (v.spline.coeffs.length - 1) (ob.homes ++ [o])⟩)
    | .add2 t p lambda junk => (ob.own.addSegment2 solve t p lambda junk).map fun v =>
        w.set o (some ⟨v, rehome o (v.spline.coeffs.length - 1) (ob.homes ++ [o])⟩)
    | .remove => ob.own.removeSegment.map fun v => w.set o (some ⟨v, rehome o v.spline.coeffs.length ob.homes.tail⟩)
    | .update i dp => (target ob i).bind fun r => (w.readAt r.2 r.1).bind fun c =>
        (w.writeAt r.2 r.1 fun d => c d + dp d).map fun w' => w'.remember o i r.1 c
    | .revert i => (target ob i).bind fun r => w.writeAt r.2 r.1 r.1.saved

/-- What can happen to the objects. -/
inductive VOp (K : Type*) (D : ℕ)
  | create (s : BSpline K D)
  | copy (src : ℕ)
  | assign (dst src : ℕ)
  | destroy (o : ℕ)
  | act (o : ℕ) (op : SplineVars.Op K D)

/-- One event. -/
def step (solve : Solver K) (w : VarWorld K D) : VOp K D → Outcome (VarWorld K D)
  | .create s => .ok (w.create s)
  | .copy src => w.copy src
  | .assign dst src => w.assign dst src
  | .destroy o => w.destroy o
  | .act o op => w.act solve o op

/-- A history; exceptions are caught and leave everything as it was (`C42_add`). -/
def run (solve : Solver K) (w : VarWorld K D) : List (VOp K D) → Outcome (VarWorld K D)
  | [] => .ok w
  | op :: ops =>
    match w.step solve op with
    | .ok w' => run solve w' ops
    | .throws => run solve w ops
    | .ub => .ub

end VarWorld
end Verif
