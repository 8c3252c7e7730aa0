import Mathlib.Data.List.Basic
import Verif.Model.Outcome

/-!
# Model: how long the objects of the Python module `libaslam_splines_python` live

Source: `/repo/aslam_splines_python/src/spline_module.cpp` 20-89, `BSplineMotionError.cpp` 16-59, `SimpleSplineError.cpp` 13-23 in the same
directory, and what the exported functions keep of their arguments:
`/repo/aslam_splines/include/aslam/splines/implementation/BSplineDesignVariable.hpp` 27-58,
`/repo/aslam_splines/src/BSplinePoseDesignVariable.cpp` 45-223, `BSplineRSPoseDesignVariable.cpp` 14-72 and
`EuclideanBSplineDesignVariable.cpp` 20-31 there, `/repo/aslam_splines/include/aslam/backend/implementation/BSplineMotionError.hpp` 10-75,
`SimpleSplineError.hpp` 10-60 and `BSplineMotionErrorFactory.hpp` 6-28 there.

CPython and Boost.Python (external) are taken to work like this: a Python object has a reference count, it is destroyed, with the C++ object inside,
as soon as the count is zero; `return_internal_reference<>` makes the returned object hold a reference to `self` and point into it;
`copy_const_reference` returns an independent copy; a pointer argument of an exported constructor or function is the address of the C++ object and no
reference; an argument of a type no overload takes raises an exception.

Simplifications: what a C++ object contains is left out, only the pointers between objects are kept; references from lists, attributes or other
libraries count as names; a spline has at least one segment, so `addMotionErrorTerms` makes at least one term; calls that raise for other reasons (a time outside of the spline) return no object and are left out.  Objects are
numbered in the order in which they are made; destroyed ones (count zero) keep their number.
-/

namespace Verif
namespace PyLife

/-- The exported classes of design variable objects: `BSplineDesignVariable<D>` (spline_module.cpp 20-33, 39-48),
`BSplinePoseDesignVariable` (55-68), `BSplineRSPoseDesignVariable` (71-77), `EuclideanBSplineDesignVariable` (79-82). -/
inductive VarClass
  | spline (D : ℕ)
  | pose
  | rolling
  | euclidean
  deriving DecidableEq

/-- The classes with a constructor in Python. -/
def VarClass.exported : VarClass → Bool
  | .spline D => decide (1 ≤ D) && decide (D ≤ 10)
  | _ => true

/-- The classes with a motion error class, BSplineMotionError.cpp 26-56. -/
def VarClass.hasMotionError : VarClass → Bool
  | .spline D => decide (1 ≤ D) && decide (D ≤ 3)
  | _ => true

/-- The classes with an overload of `addMotionErrorTerms`, BSplineMotionError.cpp 19-23. -/
def VarClass.hasMotionTerms : VarClass → Bool
  | .spline D => decide (1 ≤ D) && decide (D ≤ 3)
  | .rolling => false
  | _ => true

/-- A Python object and where its C++ object points.
* `vars c n`: a design variable object of class `c` with `n` design variables;
* `copy`: what `spline()` returns;
* `handle o c i`: what `designVariable(i)` of the object `o` of class `c` returns;
* `expr o c`: an expression made by the object `o` of class `c`; its root node points to the spline and the design variables of `o`;
* `motionError o`: it keeps the pointer `_splineDV`;
* `simpleError o e`: it keeps pointers to the object `o` and to the expression object `e`;
* `problem terms`: an optimisation problem; `addMotionErrorTerms` added terms for the objects `terms`, which keep pointers to their design variables. -/
inductive Kind
  | vars (c : VarClass) (n : ℕ)
  | copy
  | handle (o : ℕ) (c : VarClass) (i : ℕ)
  | expr (o : ℕ) (c : VarClass)
  | motionError (o : ℕ)
  | simpleError (o e : ℕ)
  | problem (terms : List ℕ)
  deriving DecidableEq

/-- The object an object holds a reference to: only `designVariable` is exported with `return_internal_reference<>` (spline_module.cpp 30, 58, 74). -/
def Kind.keeps : Kind → Option ℕ
  | .handle o _ _ => some o
  | _ => none

/-- A Python object with its reference count. -/
structure Obj where
  kind : Kind
  refs : ℕ
  deriving DecidableEq

/-- A Python session: all objects made so far, and the names the program holds, with repetition. -/
structure Session where
  heap : List Obj
  names : List ℕ
  deriving DecidableEq

/-- Whether the memory of the object `o` is there. -/
def there (h : List Obj) (o : ℕ) : Bool :=
  match h[o]? with
  | some ob => decide (0 < ob.refs)
  | none => false

/-- `Py_INCREF`. -/
def incref (o : ℕ) (h : List Obj) : List Obj :=
  match h[o]? with
  | some ob => h.set o { ob with refs := ob.refs + 1 }
  | none => h

/-- `Py_DECREF`: a count of zero destroys the object, which gives up its own reference.  An object only refers to older ones: `fuel = o + 1` is enough. -/
def decref : ℕ → ℕ → List Obj → List Obj
  | 0, _, h => h
  | fuel + 1, o, h =>
    match h[o]? with
    | none => h
    | some ob =>
      let h' := h.set o { ob with refs := ob.refs - 1 }
      if ob.refs = 1 then
        match ob.kind.keeps with
        | some q => decref fuel q h'
        | none => h'
      else h'

/-- The objects of which an evaluation reads the memory, besides the object itself.  Of a rolling shutter variable object only the inner objects
`_bsplinePoseDV` and `_lineDelayDV` are used by design variables and expressions (BSplineRSPoseDesignVariable.cpp 44-53, 60-69); they are made by `new` and
never deleted (14-29).  The motion error asks the object itself for its spline (implementation/BSplineMotionError.hpp 65-67). -/
def Kind.pointsTo : Kind → List ℕ
  | .vars _ _ => []
  | .copy => []
  | .handle o c _ => if c = .rolling then [] else [o]
  | .expr o c => if c = .rolling then [] else [o]
  | .motionError o => [o]
  | .simpleError _ e => [e]
  | .problem terms => terms

/-- Whether an evaluation of an object only reads memory that is there; a `SimpleSplineError` evaluates its expression
(implementation/SimpleSplineError.hpp 41-57). -/
def sound (h : List Obj) : Kind → Bool
  | .simpleError _ e =>
    there h e && match h[e]? with
      | some ob => ob.kind.pointsTo.all (there h)
      | none => false
  | k => k.pointsTo.all (there h)

/-- What a Python program can do. -/
inductive Op
  | newVars (c : VarClass) (n : ℕ)
  | spline (o : ℕ)
  | designVariable (o i : ℕ)
  | expression (o : ℕ)
  | motionError (o : ℕ)
  | simpleError (o e : ℕ)
  | newProblem
  | addMotionErrorTerms (p o : ℕ)
  | alias (o : ℕ)
  | drop (o : ℕ)
  | use (p : ℕ)

namespace Session

/-- The object with a number, if the program has a name for it. -/
def get (s : Session) (o : ℕ) : Option Obj := if o ∈ s.names then s.heap[o]? else none

/-- A new object, bound to a new name; the object it keeps is counted. -/
def push (k : Kind) (s : Session) : Session :=
  ⟨(match k.keeps with | some q => incref q s.heap | none => s.heap) ++ [⟨k, 1⟩], s.heap.length :: s.names⟩

/-- One statement of the program. -/
def step (s : Session) : Op → Outcome Session
  | .newVars c n => if c.exported then .ok (s.push (.vars c n)) else .throws
  | .spline o =>
    match s.get o with
    | some ⟨.vars _ _, _⟩ => .ok (s.push .copy)
    | _ => .throws
  | .designVariable o i =>
    match s.get o with
    | some ⟨.vars c n, _⟩ => if i < n then .ok (s.push (.handle o c i)) else .throws
    | _ => .throws
  | .expression o =>
    match s.get o with
    | some ⟨.vars c _, _⟩ => .ok (s.push (.expr o c))
    | _ => .throws
  | .motionError o =>
    match s.get o with
    | some ⟨.vars c _, _⟩ => if c.hasMotionError then .ok (s.push (.motionError o)) else .throws
    | _ => .throws
  | .simpleError o e =>
    match s.get o, s.get e with
    | some ⟨.vars (.spline 1) _, _⟩, some ⟨.expr _ (.spline 1), _⟩ => .ok (s.push (.simpleError o e))
    | _, _ => .throws
  | .newProblem => .ok (s.push (.problem []))
  | .addMotionErrorTerms p o =>
    match s.get p, s.get o with
    | some ⟨.problem terms, r⟩, some ⟨.vars c _, _⟩ =>
      if c.hasMotionTerms then .ok { s with heap := s.heap.set p ⟨.problem (terms ++ [o]), r⟩ } else .throws
    | _, _ => .throws
  | .alias o =>
    match s.get o with
    | some _ => .ok ⟨incref o s.heap, o :: s.names⟩
    | none => .throws
  | .drop o =>
    match s.get o with
    | some _ => .ok ⟨decref (o + 1) o s.heap, s.names.erase o⟩
    | none => .throws
  | .use p =>
    match s.get p with
    | some ob => if sound s.heap ob.kind then .ok s else .ub
    | none => .throws

/-- A program; exceptions are caught and change nothing. -/
def run (s : Session) : List Op → Outcome Session
  | [] => .ok s
  | op :: ops =>
    match s.step op with
    | .ok s' => run s' ops
    | .throws => run s ops
    | .ub => .ub

/-- A new interpreter. -/
def start : Session := ⟨[], []⟩

end Session
end PyLife
end Verif
