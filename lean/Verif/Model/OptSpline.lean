import Verif.Props.ManifoldLife
import Verif.Model.ManifoldObjects
import Verif.Model.LieGroup

/-!
# Model of the optimisable manifold spline

Source: `/repo/aslam_splines/include/aslam/splines/OPTBSpline.hpp` (cited as `.hpp`) and
`/repo/aslam_splines/include/aslam/splines/implementation/OPTBSplineImpl.hpp` (cited as `Impl`).

The segments of such a spline are design variables.  A pointer to one is the address of the segment map it lives in and its key
there (elements of a `std::map` do not move).
-/

namespace Verif

variable {K : Type*} [Field K] [LinearOrder K] {P V : Type*}

/-! ### One design variable -/

/-- The members of `SegmentData` that matter to the optimiser: the control vertex and `_p_v`, .hpp 62, which the constructor leaves
without a value. -/
structure DV (P : Type*) where
  vertex : P
  saved : Option P

/-- What the optimiser does with a design variable. -/
inductive DVCall (P V : Type*)
  | update (v : V)
  | revert
  | setParameters (p : P)

/-- `updateImplementation`, .hpp 77-84, `revertUpdateImplementation`, .hpp 87, `setParametersImplementation`, .hpp 95-98.  Reverting
before anything was saved reads an uninitialised point.  The size check of .hpp 79 is a matter of types. -/
def DVCall.run (G : LieGrp P V) : DVCall P V → DV P → Outcome (DV P)
  | .update v, d => .ok ⟨G.update d.vertex v, some d.vertex⟩
  | .revert, d => match d.saved with
    | none => .ub
    | some p => .ok ⟨p, some p⟩
  | .setParameters p, d => .ok ⟨p, some d.vertex⟩

/-- `minimalDifferenceImplementation`, Impl 107-109. -/
def DV.minimalDifference (G : LieGrp P V) (d : DV P) (xHat : P) : V := G.minimalDifference xHat d.vertex

/-! ### The list of design variables -/

/-- The loops of Impl 31-34, 201-203 and 213-216 over the segments from an iterator (`ks` are the keys from there on) to `limit`: the
keys passed.  Running past `end()` is undefined. -/
def walk (limit : Iter K) : List K → Outcome (List K)
  | [] => if limit = none then .ok [] else .ub
  | x :: rest => if some x = limit then .ok [] else (walk limit rest).map (x :: ·)

/-- `updateDesignVariablesVector`, Impl 29-35, for a spline in the map at address `m`. -/
def freshList (m : ℕ) (s : MSpline K P) : Outcome (List (ℕ × K)) :=
  match s.iters with
  | none => .ub
  | some its => (walk its.end_ (s.keys.drop (itPos s.keys its.first))).map fun l => l.map fun k => (m, k)

/-- Spline objects together with their member `_designVariables`, .hpp 254. -/
structure OptWorld (K P : Type*) where
  base : World K P
  dvs : ℕ → List (ℕ × K)

namespace OptWorld

/-- No objects. -/
def empty : OptWorld K P := ⟨World.empty, fun _ => []⟩

/-- The segment map an object points to. -/
def addr (w : World K P) (o : ℕ) : Option ℕ := (w.objs o).bind SObj.map

/-- The constructor, .hpp 148. -/
def create (o order : ℕ) (w : OptWorld K P) : Outcome Unit × OptWorld K P :=
  (.ok (), ⟨World.create o order w.base, Function.update w.dvs o []⟩)

/-- Build the list of object `o` anew. -/
def refresh (o : ℕ) (w : OptWorld K P) : Outcome Unit × OptWorld K P :=
  match addr w.base o, w.base.view o with
  | some m, some s => match freshList m s with
    | .ok l => (.ok (), ⟨w.base, Function.update w.dvs o l⟩)
    | .throws => (.throws, w)
    | .ub => (.ub, w)
  | _, _ => (.ok (), w)

/-- The copy constructor, .hpp 153-155.  (Declaring it removes the move constructor: moving copies.) -/
def copy (dst src : ℕ) (w : OptWorld K P) : Outcome Unit × OptWorld K P :=
  match w.base.view src with
  | none => (.ok (), w)
  | some _ =>
    let w1 : OptWorld K P := ⟨World.copy dst src w.base, Function.update w.dvs dst []⟩
    match w1.base.view dst with
    | none => (.ok (), w1)
    | some s' => match s'.state with
      | .constructing => (.ok (), w1)
      | .evaluable => refresh dst w1

/-- The assignment operator the compiler generates: `operator=` of the parent, then the members, of which there is one. -/
def assign (dst src : ℕ) (w : OptWorld K P) : Outcome Unit × OptWorld K P :=
  match w.base.objs dst, w.base.view src with
  | some _, some _ => (.ok (), ⟨World.assign dst src w.base, Function.update w.dvs dst (w.dvs src)⟩)
  | _, _ => (.ok (), w)

/-- A call on an object.  `init` is overridden (Impl 23-26), and `initConstantSpline` calls the overriding one (through
`getDerived()`, DiffManifoldBSplineImpl 249); `initWithKnots` and `initWithKnotsAndControlVertices` call that of the parent
(DiffManifoldBSplineImpl 157, 170); `appendSegments` is overridden (Impl 209-218). -/
def call (M : Mfd K P V) (o : ℕ) (c : MSpline.Call K P) (w : OptWorld K P) : Outcome Unit × OptWorld K P :=
  match addr w.base o, w.base.view o with
  | some m, some s =>
    let r := c.run M s
    let w1 : OptWorld K P := ⟨World.call (fun s => (c.run M s).2) o w.base, w.dvs⟩
    match r.1, c with
    | .ok (), .init => refresh o w1
    | .ok (), .initConstant _ _ => refresh o w1
    | .ok (), .append _ _ =>
      match s.iters, r.2.iters with
      | some its, some its' => match walk its'.end_ (r.2.keys.drop (itPos r.2.keys its.end_)) with
        | .ok l => (.ok (), ⟨w1.base, Function.update w1.dvs o (w1.dvs o ++ l.map fun k => (m, k))⟩)
        | .throws => (.throws, w1)
        | .ub => (.ub, w1)
      | _, _ => (.ub, w1)
    | out, _ => (out, w1)
  | _, _ => (.ok (), w)

/-- The optimiser changes the vertex behind a pointer. -/
def writeThrough (f : P → P) (x : ℕ × K) (w : World K P) : World K P :=
  ⟨w.objs, Function.update w.heap x.1 ((w.heap x.1).map fun g => if g.knot = x.2 then { g with vertex := f g.vertex } else g),
    w.next⟩

/-- `designVariable(i)`, Impl 43-48, and a change of its vertex. -/
def change (o i : ℕ) (f : P → P) (w : OptWorld K P) : Outcome Unit × OptWorld K P :=
  match (w.dvs o)[i]? with
  | none => (.throws, w)
  | some x => (.ok (), ⟨writeThrough f x w.base, w.dvs⟩)

/-- `getDesignVariables(time)`, Impl 196-205: a vector of `order` null pointers is filled by the loop. -/
def window (o : ℕ) (t : K) (w : OptWorld K P) : Outcome (List (Option (ℕ × K))) :=
  match addr w.base o, w.base.view o with
  | some m, some s =>
    (s.getSegmentIterator t).bind fun back => (s.firstRelevantByLast back).bind fun i => (itInc s.keys back).bind fun e =>
      (walk e (s.keys.drop (itPos s.keys i))).bind fun l =>
        if s.order < l.length then .ub
        else .ok (l.map (fun k => some (m, k)) ++ List.replicate (s.order - l.length) none)
  | _, _ => .ub

end OptWorld

/-! ### Expressions at a variable time -/

/-- What `TimeExpressionFactoryData` holds, .hpp 212-241: the bounds and the time of the cached evaluator, if any (its other data
follow from it and the spline). -/
structure TimeExpr (K : Type*) where
  lower : K
  upper : K
  cached : Option K
  deriving DecidableEq

/-- The constructor, .hpp 216-220. -/
def TimeExpr.create (s : MSpline K P) (lower upper : K) : Outcome (TimeExpr K) :=
  if ¬ lower < upper then .throws
  else s.getMinTime.bind fun a => if ¬ a ≤ lower then .throws
    else s.getMaxTime.bind fun b => if ¬ upper ≤ b then .throws else .ok ⟨lower, upper, none⟩

/-- `getEvaluator`, Impl 71-87, when the time expression has the value `t`: the time the returned evaluator was made for.  The test
for reuse compares the time with `getKnot()` of the cached evaluator, which is the knot at the start of its segment
(DiffManifoldBSpline.hpp 364). -/
def TimeExpr.getEvaluator (s : MSpline K P) (t : K) (x : TimeExpr K) : Outcome K × TimeExpr K :=
  if t < x.lower then (.throws, x)
  else if x.upper < t then (.throws, x)
  else
    let keep := match x.cached with
      | none => none
      | some c => match s.evaluatorAt c with
        | .ok e => if e.ti ≠ some t then none else some c
        | _ => none
    match keep with
    | some c => (.ok c, { x with cached := some c })
    | none => match s.evaluatorAt t with
      | .ok _ => (.ok t, { x with cached := some t })
      | .throws => (.throws, { x with cached := none })
      | .ub => (.ub, { x with cached := none })

/-- `evaluateImplementation`, Impl 176-178, for the value (derivative order zero). -/
def TimeExpr.evaluate (M : Mfd K P V) (s : MSpline K P) (t : K) (x : TimeExpr K) : Outcome P × TimeExpr K :=
  match x.getEvaluator s t with
  | (.ok c, x') => (s.evalGeneric M c, x')
  | (.throws, x') => (.throws, x')
  | (.ub, x') => (.ub, x')

end Verif
