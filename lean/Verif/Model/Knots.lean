import Verif.Model.Outcome
import Mathlib.Algebra.Order.Floor.Ring
import Mathlib.Algebra.Order.Archimedean.Basic

/-!
# Model: knot arithmetic, time policies and knot generators

`bsplines/include/bsplines/KnotArithmetics.hpp` and `bsplines/include/bsplines/SimpleTypeTimePolicy.hpp`.

Simplifications: machine integers are unbounded (see `Model/MachineIntegers`), floating point numbers are elements of an ordered field.  Debug assertions
(`SM_ASSERT_*_DBG`, `assert`) are compiled out.
-/

namespace Verif

/-! ### Counts, KnotArithmetics.hpp 41-59 -/

/-- `getNumControlVerticesRequired`, 41-44. -/
def numControlVerticesRequired (numTimeSegments splineOrder : ℤ) : ℤ := numTimeSegments + splineOrder - 1

/-- `getNumKnotsRequired`, 46-49. -/
def numKnotsRequiredInt (numTimeSegments splineOrder : ℤ) : ℤ :=
  numControlVerticesRequired numTimeSegments splineOrder + splineOrder

/-- `getNumValidTimeSegments`, 51-55. -/
def numValidTimeSegmentsInt (numKnots splineOrder : ℤ) : ℤ := max (numKnots - 2 * splineOrder + 1) 0

/-- `getNumRequiredPreambleKnots`, 57-59. -/
def preambleKnots (splineOrder : ℤ) : ℤ := splineOrder - 1

/-! ### Time policies, SimpleTypeTimePolicy.hpp 15-59 -/

/-- What the generators use of a simple time type: the arithmetic type itself plus its division by an `int` and the quotient
of two durations converted to `int`. -/
structure TimePolicy (T : Type*) where
  /-- `duration / segments` as used in `linearlyInterpolate` (35) -/
  divInt : T → ℤ → T
  /-- `(t * segments) / duration` converted to `int` (48) -/
  quotInt : T → T → ℤ

/-- Conversion of a floating point number to `int`: truncation towards zero. -/
def truncInt {K : Type*} [Ring K] [LinearOrder K] [FloorRing K] (x : K) : ℤ := if 0 ≤ x then ⌊x⌋ else ⌈x⌉

/-- The policy for (idealised) floating point time. -/
def fieldPolicy (K : Type*) [Field K] [LinearOrder K] [FloorRing K] : TimePolicy K where
  divInt a n := a / (n : K)
  quotInt a b := truncInt (a / b)

/-- The policy for integer time (nanoseconds): C++ integer division truncates towards zero. -/
def intPolicy : TimePolicy ℤ where
  divInt a n := a.tdiv n
  quotInt a b := a.tdiv b

variable {T : Type*} [CommRing T] [LinearOrder T]

/-- `addScaledDuration`, SimpleTypeTimePolicy.hpp 24-26. -/
def addScaledDuration (a dist : T) (scale : ℤ) : T := a + dist * (scale : T)

/-- `linearlyInterpolate`, SimpleTypeTimePolicy.hpp 32-36. -/
def linearlyInterpolate (P : TimePolicy T) (a b : T) (segments pos : ℤ) : T :=
  if pos = segments then b else a + P.divInt ((b - a) * (pos : T)) segments

/-- `getSegmentNumber`, SimpleTypeTimePolicy.hpp 38-49. -/
def getSegmentNumber (P : TimePolicy T) (a b : T) (segments : ℤ) (t : T) : ℤ :=
  P.quotInt ((t - a) * (segments : T)) (b - a)

/-! ### `UniformTimeCalculator`, KnotArithmetics.hpp 61-86 -/

/-- The members of `UniformTimeCalculator` (66-68). -/
structure UniformTimeCalculator (T : Type*) where
  minValidTime : T
  maxValidTime : T
  numSegments : ℤ
  splineOrder : ℤ

/-- `getTimeByKnotIndex`, 76-79. -/
def UniformTimeCalculator.getTimeByKnotIndex (P : TimePolicy T) (c : UniformTimeCalculator T) (knotIndex : ℤ) : T :=
  linearlyInterpolate P c.minValidTime c.maxValidTime c.numSegments (knotIndex - preambleKnots c.splineOrder)

/-- `getKnotIndexAtTime`, 81-83. -/
def UniformTimeCalculator.getKnotIndexAtTime (P : TimePolicy T) (c : UniformTimeCalculator T) (t : T) : ℤ :=
  getSegmentNumber P c.minValidTime c.maxValidTime c.numSegments t + preambleKnots c.splineOrder

/-! ### Running a generator

The loop `while (generator.hasNextKnot()) use(generator.getNextKnot())` of `initConstantSpline`
(DiffManifoldBSplineImpl.hpp 246-247). -/

/-- `Drain has next g ks g'`: started in state `g` the loop ends, with the knots `ks`, in state `g'`. -/
inductive Drain {σ T : Type*} (has : σ → Prop) (next : σ → T × σ) : σ → List T → σ → Prop
  | stop (g : σ) : ¬ has g → Drain has next g [] g
  | step (g g' : σ) (ks : List T) : has g → Drain has next (next g).2 ks g' → Drain has next g ((next g).1 :: ks) g'

/-! ### `IntervalUniformKnotGenerator`, KnotArithmetics.hpp 90-107 -/

/-- The members (104-106). -/
structure IntervalGen (T : Type*) where
  timeCalculator : UniformTimeCalculator T
  nextIndex : ℤ
  numKnots : ℤ

/-- The constructor, 94-97. -/
def IntervalGen.create (splineOrder : ℤ) (tMin tMax : T) (numSegments : ℤ) : Outcome (IntervalGen T) :=
  if ¬ numSegments > 0 then .throws
  else if ¬ tMax > tMin then .throws
  else .ok ⟨⟨tMin, tMax, numSegments, splineOrder⟩, 0, numKnotsRequiredInt numSegments splineOrder⟩

/-- `hasNextKnot`, 98. -/
def IntervalGen.hasNext (g : IntervalGen T) : Prop := g.nextIndex < g.numKnots

/-- `getNextKnot`, 99. -/
def IntervalGen.next (P : TimePolicy T) (g : IntervalGen T) : T × IntervalGen T :=
  (g.timeCalculator.getTimeByKnotIndex P g.nextIndex, { g with nextIndex := g.nextIndex + 1 })

/-! ### `DeltaUniformKnotGenerator`, KnotArithmetics.hpp 109-127 -/

/-- The members (124-126). -/
structure DeltaGen (T : Type*) where
  splineOrder : ℤ
  delta : T
  lastKnot : T
  beyond : T

/-- The first value of `_lastKnot` (115, 137). -/
def firstLastKnot (splineOrder : ℤ) (start delta : T) (alreadyInitialized : Bool) : T :=
  addScaledDuration start delta (if alreadyInitialized then -1 else -(preambleKnots splineOrder + 1))

/-- The constructor, 114-115, with `getExtendedEndTime`, 123. -/
def DeltaGen.create (splineOrder : ℤ) (start beyond delta : T) (alreadyInitialized : Bool) : DeltaGen T :=
  ⟨splineOrder, delta, firstLastKnot splineOrder start delta alreadyInitialized,
    addScaledDuration beyond delta (splineOrder - 1)⟩

/-- `hasNextKnot`, 117. -/
def DeltaGen.hasNext (g : DeltaGen T) : Prop := g.lastKnot < g.beyond

/-- `getNextKnot`, 118. -/
def DeltaGen.next (g : DeltaGen T) : T × DeltaGen T :=
  let k := addScaledDuration g.lastKnot g.delta 1
  (k, { g with lastKnot := k })

/-- `extendBeyondTime`, 119. -/
def DeltaGen.extendBeyond (g : DeltaGen T) (t : T) : DeltaGen T :=
  { g with beyond := addScaledDuration t g.delta (g.splineOrder - 1) }

/-- `jumpOverNextKnots`, 31. -/
def DeltaGen.jump (g : DeltaGen T) : ℕ → DeltaGen T
  | 0 => g
  | (n + 1) => (g.next.2).jump n

/-! ### `DeltaFreeKnotGenerator`, KnotArithmetics.hpp 129-203 -/

/-- The members (199-202). -/
structure FreeGen (T : Type*) where
  splineOrder : ℤ
  delta : T
  lastKnot : T
  beyond : T
  predefined : List T

/-- The constructor, 134-140; there are no predefined knots yet, so `getExtendedEndTime` takes its first branch. -/
def FreeGen.create (splineOrder : ℤ) (start beyond delta : T) (alreadyInitialized : Bool) : FreeGen T :=
  ⟨splineOrder, delta, firstLastKnot splineOrder start delta alreadyInitialized,
    addScaledDuration beyond delta (splineOrder - 1), []⟩

/-- `hasNextKnot`, 142. -/
def FreeGen.hasNext (g : FreeGen T) : Prop := g.lastKnot < g.beyond

/-- `getNextKnot`, 143-157: the first queued knot greater than the last one, otherwise one step. -/
def FreeGen.next (g : FreeGen T) : T × FreeGen T :=
  let k := (g.predefined.find? (fun p => decide (p > g.lastKnot))).getD (addScaledDuration g.lastKnot g.delta 1)
  (k, { g with lastKnot := k })

/-- `addPredefinedKnot`, 164-178. -/
def FreeGen.addPredefined (g : FreeGen T) (t : T) : Bool × FreeGen T :=
  match g.predefined.getLast? with
  | none => (true, { g with predefined := [t] })
  | some l => if t > l then (true, { g with predefined := g.predefined ++ [t] }) else (false, g)

/-- The loop `while(_predefinedKnots.front() < time) pop_front()`, 186-189: `front()` of an empty deque is undefined. -/
def popBefore (time : T) : List T → Outcome (List T)
  | [] => .ub
  | p :: ps => if p < time then popBefore time ps else .ok (p :: ps)

/-- `getExtendedEndTime`, 180-198: result and remaining queue. -/
def FreeGen.extendedEnd (g : FreeGen T) (time : T) : Outcome (T × List T) :=
  if g.predefined.length < 1 then .ok (addScaledDuration time g.delta (g.splineOrder - 1), g.predefined)
  else (popBefore time g.predefined).bind fun q =>
    match q[(g.splineOrder - 1).toNat]? with
    | none => .throws
    | some k => .ok (k, q)

/-- `extendBeyondTime`, 158-161.  (If the exception is thrown the queue has already been shortened; see `Model/Exceptions`.) -/
def FreeGen.extendBeyond (g : FreeGen T) (time : T) : Outcome (FreeGen T) :=
  (g.extendedEnd time).bind fun (b, q) => .ok { g with beyond := b, predefined := q }

end Verif
