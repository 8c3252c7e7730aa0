import Verif.Model.BSpline
import Verif.Model.ManifoldConstant

/-!
# Model: integer arithmetic of limited width

`Model/Knots` and `Model/BSpline` compute with unbounded integers.  Here the same functions are written with the integers of the machine:
times in nanoseconds are `int64_t` (`sm::timing::NsecTime`), everything else is `int` of 32 bits.  Signed overflow is undefined behaviour.

Sources: `/repo/bsplines/include/bsplines/SimpleTypeTimePolicy.hpp` 20-49 (cited as Policy) with `NsecTimePolicy.hpp` 16-20,
`/repo/bsplines/include/bsplines/KnotArithmetics.hpp` 41-127 (Knots), `/repo/bsplines/src/BSpline.cpp` 289-297, which is the same as
`DiffManifoldBSplineImpl.hpp` 814-823.
-/

namespace Verif

/-- Is `x` a value of the signed integers of `bits` bits? -/
def FitsBits (bits : ℕ) (x : ℤ) : Prop := -2 ^ (bits - 1) ≤ x ∧ x < 2 ^ (bits - 1)

instance (bits : ℕ) (x : ℤ) : Decidable (FitsBits bits x) := inferInstanceAs (Decidable (_ ∧ _))

/-- The result of an operation on signed integers. -/
def checked (bits : ℕ) (x : ℤ) : Outcome ℤ := if FitsBits bits x then .ok x else .ub

/-- What a machine that wraps around computes. -/
def wrap (bits : ℕ) (x : ℤ) : ℤ := (x + 2 ^ (bits - 1)) % 2 ^ bits - 2 ^ (bits - 1)

/-- `a / b` of signed integers. -/
def div64 (a b : ℤ) : Outcome ℤ := if b = 0 then .ub else checked 64 (a.tdiv b)

/-- `computeDuration`, Policy 20-22. -/
def computeDuration64 (a b : ℤ) : Outcome ℤ := checked 64 (b - a)

/-- `addScaledDuration`, Policy 24-26. -/
def addScaledDuration64 (a dist scale : ℤ) : Outcome ℤ := (checked 64 (dist * scale)).bind fun m => checked 64 (a + m)

/-- `linearlyInterpolate`, Policy 32-36. -/
def linearlyInterpolate64 (a b segments pos : ℤ) : Outcome ℤ :=
  if pos = segments then .ok b
  else (computeDuration64 a b).bind fun d => (checked 64 (d * pos)).bind fun m => (div64 m segments).bind fun q => checked 64 (a + q)

/-- `getSegmentNumber`, Policy 38-49, without its assertion; the conversion of the result to `int` wraps around. -/
def getSegmentNumber64 (a b segments t : ℤ) : Outcome ℤ :=
  (computeDuration64 a b).bind fun d => (checked 64 (t - a)).bind fun x => (checked 64 (x * segments)).bind fun m =>
    (div64 m d).map fun q => wrap 32 q

/-- The assertion of `getSegmentNumber`, Policy 41 (debug builds), on a machine that wraps around. -/
def segmentAssertion (duration segments : ℤ) : Bool := decide ((wrap 64 (duration * segments)).tdiv duration = segments)

/-- `getNumKnotsRequired`, Knots 41-49. -/
def numKnotsRequired32 (numTimeSegments splineOrder : ℤ) : Outcome ℤ :=
  (checked 32 (numTimeSegments + splineOrder)).bind fun x => (checked 32 (x - 1)).bind fun y => checked 32 (y + splineOrder)

/-- `UniformTimeCalculator::getTimeByKnotIndex`, Knots 76-79. -/
def timeByKnotIndex64 (c : UniformTimeCalculator ℤ) (knotIndex : ℤ) : Outcome ℤ :=
  (checked 32 (c.splineOrder - 1)).bind fun p => (checked 32 (knotIndex - p)).bind fun pos =>
    linearlyInterpolate64 c.minValidTime c.maxValidTime c.numSegments pos

/-- `UniformTimeCalculator::getKnotIndexAtTime`, Knots 81-83. -/
def knotIndexAtTime64 (c : UniformTimeCalculator ℤ) (t : ℤ) : Outcome ℤ :=
  (getSegmentNumber64 c.minValidTime c.maxValidTime c.numSegments t).bind fun n =>
  (checked 32 (c.splineOrder - 1)).bind fun p => checked 32 (n + p)

/-- The constructor of `IntervalUniformKnotGenerator`, Knots 94-97: the number of knots is computed before the arguments are checked. -/
def IntervalGen.create64 (splineOrder tMin tMax numSegments : ℤ) : Outcome (IntervalGen ℤ) :=
  (numKnotsRequired32 numSegments splineOrder).bind fun n =>
    if ¬ numSegments > 0 then .throws
    else if ¬ tMax > tMin then .throws
    else .ok ⟨⟨tMin, tMax, numSegments, splineOrder⟩, 0, n⟩

/-- The calls `getNextKnot()` for the indices given, one after the other. -/
def timesByKnotIndices64 (c : UniformTimeCalculator ℤ) : List ℤ → Outcome (List ℤ)
  | [] => .ok []
  | i :: is => (timeByKnotIndex64 c i).bind fun t => (timesByKnotIndices64 c is).map (t :: ·)

/-- The loop over all knots of the generator (see `IntervalGen.knots`). -/
def IntervalGen.knots64 (g : IntervalGen ℤ) : Outcome (List ℤ) :=
  timesByKnotIndices64 g.timeCalculator ((List.range (g.numKnots - g.nextIndex).toNat).map fun j : ℕ => g.nextIndex + (j : ℤ))

/-- The constructor of `DeltaUniformKnotGenerator`, Knots 114-115, 123. -/
def DeltaGen.create64 (splineOrder start beyond delta : ℤ) (alreadyInitialized : Bool) : Outcome (DeltaGen ℤ) :=
  (addScaledDuration64 start delta (if alreadyInitialized then -1 else -(splineOrder - 1 + 1))).bind fun l =>
  (addScaledDuration64 beyond delta (splineOrder - 1)).bind fun e => .ok ⟨splineOrder, delta, l, e⟩

/-- `DeltaUniformKnotGenerator::getNextKnot`, Knots 118. -/
def DeltaGen.next64 (g : DeltaGen ℤ) : Outcome (ℤ × DeltaGen ℤ) :=
  (addScaledDuration64 g.lastKnot g.delta 1).map fun k => (k, { g with lastKnot := k })

/-- `dmul`, BSpline.cpp 289-297. -/
def dmul32 (i : ℤ) : ℕ → Outcome ℤ
  | 0 => .ok 1
  | 1 => .ok i
  | (d + 2) => (checked 32 (i - 1)).bind fun j => (dmul32 j (d + 1)).bind fun x => checked 32 (i * x)

end Verif
