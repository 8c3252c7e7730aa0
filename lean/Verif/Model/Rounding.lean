import Verif.Model.BSpline
import Verif.Model.BSplineFit
import Verif.Model.Knots
import Mathlib.Data.Int.Log

/-!
# Model: time arithmetic in floating point

The other models compute with elements of an ordered field.  Here the arithmetic on times and knots is modelled once more with the result
of every operation rounded: the knots and the lookup of `bsplines/src/BSpline.cpp`, the time policy
`bsplines/include/bsplines/SimpleTypeTimePolicy.hpp` for `double` and the generators of `bsplines/include/bsplines/KnotArithmetics.hpp`.

Simplifications: no overflow and no NaN (for those see `Model/NotANumber`); multiplications and additions are not contracted into one
operation; there is no extra precision.  Comparisons, `fabs` and the conversion of an `int` are exact.
-/

namespace Verif

/-! ### Rounding -/

/-- What is assumed about the rounding of results.  `err` is the usual error bound with underflow; sums and integer multiples of numbers of
the format do not underflow. -/
structure Rounding (K : Type*) [Field K] [LinearOrder K] where
  /-- The number of the format a result is replaced by. -/
  rnd : K → K
  /-- The relative error. -/
  eps : K
  /-- The error by underflow. -/
  tiny : K
  mono : Monotone rnd
  idem : ∀ x, rnd (rnd x) = rnd x
  neg : ∀ x, rnd (-x) = -rnd x
  int : ∀ m : ℤ, |m| ≤ 2 ^ 53 → rnd (m : K) = m
  eps_nonneg : 0 ≤ eps
  eps_le : eps ≤ 1 / 2 ^ 53
  tiny_nonneg : 0 ≤ tiny
  tiny_le : tiny ≤ 1 / 2 ^ 1075
  err : ∀ x, |rnd x - x| ≤ eps * |x| + tiny
  err_add : ∀ x y, rnd x = x → rnd y = y → |rnd (x + y) - (x + y)| ≤ eps * |x + y|
  err_mul : ∀ x, rnd x = x → ∀ m : ℤ, |rnd (x * m) - x * m| ≤ eps * |x * m|

section ieee

variable {K : Type*} [Field K] [LinearOrder K] [IsStrictOrderedRing K] [FloorRing K]

/-- The nearest integer, the even one of two. -/
def roundEven (y : K) : ℤ :=
  if y - ⌊y⌋ < 1 / 2 then ⌊y⌋
  else if 1 / 2 < y - ⌊y⌋ then ⌊y⌋ + 1
  else if ⌊y⌋ % 2 = 0 then ⌊y⌋ else ⌊y⌋ + 1

/-- The exponent of the distance of neighbouring numbers of the IEEE 754 format binary64 around `x`: 53 significant bits, but nothing
finer than `2 ^ -1074`. -/
def gridExp (x : K) : ℤ := max (Int.log 2 |x| - 52) (-1074)

/-- Rounding of a result to a `double` (to nearest, ties to even) as long as it does not overflow. -/
def double (x : K) : K := roundEven (x / 2 ^ gridExp x) * 2 ^ gridExp x

end ieee

namespace Rounding

variable {K : Type*} [Field K] [LinearOrder K]

/-- No rounding at all. -/
def exact [IsStrictOrderedRing K] : Rounding K where
  rnd x := x
  eps := 0
  tiny := 0
  mono _ _ h := h
  idem _ := rfl
  neg _ := rfl
  int _ _ := rfl
  eps_nonneg := le_rfl
  eps_le := by positivity
  tiny_nonneg := le_rfl
  tiny_le := by positivity
  err x := by simp
  err_add x y _ _ := by simp
  err_mul x _ m := by simp

variable (R : Rounding K)

/-- Addition. -/
def add (x y : K) : K := R.rnd (x + y)

/-- Subtraction. -/
def sub (x y : K) : K := R.rnd (x - y)

/-- Multiplication. -/
def mul (x y : K) : K := R.rnd (x * y)

/-- Division. -/
def div (x y : K) : K := R.rnd (x / y)

/-- Is `x` a number of the format? -/
def IsFloat (x : K) : Prop := R.rnd x = x

/-! ### `BSpline` -/

/-- The knot distance `dt` of `initSpline2`, `initSplineSparse` and `initSpline3`: BSpline.cpp 785, 985, 1110. -/
def knotDistance (first last : K) (numSegments : ℕ) : K := R.div (R.sub last first) numSegments

/-- The knots `times[0] + (i - splineOrder_ + 1) * dt`, BSpline.cpp 566-571, 786-790, 986-990, 1111-1115. -/
def uniformKnots (order nK : ℕ) (t0 dt : K) : List K :=
  (List.range nK).map fun (i : ℕ) => R.add t0 (R.mul dt (((i : ℤ) - order + 1 : ℤ) : K))

/-- The knots of a fit of data from time `first` to time `last`, BSpline.cpp 776-790, 977-990, 1102-1115. -/
def fitKnots (order : ℕ) (first last : K) (numSegments : ℕ) : List K :=
  R.uniformKnots order (BSpline.numKnotsRequired order numSegments) first (R.knotDistance first last numSegments)

/-- The knots after `addCurveSegment`, BSpline.cpp 662-675 (`addCurveSegment2`, 1182-1195): those after knot `km1 + 1` are replaced by
`t` and repeated additions of `dt`; `m` is the number of knots written. -/
def retool (t dt : K) : ℕ → List K
  | 0 => []
  | m + 1 => t :: retool (R.add t dt) dt m

/-- The same with the old knots. -/
def retooledKnots (knots : List K) (km1 : ℕ) (t : K) : List K :=
  knots.take (km1 + 2) ++ R.retool t (R.sub t (knots.getD (km1 + 1) 0)) (knots.length + 1 - (km1 + 2))

variable {D : ℕ}

/-- `computeTIndex`, BSpline.cpp 237-264. -/
def computeTIndex (s : BSpline K D) (t : K) : Outcome (K × ℕ) :=
  s.tMin.bind fun tmin =>
  s.tMax.bind fun tmax =>
    if t < tmin then .throws else
    let t' := if |R.sub tmax t| < R.rnd BSpline.snapTol then tmax else t
    if tmax < t' then .throws else
    let i := if t' = tmax then s.knots.length - s.order else BSpline.upperBound s.knots t'
    if i = 0 then .ub else
    match s.knots[i]?, s.knots[i - 1]? with
    | some b, some a => .ok (R.sub b a, i - 1)
    | _, _ => .ub

/-- `computeUAndTIndex`, BSpline.cpp 266-287. -/
def computeUAndTIndex (s : BSpline K D) (t : K) : Outcome (K × ℕ) :=
  (R.computeTIndex s t).bind fun (denom, index) =>
    if denom ≤ 0 then .ok (0, index) else .ok (R.div (R.sub t (s.kn index)) denom, index)

/-! ### `SimpleTypeTimePolicy<double>` -/

/-- `computeDuration`, SimpleTypeTimePolicy.hpp 20-22. -/
def computeDuration (a b : K) : K := R.sub b a

/-- `addScaledDuration`, 24-26. -/
def addScaledDuration (a dist : K) (scale : ℤ) : K := R.add a (R.mul dist scale)

/-- `linearlyInterpolate`, 32-36. -/
def linearlyInterpolate (a b : K) (segments pos : ℤ) : K :=
  if pos = segments then b else R.add a (R.div (R.mul (R.computeDuration a b) pos) segments)

/-- `getSegmentNumber`, 38-49; the assertion in line 41 is compiled out. -/
def getSegmentNumber [FloorRing K] (a b : K) (segments : ℤ) (t : K) : ℤ :=
  truncInt (R.div (R.mul (R.sub t a) segments) (R.computeDuration a b))

/-- The expression asserted in line 41. -/
def getSegmentNumberAssertion (a b : K) (segments : ℤ) : Prop :=
  R.div (R.mul (R.computeDuration a b) segments) (R.computeDuration a b) = segments

/-- `UniformTimeCalculator::getTimeByKnotIndex`, KnotArithmetics.hpp 76-79. -/
def getTimeByKnotIndex (c : UniformTimeCalculator K) (knotIndex : ℤ) : K :=
  R.linearlyInterpolate c.minValidTime c.maxValidTime c.numSegments (knotIndex - preambleKnots c.splineOrder)

/-- `UniformTimeCalculator::getKnotIndexAtTime`, KnotArithmetics.hpp 81-83. -/
def getKnotIndexAtTime [FloorRing K] (c : UniformTimeCalculator K) (t : K) : ℤ :=
  R.getSegmentNumber c.minValidTime c.maxValidTime c.numSegments t + preambleKnots c.splineOrder

/-- `IntervalUniformKnotGenerator::getNextKnot`, KnotArithmetics.hpp 99. -/
def intervalNext (g : IntervalGen K) : K × IntervalGen K :=
  (R.getTimeByKnotIndex g.timeCalculator g.nextIndex, { g with nextIndex := g.nextIndex + 1 })

/-- The constructor of `DeltaUniformKnotGenerator`, KnotArithmetics.hpp 114-115, 123. -/
def deltaCreate (splineOrder : ℤ) (start beyond delta : K) (alreadyInitialized : Bool) : DeltaGen K :=
  ⟨splineOrder, delta,
    R.addScaledDuration start delta (if alreadyInitialized then -1 else -(preambleKnots splineOrder + 1)),
    R.addScaledDuration beyond delta (splineOrder - 1)⟩

/-- `DeltaUniformKnotGenerator::getNextKnot`, KnotArithmetics.hpp 118. -/
def deltaNext (g : DeltaGen K) : K × DeltaGen K :=
  let k := R.addScaledDuration g.lastKnot g.delta 1
  (k, { g with lastKnot := k })

/-- `DeltaUniformKnotGenerator::extendBeyondTime`, KnotArithmetics.hpp 119, 123. -/
def deltaExtend (g : DeltaGen K) (t : K) : DeltaGen K :=
  { g with beyond := R.addScaledDuration t g.delta (g.splineOrder - 1) }

end Rounding

end Verif
