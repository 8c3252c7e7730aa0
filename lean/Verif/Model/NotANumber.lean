import Verif.Model.BSplineFit
import Verif.Model.Fitter

/-!
# Model: times that are infinite or not a number

`/repo/bsplines/src/BSpline.cpp` 183-196, 237-264, 551-588, 764-779, 1091-1124 (cited as BSpline.cpp),
`/repo/bsplines/include/bsplines/implementation/DiffManifoldBSplineImpl.hpp` 618-637 (Impl) and `BSplineFitterImpl.hpp` 69-80 (Fit)
once more, for times and knots that may be any `double`.

A `double` is a number of the field, infinite, or not a number; comparisons with "not a number" are false, as IEEE 754 says.  No rounding.
`SM_ASSERT_GE` and so on belong to another package (`sm_common`).  Whether they throw when the opposite comparison is true or when the
comparison is not true only matters here; both are modelled (`Check`).
-/

namespace Verif

/-- A `double`. -/
inductive Flt (K : Type*)
  | nan
  | negInf
  | fin (x : K)
  | posInf
  deriving DecidableEq

namespace Flt

variable {K : Type*} [Field K] [LinearOrder K]

/-- `a < b`. -/
def lt : Flt K → Flt K → Bool
  | nan, _ => false
  | _, nan => false
  | negInf, negInf => false
  | negInf, _ => true
  | fin a, fin b => decide (a < b)
  | fin _, posInf => true
  | fin _, negInf => false
  | posInf, _ => false

/-- `a == b`. -/
def eq : Flt K → Flt K → Bool
  | negInf, negInf => true
  | fin a, fin b => decide (a = b)
  | posInf, posInf => true
  | _, _ => false

/-- `a <= b`. -/
def le (a b : Flt K) : Bool := lt a b || eq a b

/-- `-a`. -/
def neg : Flt K → Flt K
  | nan => nan
  | negInf => posInf
  | fin a => fin (-a)
  | posInf => negInf

/-- `a + b`. -/
def add : Flt K → Flt K → Flt K
  | nan, _ => nan
  | _, nan => nan
  | fin a, fin b => fin (a + b)
  | fin _, y => y
  | x, fin _ => x
  | negInf, negInf => negInf
  | posInf, posInf => posInf
  | negInf, posInf => nan
  | posInf, negInf => nan

/-- `a - b`. -/
def sub (a b : Flt K) : Flt K := add a (neg b)

/-- `c * a` for a number `c`. -/
def scale (c : K) : Flt K → Flt K
  | nan => nan
  | fin a => fin (c * a)
  | negInf => if c = 0 then nan else if 0 < c then negInf else posInf
  | posInf => if c = 0 then nan else if 0 < c then posInf else negInf

/-- `fabs(a)`. -/
def abs : Flt K → Flt K
  | nan => nan
  | negInf => posInf
  | fin a => fin |a|
  | posInf => posInf

end Flt

/-- How the assertion macros decide: they throw if the opposite is true (`refuted`), or if the condition is not true (`unconfirmed`). -/
inductive Check
  | refuted
  | unconfirmed
  deriving DecidableEq

namespace Check

variable {K : Type*} [Field K] [LinearOrder K]

/-- Does `SM_ASSERT_LE(a, b)` pass?  (`SM_ASSERT_GE(b, a)` is the same.) -/
def le : Check → Flt K → Flt K → Bool
  | refuted, a, b => !(Flt.lt b a)
  | unconfirmed, a, b => Flt.le a b

/-- Does `SM_ASSERT_GT(a, b)` pass? -/
def gt : Check → Flt K → Flt K → Bool
  | refuted, a, b => !(Flt.le a b)
  | unconfirmed, a, b => Flt.lt b a

end Check

namespace BSpline

variable {K : Type*} [Field K] [LinearOrder K]

/-- `std::upper_bound(begin, end, t) - begin`.  The standard asks that the elements for which `t < x` is true come last. -/
def upperBoundF (knots : List (Flt K)) (t : Flt K) : Outcome ℕ :=
  let i := knots.findIdx fun x => Flt.lt t x
  if (knots.drop i).all fun x => Flt.lt t x then .ok i else .ub

/-- `computeTIndex`, BSpline.cpp 237-264, with `t_min` and `t_max`, 225-235. -/
def computeTIndexF (c : Check) (order : ℕ) (knots : List (Flt K)) (t : Flt K) : Outcome (Flt K × ℕ) :=
  if knots.length < minimumKnotsRequired order then .throws
  else
    match knots[order - 1]?, knots[knots.length - order]? with
    | some tmin, some tmax =>
      if !(c.le tmin t) then .throws
      else
        let t' := if Flt.lt (Flt.abs (Flt.sub tmax t)) (Flt.fin snapTol) then tmax else t
        if !(c.le t' tmax) then .throws
        else
          (if Flt.eq t' tmax then .ok (knots.length - order) else upperBoundF knots t').bind fun i =>
            if i = 0 then .ub
            else match knots[i]?, knots[i - 1]? with
              | some b, some a => .ok (Flt.sub b a, i - 1)
              | _, _ => .ub
    | _, _ => .ub

/-- The loop of `verifyKnotSequence`, BSpline.cpp 190-195 (see `verifyLoop`). -/
def verifyLoopF (c : Check) (newKnots : List (Flt K)) : ℕ → ℕ → Outcome Unit
  | _, 0 => .ok ()
  | i, (n + 1) =>
    match newKnots[i - 1]?, newKnots[i]? with
    | some a, some b => if c.le a b then verifyLoopF c newKnots (i + 1) n else .throws
    | _, _ => .ub

/-- The knots `t_0 + (i - splineOrder_ + 1) * dt` (BSpline.cpp 567-572, 788-793, 1117-1122). -/
def uniformKnotsF (order nK : ℕ) (t0 dt : Flt K) : List (Flt K) :=
  (List.range nK).map fun (i : ℕ) => Flt.add t0 (Flt.scale ((i : K) - (order : K) + 1) dt)

/-- `initSpline` of a new spline, BSpline.cpp 551-588, up to the lookup of the first constraint (`Phi(t_min(), 0)`): what that finds.  (A
new spline has no knots, so that `verifyKnotSequence` compares nothing.) -/
def initStartF (c : Check) (order : ℕ) (t0 t1 : Flt K) : Outcome (Flt K × ℕ) :=
  if !(c.gt t1 t0) then .throws
  else
    let knots := uniformKnotsF order (numKnotsRequired order 1) t0 (Flt.sub t1 t0)
    match knots[order - 1]? with
    | some tmin => computeTIndexF c order knots tmin
    | none => .ub

/-- The loop checking that the times are nondecreasing (BSpline.cpp 774-779, 1095-1100). -/
def timesSortedF (c : Check) : List (Flt K) → Bool
  | [] => true
  | [_] => true
  | a :: b :: l => c.le a b && timesSortedF c (b :: l)

/-- The lookups of the observations one after the other (BSpline.cpp 812-820, 1127-1135). -/
def lookupsF (c : Check) (order : ℕ) (knots : List (Flt K)) : List (Flt K) → Outcome (List (Flt K × ℕ))
  | [] => .ok []
  | t :: ts => (computeTIndexF c order knots t).bind fun r => (lookupsF c order knots ts).map (r :: ·)

/-- `initSpline3` and `initSplineSparse` of a new spline, BSpline.cpp 967-1010, 1091-1135, up to the lookups of the observations. -/
def fitStartF (c : Check) (order : ℕ) (times : List (Flt K)) (numSegments : ℕ) : Outcome (List (Flt K × ℕ)) :=
  if times.length < 2 then .throws
  else if numSegments < 1 then .throws
  else if timesSortedF c times = false then .throws
  else
    match times.head?, times.getLast? with
    | some t0, some tl =>
      let dt := Flt.scale (1 / (numSegments : K)) (Flt.sub tl t0)
      lookupsF c order (uniformKnotsF order (numKnotsRequired order numSegments) t0 dt) times
    | _, _ => .ub

end BSpline

/-- `checkTimesBounds`, Fit 69-79. -/
def timesBoundedF {K : Type*} [Field K] [LinearOrder K] (c : Check) (times : List (Flt K)) : Bool :=
  match times.head?, times.getLast? with
  | some a, some b => decide (times.length ≤ 1) || times.all fun t => c.le a t && c.le t b
  | _, _ => true

namespace MSpline

variable {K : Type*} [Field K] [LinearOrder K] {P : Type*}

/-- `getSegmentIterator`, Impl 618-637; the knots are numbers. -/
def getSegmentIteratorF (c : Check) (s : MSpline K P) (t : Flt K) : Outcome (Iter K) :=
  s.getMinTime.bind fun tmin => s.getMaxTime.bind fun tmax =>
    if !(c.le (.fin tmin) t) then .throws
    else if !(c.le t (.fin tmax)) then .throws
    else if Flt.eq t (.fin tmax) then itDec s.keys (some tmax)
    else itDec s.keys (s.keys[s.keys.findIdx fun x => Flt.lt t (.fin x)]?)

/-- The evaluator's constructor, Impl 733-743: the iterators and the length it stores (see `evaluatorAt`). -/
def evaluatorF (c : Check) (s : MSpline K P) (t : Flt K) : Outcome (Iter K × Iter K × Iter K × K) :=
  match s.state with
  | .constructing => .throws
  | .evaluable =>
    (s.getSegmentIteratorF c t).bind fun ti =>
    (s.firstRelevantByLast ti).bind fun fi =>
    (moveIter s.keys ti none 1).bind fun e =>
    (s.segmentLength ti).bind fun len => .ok (ti, fi, e, len)

end MSpline
end Verif
