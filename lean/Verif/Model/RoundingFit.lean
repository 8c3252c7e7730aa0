import Verif.Model.Rounding
import Verif.Model.UniformFit

/-!
# Model: the fits with uniform knots when the times are rounded

`bsplines/include/bsplines/implementation/BSplineFitterImpl.hpp` 20-42 as in `Model/UniformFit`, with the knots and the knot indices
computed in floating point.

Simplification: only the arithmetic on times is rounded, the weights and the linear system are still exact.
-/

namespace Verif.Rounding

open Verif.MSpline

variable {K : Type*} [Field K] [LinearOrder K] (R : Rounding K) {D : ℕ}

/-- The knots the interval generator returns until `hasNextKnot` is false, KnotArithmetics.hpp 98-99. -/
def generatedKnots (g : IntervalGen K) : List K :=
  (List.range (g.numKnots - g.nextIndex).toNat).map fun j : ℕ => R.getTimeByKnotIndex g.timeCalculator (g.nextIndex + j)

/-- `initUniformSpline` with minimum and maximum time, BSplineFitterImpl.hpp 27-33. -/
def initUniformFit [FloorRing K] (dense : Bool) (solve : Solver K) (project : (Fin D → K) → Fin D → K) (M : Mfd K (Fin D → K) (Fin D → K))
    (minT maxT : K) (times : List K) (points : List (Fin D → K)) (numSegments : ℤ) (lambda : K)
    (s : MSpline K (Fin D → K)) : Outcome Unit × MSpline K (Fin D → K) :=
  match s.state with
  | .evaluable => (.throws, s)
  | .constructing =>
    match times.head?, times.getLast? with
    | some t0, some tl =>
      if t0 < minT then (.throws, s)
      else if maxT < tl then (.throws, s)
      else match IntervalGen.create (s.order : ℤ) minT maxT numSegments with
        | .ok g => s.fitInit dense solve project M (R.generatedKnots g) (some fun t => .ok (R.getKnotIndexAtTime g.timeCalculator t)) times
            points lambda
        | .throws => (.throws, s)
        | .ub => (.ub, s)
    | _, _ => (.ub, s)

/-- `initUniformSplineWithKnotDelta`, BSplineFitterImpl.hpp 36-42, can end with the result `r`. -/
def InitDeltaFit (dense : Bool) (solve : Solver K) (project : (Fin D → K) → Fin D → K) (M : Mfd K (Fin D → K) (Fin D → K))
    (times : List K) (points : List (Fin D → K)) (delta lambda : K) (s : MSpline K (Fin D → K))
    (r : Outcome (DeltaGen K) × MSpline K (Fin D → K)) : Prop :=
  match s.state with
  | .evaluable => r = (.throws, s)
  | .constructing =>
    if times.length < 2 then r = (.throws, s)
    else match times.head?, times.getLast? with
      | some t0, some tl =>
        if times.length ≠ points.length ∨ timesBounded times = false then r = (.throws, s)
        else ∃ ks g', Drain DeltaGen.hasNext R.deltaNext (R.deltaCreate (s.order : ℤ) t0 tl delta false) ks g' ∧
          r = ((s.fitInit dense solve project M ks none times points lambda).1.map fun _ => g',
            (s.fitInit dense solve project M ks none times points lambda).2)
      | _, _ => r = (.ub, s)

end Verif.Rounding
