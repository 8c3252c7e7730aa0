import Verif.Model.Fitter
import Verif.Model.ManifoldConstant
import Verif.Model.PythonInterface

/-!
# Model: initialising a manifold spline with uniform knots from points

`bsplines/include/bsplines/implementation/BSplineFitterImpl.hpp` 20-42, cited as Fit, and the two functions of
`bsplines/include/bsplines/python/DiffManifoldBSplineExporter.hpp` 98-132 (Exp) that call it.
-/

namespace Verif.MSpline

variable {K : Type*} [Field K] [LinearOrder K] {D : ℕ}

/-- `initUniformSpline` with minimum and maximum time, Fit 27-33.  `front()` and `back()` of an empty vector are undefined. -/
def initUniformFit (dense : Bool) (solve : Solver K) (project : (Fin D → K) → Fin D → K) (M : Mfd K (Fin D → K) (Fin D → K))
    (T : TimePolicy K) (minT maxT : K) (times : List K) (points : List (Fin D → K)) (numSegments : ℤ) (lambda : K)
    (s : MSpline K (Fin D → K)) : Outcome Unit × MSpline K (Fin D → K) :=
  match s.state with
  | .evaluable => (.throws, s)
  | .constructing =>
    match times.head?, times.getLast? with
    | some t0, some tl =>
      if t0 < minT then (.throws, s)
      else if maxT < tl then (.throws, s)
      else match IntervalGen.create (s.order : ℤ) minT maxT numSegments with
        | .ok g => s.fitInit dense solve project M (g.knots T) (some fun t => .ok (g.timeCalculator.getKnotIndexAtTime T t)) times points lambda
        | .throws => (.throws, s)
        | .ub => (.ub, s)
    | _, _ => (.ub, s)

/-- `initUniformSpline` from the first to the last time, Fit 21-24. -/
def initUniformFitTimes (dense : Bool) (solve : Solver K) (project : (Fin D → K) → Fin D → K) (M : Mfd K (Fin D → K) (Fin D → K))
    (T : TimePolicy K) (times : List K) (points : List (Fin D → K)) (numSegments : ℤ) (lambda : K) (s : MSpline K (Fin D → K)) :
    Outcome Unit × MSpline K (Fin D → K) :=
  if times.length < 2 then (.throws, s)
  else match times.head?, times.getLast? with
    | some t0, some tl => s.initUniformFit dense solve project M T t0 tl times points numSegments lambda
    | _, _ => (.ub, s)

/-- `initUniformSplineWithKnotDelta`, Fit 36-42, can end with the result `r`: the spline and the generator returned.  The checks of
`initSpline` (88-90) come before its loop over the knots, which need not end. -/
def InitDeltaFit (dense : Bool) (solve : Solver K) (project : (Fin D → K) → Fin D → K) (M : Mfd K (Fin D → K) (Fin D → K))
    (times : List K) (points : List (Fin D → K)) (delta lambda : K) (s : MSpline K (Fin D → K))
    (r : Outcome (DeltaGen K) × MSpline K (Fin D → K)) : Prop :=
  match s.state with
  | .evaluable => r = (.throws, s)
  | .constructing =>
    if times.length < 2 then r = (.throws, s)
    else match times.head?, times.getLast? with
      | some t0, some tl =>
        if times.length ≠ points.length ∨ timesBounded times = false then r = (.throws, s)
        else ∃ ks g', Drain DeltaGen.hasNext DeltaGen.next (DeltaGen.create (s.order : ℤ) t0 tl delta false) ks g' ∧
          r = ((s.fitInit dense solve project M ks none times points lambda).1.map fun _ => g',
            (s.fitInit dense solve project M ks none times points lambda).2)
      | _, _ => r = (.ub, s)

end Verif.MSpline

namespace Verif.MSpline

variable {K : Type} [Field K] [LinearOrder K] {D : ℕ}

/-- `initUniformSplineFromMatrix`, Exp 98-114 (`initUniformSpline`).  The number of rows is not checked; a point of another size than that
of the spline is undefined behaviour.  (If the size of the points is fixed at compile time that happens here, otherwise in the fitter,
after its own checks.) -/
def pyInitUniform (dense : Bool) (solve : Solver K) (project : (Fin D → K) → Fin D → K) (M : Mfd K (Fin D → K) (Fin D → K))
    (T : TimePolicy K) (times : List K) (rows cols : ℕ) (A : ℕ → ℕ → K) (numSegments : ℤ) (lambda : K) (s : MSpline K (Fin D → K)) :
    Outcome Unit × MSpline K (Fin D → K) :=
  if times.length < cols then (.throws, s)
  else if 0 < cols ∧ rows ≠ D then (.ub, s)
  else s.initUniformFitTimes dense solve project M T times (pyColumns D cols A) numSegments lambda

/-- `initUniformSplineFromMatrixWithKnotDelta`, Exp 116-132 (`initUniformSplineWithKnotDelta`). -/
def PyInitDelta (dense : Bool) (solve : Solver K) (project : (Fin D → K) → Fin D → K) (M : Mfd K (Fin D → K) (Fin D → K))
    (times : List K) (rows cols : ℕ) (A : ℕ → ℕ → K) (delta lambda : K) (s : MSpline K (Fin D → K))
    (r : Outcome (DeltaGen K) × MSpline K (Fin D → K)) : Prop :=
  if times.length < cols then r = (.throws, s)
  else if 0 < cols ∧ rows ≠ D then r = (.ub, s)
  else s.InitDeltaFit dense solve project M times (pyColumns D cols A) delta lambda r

end Verif.MSpline
