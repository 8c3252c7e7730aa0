import Verif.Model.Knots
import Verif.Model.ManifoldSpline

/-!
# Model: constant uniform initialisation of manifold splines

`bsplines/include/bsplines/implementation/DiffManifoldBSplineImpl.hpp` 252-264.
-/

namespace Verif

/-- What the loop `while(knotGenerator.hasNextKnot()) .. getNextKnot()` (246-247) gets from an `IntervalUniformKnotGenerator`: the knots
with the indices from `_nextIndex` to `_numKnots - 1`. -/
def IntervalGen.knots {T : Type*} [CommRing T] [LinearOrder T] (P : TimePolicy T) (g : IntervalGen T) : List T :=
  (List.range (g.numKnots - g.nextIndex).toNat).map fun j : ℕ => g.timeCalculator.getTimeByKnotIndex P (g.nextIndex + (j : ℤ))

namespace MSpline

variable {K : Type*} [Field K] [LinearOrder K] {P V : Type*}

/-- `initConstantUniformSpline`, 252-257. -/
def initConstantUniformSpline (M : Mfd K P V) (T : TimePolicy K) (tMin tMax : K) (numSegments : ℤ) (c : P) (s : MSpline K P) :
    Outcome Unit × MSpline K P :=
  match IntervalGen.create (s.order : ℤ) tMin tMax numSegments with
  | .ok g => s.initConstantSpline M (g.knots T) c
  | .throws => (.throws, s)
  | .ub => (.ub, s)

end MSpline
end Verif
