import Verif.Model.Pose
import Mathlib.Algebra.Order.Floor.Ring

/-!
# Model: plotting a pose spline

`bsplines_python/python/bsplines/plotPoseSpline.py`.

Simplifications: `double` is an ordered field; `numpy.arange(start, stop, step)` (external) is the list of `start + i * step` for
`i < ceil((stop - start) / step)` and raises an exception for a step of zero; drawing the points is left out.
-/

namespace Verif
namespace Pose

variable {K : Type*} [Field K] [LinearOrder K] [FloorRing K]

/-- `numpy.arange(start, stop, step)`. -/
def arange (start stop step : K) : Outcome (List K) :=
  if step = 0 then .throws
  else .ok ((List.range ⌈(stop - start) / step⌉.toNat).map fun i : ℕ => start + (i : K) * step)

/-- The times of a plot: `numpy.append(numpy.arange(poseSpline.t_min(), poseSpline.t_max(), dt), poseSpline.t_max())`,
plotPoseSpline.py 7 and 9. -/
def plotTimes (s : Pose K) (dt : K) : Outcome (List K) :=
  s.spline.tMin.bind fun a => s.spline.tMax.bind fun b => (arange a b dt).map fun ts => ts ++ [b]

/-- A list comprehension whose entries may raise an exception. -/
def forAll {α β : Type*} (f : α → Outcome β) : List α → Outcome (List β)
  | [] => .ok []
  | x :: xs => (f x).bind fun y => (forAll f xs).map fun ys => y :: ys

/-- The points that are drawn, plotPoseSpline.py 3-9. -/
def plotPoints (s : Pose K) (dt : K) (invert : Bool) : Outcome (List (Fin 3 → K)) :=
  (s.plotTimes dt).bind fun ts =>
    if invert then forAll (fun t => (s.inverseTransformation t).map topRight) ts else forAll s.position ts

end Pose
end Verif
