import Verif.Model.ManifoldSpline
import Mathlib.Data.List.OfFn

/-!
# Model: local coefficient vectors of manifold splines

`setLocalCoefficientVector`, `getLocalCoefficientVector` and `getMinimalDistanceToNeighborKnots`,
`/repo/bsplines/include/bsplines/implementation/DiffManifoldBSplineImpl.hpp` 648-652, 668-697.

Simplification: the loops step an iterator back and stop at `begin()`; the model walks the list of the keys from the segment of the time back to
the first.  A vector of `double`s is a list; an entry that was not written since `resize` is `none`.
-/

namespace Verif

/-- Conversion between points and vectors of `double`s: assigning a point to a segment of a vector and the other way round. -/
structure PointRep (K P : Type*) where
  toVec : P → List K
  ofVec : List K → Outcome P

/-- Points of fixed size (`Eigen::Matrix<double, D, 1>`): assigning a vector of another size is undefined behaviour in release builds. -/
def fixedPoints (K : Type*) (D : ℕ) : PointRep K (Fin D → K) where
  toVec p := List.ofFn p
  ofVec l := if h : l.length = D then .ok fun d => l[d.1]'(h.symm ▸ d.2) else .ub

/-- Points of dynamic size (`Eigen::VectorXd`): assigning changes the size. -/
def dynamicPoints (K : Type*) : PointRep K (List K) where
  toVec p := p
  ofVec l := .ok l

namespace MSpline
variable {K : Type*} [Field K] [LinearOrder K] {P : Type*}

/-- `coefficients.segment(index, D) = v`. -/
def writeSegment (buffer : List (Option K)) (index : ℕ) (v : List K) : List (Option K) :=
  buffer.take index ++ v.map some ++ buffer.drop (index + v.length)

/-- The loop of `setLocalCoefficientVector`, 674-678. -/
def setLocalLoop (R : PointRep K P) (coefficients : List K) (D : ℤ) : List K → ℤ → List (Seg K P) → Outcome (List (Seg K P))
  | [], _, segs => .ok segs
  | x :: rest, index, segs =>
    if index < 0 then .ok segs
    else (R.ofVec ((coefficients.drop index.toNat).take D.toNat)).bind fun p =>
      setLocalLoop R coefficients D rest (index - D) (writeVertex segs x p)

/-- `setLocalCoefficientVector`, 668-679. -/
def setLocalCoefficientVector (R : PointRep K P) (s : MSpline K P) (t : K) (coefficients : List K) (pointSize : ℤ) :
    Outcome Unit × MSpline K P :=
  match s.getSegmentIterator t with
  | .throws => (.throws, s)
  | .ub => (.ub, s)
  | .ok it =>
    let index := ((s.order : ℤ) - 1) * pointSize
    if (coefficients.length : ℤ) ≠ index + pointSize then (.throws, s)
    else match setLocalLoop R coefficients pointSize (s.keys.take (itPos s.keys it + 1)).reverse index s.segs with
      | .ok segs => (.ok (), { s with segs := segs })
      | .throws => (.throws, s)
      | .ub => (.ub, s)

/-- The loop of `getLocalCoefficientVector`, 691-695. -/
def getLocalLoop (R : PointRep K P) (s : MSpline K P) (D : ℤ) : List K → ℤ → List (Option K) → Outcome (List (Option K))
  | [], _, buffer => .ok buffer
  | x :: rest, index, buffer =>
    if index < 0 then .ok buffer
    else (s.segAt (some x)).bind fun g =>
      if (R.toVec g.vertex).length ≠ D.toNat then .ub
      else getLocalLoop R s D rest (index - D) (writeSegment buffer index.toNat (R.toVec g.vertex))

/-- `getLocalCoefficientVector`, 683-696; the result is what the parameter `coefficients` holds afterwards.  Resizing to a negative size is
undefined behaviour. -/
def getLocalCoefficientVector (R : PointRep K P) (s : MSpline K P) (t : K) (pointSize : ℤ) : Outcome (List (Option K)) :=
  (s.getSegmentIterator t).bind fun it =>
    if pointSize * s.order < 0 then .ub
    else
      let buffer := List.replicate (pointSize * s.order).toNat none
      let index := ((s.order : ℤ) - 1) * pointSize
      if (buffer.length : ℤ) ≠ index + pointSize then .throws
      else getLocalLoop R s pointSize (s.keys.take (itPos s.keys it + 1)).reverse index buffer

/-- `getMinimalDistanceToNeighborKnots`, 648-652. -/
def getMinimalDistanceToNeighborKnots (s : MSpline K P) (t : K) : Outcome K :=
  (s.getSegmentIterator t).bind fun it =>
  (s.segAt it).bind fun g =>
  (moveIter s.keys it none 1).bind fun next =>
  (s.segAt next).bind fun g' => .ok (min (t - g.knot) (g'.knot - t))

end MSpline
end Verif
