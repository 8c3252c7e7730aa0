import Verif.Model.BSpline
import Mathlib.Data.List.Range
import Mathlib.Order.Interval.Finset.Nat

/-!
# Model of `bsplines::BSpline`: Jacobians, coefficient views, basis function vectors, small setters

Source: `/repo/bsplines/src/BSpline.cpp`, `/repo/bsplines/include/bsplines/BSpline.hpp`.
A stacked vector is a list of numbers; `c.segment(i*D, D)` is `segmentOf c i`.
-/

namespace Verif

open Finset

namespace BSpline

variable {K : Type*} [Field K] [LinearOrder K] {D : ℕ}

/-- `c.segment(i * D, D)` of a stacked vector. -/
def segmentOf (c : List K) (i : ℕ) : Fin D → K := fun d => c.getD (i * D + d) 0

/-- Stacking `n` columns on top of each other (the loops `c.segment(i*D, D) = …`). -/
def stack (n : ℕ) (f : ℕ → Fin D → K) : List K :=
  ((List.range n).map (fun i => (List.finRange D).map (f i))).flatten

/-- `Eigen::VectorXi::LinSpaced(n, lo, lo + n - 1)`: consecutive integers. -/
def linSpacedIdx (n lo : ℕ) : List ℕ := (List.range n).map (fun i => lo + i)

/-- `bidx = idx - splineOrder_ + 1`; a negative result (excluded by the lookup) counts as undefined
behaviour because every caller uses it as a block offset. -/
def bidxOf (s : BSpline K D) (idx : ℕ) : Outcome ℕ :=
  if idx + 1 < s.order then .ub else .ok (idx + 1 - s.order)

/-- The block-row matrix `[I*w_0, I*w_1, …]` assembled in `evalDAndJacobian` (BSpline.cpp 370-379)
and `Phi` (488-494): column `i*D + c` holds `w_i` in row `c`. -/
def identityBlocks (D : ℕ) (w : ℕ → K) : Mat K := fun r q => if q % D = r then w (q / D) else 0

/-- Result of `evalDAndJacobian`: value, Jacobian, coefficient indices. -/
structure ValJac (K : Type*) (D : ℕ) where
  value : Fin D → K
  jacobian : Mat K
  indices : List ℕ

/-- `evalDAndJacobian`, BSpline.cpp 351-387. -/
def evalDAndJacobian (s : BSpline K D) (t : K) (der : ℤ) : Outcome (ValJac K D) :=
  if der < 0 then .throws else
  (s.computeUAndTIndex t).bind fun (u, idx) =>
  (s.blockAt idx).bind fun (bidx, B) =>
    let btu := transposeMul s.order B (computeU s.kn s.order u idx der.toNat)
    .ok { value := s.blockMul bidx btu
          jacobian := identityBlocks D btu
          indices := linSpacedIdx (s.order * D) (bidx * D) }

/-- `Phi` and `localBasisMatrix`, BSpline.cpp 400-403, 464-500. -/
def phi (s : BSpline K D) (t : K) (der : ℤ) : Outcome (Mat K) :=
  if der < 0 then .throws else
  (s.computeUAndTIndex t).bind fun (u, idx) =>
  (s.blockAt idx).bind fun (_, B) =>
    .ok (identityBlocks D (transposeMul s.order B (computeU s.kn s.order u idx der.toNat)))

/-- `localCoefficientMatrix`, BSpline.cpp 405-410 (list of columns). -/
def localCoefficientMatrix (s : BSpline K D) (t : K) : Outcome (List (Fin D → K)) :=
  (s.computeTIndex t).bind fun (_, idx) =>
  (s.bidxOf idx).bind fun bidx =>
    if bidx + s.order ≤ s.coeffs.length then
      .ok ((List.range s.order).map (fun i => s.col (bidx + i)))
    else .ub

/-- `localCoefficientVector`, BSpline.cpp 412-423. -/
def localCoefficientVector (s : BSpline K D) (t : K) : Outcome (List K) :=
  (s.computeTIndex t).bind fun (_, idx) =>
  (s.bidxOf idx).bind fun bidx =>
    if bidx + s.order ≤ s.coeffs.length then .ok (stack s.order (fun i => s.col (i + bidx)))
    else .ub

/-- `segmentCoefficientVector`, BSpline.cpp 425-433. -/
def segmentCoefficientVector (s : BSpline K D) (seg : ℤ) : Outcome (List K) :=
  if seg < 0 ∨ (s.numValidTimeSegments : ℤ) ≤ seg then .throws
  else if seg.toNat + s.order ≤ s.coeffs.length then
    .ok (stack s.order (fun i => s.col (i + seg.toNat)))
  else .ub

/-- `localCoefficientVectorIndices`, BSpline.cpp 436-442. -/
def localCoefficientVectorIndices (s : BSpline K D) (t : K) : Outcome (List ℕ) :=
  (s.computeTIndex t).bind fun (_, idx) =>
  (s.bidxOf idx).bind fun bidx => .ok (linSpacedIdx (s.order * D) (bidx * D))

/-- `localVvCoefficientVectorIndices`, BSpline.cpp 451-456. -/
def localVvCoefficientVectorIndices (s : BSpline K D) (t : K) : Outcome (List ℕ) :=
  (s.computeTIndex t).bind fun (_, idx) =>
  (s.bidxOf idx).bind fun bidx => .ok (linSpacedIdx s.order bidx)

/-- `segmentVvCoefficientVectorIndices`, BSpline.cpp 458-462. -/
def segmentVvCoefficientVectorIndices (s : BSpline K D) (seg : ℤ) : Outcome (List ℕ) :=
  if seg < 0 ∨ (s.numValidTimeSegments : ℤ) ≤ seg then .throws
  else .ok (linSpacedIdx s.order seg.toNat)

/-- `segmentCoefficientVectorIndices`, BSpline.cpp 444-449. -/
def segmentCoefficientVectorIndices (s : BSpline K D) (seg : ℤ) : Outcome (List ℕ) :=
  if seg < 0 ∨ (s.numValidTimeSegments : ℤ) ≤ seg then .throws
  else .ok (linSpacedIdx (s.order * D) (seg.toNat * D))

/-- The loop `coefficients_.col(i + bidx) = c.segment(i*D, D)` for `i < n`. -/
def writeCols (cs : List (Fin D → K)) (bidx : ℕ) (c : List K) : ℕ → List (Fin D → K)
  | 0 => cs
  | (n + 1) => (writeCols cs bidx c n).set (n + bidx) (segmentOf c n)

/-- `setCoefficientVector`, BSpline.cpp 503-510. -/
def setCoefficientVector (s : BSpline K D) (c : List K) : Outcome (BSpline K D) :=
  if c.length = D * s.coeffs.length then
    .ok { s with coeffs := writeCols s.coeffs 0 c s.coeffs.length }
  else .throws

/-- `coefficientVector`, BSpline.cpp 512-520. -/
def coefficientVector (s : BSpline K D) : List K := stack s.coeffs.length (fun i => s.col i)

/-- `setCoefficientMatrix`, BSpline.cpp 523-528 (the number of rows is fixed by the type). -/
def setCoefficientMatrix (s : BSpline K D) (cs : List (Fin D → K)) : Outcome (BSpline K D) :=
  if s.coeffs.length = cs.length then .ok { s with coeffs := cs } else .throws

/-- `setLocalCoefficientVector`, BSpline.cpp 749-759. -/
def setLocalCoefficientVector (s : BSpline K D) (t : K) (c : List K) : Outcome (BSpline K D) :=
  if c.length = s.order * D then
    (s.computeTIndex t).bind fun (_, idx) =>
    (s.bidxOf idx).bind fun bidx =>
      if bidx + s.order ≤ s.coeffs.length then
        .ok { s with coeffs := writeCols s.coeffs bidx c s.order }
      else .ub
  else .throws

/-- Reading through `vvCoefficientVector(i)`, BSpline.cpp 1757-1761. -/
def vvCoefficientVector (s : BSpline K D) (i : ℤ) : Outcome (Fin D → K) :=
  if i < 0 ∨ (s.coeffs.length : ℤ) ≤ i then .throws else .ok (s.col i.toNat)

/-- Writing through the map returned by `vvCoefficientVector(i)`, BSpline.cpp 1751-1755. -/
def setVvCoefficientVector (s : BSpline K D) (i : ℤ) (v : Fin D → K) : Outcome (BSpline K D) :=
  if i < 0 ∨ (s.coeffs.length : ℤ) ≤ i then .throws
  else .ok { s with coeffs := s.coeffs.set i.toNat v }

/-- `timeInterval()`, BSpline.cpp 538-541. -/
def timeInterval (s : BSpline K D) : Outcome (K × K) :=
  s.tMin.bind fun a => s.tMax.bind fun b => .ok (a, b)

/-- `timeInterval(i)`, BSpline.cpp 543-548. -/
def timeIntervalOf (s : BSpline K D) (i : ℤ) : Outcome (K × K) :=
  if s.knots.length < minimumKnotsRequired s.order then .throws
  else if i < 0 ∨ (s.numValidTimeSegments : ℤ) ≤ i then .throws
  else .ok (s.kn (s.order + i.toNat - 1), s.kn (s.order + i.toNat))

/-- `segmentIndex`, BSpline.cpp 1440-1444. -/
def segmentIndex (s : BSpline K D) (t : K) : Outcome ℕ :=
  (s.computeTIndex t).bind fun (_, idx) => s.bidxOf idx

/-- `getLocalBiVector` / `getLocalBiInto`, BSpline.cpp 1405-1420. -/
def getLocalBiVector (s : BSpline K D) (t : K) : Outcome (ℕ → K) :=
  (s.segmentIndex t).bind fun si =>
  (s.computeUAndTIndex t).bind fun (u, idx) =>
    match s.basis[si]? with
    | none => .ub
    | some B => .ok (fun j => ∑ r ∈ range s.order, computeU s.kn s.order u idx 0 r * B r j)

/-- The in-place loop of `getLocalCumulativeBiVector`, BSpline.cpp 1426-1433:
entry `i` is increased by the entries after it. -/
def cumulate (maxIndex : ℕ) (bi : ℕ → K) : ℕ → K :=
  (List.range' 1 maxIndex).foldl
    (fun b i => Function.update b i (b i + ∑ j ∈ Ioc i maxIndex, b j)) bi

/-- `getLocalCumulativeBiVector`, BSpline.cpp 1423-1436. -/
def getLocalCumulativeBiVector (s : BSpline K D) (t : K) : Outcome (ℕ → K) :=
  (s.getLocalBiVector t).bind fun bi =>
    .ok (Function.update (cumulate (s.order - 1) bi) 0 1)

/-- Entry `i` of a `BiVector`, BSpline.hpp 36-58. -/
def biEntry (start : ℕ) (rows : ℕ) (localBi : ℕ → K) (endValue : K) (i : ℕ) : K :=
  if i < start then endValue else if rows ≤ i - start then 0 else localBi (i - start)

/-- `getBiVector`, BSpline.hpp 567-569: a vector with `numValidTimeSegments()` rows. -/
def getBiVector (s : BSpline K D) (t : K) : Outcome (List K) :=
  (s.segmentIndex t).bind fun si =>
  (s.getLocalBiVector t).bind fun bi =>
    .ok ((List.range s.numValidTimeSegments).map (biEntry si s.order bi 0))

/-- `getCumulativeBiVector`, BSpline.hpp 570-572. -/
def getCumulativeBiVector (s : BSpline K D) (t : K) : Outcome (List K) :=
  (s.segmentIndex t).bind fun si =>
  (s.getLocalCumulativeBiVector t).bind fun bi =>
    .ok ((List.range s.numValidTimeSegments).map (biEntry si s.order bi 1))

/-- `removeCurveSegment`, BSpline.cpp 740-747.  The cached basis matrices are left as they are. -/
def removeCurveSegment (s : BSpline K D) : BSpline K D :=
  if 0 < s.knots.length ∧ 0 < s.coeffs.length then
    { s with knots := s.knots.tail, coeffs := s.coeffs.tail }
  else s

/-- `Eigen::VectorXd::LinSpaced(n, lo, hi)`: entry `i` is `lo + i * (hi - lo) / (n - 1)`
(used with `n ≥ 2`). -/
def linSpaced (n : ℕ) (lo hi : K) : List K :=
  (List.range n).map (fun (i : ℕ) => lo + (i : K) * ((hi - lo) / ((n : K) - 1)))

/-- `initConstantSpline`, BSpline.cpp 1718-1743 (for a constant of the dimension of the model). -/
def initConstantSpline (s : BSpline K D) (tmin tmax : K) (numSegments : ℤ) (constant : Fin D → K) :
    Outcome (BSpline K D) :=
  if tmax ≤ tmin then .throws
  else if numSegments < 1 then .throws
  else if D < 1 then .throws
  else
    let nK := numKnotsRequired s.order numSegments.toNat
    let nC := numCoefficientsRequired s.order numSegments.toNat
    let dt := (tmax - tmin) / (numSegments.toNat : K)
    let minTime := tmin - ((s.order : K) - 1) * dt
    let maxTime := tmax + ((s.order : K) - 1) * dt
    s.setKnotsAndCoefficients (linSpaced nK minTime maxTime) (List.replicate nC constant)

end BSpline
end Verif
