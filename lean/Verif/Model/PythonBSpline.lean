import Verif.Model.BSplineViews

/-!
# Model: what Python sees of `BSpline`

`bsplines_python/src/BSplinePython.cpp` and the accessors of `bsplines/src/BSpline.cpp` which only this interface uses.

Most functions are bound as they are; they are modelled in `Model/BSpline`, `Model/BSplineViews`, `Model/BSplineIntegral` and
`Model/BSplineFit`.  Modelled here are the wrappers and the bindings under another name.

Simplifications: a Python `int` passed for a `double` parameter becomes that number; conversions of NumPy arrays copy the entries.
-/

namespace Verif
namespace BSpline

open Finset

variable {K : Type*} [Field K] [LinearOrder K] {D : ℕ}

/-- `polynomialDegree`, BSpline.cpp 31-34. -/
def polynomialDegree (s : BSpline K D) : ℕ := s.order - 1

/-- `coefficientVectorLength`, BSpline.cpp 1713-1716: rows times columns. -/
def coefficientVectorLength (s : BSpline K D) : ℕ := D * s.coeffs.length

/-- `numVvCoefficients`, BSpline.cpp 1763-1766. -/
def numVvCoefficients (s : BSpline K D) : ℕ := s.coeffs.length

/-- The loop copying a vector entry by entry (BSpline.cpp 156-158, 170-172). -/
def copyEntries (v : List K) : List K := (List.range v.length).map (fun i => v.getD i 0)

/-- `knotVector`, BSpline.cpp 168-175, in Python `knots`. -/
def knotVector (s : BSpline K D) : List K := copyEntries s.knots

/-- `setKnotVectorAndCoefficients`, BSpline.cpp 153-161. -/
def setKnotVectorAndCoefficients (s : BSpline K D) (knots : List K) (coeffs : List (Fin D → K)) : Outcome (BSpline K D) :=
  s.setKnotsAndCoefficients (copyEntries knots) coeffs

/-- `basisMatrix`, BSpline.cpp 532-536. -/
def basisMatrix (s : BSpline K D) (i : ℤ) : Outcome (Mat K) :=
  if i < 0 ∨ (s.numValidTimeSegments : ℤ) ≤ i then .throws
  else match s.basis[i.toNat]? with
    | none => .ub
    | some B => .ok B

/-- `basisMatrixIndexFromStartingKnotIndex`, BSpline.cpp 1368-1371. -/
def basisMatrixIndexFromStartingKnotIndex (s : BSpline K D) (startingKnotIndex : ℤ) : ℤ := startingKnotIndex - s.order + 1

/-- `startingKnotIndexFromBasisMatrixIndex`, BSpline.cpp 1372-1375. -/
def startingKnotIndexFromBasisMatrixIndex (s : BSpline K D) (basisMatrixIndex : ℤ) : ℤ := s.order + basisMatrixIndex - 1

/-- `basisMatrixFromKnotIndex`, BSpline.cpp 325-328: no check of the index. -/
def basisMatrixFromKnotIndex (s : BSpline K D) (knotIndex : ℤ) : Outcome (Mat K) :=
  let i := s.basisMatrixIndexFromStartingKnotIndex knotIndex
  if i < 0 then .ub
  else match s.basis[i.toNat]? with
    | none => .ub
    | some B => .ok B

/-- `segmentCoefficientVector` of the Python class, BSplinePython.cpp 78: bound to `localCoefficientVector`, which takes a time. -/
def pySegmentCoefficientVector (s : BSpline K D) (segment : ℤ) : Outcome (List K) := s.localCoefficientVector (segment : K)

/-- `BiVector::operator()`, BSpline.hpp 46-57, for any `int`; `BiFunction::getBi`, BSplinePython.cpp 30-32, calls it by `coeff(i, 0)`, which
does not check the index. -/
def biAt (start : ℕ) (rows : ℕ) (localBi : ℕ → K) (endValue : K) (i : ℤ) : K :=
  let j := i - start
  if j < 0 then endValue else if (rows : ℤ) ≤ j then 0 else localBi j.toNat

/-- `getBiFunction`, BSplinePython.cpp 35-41, with `getBiVector`, BSpline.hpp 567-569: a function of the index of a coefficient.  It holds
copies of everything it uses. -/
def biFunction (s : BSpline K D) (t : K) : Outcome (ℤ → K) :=
  (s.segmentIndex t).bind fun si =>
  (s.getLocalBiVector t).bind fun bi => .ok (biAt si s.order bi 0)

/-- `getCumulativeBiFunction`, BSplinePython.cpp 42-48, with `getCumulativeBiVector`, BSpline.hpp 570-572. -/
def cumulativeBiFunction (s : BSpline K D) (t : K) : Outcome (ℤ → K) :=
  (s.segmentIndex t).bind fun si =>
  (s.getLocalCumulativeBiVector t).bind fun bi => .ok (biAt si s.order bi 1)

end BSpline
end Verif
