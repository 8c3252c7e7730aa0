import Mathlib.Algebra.Order.Field.Basic
import Mathlib.Algebra.BigOperators.Group.Finset.Basic
import Mathlib.Data.Nat.Factorial.Basic
import Verif.Model.Outcome

/-!
# Model of `bsplines::BSpline` (data, basis matrices, lookup, evaluation)

Source: `/repo/bsplines/src/BSpline.cpp`, `/repo/bsplines/include/bsplines/BSpline.hpp`.

Simplifications, valid for the whole file:

* `double` is an arbitrary linearly ordered field `K`; no rounding.
* `int` counts are natural numbers; a subtraction that would become negative is truncated at 0
  only where the C++ code takes a maximum with 0 or where the surrounding guard excludes it.
* An Eigen matrix is a function `ℕ → ℕ → K` of row and column, read only inside its size.
  A matrix product is a finite sum over the inner size.
* The number of rows `D` of the coefficient matrix is a type parameter, so a change of the
  dimension by `setKnotsAndCoefficients` is not modelled.  A column is `Fin D → K`.
-/

namespace Verif

open Finset

/-- An Eigen matrix; only entries inside its size are meaningful. -/
abbrev Mat (K : Type*) := ℕ → ℕ → K

/-- The data members of `BSpline` (BSpline.hpp, private section): `splineOrder_`, `knots_`,
`coefficients_` (as the list of its columns) and `basisMatrices_`. -/
structure BSpline (K : Type*) (D : ℕ) where
  order : ℕ
  knots : List K
  coeffs : List (Fin D → K)
  basis : List (Mat K)

section Basis
variable {K : Type*} [Field K] [LinearOrder K]

/-- `BSpline::d_0`, BSpline.cpp 123-135.  The debug-only range assertions are omitted. -/
def d0 (kn : ℕ → K) (k i j : ℕ) : K :=
  let denom := kn (j + k - 1) - kn j
  if denom ≤ 0 then 0 else (kn i - kn j) / denom

/-- `BSpline::d_1`, BSpline.cpp 137-149. -/
def d1 (kn : ℕ → K) (k i j : ℕ) : K :=
  let denom := kn (j + k - 1) - kn j
  if denom ≤ 0 then 0 else (kn (i + 1) - kn i) / denom

/-- The matrix `A` of BSpline.cpp 96-103 (`k-1` rows, `k` columns).
`j = i - k + 2 + idx` is written `i + 2 + idx - k`. -/
def matA (kn : ℕ → K) (k i : ℕ) : Mat K := fun idx c =>
  if c = idx then 1 - d0 kn k i (i + 2 + idx - k)
  else if c = idx + 1 then d0 kn k i (i + 2 + idx - k) else 0

/-- The matrix `B` of BSpline.cpp 105-112. -/
def matB (kn : ℕ → K) (k i : ℕ) : Mat K := fun idx c =>
  if c = idx then - d1 kn k i (i + 2 + idx - k)
  else if c = idx + 1 then d1 kn k i (i + 2 + idx - k) else 0

/-- `BSpline::M(k, i)`, BSpline.cpp 70-121: the basis matrix of order `k` on the knot interval
starting at knot `i`.  `M1` is `M_{k-1}` with a zero row below, `M2` with a zero row above;
the result is `M1 * A + M2 * B`.  (`k = 0` does not occur in the code.) -/
def basisM (kn : ℕ → K) (i : ℕ) : ℕ → Mat K
  | 0 => fun _ _ => 0
  | 1 => fun r c => if r = 0 ∧ c = 0 then 1 else 0
  | (k + 2) =>
    let Mkm1 := basisM kn i (k + 1)
    let M1 : Mat K := fun r x => if r < k + 1 then Mkm1 r x else 0
    let M2 : Mat K := fun r x => if r = 0 then 0 else Mkm1 (r - 1) x
    fun r c => (∑ x ∈ range (k + 1), M1 r x * matA kn (k + 2) i x c)
      + ∑ x ∈ range (k + 1), M2 r x * matB kn (k + 2) i x c

/-- The free function `dmul`, BSpline.cpp 289-297. -/
def dmul (i : ℤ) : ℕ → ℤ
  | 0 => 1
  | 1 => i
  | (d + 2) => i * dmul (i - 1) (d + 1)

/-- `BSpline::computeU`, BSpline.cpp 300-318: the vector of powers of `uval` (differentiated
`der` times with respect to time) on the knot interval starting at knot `seg`. -/
def computeU (kn : ℕ → K) (k : ℕ) (uval : K) (seg der : ℕ) : ℕ → K := fun i =>
  let delta := kn (seg + 1) - kn seg
  let multiplier := if 0 < delta then 1 / delta ^ der else 0
  if der ≤ i ∧ i < k then multiplier * uval ^ (i - der) * (dmul i der : K) else 0

end Basis

namespace BSpline

section Counts
variable {K : Type*} {D : ℕ}

/-- `numValidTimeSegments(int)`, BSpline.cpp 198-202 (`max(n - 2k + 1, 0)`). -/
def numValidTimeSegmentsOf (order numKnots : ℕ) : ℕ := numKnots + 1 - 2 * order

/-- `numCoefficientsRequired`, BSpline.cpp 214-217. -/
def numCoefficientsRequired (order segs : ℕ) : ℕ := segs + order - 1

/-- `numKnotsRequired`, BSpline.cpp 219-222. -/
def numKnotsRequired (order segs : ℕ) : ℕ := numCoefficientsRequired order segs + order

/-- `minimumKnotsRequired`, BSpline.cpp 209-212. -/
def minimumKnotsRequired (order : ℕ) : ℕ := numKnotsRequired order 1

/-- `numValidTimeSegments()`, BSpline.cpp 204-207. -/
def numValidTimeSegments (s : BSpline K D) : ℕ := numValidTimeSegmentsOf s.order s.knots.length

end Counts

variable {K : Type*} [Field K] [LinearOrder K] {D : ℕ}

/-- The constructor, BSpline.cpp 15-19: throws for orders below two. -/
def create (order : ℕ) : Outcome (BSpline K D) :=
  if 2 ≤ order then .ok ⟨order, [], [], []⟩ else .throws

/-- Read of `knots_[i]` for an index known to be in range. -/
def kn (s : BSpline K D) (i : ℕ) : K := s.knots.getD i 0

/-- `initializeBasisMatrices`, BSpline.cpp 58-67. -/
def initializeBasisMatrices (s : BSpline K D) : BSpline K D :=
  let matrices := (List.range s.numValidTimeSegments).map
    (fun i => basisM s.kn (i + s.order - 1) s.order)
  { s with basis := matrices }

/-- The loop of `verifyKnotSequence`, BSpline.cpp 190-195: `for i = 1; i < knots_.size(); i++`
(note: the *member* `knots_`) it compares `knots[i-1]` and `knots[i]` of the *argument*.
Reading the argument out of range is undefined behaviour.  `n` is the number of iterations left. -/
def verifyLoop (newKnots : List K) : ℕ → ℕ → Outcome Unit
  | _, 0 => .ok ()
  | i, (n + 1) =>
    match newKnots[i - 1]?, newKnots[i]? with
    | some a, some b => if a ≤ b then verifyLoop newKnots (i + 1) n else .throws
    | _, _ => .ub

/-- `verifyKnotSequence`, BSpline.cpp 183-196. -/
def verifyKnotSequence (s : BSpline K D) (newKnots : List K) : Outcome Unit :=
  if newKnots.length < minimumKnotsRequired s.order then .throws
  else verifyLoop newKnots 1 (s.knots.length - 1)

/-- `setKnotsAndCoefficients`, BSpline.cpp 36-56. -/
def setKnotsAndCoefficients (s : BSpline K D) (newKnots : List K) (newCoeffs : List (Fin D → K)) :
    Outcome (BSpline K D) :=
  (s.verifyKnotSequence newKnots).bind fun _ =>
    if numCoefficientsRequired s.order (numValidTimeSegmentsOf s.order newKnots.length)
        = newCoeffs.length then
      .ok (initializeBasisMatrices { s with knots := newKnots, coeffs := newCoeffs })
    else .throws

/-- `t_min`, BSpline.cpp 225-229. -/
def tMin (s : BSpline K D) : Outcome K :=
  if s.knots.length < minimumKnotsRequired s.order then .throws else .ok (s.kn (s.order - 1))

/-- `t_max`, BSpline.cpp 231-235. -/
def tMax (s : BSpline K D) : Outcome K :=
  if s.knots.length < minimumKnotsRequired s.order then .throws
  else .ok (s.kn (s.knots.length - s.order))

/-- The tolerance `1e-10` of `computeTIndex`. -/
def snapTol : K := 1 / 10 ^ 10

/-- `std::upper_bound(knots_.begin(), knots_.end(), t) - knots_.begin()`: position of the first
knot greater than `t` (this is what the C++ function computes on a nondecreasing sequence). -/
def upperBound (l : List K) (t : K) : ℕ := l.findIdx (fun x => decide (t < x))

/-- `computeTIndex`, BSpline.cpp 237-264: the width of the knot interval that `t` falls in and the
index of the knot at its left end.  A time closer than `1e-10` to the end is moved to the end. -/
def computeTIndex (s : BSpline K D) (t : K) : Outcome (K × ℕ) :=
  s.tMin.bind fun tmin =>
  s.tMax.bind fun tmax =>
    if t < tmin then .throws else
    let t' := if |tmax - t| < snapTol then tmax else t
    if tmax < t' then .throws else
    let i := if t' = tmax then s.knots.length - s.order else upperBound s.knots t'
    if i = 0 then .ub else
    match s.knots[i]?, s.knots[i - 1]? with
    | some b, some a => .ok (b - a, i - 1)
    | _, _ => .ub

/-- `computeUAndTIndex`, BSpline.cpp 266-287: the relative position in the knot interval and the
index of its left knot.  (The relative position uses the time as given, not the snapped one.) -/
def computeUAndTIndex (s : BSpline K D) (t : K) : Outcome (K × ℕ) :=
  (s.computeTIndex t).bind fun (denom, index) =>
    if denom ≤ 0 then .ok (0, index) else .ok ((t - s.kn index) / denom, index)

/-- `bidx = idx - splineOrder_ + 1` with the out of range cases as undefined behaviour: `basisMatrices_[bidx]`
and the block of `splineOrder_` columns of `coefficients_` starting at `bidx` must exist. -/
def blockAt (s : BSpline K D) (idx : ℕ) : Outcome (ℕ × Mat K) :=
  if idx + 1 < s.order then .ub else
  let bidx := idx + 1 - s.order
  match s.basis[bidx]? with
  | none => .ub
  | some B => if bidx + s.order ≤ s.coeffs.length then .ok (bidx, B) else .ub

/-- Column `i` of `coefficients_` (for an index known to be in range). -/
def col (s : BSpline K D) (i : ℕ) : Fin D → K := s.coeffs.getD i 0

/-- `basisMatrices_[bidx].transpose() * u`. -/
def transposeMul (k : ℕ) (B : Mat K) (u : ℕ → K) : ℕ → K := fun c => ∑ r ∈ range k, B r c * u r

/-- The product `coefficients_.block(0, bidx, D, k) * w` of the local coefficients with a weight
vector. -/
def blockMul (s : BSpline K D) (bidx : ℕ) (w : ℕ → K) : Fin D → K := fun d =>
  ∑ c ∈ range s.order, s.col (bidx + c) d * w c

/-- `evalD`, BSpline.cpp 331-349, for a non-negative derivative order. -/
def evalDNat (s : BSpline K D) (t : K) (der : ℕ) : Outcome (Fin D → K) :=
  (s.computeUAndTIndex t).bind fun (u, idx) =>
  (s.blockAt idx).bind fun (bidx, B) =>
    .ok (s.blockMul bidx (transposeMul s.order B (computeU s.kn s.order u idx der)))

/-- `evalD`, BSpline.cpp 331-349 (the derivative order is a C++ `int`). -/
def evalD (s : BSpline K D) (t : K) (der : ℤ) : Outcome (Fin D → K) :=
  if der < 0 then .throws else s.evalDNat t der.toNat

/-- `eval`, BSpline.cpp 320-323. -/
def eval (s : BSpline K D) (t : K) : Outcome (Fin D → K) := s.evalD t 0

end BSpline
end Verif
