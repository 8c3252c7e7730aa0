import Verif.Model.Rounding
import Mathlib.Data.Multiset.Basic
import Mathlib.Algebra.Order.Field.Basic
import Mathlib.Data.Multiset.AddSub

/-!
# Model: evaluation of a spline in floating point

The basis matrices and the queries `evalD` and `evalDAndJacobian` of `bsplines/src/BSpline.cpp` once more, with the result of every
operation rounded.  Knots and lookup are in `Model/Rounding`.

Simplifications: those of `Model/Rounding`.  Eigen does not promise in which order it adds up the products of a matrix product, so the
order is a parameter (`Summation`); it may be any bracketing of any permutation.  A multiplication of a matrix product is not contracted
with the following addition.  `std::pow` is a parameter (`Power`) with an error bound of one unit in the last place, which the
implementations in use meet.
-/

namespace Verif

namespace Rounding

variable {K : Type*} [Field K] [LinearOrder K]

/-- `SumTree R s x`: the number `x` can come out when the numbers of `s` are added up in some order with rounding after every addition. -/
inductive SumTree (R : Rounding K) : Multiset K → K → Prop
  | nil : SumTree R 0 0
  | single (a : K) : SumTree R {a} a
  | add {s t : Multiset K} {x y : K} : SumTree R s x → SumTree R t y → SumTree R (s + t) (R.add x y)

/-- The way in which Eigen adds up. -/
structure Summation (R : Rounding K) where
  sum : List K → K
  tree : ∀ l : List K, SumTree R (l : Multiset K) (sum l)

theorem SumTree.foldl {R : Rounding K} (l : List K) : ∀ (s : Multiset K) (x : K), SumTree R s x → SumTree R (s + l) (l.foldl R.add x) := by
  induction l with
  | nil => intro s x h; simpa using h
  | cons a l ih =>
    intro s x h
    have := ih _ _ (h.add (SumTree.single a))
    rw [List.foldl_cons, ← Multiset.cons_coe, ← Multiset.singleton_add, ← add_assoc]
    exact this

/-- Adding up from the left. -/
def Summation.fromLeft (R : Rounding K) : Summation R where
  sum l := l.foldl R.add 0
  tree l := by simpa using SumTree.foldl l 0 0 SumTree.nil

/-- Adding up pairwise, as a processor with vector registers of length two does: the numbers at even places, those at odd places, and
then both. -/
def evens : List K → List K
  | [] => []
  | [a] => [a]
  | a :: _ :: l => a :: evens l

/-- The numbers at odd places. -/
def odds : List K → List K
  | [] => []
  | [_] => []
  | _ :: b :: l => b :: odds l

theorem evens_add_odds : ∀ l : List K, (evens l : Multiset K) + (odds l : Multiset K) = (l : Multiset K)
  | [] => rfl
  | [_] => rfl
  | a :: b :: l => by
    have := evens_add_odds l
    simp only [evens, odds, ← Multiset.cons_coe]
    rw [← this, Multiset.cons_add, Multiset.add_cons]

/-- Two interleaved sums. -/
def Summation.pairwise (R : Rounding K) : Summation R where
  sum l := R.add ((evens l).foldl R.add 0) ((odds l).foldl R.add 0)
  tree l := by
    have h := (SumTree.foldl (R := R) (evens l) 0 0 SumTree.nil).add (SumTree.foldl (R := R) (odds l) 0 0 SumTree.nil)
    rw [zero_add, zero_add, evens_add_odds] at h
    exact h

/-- `std::pow` with an integer exponent. -/
structure Power (R : Rounding K) where
  pow : K → ℕ → K
  zero : ∀ x, pow x 0 = 1
  err : ∀ x n, R.IsFloat x → |pow x n - x ^ n| ≤ 2 * R.eps * |x ^ n| + 2 * R.tiny

/-- The correctly rounded power. -/
def Power.rounded [IsStrictOrderedRing K] (R : Rounding K) : Power R where
  pow x n := R.rnd (x ^ n)
  zero x := by rw [pow_zero]; simpa using R.int 1 (by norm_num)
  err x n _ := by
    have h1 := R.err (x ^ n)
    have h2 := mul_nonneg R.eps_nonneg (abs_nonneg (x ^ n))
    have h3 := R.tiny_nonneg
    linarith

variable {R : Rounding K} (S : Summation R) (P : Power R)

variable (R) in
/-- `BSpline::d_0`, BSpline.cpp 123-135. -/
def d0 (kn : ℕ → K) (k i j : ℕ) : K :=
  let denom := R.sub (kn (j + k - 1)) (kn j)
  if denom ≤ 0 then 0 else R.div (R.sub (kn i) (kn j)) denom

variable (R) in
/-- `BSpline::d_1`, BSpline.cpp 137-149. -/
def d1 (kn : ℕ → K) (k i j : ℕ) : K :=
  let denom := R.sub (kn (j + k - 1)) (kn j)
  if denom ≤ 0 then 0 else R.div (R.sub (kn (i + 1)) (kn i)) denom

variable (R) in
/-- The matrix `A` of BSpline.cpp 96-103. -/
def matA (kn : ℕ → K) (k i : ℕ) : Mat K := fun idx c =>
  if c = idx then R.sub 1 (R.d0 kn k i (i + 2 + idx - k))
  else if c = idx + 1 then R.d0 kn k i (i + 2 + idx - k) else 0

variable (R) in
/-- The matrix `B` of BSpline.cpp 105-112. -/
def matB (kn : ℕ → K) (k i : ℕ) : Mat K := fun idx c =>
  if c = idx then -R.d1 kn k i (i + 2 + idx - k)
  else if c = idx + 1 then R.d1 kn k i (i + 2 + idx - k) else 0

/-- `BSpline::M(k, i)`, BSpline.cpp 70-121.  The products of `M1 * A` and those of `M2 * B` that make up an entry are added up in the order
`S`; this covers adding the two sums at the end. -/
def basisM (kn : ℕ → K) (i : ℕ) : ℕ → Mat K
  | 0 => fun _ _ => 0
  | 1 => fun r c => if r = 0 ∧ c = 0 then 1 else 0
  | (k + 2) =>
    let Mkm1 := basisM kn i (k + 1)
    let M1 : Mat K := fun r x => if r < k + 1 then Mkm1 r x else 0
    let M2 : Mat K := fun r x => if r = 0 then 0 else Mkm1 (r - 1) x
    fun r c => S.sum (((List.range (k + 1)).map fun x => R.mul (M1 r x) (R.matA kn (k + 2) i x c)) ++
      (List.range (k + 1)).map fun x => R.mul (M2 r x) (R.matB kn (k + 2) i x c))

variable (R) in
/-- The values of `uu` in the loop of `computeU`, BSpline.cpp 309-314. -/
def powers (u : K) : ℕ → K
  | 0 => 1
  | n + 1 => R.mul (powers u n) u

/-- `BSpline::computeU`, BSpline.cpp 300-318. -/
def computeU (kn : ℕ → K) (k : ℕ) (uval : K) (seg der : ℕ) : ℕ → K := fun i =>
  let delta := R.sub (kn (seg + 1)) (kn seg)
  let multiplier := if 0 < delta then R.div 1 (P.pow delta der) else 0
  if der ≤ i ∧ i < k then R.mul (R.mul multiplier (R.powers uval (i - der))) (Verif.dmul i der : K) else 0

variable {D : ℕ}

/-- `initializeBasisMatrices`, BSpline.cpp 58-67. -/
def initializeBasisMatrices (s : BSpline K D) : BSpline K D :=
  { s with basis := (List.range s.numValidTimeSegments).map fun i => basisM S s.kn (i + s.order - 1) s.order }

/-- `basisMatrices_[bidx].transpose() * u`. -/
def transposeMul (k : ℕ) (B : Mat K) (u : ℕ → K) : ℕ → K := fun c =>
  S.sum ((List.range k).map fun r => R.mul (B r c) (u r))

/-- The product of the local coefficients with a weight vector. -/
def blockMul (s : BSpline K D) (bidx : ℕ) (w : ℕ → K) : Fin D → K := fun d =>
  S.sum ((List.range s.order).map fun c => R.mul (s.col (bidx + c) d) (w c))

/-- `evalD`, BSpline.cpp 331-349, for a non-negative derivative order.  The product of three factors is evaluated from the left: first the
local coefficients times the transposed basis matrix, then the result times the vector `u`. -/
def evalDNat (s : BSpline K D) (t : K) (der : ℕ) : Outcome (Fin D → K) :=
  (R.computeUAndTIndex s t).bind fun (u, idx) =>
  (s.blockAt idx).bind fun (bidx, B) =>
    let uv := computeU P s.kn s.order u idx der
    .ok fun d => S.sum ((List.range s.order).map fun r => R.mul (blockMul S s bidx (fun c => B r c) d) (uv r))

/-- `evalDAndJacobian`, BSpline.cpp 351-386, the value and the vector `Bt_u` that the Jacobian is made of: first the transposed basis
matrix times `u`, then the local coefficients times the result. -/
def evalDAndWeights (s : BSpline K D) (t : K) (der : ℕ) : Outcome ((Fin D → K) × (ℕ → K)) :=
  (R.computeUAndTIndex s t).bind fun (u, idx) =>
  (s.blockAt idx).bind fun (bidx, B) =>
    let w := transposeMul S s.order B (computeU P s.kn s.order u idx der)
    .ok (blockMul S s bidx w, w)

end Rounding

end Verif
