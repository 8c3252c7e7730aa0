import Verif.Model.BSplineViews

/-!
# Model of `bsplines::BSpline`: integral and quadratic integrals

Source: `/repo/bsplines/src/BSpline.cpp` 1276-1706.
-/

namespace Verif

open Finset

section Mat
variable {K : Type*} [Field K]

/-- Product of matrices with inner size `n`. -/
def matMul (n : ℕ) (A B : Mat K) : Mat K := fun i j => ∑ x ∈ range n, A i x * B x j

/-- Transpose. -/
def matT (A : Mat K) : Mat K := fun i j => A j i

/-- `Q.block(off, off, size, size) += B`. -/
def addBlock (Q : Mat K) (off size : ℕ) (B : Mat K) : Mat K := fun p q =>
  Q p q + if (off ≤ p ∧ p < off + size) ∧ (off ≤ q ∧ q < off + size) then B (p - off) (q - off) else 0

end Mat

namespace BSpline

variable {K : Type*} [Field K] [LinearOrder K] {D : ℕ}

/-- The tolerance `1e-16` of `evalIntegral`. -/
def tinyTol : K := 1 / 10 ^ 16

/-- The vector `v(i) = r^(i+1)/(i+1)` built by the loops `v(i) = du/(i+1.0); du *= r` of `evalIntegral`
(BSpline.cpp 1321-1327, 1352-1358; with `r = 1` also 1334-1338). -/
def powerIntegrals (r : K) : ℕ → K := fun i => r ^ (i + 1) / ((i : K) + 1)

/-- `width * coefficients_.block(0,bidx,D,k) * basisMatrices_[bidx].transpose() * v` with `bidx` from the
starting knot index (`basisMatrixIndexFromStartingKnotIndex`, 1368-1371). -/
def segmentContribution (s : BSpline K D) (idx : ℕ) (width : K) (v : ℕ → K) : Outcome (Fin D → K) :=
  (s.blockAt idx).bind fun (bidx, B) =>
    .ok (fun d => width * s.blockMul bidx (transposeMul s.order B v) d)

/-- The "remainder" branches of `evalIntegral` (1317-1331 and 1347-1362): integral from the left knot of the
segment to `t`, dropped when tiny. -/
def remainderIntegral (s : BSpline K D) (t width : K) (idx : ℕ) : Outcome (Fin D → K) :=
  if tinyTol < t - s.kn idx ∧ tinyTol < width then
    s.segmentContribution idx width (powerIntegrals ((t - s.kn idx) / width))
  else .ok 0

/-- The loop over the central segments (1340-1344): segments `start, …, start + n - 1`. -/
def centralIntegral (s : BSpline K D) (start : ℕ) : ℕ → Outcome (Fin D → K)
  | 0 => .ok 0
  | (n + 1) => (centralIntegral s start n).bind fun acc =>
      (s.segmentContribution (start + n) (s.kn (start + n + 1) - s.kn (start + n))
        (powerIntegrals 1)).bind fun c => .ok (acc + c)

/-- `evalIntegral`, BSpline.cpp 1304-1366, for `t1 ≤ t2`. -/
def evalIntegralOrdered (s : BSpline K D) (t1 t2 : K) : Outcome (Fin D → K) :=
  (s.computeTIndex t1).bind fun (w1, i1) =>
  (s.computeTIndex t2).bind fun (w2, i2) =>
  (s.remainderIntegral t1 w1 i1).bind fun lhs =>
  (s.centralIntegral i1 (i2 - i1)).bind fun mid =>
  (s.remainderIntegral t2 w2 i2).bind fun rhs =>
    .ok (-lhs + mid + rhs)

/-- `evalIntegral`, BSpline.cpp 1304-1366 (the recursive call has ordered bounds). -/
def evalIntegral (s : BSpline K D) (t1 t2 : K) : Outcome (Fin D → K) :=
  if t2 < t1 then (s.evalIntegralOrdered t2 t1).map (fun v => -v) else s.evalIntegralOrdered t1 t2

/-- `Vi`, BSpline.cpp 1276-1302. -/
def Vi (s : BSpline K D) (seg : ℤ) : Outcome (Mat K) :=
  if seg < 0 ∨ (s.numValidTimeSegments : ℤ) ≤ seg then .throws else
  (s.timeIntervalOf seg).bind fun (t0, t1) =>
    .ok (fun r c => 1 / (((r + c : ℕ) : K) + 1) * (t1 - t0))

/-- `Dii`, BSpline.cpp 1483-1500. -/
def Dii (s : BSpline K D) (seg : ℤ) : Outcome (Mat K) :=
  if seg < 0 ∨ (s.basis.length : ℤ) ≤ seg then .throws else
  (s.timeIntervalOf seg).bind fun (t0, t1) =>
    let dt := t1 - t0
    let recip := if 0 < dt then 1 / dt else 0
    .ok (fun i j => if j = i + 1 then ((i : K) + 1) * recip else 0)

/-- `Bij`, BSpline.cpp 1378-1389: block `i` of rows and column `i` hold column `c` of the basis matrix. -/
def Bij (k : ℕ) (B : Mat K) (c : ℕ) : Mat K := fun row col =>
  if row / k = col then B (row % k) c else 0

/-- `Mi`, BSpline.cpp 1391-1403. -/
def Mi (s : BSpline K D) (seg : ℤ) : Outcome (Mat K) :=
  if seg < 0 ∨ (s.basis.length : ℤ) ≤ seg then .throws else
  match s.basis[seg.toNat]? with
  | none => .throws
  | some B => .ok (fun row col => Bij s.order B (col / D) row (col % D))

/-- The loop `V = Dm.transpose() * V * Dm` (1527-1530). -/
def derivV (k : ℕ) (Dm V : Mat K) : ℕ → Mat K
  | 0 => V
  | (n + 1) => matMul k (matMul k (matT Dm) (derivV k Dm V n)) Dm

/-- `segmentQuadraticIntegral`, BSpline.cpp 1512-1548. `W` is a `D × D` matrix; it must be symmetric up to
`1e-14`.  A negative derivative order behaves like 0. -/
def segmentQuadraticIntegral (s : BSpline K D) (W : Mat K) (seg : ℤ) (der : ℕ) : Outcome (Mat K) :=
  if seg < 0 ∨ (s.basis.length : ℤ) ≤ seg then .throws else
  (s.Dii seg).bind fun Dm =>
  (s.Vi seg).bind fun V =>
  (s.Mi seg).bind fun M =>
  if ∀ r < D, ∀ c < D, |W r c - W c r| ≤ 1 / 10 ^ 14 then
    let V' := derivV s.order Dm V der
    let WV : Mat K := fun p q => W (p / s.order) (q / s.order) * V' (p % s.order) (q % s.order)
    .ok (matMul (D * s.order) (matMul (D * s.order) (matT M) WV) M)
  else .throws

/-- `segmentQuadraticIntegralDiag`, BSpline.cpp 1550-1581. -/
def segmentQuadraticIntegralDiag (s : BSpline K D) (w : ℕ → K) (seg : ℤ) (der : ℕ) : Outcome (Mat K) :=
  if seg < 0 ∨ (s.basis.length : ℤ) ≤ seg then .throws else
  (s.Dii seg).bind fun Dm =>
  (s.Vi seg).bind fun V =>
  (s.Mi seg).bind fun M =>
    let V' := derivV s.order Dm V der
    let WV : Mat K := fun p q =>
      if p / s.order = q / s.order then w (p / s.order) * V' (p % s.order) (q % s.order) else 0
    .ok (matMul (D * s.order) (matMul (D * s.order) (matT M) WV) M)

/-- The loop of `curveQuadraticIntegral` and `curveQuadraticIntegralDiag` over the segments. A block outside the
matrix is undefined behaviour. -/
def sumBlocks (s : BSpline K D) (segQ : ℕ → Outcome (Mat K)) : ℕ → Outcome (Mat K)
  | 0 => .ok (fun _ _ => 0)
  | (n + 1) => (sumBlocks s segQ n).bind fun Q => (segQ n).bind fun Qi =>
      if n + s.order ≤ s.coeffs.length then .ok (addBlock Q (n * D) (s.order * D) Qi) else .ub

/-- `curveQuadraticIntegral`, BSpline.cpp 1669-1686. -/
def curveQuadraticIntegral (s : BSpline K D) (W : Mat K) (der : ℕ) : Outcome (Mat K) :=
  s.sumBlocks (fun seg => s.segmentQuadraticIntegral W seg der) s.numValidTimeSegments

/-- `curveQuadraticIntegralDiag`, BSpline.cpp 1690-1706. -/
def curveQuadraticIntegralDiag (s : BSpline K D) (w : ℕ → K) (der : ℕ) : Outcome (Mat K) :=
  s.sumBlocks (fun seg => s.segmentQuadraticIntegralDiag w seg der) s.numValidTimeSegments

/-- A sparse block matrix: the `D × D` block at block row and block column, if allocated. -/
abbrev SparseBlocks (K : Type*) := ℕ → ℕ → Option (Mat K)

/-- The inner two loops of `curveQuadraticIntegralSparse` (1612-1618): allocate (as zero) and add the `D × D`
blocks of the segment matrix. -/
def addSparse (D k : ℕ) (Q : SparseBlocks K) (seg : ℕ) (Qi : Mat K) : SparseBlocks K := fun bi bj =>
  if (seg ≤ bi ∧ bi < seg + k) ∧ (seg ≤ bj ∧ bj < seg + k) then
    some (fun r c => ((Q bi bj).getD (fun _ _ => 0)) r c + Qi ((bi - seg) * D + r) ((bj - seg) * D + c))
  else Q bi bj

/-- The outer loop of the sparse variants. -/
def sumSparse (s : BSpline K D) (segQ : ℕ → Outcome (Mat K)) : ℕ → Outcome (SparseBlocks K)
  | 0 => .ok (fun _ _ => none)
  | (n + 1) => (sumSparse s segQ n).bind fun Q => (segQ n).bind fun Qi =>
      if n + s.order ≤ s.coeffs.length then .ok (addSparse D s.order Q n Qi) else .ub

/-- `curveQuadraticIntegralSparse`, BSpline.cpp 1585-1622. -/
def curveQuadraticIntegralSparse (s : BSpline K D) (W : Mat K) (der : ℕ) : Outcome (SparseBlocks K) :=
  s.sumSparse (fun seg => s.segmentQuadraticIntegral W seg der) s.numValidTimeSegments

/-- `curveQuadraticIntegralDiagSparse`, BSpline.cpp 1626-1664. -/
def curveQuadraticIntegralDiagSparse (s : BSpline K D) (w : ℕ → K) (der : ℕ) :
    Outcome (SparseBlocks K) :=
  s.sumSparse (fun seg => s.segmentQuadraticIntegralDiag w seg der) s.numValidTimeSegments

end BSpline
end Verif
