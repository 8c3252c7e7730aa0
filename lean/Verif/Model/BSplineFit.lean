import Verif.Model.BSplineIntegral

/-!
# Model of `bsplines::BSpline`: initialisation from data and appending segments

Source: `/repo/bsplines/src/BSpline.cpp` 551-737 and 762-1273.

Simplifications:

* A linear solver (`householderQr().solve`, `ldlt().solve`, Cholmod with the dense fallback) is a parameter
  `solve : ℕ → Mat K → (ℕ → K) → ℕ → K` (size, matrix, right-hand side).  Nothing is assumed about it here;
  the theorems assume that it returns a solution of a solvable square system.
* Writing the rows of a constraint matrix one block row after the other (`brow += D`) is modelled by the list of its
  block rows.
* The dimension of the data is the dimension of the model, so the checks of equal vector sizes are omitted.
* The messages on `std::cout` are omitted.
-/

namespace Verif

open Finset

/-- A linear solver: size, matrix, right-hand side. -/
abbrev Solver (K : Type*) := ℕ → Mat K → (ℕ → K) → ℕ → K

/-- One block row `A.block(brow, offset, D, w) = weight * Phi(time, der)`, `b.segment(brow, D) = value`. -/
structure Constraint (K : Type*) (D : ℕ) where
  time : K
  der : ℤ
  weight : K
  value : Fin D → K

/-- An assembled block row: column offset, block, right-hand side. -/
structure BlockRow (K : Type*) (D : ℕ) where
  offset : ℕ
  block : Mat K
  value : Fin D → K

/-- The constraint matrix of a list of block rows whose blocks have `w` columns; zero elsewhere. -/
def rowsMat {K : Type*} [Field K] {D : ℕ} (w : ℕ) (rows : List (BlockRow K D)) : Mat K := fun r q =>
  match rows[r / D]? with
  | none => 0
  | some R => if R.offset ≤ q ∧ q < R.offset + w then R.block (r % D) (q - R.offset) else 0

/-- The right-hand side of a list of block rows. -/
def rowsVec {K : Type*} [Field K] {D : ℕ} (rows : List (BlockRow K D)) : ℕ → K := fun r =>
  match rows[r / D]? with
  | none => 0
  | some R => if h : r % D < D then R.value ⟨r % D, h⟩ else 0

/-- `A.transpose() * A` for a matrix with `m` rows. -/
def gram {K : Type*} [Field K] (m : ℕ) (A : Mat K) : Mat K := matMul m (matT A) A

/-- `A.transpose() * b` for a matrix with `m` rows. -/
def transposeVec {K : Type*} [Field K] (m : ℕ) (A : Mat K) (b : ℕ → K) : ℕ → K := fun p =>
  ∑ r ∈ range m, A r p * b r

namespace BSpline

variable {K : Type*} [Field K] [LinearOrder K] {D : ℕ}

/-- The loop writing the block rows; `offset` gives the first column of a block. -/
def blockRows (s : BSpline K D) (offset : K → Outcome ℕ) : List (Constraint K D) → Outcome (List (BlockRow K D))
  | [] => .ok []
  | c :: cs =>
    (offset c.time).bind fun o =>
    (s.phi c.time c.der).bind fun P =>
    (blockRows s offset cs).bind fun rest =>
      .ok (⟨o, fun r q => c.weight * P r q, c.value⟩ :: rest)

/-- `setCoefficientVector` of the solution of an `n × n` system. -/
def setSolved (s : BSpline K D) (solve : Solver K) (n : ℕ) (A : Mat K) (b : ℕ → K) : Outcome (BSpline K D) :=
  s.setCoefficientVector ((List.range n).map (solve n A b))

/-- The uniform knots `knots[i] = t_0 + (i - splineOrder_ + 1) * dt` (BSpline.cpp 567-572, 788-793, 1117-1122). -/
def uniformKnots (order nK : ℕ) (t0 dt : K) : List K :=
  (List.range nK).map (fun (i : ℕ) => t0 + ((i : K) - (order : K) + 1) * dt)

/-- The constraints of `initSpline` (BSpline.cpp 583-624) in the order in which they are written: positions at both ends,
velocities if the order is above 2, and (loop `while(brow < A.rows())`) vanishing higher derivatives if it is above 4.
`pairs` is half the number of block rows. -/
def initConstraints (order : ℕ) (tmin tmax dt : K) (p0 p1 : Fin D → K) : List (Constraint K D) :=
  let v : Fin D → K := fun d => (p1 d - p0 d) / dt
  let required := order + order % 2
  [⟨tmin, 0, 1, p0⟩, ⟨tmax, 0, 1, p1⟩]
    ++ (if 2 < order then [⟨tmin, 1, 1, v⟩, ⟨tmax, 1, 1, v⟩] else [])
    ++ (if 4 < order then
          (List.range (required / 2 - 2)).flatMap
            (fun j => [⟨tmin, (j : ℤ) + 2, 1, 0⟩, ⟨tmax, (j : ℤ) + 2, 1, 0⟩])
        else [])

/-- `initSpline`, BSpline.cpp 551-640. -/
def initSpline (solve : Solver K) (s : BSpline K D) (t0 t1 : K) (p0 p1 : Fin D → K) : Outcome (BSpline K D) :=
  if t1 ≤ t0 then .throws else
  let nK := numKnotsRequired s.order 1
  let nC := numCoefficientsRequired s.order 1
  let dt := t1 - t0
  (s.setKnotsAndCoefficients (uniformKnots s.order nK t0 dt) (List.replicate nC 0)).bind fun s1 =>
  s1.tMin.bind fun tmin =>
  s1.tMax.bind fun tmax =>
  (s1.blockRows (fun _ => .ok 0) (initConstraints s.order tmin tmax dt p0 p1)).bind fun rows =>
    let n := nC * D
    let m := (nC + nC % 2) * D
    let A := rowsMat n rows
    let b := rowsVec rows
    if m = n then s1.setSolved solve n A b
    else s1.setSolved solve n (gram m A) (transposeVec m A b)

/-- The loop checking that the times are nondecreasing (774-779, 1095-1100). -/
def timesSorted : List K → Bool
  | [] => true
  | [_] => true
  | a :: b :: l => decide (a ≤ b) && timesSorted (b :: l)

/-- `localCoefficientVectorIndices(t)[0]`. -/
def firstIndex (s : BSpline K D) (t : K) : Outcome ℕ :=
  (s.localCoefficientVectorIndices t).bind fun l =>
    match l with
    | [] => .ub
    | o :: _ => .ok o

/-- The common checks and the uniform knots of `initSpline2`, `initSpline3` and `initSplineSparse`
(BSpline.cpp 764-796, 967-994, 1091-1124). `times` and `points` are given as pairs; a spline with zero coefficients. -/
def prepareUniform (s : BSpline K D) (data : List (K × (Fin D → K))) (numSegments : ℤ) : Outcome (BSpline K D) :=
  if data.length < 2 then .throws
  else if numSegments < 1 then .throws
  else if timesSorted (data.map Prod.fst) = false then .throws
  else
    let first := (data.map Prod.fst).getD 0 0
    let last := (data.map Prod.fst).getD (data.length - 1) 0
    let nK := numKnotsRequired s.order numSegments.toNat
    let nC := numCoefficientsRequired s.order numSegments.toNat
    let dt := (last - first) / (numSegments.toNat : K)
    s.setKnotsAndCoefficients (uniformKnots s.order nK first dt) (List.replicate nC 0)

/-- The position constraints of the observations. -/
def dataConstraints (data : List (K × (Fin D → K))) : List (Constraint K D) :=
  data.map (fun o => ⟨o.1, 0, 1, o.2⟩)

/-- `initSpline2`, BSpline.cpp 762-845: acceleration constraints at the knots weighted with `lambda`, then positions. -/
def initSpline2 (solve : Solver K) (s : BSpline K D) (data : List (K × (Fin D → K))) (numSegments : ℤ) (lambda : K) :
    Outcome (BSpline K D) :=
  (s.prepareUniform data numSegments).bind fun s1 =>
    let knots := (List.range (s1.knots.length + 2 - 2 * s1.order)).map (fun i => s1.kn (s1.order - 1 + i))
    let cs : List (Constraint K D) := knots.map (fun t => ⟨t, 2, lambda, 0⟩) ++ dataConstraints data
    (s1.blockRows s1.firstIndex cs).bind fun rows =>
      let n := s1.coeffs.length * D
      let m := (s1.knots.length - 2 * s1.order + 2 + data.length) * D
      let A := rowsMat (s1.order * D) rows
      s1.setSolved solve n (gram m A) (transposeVec m A (rowsVec rows))

/-- Fit of the observations plus the quadratic integral of weight `lambda` (BSpline.cpp 1127-1162). -/
def fitRegularised (solve : Solver K) (s1 : BSpline K D) (data : List (K × (Fin D → K))) (lambda : K) :
    Outcome (BSpline K D) :=
  (s1.blockRows s1.firstIndex (dataConstraints data)).bind fun rows =>
    let n := s1.coeffs.length * D
    let m := data.length * D
    let A := rowsMat (s1.order * D) rows
    (s1.curveQuadraticIntegralDiag (fun _ => lambda) (if s1.order = 2 then 1 else 2)).bind fun Q =>
      s1.setSolved solve n (fun p q => gram m A p q + Q p q) (transposeVec m A (rowsVec rows))

/-- `initSpline3`, BSpline.cpp 1090-1164. -/
def initSpline3 (solve : Solver K) (s : BSpline K D) (data : List (K × (Fin D → K))) (numSegments : ℤ) (lambda : K) :
    Outcome (BSpline K D) :=
  (s.prepareUniform data numSegments).bind fun s1 => s1.fitRegularised solve data lambda

/-- The dense form (`toDense`) of a sparse block matrix with `D × D` blocks. -/
def sparseDense (D : ℕ) (Q : SparseBlocks K) : Mat K := fun p q =>
  ((Q (p / D) (q / D)).getD (fun _ _ => 0)) (p % D) (q % D)

/-- Fit with the sparse assembly (BSpline.cpp 996-1082): the block of row `i` and block column `coeffIndices[0]/D + j` is
`P.block(0, j*D, D, D)`; `AtA + Q` and `Atb` are formed blockwise; the solver sees the resulting matrix.  Products,
transposes and sums of sparse block matrices are those of the dense matrices they represent (external package). -/
def fitRegularisedSparse (solve : Solver K) (s1 : BSpline K D) (data : List (K × (Fin D → K))) (lambda : K) :
    Outcome (BSpline K D) :=
  (s1.blockRows (fun t => (s1.firstIndex t).map (fun o => o / D * D)) (dataConstraints data)).bind fun rows =>
    let n := s1.coeffs.length * D
    let m := data.length * D
    let A := rowsMat (s1.order * D) rows
    (s1.curveQuadraticIntegralDiagSparse (fun _ => lambda) (if s1.order = 2 then 1 else 2)).bind fun Q =>
      s1.setSolved solve n (fun p q => gram m A p q + sparseDense D Q p q) (transposeVec m A (rowsVec rows))

/-- `initSplineSparse`, BSpline.cpp 966-1086. -/
def initSplineSparse (solve : Solver K) (s : BSpline K D) (data : List (K × (Fin D → K))) (numSegments : ℤ)
    (lambda : K) : Outcome (BSpline K D) :=
  (s.prepareUniform data numSegments).bind fun s1 => s1.fitRegularisedSparse solve data lambda

/-- `initSplineSparseKnots`, BSpline.cpp 848-963: knots given by the caller.
`C = numCoefficientsRequired(knots.size() - 2*(k-1) - 1)`, which may be negative in C++ (then an Eigen assertion). -/
def initSplineSparseKnots (solve : Solver K) (s : BSpline K D) (data : List (K × (Fin D → K))) (knots : List K)
    (lambda : K) : Outcome (BSpline K D) :=
  if data.length < 2 then .throws
  else if timesSorted (data.map Prod.fst) = false then .throws
  else if knots.length < s.order then .ub
  else
    (s.setKnotsAndCoefficients knots (List.replicate (knots.length - s.order) 0)).bind fun s1 =>
      s1.fitRegularisedSparse solve data lambda

/-- The knots of `addCurveSegment` (BSpline.cpp 660-676): knots up to index `km1 + 1` are kept, the further ones (one more
than before) are `t, t + dt, …` with `dt = t - knots_[km1 + 1]`. -/
def extendedKnots (s : BSpline K D) (km1 : ℕ) (t : K) : List K :=
  let dt := t - s.kn (km1 + 1)
  (List.range (s.knots.length + 1)).map
    (fun (i : ℕ) => if i < km1 + 2 then s.kn i else t + ((i - (km1 + 2) : ℕ) : K) * dt)

/-- Rows of one end-point equation of `addCurveSegment` for the last two local coefficients: the block
`weight * P.block(0, off, D, 2D)` and, if `subtract`, the right-hand side `value - P.block(0,0,D,off) * fixed`. -/
def endRow (off : ℕ) (weight : K) (P : Mat K) (value : Fin D → K) (fixed : ℕ → K) (subtract : Bool) : BlockRow K D :=
  { offset := 0
    block := fun r q => weight * P r (off + q)
    value := fun d => if subtract then value d - ∑ q ∈ range off, P d q * fixed q else value d }

/-- The part of `addCurveSegment` and `addCurveSegment2` before the linear system (643-681, 1169-1206): the extended spline
(with an uninitialised last column `junk`), the former end value and the interval of the new segment. -/
def extend (s : BSpline K D) (t : K) (junk : Fin D → K) : Outcome (BSpline K D × (Fin D → K) × K × K) :=
  s.tMax.bind fun tmax =>
  if t ≤ tmax then .throws else
  let nt := s.numValidTimeSegments
  (s.timeIntervalOf ((nt : ℤ) - 1)).bind fun (a, b) =>
  (s.eval b).bind fun p0 =>
  (s.computeTIndex a).bind fun (_, km1) =>
  (s.setKnotsAndCoefficients (s.extendedKnots km1 t) (s.coeffs ++ [junk])).bind fun s1 =>
  (s1.timeIntervalOf nt).bind fun (t0, t1) => .ok (s1, p0, t0, t1)

/-- Store of the solution in the last two columns (733-735, 1269-1271). -/
def storeLastTwo (s : BSpline K D) (x : ℕ → K) : BSpline K D :=
  BSpline.mk (K := K) s.order s.knots
    ((s.coeffs.set (s.coeffs.length - 2) (fun d => x d)).set (s.coeffs.length - 1) (fun d => x (D + d))) s.basis

/-- `addCurveSegment`, BSpline.cpp 642-737. -/
def addCurveSegment (solve : Solver K) (s : BSpline K D) (t : K) (p1 : Fin D → K) (junk : Fin D → K) :
    Outcome (BSpline K D) :=
  (s.extend t junk).bind fun (s1, p0, t0, t1) =>
  let off := D * (s.order - 2)
  (s1.localCoefficientVector t0).bind fun loc =>
  let fixed := fun q => loc.getD q 0
  (s1.phi t0 0).bind fun P0 =>
  (s1.phi t1 0).bind fun P1 =>
    let rows := [endRow off 1 P0 p0 fixed true, endRow off 1 P1 p1 fixed true]
    .ok (s1.storeLastTwo (solve (2 * D) (rowsMat (2 * D) rows) (rowsVec rows)))

/-- `addCurveSegment2`, BSpline.cpp 1167-1273: two more block rows `lambda * Phi(·, 2)` with right-hand side zero (the fixed
coefficients are *not* subtracted there), solved by normal equations. -/
def addCurveSegment2 (solve : Solver K) (s : BSpline K D) (t : K) (p1 : Fin D → K) (lambda : K) (junk : Fin D → K) :
    Outcome (BSpline K D) :=
  (s.extend t junk).bind fun (s1, p0, t0, t1) =>
  let off := D * (s.order - 2)
  (s1.localCoefficientVector t0).bind fun loc =>
  let fixed := fun q => loc.getD q 0
  (s1.phi t0 0).bind fun P0 =>
  (s1.phi t1 0).bind fun P1 =>
  (s1.phi t0 2).bind fun A0 =>
  (s1.phi t1 2).bind fun A1 =>
    let rows := [endRow off 1 P0 p0 fixed true, endRow off 1 P1 p1 fixed true,
      endRow off lambda A0 0 fixed false, endRow off lambda A1 0 fixed false]
    let A := rowsMat (2 * D) rows
    .ok (s1.storeLastTwo (solve (2 * D) (gram (4 * D) A) (transposeVec (4 * D) A (rowsVec rows))))

end BSpline
end Verif
