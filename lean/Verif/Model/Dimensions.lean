import Verif.Model.Exceptions

/-!
# Model: vectors and matrices of any size passed to a spline

The other models of `bsplines::BSpline` fix the dimension of the spline and the sizes of the arguments by their types.  In the code the
dimension is the number of rows of the member `coefficients_`, which the initialising functions replace, and the arguments are
`Eigen::VectorXd` and `Eigen::MatrixXd` of any size.  Here the dimension is part of the state and all size checks of the code are written
out.

Source: `/repo/bsplines/src/BSpline.cpp` (lines given at each definition).

Simplifications: those of `Model/Exceptions`.  Assigning a vector of another size through the map returned by `vvCoefficientVector` violates
an assertion of Eigen, which is compiled out, and is `ub`.  The loops of `curveQuadraticIntegralSparse` (1600-1603) and
`curveQuadraticIntegralDiagSparse` (1641-1644) never end for dimension zero and allocate memory in each round; there is no regular outcome
and the model says `ub`.
-/

namespace Verif

open BSpline

/-- An `Eigen::MatrixXd`: its sizes and its entries (those within the sizes count). -/
structure EigenMat (K : Type*) where
  rows : ℕ
  cols : ℕ
  entry : ℕ → ℕ → K

namespace EigenMat

variable {K : Type*} [Field K]

/-- The columns, cut or filled up to length `D`; used with `D = rows`. -/
def columns (m : EigenMat K) (D : ℕ) : List (Fin D → K) := (List.range m.cols).map fun j i => m.entry i j

/-- `Eigen::MatrixXd::Zero(rows, cols)`. -/
def zero (rows cols : ℕ) : EigenMat K := ⟨rows, cols, fun _ _ => 0⟩

/-- All columns the same, BSpline.cpp 1738-1740. -/
def constant (c : List K) (cols : ℕ) : EigenMat K := ⟨c.length, cols, fun i _ => c.getD i 0⟩

end EigenMat

/-- The entries of an `Eigen::VectorXd` as a vector of dimension `D`; used with `D = v.length`. -/
def vecOf {K : Type*} [Field K] (D : ℕ) (v : List K) : Fin D → K := fun i => v.getD i 0

/-- Times and columns as pairs. -/
def pairsOf {K : Type*} [Field K] (D : ℕ) (times : List K) (points : EigenMat K) : List (K × (Fin D → K)) := times.zip (points.columns D)

/-- A `bsplines::BSpline` with its dimension `coefficients_.rows()`. -/
structure DSpline (K : Type*) where
  dim : ℕ
  spline : BSpline K dim

namespace DSpline

variable {K : Type*} [Field K] [LinearOrder K]

/-- The constructor, BSpline.cpp 15-19; `coefficients_` is a matrix without rows and columns. -/
def create (order : ℕ) : Outcome (DSpline K) := (BSpline.create (K := K) (D := 0) order).map fun s => ⟨0, s⟩

/-- A function that checks everything before it changes the object. -/
def assign (s : DSpline K) (o : Outcome (DSpline K)) : Outcome Unit × DSpline K :=
  match o with
  | .ok s' => (.ok (), s')
  | .throws => (.throws, s)
  | .ub => (.ub, s)

/-- Code that does not touch the number of rows. -/
def lift (s : DSpline K) (f : BSpline K s.dim → Outcome Unit × BSpline K s.dim) : Outcome Unit × DSpline K :=
  ((f s.spline).1, ⟨s.dim, (f s.spline).2⟩)

/-- `setKnotsAndCoefficients`, BSpline.cpp 36-56, and `setKnotVectorAndCoefficients`, 152-160: the number of columns is checked, the number
of rows becomes the new dimension. -/
def setKnotsAndCoefficients (s : DSpline K) (knots : List K) (m : EigenMat K) : Outcome (DSpline K) :=
  (s.spline.verifyKnotSequence knots).bind fun _ =>
    if numCoefficientsRequired s.spline.order (numValidTimeSegmentsOf s.spline.order knots.length) = m.cols then
      .ok ⟨m.rows, initializeBasisMatrices (BSpline.mk (K := K) s.spline.order knots (m.columns m.rows) s.spline.basis)⟩
    else .throws

/-- `initSpline`, BSpline.cpp 551-640; the sizes are compared in line 553, the dimension is that of `p_0` (line 563). -/
def initSpline (solve : Solver K) (t0 t1 : K) (p0 p1 : List K) (s : DSpline K) : Outcome Unit × DSpline K :=
  if p0.length ≠ p1.length then (.throws, s)
  else if t1 ≤ t0 then (.throws, s)
  else MSpline.andThen
    (fun s => s.assign (s.setKnotsAndCoefficients
      (uniformKnots s.spline.order (numKnotsRequired s.spline.order 1) t0 (t1 - t0))
      (EigenMat.zero p0.length (numCoefficientsRequired s.spline.order 1))))
    (fun s1 => s1.lift fun b => BSpline.assign b (b.finishInit solve t0 t1 (vecOf s1.dim p0) (vecOf s1.dim p1))) s

/-- The checks and the knots of `initSpline2`, `initSplineSparse` and `initSpline3`, BSpline.cpp 764-796, 968-994, 1092-1124. -/
def prepareUniform (s : DSpline K) (times : List K) (points : EigenMat K) (numSegments : ℤ) : Outcome (DSpline K) :=
  if times.length ≠ points.cols then .throws
  else if times.length < 2 then .throws
  else if numSegments < 1 then .throws
  else if timesSorted times = false then .throws
  else
    let first := times.getD 0 0
    let last := times.getD (times.length - 1) 0
    let nK := numKnotsRequired s.spline.order numSegments.toNat
    let nC := numCoefficientsRequired s.spline.order numSegments.toNat
    let dt := (last - first) / (numSegments.toNat : K)
    s.setKnotsAndCoefficients (uniformKnots s.spline.order nK first dt) (EigenMat.zero points.rows nC)

/-- `initSpline2`, BSpline.cpp 762-845. -/
def initSpline2 (solve : Solver K) (times : List K) (points : EigenMat K) (numSegments : ℤ) (lambda : K) (s : DSpline K) :
    Outcome Unit × DSpline K :=
  MSpline.andThen (fun s => s.assign (s.prepareUniform times points numSegments))
    (fun s1 => s1.lift fun b => BSpline.assign b (b.finishInit2 solve (pairsOf s1.dim times points) lambda)) s

/-- `initSpline3`, BSpline.cpp 1090-1164. -/
def initSpline3 (solve : Solver K) (times : List K) (points : EigenMat K) (numSegments : ℤ) (lambda : K) (s : DSpline K) :
    Outcome Unit × DSpline K :=
  MSpline.andThen (fun s => s.assign (s.prepareUniform times points numSegments))
    (fun s1 => s1.lift fun b => BSpline.assign b (b.fitRegularised solve (pairsOf s1.dim times points) lambda)) s

/-- `initSplineSparse`, BSpline.cpp 966-1086. -/
def initSplineSparse (solve : Solver K) (times : List K) (points : EigenMat K) (numSegments : ℤ) (lambda : K) (s : DSpline K) :
    Outcome Unit × DSpline K :=
  MSpline.andThen (fun s => s.assign (s.prepareUniform times points numSegments))
    (fun s1 => s1.lift fun b => BSpline.assign b (b.fitRegularisedSparse solve (pairsOf s1.dim times points) lambda)) s

/-- `initSplineSparseKnots`, BSpline.cpp 848-963. -/
def initSplineSparseKnots (solve : Solver K) (times : List K) (points : EigenMat K) (knots : List K) (lambda : K) (s : DSpline K) :
    Outcome Unit × DSpline K :=
  if times.length ≠ points.cols then (.throws, s)
  else if times.length < 2 then (.throws, s)
  else if timesSorted times = false then (.throws, s)
  else if knots.length < s.spline.order then (.ub, s)
  else MSpline.andThen
    (fun s => s.assign (s.setKnotsAndCoefficients knots (EigenMat.zero points.rows (knots.length - s.spline.order))))
    (fun s1 => s1.lift fun b => BSpline.assign b (b.fitRegularisedSparse solve (pairsOf s1.dim times points) lambda)) s

/-- `initConstantSpline`, BSpline.cpp 1718-1743. -/
def initConstantSpline (s : DSpline K) (tmin tmax : K) (numSegments : ℤ) (constant : List K) : Outcome (DSpline K) :=
  if tmax ≤ tmin then .throws
  else if numSegments < 1 then .throws
  else if constant.length < 1 then .throws
  else
    let nK := numKnotsRequired s.spline.order numSegments.toNat
    let nC := numCoefficientsRequired s.spline.order numSegments.toNat
    let dt := (tmax - tmin) / (numSegments.toNat : K)
    let minTime := tmin - ((s.spline.order : K) - 1) * dt
    let maxTime := tmax + ((s.spline.order : K) - 1) * dt
    s.setKnotsAndCoefficients (linSpaced nK minTime maxTime) (EigenMat.constant constant nC)

/-- The two checks at the beginning of `addCurveSegment` and `addCurveSegment2`, BSpline.cpp 644-645, 1169-1170. -/
def checkAppend (s : DSpline K) (t : K) (p : List K) : Outcome Unit :=
  s.spline.tMax.bind fun tmax => if t ≤ tmax then .throws else if p.length = s.dim then .ok () else .throws

/-- `addCurveSegment`, BSpline.cpp 642-737; `junk` is the content of the new memory. -/
def addCurveSegment (solve : Solver K) (t : K) (p junk : List K) (s : DSpline K) : Outcome Unit × DSpline K :=
  MSpline.andThen (fun s => (s.checkAppend t p, s))
    (fun s => s.lift fun b => b.addCurveSegmentObj solve t (vecOf s.dim p) (vecOf s.dim junk)) s

/-- `addCurveSegment2`, BSpline.cpp 1167-1273. -/
def addCurveSegment2 (solve : Solver K) (t : K) (p : List K) (lambda : K) (junk : List K) (s : DSpline K) :
    Outcome Unit × DSpline K :=
  MSpline.andThen (fun s => (s.checkAppend t p, s))
    (fun s => s.lift fun b => b.addCurveSegment2Obj solve t (vecOf s.dim p) lambda (vecOf s.dim junk)) s

/-- `setCoefficientMatrix`, BSpline.cpp 523-528. -/
def setCoefficientMatrix (s : DSpline K) (m : EigenMat K) : Outcome (DSpline K) :=
  if s.dim ≠ m.rows then .throws
  else if s.spline.coeffs.length ≠ m.cols then .throws
  else .ok ⟨m.rows, BSpline.mk (K := K) s.spline.order s.spline.knots (m.columns m.rows) s.spline.basis⟩

/-- The calls that change a spline, with arguments of any size. -/
inductive Call (K : Type*)
  | setKnots (knots : List K) (coefficients : EigenMat K)
  | init (t0 t1 : K) (p0 p1 : List K)
  | init2 (times : List K) (points : EigenMat K) (numSegments : ℤ) (lambda : K)
  | init3 (times : List K) (points : EigenMat K) (numSegments : ℤ) (lambda : K)
  | initSparse (times : List K) (points : EigenMat K) (numSegments : ℤ) (lambda : K)
  | initSparseKnots (times : List K) (points : EigenMat K) (knots : List K) (lambda : K)
  | initConstant (tmin tmax : K) (numSegments : ℤ) (constant : List K)
  | append (t : K) (p junk : List K)
  | append2 (t : K) (p : List K) (lambda : K) (junk : List K)
  | remove
  | setVector (c : List K)
  | setMatrix (m : EigenMat K)
  | setLocal (t : K) (c : List K)
  | setVv (i : ℤ) (v : List K)

/-- Run a call on an object.  `setCoefficientVector` (503-510) and `setLocalCoefficientVector` (749-759) compare the size with the dimension
of the spline, as their models do. -/
def Call.run (solve : Solver K) : Call K → DSpline K → Outcome Unit × DSpline K
  | .setKnots knots m, s => s.assign (s.setKnotsAndCoefficients knots m)
  | .init t0 t1 p0 p1, s => s.initSpline solve t0 t1 p0 p1
  | .init2 times points n lambda, s => s.initSpline2 solve times points n lambda
  | .init3 times points n lambda, s => s.initSpline3 solve times points n lambda
  | .initSparse times points n lambda, s => s.initSplineSparse solve times points n lambda
  | .initSparseKnots times points knots lambda, s => s.initSplineSparseKnots solve times points knots lambda
  | .initConstant tmin tmax n c, s => s.assign (s.initConstantSpline tmin tmax n c)
  | .append t p junk, s => s.addCurveSegment solve t p junk
  | .append2 t p lambda junk, s => s.addCurveSegment2 solve t p lambda junk
  | .remove, s => s.lift fun b => (.ok (), b.removeCurveSegment)
  | .setVector c, s => s.lift fun b => BSpline.assign b (b.setCoefficientVector c)
  | .setMatrix m, s => s.assign (s.setCoefficientMatrix m)
  | .setLocal t c, s => s.lift fun b => BSpline.assign b (b.setLocalCoefficientVector t c)
  | .setVv i v, s =>
    if i < 0 ∨ (s.spline.coeffs.length : ℤ) ≤ i then (.throws, s)
    else if v.length ≠ s.dim then (.ub, s)
    else s.lift fun b => BSpline.assign b (b.setVvCoefficientVector i (vecOf s.dim v))

/-- A program that makes calls one after the other and catches the exception of each. -/
def runCatching (solve : Solver K) : List (Call K) → DSpline K → Outcome Unit × DSpline K
  | [], s => (.ok (), s)
  | c :: cs, s =>
    match c.run solve s with
    | (.ok (), s') => runCatching solve cs s'
    | (.throws, s') => runCatching solve cs s'
    | (.ub, s') => (.ub, s')

/-! ## Integrals with a weight matrix -/

/-- `segmentQuadraticIntegral`, BSpline.cpp 1512-1548: the sizes of `W` are compared after the segment index. -/
def segmentQuadraticIntegral (s : DSpline K) (W : EigenMat K) (seg : ℤ) (der : ℕ) : Outcome (Mat K) :=
  if seg < 0 ∨ (s.spline.basis.length : ℤ) ≤ seg then .throws
  else if W.rows ≠ s.dim then .throws
  else if W.cols ≠ s.dim then .throws
  else s.spline.segmentQuadraticIntegral W.entry seg der

/-- `segmentQuadraticIntegralDiag`, BSpline.cpp 1550-1581. -/
def segmentQuadraticIntegralDiag (s : DSpline K) (w : List K) (seg : ℤ) (der : ℕ) : Outcome (Mat K) :=
  if seg < 0 ∨ (s.spline.basis.length : ℤ) ≤ seg then .throws
  else if w.length ≠ s.dim then .throws
  else s.spline.segmentQuadraticIntegralDiag (fun d => w.getD d 0) seg der

/-- `curveQuadraticIntegral`, BSpline.cpp 1669-1686. -/
def curveQuadraticIntegral (s : DSpline K) (W : EigenMat K) (der : ℕ) : Outcome (Mat K) :=
  if W.rows ≠ s.dim then .throws
  else if W.cols ≠ s.dim then .throws
  else s.spline.sumBlocks (fun seg => s.segmentQuadraticIntegral W seg der) s.spline.numValidTimeSegments

/-- `curveQuadraticIntegralDiag`, BSpline.cpp 1690-1706. -/
def curveQuadraticIntegralDiag (s : DSpline K) (w : List K) (der : ℕ) : Outcome (Mat K) :=
  if w.length ≠ s.dim then .throws
  else s.spline.sumBlocks (fun seg => s.segmentQuadraticIntegralDiag w seg der) s.spline.numValidTimeSegments

/-- `curveQuadraticIntegralSparse`, BSpline.cpp 1585-1622: no check of its own; the loop 1600-1603 does not end for dimension zero. -/
def curveQuadraticIntegralSparse (s : DSpline K) (W : EigenMat K) (der : ℕ) : Outcome (SparseBlocks K) :=
  if s.dim = 0 then .ub
  else s.spline.sumSparse (fun seg => s.segmentQuadraticIntegral W seg der) s.spline.numValidTimeSegments

/-- `curveQuadraticIntegralDiagSparse`, BSpline.cpp 1626-1664: likewise. -/
def curveQuadraticIntegralDiagSparse (s : DSpline K) (w : List K) (der : ℕ) : Outcome (SparseBlocks K) :=
  if s.dim = 0 then .ub
  else s.spline.sumSparse (fun seg => s.segmentQuadraticIntegralDiag w seg der) s.spline.numValidTimeSegments

end DSpline
end Verif
