import Verif.Model.EvaluatorBuffers
import Verif.Model.Fitter

/-!
# Model of the Python interface of the manifold splines

bsplines/include/bsplines/python/DiffManifoldBSplineExporter.hpp, cited as Exp.  `dim` is `getDimension()` and `D` is the size of the
points: both are the same for Euclidean splines; they are 3 and 4 for unit quaternion splines.  A matrix from Python is given by its
numbers of rows and columns and its entries.  `initUniformSpline*` (Exp 98-132) is in `Model/UniformFit`.  Not modelled: the registration of the classes.
-/

namespace Verif.MSpline

open BufM Quaternion

variable {K : Type} [Field K] [LinearOrder K] {P V : Type}

/-! ### Queries -/

/-- The two assertions at the start of `eval`, `evalD` and `evalJacobianD`, Exp 30-31, 37-38, 53-54.  The bounds are read whether the
spline is initialised or not. -/
def pyGuard (s : MSpline K P) (t : K) : Outcome Unit :=
  s.getMinTime.bind fun a => if t < a then .throws else s.getMaxTime.bind fun b => if b < t then .throws else .ok ()

/-- The template arguments of the evaluator, Exp 40-49, 57-69; the order is dynamic (DiffManifoldBSplinePython.cpp 19-20). -/
def pyTemplate (cum : Bool) (der : ℤ) : Template :=
  ⟨if der = 0 then 0 else if der = 1 then 1 else if der = 2 then 2 else -1, -1, cum⟩

/-- The common form of the queries: check the time, make an evaluator, ask it. -/
def pyAsk {α : Type} (cum : Bool) (s : MSpline K P) (t : K) (der : ℤ) (fresh : ℕ → ℕ → K) (q : Template → Evaluator K → BufM K α) :
    Outcome α :=
  (s.pyGuard t).bind fun _ => (s.construct (pyTemplate cum der) t fresh).bind fun x => (q (pyTemplate cum der) x.1 x.2).1

/-- `evalD`, Exp 36-50, of a Euclidean spline; `eval`, 29-34, is the case 0. -/
def pyEvalD [AddCommGroup P] [Module K P] (s : MSpline K P) (t : K) (der : ℤ) (fresh : ℕ → ℕ → K) : Outcome P :=
  s.pyAsk false t der fresh fun c e => s.euclideanEvalDB c e der

/-- `evalJacobianD`, Exp 52-71, of a Euclidean spline (the factors of its blocks); `evalJacobian`, 73-75, is the case 0. -/
def pyEvalJacobianD (s : MSpline K P) (t : K) (der : ℤ) (fresh : ℕ → ℕ → K) : Outcome (List K) :=
  s.pyAsk false t der fresh fun c e => s.euclideanEvalJacobianB c e der

/-- `evalD` of a quaternion spline. -/
noncomputable def pyQuatEvalD (lg : ℍ[ℝ] → V3) (s : MSpline ℝ ℍ[ℝ]) (t : ℝ) (der : ℤ) (fresh : ℕ → ℕ → ℝ) : Outcome ℍ[ℝ] :=
  s.pyAsk true t der fresh fun c e => s.quatEvalDB c lg e der

/-- `evalJacobianD` of a quaternion spline. -/
noncomputable def pyQuatEvalJacobianD (lg : ℍ[ℝ] → V3) (S L : V3 → M33) (s : MSpline ℝ ℍ[ℝ]) (t : ℝ) (der : ℤ) (fresh : ℕ → ℕ → ℝ) :
    Outcome (List DMat) :=
  s.pyAsk true t der fresh fun c e => s.quatEvalJacobianB c lg S L e der

/-- Reading the knot of an iterator: `getTime`. -/
def pyKnotOf : Iter K → Outcome K
  | none => .ub
  | some x => .ok x

/-- `getLastRelevantKnot`, Exp 83-85. -/
def pyLastRelevantKnot (s : MSpline K P) (t : K) : Outcome K := (s.getSegmentIterator t).bind pyKnotOf

/-- `getFirstRelevantKnot`, Exp 87-89. -/
def pyFirstRelevantKnot (s : MSpline K P) (t : K) : Outcome K :=
  (s.getSegmentIterator t).bind fun it => (s.firstRelevantByLast it).bind pyKnotOf

/-! ### Reading the spline -/

/-- The loop of `getKnotsVector`, Exp 187-189: `n` steps are left; writing outside the vector of size `size` is undefined. -/
def pyKnotsLoop (size : ℕ) : List K → ℕ → Outcome (List K)
  | [], _ => .ok []
  | x :: rest, c => if c < size then (pyKnotsLoop size rest (c + 1)).map (x :: ·) else .ub

/-- `getKnotsVector`, Exp 182-191 (`knots`). -/
def pyKnots (s : MSpline K P) : Outcome (List K) := pyKnotsLoop s.segs.length s.keys 0

/-- `getControlVertices`, Exp 193-202 (`coefficients`): the rows of a matrix with `dim` columns.  Assigning a point to a row of another
size is undefined. -/
def pyCoefficients {D : ℕ} (dim : ℕ) (s : MSpline K (Fin D → K)) : Outcome (List (Fin D → K)) :=
  s.numControlVertices.bind fun n => if 0 < n ∧ dim ≠ D then .ub else s.readVertices n s.absBegin

/-- `setControlVertices` without a time, DiffManifoldBSplineImpl.hpp 173-176: from the first vertex relevant at the minimum time on. -/
def pySetControlVertices {D : ℕ} (project : (Fin D → K) → Fin D → K) (rows cols : ℕ) (A : ℕ → ℕ → K) (s : MSpline K (Fin D → K)) :
    Outcome Unit × MSpline K (Fin D → K) :=
  match s.getMinTime with
  | .ok t => s.setControlVertices D project rows cols A t 0
  | .throws => (.throws, s)
  | .ub => (.ub, s)

/-! ### Fitting -/

/-- The columns of a matrix as points, Exp 152-155. -/
def pyColumns (D cols : ℕ) (A : ℕ → ℕ → K) : List (Fin D → K) := (List.range cols).map fun i r => A r i

/-- `fitSplineFromMatrix`, Exp 135-158 (`fitSpline`).  Assigning a column to a point of another size is undefined (the points of the
Euclidean spline have dynamic size, but then `rows` is the right size).  Simplification: the number of fixed points is not negative. -/
def pyFit {D : ℕ} (dim : ℕ) (dense : Bool) (solve : Solver K) (project : (Fin D → K) → Fin D → K) (times : List K) (rows cols : ℕ)
    (A : ℕ → ℕ → K) (lambda : K) (fix : ℕ) (weights : List K) (s : MSpline K (Fin D → K)) : Outcome Unit × MSpline K (Fin D → K) :=
  if rows ≠ dim then (.throws, s)
  else if times.length < cols then (.throws, s)
  else if weights.length ≠ 0 ∧ weights.length < times.length then (.throws, s)
  else if 0 < cols ∧ rows ≠ D then (.ub, s)
  else s.fitSpline dense solve project times (pyColumns D cols A) lambda fix
    (if weights.length = 0 then none else some fun i => weights.getD i 0) false

/-- `extendAndFitSplineFromMatrix`, Exp 160-179 (`extendAndFitSpline`); `ts` are the knots the generator delivers. -/
def pyExtendAndFit {D : ℕ} (dim : ℕ) (dense : Bool) (solve : Solver K) (project : (Fin D → K) → Fin D → K)
    (M : Mfd K (Fin D → K) (Fin D → K)) (ts times : List K) (rows cols : ℕ) (A : ℕ → ℕ → K) (lambda : K) (percent : ℕ)
    (s : MSpline K (Fin D → K)) : Outcome Unit × MSpline K (Fin D → K) :=
  if rows ≠ dim then (.throws, s)
  else if times.length < cols then (.throws, s)
  else if 0 < cols ∧ rows ≠ D then (.ub, s)
  else s.extendAndFit dense solve project M ts times (pyColumns D cols A) lambda percent false

end Verif.MSpline
