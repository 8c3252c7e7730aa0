import Verif.Model.OptSpline
import Verif.Model.ManifoldJacobian

/-!
# Model of the expression nodes of optimisable manifold splines

Source: `/repo/aslam_splines/include/aslam/splines/implementation/OPTBSplineImpl.hpp` (cited as `Impl`),
`/repo/aslam_splines/include/aslam/splines/OPTBSpline.hpp` (cited as `.hpp`) and
`/repo/aslam_splines/include/aslam/splines/implementation/OPTUnitQuaternionBSplineImpl.hpp` (cited as `Quat`).

External classes: `aslam::backend::JacobianContainer` adds up the blocks it is given for a design variable; here it is the list of
the calls of `add`.  A time expression has a value and, for each of its design variables, one row of partial derivatives; its
`evaluateJacobians(container, M)` adds `M` times that row.  The chain rule matrix is a map applied to the columns of a block, the identity
if there is none.  The spline does not get new
segments between the construction of a node and its use (see `Model/LiveNodes`).
-/

namespace Verif

variable {K : Type*} [Field K] [LinearOrder K] {P : Type*}

/-- A design variable: a segment of the spline, named by its knot, or one of the time expression. -/
inductive ExprVar (K : Type*)
  | seg (k : K)
  | time (n : ℕ)
  deriving DecidableEq

/-- A time expression: its value and the rows of its design variables. -/
structure TimeNode (K : Type*) where
  value : K
  rows : List (ℕ × List K)

/-- `ConstTimeFactoryData`, .hpp 194-210, and `TimeExpressionFactoryData`, .hpp 212-241. -/
inductive FactoryData (K : Type*)
  | constTime (t : K)
  | timed (x : TimeExpr K)

/-- `getEvaluator()`, .hpp 198 and Impl 71-87: the time the evaluator was made for. -/
def FactoryData.evaluatorTime (s : MSpline K P) (τ : TimeNode K) : FactoryData K → Outcome K × FactoryData K
  | .constTime t => (.ok t, .constTime t)
  | .timed x => ((x.getEvaluator s τ.value).1, .timed (x.getEvaluator s τ.value).2)

/-- The loop over `eval.begin()`, `eval.end()`: the knots of the segments (`begin` is the first relevant one, DiffManifoldBSpline.hpp
358). -/
def windowKeys (s : MSpline K P) (e : MSpline.Evaluator K) : Outcome (List K) := walk e.endIt (s.keys.drop (itPos s.keys e.firstIt))

/-- The loop over `begin()`, `end()` of a time expression's data, .hpp 228-229. -/
def spanKeys (s : MSpline K P) (x : TimeExpr K) : Outcome (List K) :=
  s.getMinTime.bind fun tmin => (s.getSegmentIterator (max tmin x.lower)).bind fun l => (s.firstRelevantByLast l).bind fun first =>
  s.getMaxTime.bind fun tmax => (s.getSegmentIterator (min tmax x.upper)).bind fun u =>
  match s.iters with
  | none => .ub
  | some its => (if u ≠ its.end_ then itInc s.keys u else .ok u).bind fun last => walk last (s.keys.drop (itPos s.keys first))

/-- `getDesignVariables`, .hpp 201 and Impl 90-94 (a set; listed in the order of insertion). -/
def FactoryData.designVariables (s : MSpline K P) (τ : TimeNode K) : FactoryData K → Outcome (List (ExprVar K))
  | .constTime t => (s.evaluatorAt t).bind fun e => (windowKeys s e).map fun ks => ks.map ExprVar.seg
  | .timed x => (spanKeys s x).map fun ks => ks.map ExprVar.seg ++ τ.rows.map fun r => ExprVar.time r.1

variable {Q R : Type*}

/-- The loops of Impl 159-164, Quat 27-32, 77-82 with `addJac`, Impl 116-138: one block for each segment of the window; a block beyond
the matrix is undefined behaviour. -/
def addBlocks (chain : Q → R) (ks : List K) (blocks : List (List Q)) : Outcome (List (ExprVar K × List R)) :=
  if blocks.length < ks.length then .ub else .ok (List.zipWith (fun k b => (ExprVar.seg k, b.map chain)) ks blocks)

/-- `makeSureForEveryDesignVariableAJacobianGetsAdded`, Impl 96-103: zero blocks with `n` columns, if the node calls it. -/
def zeroBlocks [Zero R] (s : MSpline K P) (x : TimeExpr K) : Option ℕ → Outcome (List (ExprVar K × List R))
  | none => .ok []
  | some n => (spanKeys s x).map fun ks => ks.map fun k => (ExprVar.seg k, List.replicate n 0)

/-- `evaluateJacobiansImplementation(outJacobians, applyChainRule)`, Impl 154-174, Quat 21-37, 71-87.  `jac` gives the columns of the blocks of
the evaluator's Jacobian, `timeCol` its derivative with respect to time, `zeros` the columns of the zero blocks. -/
def nodeJacobians [Zero R] [SMul K R] (s : MSpline K P) (τ : TimeNode K) (d : FactoryData K) (jac : K → Outcome (List (List Q)))
    (zeros : Option ℕ) (timeCol : K → Outcome Q) (chain : Q → R) : Outcome (List (ExprVar K × List R)) × FactoryData K :=
  match d.evaluatorTime s τ with
  | (.throws, d') => (.throws, d')
  | (.ub, d') => (.ub, d')
  | (.ok c, d') =>
    ((s.evaluatorAt c).bind fun e => (jac c).bind fun J => (windowKeys s e).bind fun ks => (addBlocks chain ks J).bind fun bs =>
      match d with
      | .constTime _ => .ok bs
      | .timed x =>
        (zeroBlocks s x zeros).bind fun zs => (timeCol c).bind fun v =>
          .ok (bs ++ zs ++ τ.rows.map fun r : ℕ × List K => (ExprVar.time r.1, r.2.map fun a => a • chain v)), d')

/-- `evaluateImplementation`, Impl 176-178, Quat 40-42, 90-92. -/
def nodeValue {X : Type*} (s : MSpline K P) (τ : TimeNode K) (d : FactoryData K) (eval : K → Outcome X) : Outcome X × FactoryData K :=
  match d.evaluatorTime s τ with
  | (.throws, d') => (.throws, d')
  | (.ub, d') => (.ub, d')
  | (.ok c, d') => (eval c, d')

open Quaternion

/-- `getValueExpression(derivativeOrder)` of a unit quaternion spline. -/
noncomputable def quatValueJacobians [Zero R] [SMul ℝ R] (lg : ℍ[ℝ] → V3) (S L : V3 → M33) (s : MSpline ℝ ℍ[ℝ]) (τ : TimeNode ℝ)
    (d : FactoryData ℝ) (der : ℤ) (chain : ℍ[ℝ] → R) : Outcome (List (ExprVar ℝ × List R)) × FactoryData ℝ :=
  nodeJacobians s τ d (fun c => (s.quatEvalJacobian lg S L c der).map fun J => J.map fun M => List.ofFn M) (some 3)
    (fun c => s.quatEvalD lg c (der + 1)) chain

/-- `getAngularVelocityExpression` (`der = 1`) and `getAngularAccelerationExpression` (`der = 2`), Quat 11-107. -/
noncomputable def angularJacobians [Zero R] [SMul ℝ R] (lg : ℍ[ℝ] → V3) (S L : V3 → M33) (s : MSpline ℝ ℍ[ℝ]) (τ : TimeNode ℝ)
    (d : FactoryData ℝ) (der : ℕ) (chain : V3 → R) : Outcome (List (ExprVar ℝ × List R)) × FactoryData ℝ :=
  nodeJacobians s τ d (fun c => (s.evalAngularJacobian lg S L c der).map fun J => J.map fun A => List.ofFn fun k => fun r => A r k) none
    (fun c => s.evalAngularDerivative lg c (der + 1)) chain

/-- The evaluator's template argument, .hpp 197 and 215. -/
def FactoryData.maxDer (m : Option ℕ) : FactoryData K → Option ℕ
  | .constTime _ => m
  | .timed _ => m.map (· + 1)

/-- `getValueExpression(derivativeOrder)` of a Euclidean spline; `m` is `IMaxDerivativeOrder` unless dynamic. -/
def euclideanValueJacobians {D : ℕ} [Zero R] [SMul K R] (s : MSpline K (Fin D → K)) (m : Option ℕ) (τ : TimeNode K) (d : FactoryData K)
    (der : ℤ) (chain : (Fin D → K) → R) : Outcome (List (ExprVar K × List R)) × FactoryData K :=
  nodeJacobians s τ d (fun c => (s.euclideanEvalJacobian (d.maxDer m) c der).map fun J =>
      J.map fun w => List.ofFn fun k : Fin D => fun r : Fin D => if r = k then w else 0) (some D)
    (fun c => s.euclideanEvalD (d.maxDer m) c (der + 1)) chain

end Verif
