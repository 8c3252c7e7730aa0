import Verif.Model.OptExpressions
import Verif.Model.EvaluatorLife

/-!
# Model: expression nodes of optimisable manifold splines that outlive changes of their spline

Source: `/repo/aslam_splines/include/aslam/splines/implementation/OPTBSplineImpl.hpp` (cited as `Impl`),
`/repo/aslam_splines/include/aslam/splines/OPTBSpline.hpp` (cited as `.hpp`) and
`/repo/aslam_splines/include/aslam/splines/implementation/OPTUnitQuaternionBSplineImpl.hpp` (cited as `Quat`).

The nodes made by one expression factory share its data (`_dataPtr`, .hpp 190, Impl 147): an evaluator made with the factory, or the bounds
of a time expression and an evaluator that is made when it is needed and kept for the next use.  `Model/OptExpressions` names the evaluator
by its time and makes it anew from the spline; here it is kept with its iterators and buffers (`Model/EvaluatorBuffers`), and calls on the
nodes alternate with changes of the spline (`Model/EvaluatorLife`) and of the time expression.

Simplifications: those of these models.  The copy of the data made by the factory's constructor (.hpp 187) is the data: it is made before the
nodes are, and copies the evaluator by value.
-/

namespace Verif

open MSpline BufM

variable {K : Type} [Field K] [LinearOrder K] {P V : Type}

/-- `ConstTimeFactoryData`, .hpp 194-210: the evaluator and its buffers; `TimeExpressionFactoryData`, .hpp 212-241: the bounds and what
`evalPtr` points to. -/
inductive LiveData (K : Type)
  | constTime (e : Evaluator K) (b : Buffers K)
  | timed (lower upper : K) (cache : Option (Evaluator K × Buffers K))

/-- The evaluator's template arguments, .hpp 197 and 215: `IMaxDerivativeOrder`, one more for time expressions unless dynamic. -/
def timedTemplate (c : Template) : Template := if c.maxDer ≠ -1 then { c with maxDer := c.maxDer + 1 } else c

/-- The template arguments of the evaluator in the data. -/
def LiveData.template (c : Template) : LiveData K → Template
  | .constTime _ _ => c
  | .timed _ _ _ => timedTemplate c

/-- `getExpressionFactoryAt(t)`, .hpp 244-246, with the constructor of `ConstTimeFactoryData`, .hpp 200. -/
def LiveData.atTime (c : Template) (s : MSpline K P) (t : K) (fresh : ℕ → ℕ → K) : Outcome (LiveData K) :=
  (s.construct c t fresh).map fun x => .constTime x.1 x.2

/-- `getExpressionFactoryAt(timeExpression, lower, upper)`, .hpp 247-249, with the constructor of `TimeExpressionFactoryData`, .hpp
216-220. -/
def LiveData.between (s : MSpline K P) (lower upper : K) : Outcome (LiveData K) :=
  (TimeExpr.create s lower upper).map fun x => .timed x.lower x.upper none

/-- `getEvaluator()`, .hpp 198 and Impl 71-87, when the time expression has the value `t`.  `getKnot()` is the knot of the evaluator's
segment iterator (DiffManifoldBSpline.hpp 364). -/
def LiveData.getEvaluator (c : Template) (s : MSpline K P) (t : K) (fresh : ℕ → ℕ → K) :
    LiveData K → Outcome (Evaluator K × Buffers K) × LiveData K
  | .constTime e b => (.ok (e, b), .constTime e b)
  | .timed lower upper cache =>
    if t < lower then (.throws, .timed lower upper cache)
    else if upper < t then (.throws, .timed lower upper cache)
    else match cache.filter fun x => decide (x.1.ti = some t) with
      | some x => (.ok x, .timed lower upper (some x))
      | none => match s.construct c t fresh with
        | .ok x => (.ok x, .timed lower upper (some x))
        | .throws => (.throws, .timed lower upper none)
        | .ub => (.ub, .timed lower upper none)

/-- The evaluator's buffers after a query on it. -/
def LiveData.put (b : Buffers K) : LiveData K → LiveData K
  | .constTime e _ => .constTime e b
  | .timed lower upper cache => .timed lower upper (cache.map fun x => (x.1, b))

/-- A call that gets the evaluator and runs `f` on it. -/
def LiveData.useEvaluator {β : Type} (c : Template) (s : MSpline K P) (t : K) (fresh : ℕ → ℕ → K) (f : Evaluator K → BufM K β)
    (d : LiveData K) : Outcome β × LiveData K :=
  match d.getEvaluator c s t fresh with
  | (.ok x, d') => ((f x.1 x.2).1, d'.put (f x.1 x.2).2)
  | (.throws, d') => (.throws, d')
  | (.ub, d') => (.ub, d')

/-- The bounds of the time expression, `none` at a constant time (`hasTimeExpression`, .hpp 202 and 225). -/
def LiveData.bounds : LiveData K → Option (K × K)
  | .constTime _ _ => none
  | .timed lower upper _ => some (lower, upper)

/-- `getDesignVariables`, .hpp 201 and Impl 90-94. -/
def LiveData.designVariables (s : MSpline K P) (τ : TimeNode K) : LiveData K → Outcome (List (ExprVar K))
  | .constTime e _ => (windowKeys s e).map fun ks => ks.map ExprVar.seg
  | .timed lower upper _ => (spanKeys s ⟨lower, upper, none⟩).map fun ks => ks.map ExprVar.seg ++ τ.rows.map fun r => ExprVar.time r.1

/-- `evaluateJacobiansImplementation` after `getEvaluator`, Impl 158-173, Quat 25-36, 76-86: the Jacobian of the evaluator, the loop over
its segments, and for time expressions the zero blocks, the derivative with respect to time and its rows. -/
def jacobiansB {Q R : Type} [Zero R] [SMul K R] (s : MSpline K P) (τ : TimeNode K) (bounds : Option (K × K))
    (jac : Evaluator K → BufM K (List (List Q))) (zeros : Option ℕ) (timeCol : Evaluator K → BufM K Q) (chain : Q → R) (e : Evaluator K) :
    BufM K (List (ExprVar K × List R)) :=
  (jac e).bind fun J => (lift (windowKeys s e)).bind fun ks => (lift (addBlocks chain ks J)).bind fun bs =>
    match bounds with
    | none => lift (.ok bs)
    | some lu => (lift (zeroBlocks s ⟨lu.1, lu.2, none⟩ zeros)).bind fun zs => (timeCol e).bind fun v =>
      lift (.ok (bs ++ zs ++ τ.rows.map fun r : ℕ × List K => (ExprVar.time r.1, r.2.map fun a => a • chain v)))

/-- What a call on a node gives: a value, the blocks for the Jacobian container, or the design variables. -/
inductive NodeAnswer (K X R : Type)
  | value (x : X)
  | blocks (l : List (ExprVar K × List R))
  | variables (l : List (ExprVar K))

/-- Calls on the nodes of a Euclidean spline with `D` coordinates. -/
inductive EuclideanCall (K : Type) (D : ℕ) (R : Type)
  | value (der : ℤ)
  | jacobians (der : ℤ) (chain : (Fin D → K) → R)

/-- `evaluateImplementation`, Impl 176-178, and `evaluateJacobiansImplementation`, Impl 154-174, with the evaluator at hand. -/
def EuclideanCall.run {D : ℕ} {R : Type} [Zero R] [SMul K R] (c : Template) (s : MSpline K (Fin D → K)) (τ : TimeNode K)
    (bounds : Option (K × K)) (e : Evaluator K) : EuclideanCall K D R → BufM K (NodeAnswer K (Fin D → K) R)
  | .value der => (s.euclideanEvalDB c e der).map .value
  | .jacobians der chain => (jacobiansB s τ bounds (fun e => (s.euclideanEvalJacobianB c e der).map fun J =>
      J.map fun w => List.ofFn fun k : Fin D => fun r : Fin D => if r = k then w else 0) (some D)
    (fun e => s.euclideanEvalDB c e (der + 1)) chain e).map .blocks

open Quaternion

/-- Calls on the nodes of a quaternion spline: those of `getValueExpression(der)`, `getAngularVelocityExpression()` (`der = 1`) and
`getAngularAccelerationExpression()` (`der = 2`). -/
inductive QuaternionCall (R : Type)
  | value (der : ℤ)
  | jacobians (der : ℤ) (chain : ℍ[ℝ] → R)
  | angular (der : ℕ)
  | angularJacobians (der : ℕ) (chain : V3 → R)

/-- `evaluateImplementation`, Impl 176-178, Quat 40-42, 90-92, and `evaluateJacobiansImplementation`, Impl 154-174, Quat 21-37, 71-87, with
the evaluator at hand. -/
noncomputable def QuaternionCall.run {R : Type} [Zero R] [SMul ℝ R] (lg : ℍ[ℝ] → V3) (S L : V3 → M33) (c : Template) (s : MSpline ℝ ℍ[ℝ])
    (τ : TimeNode ℝ) (bounds : Option (ℝ × ℝ)) (e : Evaluator ℝ) : QuaternionCall R → BufM ℝ (NodeAnswer ℝ (ℍ[ℝ] ⊕ V3) R)
  | .value der => (s.quatEvalDB c lg e der).map fun q => .value (.inl q)
  | .jacobians der chain => (jacobiansB s τ bounds (fun e => (s.quatEvalJacobianB c lg S L e der).map fun J => J.map fun M => List.ofFn M)
      (some 3) (fun e => s.quatEvalDB c lg e (der + 1)) chain e).map .blocks
  | .angular der => (s.evalAngularDerivativeB c lg e der).map fun v => .value (.inr v)
  | .angularJacobians der chain => (jacobiansB s τ bounds (fun e => (s.evalAngularJacobianB c lg S L e der).map fun J =>
      J.map fun A => List.ofFn fun k => fun r => A r k) none (fun e => s.evalAngularDerivativeB c lg e (der + 1)) chain e).map .blocks

/-- What happens in the life of a factory's nodes: a call on one of them that uses the evaluator, with the time expression as it is then and
the contents of memory that an evaluator might get; a request for the design variables; a change of the spline. -/
inductive NodeEvent (K P α : Type)
  | call (q : α) (τ : TimeNode K) (fresh : ℕ → ℕ → K)
  | variables (τ : TimeNode K)
  | change (c : Change K P)

/-- The answers of the nodes in the course of a program.  `run` runs a call on the evaluator. -/
def nodeSession {α X R : Type} (M : Mfd K P V) (c : Template)
    (run : Template → MSpline K P → TimeNode K → Option (K × K) → Evaluator K → α → BufM K (NodeAnswer K X R)) :
    List (NodeEvent K P α) → MSpline K P → LiveData K → List (Outcome (NodeAnswer K X R))
  | [], _, _ => []
  | .call q τ fresh :: es, s, d =>
    (d.useEvaluator (d.template c) s τ.value fresh fun e => run (d.template c) s τ d.bounds e q).1 ::
      nodeSession M c run es s (d.useEvaluator (d.template c) s τ.value fresh fun e => run (d.template c) s τ d.bounds e q).2
  | .variables τ :: es, s, d => (d.designVariables s τ).map .variables :: nodeSession M c run es s d
  | .change x :: es, s, d => nodeSession M c run es (x.run M s) d

end Verif
