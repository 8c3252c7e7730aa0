import Verif.Model.LiveNodes

/-!
# Model: the memory accesses of queries on evaluators

`Model/EvaluatorBuffers` gives what a query makes of the buffers as a whole.  Here a query is the sequence of its uses of the buffers: requests for
weights, which may fill the vector `_tmp`, and reads of entries through the references they return, with the computations in between.  The
functions are those of `Model/EvaluatorBuffers` (DiffManifoldBSplineImpl.hpp, cited as Impl; UnitQuaternionBSplineImpl.hpp, cited as Quat;
EuclideanBSplineImpl.hpp, cited as Eucl) and of `Model/LiveNodes` (OPTBSplineImpl.hpp, cited as Opt; OPTUnitQuaternionBSplineImpl.hpp, cited as
OptQuat), one by one, so that others can run in between.
-/

namespace Verif

variable {K : Type} {α β : Type}

/-- A query in progress: it is done, or it requests weights (`getLocalBi(der)`, `getLocalCumulativeBi(der)`, Impl 873-896) and goes on with the
reference, or it reads entry `i` of a vector with `k` entries and goes on with its value. -/
inductive Script (K α : Type)
  | done (o : Outcome α)
  | request (cum : Bool) (der : ℤ) (next : MSpline.BufRef → Script K α)
  | read (k : ℕ) (r : MSpline.BufRef) (i : ℕ) (next : K → Script K α)

namespace Script

/-- A step that does not touch the buffers. -/
def lift (o : Outcome α) : Script K α := .done o

/-- One query after the other; an exception ends both. -/
def bind : Script K α → (α → Script K β) → Script K β
  | .done (.ok a), f => f a
  | .done .throws, _ => .done .throws
  | .done .ub, _ => .done .ub
  | .request cum der next, f => .request cum der fun r => bind (next r) f
  | .read k r i next, f => .read k r i fun x => bind (next x) f

/-- Apply a function to the result. -/
def map (f : α → β) (m : Script K α) : Script K β := m.bind fun a => lift (.ok (f a))

/-- A request alone. -/
def ask (cum : Bool) (der : ℤ) : Script K MSpline.BufRef := .request cum der fun r => .done (.ok r)

/-- Entry `i` of the vector behind a reference. -/
def readEntry (k : ℕ) (r : MSpline.BufRef) (i : ℕ) : Script K K := .read k r i fun x => .done (.ok x)

/-- `getLocalBi(der)[i]` or `getLocalCumulativeBi(der)[i]`. -/
def coeff (k : ℕ) (cum : Bool) (der : ℤ) (i : ℕ) : Script K K := (ask cum der).bind fun r => readEntry k r i

end Script

namespace MSpline

open Finset Quaternion

variable {K : Type} [Field K] [LinearOrder K] {P V : Type}

/-! ### Euclidean splines -/

/-- `Evaluator::evalD`, Eucl 103-116: the coefficients are read through the reference. -/
def euclideanEvalDS [AddCommGroup P] [Module K P] (c : Template) (s : MSpline K P) (e : Evaluator K) (der : ℤ) : Script K P :=
  if der < 0 then Script.lift .throws
  else if c.maxDer?.any (fun m => decide ((m : ℤ) < der)) then Script.lift .throws
  else if der < s.order then (Script.ask false der).bind fun r => (Script.lift (s.readVerticesBack s.order e.ti)).bind fun vs =>
    (List.range s.order).foldl (fun acc j => acc.bind fun p =>
      (Script.readEntry s.order r (s.order - 1 - j)).bind fun x => Script.lift (.ok (p + x • vs.getD j 0))) (Script.lift (.ok 0))
  else Script.lift (.ok 0)

/-- `Evaluator::evalJacobian`, Eucl 118-134. -/
def euclideanEvalJacobianS (c : Template) (s : MSpline K P) (_e : Evaluator K) (der : ℤ) : Script K (List K) :=
  if der < 0 then Script.lift .throws
  else if c.maxDer?.any (fun m => decide ((m : ℤ) < der)) then Script.lift .throws
  else (Script.ask false der).bind fun r =>
    (List.range s.order).foldl (fun acc i => acc.bind fun l => (Script.readEntry s.order r i).map fun x => l ++ [x]) (Script.lift (.ok []))

/-! ### Generic evaluation -/

/-- The loop of `evalGeneric`, Impl 954-964. -/
def genericLoopS (M : Mfd K P V) (k : ℕ) (r : BufRef) : ℕ → P → P → List P → Script K P
  | _, _, p, [] => Script.lift (.ok p)
  | i, last, p, c :: cs => (Script.readEntry k r i).bind fun d =>
    genericLoopS M k r (i + 1) c (if d = 0 then p else M.exp p (M.scale (M.log last c) d)) cs

/-- `evalGeneric`, Impl 945-966. -/
def evalGenericS (M : Mfd K P V) (s : MSpline K P) (e : Evaluator K) : Script K P :=
  (Script.ask true 0).bind fun r => (Script.lift (s.readVertices s.order e.firstIt)).bind fun vs =>
    match vs with
    | [] => Script.lift .ub
    | v :: cs => genericLoopS M s.order r 1 v v cs

/-! ### Quaternion splines -/

/-- The loop of the constructor of `CalculationCache`, Quat 64-71. -/
noncomputable def qcacheLoopS (lg : ℍ[ℝ] → V3) (s : MSpline ℝ ℍ[ℝ]) (e : Evaluator ℝ) :
    ℕ → ℍ[ℝ] → List ℍ[ℝ] → Script ℝ (List (V3 × ℍ[ℝ]))
  | _, _, [] => Script.lift (.ok [])
  | k, last, v :: vs =>
    let phi := (quatGroup lg).log last v
    (Script.coeff s.order true 0 (k + 1)).bind fun x =>
      (qcacheLoopS lg s e (k + 1) v vs).map fun l => (phi, (quatGroup lg).expAtId (x • phi)) :: l

/-- The constructor of `CalculationCache`, Quat 58-72. -/
noncomputable def qcacheS (lg : ℍ[ℝ] → V3) (s : MSpline ℝ ℍ[ℝ]) (e : Evaluator ℝ) : Script ℝ QCache :=
  (Script.lift (s.readVertices s.order e.firstIt)).bind fun vs =>
    match vs with
    | [] => Script.lift .ub
    | v :: cs => (s.qcacheLoopS lg e 0 v cs).map fun l => ⟨l.map Prod.fst, l.map Prod.snd, vs⟩

/-- `evalRiD`, Quat 81-119. -/
noncomputable def evalRiDS (s : MSpline ℝ ℍ[ℝ]) (_e : Evaluator ℝ) (c : QCache) (der i : ℕ) : Script ℝ ℍ[ℝ] :=
  match der with
  | 0 => match c.ri[i - 1]? with
    | none => Script.lift .ub
    | some r => Script.lift (.ok r)
  | 1 => match c.phi[i - 1]?, c.ri[i - 1]? with
    | some phi, some r => (Script.coeff s.order true 1 i).bind fun w1 => Script.lift (.ok (qplus (quatV (w1 • phi)) r))
    | _, _ => Script.lift .ub
  | 2 => match c.phi[i - 1]?, c.ri[i - 1]? with
    | some phi, some r => (Script.coeff s.order true 1 i).bind fun w1 => (Script.coeff s.order true 2 i).bind fun w2 =>
      let phiQuad := quatV phi
      let tmp2 := (w1 * w1) • phiQuad + (w2 : ℍ[ℝ])
      Script.lift (.ok (qplus phiQuad (qplus r tmp2)))
    | _, _ => Script.lift .ub
  | 3 => match c.phi[i - 1]?, c.ri[i - 1]? with
    | some phi, some r => (Script.coeff s.order true 1 i).bind fun w1 => (Script.coeff s.order true 2 i).bind fun w2 =>
      (Script.coeff s.order true 3 i).bind fun w3 =>
      let phiQuad := quatV phi
      let tmp2 := (w1 * w1) • phiQuad + (w2 : ℍ[ℝ])
      let tmp3 := (2 * w1 * w2) • phiQuad + (w3 : ℍ[ℝ])
      Script.lift (.ok (qplus phiQuad (qplus r (qplus (w1 • phiQuad) tmp2 + tmp3))))
    | _, _ => Script.lift .ub
  | _ => Script.lift .throws

/-- `evalDRecursiveProductRest`, Quat 179-192, with `rem = getNumVectors() − i`. -/
noncomputable def productRestS (s : MSpline ℝ ℍ[ℝ]) (e : Evaluator ℝ) (c : QCache) : ℕ → ℕ → ℕ → Script ℝ ℍ[ℝ]
  | 0, der, factor => (s.evalRiDS e c der (s.order - 1)).map fun q => ((factor / der.factorial : ℕ) : ℝ) • q
  | (rem + 1), der, factor =>
    (s.evalRiDS e c 0 (s.order - 1 - (rem + 1))).bind fun r =>
    (s.productRestS e c rem der factor).bind fun p =>
    (List.range der).foldl (fun acc d => acc.bind fun a =>
      (s.evalRiDS e c (d + 1) (s.order - 1 - (rem + 1))).bind fun r' =>
      (s.productRestS e c rem (der - (d + 1)) (factor / (d + 1).factorial)).bind fun p' => Script.lift (.ok (a + qplus r' p')))
      (Script.lift (.ok (qplus r p)))

/-- `evalDRecursive`, Quat 324-331. -/
noncomputable def evalDRecursiveS (lg : ℍ[ℝ] → V3) (s : MSpline ℝ ℍ[ℝ]) (e : Evaluator ℝ) (der : ℤ) : Script ℝ ℍ[ℝ] :=
  (s.qcacheS lg e).bind fun c =>
    if s.order - 1 = 0 then Script.lift .ub
    else if der < 0 then Script.lift .throws
    else (s.productRestS e c (s.order - 1 - 1) der.toNat der.toNat.factorial).bind fun p =>
      match c.verts with
      | [] => Script.lift .ub
      | v :: _ => Script.lift (.ok (qplus v p))

/-- The loop of `evalD1Special`, Quat 171-175. -/
noncomputable def d1LoopS (s : MSpline ℝ ℍ[ℝ]) (e : Evaluator ℝ) (c : QCache) :
    ℕ → ℕ → ℍ[ℝ] → ℍ[ℝ] → Script ℝ (ℍ[ℝ] × ℍ[ℝ])
  | 0, _, A, sum => Script.lift (.ok (A, sum))
  | (n + 1), i, A, sum =>
    (s.evalRiDS e c 1 i).bind fun r1 => (s.evalRiDS e c 0 i).bind fun r0 =>
      s.d1LoopS e c n (i + 1) (qplus A r0) (sum + qplus (qplus A r1) (quatInv (qplus A r0)))

/-- `evalD1Special`, Quat 145-177. -/
noncomputable def evalD1SpecialS (lg : ℍ[ℝ] → V3) (s : MSpline ℝ ℍ[ℝ]) (e : Evaluator ℝ) : Script ℝ ℍ[ℝ] :=
  (s.qcacheS lg e).bind fun c => (s.d1LoopS e c (s.order - 1) 1 1 0).bind fun r =>
    match c.verts with
    | [] => Script.lift .ub
    | v :: _ => Script.lift (.ok (qplus v (qplus r.2 r.1)))

/-- `evalD`, Quat 127-143. -/
noncomputable def quatEvalDS (lg : ℍ[ℝ] → V3) (s : MSpline ℝ ℍ[ℝ]) (e : Evaluator ℝ) (der : ℤ) : Script ℝ ℍ[ℝ] :=
  if der = 0 then s.evalGenericS (quatGroup lg).toMfd e
  else if der = 1 then s.evalD1SpecialS lg e else s.evalDRecursiveS lg e der

/-- `evalAngularDerivative<IDerivativeOrder>`, Quat 299-322. -/
noncomputable def evalAngularDerivativeS (lg : ℍ[ℝ] → V3) (s : MSpline ℝ ℍ[ℝ]) (e : Evaluator ℝ) (der : ℕ) : Script ℝ V3 :=
  (s.quatEvalDS lg e der).bind fun d => (s.quatEvalDS lg e 0).bind fun v =>
    if der = 3 then (s.quatEvalDS lg e 1).bind fun d1 => (s.quatEvalDS lg e 2).bind fun d2 =>
      Script.lift (.ok fun i => 2 * (angularTmp v d i + qeta d1 * qeps d2 i - qeta d2 * qeps d1 i - cross3 (qeps d1) (qeps d2) i))
    else Script.lift (.ok fun i => 2 * angularTmp v d i)

/-- `getRiDJacobian(cache, derivativeOrder, i)`, Quat 236-276.  The value of `getRiDJacobian(cache, 0, i)` is needed in all cases. -/
noncomputable def riDJacobianS (S L : V3 → M33) (s : MSpline ℝ ℍ[ℝ]) (_e : Evaluator ℝ) (c : QCache) (der i : ℕ) :
    Script ℝ DMat :=
  (Script.lift (c.getRi i)).bind fun r => (Script.lift (c.getPhi i)).bind fun phi => (Script.lift (phiVectorJacobian L c i)).bind fun pj =>
  (Script.coeff s.order true 0 i).bind fun w => (Script.coeff s.order true 0 i).bind fun w' =>
  let j0 : DMat := mapCols (quatOPlus r) (vMat (S (w • phi) * (w' • pj)))
  let vPhiJac := vMat pj
  let phiQuad := quatV phi
  let phiRiJac : DMat := mapCols (quatOPlus r) vPhiJac + mapCols (quatPlus phiQuad) j0
  match der with
  | 0 => Script.lift (.ok j0)
  | 1 => (Script.coeff s.order true 1 i).bind fun w1 => Script.lift (.ok (w1 • phiRiJac))
  | 2 => (Script.coeff s.order true 1 i).bind fun w1 => (Script.coeff s.order true 2 i).bind fun w2 =>
    let tmp := (w1 * w1) • phiQuad + (w2 : ℍ[ℝ])
    Script.lift (.ok (mapCols (quatPlus tmp) phiRiJac + mapCols (quatOPlus (qplus phiQuad r)) ((w1 * w1) • vPhiJac)))
  | _ => Script.lift .throws

/-- `getRiDJacobian(cache, derivativeOrder, i, j)`, Quat 228-234. -/
noncomputable def riDJacobianOfS (S L : V3 → M33) (s : MSpline ℝ ℍ[ℝ]) (e : Evaluator ℝ) (c : QCache) (der i j : ℕ) :
    Script ℝ DMat :=
  if isJacobianZero i j then Script.lift (.ok 0)
  else (s.riDJacobianS S L e c der i).map fun M => jacobianSignum i j • M

/-- `evalJacobianDRecursiveProductRest`, Quat 278-297. -/
noncomputable def jacobianRestS (S L : V3 → M33) (s : MSpline ℝ ℍ[ℝ]) (e : Evaluator ℝ) (c : QCache) (j : ℕ) :
    ℕ → ℕ → ℕ → Script ℝ DMat
  | 0, der, factor =>
    if ¬ isJacobianZero (s.order - 1) j then
      (s.riDJacobianOfS S L e c der (s.order - 1) j).map fun M => ((factor / der.factorial : ℕ) : ℝ) • M
    else Script.lift (.ok 0)
  | (rem + 1), der, factor =>
    let i := s.order - 1 - (rem + 1)
    (s.evalRiDS e c 0 i).bind fun r0 =>
    (s.jacobianRestS S L e c j rem der factor).bind fun p0 =>
    (if ¬ isJacobianZero i j then
      (s.productRestS e c rem der factor).bind fun q => (s.riDJacobianOfS S L e c 0 i j).bind fun M =>
        Script.lift (.ok (mapCols (quatPlus r0) p0 + mapCols (quatOPlus q) M))
    else Script.lift (.ok (mapCols (quatPlus r0) p0))).bind fun start =>
    (List.range der).foldl (fun acc d => acc.bind fun a =>
      (if ¬ isJacobianZero i j then
        (s.productRestS e c rem (der - (d + 1)) (factor / (d + 1).factorial)).bind fun q =>
        (s.riDJacobianOfS S L e c (d + 1) i j).bind fun M => Script.lift (.ok (a + mapCols (quatOPlus q) M))
      else Script.lift (.ok a)).bind fun a' =>
      (s.evalRiDS e c (d + 1) i).bind fun r =>
      (s.jacobianRestS S L e c j rem (der - (d + 1)) (factor / (d + 1).factorial)).bind fun p =>
        Script.lift (.ok (a' + mapCols (quatPlus r) p))) (Script.lift (.ok start))

/-- The loop of `evalJacobianDRecursive`, Quat 375-383. -/
noncomputable def jacobianDLoopS (S L : V3 → M33) (s : MSpline ℝ ℍ[ℝ]) (e : Evaluator ℝ) (c : QCache) (der : ℕ) :
    ℕ → ℕ → Script ℝ (List DMat)
  | 0, _ => Script.lift (.ok [])
  | n + 1, j =>
    (Script.lift (c.getVertex 0)).bind fun v =>
    (if j = 0 then (s.productRestS e c (s.order - 1 - 1) der der.factorial).map fun q => mapCols (quatOPlus (qplus v q)) (vMat 1)
      else Script.lift (.ok 0)).bind fun b =>
    (s.jacobianRestS S L e c j (s.order - 1 - 1) der der.factorial).bind fun M =>
    (s.jacobianDLoopS S L e c der n (j + 1)).map fun bs => (b + mapCols (quatPlus v) M) :: bs

/-- `evalJacobianDRecursive`, Quat 361-384. -/
noncomputable def evalJacobianDRecursiveS (lg : ℍ[ℝ] → V3) (S L : V3 → M33) (s : MSpline ℝ ℍ[ℝ]) (e : Evaluator ℝ)
    (der : ℤ) : Script ℝ (List DMat) :=
  if der < 0 then Script.lift .throws
  else (s.qcacheS lg e).bind fun c =>
    if s.order - 1 = 0 then Script.lift .ub else s.jacobianDLoopS S L e c der.toNat s.order 0

/-- The loop of `evalJacobian`, Quat 399-422. -/
noncomputable def jacobianLoopS (S L : V3 → M33) (s : MSpline ℝ ℍ[ℝ]) (e : Evaluator ℝ) (c : QCache) :
    ℕ → ℕ → (ℍ[ℝ] → ℍ[ℝ]) × DMat → Script ℝ (List DMat)
  | 0, _, _ => Script.lift (.ok [])
  | n + 1, j, prev =>
    (Script.lift (c.getVertex 0)).bind fun v =>
    (Script.lift (if j = 0 then (riProduct c 1 s.order).map fun q => mapCols (quatOPlus (qplus v q)) (vMat 1) else .ok 0)).bind fun b =>
    let b' := if j ≠ 0 then b + mapCols prev.1 prev.2 else b
    if j ≠ s.order - 1 then
      (s.riDJacobianS S L e c 0 (j + 1)).bind fun M =>
      (Script.lift (if j = 0 then .ok v else (riProduct c 1 (j + 1)).map fun q => qplus v q)).bind fun a =>
      (Script.lift (if j + 2 ≠ s.order then (riProduct c (j + 2) s.order).map fun q => fun p => quatPlus a (quatOPlus q p)
        else .ok (quatPlus a))).bind fun A =>
      (s.jacobianLoopS S L e c n (j + 1) (A, M)).map fun bs => (b' - mapCols A M) :: bs
    else (s.jacobianLoopS S L e c n (j + 1) prev).map fun bs => b' :: bs

/-- `evalJacobian(derivativeOrder, jacobian)`, Quat 345-359, with `evalJacobian(jacobian)`, 386-423. -/
noncomputable def quatEvalJacobianS (lg : ℍ[ℝ] → V3) (S L : V3 → M33) (s : MSpline ℝ ℍ[ℝ]) (e : Evaluator ℝ) (der : ℤ) :
    Script ℝ (List DMat) :=
  if der = 0 then (s.qcacheS lg e).bind fun c => s.jacobianLoopS S L e c s.order 0 (id, 0)
  else s.evalJacobianDRecursiveS lg S L e der

/-- `evalAngularDerivativeJacobian<IDerivativeOrder>`, Quat 425-453. -/
noncomputable def evalAngularJacobianS (lg : ℍ[ℝ] → V3) (S L : V3 → M33) (s : MSpline ℝ ℍ[ℝ]) (e : Evaluator ℝ)
    (der : ℕ) : Script ℝ (List M33) :=
  (s.quatEvalDS lg e der).bind fun d => (s.quatEvalDS lg e 0).bind fun v =>
  (s.quatEvalJacobianS lg S L e der).bind fun dq => (s.quatEvalJacobianS lg S L e 0).bind fun q =>
    Script.lift (.ok (List.zipWith (angularBlock v d) q dq))

end MSpline

open MSpline

variable [Field K] [LinearOrder K] {P V : Type}

/-- `evaluateJacobiansImplementation` after `getEvaluator`, Opt 158-173, OptQuat 25-36, 76-86. -/
def jacobiansS {Q R : Type} [Zero R] [SMul K R] (s : MSpline K P) (τ : TimeNode K) (bounds : Option (K × K))
    (jac : Evaluator K → Script K (List (List Q))) (zeros : Option ℕ) (timeCol : Evaluator K → Script K Q) (chain : Q → R) (e : Evaluator K) :
    Script K (List (ExprVar K × List R)) :=
  (jac e).bind fun J => (Script.lift (windowKeys s e)).bind fun ks => (Script.lift (addBlocks chain ks J)).bind fun bs =>
    match bounds with
    | none => Script.lift (.ok bs)
    | some lu => (Script.lift (zeroBlocks s ⟨lu.1, lu.2, none⟩ zeros)).bind fun zs => (timeCol e).bind fun v =>
      Script.lift (.ok (bs ++ zs ++ τ.rows.map fun r : ℕ × List K => (ExprVar.time r.1, r.2.map fun a => a • chain v)))

/-- The calls on the nodes of a Euclidean spline, Opt 154-178. -/
def EuclideanCall.script {D : ℕ} {R : Type} [Zero R] [SMul K R] (c : Template) (s : MSpline K (Fin D → K)) (τ : TimeNode K)
    (bounds : Option (K × K)) (e : Evaluator K) : EuclideanCall K D R → Script K (NodeAnswer K (Fin D → K) R)
  | .value der => (s.euclideanEvalDS c e der).map .value
  | .jacobians der chain => (jacobiansS s τ bounds (fun e => (s.euclideanEvalJacobianS c e der).map fun J =>
      J.map fun w => List.ofFn fun k : Fin D => fun r : Fin D => if r = k then w else 0) (some D)
    (fun e => s.euclideanEvalDS c e (der + 1)) chain e).map .blocks

open Quaternion

/-- The calls on the nodes of a quaternion spline, Opt 154-178, OptQuat 21-42, 71-92. -/
noncomputable def QuaternionCall.script {R : Type} [Zero R] [SMul ℝ R] (lg : ℍ[ℝ] → V3) (S L : V3 → M33) (_c : Template) (s : MSpline ℝ ℍ[ℝ])
    (τ : TimeNode ℝ) (bounds : Option (ℝ × ℝ)) (e : Evaluator ℝ) : QuaternionCall R → Script ℝ (NodeAnswer ℝ (ℍ[ℝ] ⊕ V3) R)
  | .value der => (s.quatEvalDS lg e der).map fun q => .value (.inl q)
  | .jacobians der chain => (jacobiansS s τ bounds (fun e => (s.quatEvalJacobianS lg S L e der).map fun J => J.map fun M => List.ofFn M)
      (some 3) (fun e => s.quatEvalDS lg e (der + 1)) chain e).map .blocks
  | .angular der => (s.evalAngularDerivativeS lg e der).map fun v => .value (.inr v)
  | .angularJacobians der chain => (jacobiansS s τ bounds (fun e => (s.evalAngularJacobianS lg S L e der).map fun J =>
      J.map fun A => List.ofFn fun k => fun r => A r k) none (fun e => s.evalAngularDerivativeS lg e (der + 1)) chain e).map .blocks

end Verif
