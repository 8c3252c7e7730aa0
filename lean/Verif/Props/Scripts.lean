import Verif.Model.Scripts

/-!
# The sequences of accesses are those of the calls on buffers
-/

set_option linter.unusedSectionVars false

namespace Verif

open MSpline BufM

variable {K : Type} [Field K] [LinearOrder K] {P V : Type} {α β γ : Type}

/-- Make all accesses of a query at once, on the buffers of `Model/EvaluatorBuffers`. -/
def Script.toBufM (c : Template) (s : MSpline K P) (e : Evaluator K) : Script K α → BufM K α
  | .done o => BufM.lift o
  | .request cum der next => (s.request c e cum der).bind fun r => toBufM c s e (next r)
  | .read k r i next => (MSpline.readEntry k r i).bind fun x => toBufM c s e (next x)

theorem BufM.bind_assoc' (m : BufM K α) (f : α → BufM K β) (g : β → BufM K γ) : (m.bind f).bind g = m.bind fun a => (f a).bind g := by
  funext b
  unfold BufM.bind
  rcases m b with ⟨_ | _ | _, b'⟩ <;> rfl

namespace Script

variable (c : Template) (s : MSpline K P) (e : Evaluator K)

theorem toBufM_lift (o : Outcome α) : (lift o : Script K α).toBufM c s e = BufM.lift o := rfl

theorem toBufM_bind (m : Script K α) (f : α → Script K β) : (m.bind f).toBufM c s e = (m.toBufM c s e).bind fun a => (f a).toBufM c s e := by
  induction m with
  | done o => cases o <;> rfl
  | request cum der next ih =>
    show (s.request c e cum der).bind (fun r => ((next r).bind f).toBufM c s e) = ((s.request c e cum der).bind fun r => (next r).toBufM c s e).bind _
    rw [BufM.bind_assoc']
    exact congrArg _ (funext ih)
  | read k r i next ih =>
    show (MSpline.readEntry k r i).bind (fun x => ((next x).bind f).toBufM c s e) = ((MSpline.readEntry k r i).bind fun x => (next x).toBufM c s e).bind _
    rw [BufM.bind_assoc']
    exact congrArg _ (funext ih)

theorem toBufM_map (f : α → β) (m : Script K α) : (m.map f).toBufM c s e = (m.toBufM c s e).map f := toBufM_bind c s e m _

theorem bind_ok (m : BufM K α) : (m.bind fun a => BufM.lift (.ok a)) = m := by
  funext b
  unfold BufM.bind
  rcases m b with ⟨_ | _ | _, b'⟩ <;> rfl

theorem toBufM_ask (cum : Bool) (der : ℤ) : (ask cum der : Script K BufRef).toBufM c s e = s.request c e cum der := bind_ok _

theorem toBufM_readEntry (k : ℕ) (r : BufRef) (i : ℕ) : (readEntry k r i : Script K K).toBufM c s e = MSpline.readEntry k r i := bind_ok _

theorem toBufM_coeff (cum : Bool) (der : ℤ) (i : ℕ) : (coeff s.order cum der i : Script K K).toBufM c s e = s.coeff c e cum der i := by
  unfold coeff MSpline.coeff
  rw [toBufM_bind, toBufM_ask]
  simp only [toBufM_readEntry]

theorem toBufM_ite (p : Prop) [Decidable p] (x y : Script K α) :
    (if p then x else y).toBufM c s e = if p then x.toBufM c s e else y.toBufM c s e := by split <;> rfl

theorem toBufM_foldl (f : Script K α → ι → Script K α) (g : BufM K α → ι → BufM K α)
    (h : ∀ x i, (f x i).toBufM c s e = g (x.toBufM c s e) i) : ∀ (l : List ι) (x : Script K α),
    (l.foldl f x).toBufM c s e = l.foldl g (x.toBufM c s e)
  | [], _ => rfl
  | i :: l, x => by rw [List.foldl_cons, List.foldl_cons, toBufM_foldl f g h l, h]

end Script

open Script

namespace MSpline

variable (c : Template) (e : Evaluator K)

theorem euclideanEvalDS_toBufM [AddCommGroup P] [Module K P] (s : MSpline K P) (der : ℤ) :
    (s.euclideanEvalDS c e der).toBufM c s e = s.euclideanEvalDB c e der := by
  unfold euclideanEvalDS euclideanEvalDB
  simp only [toBufM_ite, toBufM_lift, toBufM_bind, toBufM_ask]
  split_ifs <;> try rfl
  congr 1
  funext r
  congr 1
  funext vs
  exact toBufM_foldl c s e _ _ (fun x i => by simp only [toBufM_bind, toBufM_lift, toBufM_readEntry]) _ _

theorem euclideanEvalJacobianS_toBufM (s : MSpline K P) (der : ℤ) :
    (s.euclideanEvalJacobianS c e der).toBufM c s e = s.euclideanEvalJacobianB c e der := by
  unfold euclideanEvalJacobianS euclideanEvalJacobianB
  simp only [toBufM_ite, toBufM_lift, toBufM_bind, toBufM_ask]
  congr 3
  funext r
  exact toBufM_foldl c s e _ _ (fun x i => by simp only [toBufM_bind, toBufM_map, toBufM_readEntry]) _ _

theorem genericLoopS_toBufM (M : Mfd K P V) (s : MSpline K P) (k : ℕ) (r : BufRef) : ∀ (cs : List P) (i : ℕ) (last p : P),
    (genericLoopS M k r i last p cs).toBufM c s e = genericLoopB M k r i last p cs
  | [], _, _, _ => rfl
  | v :: cs, i, last, p => by
    unfold genericLoopS genericLoopB
    simp only [toBufM_bind, toBufM_readEntry, genericLoopS_toBufM M s k r cs]

theorem evalGenericS_toBufM (M : Mfd K P V) (s : MSpline K P) : (s.evalGenericS M e).toBufM c s e = s.evalGenericB c M e := by
  unfold evalGenericS evalGenericB
  simp only [toBufM_lift, toBufM_bind, toBufM_ask]
  congr 1
  funext r
  congr 1
  funext vs
  cases vs with
  | nil => rfl
  | cons v cs => exact genericLoopS_toBufM c e M s _ r cs _ _ _

open Quaternion

variable (e : Evaluator ℝ) (s : MSpline ℝ ℍ[ℝ]) (lg : ℍ[ℝ] → V3) (S L : V3 → M33) (qc : QCache)

theorem qcacheLoopS_toBufM : ∀ (vs : List ℍ[ℝ]) (k : ℕ) (last : ℍ[ℝ]), (s.qcacheLoopS lg e k last vs).toBufM c s e = s.qcacheLoopB c lg e k last vs
  | [], _, _ => rfl
  | v :: vs, k, last => by
    unfold qcacheLoopS qcacheLoopB
    simp only [toBufM_bind, toBufM_map, toBufM_coeff, qcacheLoopS_toBufM vs]

theorem qcacheS_toBufM : (s.qcacheS lg e).toBufM c s e = s.qcacheB c lg e := by
  unfold qcacheS qcacheB
  simp only [toBufM_lift, toBufM_bind]
  congr 1
  funext vs
  cases vs with
  | nil => rfl
  | cons v cs => simp only [toBufM_map, qcacheLoopS_toBufM]

theorem evalRiDS_toBufM (der i : ℕ) : (s.evalRiDS e qc der i).toBufM c s e = s.evalRiDB c e qc der i := by
  unfold evalRiDS evalRiDB
  rcases der with _ | _ | _ | _ | der <;> rcases qc.phi[i - 1]? with _ | phi <;> rcases qc.ri[i - 1]? with _ | r <;> try rfl
  all_goals simp only [toBufM_bind, toBufM_lift, toBufM_coeff, Nat.zero_add, Nat.reduceAdd]

theorem productRestS_toBufM : ∀ (rem der factor : ℕ), (s.productRestS e qc rem der factor).toBufM c s e = s.productRestB c e qc rem der factor
  | 0, der, factor => by
    unfold productRestS productRestB
    simp only [toBufM_map, evalRiDS_toBufM]
  | rem + 1, der, factor => by
    unfold productRestS productRestB
    simp only [toBufM_bind, evalRiDS_toBufM, productRestS_toBufM rem]
    congr 1
    funext r
    congr 1
    funext p
    exact toBufM_foldl c s e _ _ (fun x i => by simp only [toBufM_bind, toBufM_lift, evalRiDS_toBufM, productRestS_toBufM rem]) _ _

theorem evalDRecursiveS_toBufM (der : ℤ) : (s.evalDRecursiveS lg e der).toBufM c s e = s.evalDRecursiveB c lg e der := by
  unfold evalDRecursiveS evalDRecursiveB
  simp only [toBufM_bind, toBufM_ite, toBufM_lift, qcacheS_toBufM, productRestS_toBufM]
  congr 1
  funext qc
  congr 3
  funext p
  cases qc.verts <;> rfl

theorem d1LoopS_toBufM : ∀ (n i : ℕ) (A sum : ℍ[ℝ]), (s.d1LoopS e qc n i A sum).toBufM c s e = s.d1LoopB c e qc n i A sum
  | 0, _, _, _ => rfl
  | n + 1, i, A, sum => by
    unfold d1LoopS d1LoopB
    simp only [toBufM_bind, evalRiDS_toBufM, d1LoopS_toBufM n]

theorem evalD1SpecialS_toBufM : (s.evalD1SpecialS lg e).toBufM c s e = s.evalD1SpecialB c lg e := by
  unfold evalD1SpecialS evalD1SpecialB
  simp only [toBufM_bind, qcacheS_toBufM, d1LoopS_toBufM]
  congr 1
  funext qc
  congr 1
  funext p
  cases qc.verts <;> rfl

theorem quatEvalDS_toBufM (der : ℤ) : (s.quatEvalDS lg e der).toBufM c s e = s.quatEvalDB c lg e der := by
  unfold quatEvalDS quatEvalDB
  simp only [toBufM_ite, evalGenericS_toBufM, evalD1SpecialS_toBufM, evalDRecursiveS_toBufM]

theorem evalAngularDerivativeS_toBufM (der : ℕ) : (s.evalAngularDerivativeS lg e der).toBufM c s e = s.evalAngularDerivativeB c lg e der := by
  unfold evalAngularDerivativeS evalAngularDerivativeB
  simp only [toBufM_bind, toBufM_ite, toBufM_lift, quatEvalDS_toBufM]

theorem riDJacobianS_toBufM (der i : ℕ) : (s.riDJacobianS S L e qc der i).toBufM c s e = s.riDJacobianB c S L e qc der i := by
  unfold riDJacobianS riDJacobianB
  simp only [toBufM_bind, toBufM_lift, toBufM_coeff]
  congr 1; funext r; congr 1; funext phi; congr 1; funext pj; congr 1; funext w; congr 1; funext w'
  split <;> simp only [toBufM_bind, toBufM_lift, toBufM_coeff]

theorem riDJacobianOfS_toBufM (der i j : ℕ) : (s.riDJacobianOfS S L e qc der i j).toBufM c s e = s.riDJacobianOfB c S L e qc der i j := by
  unfold riDJacobianOfS riDJacobianOfB
  simp only [toBufM_ite, toBufM_lift, toBufM_map, riDJacobianS_toBufM]

theorem jacobianRestS_toBufM (j : ℕ) : ∀ (rem der factor : ℕ),
    (s.jacobianRestS S L e qc j rem der factor).toBufM c s e = s.jacobianRestB c S L e qc j rem der factor
  | 0, der, factor => by
    unfold jacobianRestS jacobianRestB
    simp only [toBufM_ite, toBufM_lift, toBufM_map, riDJacobianOfS_toBufM]
  | rem + 1, der, factor => by
    unfold jacobianRestS jacobianRestB
    simp only [toBufM_bind, toBufM_ite, toBufM_lift, evalRiDS_toBufM, productRestS_toBufM, riDJacobianOfS_toBufM, jacobianRestS_toBufM j rem]
    congr 1; funext r0; congr 1; funext p0; congr 1; funext start
    exact toBufM_foldl c s e _ _ (fun x i => by
      simp only [toBufM_bind, toBufM_ite, toBufM_lift, evalRiDS_toBufM, productRestS_toBufM, riDJacobianOfS_toBufM, jacobianRestS_toBufM j rem]) _ _

theorem jacobianDLoopS_toBufM (der : ℕ) : ∀ (n j : ℕ), (s.jacobianDLoopS S L e qc der n j).toBufM c s e = s.jacobianDLoopB c S L e qc der n j
  | 0, _ => rfl
  | n + 1, j => by
    unfold jacobianDLoopS jacobianDLoopB
    simp only [toBufM_bind, toBufM_ite, toBufM_lift, toBufM_map, productRestS_toBufM, jacobianRestS_toBufM, jacobianDLoopS_toBufM der n]

theorem evalJacobianDRecursiveS_toBufM (der : ℤ) :
    (s.evalJacobianDRecursiveS lg S L e der).toBufM c s e = s.evalJacobianDRecursiveB c lg S L e der := by
  unfold evalJacobianDRecursiveS evalJacobianDRecursiveB
  simp only [toBufM_bind, toBufM_ite, toBufM_lift, qcacheS_toBufM, jacobianDLoopS_toBufM]

theorem jacobianLoopS_toBufM : ∀ (n j : ℕ) (prev : (ℍ[ℝ] → ℍ[ℝ]) × DMat),
    (s.jacobianLoopS S L e qc n j prev).toBufM c s e = s.jacobianLoopB c S L e qc n j prev
  | 0, _, _ => rfl
  | n + 1, j, prev => by
    unfold jacobianLoopS jacobianLoopB
    simp only [toBufM_bind, toBufM_ite, toBufM_lift, toBufM_map, riDJacobianS_toBufM, jacobianLoopS_toBufM n]

theorem quatEvalJacobianS_toBufM (der : ℤ) : (s.quatEvalJacobianS lg S L e der).toBufM c s e = s.quatEvalJacobianB c lg S L e der := by
  unfold quatEvalJacobianS quatEvalJacobianB
  simp only [toBufM_bind, toBufM_ite, qcacheS_toBufM, jacobianLoopS_toBufM, evalJacobianDRecursiveS_toBufM]

theorem evalAngularJacobianS_toBufM (der : ℕ) : (s.evalAngularJacobianS lg S L e der).toBufM c s e = s.evalAngularJacobianB c lg S L e der := by
  unfold evalAngularJacobianS evalAngularJacobianB
  simp only [toBufM_bind, toBufM_lift, quatEvalDS_toBufM, quatEvalJacobianS_toBufM]

end MSpline

theorem jacobiansS_toBufM {Q R : Type} [Zero R] [SMul K R] (c : Template) (s : MSpline K P) (e : Evaluator K) (τ : TimeNode K) (bounds : Option (K × K))
    (jac : Evaluator K → Script K (List (List Q))) (jac' : Evaluator K → BufM K (List (List Q))) (hj : (jac e).toBufM c s e = jac' e)
    (zeros : Option ℕ) (timeCol : Evaluator K → Script K Q) (timeCol' : Evaluator K → BufM K Q) (ht : (timeCol e).toBufM c s e = timeCol' e)
    (chain : Q → R) :
    (jacobiansS s τ bounds jac zeros timeCol chain e).toBufM c s e = jacobiansB s τ bounds jac' zeros timeCol' chain e := by
  unfold jacobiansS jacobiansB
  cases bounds <;> simp only [toBufM_bind, toBufM_lift, hj, ht]

/-- The accesses of a call on a node of a Euclidean spline, all at once, are the call. -/
theorem EuclideanCall.script_toBufM {D : ℕ} {R : Type} [Zero R] [SMul K R] (c : Template) (s : MSpline K (Fin D → K)) (τ : TimeNode K)
    (bounds : Option (K × K)) (e : Evaluator K) (q : EuclideanCall K D R) : (q.script c s τ bounds e).toBufM c s e = q.run c s τ bounds e := by
  cases q with
  | value der =>
    show (Script.map _ _).toBufM c s e = BufM.map _ _
    rw [toBufM_map, euclideanEvalDS_toBufM]
  | jacobians der chain =>
    show (Script.map _ _).toBufM c s e = BufM.map _ _
    rw [toBufM_map]
    congr 1
    exact jacobiansS_toBufM c s e τ bounds _ _ (by rw [toBufM_map, euclideanEvalJacobianS_toBufM]) _ _ _ (euclideanEvalDS_toBufM c e s _) _

open Quaternion

/-- The accesses of a call on a node of a quaternion spline, all at once, are the call. -/
theorem QuaternionCall.script_toBufM {R : Type} [Zero R] [SMul ℝ R] (lg : ℍ[ℝ] → V3) (S L : V3 → M33) (c : Template) (s : MSpline ℝ ℍ[ℝ])
    (τ : TimeNode ℝ) (bounds : Option (ℝ × ℝ)) (e : Evaluator ℝ) (q : QuaternionCall R) :
    (q.script lg S L c s τ bounds e).toBufM c s e = q.run lg S L c s τ bounds e := by
  cases q with
  | value der =>
    show (Script.map _ _).toBufM c s e = BufM.map _ _
    rw [toBufM_map, quatEvalDS_toBufM]
  | jacobians der chain =>
    show (Script.map _ _).toBufM c s e = BufM.map _ _
    rw [toBufM_map]
    congr 1
    exact jacobiansS_toBufM c s e τ bounds _ _ (by rw [toBufM_map, quatEvalJacobianS_toBufM]) _ _ _ (quatEvalDS_toBufM c e s lg _) _
  | angular der =>
    show (Script.map _ _).toBufM c s e = BufM.map _ _
    rw [toBufM_map, evalAngularDerivativeS_toBufM]
  | angularJacobians der chain =>
    show (Script.map _ _).toBufM c s e = BufM.map _ _
    rw [toBufM_map]
    congr 1
    exact jacobiansS_toBufM c s e τ bounds _ _ (by rw [toBufM_map, evalAngularJacobianS_toBufM]) _ _ _ (evalAngularDerivativeS_toBufM c e s lg _) _

end Verif
