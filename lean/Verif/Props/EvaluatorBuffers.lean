import Verif.Lemmas.EvaluatorBuffers
import Verif.Props.LieGroup
import Verif.Props.Euclidean

/-!
# C71: the evaluator's buffers do not show
-/

set_option linter.unusedSectionVars false

namespace Verif.MSpline

open Finset Polynomial Quaternion BufM

variable {K : Type} [Field K] [LinearOrder K] {P V : Type}

section General

variable {c : Template} {s : MSpline K P} {e : Evaluator K} {g : Seg K P} {B : Mat K}

/-! ### Euclidean splines -/

theorem readFold {α : Type} {k : ℕ} {r : BufRef} {b : Buffers K} {v w : ℕ → K} (h : b.deref r = .ok v) (hv : ∀ j, j < k → v j = w j)
    (ι : ℕ → ℕ) (f : α → ℕ → K → α) : ∀ (l : List ℕ) (m : BufM K α) (a : α), m b = (.ok a, b) → (∀ j ∈ l, ι j < k) →
    l.foldl (fun acc j => acc.bind fun p => (readEntry k r (ι j)).bind fun x => lift (.ok (f p j x))) m b
      = (.ok (l.foldl (fun p j => f p j (w (ι j))) a), b)
  | [], m, a, hm, _ => hm
  | j :: l, m, a, hm, hl => by
    rw [List.foldl_cons, List.foldl_cons]
    refine readFold h hv ι f l _ _ ?_ fun i hi => hl i (by simp [hi])
    unfold BufM.bind
    rw [hm]
    simp only
    rw [readEntry_eq h hv (hl j (by simp))]
    rfl

theorem euclideanEvalDB_refines [AddCommGroup P] [Module K P] (R : Ready c s e g B) (der : ℤ) :
    Refines (BufInv c s e) (s.euclideanEvalDB c e der)
      (if der < 0 then .throws
        else if c.maxDer?.any (fun m => decide ((m : ℤ) < der)) then .throws
        else if der < s.order then (s.localBi e der.toNat).bind fun w => s.linCombLast e.ti w 0
        else .ok 0) := by
  unfold euclideanEvalDB
  split_ifs with h1 h2 h3
  · exact Refines.lift _
  · exact Refines.lift _
  · obtain ⟨d, rfl⟩ := Int.eq_ofNat_of_zero_le (by omega : 0 ≤ der)
    refine request_bind R false d _ (fun w => s.linCombLast e.ti w 0) fun r v w b h hv => ?_
    unfold linCombLast
    rcases hr : s.readVerticesBack s.order e.ti with vs | _ | _
    · exact readFold h hv (fun j => s.order - 1 - j) (fun p j x => p + x • vs.getD j 0) _ _ _ rfl fun j hj => by
        have := List.mem_range.1 hj
        omega
    · rfl
    · rfl
  · exact Refines.lift _

theorem euclideanEvalJacobianB_refines (R : Ready c s e g B) (der : ℤ) :
    Refines (BufInv c s e) (s.euclideanEvalJacobianB c e der)
      (if der < 0 then .throws
        else if c.maxDer?.any (fun m => decide ((m : ℤ) < der)) then .throws
        else (s.localBi e der.toNat).map fun w => (List.range s.order).map w) := by
  unfold euclideanEvalJacobianB
  split_ifs with h1 h2
  · exact Refines.lift _
  · exact Refines.lift _
  · obtain ⟨d, rfl⟩ := Int.eq_ofNat_of_zero_le (by omega : 0 ≤ der)
    have := request_bind R false d (fun r => (List.range s.order).foldl (fun acc i => acc.bind fun l =>
      (readEntry s.order r i).map fun x => l ++ [x]) (lift (.ok []))) (fun w => .ok ((List.range s.order).map w)) fun r v w b h hv => by
        refine (readFold h hv (fun j => j) (fun l _ x => l ++ [x]) _ _ _ rfl fun j hj => List.mem_range.1 hj).trans ?_
        refine Prod.ext (congrArg Outcome.ok ?_) rfl
        generalize List.range s.order = l
        have key : ∀ (l : List ℕ) (a : List K), l.foldl (fun p j => p ++ [w j]) a = a ++ l.map w := by
          intro l
          induction l with
          | nil => simp
          | cons j l ih => intro a; rw [List.foldl_cons, ih, List.map_cons, List.append_assoc]; rfl
        exact key l []
    have e1 : (s.weights e false d).bind (fun w => Outcome.ok ((List.range s.order).map w))
        = (s.localBi e d).map fun w => (List.range s.order).map w := by
      show (s.localBi e d).bind _ = (s.localBi e d).map _
      cases s.localBi e d <;> rfl
    rw [e1] at this
    exact this

/-! ### Generic evaluation -/

theorem genericLoopB_eq (M : Mfd K P V) {k : ℕ} {r : BufRef} {b : Buffers K} {v w : ℕ → K} (h : b.deref r = .ok v)
    (hv : ∀ j, j < k → v j = w j) : ∀ (cs : List P) (i : ℕ) (a p : P), i + cs.length ≤ k →
    genericLoopB M k r i a p cs b = (.ok (genericLoop M w i a p cs), b)
  | [], i, a, p, _ => rfl
  | c :: cs, i, a, p, hi => by
    rw [List.length_cons] at hi
    unfold genericLoopB genericLoop BufM.bind
    rw [readEntry_eq h hv (by omega)]
    exact genericLoopB_eq M h hv cs (i + 1) c _ (by omega)

/-- Generic evaluation on an evaluator. -/
def genericAt (M : Mfd K P V) (s : MSpline K P) (e : Evaluator K) : Outcome P :=
  (s.localCumulativeBi e 0).bind fun w => (s.readVertices s.order e.firstIt).bind fun vs =>
    match vs with
    | [] => .ub
    | c :: cs => .ok (genericLoop M w 1 c c cs)

theorem evalGenericB_refines (M : Mfd K P V) (R : Ready c s e g B) : Refines (BufInv c s e) (s.evalGenericB c M e) (s.genericAt M e) := by
  unfold evalGenericB genericAt
  have := request_bind R true 0 (fun r => (BufM.lift (s.readVertices s.order e.firstIt)).bind fun vs =>
    match vs with
    | [] => BufM.lift .ub
    | v :: cs => genericLoopB M s.order r 1 v v cs) (fun w => (s.readVertices s.order e.firstIt).bind fun vs =>
    match vs with
    | [] => .ub
    | c :: cs => .ok (genericLoop M w 1 c c cs)) fun r v w b h hv => by
      rcases hr : s.readVertices s.order e.firstIt with vs | _ | _
      · have hl := readVertices_length s _ _ _ hr
        cases vs with
        | nil => rfl
        | cons p cs => exact genericLoopB_eq M h hv cs 1 p p (by rw [List.length_cons] at hl; omega)
      · rfl
      · rfl
  exact this

end General

/-! ### Quaternion splines -/

section Quat

variable {t : Template} {s : MSpline ℝ ℍ[ℝ]} {e : Evaluator ℝ} {g : Seg ℝ ℍ[ℝ]} {B : Mat ℝ}

/-- The sizes of the cache. -/
structure QCache.Sized (c : QCache) (k : ℕ) : Prop where
  phi : c.phi.length + 1 = k
  ri : c.ri.length + 1 = k

theorem coeff_bind (R : Ready t s e g B) {α : Type} (d i : ℕ) (hi : i < s.order) (f : ℝ → BufM ℝ α) (o : (ℕ → ℝ) → Outcome α)
    (hf : ∀ w, s.localCumulativeBi e d = .ok w → Refines (BufInv t s e) (f (w i)) (o w)) :
    Refines (BufInv t s e) ((s.coeff t e true d i).bind f) ((s.localCumulativeBi e d).bind o) := by
  obtain ⟨w, hw⟩ := weights_ok R true d
  have h1 := coeff_refines R true d i hi
  rw [hw, Outcome.map_ok] at h1
  have h2 : s.localCumulativeBi e d = .ok w := hw
  rw [h2, Outcome.bind_ok]
  have := h1.bind (f := f) (g := fun _ => o w) fun a ha => by
    obtain rfl := Outcome.ok.inj ha
    exact hf w h2
  rwa [Outcome.bind_ok] at this

theorem coeff_bind1 (R : Ready t s e g B) {α : Type} (i : ℕ) (hi : i < s.order) (f : ℝ → BufM ℝ α) (o : (ℕ → ℝ) → Outcome α)
    (hf : ∀ w, Refines (BufInv t s e) (f (w i)) (o w)) :
    Refines (BufInv t s e) ((s.coeff t e true 1 i).bind f) ((s.localCumulativeBi e 1).bind o) :=
  coeff_bind R 1 i hi f o fun w _ => hf w

theorem coeff_bind2 (R : Ready t s e g B) {α : Type} (i : ℕ) (hi : i < s.order) (f : ℝ → BufM ℝ α) (o : (ℕ → ℝ) → Outcome α)
    (hf : ∀ w, Refines (BufInv t s e) (f (w i)) (o w)) :
    Refines (BufInv t s e) ((s.coeff t e true 2 i).bind f) ((s.localCumulativeBi e 2).bind o) :=
  coeff_bind R 2 i hi f o fun w _ => hf w

theorem coeff_bind3 (R : Ready t s e g B) {α : Type} (i : ℕ) (hi : i < s.order) (f : ℝ → BufM ℝ α) (o : (ℕ → ℝ) → Outcome α)
    (hf : ∀ w, Refines (BufInv t s e) (f (w i)) (o w)) :
    Refines (BufInv t s e) ((s.coeff t e true 3 i).bind f) ((s.localCumulativeBi e 3).bind o) :=
  coeff_bind R 3 i hi f o fun w _ => hf w

theorem qcacheLoopB_refines (R : Ready t s e g B) (lg : ℍ[ℝ] → V3) {w : ℕ → ℝ} (hw : s.localCumulativeBi e 0 = .ok w) :
    ∀ (cs : List ℍ[ℝ]) (k : ℕ) (a : ℍ[ℝ]), k + cs.length < s.order →
    Refines (BufInv t s e) (s.qcacheLoopB t lg e k a cs) (.ok (qcacheLoop lg w k a cs))
  | [], k, a, _ => Refines.lift _
  | c :: cs, k, a, hk => by
    rw [List.length_cons] at hk
    unfold qcacheLoopB qcacheLoop
    have := coeff_bind R 0 (k + 1) (by omega) (fun x => (s.qcacheLoopB t lg e (k + 1) c cs).map fun l =>
      ((quatGroup lg).log a c, (quatGroup lg).expAtId (x • (quatGroup lg).log a c)) :: l)
      (fun w' => .ok (((quatGroup lg).log a c, (quatGroup lg).expAtId (w' (k + 1) • (quatGroup lg).log a c)) :: qcacheLoop lg w (k + 1) c cs))
      (fun w' _ => (qcacheLoopB_refines R lg hw cs (k + 1) c (by omega)).map _)
    rw [hw, Outcome.bind_ok] at this
    exact this

theorem qcacheLoop_length (lg : ℍ[ℝ] → V3) (w : ℕ → ℝ) : ∀ (cs : List ℍ[ℝ]) (k : ℕ) (a : ℍ[ℝ]), (qcacheLoop lg w k a cs).length = cs.length
  | [], _, _ => rfl
  | c :: cs, k, a => by simp [qcacheLoop, qcacheLoop_length lg w cs]

theorem qcacheB_refines (R : Ready t s e g B) (lg : ℍ[ℝ] → V3) : Refines (BufInv t s e) (s.qcacheB t lg e) (s.qcache lg e) := by
  obtain ⟨w, hw⟩ := weights_ok R true 0
  have hw : s.localCumulativeBi e 0 = .ok w := hw
  unfold qcacheB qcache
  refine (Refines.lift _).bind fun vs hvs => ?_
  rw [hw, Outcome.bind_ok]
  have hl := readVertices_length s _ _ _ hvs
  cases vs with
  | nil => exact Refines.lift _
  | cons c cs =>
    rw [List.length_cons] at hl
    exact (qcacheLoopB_refines R lg hw cs 0 c (by omega)).map _

theorem qcache_sized (R : Ready t s e g B) {lg : ℍ[ℝ] → V3} {c : QCache} (h : s.qcache lg e = .ok c) : c.Sized s.order := by
  unfold qcache at h
  obtain ⟨vs, h1, h⟩ := Outcome.bind_eq_ok.1 h
  obtain ⟨w, h2, h⟩ := Outcome.bind_eq_ok.1 h
  have hl := readVertices_length s _ _ _ h1
  cases vs with
  | nil => cases h
  | cons v cs =>
    cases h
    rw [List.length_cons] at hl
    exact ⟨by simp [qcacheLoop_length, hl], by simp [qcacheLoop_length, hl]⟩

theorem evalRiDB_refines (R : Ready t s e g B) {c : QCache} (hc : c.Sized s.order) (der i : ℕ) :
    Refines (BufInv t s e) (s.evalRiDB t e c der i) (s.evalRiD e c der i) := by
  have hi : ∀ phi, c.phi[i - 1]? = some phi → i < s.order := by
    intro phi h
    obtain ⟨hlt, -⟩ := List.getElem?_eq_some_iff.1 h
    have := hc.phi
    omega
  match der with
  | 0 =>
    unfold evalRiDB evalRiD
    simp only
    cases c.ri[i - 1]? <;> exact Refines.lift _
  | 1 =>
    unfold evalRiDB evalRiD
    simp only
    rcases hp : c.phi[i - 1]? with _ | phi <;> rcases hr : c.ri[i - 1]? with _ | r
    · exact Refines.lift _
    · exact Refines.lift _
    · exact Refines.lift _
    · exact coeff_bind1 R i (hi phi hp) _ _ fun w => Refines.lift _
  | 2 =>
    unfold evalRiDB evalRiD
    simp only
    rcases hp : c.phi[i - 1]? with _ | phi <;> rcases hr : c.ri[i - 1]? with _ | r
    · exact Refines.lift _
    · exact Refines.lift _
    · exact Refines.lift _
    · exact coeff_bind1 R i (hi phi hp) _ _ fun w => coeff_bind2 R i (hi phi hp) _ _ fun w => Refines.lift _
  | 3 =>
    unfold evalRiDB evalRiD
    simp only
    rcases hp : c.phi[i - 1]? with _ | phi <;> rcases hr : c.ri[i - 1]? with _ | r
    · exact Refines.lift _
    · exact Refines.lift _
    · exact Refines.lift _
    · exact coeff_bind1 R i (hi phi hp) _ _ fun w => coeff_bind2 R i (hi phi hp) _ _ fun w => coeff_bind3 R i (hi phi hp) _ _ fun w =>
        Refines.lift _
  | der + 4 => exact Refines.lift _

theorem productRestB_refines (R : Ready t s e g B) {c : QCache} (hc : c.Sized s.order) : ∀ (rem der factor : ℕ),
    Refines (BufInv t s e) (s.productRestB t e c rem der factor) (s.productRest e c rem der factor)
  | 0, der, factor => by
    unfold productRestB productRest
    exact (evalRiDB_refines R hc _ _).map _
  | rem + 1, der, factor => by
    unfold productRestB productRest
    exact (evalRiDB_refines R hc _ _).bind fun r _ => (productRestB_refines R hc rem der factor).bind fun p _ =>
      Refines.foldl _ _ _ _ _ (Refines.lift _) fun d _ a => (evalRiDB_refines R hc _ _).bind fun r' _ =>
        (productRestB_refines R hc rem _ _).bind fun p' _ => Refines.lift _

theorem evalDRecursiveB_refines (R : Ready t s e g B) (lg : ℍ[ℝ] → V3) (der : ℤ) :
    Refines (BufInv t s e) (s.evalDRecursiveB t lg e der) (s.evalDRecursive lg e der) := by
  unfold evalDRecursiveB evalDRecursive
  refine (qcacheB_refines R lg).bind fun c hc => ?_
  split_ifs
  · exact Refines.lift _
  · exact Refines.lift _
  · refine (productRestB_refines R (qcache_sized R hc) _ _ _).bind fun p _ => ?_
    cases c.verts <;> exact Refines.lift _

theorem d1LoopB_refines (R : Ready t s e g B) {c : QCache} (hc : c.Sized s.order) : ∀ (n i : ℕ) (A sum : ℍ[ℝ]),
    Refines (BufInv t s e) (s.d1LoopB t e c n i A sum) (s.d1Loop e c n i A sum)
  | 0, i, A, sum => Refines.lift _
  | n + 1, i, A, sum => by
    unfold d1LoopB d1Loop
    exact (evalRiDB_refines R hc _ _).bind fun r1 _ => (evalRiDB_refines R hc _ _).bind fun r0 _ => d1LoopB_refines R hc n _ _ _

theorem evalD1SpecialB_refines (R : Ready t s e g B) (lg : ℍ[ℝ] → V3) :
    Refines (BufInv t s e) (s.evalD1SpecialB t lg e) (s.evalD1Special lg e) := by
  unfold evalD1SpecialB evalD1Special
  refine (qcacheB_refines R lg).bind fun c hc => (d1LoopB_refines R (qcache_sized R hc) _ _ _ _).bind fun r _ => ?_
  cases c.verts <;> exact Refines.lift _

theorem quatEvalDB_refines (R : Ready t s e g B) (lg : ℍ[ℝ] → V3) {x : ℝ} (he : s.evaluatorAt x = .ok e) (der : ℤ) :
    Refines (BufInv t s e) (s.quatEvalDB t lg e der) (s.quatEvalD lg x der) := by
  unfold quatEvalDB quatEvalD
  split_ifs with h0 h1
  · have := evalGenericB_refines (quatGroup lg).toMfd R
    unfold evalGeneric
    rw [he, Outcome.bind_ok]
    exact this
  · rw [he, Outcome.bind_ok]
    exact evalD1SpecialB_refines R lg
  · rw [he, Outcome.bind_ok]
    exact evalDRecursiveB_refines R lg der

theorem evalAngularDerivativeB_refines (R : Ready t s e g B) (lg : ℍ[ℝ] → V3) {x : ℝ} (he : s.evaluatorAt x = .ok e) (der : ℕ) :
    Refines (BufInv t s e) (s.evalAngularDerivativeB t lg e der) (s.evalAngularDerivative lg x der) := by
  unfold evalAngularDerivativeB evalAngularDerivative
  refine (quatEvalDB_refines R lg he _).bind fun d _ => (quatEvalDB_refines R lg he _).bind fun v _ => ?_
  split_ifs
  · exact (quatEvalDB_refines R lg he _).bind fun d _ => (quatEvalDB_refines R lg he _).bind fun v _ => Refines.lift _
  · exact Refines.lift _

theorem riDJacobianB_refines (R : Ready t s e g B) {c : QCache} (hc : c.Sized s.order) (S L : V3 → M33) (der i : ℕ) :
    Refines (BufInv t s e) (s.riDJacobianB t S L e c der i) (s.riDJacobian S L e c der i) := by
  unfold riDJacobianB riDJacobian
  refine (Refines.lift _).bind fun r hr => (Refines.lift _).bind fun phi _ => (Refines.lift _).bind fun pj _ => ?_
  have hi : i < s.order := by
    cases i with
    | zero => exact R.order_pos
    | succ i =>
      unfold QCache.getRi at hr
      simp only at hr
      rcases h : c.ri[i]? with _ | q
      · rw [h] at hr; cases hr
      · obtain ⟨hlt, -⟩ := List.getElem?_eq_some_iff.1 h
        have := hc.ri
        omega
  refine coeff_bind R 0 i hi _ _ fun w hw => ?_
  have h2 : ∀ {α : Type} (f : ℝ → BufM ℝ α) (o : Outcome α), Refines (BufInv t s e) (f (w i)) o →
      Refines (BufInv t s e) ((s.coeff t e true 0 i).bind f) o := by
    intro α f o hf
    have := coeff_bind R 0 i hi f (fun _ => o) fun w' hw' => by
      rw [hw] at hw'
      obtain rfl := Outcome.ok.inj hw'
      exact hf
    rwa [hw, Outcome.bind_ok] at this
  refine h2 _ _ ?_
  match der with
  | 0 => exact Refines.lift _
  | 1 => exact coeff_bind1 R i hi _ _ fun w => Refines.lift _
  | 2 => exact coeff_bind1 R i hi _ _ fun w => coeff_bind2 R i hi _ _ fun w => Refines.lift _
  | der + 3 => exact Refines.lift _

theorem riDJacobianOfB_refines (R : Ready t s e g B) {c : QCache} (hc : c.Sized s.order) (S L : V3 → M33) (der i j : ℕ) :
    Refines (BufInv t s e) (s.riDJacobianOfB t S L e c der i j) (s.riDJacobianOf S L e c der i j) := by
  unfold riDJacobianOfB riDJacobianOf
  split_ifs
  · exact Refines.lift _
  · exact (riDJacobianB_refines R hc S L der i).map _

theorem jacobianRestB_refines (R : Ready t s e g B) {c : QCache} (hc : c.Sized s.order) (S L : V3 → M33) (j : ℕ) : ∀ (rem der factor : ℕ),
    Refines (BufInv t s e) (s.jacobianRestB t S L e c j rem der factor) (s.jacobianRest S L e c j rem der factor)
  | 0, der, factor => by
    unfold jacobianRestB jacobianRest
    split_ifs
    · exact Refines.lift _
    · exact (riDJacobianOfB_refines R hc S L _ _ _).map _
  | rem + 1, der, factor => by
    unfold jacobianRestB jacobianRest
    refine (evalRiDB_refines R hc _ _).bind fun r _ => (jacobianRestB_refines R hc S L j rem der factor).bind fun p _ =>
      Refines.bind ?_ fun start _ => Refines.foldl _ _ _ _ _ (Refines.lift _) fun d _ a => Refines.bind ?_ fun a' _ =>
      (evalRiDB_refines R hc _ _).bind fun r' _ => (jacobianRestB_refines R hc S L j rem _ _).bind fun p' _ => Refines.lift _
    · split_ifs
      · exact Refines.lift _
      · exact (productRestB_refines R hc _ _ _).bind fun q _ => (riDJacobianOfB_refines R hc S L _ _ _).bind fun M _ => Refines.lift _
    · split_ifs
      · exact Refines.lift _
      · exact (productRestB_refines R hc _ _ _).bind fun q _ => (riDJacobianOfB_refines R hc S L _ _ _).bind fun M _ => Refines.lift _

theorem jacobianDLoopB_refines (R : Ready t s e g B) {c : QCache} (hc : c.Sized s.order) (S L : V3 → M33) (der : ℕ) : ∀ (n j : ℕ),
    Refines (BufInv t s e) (s.jacobianDLoopB t S L e c der n j) (s.jacobianDLoop S L e c der n j)
  | 0, j => Refines.lift _
  | n + 1, j => by
    unfold jacobianDLoopB jacobianDLoop
    refine (Refines.lift _).bind fun v _ => Refines.bind ?_ fun b _ => (jacobianRestB_refines R hc S L _ _ _ _).bind fun M _ =>
      (jacobianDLoopB_refines R hc S L der n (j + 1)).map _
    split_ifs
    · exact (productRestB_refines R hc _ _ _).map _
    · exact Refines.lift _

theorem jacobianLoopB_refines (R : Ready t s e g B) {c : QCache} (hc : c.Sized s.order) (S L : V3 → M33) :
    ∀ (n j : ℕ) (prev : (ℍ[ℝ] → ℍ[ℝ]) × DMat),
    Refines (BufInv t s e) (s.jacobianLoopB t S L e c n j prev) (s.jacobianLoop S L e c n j prev)
  | 0, j, prev => Refines.lift _
  | n + 1, j, prev => by
    unfold jacobianLoopB jacobianLoop
    refine (Refines.lift _).bind fun v _ => (Refines.lift _).bind fun b _ => ?_
    simp only []
    split_ifs
    all_goals first
      | exact (jacobianLoopB_refines R hc S L n (j + 1) _).map _
      | exact (riDJacobianB_refines R hc S L _ _).bind fun M _ => (Refines.lift _).bind fun a _ => (Refines.lift _).bind fun A _ =>
          (jacobianLoopB_refines R hc S L n (j + 1) _).map _

theorem quatEvalJacobianB_refines (R : Ready t s e g B) (lg : ℍ[ℝ] → V3) (S L : V3 → M33) {x : ℝ} (he : s.evaluatorAt x = .ok e)
    (der : ℤ) : Refines (BufInv t s e) (s.quatEvalJacobianB t lg S L e der) (s.quatEvalJacobian lg S L x der) := by
  unfold quatEvalJacobianB quatEvalJacobian evalJacobianValue evalJacobianDRecursiveB evalJacobianDRecursive
  rw [he, Outcome.bind_ok]
  split_ifs with h0 h1 h2
  · exact (qcacheB_refines R lg).bind fun c hc => jacobianLoopB_refines R (qcache_sized R hc) S L _ _ _
  · exact Refines.lift _
  · exact (qcacheB_refines R lg).bind fun c hc => Refines.lift _
  · exact (qcacheB_refines R lg).bind fun c hc => jacobianDLoopB_refines R (qcache_sized R hc) S L _ _ _

theorem evalAngularJacobianB_refines (R : Ready t s e g B) (lg : ℍ[ℝ] → V3) (S L : V3 → M33) {x : ℝ} (he : s.evaluatorAt x = .ok e)
    (der : ℕ) : Refines (BufInv t s e) (s.evalAngularJacobianB t lg S L e der) (s.evalAngularJacobian lg S L x der) := by
  unfold evalAngularJacobianB evalAngularJacobian
  exact (quatEvalDB_refines R lg he _).bind fun d _ => (quatEvalDB_refines R lg he _).bind fun v _ =>
    (quatEvalJacobianB_refines R lg S L he _).bind fun dq _ => (quatEvalJacobianB_refines R lg S L he _).bind fun q _ => Refines.lift _

end Quat

/-! ### The claims -/

section Claims

variable {K : Type} [Field K] [LinearOrder K] [IsStrictOrderedRing K] {P V : Type}

/-- Entry `j` of the weights of derivative `der` at time `t` in the knot interval `i`: the derivative of the `j`-th Cox–de Boor
polynomial of that interval, or the sum of these from `j` on. -/
noncomputable def idealWeight (s : MSpline K P) (i : ℕ) (t : K) (cum : Bool) (der j : ℕ) : K :=
  if cum then ∑ l ∈ Ico j s.order, (derivative^[der] (piece s.kn i (s.order - 1) (i + 1 - s.order + l))).eval t
  else (derivative^[der] (piece s.kn i (s.order - 1) (i + 1 - s.order + j))).eval t

theorem weights_ideal {s : MSpline K P} (h : s.MWF) (he : s.state = .evaluable) {t : K} {i : ℕ} (hi : s.InSeg t i) (cum : Bool) (der : ℕ) :
    ∃ w, s.weights (s.evaluatorOf t i) cum der = .ok w ∧ ∀ j, j < s.order → w j = s.idealWeight i t cum der j := by
  obtain ⟨w, hw, hwc⟩ := localBi_eq h he hi der
  cases cum with
  | false => exact ⟨w, hw, fun j hj => by rw [hwc j hj]; rfl⟩
  | true =>
    refine ⟨cumulativeOf s.order w der, ?_, fun j hj => ?_⟩
    · show s.localCumulativeBi _ der = _
      unfold localCumulativeBi
      rw [hw, Outcome.map_ok]
    · have hs : ∀ a, ∑ l ∈ Ico a s.order, w l
          = ∑ l ∈ Ico a s.order, (derivative^[der] (piece s.kn i (s.order - 1) (i + 1 - s.order + l))).eval t :=
        fun a => sum_congr rfl fun l hl => hwc l (mem_Ico.1 hl).2
      unfold idealWeight
      rw [if_pos rfl]
      by_cases h0 : j = 0
      · subst h0
        have h1 := hi.lower
        have h2 := hi.upper
        have h3 := h.order_pos
        have hone := piece_sum_one s.kn s.keys.length i h.mono (hi.lt h) (s.order - 1) (by omega) (by omega)
        have hshift : ∑ l ∈ Ico 0 s.order, piece s.kn i (s.order - 1) (i + 1 - s.order + l) = 1 := by
          rw [← hone]
          refine sum_bij (fun l _ => i + 1 - s.order + l) ?_ ?_ ?_ ?_
          · intro l hl
            have := mem_Ico.1 hl
            exact mem_Ico.2 ⟨by omega, by omega⟩
          · intro a _ b _ hab
            omega
          · intro b hb
            have := mem_Ico.1 hb
            exact ⟨b - (i + 1 - s.order), mem_Ico.2 ⟨by omega, by omega⟩, by omega⟩
          · intro l _
            rfl
        rw [← eval_finsetSum, ← iterate_derivative_sum, hshift]
        unfold cumulativeOf
        rw [if_pos rfl]
        rcases der with _ | der
        · simp
        · rw [Function.iterate_succ_apply, derivative_one]
          simp
      · rw [cumulativeOf_eq _ _ _ h0 hj, hs]

theorem ready_of {s : MSpline K P} (h : s.MWF) (he : s.state = .evaluable) {t : K} {i : ℕ} (hi : s.InSeg t i) {c : Template}
    (hc : c.Fits s.order) : ∃ g B, Ready c s (s.evaluatorOf t i) g B := by
  have h1 := hi.lower
  have h2 := hi.upper
  have hlt : i < s.segs.length := by rw [keys_length] at h2; have := h.order_pos; omega
  have hg := List.getElem?_eq_getElem hlt
  exact ⟨_, _, h.order_pos, segAt_eq h hg, h.basis_eq he i _ h1 h2 hg, hc⟩

theorem construct_eq {s : MSpline K P} (h : s.MWF) (he : s.state = .evaluable) {t : K} {i : ℕ} (hi : s.InSeg t i) {c : Template}
    (hc : c.Fits s.order) (fresh : ℕ → ℕ → K) :
    ∃ b, s.construct c t fresh = .ok (s.evaluatorOf t i, b) ∧ BufInv c s (s.evaluatorOf t i) b := by
  obtain ⟨g, B, R⟩ := ready_of h he hi hc
  obtain ⟨l, h1, h2, h3⟩ := prepare_eq R.order_pos R.seg R.basis c.cumulative fresh c.numPrepared.toNat (by
    have := hc.le
    have := hc.nonneg
    omega)
  refine ⟨⟨l, fresh (2 * c.numPrepared.toNat), fun n => fresh (2 * c.numPrepared.toNat + 1 + n)⟩, ?_, h2, h3⟩
  unfold construct
  rw [evaluatorAt_eq h he hi, Outcome.bind_ok, h1, Outcome.map_ok]

theorem construct_exists (M : Mfd K P V) (order : ℕ) (ho : 1 ≤ order) (s : MSpline K P) (h : RegularReach M order s) (he : s.state = .evaluable)
    (c : Template) (hc : c.Fits order) (t tmin tmax : K) (hmin : s.getMinTime = .ok tmin) (hmax : s.getMaxTime = .ok tmax) (h1 : tmin ≤ t)
    (h2 : t ≤ tmax) (fresh : ℕ → ℕ → K) : ∃ e b, s.construct c t fresh = .ok (e, b) ∧ b.prepared.length = c.numPrepared.toNat := by
  obtain ⟨hw, rfl⟩ := h.mwf ho
  rw [getMinTime_eq hw he, Outcome.ok.injEq] at hmin
  rw [getMaxTime_eq hw he, Outcome.ok.injEq] at hmax
  subst hmin hmax
  obtain ⟨i, hi, -⟩ := getSegmentIterator_ok hw he t h1 h2
  obtain ⟨b, hb, h3, -⟩ := construct_eq hw he hi hc fresh
  exact ⟨_, b, hb, h3⟩

/-- The buffers after a list of requests. -/
def served (c : Template) (s : MSpline K P) (e : Evaluator K) (reqs : List (Bool × ℕ)) (b : Buffers K) : Buffers K :=
  reqs.foldl (fun b q => (s.request c e q.1 q.2 b).2) b

theorem served_inv {c : Template} {s : MSpline K P} {e : Evaluator K} {g : Seg K P} {B : Mat K} (R : Ready c s e g B) :
    ∀ (reqs : List (Bool × ℕ)) (b : Buffers K), BufInv c s e b → BufInv c s e (s.served c e reqs b) ∧
      (s.served c e reqs b).prepared = b.prepared
  | [], b, h => ⟨h, rfl⟩
  | q :: reqs, b, h => by
    obtain ⟨r, v, w, -, -, -, -, h5, h6, -⟩ := request_eq R q.1 q.2 b h
    obtain ⟨a1, a2⟩ := served_inv R reqs _ h5
    exact ⟨a1, a2.trans h6⟩

/-- **C71**: the constructor of the evaluator succeeds exactly for the times at which the spline can be evaluated, whatever the template
arguments are. -/
theorem C71_construct (M : Mfd K P V) (order : ℕ) (ho : 1 ≤ order) (s : MSpline K P) (h : RegularReach M order s) (c : Template)
    (hc : c.Fits order) (t : K) (fresh : ℕ → ℕ → K) : (s.construct c t fresh).map Prod.fst = s.evaluatorAt t := by
  obtain ⟨hw, rfl⟩ := h.mwf ho
  rcases hst : s.state with _ | _
  · unfold construct
    rw [evaluatorAt_throws hw t (Or.inl hst)]
    rfl
  · by_cases ht : s.kn (s.order - 1) ≤ t ∧ t ≤ s.kn (s.keys.length - s.order)
    · obtain ⟨i, hi, -⟩ := getSegmentIterator_ok hw hst t ht.1 ht.2
      obtain ⟨b, hb, -⟩ := construct_eq hw hst hi hc fresh
      rw [hb, evaluatorAt_eq hw hst hi, Outcome.map_ok]
    · unfold construct
      rw [evaluatorAt_throws hw t (Or.inr (by
        rcases not_and_or.1 ht with h | h
        · exact Or.inl (not_le.1 h)
        · exact Or.inr (not_le.1 h)))]
      rfl

/-- **C71**: whatever has been requested before, a request succeeds, and the vector behind the returned reference holds the derivatives
of the Cox–de Boor polynomials, or their sums, also where it is computed in place in memory used before.  A reference to a prepared
vector stays right for ever.  A reference to the shared vector stays right until the next request that is not for a prepared vector;
from then on it shows the weights of that request. -/
theorem C71_request (M : Mfd K P V) (order : ℕ) (ho : 1 ≤ order) (s : MSpline K P) (h : RegularReach M order s) (c : Template)
    (hc : c.Fits order) (t : K) (fresh : ℕ → ℕ → K) (e : Evaluator K) (b : Buffers K) (hb : s.construct c t fresh = .ok (e, b)) :
    ∃ i, s.InSeg t i ∧ ∀ (earlier : List (Bool × ℕ)) (cum : Bool) (der : ℕ), ∃ r v b', s.request c e cum der (s.served c e earlier b) = (.ok r, b') ∧
      b'.deref r = .ok v ∧ (∀ j, j < order → v j = s.idealWeight i t cum der j) ∧
      (∀ later : List (Bool × ℕ), (c.cumulative = cum ∧ (der : ℤ) < c.numPrepared) ∨
          (∀ q ∈ later, c.cumulative = q.1 ∧ ((q.2 : ℕ) : ℤ) < c.numPrepared) → (s.served c e later b').deref r = .ok v) ∧
      (¬ (c.cumulative = cum ∧ (der : ℤ) < c.numPrepared) → ∀ (l₁ l₂ : List (Bool × ℕ)) (cum' : Bool) (der' : ℕ),
        ¬ (c.cumulative = cum' ∧ (der' : ℤ) < c.numPrepared) →
        (∀ q ∈ l₂, c.cumulative = q.1 ∧ ((q.2 : ℕ) : ℤ) < c.numPrepared) →
        ∃ v', (s.served c e (l₁ ++ (cum', der') :: l₂) b').deref r = .ok v' ∧
          ∀ j, j < order → v' j = s.idealWeight i t cum' der' j) := by
  obtain ⟨hw, rfl⟩ := h.mwf ho
  have hfst : s.evaluatorAt t = .ok e := by
    have := C71_construct M s.order ho s h c hc t fresh
    rw [hb] at this
    exact this.symm
  have hst : s.state = .evaluable := by
    rcases hst : s.state with _ | _
    · rw [evaluatorAt_throws hw t (Or.inl hst)] at hfst; cases hfst
    · rfl
  have ht : s.kn (s.order - 1) ≤ t ∧ t ≤ s.kn (s.keys.length - s.order) := by
    by_contra ht
    rw [evaluatorAt_throws hw t (Or.inr (by
        rcases not_and_or.1 ht with h | h
        · exact Or.inl (not_le.1 h)
        · exact Or.inr (not_le.1 h)))] at hfst
    cases hfst
  obtain ⟨i, hi, -⟩ := getSegmentIterator_ok hw hst t ht.1 ht.2
  obtain ⟨b₀, hb₀, hinv⟩ := construct_eq hw hst hi hc fresh
  rw [hb₀] at hb
  cases hb
  obtain ⟨g, B, R⟩ := ready_of hw hst hi hc
  -- requests for prepared vectors change nothing
  have hsame : ∀ (l : List (Bool × ℕ)) (b : Buffers K), BufInv c s (s.evaluatorOf t i) b →
      (∀ q ∈ l, c.cumulative = q.1 ∧ ((q.2 : ℕ) : ℤ) < c.numPrepared) → s.served c (s.evaluatorOf t i) l b = b := by
    intro l
    induction l with
    | nil => intro b _ _; rfl
    | cons q l ih =>
      intro b hb hl
      obtain ⟨r, v, w, -, -, -, -, -, -, h7, h8⟩ := request_eq R q.1 q.2 b hb
      have : (s.request c (s.evaluatorOf t i) q.1 q.2 b).2 = b := h8 (by rw [h7, if_pos (hl q (by simp))]; simp)
      show s.served c _ l (s.request c (s.evaluatorOf t i) q.1 q.2 b).2 = b
      rw [this]
      exact ih b hb fun q' hq' => hl q' (by simp [hq'])
  refine ⟨i, hi, fun earlier cum der => ?_⟩
  obtain ⟨hI, -⟩ := served_inv R earlier _ hinv
  obtain ⟨r, v, w, h1, h2, h3, h4, h5, h6, h7, h8⟩ := request_eq R cum der _ hI
  obtain ⟨w', hw1, hw2⟩ := weights_ideal hw hst hi cum der
  rw [h3] at hw1
  obtain rfl := Outcome.ok.inj hw1
  refine ⟨r, v, _, Prod.ext h1 rfl, h2, fun j hj => (h4 j hj).trans (hw2 j hj), fun later hl => ?_, fun hn l₁ l₂ cum' der' hn' hl₂ => ?_⟩
  · rcases hl with hl | hl
    · rw [if_pos hl] at h7
      subst h7
      rw [← h2]
      unfold Buffers.deref
      simp only
      rw [(served_inv R later _ h5).2]
    · rw [hsame later _ h5 hl, h2]
  · rw [if_neg hn] at h7
    subst h7
    unfold served
    rw [List.foldl_append, List.foldl_cons]
    obtain ⟨hI', -⟩ := served_inv R l₁ _ h5
    obtain ⟨r', v', u, a1, a2, a3, a4, a5, -, a7, -⟩ := request_eq R cum' der' _ hI'
    obtain ⟨u', hu1, hu2⟩ := weights_ideal hw hst hi cum' der'
    rw [a3] at hu1
    obtain rfl := Outcome.ok.inj hu1
    rw [if_neg hn'] at a7
    subst a7
    have := hsame l₂ _ a5 hl₂
    unfold served at this a2
    rw [this]
    exact ⟨v', a2, fun j hj => (a4 j hj).trans (hu2 j hj)⟩

/-- **C71**: the sums are the same whether they are computed in place or from another vector, and they need no initialised memory. -/
theorem C71_in_place (k : ℕ) (hk : 1 ≤ k) (b : ℕ → K) (der : ℕ) (ret : ℕ → K) :
    ∃ r₁ r₂, cumulativeInto k none der b = .ok r₁ ∧ cumulativeInto k (some b) der ret = .ok r₂ ∧ ∀ j, j < k → r₁ j = r₂ j ∧
      r₁ j = if j = 0 then (if der = 0 then 1 else 0) else ∑ l ∈ Ico j k, b l := by
  obtain ⟨r₁, e1, h1⟩ := cumulativeInto_eq k hk none b der b fun j _ => rfl
  obtain ⟨r₂, e2, h2⟩ := cumulativeInto_eq k hk (some b) b der ret fun j _ => rfl
  refine ⟨r₁, r₂, e1, e2, fun j hj => ⟨(h1 j hj).trans (h2 j hj).symm, ?_⟩⟩
  rw [h1 j hj]
  split_ifs with h0 hd
  · unfold cumulativeOf; rw [if_pos h0, if_pos hd]
  · unfold cumulativeOf; rw [if_pos h0, if_neg hd]
  · exact cumulativeOf_eq k b der h0 hj

/-! ### Queries -/

/-- The queries of a Euclidean spline's evaluator. -/
inductive ECall where
  | evalD (der : ℤ)
  | jacobian (der : ℤ)
  deriving DecidableEq

/-- Their answers: a point, or the factors of the blocks of the Jacobian. -/
inductive EAnswer (K P : Type) where
  | point (p : P)
  | blocks (l : List K)

variable [AddCommGroup P] [Module K P]

/-- A query on the evaluator with its buffers. -/
def ECall.run (c : Template) (s : MSpline K P) (e : Evaluator K) : ECall → BufM K (EAnswer K P)
  | .evalD der => (s.euclideanEvalDB c e der).map .point
  | .jacobian der => (s.euclideanEvalJacobianB c e der).map .blocks

/-- The same query on the spline. -/
def ECall.answer (c : Template) (s : MSpline K P) (t : K) : ECall → Outcome (EAnswer K P)
  | .evalD der => (s.euclideanEvalD c.maxDer? t der).map .point
  | .jacobian der => (s.euclideanEvalJacobian c.maxDer? t der).map .blocks

/-- One query after the other. -/
def runAll {α β : Type} (f : α → BufM K β) : List α → Buffers K → List (Outcome β)
  | [], _ => []
  | q :: qs, b => (f q b).1 :: runAll f qs (f q b).2

theorem runAll_eq {α β : Type} {I : Buffers K → Prop} (f : α → BufM K β) (o : α → Outcome β) (h : ∀ q, Refines I (f q) (o q)) :
    ∀ (qs : List α) (b : Buffers K), I b → runAll f qs b = qs.map o
  | [], b, _ => rfl
  | q :: qs, b, hb => by
    obtain ⟨h1, h2⟩ := h q b hb
    unfold runAll
    rw [h1, runAll_eq f o h qs _ h2, List.map_cons]

/-- **C71**: all queries on one evaluator of a Euclidean spline, in any order and number, give the answers of the spline at that time:
they depend neither on earlier queries nor on the template arguments (except that derivatives above the announced maximum are
rejected). -/
theorem C71_euclidean_queries (order : ℕ) (ho : 1 ≤ order) (s : MSpline K P) (h : RegularReach (euclidean K P) order s) (c : Template)
    (hc : c.Fits order) (t : K) (fresh : ℕ → ℕ → K) (e : Evaluator K) (b : Buffers K) (hb : s.construct c t fresh = .ok (e, b))
    (qs : List ECall) : runAll (ECall.run c s e) qs b = qs.map (ECall.answer c s t) := by
  obtain ⟨hw, rfl⟩ := h.mwf ho
  have hfst : s.evaluatorAt t = .ok e := by
    have := C71_construct _ s.order ho s h c hc t fresh
    rw [hb] at this
    exact this.symm
  have hst : s.state = .evaluable := by
    rcases hst : s.state with _ | _
    · rw [evaluatorAt_throws hw t (Or.inl hst)] at hfst; cases hfst
    · rfl
  have ht : s.kn (s.order - 1) ≤ t ∧ t ≤ s.kn (s.keys.length - s.order) := by
    by_contra ht
    rw [evaluatorAt_throws hw t (Or.inr (by
        rcases not_and_or.1 ht with h | h
        · exact Or.inl (not_le.1 h)
        · exact Or.inr (not_le.1 h)))] at hfst
    cases hfst
  obtain ⟨i, hi, -⟩ := getSegmentIterator_ok hw hst t ht.1 ht.2
  obtain ⟨b₀, hb₀, hinv⟩ := construct_eq hw hst hi hc fresh
  rw [hb₀] at hb
  cases hb
  obtain ⟨g, B, R⟩ := ready_of hw hst hi hc
  refine runAll_eq _ _ (fun q => ?_) qs b hinv
  cases q with
  | evalD der =>
    unfold ECall.run ECall.answer euclideanEvalD
    dsimp only
    rw [hfst, Outcome.bind_ok]
    exact (euclideanEvalDB_refines R der).map _
  | jacobian der =>
    unfold ECall.run ECall.answer euclideanEvalJacobian
    dsimp only
    rw [hfst, Outcome.bind_ok]
    exact (euclideanEvalJacobianB_refines R der).map _

end Claims

/-- The queries of a quaternion spline's evaluator. -/
inductive QCall where
  | evalD (der : ℤ)
  | angular (der : ℕ)
  | jacobian (der : ℤ)
  | angularJacobian (der : ℕ)

/-- Their answers. -/
inductive QAnswer where
  | point (q : ℍ[ℝ])
  | vector (v : V3)
  | blocks (l : List DMat)
  | angularBlocks (l : List M33)

/-- A query on the evaluator with its buffers. -/
noncomputable def QCall.run (t : Template) (lg : ℍ[ℝ] → V3) (S L : V3 → M33) (s : MSpline ℝ ℍ[ℝ]) (e : Evaluator ℝ) : QCall → BufM ℝ QAnswer
  | .evalD der => (s.quatEvalDB t lg e der).map .point
  | .angular der => (s.evalAngularDerivativeB t lg e der).map .vector
  | .jacobian der => (s.quatEvalJacobianB t lg S L e der).map .blocks
  | .angularJacobian der => (s.evalAngularJacobianB t lg S L e der).map .angularBlocks

/-- The same query on the spline. -/
noncomputable def QCall.answer (lg : ℍ[ℝ] → V3) (S L : V3 → M33) (s : MSpline ℝ ℍ[ℝ]) (x : ℝ) : QCall → Outcome QAnswer
  | .evalD der => (s.quatEvalD lg x der).map .point
  | .angular der => (s.evalAngularDerivative lg x der).map .vector
  | .jacobian der => (s.quatEvalJacobian lg S L x der).map .blocks
  | .angularJacobian der => (s.evalAngularJacobian lg S L x der).map .angularBlocks

/-- **C71**: all queries on one evaluator of a quaternion spline, in any order and number, also after queries that threw, give the
answers of the spline at that time: they depend neither on earlier queries nor on the template arguments. -/
theorem C71_quaternion_queries (lg : ℍ[ℝ] → V3) (S L : V3 → M33) (order : ℕ) (ho : 1 ≤ order) (s : MSpline ℝ ℍ[ℝ])
    (h : RegularReach (quatGroup lg).toMfd order s) (c : Template) (hc : c.Fits order) (t : ℝ) (fresh : ℕ → ℕ → ℝ) (e : Evaluator ℝ)
    (b : Buffers ℝ) (hb : s.construct c t fresh = .ok (e, b)) (qs : List QCall) :
    runAll (QCall.run c lg S L s e) qs b = qs.map (QCall.answer lg S L s t) := by
  obtain ⟨hw, rfl⟩ := h.mwf ho
  have hfst : s.evaluatorAt t = .ok e := by
    have := C71_construct _ s.order ho s h c hc t fresh
    rw [hb] at this
    exact this.symm
  have hst : s.state = .evaluable := by
    rcases hst : s.state with _ | _
    · rw [evaluatorAt_throws hw t (Or.inl hst)] at hfst; cases hfst
    · rfl
  have ht : s.kn (s.order - 1) ≤ t ∧ t ≤ s.kn (s.keys.length - s.order) := by
    by_contra ht
    rw [evaluatorAt_throws hw t (Or.inr (by
        rcases not_and_or.1 ht with h | h
        · exact Or.inl (not_le.1 h)
        · exact Or.inr (not_le.1 h)))] at hfst
    cases hfst
  obtain ⟨i, hi, -⟩ := getSegmentIterator_ok hw hst t ht.1 ht.2
  obtain ⟨b₀, hb₀, hinv⟩ := construct_eq hw hst hi hc fresh
  rw [hb₀] at hb
  cases hb
  obtain ⟨g, B, R⟩ := ready_of hw hst hi hc
  refine runAll_eq _ _ (fun q => ?_) qs b hinv
  cases q with
  | evalD der => exact (quatEvalDB_refines R lg hfst der).map _
  | angular der => exact (evalAngularDerivativeB_refines R lg hfst der).map _
  | jacobian der => exact (quatEvalJacobianB_refines R lg S L hfst der).map _
  | angularJacobian der => exact (evalAngularJacobianB_refines R lg S L hfst der).map _

/-! ### Examples -/

/-- A Euclidean spline of dynamic order: nothing is prepared, all queries go through the shared vector. -/
example : ∃ (s : MSpline ℚ ℚ) (e : Evaluator ℚ) (b : Buffers ℚ), s.construct ⟨1, -1, false⟩ (5 / 2) (fun _ _ => 77) = .ok (e, b) ∧
    b.prepared = [] ∧ runAll (ECall.run ⟨1, -1, false⟩ s e) [.evalD 1, .jacobian 0, .evalD 5, .evalD 1] b
      = [ECall.answer ⟨1, -1, false⟩ s (5 / 2) (.evalD 1), ECall.answer ⟨1, -1, false⟩ s (5 / 2) (.jacobian 0),
        ECall.answer ⟨1, -1, false⟩ s (5 / 2) (.evalD 5), ECall.answer ⟨1, -1, false⟩ s (5 / 2) (.evalD 1)] := by
  obtain ⟨s, -, g1, g2, g3, g4, g5, g6, g7⟩ := C55_init_with_vertices (euclidean ℚ ℚ) 3 (by norm_num) [0, 1, 2, 3, 4, 5, 6] [1, -2, 5, 7] (by
    simp [List.pairwise_cons]; norm_num) rfl (by decide) (fun _ _ => rfl)
  have hc : (⟨1, -1, false⟩ : Template).Fits 3 := ⟨Or.inr rfl, by norm_num⟩
  obtain ⟨e, b, h1, h2⟩ := construct_exists (euclidean ℚ ℚ) 3 (by norm_num) s g1 g2 _ hc (5 / 2) 2 4 g6 g7 (by norm_num) (by norm_num)
    fun _ _ => 77
  exact ⟨s, e, b, h1, List.eq_nil_of_length_eq_zero h2, C71_euclidean_queries 3 (by norm_num) s g1 _ hc _ _ e b h1 _⟩

/-- A quaternion spline of order two with two prepared vectors and the requests of an acceleration between those of velocities. -/
example (S L : V3 → M33) (lg : ℍ[ℝ] → V3) : ∃ (s : MSpline ℝ ℍ[ℝ]) (e : Evaluator ℝ) (b : Buffers ℝ),
    s.construct ⟨1, 2, true⟩ 2 (fun _ n => n) = .ok (e, b) ∧ b.prepared.length = 2 ∧
    runAll (QCall.run ⟨1, 2, true⟩ lg S L s e) [.angular 1, .evalD 7, .angular 2, .angularJacobian 2, .angular 1] b
      = [.angular 1, .evalD 7, .angular 2, .angularJacobian 2, .angular 1].map (QCall.answer lg S L s 2) := by
  obtain ⟨s, g1, g2, g3, g4, g5, g6, g7⟩ := quat_spline_exists lg 2 (by norm_num) [0, 1, 2, 3, 4] demoQuats (by
    simp [List.pairwise_cons]; norm_num) rfl (by decide) demoQuats_unit
  have hc : (⟨1, 2, true⟩ : Template).Fits 2 := ⟨Or.inl rfl, by norm_num⟩
  obtain ⟨e, b, h1, h2⟩ := construct_exists (quatGroup lg).toMfd 2 (by norm_num) s g1 g2 _ hc 2 1 3 g6 g7 (by norm_num) (by norm_num) fun _ n => n
  exact ⟨s, e, b, h1, h2, C71_quaternion_queries lg S L 2 (by norm_num) s g1 _ hc _ _ e b h1 _⟩

/-- A reference to the shared vector that is kept over another request shows other weights: of order one, the weight of the first
derivative is 0, and after a request for the value the same reference shows 1. -/
example : ∃ (s : MSpline ℚ ℚ) (e : Evaluator ℚ) (b b' : Buffers ℚ) (r : BufRef) (v v' : ℕ → ℚ),
    s.construct ⟨0, -1, false⟩ (1 / 2) (fun _ _ => 77) = .ok (e, b) ∧ s.request ⟨0, -1, false⟩ e false 1 b = (.ok r, b') ∧
    b'.deref r = .ok v ∧ v 0 = 0 ∧ (s.request ⟨0, -1, false⟩ e false 0 b').2.deref r = .ok v' ∧ v' 0 = 1 := by
  obtain ⟨s, -, g1, g2, g3, g4, g5, g6, g7⟩ := C55_init_with_vertices (euclidean ℚ ℚ) 1 (by norm_num) [0, 1, 2] [5, 7] (by
    simp [List.pairwise_cons]) rfl (by decide) (fun _ _ => rfl)
  have hc : (⟨0, -1, false⟩ : Template).Fits 1 := ⟨Or.inr rfl, by norm_num⟩
  obtain ⟨e, b, h1, -⟩ := construct_exists (euclidean ℚ ℚ) 1 (by norm_num) s g1 g2 _ hc (1 / 2) 0 2 g6 g7 (by norm_num) (by norm_num)
    fun _ _ => 77
  obtain ⟨i, hi, H⟩ := C71_request (euclidean ℚ ℚ) 1 (by norm_num) s g1 _ hc _ _ e b h1
  obtain ⟨r, v, b', a1, a2, a3, -, a5⟩ := H [] false 1
  obtain ⟨v', c1, c2⟩ := a5 (by simp [Template.numPrepared]) [] [] false 0 (by simp [Template.numPrepared]) (by simp)
  have ho : s.order = 1 := (g1.mwf (by norm_num)).2
  have hp : ∀ der, s.idealWeight i (1 / 2) false der 0 = (derivative^[der] (1 : ℚ[X])).eval (1 / 2) := by
    intro der
    unfold idealWeight
    rw [ho]
    simp [piece]
  refine ⟨s, e, b, b', r, v, v', h1, a1, a2, ?_, c1, ?_⟩
  · rw [a3 0 (by norm_num), hp]; simp
  · rw [c2 0 (by norm_num), hp]; simp

end Verif.MSpline
