import Verif.Props.Threads

/-!
# C106: expression nodes used by several threads at once
-/

set_option linter.unusedSectionVars false

namespace Verif
namespace Threads

open MSpline

variable {K : Type} [Field K] [LinearOrder K] {P V : Type} {A B : Type}

/-! ### Which calls only need prepared derivatives -/

theorem Prepared.bind {c : Template} {m : Script K A} {f : A → Script K B} (h : Prepared c m) (hf : ∀ a, Prepared c (f a)) : Prepared c (m.bind f) := by
  induction m with
  | done o => cases o with
    | ok a => exact hf a
    | throws => trivial
    | ub => trivial
  | request cum der next ih => exact ⟨h.1, h.2.1, fun r => ih r (h.2.2 r)⟩
  | read k r i next ih => exact fun x => ih x (h x)

theorem Prepared.lift {c : Template} (o : Outcome A) : Prepared c (Script.lift o : Script K A) := trivial

theorem Prepared.map {c : Template} {m : Script K A} (f : A → B) (h : Prepared c m) : Prepared c (m.map f) := h.bind fun _ => .lift _

theorem Prepared.ask {c : Template} {cum : Bool} {der : ℤ} (h : c.cumulative = cum) (hd : der < c.numPrepared) :
    Prepared c (Script.ask cum der : Script K BufRef) := ⟨h, hd, fun _ => trivial⟩

theorem Prepared.readEntry {c : Template} (k : ℕ) (r : BufRef) (i : ℕ) : Prepared c (Script.readEntry k r i : Script K K) := fun _ => trivial

theorem Prepared.coeff {c : Template} {cum : Bool} {der : ℤ} (h : c.cumulative = cum) (hd : der < c.numPrepared) (k i : ℕ) :
    Prepared c (Script.coeff k cum der i : Script K K) := (Prepared.ask h hd).bind fun _ => .readEntry _ _ _

theorem Prepared.foldl {c : Template} {ι : Type} {f : Script K A → ι → Script K A} (hf : ∀ x i, Prepared c x → Prepared c (f x i)) :
    ∀ (l : List ι) (x : Script K A), Prepared c x → Prepared c (l.foldl f x)
  | [], _, h => h
  | i :: l, x, h => Prepared.foldl hf l _ (hf x i h)

theorem Prepared.ite {c : Template} {p : Prop} [Decidable p] {x y : Script K A} (hx : p → Prepared c x) (hy : ¬ p → Prepared c y) :
    Prepared c (if p then x else y) := by
  split
  · exact hx ‹_›
  · exact hy ‹_›

theorem maxDer_le {c : Template} {der : ℤ} (h0 : 0 ≤ c.maxDer) (h : ¬ c.maxDer?.any (fun m => decide ((m : ℤ) < der)) = true) : der ≤ c.maxDer := by
  unfold Template.maxDer? at h
  rw [if_neg (by omega)] at h
  simp at h
  omega

theorem euclideanEvalDS_prepared {c : Template} {D : ℕ} {s : MSpline K (Fin D → K)} (hc : c.cumulative = false) (h0 : 0 ≤ c.maxDer) (ho : c.order = s.order)
    (e : Evaluator K) (der : ℤ) : Prepared c (s.euclideanEvalDS c e der) := by
  unfold euclideanEvalDS
  refine .ite (fun _ => .lift _) fun _ => .ite (fun _ => .lift _) fun h2 => .ite (fun h3 => ?_) fun _ => .lift _
  have := maxDer_le h0 h2
  refine (Prepared.ask hc ?_).bind fun r => (Prepared.lift _).bind fun vs => .foldl (fun x i hx => hx.bind fun p => (Prepared.readEntry _ _ _).bind
    fun _ => .lift _) _ _ (.lift _)
  unfold Template.numPrepared
  split_ifs <;> omega

theorem euclideanEvalJacobianS_prepared {c : Template} {s : MSpline K P} (hc : c.cumulative = false) (h0 : 0 ≤ c.maxDer) (ho : c.order = s.order)
    (e : Evaluator K) (der : ℤ) (hd : der ≤ s.order) : Prepared c (s.euclideanEvalJacobianS c e der) := by
  unfold euclideanEvalJacobianS
  refine .ite (fun _ => .lift _) fun _ => .ite (fun _ => .lift _) fun h2 => ?_
  have := maxDer_le h0 h2
  refine (Prepared.ask hc ?_).bind fun r => .foldl (fun x i hx => hx.bind fun p => (Prepared.readEntry _ _ _).map _) _ _ (.lift _)
  unfold Template.numPrepared
  split_ifs <;> omega

theorem jacobiansS_prepared {Q R : Type} [Zero R] [SMul K R] {c : Template} (s : MSpline K P) (τ : TimeNode K)
    (jac : Evaluator K → Script K (List (List Q))) (zeros : Option ℕ) (timeCol : Evaluator K → Script K Q) (chain : Q → R) (e : Evaluator K)
    (h : Prepared c (jac e)) : Prepared c (jacobiansS s τ none jac zeros timeCol chain e) :=
  h.bind fun _ => (Prepared.lift _).bind fun _ => (Prepared.lift _).bind fun _ => .lift _

/-- All values and all Jacobians of derivatives up to the order of the spline are prepared for Euclidean splines, if the order and the maximal
derivative are known when the program is compiled. -/
theorem euclidean_prepared {c : Template} {D : ℕ} {R : Type} [Zero R] [SMul K R] {s : MSpline K (Fin D → K)} (hc : c.cumulative = false)
    (h0 : 0 ≤ c.maxDer) (ho : c.order = s.order) (τ : TimeNode K) (e : Evaluator K) (q : EuclideanCall K D R)
    (hq : ∀ der chain, q = .jacobians der chain → der ≤ s.order) : Prepared c (q.script c s τ none e) := by
  cases q with
  | value der => exact (euclideanEvalDS_prepared hc h0 ho e der).map _
  | jacobians der chain =>
    exact (jacobiansS_prepared s τ _ _ _ chain e ((euclideanEvalJacobianS_prepared hc h0 ho e der (hq der chain rfl)).map _)).map _

section quaternion

open Quaternion

variable {c : Template} {s : MSpline ℝ ℍ[ℝ]} (hc : c.cumulative = true) (lg : ℍ[ℝ] → V3) (S L : V3 → M33) (e : Evaluator ℝ) (qc : QCache)

include hc

theorem genericLoopS_prepared (M : Mfd K P V) (k : ℕ) (r : BufRef) : ∀ (cs : List P) (i : ℕ) (last p : P), Prepared c (genericLoopS M k r i last p cs)
  | [], _, _, _ => .lift _
  | _ :: cs, _, _, _ => (Prepared.readEntry _ _ _).bind fun _ => genericLoopS_prepared M k r cs _ _ _

theorem evalGenericS_prepared (h0 : 0 < c.numPrepared) : Prepared c (s.evalGenericS (quatGroup lg).toMfd e) :=
  (Prepared.ask hc h0).bind fun r => (Prepared.lift _).bind fun vs => by
    cases vs with
    | nil => exact .lift _
    | cons v cs => exact genericLoopS_prepared hc _ _ r cs _ _ _

theorem qcacheLoopS_prepared (h0 : 0 < c.numPrepared) : ∀ (vs : List ℍ[ℝ]) (k : ℕ) (last : ℍ[ℝ]), Prepared c (s.qcacheLoopS lg e k last vs)
  | [], _, _ => .lift _
  | v :: vs, k, _ => (Prepared.coeff hc h0 _ _).bind fun _ => (qcacheLoopS_prepared h0 vs (k + 1) v).map _

theorem qcacheS_prepared (h0 : 0 < c.numPrepared) : Prepared c (s.qcacheS lg e) :=
  (Prepared.lift _).bind fun vs => by
    cases vs with
    | nil => exact .lift _
    | cons v cs => exact (qcacheLoopS_prepared hc lg e h0 cs 0 v).map _

theorem evalRiDS_prepared (der i : ℕ) (hd : (der : ℤ) < c.numPrepared) : Prepared c (s.evalRiDS e qc der i) := by
  unfold evalRiDS
  rcases der with _ | _ | _ | _ | der <;> rcases qc.phi[i - 1]? with _ | phi <;> rcases qc.ri[i - 1]? with _ | r <;> try exact .lift _
  · exact (Prepared.coeff hc (by push_cast at hd; omega) _ _).bind fun _ => .lift _
  · exact (Prepared.coeff hc (by push_cast at hd; omega) _ _).bind fun _ => (Prepared.coeff hc (by push_cast at hd; omega) _ _).bind fun _ => .lift _
  · exact (Prepared.coeff hc (by push_cast at hd; omega) _ _).bind fun _ => (Prepared.coeff hc (by push_cast at hd; omega) _ _).bind fun _ =>
      (Prepared.coeff hc (by push_cast at hd; omega) _ _).bind fun _ => .lift _

theorem productRestS_prepared : ∀ (rem der factor : ℕ), (der : ℤ) < c.numPrepared → Prepared c (s.productRestS e qc rem der factor)
  | 0, der, _, hd => (evalRiDS_prepared hc e qc der _ hd).map _
  | rem + 1, der, factor, hd => by
    unfold productRestS
    refine (evalRiDS_prepared hc e qc 0 _ (by push_cast; omega)).bind fun r => (productRestS_prepared rem der factor hd).bind fun p => ?_
    have : ∀ l : List ℕ, (∀ d ∈ l, d < der) → ∀ x : Script ℝ ℍ[ℝ], Prepared c x → Prepared c (l.foldl (fun acc d => acc.bind fun a =>
      (s.evalRiDS e qc (d + 1) (s.order - 1 - (rem + 1))).bind fun r' =>
      (s.productRestS e qc rem (der - (d + 1)) (factor / (d + 1).factorial)).bind fun p' => Script.lift (.ok (a + qplus r' p'))) x) := by
      intro l
      induction l with
      | nil => exact fun _ x hx => hx
      | cons d l ih =>
        intro hl x hx
        have := hl d (by simp)
        refine ih (fun d hd => hl d (by simp [hd])) _ (hx.bind fun a => (evalRiDS_prepared hc e qc (d + 1) _ (by push_cast; omega)).bind fun r' =>
          (productRestS_prepared rem _ _ (by push_cast; omega)).bind fun p' => .lift _)
    exact this _ (fun d hd => List.mem_range.1 hd) _ (.lift _)

theorem evalDRecursiveS_prepared (der : ℤ) (h0 : 0 < c.numPrepared) (hd : der < c.numPrepared) : Prepared c (s.evalDRecursiveS lg e der) :=
  (qcacheS_prepared hc lg e h0).bind fun qc => .ite (fun _ => .lift _) fun _ => .ite (fun _ => .lift _) fun _ =>
    (productRestS_prepared hc e qc _ _ _ (by omega)).bind fun p => by cases qc.verts <;> exact .lift _

theorem d1LoopS_prepared (hd : 1 < c.numPrepared) : ∀ (n i : ℕ) (A sum : ℍ[ℝ]), Prepared c (s.d1LoopS e qc n i A sum)
  | 0, _, _, _ => .lift _
  | n + 1, i, _, _ => (evalRiDS_prepared hc e qc 1 i (by simpa using hd)).bind fun _ =>
    (evalRiDS_prepared hc e qc 0 i (by push_cast; omega)).bind fun _ => d1LoopS_prepared hd n _ _ _

theorem quatEvalDS_prepared (der : ℤ) (h0 : 0 < c.numPrepared) (hd : der < c.numPrepared) : Prepared c (s.quatEvalDS lg e der) := by
  unfold quatEvalDS
  refine .ite (fun _ => evalGenericS_prepared hc lg e h0) fun _ => .ite (fun h1 => ?_) fun _ => evalDRecursiveS_prepared hc lg e der h0 hd
  exact (qcacheS_prepared hc lg e h0).bind fun qc => (d1LoopS_prepared hc e qc (by omega) _ _ _ _).bind fun p => by cases qc.verts <;> exact .lift _

theorem evalAngularDerivativeS_prepared (der : ℕ) (hd : (der : ℤ) < c.numPrepared) : Prepared c (s.evalAngularDerivativeS lg e der) :=
  (quatEvalDS_prepared hc lg e der (by omega) hd).bind fun _ => (quatEvalDS_prepared hc lg e 0 (by omega) (by omega)).bind fun _ =>
    .ite (fun h => (quatEvalDS_prepared hc lg e 1 (by omega) (by omega)).bind fun _ => (quatEvalDS_prepared hc lg e 2 (by omega) (by omega)).bind
      fun _ => .lift _) fun _ => .lift _

theorem riDJacobianS_prepared (der i : ℕ) (hd : (der : ℤ) < c.numPrepared) : Prepared c (s.riDJacobianS S L e qc der i) := by
  unfold riDJacobianS
  refine (Prepared.lift _).bind fun _ => (Prepared.lift _).bind fun _ => (Prepared.lift _).bind fun _ => (Prepared.coeff hc (by omega) _ _).bind fun _ =>
    (Prepared.coeff hc (by omega) _ _).bind fun _ => ?_
  rcases der with _ | _ | _ | der
  · exact .lift _
  · exact (Prepared.coeff hc (by push_cast at hd; omega) _ _).bind fun _ => .lift _
  · exact (Prepared.coeff hc (by push_cast at hd; omega) _ _).bind fun _ => (Prepared.coeff hc (by push_cast at hd; omega) _ _).bind fun _ => .lift _
  · exact .lift _

theorem riDJacobianOfS_prepared (der i j : ℕ) (hd : (der : ℤ) < c.numPrepared) : Prepared c (s.riDJacobianOfS S L e qc der i j) :=
  .ite (fun _ => .lift _) fun _ => (riDJacobianS_prepared hc S L e qc der i hd).map _

theorem jacobianRestS_prepared (j : ℕ) : ∀ (rem der factor : ℕ), (der : ℤ) < c.numPrepared → Prepared c (s.jacobianRestS S L e qc j rem der factor)
  | 0, der, _, hd => .ite (fun _ => (riDJacobianOfS_prepared hc S L e qc der _ j hd).map _) fun _ => .lift _
  | rem + 1, der, factor, hd => by
    unfold jacobianRestS
    refine (evalRiDS_prepared hc e qc 0 _ (by push_cast; omega)).bind fun r => (jacobianRestS_prepared j rem der factor hd).bind fun p =>
      (Prepared.ite (fun _ => (productRestS_prepared hc e qc rem der factor hd).bind fun _ =>
        (riDJacobianOfS_prepared hc S L e qc 0 _ j (by push_cast; omega)).bind fun _ => .lift _) fun _ => .lift _).bind fun start => ?_
    generalize hi : s.order - 1 - (rem + 1) = i
    have : ∀ l : List ℕ, (∀ d ∈ l, d < der) → ∀ x : Script ℝ DMat, Prepared c x → Prepared c (l.foldl (fun acc d => acc.bind fun a =>
      (if ¬ isJacobianZero i j then
        (s.productRestS e qc rem (der - (d + 1)) (factor / (d + 1).factorial)).bind fun q =>
        (s.riDJacobianOfS S L e qc (d + 1) i j).bind fun M => Script.lift (.ok (a + mapCols (quatOPlus q) M))
      else Script.lift (.ok a)).bind fun a' =>
      (s.evalRiDS e qc (d + 1) i).bind fun r =>
      (s.jacobianRestS S L e qc j rem (der - (d + 1)) (factor / (d + 1).factorial)).bind fun p =>
        Script.lift (.ok (a' + mapCols (quatPlus r) p))) x) := by
      intro l
      induction l with
      | nil => exact fun _ x hx => hx
      | cons d l ih =>
        intro hl x hx
        have := hl d (by simp)
        exact ih (fun d hd => hl d (by simp [hd])) _ (hx.bind fun a => (Prepared.ite (fun _ => (productRestS_prepared hc e qc rem _ _ (by push_cast; omega)).bind
          fun _ => (riDJacobianOfS_prepared hc S L e qc (d + 1) _ j (by push_cast; omega)).bind fun _ => .lift _) fun _ => .lift _).bind fun a' =>
          (evalRiDS_prepared hc e qc (d + 1) _ (by push_cast; omega)).bind fun r' =>
          (jacobianRestS_prepared j rem _ _ (by push_cast; omega)).bind fun p' => .lift _)
    exact this _ (fun d hd => List.mem_range.1 hd) _ (.lift _)

theorem jacobianDLoopS_prepared (der : ℕ) (hd : (der : ℤ) < c.numPrepared) : ∀ (n j : ℕ), Prepared c (s.jacobianDLoopS S L e qc der n j)
  | 0, _ => .lift _
  | n + 1, j => (Prepared.lift _).bind fun _ => (Prepared.ite (fun _ => (productRestS_prepared hc e qc _ _ _ hd).map _) fun _ => .lift _).bind fun _ =>
    (jacobianRestS_prepared hc S L e qc j _ _ _ hd).bind fun _ => (jacobianDLoopS_prepared der hd n (j + 1)).map _

theorem jacobianLoopS_prepared (h0 : 0 < c.numPrepared) : ∀ (n j : ℕ) (prev : (ℍ[ℝ] → ℍ[ℝ]) × DMat), Prepared c (s.jacobianLoopS S L e qc n j prev)
  | 0, _, _ => .lift _
  | n + 1, j, prev => (Prepared.lift _).bind fun _ => (Prepared.lift _).bind fun _ => .ite
    (fun _ => (riDJacobianS_prepared hc S L e qc 0 _ (by simpa using h0)).bind fun _ => (Prepared.lift _).bind fun _ => (Prepared.lift _).bind fun _ =>
      (jacobianLoopS_prepared h0 n _ _).map _) fun _ => (jacobianLoopS_prepared h0 n _ prev).map _

theorem quatEvalJacobianS_prepared (der : ℤ) (h0 : 0 < c.numPrepared) (hd : der < c.numPrepared) : Prepared c (s.quatEvalJacobianS lg S L e der) :=
  .ite (fun _ => (qcacheS_prepared hc lg e h0).bind fun qc => jacobianLoopS_prepared hc S L e qc h0 _ _ _) fun _ =>
    .ite (fun _ => .lift _) fun _ => (qcacheS_prepared hc lg e h0).bind fun qc => .ite (fun _ => .lift _) fun _ =>
      jacobianDLoopS_prepared hc S L e qc _ (by omega) _ _

theorem evalAngularJacobianS_prepared (der : ℕ) (hd : (der : ℤ) < c.numPrepared) : Prepared c (s.evalAngularJacobianS lg S L e der) :=
  (quatEvalDS_prepared hc lg e der (by omega) hd).bind fun _ => (quatEvalDS_prepared hc lg e 0 (by omega) (by omega)).bind fun _ =>
    (quatEvalJacobianS_prepared hc lg S L e der (by omega) hd).bind fun _ => (quatEvalJacobianS_prepared hc lg S L e 0 (by omega) (by omega)).bind fun _ => .lift _

/-- The derivative a call on a quaternion node is for. -/
def callOrder {R : Type} : QuaternionCall R → ℤ
  | .value der => der
  | .jacobians der _ => der
  | .angular der => der
  | .angularJacobians der _ => der

/-- All calls for prepared derivatives only need prepared derivatives of a quaternion spline. -/
theorem quaternion_prepared {R : Type} [Zero R] [SMul ℝ R] (h0 : 0 < c.numPrepared) (τ : TimeNode ℝ) (q : QuaternionCall R)
    (hq : callOrder q < c.numPrepared) : Prepared c (q.script lg S L c s τ none e) := by
  cases q with
  | value der => exact (quatEvalDS_prepared hc lg e der h0 hq).map _
  | jacobians der chain => exact (jacobiansS_prepared s τ _ _ _ chain e ((quatEvalJacobianS_prepared hc lg S L e der h0 hq).map _)).map _
  | angular der => exact (evalAngularDerivativeS_prepared hc lg e der hq).map _
  | angularJacobians der chain => exact (jacobiansS_prepared s τ _ _ _ chain e ((evalAngularJacobianS_prepared hc lg S L e der hq).map _)).map _

end quaternion

/-! ### All threads together -/

section together

variable [IsStrictOrderedRing K] {α X R : Type}

/-- The data of a factory that was just made, for the time or the bounds `x`. -/
def MadeFor (c : Template) (s : MSpline K P) (junk : ℕ → K) (d : LiveData K) (x : FactoryData K) : Prop :=
  (∃ t, LiveData.atTime c s t (fun _ => junk) = .ok d ∧ x = .constTime t) ∨
    ∃ lower upper, LiveData.between s lower upper = .ok d ∧ x = .timed ⟨lower, upper, none⟩

theorem MadeFor.new {c : Template} {s : MSpline K P} {junk : ℕ → K} {d : LiveData K} {x : FactoryData K} (h : MadeFor c s junk d x) : New junk d := by
  rcases h with ⟨t, h, -⟩ | ⟨lower, upper, h, -⟩
  · obtain ⟨y, hy, rfl⟩ := Outcome.map_eq_ok.1 h
    exact construct_fresh hy
  · obtain ⟨y, -, rfl⟩ := Outcome.map_eq_ok.1 h
    rfl

theorem threads_answer (M : Mfd K P V) (c : Template) (code : Code K P α X R) (s : MSpline K P) (junk : ℕ → K) (d : ℕ → LiveData K)
    (answer : MSpline K P → TimeNode K → FactoryData K → α → Outcome (NodeAnswer K X R)) (x : ℕ → FactoryData K) (hd : ∀ f, New junk (d f))
    (calls : ℕ → List (NodeCall K α)) (hs : SharedSafely c code s d calls)
    (ha : ∀ i f, nodeSession M c (fun c s τ b e q => (code c s τ b e q).toBufM c s e) (callsOn junk f (calls i)) s (d f) =
      nodeExpected M answer (x f) (callsOn junk f (calls i)) s) :
    ∃ N : ℕ → ℕ, ∀ is : List ℕ, ¬ Race (run is (threads c code s junk d calls) (memory d)).1 ∧
      (∀ i as, (run is (threads c code s junk d calls) (memory d)).2.1 i = .done as →
        as = (calls i).map fun q => answer s q.time (x q.factory) q.query) ∧
      ∀ i, N i < is.count i → ∃ as, (run is (threads c code s junk d calls) (memory d)).2.1 i = .done as := by
  obtain ⟨hk, hsolo⟩ := threads_keepApart c code s junk d hd calls hs
  refine ⟨fun i => (solo (threads c code s junk d calls i) (memory d)).1.length, fun is => ?_⟩
  obtain ⟨r1, r2, r3⟩ := keepApart_run _ _ hk is
  refine ⟨r1, fun i as h => ?_, r3⟩
  rw [r2 i as h, hsolo]
  refine eq_of_partOn (calls i) _ _ (answersAlone_length c code s junk _ _) (by simp) fun f => ?_
  rw [answersAlone_partOn M c code s junk f (calls i) d, ha, callsOn_expected]

end together

/-! ### C106 -/

section euclidean

variable [IsStrictOrderedRing K] {D : ℕ} {R : Type} [Zero R] [SMul K R]

/-- The calls on the nodes of a Euclidean spline. -/
abbrev euclideanCode : Code K (Fin D → K) (EuclideanCall K D R) (Fin D → K) R := fun c s τ b e q => q.script c s τ b e

theorem nodesRegular_callsOn {α : Type} (M : Mfd K P V) (junk : ℕ → K) (f : ℕ) (qs : List (NodeCall K α)) (s : MSpline K P) :
    NodesRegular M (callsOn junk f qs) s := by
  unfold callsOn
  induction qs.filter fun q => q.factory = f with
  | nil => trivial
  | cons q l ih => exact ih

/-- **C106**: several threads use the nodes of a Euclidean spline at once.  If different threads share a factory only when it is for a constant
time, with the order and the maximal derivative known when the program is compiled, and blocks are only asked for derivatives up to the
order, then whatever the order of their accesses there is no data race, all threads get the answers of new nodes, and each is done after enough
turns.  (As in C94: nobody asks a node for a variable time at a knot after another time of the knot interval that begins there.  Missing: shared
factories of other kinds, see `C106_buffer_violated` and `C106_timed_violated`.) -/
theorem C106_euclidean_partial (order : ℕ) (ho : 1 ≤ order) (s : MSpline K (Fin D → K)) (h : RegularReach (euclidean K (Fin D → K)) order s)
    (hst : s.state = .evaluable) (c : Template) (hc : c.Fits order) (junk : ℕ → K) (d : ℕ → LiveData K) (x : ℕ → FactoryData K)
    (hd : ∀ f, MadeFor c s junk (d f) (x f)) (calls : ℕ → List (NodeCall K (EuclideanCall K D R)))
    (hs : ∀ i j, i ≠ j → ∀ q ∈ calls i, ∀ q' ∈ calls j, q.factory = q'.factory → (∃ t, x q.factory = .constTime t) ∧ c.cumulative = false ∧
      c.order = order ∧ 0 ≤ c.maxDer ∧ ∀ der chain, q.query = .jacobians der chain → der ≤ order)
    (ha : ∀ i f, (∃ t, x f = .constTime t) ∨ Apart (euclidean K (Fin D → K)) (callsOn junk f (calls i)) s []) :
    ∃ N : ℕ → ℕ, ∀ is : List ℕ, ¬ Race (run is (threads c euclideanCode s junk d calls) (memory d)).1 ∧
      (∀ i as, (run is (threads c euclideanCode s junk d calls) (memory d)).2.1 i = .done as →
        as = (calls i).map fun q => q.query.answer c.maxDer? s q.time (x q.factory)) ∧
      ∀ i, N i < is.count i → ∃ as, (run is (threads c euclideanCode s junk d calls) (memory d)).2.1 i = .done as := by
  obtain ⟨hw, rfl⟩ := h.mwf ho
  refine threads_answer (euclidean K (Fin D → K)) c euclideanCode s junk d (fun s τ x q => EuclideanCall.answer c.maxDer? s τ x q) x
    (fun f => (hd f).new) calls (fun i j hij q hq q' hq' e => ?_) fun i f => ?_
  · obtain ⟨⟨t, ht⟩, h1, h2, h3, h4⟩ := hs i j hij q hq q' hq' e
    refine ⟨?_, fun e => euclidean_prepared h1 h3 h2 _ e _ h4⟩
    rcases hd q.factory with ⟨t', h', -⟩ | ⟨lo, up, -, h'⟩
    · obtain ⟨y, -, hy⟩ := Outcome.map_eq_ok.1 h'
      rw [← hy]
      rfl
    · rw [ht] at h'
      cases h'
  · simp only [euclideanCode, EuclideanCall.script_toBufM]
    rcases hd f with ⟨t, h', ex⟩ | ⟨lo, up, h', ex⟩
    · rw [ex]
      exact C94_euclidean_const_partial s.order ho s h c hc t _ (d f) h' _ (nodesRegular_callsOn _ _ _ _ _) _ (getMaxTime_eq hw hst)
        (Or.inr fun c hc => absurd hc (callsOn_change _ _ _ _))
    · rw [ex]
      refine C94_euclidean_timed_partial s.order ho s h hst c hc lo up (d f) h' _ (nodesRegular_callsOn _ _ _ _ _) ((ha i f).resolve_left ?_)
      rintro ⟨t, ht⟩
      rw [ex] at ht
      cases ht

end euclidean

section quaternions

open Quaternion

variable {R : Type} [Zero R] [SMul ℝ R]

/-- The calls on the nodes of a quaternion spline. -/
noncomputable abbrev quaternionCode (lg : ℍ[ℝ] → V3) (S L : V3 → M33) : Code ℝ ℍ[ℝ] (QuaternionCall R) (ℍ[ℝ] ⊕ V3) R :=
  fun c s τ b e q => q.script lg S L c s τ b e

/-- **C106**: the same for the nodes of a quaternion spline, for which different threads share factories only for constant times and only ask for
derivatives the evaluator prepares. -/
theorem C106_quaternion_partial (lg : ℍ[ℝ] → V3) (S L : V3 → M33) (order : ℕ) (ho : 1 ≤ order) (s : MSpline ℝ ℍ[ℝ])
    (h : RegularReach (quatGroup lg).toMfd order s) (hst : s.state = .evaluable) (c : Template) (hc : c.Fits order) (junk : ℕ → ℝ)
    (d : ℕ → LiveData ℝ) (x : ℕ → FactoryData ℝ) (hd : ∀ f, MadeFor c s junk (d f) (x f)) (calls : ℕ → List (NodeCall ℝ (QuaternionCall R)))
    (hs : ∀ i j, i ≠ j → ∀ q ∈ calls i, ∀ q' ∈ calls j, q.factory = q'.factory → (∃ t, x q.factory = .constTime t) ∧ c.cumulative = true ∧
      c.order = order ∧ 0 ≤ c.maxDer ∧ callOrder q.query ≤ c.maxDer ∧ callOrder q.query ≤ order)
    (ha : ∀ i f, (∃ t, x f = .constTime t) ∨ Apart (quatGroup lg).toMfd (callsOn junk f (calls i)) s []) :
    ∃ N : ℕ → ℕ, ∀ is : List ℕ, ¬ Race (run is (threads c (quaternionCode lg S L) s junk d calls) (memory d)).1 ∧
      (∀ i as, (run is (threads c (quaternionCode lg S L) s junk d calls) (memory d)).2.1 i = .done as →
        as = (calls i).map fun q => q.query.answer lg S L s q.time (x q.factory)) ∧
      ∀ i, N i < is.count i → ∃ as, (run is (threads c (quaternionCode lg S L) s junk d calls) (memory d)).2.1 i = .done as := by
  obtain ⟨hw, rfl⟩ := h.mwf ho
  refine threads_answer (quatGroup lg).toMfd c (quaternionCode lg S L) s junk d (fun s τ x q => QuaternionCall.answer lg S L s τ x q) x
    (fun f => (hd f).new) calls (fun i j hij q hq q' hq' e => ?_) fun i f => ?_
  · obtain ⟨⟨t, ht⟩, h1, h2, h3, h4, h5⟩ := hs i j hij q hq q' hq' e
    refine ⟨?_, fun e => quaternion_prepared h1 lg S L e ?_ _ _ ?_⟩
    · rcases hd q.factory with ⟨t', h', -⟩ | ⟨lo, up, -, h'⟩
      · obtain ⟨y, -, hy⟩ := Outcome.map_eq_ok.1 h'
        rw [← hy]
        rfl
      · rw [ht] at h'
        cases h'
    · unfold Template.numPrepared
      split_ifs <;> omega
    · unfold Template.numPrepared
      split_ifs <;> omega
  · simp only [quaternionCode, QuaternionCall.script_toBufM]
    rcases hd f with ⟨t, h', ex⟩ | ⟨lo, up, h', ex⟩
    · rw [ex]
      exact C94_quaternion_const_partial lg S L s.order ho s h c hc t _ (d f) h' _ (nodesRegular_callsOn _ _ _ _ _) _ (getMaxTime_eq hw hst)
        (Or.inr fun c hc => absurd hc (callsOn_change _ _ _ _))
    · rw [ex]
      refine C94_quaternion_timed_partial lg S L s.order ho s h hst c hc lo up (d f) h' _ (nodesRegular_callsOn _ _ _ _ _) ((ha i f).resolve_left ?_)
      rintro ⟨t, ht⟩
      rw [ex] at ht
      cases ht

end quaternions

/-! ### What goes wrong -/

/-- The result of a thread that is done. -/
def Prog.result {L W A : Type} : Prog L W A → Option A
  | .done a => some a
  | _ => none

theorem Prog.result_eq {L W A : Type} {p : Prog L W A} {a : A} (h : p.result = some a) : p = .done a := by
  cases p with
  | done b => exact congrArg _ (Option.some.inj h)
  | read => cases h
  | write => cases h

instance {L : Type} [DecidableEq L] (tr : List (Access L)) : Decidable (Race tr) := by
  unfold Race
  infer_instance

/-- One thread asks a node for the value, another one the same node or another of the same factory for the velocity. -/
def twoCalls (i : ℕ) : List (NodeCall ℚ (EuclideanCall ℚ 1 (Fin 1 → ℚ))) :=
  if i = 0 then [⟨0, .value 0, nodeTime (3 / 2)⟩] else if i = 1 then [⟨0, .value 1, nodeTime (3 / 2)⟩] else []

/-- **C106 is violated by shared buffers**: with an order that is only known when the program runs, a thread that asks for the value of the
spline gets its velocity, because another thread uses the same evaluator in between. -/
theorem C106_buffer_violated : ∃ (s : MSpline ℚ (Fin 1 → ℚ)) (d : LiveData ℚ) (is : List ℕ), RegularReach (euclidean ℚ (Fin 1 → ℚ)) 2 s ∧
    LiveData.atTime ⟨1, -1, false⟩ s (3 / 2) (fun _ _ => 77) = .ok d ∧
    Race (run is (threads ⟨1, -1, false⟩ euclideanCode s (fun _ => 77) (fun _ => d) twoCalls) (memory fun _ => d)).1 ∧
    (run is (threads ⟨1, -1, false⟩ euclideanCode s (fun _ => 77) (fun _ => d) twoCalls) (memory fun _ => d)).2.1 0 = .done [.ok (.value ![1])] ∧
    (EuclideanCall.value 0 : EuclideanCall ℚ 1 (Fin 1 → ℚ)).answer (some 1) s (nodeTime (3 / 2)) (.constTime (3 / 2)) = .ok (.value ![1 / 2]) := by
  have key : ∀ x, LiveData.atTime ⟨1, -1, false⟩ nodeSpline (3 / 2) (fun _ _ => 77) = x → (x.bind fun d => .ok
      (decide (Race (run [0, 0, 0, 1, 1, 1, 0, 0] (threads ⟨1, -1, false⟩ euclideanCode nodeSpline (fun _ => 77) (fun _ => d) twoCalls) (memory fun _ => d)).1),
       decide (((run [0, 0, 0, 1, 1, 1, 0, 0] (threads ⟨1, -1, false⟩ euclideanCode nodeSpline (fun _ => 77) (fun _ => d) twoCalls) (memory fun _ => d)).2.1 0).result = some [.ok (.value ![1])])))
      = .ok (true, true) := by
    rintro _ rfl
    decide +kernel
  rcases hx : LiveData.atTime ⟨1, -1, false⟩ nodeSpline (3 / 2) (fun _ _ => 77) with d | _ | _
  · have := Outcome.ok.inj (key _ hx)
    rw [Prod.mk.injEq] at this
    exact ⟨nodeSpline, d, [0, 0, 0, 1, 1, 1, 0, 0], .call _ .create trivial, hx, of_decide_eq_true this.1, Prog.result_eq (of_decide_eq_true this.2), by decide +kernel⟩
  · exact absurd (key _ hx) (by simp [Outcome.bind])
  · exact absurd (key _ hx) (by simp [Outcome.bind])

/-- Two threads ask nodes of a factory for a variable time, at different times. -/
def twoTimes (i : ℕ) : List (NodeCall ℚ (EuclideanCall ℚ 1 (Fin 1 → ℚ))) :=
  if i = 0 then [⟨0, .value 0, nodeTime (3 / 2)⟩] else if i = 1 then [⟨0, .value 0, nodeTime (5 / 4)⟩] else []

/-- **C106 is violated by factories for a variable time**, also with all template arguments known when the program is compiled: a thread uses an evaluator that another one deleted. -/
theorem C106_timed_violated : ∃ (s : MSpline ℚ (Fin 1 → ℚ)) (d : LiveData ℚ) (is : List ℕ), RegularReach (euclidean ℚ (Fin 1 → ℚ)) 2 s ∧
    LiveData.between s 1 2 = .ok d ∧
    Race (run is (threads ⟨1, 2, false⟩ euclideanCode s (fun _ => 77) (fun _ => d) twoTimes) (memory fun _ => d)).1 ∧
    (run is (threads ⟨1, 2, false⟩ euclideanCode s (fun _ => 77) (fun _ => d) twoTimes) (memory fun _ => d)).2.1 0 = .done [.ub] := by
  have key : ∀ x, LiveData.between nodeSpline 1 2 = x → (x.bind fun d => .ok
      (decide (Race (run (List.replicate 9 0 ++ List.replicate 14 1 ++ [0]) (threads ⟨1, 2, false⟩ euclideanCode nodeSpline (fun _ => 77) (fun _ => d) twoTimes) (memory fun _ => d)).1),
       decide (((run (List.replicate 9 0 ++ List.replicate 14 1 ++ [0]) (threads ⟨1, 2, false⟩ euclideanCode nodeSpline (fun _ => 77) (fun _ => d) twoTimes) (memory fun _ => d)).2.1 0).result = some [.ub])))
      = .ok (true, true) := by
    rintro _ rfl
    decide +kernel
  rcases hx : LiveData.between nodeSpline 1 2 with d | _ | _
  · have := Outcome.ok.inj (key _ hx)
    rw [Prod.mk.injEq] at this
    exact ⟨nodeSpline, d, _, .call _ .create trivial, hx, of_decide_eq_true this.1, Prog.result_eq (of_decide_eq_true this.2)⟩
  · exact absurd (key _ hx) (by simp [Outcome.bind])
  · exact absurd (key _ hx) (by simp [Outcome.bind])

/-- The second thread asks at another time while the first one does. -/
def threeTimes (i : ℕ) : List (NodeCall ℚ (EuclideanCall ℚ 1 (Fin 1 → ℚ))) :=
  if i = 0 then [⟨0, .value 0, nodeTime (3 / 2)⟩, ⟨0, .value 0, nodeTime (5 / 4)⟩] else if i = 1 then [⟨0, .value 0, nodeTime (7 / 4)⟩] else []

/-- **C106 is violated by factories for a variable time** in more ways: a thread deletes an evaluator that another one has just deleted, and a thread
reads the weights of an evaluator that another one deleted. -/
theorem C106_deleted_violated : ∃ (s : MSpline ℚ (Fin 1 → ℚ)) (d : LiveData ℚ) (is js : List ℕ), RegularReach (euclidean ℚ (Fin 1 → ℚ)) 2 s ∧
    LiveData.between s 1 2 = .ok d ∧
    (run is (threads ⟨1, 2, false⟩ euclideanCode s (fun _ => 77) (fun _ => d) threeTimes) (memory fun _ => d)).2.1 0 = .done [.ok (.value ![1 / 2]), .ub] ∧
    (run js (threads ⟨1, 2, false⟩ euclideanCode s (fun _ => 77) (fun _ => d) twoTimes) (memory fun _ => d)).2.1 0 = .done [.ub] := by
  have key : ∀ x, LiveData.between nodeSpline 1 2 = x → (x.bind fun d => .ok
      (decide (((run (List.replicate 16 0 ++ List.replicate 7 1 ++ [0]) (threads ⟨1, 2, false⟩ euclideanCode nodeSpline (fun _ => 77) (fun _ => d) threeTimes)
         (memory fun _ => d)).2.1 0).result = some [.ok (.value ![1 / 2]), .ub]),
       decide (((run (List.replicate 10 0 ++ List.replicate 9 1 ++ [0]) (threads ⟨1, 2, false⟩ euclideanCode nodeSpline (fun _ => 77) (fun _ => d) twoTimes)
         (memory fun _ => d)).2.1 0).result = some [.ub])))
      = .ok (true, true) := by
    rintro _ rfl
    decide +kernel
  rcases hx : LiveData.between nodeSpline 1 2 with d | _ | _
  · have := Outcome.ok.inj (key _ hx)
    rw [Prod.mk.injEq] at this
    exact ⟨nodeSpline, d, _, _, .call _ .create trivial, hx, Prog.result_eq (of_decide_eq_true this.1), Prog.result_eq (of_decide_eq_true this.2)⟩
  · exact absurd (key _ hx) (by simp [Outcome.bind])
  · exact absurd (key _ hx) (by simp [Outcome.bind])

/-- Two threads share the factory 0, for a constant time; the factory 1, for a variable time, is only used by the first. -/
def sharedCalls (i : ℕ) : List (NodeCall ℚ (EuclideanCall ℚ 1 (Fin 1 → ℚ))) :=
  if i = 0 then [⟨0, .value 0, nodeTime (3 / 2)⟩, ⟨1, .value 0, nodeTime (3 / 2)⟩, ⟨1, .value 1, nodeTime (5 / 4)⟩]
  else if i = 1 then [⟨0, .value 1, nodeTime (3 / 2)⟩, ⟨0, .jacobians 1 id, nodeTime (3 / 2)⟩] else []

/-- The hypotheses of `C106_euclidean_partial`, and what the threads get when they take turns. -/
example : ∃ (s : MSpline ℚ (Fin 1 → ℚ)) (d : ℕ → LiveData ℚ) (x : ℕ → FactoryData ℚ) (is : List ℕ),
    RegularReach (euclidean ℚ (Fin 1 → ℚ)) 2 s ∧ s.state = .evaluable ∧ (⟨1, 2, false⟩ : Template).Fits 2 ∧
    (∀ f, MadeFor ⟨1, 2, false⟩ s (fun _ => 77) (d f) (x f)) ∧
    (∀ i j, i ≠ j → ∀ q ∈ sharedCalls i, ∀ q' ∈ sharedCalls j, q.factory = q'.factory → (∃ t, x q.factory = .constTime t) ∧
      ∀ der chain, q.query = .jacobians der chain → der ≤ 2) ∧
    (∀ i f, (∃ t, x f = .constTime t) ∨ Apart (euclidean ℚ (Fin 1 → ℚ)) (callsOn (fun _ => 77) f (sharedCalls i)) s []) ∧
    (run is (threads ⟨1, 2, false⟩ euclideanCode s (fun _ => 77) d sharedCalls) (memory d)).2.1 0 =
      .done [.ok (.value ![1 / 2]), .ok (.value ![1 / 2]), .ok (.value ![1])] ∧
    (run is (threads ⟨1, 2, false⟩ euclideanCode s (fun _ => 77) d sharedCalls) (memory d)).2.1 1 =
      .done [.ok (.value ![1]), .ok (.blocks [(.seg 0, [![-1]]), (.seg 1, [![1]])])] := by
  have key : ∀ x y, LiveData.atTime ⟨1, 2, false⟩ nodeSpline (3 / 2) (fun _ _ => 77) = x → LiveData.between nodeSpline 1 2 = y →
      (x.bind fun d0 => y.bind fun d1 => .ok
        (decide (((run ((List.range 160).map (· % 2)) (threads ⟨1, 2, false⟩ euclideanCode nodeSpline (fun _ => 77) (fun f => if f = 0 then d0 else d1) sharedCalls)
          (memory fun f => if f = 0 then d0 else d1)).2.1 0).result = some [.ok (.value ![1 / 2]), .ok (.value ![1 / 2]), .ok (.value ![1])]),
         decide (((run ((List.range 160).map (· % 2)) (threads ⟨1, 2, false⟩ euclideanCode nodeSpline (fun _ => 77) (fun f => if f = 0 then d0 else d1) sharedCalls)
          (memory fun f => if f = 0 then d0 else d1)).2.1 1).result = some [.ok (.value ![1]), .ok (.blocks [(.seg 0, [![-1]]), (.seg 1, [![1]])])])))
      = .ok (true, true) := by
    rintro _ _ rfl rfl
    decide +kernel
  rcases hx : LiveData.atTime ⟨1, 2, false⟩ nodeSpline (3 / 2) (fun _ _ => 77) with d0 | _ | _
  · rcases hy : LiveData.between nodeSpline 1 2 with d1 | _ | _
    · have := Outcome.ok.inj (key _ _ hx hy)
      rw [Prod.mk.injEq] at this
      refine ⟨nodeSpline, fun f => if f = 0 then d0 else d1, fun f => if f = 0 then .constTime (3 / 2) else .timed ⟨1, 2, none⟩, _, .call _ .create trivial,
        rfl, ⟨Or.inl rfl, by norm_num⟩, fun f => ?_, fun i j hij q hq q' hq' e => ?_, fun i f => ?_, Prog.result_eq (of_decide_eq_true this.1),
        Prog.result_eq (of_decide_eq_true this.2)⟩
      · by_cases e : f = 0
        · simp only [if_pos e]
          exact Or.inl ⟨_, hx, rfl⟩
        · simp only [if_neg e]
          exact Or.inr ⟨_, _, hy, rfl⟩
      · unfold sharedCalls at hq hq'
        have h0 : q.factory = 0 := by
          split_ifs at hq hq' <;> simp at hq hq'
          · omega
          · rcases hq' with rfl | rfl <;> exact e
          · rcases hq with rfl | rfl <;> rfl
          · rcases hq with rfl | rfl <;> rfl
        refine ⟨⟨_, if_pos h0⟩, fun der chain hd => ?_⟩
        split_ifs at hq <;> simp at hq
        · rcases hq with rfl | rfl | rfl <;> simp at hd
        · rcases hq with rfl | rfl <;> simp at hd
          omega
      · by_cases e : f = 0
        · exact Or.inl ⟨_, if_pos e⟩
        · refine Or.inr ?_
          unfold sharedCalls
          by_cases e1 : f = 1
          · subst e1
            split_ifs
            · refine ⟨by simp, fun c hc => Or.inl ?_, trivial⟩
              decide +kernel
            · trivial
            · trivial
          · have e0 : ¬ (0 = f) := fun h => e h.symm
            have e1' : ¬ (1 = f) := fun h => e1 h.symm
            split_ifs <;> simp [callsOn, e0, e1', Apart]
    · exact absurd (key _ _ hx hy) (by simp [Outcome.bind])
    · exact absurd (key _ _ hx hy) (by simp [Outcome.bind])
  · exact absurd (key _ _ hx rfl) (by simp [Outcome.bind])
  · exact absurd (key _ _ hx rfl) (by simp [Outcome.bind])

open Quaternion in
/-- The hypotheses of `C106_quaternion_partial`: two threads ask a shared factory for a rotation, an angular velocity and its blocks. -/
example : ∃ (s : MSpline ℝ ℍ[ℝ]) (d : ℕ → LiveData ℝ) (calls : ℕ → List (NodeCall ℝ (QuaternionCall V3))),
    RegularReach (quatGroup arcLog).toMfd 2 s ∧ s.state = .evaluable ∧ (⟨1, 2, true⟩ : Template).Fits 2 ∧
    (∀ f, MadeFor ⟨1, 2, true⟩ s (fun _ => 77) (d f) (.constTime (5 / 2))) ∧
    (∀ i j, i ≠ j → ∀ q ∈ calls i, ∀ q' ∈ calls j, q.factory = q'.factory → callOrder q.query ≤ 1) ∧ (calls 0).length = 2 ∧ (calls 1).length = 1 := by
  obtain ⟨s, g, hw, ho, hst, hk, hv, i1, i2, w0, w1, hx⟩ := demo_window
  have hc : (⟨1, 2, true⟩ : Template).Fits 2 := ⟨Or.inl rfl, by norm_num⟩
  obtain ⟨b, hb, -⟩ := construct_eq hw hst i2 (by rw [ho]; exact hc) (fun _ _ => 77)
  refine ⟨s, fun _ => _, fun i => if i = 0 then [⟨0, .value 0, ⟨0, []⟩⟩, ⟨0, .angular 1, ⟨0, []⟩⟩] else if i = 1 then [⟨0, .angularJacobians 1 id, ⟨0, []⟩⟩]
    else [], g, hst, hc, fun _ => Or.inl ⟨5 / 2, by unfold LiveData.atTime; rw [hb]; rfl, rfl⟩, fun i j hij q hq q' hq' e => ?_, rfl, rfl⟩
  dsimp only at hq
  split_ifs at hq <;> simp at hq
  · rcases hq with rfl | rfl <;> simp [callOrder]
  · subst hq
    simp [callOrder]

end Threads
end Verif
