import Verif.Model.LiveNodes
import Verif.Props.EvaluatorLife
import Verif.Props.OptExpressions

/-!
# C94: expressions of optimisable splines stay right while their spline changes
-/

set_option linter.unusedSectionVars false

namespace Verif

open MSpline BufM Quaternion

variable {K : Type} [Field K] [LinearOrder K] [IsStrictOrderedRing K] {P V : Type}

theorem Outcome.map_eq_ok {α β : Type _} {o : Outcome α} {f : α → β} {b : β} : o.map f = .ok b ↔ ∃ a, o = .ok a ∧ f a = b := by
  cases o <;> simp

/-! ### What is expected -/

/-- What the nodes of a factory should answer: the same as those of a new factory of the spline as it is then, at the same time or with the
same bounds. -/
def nodeExpected {α X R : Type} (M : Mfd K P V) (answer : MSpline K P → TimeNode K → FactoryData K → α → Outcome (NodeAnswer K X R))
    (x : FactoryData K) : List (NodeEvent K P α) → MSpline K P → List (Outcome (NodeAnswer K X R))
  | [], _ => []
  | .call q τ _ :: es, s => answer s τ x q :: nodeExpected M answer x es s
  | .variables τ :: es, s => (x.designVariables s τ).map .variables :: nodeExpected M answer x es s
  | .change c :: es, s => nodeExpected M answer x es (c.run M s)

/-- All changes of a program are those of a reasonable client. -/
def NodesRegular {α : Type} (M : Mfd K P V) : List (NodeEvent K P α) → MSpline K P → Prop
  | [], _ => True
  | .call _ _ _ :: es, s => NodesRegular M es s
  | .variables _ :: es, s => NodesRegular M es s
  | .change c :: es, s => c.Regular s ∧ NodesRegular M es (c.run M s)

/-- No segments are appended. -/
def NodesNoAppend {α : Type} (es : List (NodeEvent K P α)) : Prop := ∀ c, NodeEvent.change c ∈ es → ¬ c.isAppend

/-- The time `c` is not in the knot interval that begins at `t`, its end included, unless it is `t`. -/
def Clear (s : MSpline K P) (t c : K) : Prop := t ∉ s.keys ∨ c ≤ t ∨ ∃ k ∈ s.keys, t < k ∧ k < c

/-- Whenever a node is asked at a knot, it was not asked before at another time of the knot interval that begins there. -/
def Apart {α : Type} (M : Mfd K P V) : List (NodeEvent K P α) → MSpline K P → List K → Prop
  | [], _, _ => True
  | .call _ τ _ :: es, s, past => (∀ c ∈ past, Clear s τ.value c) ∧ Apart M es s (τ.value :: past)
  | .variables _ :: es, s, past => Apart M es s past
  | .change c :: es, s, past => Apart M es (c.run M s) past

/-! ### One evaluator on a later spline -/

/-- An evaluator with its buffers that was made for the time `t` and used up to an earlier state of the spline. -/
def Held (c : Template) (s : MSpline K P) (x : Evaluator K × Buffers K) (t : K) : Prop :=
  ∃ (s1 : MSpline K P) (i : ℕ), Later s1 s ∧ s1.MWF ∧ s1.state = .evaluable ∧ s1.InSeg t i ∧ x.1 = s1.evaluatorOf t i ∧ BufInv c s1 x.1 x.2

theorem Held.later {c : Template} {s s' : MSpline K P} {x : Evaluator K × Buffers K} {t : K} (h : Held c s x t) (l : Later s s') :
    Held c s' x t := by
  obtain ⟨s1, i, h1, h2⟩ := h
  exact ⟨s1, i, h1.trans l, h2⟩

theorem inSeg_later {s1 s : MSpline K P} (h1 : s1.MWF) (l : Later s1 s) {t : K} {i : ℕ} (hi : s1.InSeg t i)
    (ht : t < s1.kn (s1.keys.length - s1.order) ∨ s.keys = s1.keys) : s.InSeg t i := by
  rcases ht with ht | ht
  · obtain ⟨ts, e⟩ := l.keys
    exact append_inSeg e l.order h1.order_pos hi ht
  · exact ⟨by rw [l.order]; exact hi.lower, by rw [l.order, ht]; exact hi.upper, by rw [kn_eq_knOf, ht]; exact hi.left,
      by rw [l.order, kn_eq_knOf, ht]; exact hi.right⟩

/-- The evaluator of a knot interval that begins at `t` is for `t` if the other times are away. -/
theorem Held.reuse {c : Template} {s : MSpline K P} {x : Evaluator K × Buffers K} {t t' : K} (h : Held c s x t') (hx : x.1.ti = some t)
    (hc : Clear s t t') : t' = t ∧ ∃ i, s.InSeg t i ∧ x.1 = s.evaluatorOf t i ∧ BufInv c s x.1 x.2 := by
  obtain ⟨s1, i, l, h1, he, hi, hx1, hb⟩ := h
  have hlow := hi.lower
  have hup := hi.upper
  have ho := h1.order_pos
  obtain ⟨ts, ek⟩ := l.keys
  have hkn : s1.keys[i]? = some (s1.kn i) := kn_getElem s1 (by omega)
  have hti : s1.kn i = t := by
    rw [hx1] at hx
    unfold evaluatorOf at hx
    simp only [] at hx
    rw [hkn] at hx
    exact Option.some.inj hx
  have hmem : t ∈ s.keys := by
    rw [ek, ← hti]
    exact List.mem_append_left _ (List.mem_of_getElem? hkn)
  have hle : t ≤ t' := hti ▸ hi.left
  have ht : t' = t := by
    rcases hc with hc | hc | ⟨k, hk, hk1, hk2⟩
    · exact absurd hmem hc
    · exact le_antisymm hc hle
    · exfalso
      obtain ⟨j, hj⟩ := List.mem_iff_getElem?.1 hk
      have hkj : s.kn j = k := by
        unfold kn
        rw [List.getD_eq_getElem?_getD, hj]
        rfl
      have hjl : j < s.keys.length := by
        by_contra hn
        rw [List.getElem?_eq_none (by omega)] at hj
        cases hj
      have ei : s.kn i = t := by rw [kn_append ek (by omega)]; exact hti
      have e1 : s.kn (i + 1) = s1.kn (i + 1) := kn_append ek (by omega)
      have hij : i < j := by
        by_contra hn
        have := l.mwf.mono j i (by omega) (by rw [ek, List.length_append]; omega)
        rw [hkj, ei] at this
        exact absurd hk1 (not_lt.2 this)
      have h3 : s.kn (i + 1) ≤ k := by
        rw [← hkj]
        exact l.mwf.mono _ _ (by omega) (by omega)
      have h4 : t' ≤ s.kn (i + 1) := by rw [e1]; exact hi.right_le
      exact absurd (hk2.trans_le h4) (not_lt.2 h3)
  subst ht
  have hlt : t' < s1.kn (s1.keys.length - s1.order) := by
    rw [← hti]
    exact h1.strict (by omega) (by omega)
  have hi' := inSeg_later h1 l hi (Or.inl hlt)
  refine ⟨rfl, i, hi', hx1.trans (l.evaluatorOf h1 hi).symm, ?_⟩
  have := l.bufInv h1 he hi hi' (b := x.2) (c := c) (by rw [← hx1]; exact hb)
  rwa [← hx1] at this

/-! ### Programs -/

section programs

variable {α X R : Type} (M : Mfd K P V) (c : Template)
  (run : Template → MSpline K P → TimeNode K → Option (K × K) → Evaluator K → α → BufM K (NodeAnswer K X R))
  (answer : MSpline K P → TimeNode K → FactoryData K → α → Outcome (NodeAnswer K X R))

/-- The calls on an evaluator for `t`, run on its buffers, give the answers for `t`. -/
def CallsRefine (c : Template) (s : MSpline K P) (τ : TimeNode K) (bounds : Option (K × K)) (t : K) (o : α → Outcome (NodeAnswer K X R)) : Prop :=
  ∀ i g B, s.InSeg t i → s.evaluatorAt t = .ok (s.evaluatorOf t i) → Ready c s (s.evaluatorOf t i) g B → ∀ q,
    Refines (BufInv c s (s.evaluatorOf t i)) (run c s τ bounds (s.evaluatorOf t i) q) (o q)

theorem constSession_eq {s0 : MSpline K P} (h0 : s0.MWF) (he0 : s0.state = .evaluable) {t : K} {i : ℕ} (hi : s0.InSeg t i)
    (hc : c.Fits s0.order) (hcall : ∀ s, Later s0 s → ∀ τ, CallsRefine run c s τ none t fun q => answer s τ (.constTime t) q) :
    ∀ (es : List (NodeEvent K P α)) (s : MSpline K P) (b : Buffers K), Later s0 s → NodesRegular M es s →
      (t < s0.kn (s0.keys.length - s0.order) ∨ (s.keys = s0.keys ∧ NodesNoAppend es)) → BufInv c s (s0.evaluatorOf t i) b →
      nodeSession M c run es s (.constTime (s0.evaluatorOf t i) b) = nodeExpected M answer (.constTime t) es s
  | [], _, _, _, _, _, _ => rfl
  | .call q τ fresh :: es, s, b, l, hr, ht, hb => by
    have hi' := inSeg_later h0 l hi (ht.imp_right fun h => h.1)
    have hev := l.evaluatorOf h0 hi
    obtain ⟨g, B, hR⟩ := ready_of (c := c) l.mwf l.state hi' (by rw [l.order]; exact hc)
    obtain ⟨a1, a2⟩ := hcall s l τ i g B hi' (evaluatorAt_eq l.mwf l.state hi') hR q b (by rw [hev]; exact hb)
    rw [hev] at a1 a2
    have ht' : t < s0.kn (s0.keys.length - s0.order) ∨ (s.keys = s0.keys ∧ NodesNoAppend es) :=
      ht.imp_right fun h => ⟨h.1, fun c hc => h.2 c (List.mem_cons_of_mem _ hc)⟩
    unfold nodeSession nodeExpected
    unfold LiveData.useEvaluator LiveData.getEvaluator LiveData.put LiveData.template LiveData.bounds
    dsimp only
    rw [a1, constSession_eq h0 he0 hi hc hcall es s _ l hr ht' a2]
  | .variables τ :: es, s, b, l, hr, ht, hb => by
    have hi' := inSeg_later h0 l hi (ht.imp_right fun h => h.1)
    have ht' : t < s0.kn (s0.keys.length - s0.order) ∨ (s.keys = s0.keys ∧ NodesNoAppend es) :=
      ht.imp_right fun h => ⟨h.1, fun c hc => h.2 c (List.mem_cons_of_mem _ hc)⟩
    unfold nodeSession nodeExpected
    rw [constSession_eq h0 he0 hi hc hcall es s _ l hr ht' hb]
    unfold LiveData.designVariables FactoryData.designVariables
    dsimp only
    rw [evaluatorAt_eq l.mwf l.state hi', Outcome.bind_ok, l.evaluatorOf h0 hi]
  | .change x :: es, s, b, l, hr, ht, hb => by
    obtain ⟨l1, l2⟩ := change_later M x l.mwf l.state hr.1
    have hi' := inSeg_later h0 l hi (ht.imp_right fun h => h.1)
    have ht' : t < s0.kn (s0.keys.length - s0.order) ∨ ((x.run M s).keys = s0.keys ∧ NodesNoAppend es) :=
      ht.imp_right fun h => ⟨(l2 (h.2 x (by simp))).trans h.1, fun c hc => h.2 c (List.mem_cons_of_mem _ hc)⟩
    have ll := l.trans l1
    have hi'' := inSeg_later h0 ll hi (ht'.imp_right fun h => h.1)
    have hev : s.evaluatorOf t i = s0.evaluatorOf t i := l.evaluatorOf h0 hi
    have hb' := l1.bufInv l.mwf l.state hi' hi'' (by rw [hev]; exact hb)
    rw [hev] at hb'
    unfold nodeSession nodeExpected
    exact constSession_eq h0 he0 hi hc hcall es _ b ll hr.2 ht' hb'

/-- What `getEvaluator` does with a kept evaluator. -/
theorem timed_getEvaluator {c : Template} {s : MSpline K P} (h : s.MWF) (he : s.state = .evaluable) (hc : c.Fits s.order) {lower upper t : K}
    (hlo : s.kn (s.order - 1) ≤ lower) (hup : upper ≤ s.kn (s.keys.length - s.order)) (cache : Option (Evaluator K × Buffers K))
    (past : List K) (hheld : ∀ x, cache = some x → ∃ c' ∈ past, Held c s x c') (hclear : ∀ c' ∈ past, Clear s t c') (fresh : ℕ → ℕ → K) :
    ((t < lower ∨ upper < t) ∧ (LiveData.timed lower upper cache).getEvaluator c s t fresh = (.throws, .timed lower upper cache)) ∨
    (¬ t < lower ∧ ¬ upper < t ∧ ∃ i b, s.InSeg t i ∧ BufInv c s (s.evaluatorOf t i) b ∧
      (LiveData.timed lower upper cache).getEvaluator c s t fresh
        = (.ok (s.evaluatorOf t i, b), .timed lower upper (some (s.evaluatorOf t i, b)))) := by
  unfold LiveData.getEvaluator
  dsimp only
  by_cases h1 : t < lower
  · exact Or.inl ⟨Or.inl h1, by rw [if_pos h1]⟩
  by_cases h2 : upper < t
  · exact Or.inl ⟨Or.inr h2, by rw [if_neg h1, if_pos h2]⟩
  refine Or.inr ⟨h1, h2, ?_⟩
  rw [if_neg h1, if_neg h2]
  rcases hf : cache.filter (fun x => decide (x.1.ti = some t)) with _ | x
  · obtain ⟨i, hi, -⟩ := getSegmentIterator_ok h he t (hlo.trans (not_lt.1 h1)) ((not_lt.1 h2).trans hup)
    obtain ⟨b, hb, hinv⟩ := construct_eq h he hi hc fresh
    refine ⟨i, b, hi, hinv, ?_⟩
    simp only [hf, hb]
  · have hf' := hf
    rw [Option.filter_eq_some_iff] at hf
    obtain ⟨c', hc', hx⟩ := hheld x hf.1
    obtain ⟨-, i, hi, hxe, hb⟩ := hx.reuse (by simpa using hf.2) (hclear c' hc')
    refine ⟨i, x.2, hi, by rw [← hxe]; exact hb, ?_⟩
    simp only [hf', ← hxe]

theorem timedSession_eq {lower upper : K} (hc : ∀ s : MSpline K P, c.Fits s.order → (timedTemplate c).Fits s.order)
    (hcall : ∀ (s : MSpline K P), s.MWF → s.state = .evaluable → ∀ τ : TimeNode K, ¬ τ.value < lower → ¬ upper < τ.value →
      CallsRefine run (timedTemplate c) s τ (some (lower, upper)) τ.value fun q => answer s τ (.timed ⟨lower, upper, none⟩) q)
    (hthrow : ∀ (s : MSpline K P) (τ : TimeNode K) q, τ.value < lower ∨ upper < τ.value → answer s τ (.timed ⟨lower, upper, none⟩) q = .throws) :
    ∀ (es : List (NodeEvent K P α)) (s : MSpline K P) (cache : Option (Evaluator K × Buffers K)) (past : List K), s.MWF →
      s.state = .evaluable → c.Fits s.order → s.kn (s.order - 1) ≤ lower → lower ≤ upper → upper ≤ s.kn (s.keys.length - s.order) →
      NodesRegular M es s → Apart M es s past → (∀ x, cache = some x → ∃ c' ∈ past, Held (timedTemplate c) s x c') →
      nodeSession M c run es s (.timed lower upper cache) = nodeExpected M answer (.timed ⟨lower, upper, none⟩) es s
  | [], _, _, _, _, _, _, _, _, _, _, _, _ => rfl
  | .call q τ fresh :: es, s, cache, past, h, he, hf, hlo, hlu, hup, hr, ha, hheld => by
    unfold nodeSession nodeExpected
    unfold LiveData.useEvaluator LiveData.template LiveData.bounds
    dsimp only
    rcases timed_getEvaluator h he (hc s hf) hlo hup cache past hheld ha.1 fresh with ⟨h1, h2⟩ | ⟨h1, h2, i, b, hi, hb, h3⟩
    · rw [h2, hthrow s τ q h1]
      dsimp only
      rw [timedSession_eq hc hcall hthrow es s cache (τ.value :: past) h he hf hlo hlu hup hr ha.2 fun x hx => by
        obtain ⟨c', k1, k2⟩ := hheld x hx
        exact ⟨c', by simp [k1], k2⟩]
    · obtain ⟨g, B, hR⟩ := ready_of h he hi (hc s hf)
      obtain ⟨a1, a2⟩ := hcall s h he τ h1 h2 i g B hi (evaluatorAt_eq h he hi) hR q b hb
      rw [h3]
      unfold LiveData.put
      dsimp only [Option.map_some]
      rw [a1, timedSession_eq hc hcall hthrow es s _ (τ.value :: past) h he hf hlo hlu hup hr ha.2 fun x hx => by
        cases hx
        exact ⟨τ.value, by simp, s, i, Later.refl h he, h, he, hi, rfl, a2⟩]
  | .variables τ :: es, s, cache, past, h, he, hf, hlo, hlu, hup, hr, ha, hheld => by
    unfold nodeSession nodeExpected
    rw [timedSession_eq hc hcall hthrow es s cache past h he hf hlo hlu hup hr ha hheld]
    rfl
  | .change x :: es, s, cache, past, h, he, hf, hlo, hlu, hup, hr, ha, hheld => by
    obtain ⟨l, -⟩ := change_later M x h he hr.1
    obtain ⟨ts, ek⟩ := l.keys
    have hen := h.enough he
    have ho := h.order_pos
    unfold nodeSession nodeExpected
    refine timedSession_eq hc hcall hthrow es _ cache past l.mwf l.state (by rw [l.order]; exact hf) ?_ hlu ?_ hr.2 ha fun y hy => ?_
    · rw [l.order, kn_append ek (by omega)]
      exact hlo
    · refine hup.trans ?_
      rw [← kn_append ek (show s.keys.length - s.order < s.keys.length by omega)]
      exact l.mwf.mono _ _ (by rw [l.order, ek, List.length_append]; omega) (by rw [ek, List.length_append, l.order]; omega)
    · obtain ⟨c', k1, k2⟩ := hheld y hy
      exact ⟨c', k1, k2.later l⟩

end programs

/-! ### The calls on the nodes -/

theorem timedTemplate_fits {c : Template} {order : ℕ} (h : c.Fits order) : (timedTemplate c).Fits order := by
  have := h.maxDer_ge
  unfold timedTemplate
  split
  · exact ⟨h.order_eq, by dsimp only; omega⟩
  · exact h

theorem timedTemplate_maxDer {c : Template} {order : ℕ} (h : c.Fits order) : (timedTemplate c).maxDer? = c.maxDer?.map (· + 1) := by
  have := h.maxDer_ge
  by_cases hm : c.maxDer = -1
  · have e1 : timedTemplate c = c := by unfold timedTemplate; rw [if_neg (by simpa using hm)]
    have e2 : c.maxDer? = none := by unfold Template.maxDer?; rw [if_pos hm]
    rw [e1, e2]
    rfl
  · have e1 : timedTemplate c = { c with maxDer := c.maxDer + 1 } := by unfold timedTemplate; rw [if_pos hm]
    rw [e1]
    unfold Template.maxDer?
    dsimp only
    rw [if_neg (by omega), if_neg hm, Option.map_some]
    congr 1
    omega

theorem evaluatorTime_timed {s : MSpline K P} {τ : TimeNode K} {lower upper : K} (h1 : ¬ τ.value < lower) (h2 : ¬ upper < τ.value)
    {e : Evaluator K} (he : s.evaluatorAt τ.value = .ok e) :
    (FactoryData.timed ⟨lower, upper, none⟩).evaluatorTime s τ = (.ok τ.value, .timed ⟨lower, upper, some τ.value⟩) := by
  unfold FactoryData.evaluatorTime TimeExpr.getEvaluator
  simp only [if_neg h1, if_neg h2, he]

theorem evaluatorTime_throws {s : MSpline K P} {τ : TimeNode K} {lower upper : K} (h : τ.value < lower ∨ upper < τ.value) :
    (FactoryData.timed ⟨lower, upper, none⟩).evaluatorTime s τ = (.throws, .timed ⟨lower, upper, none⟩) := by
  unfold FactoryData.evaluatorTime TimeExpr.getEvaluator
  by_cases h1 : τ.value < lower
  · simp only [if_pos h1]
  · simp only [if_neg h1, if_pos (h.resolve_left h1)]

section jacobians

variable {Q R : Type} [Zero R] [SMul K R] {s : MSpline K P} {τ : TimeNode K} {e : Evaluator K} {I : Buffers K → Prop}
  {jac : Evaluator K → BufM K (List (List Q))} {zeros : Option ℕ} {timeCol : Evaluator K → BufM K Q} {chain : Q → R}
  {jac' : K → Outcome (List (List Q))} {timeCol' : K → Outcome Q}

theorem jacobiansB_const {t : K} (he : s.evaluatorAt t = .ok e) (hj : Refines I (jac e) (jac' t)) :
    Refines I (jacobiansB s τ none jac zeros timeCol chain e) (nodeJacobians s τ (.constTime t) jac' zeros timeCol' chain).1 := by
  unfold jacobiansB nodeJacobians FactoryData.evaluatorTime
  dsimp only
  rw [he, Outcome.bind_ok]
  exact hj.bind fun J _ => (Refines.lift _).bind fun ks _ => (Refines.lift _).bind fun bs _ => Refines.lift _

theorem jacobiansB_timed {lower upper : K} (h1 : ¬ τ.value < lower) (h2 : ¬ upper < τ.value) (he : s.evaluatorAt τ.value = .ok e)
    (hj : Refines I (jac e) (jac' τ.value)) (ht : Refines I (timeCol e) (timeCol' τ.value)) :
    Refines I (jacobiansB s τ (some (lower, upper)) jac zeros timeCol chain e)
      (nodeJacobians s τ (.timed ⟨lower, upper, none⟩) jac' zeros timeCol' chain).1 := by
  unfold jacobiansB nodeJacobians
  rw [evaluatorTime_timed h1 h2 he]
  dsimp only
  rw [he, Outcome.bind_ok]
  exact hj.bind fun J _ => (Refines.lift _).bind fun ks _ => (Refines.lift _).bind fun bs _ => (Refines.lift _).bind fun zs _ =>
    ht.bind fun v _ => Refines.lift _

theorem nodeJacobians_throws {lower upper : K} (h : τ.value < lower ∨ upper < τ.value) :
    (nodeJacobians s τ (.timed ⟨lower, upper, none⟩) jac' zeros timeCol' chain).1 = .throws := by
  unfold nodeJacobians
  rw [evaluatorTime_throws h]

theorem nodeValue_throws {Y : Type} {lower upper : K} (h : τ.value < lower ∨ upper < τ.value) (eval : K → Outcome Y) :
    (nodeValue s τ (.timed ⟨lower, upper, none⟩) eval).1 = .throws := by
  unfold nodeValue
  rw [evaluatorTime_throws h]

theorem nodeValue_timed {Y : Type} {lower upper : K} (h1 : ¬ τ.value < lower) (h2 : ¬ upper < τ.value) (he : s.evaluatorAt τ.value = .ok e)
    (eval : K → Outcome Y) : (nodeValue s τ (.timed ⟨lower, upper, none⟩) eval).1 = eval τ.value := by
  unfold nodeValue
  rw [evaluatorTime_timed h1 h2 he]

end jacobians

section euclidean

variable {D : ℕ} {R : Type} [Zero R] [SMul K R]

/-- Specification: the answers of the nodes of a Euclidean spline with the data `x`; `m` is `IMaxDerivativeOrder` unless dynamic. -/
def EuclideanCall.answer (m : Option ℕ) (s : MSpline K (Fin D → K)) (τ : TimeNode K) (x : FactoryData K) :
    EuclideanCall K D R → Outcome (NodeAnswer K (Fin D → K) R)
  | .value der => (nodeValue s τ x fun c => s.euclideanEvalD (x.maxDer m) c der).1.map .value
  | .jacobians der chain => (euclideanValueJacobians s m τ x der chain).1.map .blocks

theorem euclidean_evalD_refines {c : Template} {s : MSpline K (Fin D → K)} {t : K} {e : Evaluator K} (he : s.evaluatorAt t = .ok e)
    {g : Seg K (Fin D → K)} {B : Mat K} (hR : Ready c s e g B) (der : ℤ) :
    Refines (BufInv c s e) (s.euclideanEvalDB c e der) (s.euclideanEvalD c.maxDer? t der) := by
  unfold euclideanEvalD
  rw [he, Outcome.bind_ok]
  exact euclideanEvalDB_refines hR der

theorem euclidean_jacobian_refines {c : Template} {s : MSpline K (Fin D → K)} {t : K} {e : Evaluator K} (he : s.evaluatorAt t = .ok e)
    {g : Seg K (Fin D → K)} {B : Mat K} (hR : Ready c s e g B) (der : ℤ) :
    Refines (BufInv c s e) (s.euclideanEvalJacobianB c e der) (s.euclideanEvalJacobian c.maxDer? t der) := by
  unfold euclideanEvalJacobian
  rw [he, Outcome.bind_ok]
  exact euclideanEvalJacobianB_refines hR der

/-- **C94**: the nodes of a factory of a Euclidean spline at a constant time answer all calls like those of a new factory of the spline as it
is then, whatever vertices are written and segments appended in between, if the time is before the end of the spline the factory was made
for or nothing is appended.  (Missing: the time at the end, see `C94_end_violated`.) -/
theorem C94_euclidean_const_partial (order : ℕ) (ho : 1 ≤ order) (s : MSpline K (Fin D → K))
    (h : RegularReach (euclidean K (Fin D → K)) order s) (c : Template) (hc : c.Fits order) (t : K) (fresh : ℕ → ℕ → K) (d : LiveData K)
    (hd : LiveData.atTime c s t fresh = .ok d) (es : List (NodeEvent K (Fin D → K) (EuclideanCall K D R)))
    (hr : NodesRegular (euclidean K (Fin D → K)) es s) (tmax : K) (hmax : s.getMaxTime = .ok tmax) (ht : t < tmax ∨ NodesNoAppend es) :
    nodeSession (euclidean K (Fin D → K)) c (fun c s τ b e q => EuclideanCall.run c s τ b e q) es s d
      = nodeExpected (euclidean K (Fin D → K)) (fun s τ x q => EuclideanCall.answer c.maxDer? s τ x q) (.constTime t) es s := by
  obtain ⟨⟨e, b⟩, hb, rfl⟩ := Outcome.map_eq_ok.1 hd
  obtain ⟨hw, rfl, hst, i, hi, rfl, hinv⟩ := constructed ho h hc hb
  rw [getMaxTime_eq hw hst, Outcome.ok.injEq] at hmax
  subst hmax
  refine constSession_eq _ c _ _ hw hst hi hc (fun s' l τ j g B hj he hR q => ?_) es s b (Later.refl hw hst) hr
    (ht.imp_right fun h => ⟨rfl, h⟩) hinv
  cases q with
  | value der => exact (euclidean_evalD_refines he hR der).map _
  | jacobians der chain =>
    unfold EuclideanCall.run EuclideanCall.answer euclideanValueJacobians
    exact (jacobiansB_const he ((euclidean_jacobian_refines he hR der).map _)).map _

/-- **C94**: the nodes of a factory of a Euclidean spline at a variable time answer all calls like those of a new factory of the spline as it
is then with the same bounds, whatever becomes of the time, whatever vertices are written and segments appended in between, if whenever a
node is asked at a knot the nodes were not asked before at another time of the knot interval that begins there.  (Missing: such times,
for which a kept evaluator is used though it is for the other time, see `C44_violated`.) -/
theorem C94_euclidean_timed_partial (order : ℕ) (ho : 1 ≤ order) (s : MSpline K (Fin D → K))
    (h : RegularReach (euclidean K (Fin D → K)) order s) (hst : s.state = .evaluable) (c : Template) (hc : c.Fits order) (lower upper : K)
    (d : LiveData K) (hd : LiveData.between s lower upper = .ok d) (es : List (NodeEvent K (Fin D → K) (EuclideanCall K D R)))
    (hr : NodesRegular (euclidean K (Fin D → K)) es s) (ha : Apart (euclidean K (Fin D → K)) es s []) :
    nodeSession (euclidean K (Fin D → K)) c (fun c s τ b e q => EuclideanCall.run c s τ b e q) es s d
      = nodeExpected (euclidean K (Fin D → K)) (fun s τ x q => EuclideanCall.answer c.maxDer? s τ x q) (.timed ⟨lower, upper, none⟩) es s := by
  obtain ⟨x, hx, rfl⟩ := Outcome.map_eq_ok.1 hd
  obtain ⟨hw, rfl⟩ := h.mwf ho
  obtain ⟨rfl, hlu, hlo, hup⟩ := create_bounds hw hst hx
  refine timedSession_eq _ c _ _ (fun _ => timedTemplate_fits) (fun s' h' he' τ h1 h2 j g B hj he hR q => ?_) (fun s' τ q h1 => ?_) es s none []
    hw hst hc hlo hlu.le hup hr ha (fun _ h => by cases h)
  · have hm : (FactoryData.timed (⟨lower, upper, none⟩ : TimeExpr K)).maxDer c.maxDer? = (timedTemplate c).maxDer? :=
      (timedTemplate_maxDer hc).symm
    cases q with
    | value der =>
      unfold EuclideanCall.run EuclideanCall.answer
      dsimp only
      rw [nodeValue_timed h1 h2 he, hm]
      exact (euclidean_evalD_refines he hR der).map _
    | jacobians der chain =>
      unfold EuclideanCall.run EuclideanCall.answer euclideanValueJacobians
      dsimp only
      rw [hm]
      exact (jacobiansB_timed h1 h2 he ((euclidean_jacobian_refines he hR der).map _) (euclidean_evalD_refines he hR (der + 1))).map _
  · cases q with
    | value der =>
      unfold EuclideanCall.answer
      dsimp only
      rw [nodeValue_throws h1]
      rfl
    | jacobians der chain =>
      unfold EuclideanCall.answer euclideanValueJacobians
      dsimp only
      rw [nodeJacobians_throws h1]
      rfl

end euclidean

section quaternion

variable {R : Type} [Zero R] [SMul ℝ R]

/-- Specification: the answers of the nodes of a quaternion spline with the data `x`. -/
noncomputable def QuaternionCall.answer (lg : ℍ[ℝ] → V3) (S L : V3 → M33) (s : MSpline ℝ ℍ[ℝ]) (τ : TimeNode ℝ) (x : FactoryData ℝ) :
    QuaternionCall R → Outcome (NodeAnswer ℝ (ℍ[ℝ] ⊕ V3) R)
  | .value der => (nodeValue s τ x fun c => s.quatEvalD lg c der).1.map fun q => .value (.inl q)
  | .jacobians der chain => (quatValueJacobians lg S L s τ x der chain).1.map .blocks
  | .angular der => (nodeValue s τ x fun c => s.evalAngularDerivative lg c der).1.map fun v => .value (.inr v)
  | .angularJacobians der chain => (Verif.angularJacobians lg S L s τ x der chain).1.map .blocks

/-- **C94**: the same for the nodes of a quaternion spline at a constant time. -/
theorem C94_quaternion_const_partial (lg : ℍ[ℝ] → V3) (S L : V3 → M33) (order : ℕ) (ho : 1 ≤ order) (s : MSpline ℝ ℍ[ℝ])
    (h : RegularReach (quatGroup lg).toMfd order s) (c : Template) (hc : c.Fits order) (t : ℝ) (fresh : ℕ → ℕ → ℝ) (d : LiveData ℝ)
    (hd : LiveData.atTime c s t fresh = .ok d) (es : List (NodeEvent ℝ ℍ[ℝ] (QuaternionCall R)))
    (hr : NodesRegular (quatGroup lg).toMfd es s) (tmax : ℝ) (hmax : s.getMaxTime = .ok tmax) (ht : t < tmax ∨ NodesNoAppend es) :
    nodeSession (quatGroup lg).toMfd c (fun c s τ b e q => QuaternionCall.run lg S L c s τ b e q) es s d
      = nodeExpected (quatGroup lg).toMfd (fun s τ x q => QuaternionCall.answer lg S L s τ x q) (.constTime t) es s := by
  obtain ⟨⟨e, b⟩, hb, rfl⟩ := Outcome.map_eq_ok.1 hd
  obtain ⟨hw, rfl, hst, i, hi, rfl, hinv⟩ := constructed ho h hc hb
  rw [getMaxTime_eq hw hst, Outcome.ok.injEq] at hmax
  subst hmax
  refine constSession_eq _ c _ _ hw hst hi hc (fun s' l τ j g B hj he hR q => ?_) es s b (Later.refl hw hst) hr
    (ht.imp_right fun h => ⟨rfl, h⟩) hinv
  cases q with
  | value der => exact (quatEvalDB_refines hR lg he der).map _
  | jacobians der chain => exact (jacobiansB_const he ((quatEvalJacobianB_refines hR lg S L he der).map _)).map _
  | angular der => exact (evalAngularDerivativeB_refines hR lg he der).map _
  | angularJacobians der chain => exact (jacobiansB_const he ((evalAngularJacobianB_refines hR lg S L he der).map _)).map _

/-- **C94**: the same for the nodes of a quaternion spline at a variable time. -/
theorem C94_quaternion_timed_partial (lg : ℍ[ℝ] → V3) (S L : V3 → M33) (order : ℕ) (ho : 1 ≤ order) (s : MSpline ℝ ℍ[ℝ])
    (h : RegularReach (quatGroup lg).toMfd order s) (hst : s.state = .evaluable) (c : Template) (hc : c.Fits order) (lower upper : ℝ)
    (d : LiveData ℝ) (hd : LiveData.between s lower upper = .ok d) (es : List (NodeEvent ℝ ℍ[ℝ] (QuaternionCall R)))
    (hr : NodesRegular (quatGroup lg).toMfd es s) (ha : Apart (quatGroup lg).toMfd es s []) :
    nodeSession (quatGroup lg).toMfd c (fun c s τ b e q => QuaternionCall.run lg S L c s τ b e q) es s d
      = nodeExpected (quatGroup lg).toMfd (fun s τ x q => QuaternionCall.answer lg S L s τ x q) (.timed ⟨lower, upper, none⟩) es s := by
  obtain ⟨x, hx, rfl⟩ := Outcome.map_eq_ok.1 hd
  obtain ⟨hw, rfl⟩ := h.mwf ho
  obtain ⟨rfl, hlu, hlo, hup⟩ := create_bounds hw hst hx
  refine timedSession_eq _ c _ _ (fun _ => timedTemplate_fits) (fun s' h' he' τ h1 h2 j g B hj he hR q => ?_) (fun s' τ q h1 => ?_) es s none []
    hw hst hc hlo hlu.le hup hr ha (fun _ h => by cases h)
  · cases q with
    | value der =>
      unfold QuaternionCall.run QuaternionCall.answer
      dsimp only
      rw [nodeValue_timed h1 h2 he]
      exact (quatEvalDB_refines hR lg he der).map _
    | jacobians der chain =>
      exact (jacobiansB_timed h1 h2 he ((quatEvalJacobianB_refines hR lg S L he der).map _) (quatEvalDB_refines hR lg he (der + 1))).map _
    | angular der =>
      unfold QuaternionCall.run QuaternionCall.answer
      dsimp only
      rw [nodeValue_timed h1 h2 he]
      exact (evalAngularDerivativeB_refines hR lg he der).map _
    | angularJacobians der chain =>
      exact (jacobiansB_timed h1 h2 he ((evalAngularJacobianB_refines hR lg S L he der).map _)
        (evalAngularDerivativeB_refines hR lg he (der + 1))).map _
  · cases q with
    | value der => unfold QuaternionCall.answer; dsimp only; rw [nodeValue_throws h1]; rfl
    | jacobians der chain => unfold QuaternionCall.answer quatValueJacobians; dsimp only; rw [nodeJacobians_throws h1]; rfl
    | angular der => unfold QuaternionCall.answer; dsimp only; rw [nodeValue_throws h1]; rfl
    | angularJacobians der chain => unfold QuaternionCall.answer Verif.angularJacobians; dsimp only; rw [nodeJacobians_throws h1]; rfl

end quaternion

/-! ### The Jacobians in the course of a program -/

/-- The spline at the end of a program. -/
def nodesFinally {α : Type} (M : Mfd K P V) : List (NodeEvent K P α) → MSpline K P → MSpline K P
  | [], s => s
  | .call _ _ _ :: es, s => nodesFinally M es s
  | .variables _ :: es, s => nodesFinally M es s
  | .change c :: es, s => nodesFinally M es (c.run M s)

theorem nodeExpected_append {α X R : Type} (M : Mfd K P V) (answer : MSpline K P → TimeNode K → FactoryData K → α → Outcome (NodeAnswer K X R))
    (x : FactoryData K) (es' : List (NodeEvent K P α)) : ∀ (es : List (NodeEvent K P α)) (s : MSpline K P),
    nodeExpected M answer x (es ++ es') s = nodeExpected M answer x es s ++ nodeExpected M answer x es' (nodesFinally M es s)
  | [], s => rfl
  | .call q τ f :: es, s => congrArg (_ :: ·) (nodeExpected_append M answer x es' es s)
  | .variables τ :: es, s => congrArg (_ :: ·) (nodeExpected_append M answer x es' es s)
  | .change c :: es, s => nodeExpected_append M answer x es' es (c.run M s)

theorem SameKnots.trans_eq {s0 s s' : MSpline K P} (h : SameKnots s0 s) (hw : s'.MWF) (he : s'.state = .evaluable) (ho : s'.order = s.order)
    (hk : s'.keys = s.keys) : SameKnots s0 s' := ⟨hw, he, ho.trans h.order, hk.trans h.keys⟩

/-- The knots of a changed spline are those of a spline that could have been made by calls alone. -/
theorem nodes_sameKnots {α : Type} (M : Mfd K P V) {order : ℕ} (ho : 1 ≤ order) : ∀ (es : List (NodeEvent K P α)) (r s : MSpline K P),
    RegularReach M order r → r.state = .evaluable → SameKnots r s → NodesRegular M es s →
    ∃ r', RegularReach M order r' ∧ r'.state = .evaluable ∧ SameKnots r' (nodesFinally M es s) ∧ Later r r'
  | [], r, s, h, he, hs, _ => ⟨r, h, he, hs, Later.refl (h.mwf ho).1 he⟩
  | .call _ _ _ :: es, r, s, h, he, hs, hr => nodes_sameKnots M ho es r s h he hs hr
  | .variables _ :: es, r, s, h, he, hs, hr => nodes_sameKnots M ho es r s h he hs hr
  | .change c :: es, r, s, h, he, hs, hr => by
    obtain ⟨l, lk⟩ := change_later M c hs.mwf hs.evaluable hr.1
    by_cases hc : c.isAppend
    · rcases c with c | f
      · cases c with
        | append ts v =>
          have hr1 : s.state = .evaluable → (s.keys ++ ts).Pairwise (· < ·) := hr.1
          have hrr : (Call.append ts v : Call K P).Regular r := fun _ => by rw [← hs.keys]; exact hr1 hs.evaluable
          obtain ⟨r', e1, e2, e3, e4, e5, -⟩ := append_ok (h.mwf ho).1 he M ts v (hrr he)
          obtain ⟨s', f1, f2, f3, f4, f5, -⟩ := append_ok hs.mwf hs.evaluable M ts v (hr1 hs.evaluable)
          have g1 : ((Call.append ts v : Call K P).run M r).2 = r' := by simp only [Call.run, e1]
          have g2 : (Change.call (Call.append ts v) : Change K P).run M s = s' := by simp only [Change.run, Call.run, f1]
          have hreach : RegularReach M order r' := by
            have := RegularReach.call (Call.append ts v) h hrr
            rwa [g1] at this
          have hsame : SameKnots r' s' := ⟨f2, f4, by rw [f3, e3, hs.order], by rw [f5, e5, hs.keys]⟩
          have hr2 := hr.2
          unfold nodesFinally
          rw [g2] at hr2 ⊢
          obtain ⟨r'', k1, k2, k3, k4⟩ := nodes_sameKnots M ho es r' s' hreach e4 hsame hr2
          exact ⟨r'', k1, k2, k3, Later.trans ⟨e2, e4, e3, ts, e5⟩ k4⟩
        | _ => exact absurd hc (by simp [Change.isAppend])
      · exact absurd hc (by simp [Change.isAppend])
    · unfold nodesFinally
      exact nodes_sameKnots M ho es r _ h he (hs.trans_eq l.mwf l.state l.order (lk hc)) hr.2

/-- Requests at the end are no changes. -/
theorem nodesRegular_append_queries {α : Type} (M : Mfd K P V) (es' : List (NodeEvent K P α)) (hq : ∀ c, NodeEvent.change c ∉ es') :
    ∀ (es : List (NodeEvent K P α)) (s : MSpline K P), NodesRegular M es s → NodesRegular M (es ++ es') s
  | [], s, _ => by
    induction es' with
    | nil => trivial
    | cons e es' ih =>
      cases e with
      | call q τ f => exact ih fun c hc => hq c (List.mem_cons_of_mem _ hc)
      | «variables» τ => exact ih fun c hc => hq c (List.mem_cons_of_mem _ hc)
      | change c => exact absurd (by simp) (hq c)
  | .call _ _ _ :: es, s, h => nodesRegular_append_queries M es' hq es s h
  | .«variables» _ :: es, s, h => nodesRegular_append_queries M es' hq es s h
  | .change c :: es, s, h => ⟨h.1, nodesRegular_append_queries M es' hq es _ h.2⟩

/-- A derivative within the announced maximum is the derivative. -/
theorem euclideanEvalD_maxDer [AddCommGroup P] [Module K P] {s : MSpline K P} {m : Option ℕ} {t : K} {n : ℕ} (hn : ∀ k, m = some k → n ≤ k) :
    s.euclideanEvalD none t n = s.euclideanEvalD m t n := by
  unfold euclideanEvalD
  rcases m with _ | m
  · rfl
  · have := hn m rfl
    simp [show ¬ m < n by omega]

section derivative

variable {D : ℕ} {R : Type} [NormedAddCommGroup R] [NormedSpace ℝ R]

/-- **C94**: at any point of any program, with the time between the bounds and not at a knot, the nodes of a factory of a Euclidean spline
announce design variables and give blocks for exactly these, and the blocks are the derivative of the value at this point. -/
theorem C94_euclidean_derivative_partial (order : ℕ) (ho : 1 ≤ order) (s : MSpline ℝ (Fin D → ℝ))
    (h : RegularReach (euclidean ℝ (Fin D → ℝ)) order s) (hst : s.state = .evaluable) (c : Template) (hc : c.Fits order) (lower upper : ℝ)
    (d : LiveData ℝ) (hd : LiveData.between s lower upper = .ok d) (es : List (NodeEvent ℝ (Fin D → ℝ) (EuclideanCall ℝ D R)))
    (τ : TimeNode ℝ) (h1 : lower ≤ τ.value) (h2 : τ.value ≤ upper) (s' : MSpline ℝ (Fin D → ℝ))
    (hs' : s' = nodesFinally (euclidean ℝ (Fin D → ℝ)) es s) (hk : τ.value ∉ s'.keys) (n : ℕ) (hn : ∀ m, c.maxDer? = some m → n ≤ m)
    (chain : (Fin D → ℝ) →L[ℝ] R) (f1 f2 : ℕ → ℕ → ℝ) (hr : NodesRegular (euclidean ℝ (Fin D → ℝ)) es s)
    (ha : Apart (euclidean ℝ (Fin D → ℝ)) (es ++ [.call (.value n) τ f1, .call (.jacobians n chain) τ f2, .variables τ]) s []) :
    ∃ pre v J vars, nodeSession (euclidean ℝ (Fin D → ℝ)) c (fun c s τ b e q => EuclideanCall.run c s τ b e q)
        (es ++ [.call (.value n) τ f1, .call (.jacobians n chain) τ f2, .variables τ]) s d
        = pre ++ [.ok (.value v), .ok (.blocks J), .ok (.variables vars)] ∧
      (∀ y, y ∈ J.map Prod.fst ↔ y ∈ vars) ∧
      ∀ (δ : ExprVar ℝ → ℕ → ℝ) (T : ℝ → ℝ), T 0 = τ.value → HasDerivAt T (τ.change δ) 0 → ∃ f : ℝ → Fin D → ℝ, f 0 = v ∧
        (∀ᶠ x in nhds 0, (vectorUpdated s' δ x).euclideanEvalD none (T x) n = .ok (f x)) ∧
        HasDerivAt (fun x => chain (f x)) (totalChange J δ) 0 := by
  have hrun := C94_euclidean_timed_partial order ho s h hst c hc lower upper d hd
    (es ++ [.call (.value n) τ f1, .call (.jacobians n chain) τ f2, .variables τ]) (nodesRegular_append_queries _ _ (by simp) es s hr) ha
  rw [nodeExpected_append, ← hs'] at hrun
  obtain ⟨x, hx, rfl⟩ := Outcome.map_eq_ok.1 hd
  obtain ⟨hw, e0⟩ := h.mwf ho
  obtain ⟨rfl, hlu, hlo, hup⟩ := create_bounds hw hst hx
  obtain ⟨r, k1, k2, k3, k4⟩ := nodes_sameKnots (euclidean ℝ (Fin D → ℝ)) ho es s s h hst ⟨hw, hst, rfl, rfl⟩ hr
  rw [← hs'] at k3
  obtain ⟨hwr, er⟩ := k1.mwf ho
  have hcr : TimeExpr.create r lower upper = .ok ⟨lower, upper, none⟩ := by
    obtain ⟨ts, ek⟩ := k4.keys
    have hen := hw.enough hst
    unfold TimeExpr.create
    rw [if_neg (not_not.2 hlu), getMinTime_eq hwr k2, Outcome.bind_ok, if_neg, getMaxTime_eq hwr k2, Outcome.bind_ok, if_neg]
    · refine not_not.2 (hup.trans ?_)
      rw [← kn_append ek (show s.keys.length - s.order < s.keys.length by omega)]
      exact hwr.mono _ _ (by rw [k4.order, ek, List.length_append]; omega) (by rw [ek, List.length_append, k4.order]; omega)
    · refine not_not.2 ?_
      rw [k4.order, kn_append ek (by omega)]
      exact hlo
  obtain ⟨J, vars, c1, c2, c3, c4⟩ := C63_euclidean_timed_partial order ho r k1 k2 lower upper _ hcr [] (by simp) _ rfl s' k3 τ h1 h2 hk
    c.maxDer? n hn chain
  obtain ⟨f, -, hf0, -⟩ := c4 (fun _ _ => 0) (fun _ => τ.value) rfl (by
    have : τ.change (fun _ _ => 0) = 0 := by
      unfold TimeNode.change applyCols
      simp
    rw [this]
    exact hasDerivAt_const _ _)
  refine ⟨_, f 0, J, vars, hrun.trans (congrArg _ ?_), c3, fun δ T hT0 hT => ?_⟩
  · unfold nodeExpected nodeExpected nodeExpected nodeExpected EuclideanCall.answer
    dsimp only
    rw [show TimeExpr.history (euclidean ℝ (Fin D → ℝ)) [] ⟨lower, upper, none⟩ = ⟨lower, upper, none⟩ from rfl] at hf0 c1 c2
    rw [hf0, c1, c2]
    rfl
  · obtain ⟨f', g1, g2, g3⟩ := c4 δ T hT0 hT
    refine ⟨f', Outcome.ok.inj (g2.symm.trans hf0), g1.mono fun x hx => ?_, g3⟩
    rw [← hx]
    refine euclideanEvalD_maxDer fun m hm => ?_
    unfold FactoryData.maxDer at hm
    simp only [Option.map_eq_some_iff] at hm
    obtain ⟨m', h3, h4⟩ := hm
    have := hn m' h3
    omega

end derivative

/-! ### Where it fails, and examples -/

instance {K X R : Type} [DecidableEq K] [DecidableEq X] [DecidableEq R] : DecidableEq (NodeAnswer K X R)
  | .value x, .value y => decidable_of_iff (x = y) (by simp)
  | .blocks x, .blocks y => decidable_of_iff (x = y) (by simp)
  | .variables x, .variables y => decidable_of_iff (x = y) (by simp)
  | .value _, .blocks _ => isFalse (by simp)
  | .value _, .variables _ => isFalse (by simp)
  | .blocks _, .value _ => isFalse (by simp)
  | .blocks _, .variables _ => isFalse (by simp)
  | .variables _, .value _ => isFalse (by simp)
  | .variables _, .blocks _ => isFalse (by simp)

/-- A spline of order two through the points 0 and 1. -/
def nodeSpline : MSpline ℚ (Fin 1 → ℚ) :=
  ((Call.initWithKnotsAndControlVertices [0, 1, 2, 3] [![0], ![1]]).run (euclidean ℚ (Fin 1 → ℚ)) (create 2)).2

/-- A time expression with the given value and the derivative one with respect to one design variable. -/
def nodeTime (t : ℚ) : TimeNode ℚ := ⟨t, [(0, [1])]⟩

/-- Ask for the velocity, append a segment, and ask for the velocity, its Jacobians and the design variables. -/
def endProgram : List (NodeEvent ℚ (Fin 1 → ℚ) (EuclideanCall ℚ 1 (Fin 1 → ℚ))) :=
  [.call (.value 1) (nodeTime 2) (fun _ _ => 77), .change (.call (.append [4] (some ![5]))), .call (.value 1) (nodeTime 2) (fun _ _ => 77),
   .call (.jacobians 1 id) (nodeTime 2) (fun _ _ => 77), .variables (nodeTime 2)]

/-- **C94 is violated at the end of the spline**: the velocity node made for the last time of a spline gives, after a segment is appended,
the velocity before that time, its blocks and its design variables, and a new node the velocity after it, for other design variables. -/
theorem C94_end_violated : ∃ (s : MSpline ℚ (Fin 1 → ℚ)) (d : LiveData ℚ), RegularReach (euclidean ℚ (Fin 1 → ℚ)) 2 s ∧ s.getMaxTime = .ok 2 ∧
    LiveData.atTime ⟨1, -1, false⟩ s 2 (fun _ _ => 77) = .ok d ∧ NodesRegular (euclidean ℚ (Fin 1 → ℚ)) endProgram s ∧
    nodeSession (euclidean ℚ (Fin 1 → ℚ)) ⟨1, -1, false⟩ EuclideanCall.run endProgram s d =
      [.ok (.value ![1]), .ok (.value ![1]), .ok (.blocks [(.seg 0, [![-1]]), (.seg 1, [![1]])]), .ok (.variables [.seg 0, .seg 1])] ∧
    nodeExpected (euclidean ℚ (Fin 1 → ℚ)) (fun s τ x q => EuclideanCall.answer (some 1) s τ x q) (.constTime 2) endProgram s =
      [.ok (.value ![1]), .ok (.value ![4]), .ok (.blocks [(.seg 1, [![-1]]), (.seg 2, [![1]])]), .ok (.variables [.seg 1, .seg 2])] := by
  have key : ∀ x, LiveData.atTime ⟨1, -1, false⟩ nodeSpline 2 (fun _ _ => 77) = x → (x.bind fun d =>
      .ok (nodeSession (euclidean ℚ (Fin 1 → ℚ)) ⟨1, -1, false⟩ EuclideanCall.run endProgram nodeSpline d))
      = .ok [.ok (.value ![1]), .ok (.value ![1]), .ok (.blocks [(.seg 0, [![-1]]), (.seg 1, [![1]])]), .ok (.variables [.seg 0, .seg 1])] := by
    rintro _ rfl
    decide +kernel
  rcases hx : LiveData.atTime ⟨1, -1, false⟩ nodeSpline 2 (fun _ _ => 77) with d | _ | _
  · exact ⟨nodeSpline, d, .call _ .create trivial, by decide +kernel, hx, ⟨fun _ => by decide +kernel, trivial⟩, Outcome.ok.inj (key _ hx),
      by decide +kernel⟩
  · exact absurd (key _ hx) (by simp [Outcome.bind])
  · exact absurd (key _ hx) (by simp [Outcome.bind])

/-- Ask for the value in the middle of a knot interval and then, for the value and the blocks, at its beginning. -/
def knotProgram : List (NodeEvent ℚ (Fin 1 → ℚ) (EuclideanCall ℚ 1 (Fin 1 → ℚ))) :=
  [.call (.value 0) (nodeTime (3 / 2)) (fun _ _ => 77), .call (.value 0) (nodeTime 1) (fun _ _ => 77),
   .call (.jacobians 0 id) (nodeTime 1) (fun _ _ => 77)]

/-- **C94 is violated at knots**: once a node at a variable time was asked in the middle of a knot interval, it gives for the beginning of
the interval the value and the blocks of the time it was asked at before. -/
theorem C94_knot_violated : ∃ (s : MSpline ℚ (Fin 1 → ℚ)) (d : LiveData ℚ), RegularReach (euclidean ℚ (Fin 1 → ℚ)) 2 s ∧
    s.state = .evaluable ∧ LiveData.between s 1 2 = .ok d ∧ NodesRegular (euclidean ℚ (Fin 1 → ℚ)) knotProgram s ∧
    nodeSession (euclidean ℚ (Fin 1 → ℚ)) ⟨1, -1, false⟩ EuclideanCall.run knotProgram s d =
      [.ok (.value ![1 / 2]), .ok (.value ![1 / 2]),
       .ok (.blocks [(.seg 0, [![1 / 2]]), (.seg 1, [![1 / 2]]), (.seg 0, [![0]]), (.seg 1, [![0]]), (.time 0, [![1]])])] ∧
    nodeExpected (euclidean ℚ (Fin 1 → ℚ)) (fun s τ x q => EuclideanCall.answer (some 1) s τ x q) (.timed ⟨1, 2, none⟩) knotProgram s =
      [.ok (.value ![1 / 2]), .ok (.value ![0]), .ok (.blocks [(.seg 0, [![1]]), (.seg 1, [![0]]), (.seg 0, [![0]]), (.seg 1, [![0]]),
        (.time 0, [![1]])])] := by
  have key : ∀ x, LiveData.between nodeSpline 1 2 = x → (x.bind fun d =>
      .ok (nodeSession (euclidean ℚ (Fin 1 → ℚ)) ⟨1, -1, false⟩ EuclideanCall.run knotProgram nodeSpline d))
      = .ok [.ok (.value ![1 / 2]), .ok (.value ![1 / 2]),
        .ok (.blocks [(.seg 0, [![1 / 2]]), (.seg 1, [![1 / 2]]), (.seg 0, [![0]]), (.seg 1, [![0]]), (.time 0, [![1]])])] := by
    rintro _ rfl
    decide +kernel
  rcases hx : LiveData.between nodeSpline 1 2 with d | _ | _
  · exact ⟨nodeSpline, d, .call _ .create trivial, rfl, hx, trivial, Outcome.ok.inj (key _ hx), by decide +kernel⟩
  · exact absurd (key _ hx) (by simp [Outcome.bind])
  · exact absurd (key _ hx) (by simp [Outcome.bind])

/-- A program in which everything happens: values and blocks before and after vertices are written and segments appended, at times in old
and new segments and outside the bounds. -/
def busyProgram : List (NodeEvent ℚ (Fin 1 → ℚ) (EuclideanCall ℚ 1 (Fin 1 → ℚ))) :=
  [.call (.value 0) (nodeTime (3 / 2)) (fun _ _ => 77), .change (.write fun x p => ![x] + p), .call (.value 0) (nodeTime (3 / 2)) (fun _ _ => 7),
   .change (.call (.append [4, 6] (some ![5]))), .call (.jacobians 1 id) (nodeTime (7 / 4)) (fun _ _ => 77), .variables (nodeTime 0),
   .change (.write fun _ p => 2 * p), .call (.value 1) (nodeTime (5 / 4)) (fun _ _ => 77), .call (.value 0) (nodeTime 5) (fun _ _ => 77)]

/-- The hypotheses of `C94_euclidean_const_partial`, and the answers. -/
example : ∃ (s : MSpline ℚ (Fin 1 → ℚ)) (d : LiveData ℚ), RegularReach (euclidean ℚ (Fin 1 → ℚ)) 2 s ∧ s.getMaxTime = .ok 2 ∧
    (⟨1, -1, false⟩ : Template).Fits 2 ∧ LiveData.atTime ⟨1, -1, false⟩ s (3 / 2) (fun _ _ => 77) = .ok d ∧
    NodesRegular (euclidean ℚ (Fin 1 → ℚ)) busyProgram s ∧
    nodeSession (euclidean ℚ (Fin 1 → ℚ)) ⟨1, -1, false⟩ EuclideanCall.run busyProgram s d =
      [.ok (.value ![1 / 2]), .ok (.value ![1]), .ok (.blocks [(.seg 0, [![-1]]), (.seg 1, [![1]])]), .ok (.variables [.seg 0, .seg 1]),
       .ok (.value ![4]), .ok (.value ![2])] := by
  have key : ∀ x, LiveData.atTime ⟨1, -1, false⟩ nodeSpline (3 / 2) (fun _ _ => 77) = x → (x.bind fun d =>
      .ok (nodeSession (euclidean ℚ (Fin 1 → ℚ)) ⟨1, -1, false⟩ EuclideanCall.run busyProgram nodeSpline d))
      = .ok [.ok (.value ![1 / 2]), .ok (.value ![1]), .ok (.blocks [(.seg 0, [![-1]]), (.seg 1, [![1]])]), .ok (.variables [.seg 0, .seg 1]),
       .ok (.value ![4]), .ok (.value ![2])] := by
    rintro _ rfl
    decide +kernel
  rcases hx : LiveData.atTime ⟨1, -1, false⟩ nodeSpline (3 / 2) (fun _ _ => 77) with d | _ | _
  · exact ⟨nodeSpline, d, .call _ .create trivial, by decide +kernel, ⟨Or.inr rfl, by norm_num⟩, hx,
      ⟨trivial, fun _ => by decide +kernel, trivial, trivial⟩, Outcome.ok.inj (key _ hx)⟩
  · exact absurd (key _ hx) (by simp [Outcome.bind])
  · exact absurd (key _ hx) (by simp [Outcome.bind])

/-- The hypotheses of `C94_euclidean_timed_partial`, and the answers. -/
example : ∃ (s : MSpline ℚ (Fin 1 → ℚ)) (d : LiveData ℚ), RegularReach (euclidean ℚ (Fin 1 → ℚ)) 2 s ∧ s.state = .evaluable ∧
    (⟨1, -1, false⟩ : Template).Fits 2 ∧ LiveData.between s 1 2 = .ok d ∧ NodesRegular (euclidean ℚ (Fin 1 → ℚ)) busyProgram s ∧
    Apart (euclidean ℚ (Fin 1 → ℚ)) busyProgram s [] ∧
    nodeSession (euclidean ℚ (Fin 1 → ℚ)) ⟨1, -1, false⟩ EuclideanCall.run busyProgram s d =
      [.ok (.value ![1 / 2]), .ok (.value ![1]), .ok (.blocks [(.seg 0, [![-1]]), (.seg 1, [![1]]), (.seg 0, [![0]]), (.seg 1, [![0]]), (.seg 2, [![0]]), (.time 0, [![0]])]),
       .ok (.variables [.seg 0, .seg 1, .seg 2, .time 0]), .ok (.value ![4]), .throws] := by
  have key : ∀ x, LiveData.between nodeSpline 1 2 = x → (x.bind fun d =>
      .ok (nodeSession (euclidean ℚ (Fin 1 → ℚ)) ⟨1, -1, false⟩ EuclideanCall.run busyProgram nodeSpline d))
      = .ok [.ok (.value ![1 / 2]), .ok (.value ![1]), .ok (.blocks [(.seg 0, [![-1]]), (.seg 1, [![1]]), (.seg 0, [![0]]), (.seg 1, [![0]]), (.seg 2, [![0]]), (.time 0, [![0]])]),
       .ok (.variables [.seg 0, .seg 1, .seg 2, .time 0]), .ok (.value ![4]), .throws] := by
    rintro _ rfl
    decide +kernel
  rcases hx : LiveData.between nodeSpline 1 2 with d | _ | _
  · refine ⟨nodeSpline, d, .call _ .create trivial, rfl, ⟨Or.inr rfl, by norm_num⟩, hx,
      ⟨trivial, fun _ => by decide +kernel, trivial, trivial⟩, ⟨by simp, fun c hc => Or.inl ?_, fun c hc => Or.inl ?_, fun c hc => Or.inl ?_,
        fun c hc => Or.inl ?_, trivial⟩, Outcome.ok.inj (key _ hx)⟩
    all_goals decide +kernel
  · exact absurd (key _ hx) (by simp [Outcome.bind])
  · exact absurd (key _ hx) (by simp [Outcome.bind])

/-- The hypotheses of the quaternion theorems: nodes asked before and after vertices are written and a segment is appended, at a constant
time and at variable ones. -/
example : ∃ (s : MSpline ℝ ℍ[ℝ]) (d d' : LiveData ℝ) (es : List (NodeEvent ℝ ℍ[ℝ] (QuaternionCall V3))),
    RegularReach (quatGroup arcLog).toMfd 2 s ∧ s.state = .evaluable ∧ (⟨1, -1, false⟩ : Template).Fits 2 ∧ s.getMaxTime = .ok 3 ∧
    LiveData.atTime ⟨1, -1, false⟩ s (5 / 2) (fun _ _ => 77) = .ok d ∧ LiveData.between s (3 / 2) 3 = .ok d' ∧
    NodesRegular (quatGroup arcLog).toMfd es s ∧ Apart (quatGroup arcLog).toMfd es s [] ∧ es.length = 5 ∧
    (nodesFinally (quatGroup arcLog).toMfd es s).keys.length = 6 := by
  obtain ⟨s, g, hw, ho, hst, hk, hv, i1, i2, w0, w1, hx⟩ := demo_window
  have hc : (⟨1, -1, false⟩ : Template).Fits 2 := ⟨Or.inr rfl, by norm_num⟩
  have ek0 : (s.writeVertices fun _ q => q * q).keys = [0, 1, 2, 3, 4] := by rw [writeVertices_keys, hk]
  have l := (change_later (quatGroup arcLog).toMfd (.write fun _ q => q * q) hw hst trivial).1
  have hreg : ([0, 1, 2, 3, 4] ++ [6] : List ℝ).Pairwise (· < ·) := by simp [List.pairwise_cons]; norm_num
  obtain ⟨s', f1, f2, f3, f4, f5, -⟩ := append_ok l.mwf l.state (quatGroup arcLog).toMfd [6] none (by
    show ((s.writeVertices fun _ q => q * q).keys ++ [6]).Pairwise (· < ·)
    rw [ek0]
    exact hreg)
  obtain ⟨b, hb, -⟩ := construct_eq hw hst i2 (by rw [ho]; exact hc) (fun _ _ => 77)
  refine ⟨s, _, _, [.call (.value 0) ⟨9 / 4, []⟩ (fun _ _ => 77), .change (.write fun _ q => q * q), .call (.angular 1) ⟨5 / 2, [(4, [1, 2])]⟩
    (fun _ _ => 77), .change (.call (.append [6] none)), .call (.angularJacobians 1 id) ⟨11 / 4, [(4, [1, 2])]⟩ (fun _ _ => 77)], g, hst, hc, ?_,
    by unfold LiveData.atTime; rw [hb]; rfl, by unfold LiveData.between; rw [hx]; rfl,
    ⟨trivial, fun _ => ?_, trivial⟩, ⟨by simp, fun c hc => Or.inr (Or.inl ?_), fun c hc => Or.inr (Or.inl ?_), trivial⟩, rfl, ?_⟩
  · rw [getMaxTime_eq hw hst, ho, hk]
    unfold kn
    rw [hk]
    rfl
  · show ((s.writeVertices fun _ q => q * q).keys ++ [6]).Pairwise (· < ·)
    rw [ek0]
    exact hreg
  · simp only [List.mem_cons, List.not_mem_nil, or_false] at hc
    subst hc
    norm_num
  · simp only [List.mem_cons, List.not_mem_nil, or_false] at hc
    rcases hc with rfl | rfl <;> norm_num
  · have : (Change.call (.append [6] none) : Change ℝ ℍ[ℝ]).run (quatGroup arcLog).toMfd (s.writeVertices fun _ q => q * q) = s' := by
      have f1' : (s.writeVertices fun _ q => q * q).appendSegments (quatGroup arcLog).toMfd [6] none = _ := f1
      simp only [Change.run, Call.run, f1']
    simp only [nodesFinally]
    rw [show (Change.write (fun _ q => q * q) : Change ℝ ℍ[ℝ]).run (quatGroup arcLog).toMfd s = s.writeVertices fun _ q => q * q from rfl, this,
      f5]
    show ((s.writeVertices fun _ q => q * q).keys ++ [6]).length = 6
    rw [ek0]
    rfl

/-- The hypotheses of `C94_euclidean_derivative_partial`: the blocks for the velocity after vertices are written. -/
example : ∃ (s : MSpline ℝ (Fin 2 → ℝ)) (d : LiveData ℝ) (pre : List (Outcome (NodeAnswer ℝ (Fin 2 → ℝ) (Fin 2 → ℝ))))
    (v : Fin 2 → ℝ) (J : List (ExprVar ℝ × List (Fin 2 → ℝ))) (vars : List (ExprVar ℝ)),
    nodeSession (euclidean ℝ (Fin 2 → ℝ)) ⟨1, -1, false⟩ (fun c s τ b e q => EuclideanCall.run c s τ b e q)
      ([.call (.value 0) ⟨9 / 4, []⟩ (fun _ _ => 77), .change (.write fun x p => p + ![x, 1])] ++
        [.call (.value (1 : ℕ)) ⟨5 / 2, [(4, [1, 2])]⟩ (fun _ _ => 77),
          .call (.jacobians (1 : ℕ) (ContinuousLinearMap.id ℝ (Fin 2 → ℝ))) ⟨5 / 2, [(4, [1, 2])]⟩ (fun _ _ => 77), .variables ⟨5 / 2, [(4, [1, 2])]⟩]) s d
      = pre ++ [.ok (.value v), .ok (.blocks J), .ok (.variables vars)] ∧ (∀ y, y ∈ J.map Prod.fst ↔ y ∈ vars) := by
  obtain ⟨s, -, g1, g2, g3, g4, g5, g6, g7⟩ := C55_init_with_vertices (euclidean ℝ (Fin 2 → ℝ)) 3 (by norm_num) [0, 1, 2, 3, 4, 5, 6]
    [![0, 1], ![2, 0], ![3, 5], ![1, 1]] (by simp [List.pairwise_cons]; norm_num) rfl (by decide) (fun _ _ => rfl)
  have hmin : s.getMinTime = .ok 2 := g6
  have hmax : s.getMaxTime = .ok 4 := g7
  obtain ⟨d, hd⟩ : ∃ d, LiveData.between s 2 4 = .ok d := by
    obtain ⟨x, hx, -⟩ := (C44_bounds_checked s 2 4 2 4 hmin hmax).1 ⟨by norm_num, le_refl _, le_refl _⟩
    exact ⟨_, by unfold LiveData.between; rw [hx]; rfl⟩
  obtain ⟨pre, v, J, vars, h1, h2, -⟩ := C94_euclidean_derivative_partial 3 (by norm_num) s g1 g2 ⟨1, -1, false⟩ ⟨Or.inr rfl, by norm_num⟩ 2 4 d hd
    [.call (.value 0) ⟨9 / 4, []⟩ (fun _ _ => 77), .change (.write fun x p => p + ![x, 1])] ⟨5 / 2, [(4, [1, 2])]⟩ (by norm_num) (by norm_num)
    (s.writeVertices fun x p => p + ![x, 1]) rfl (by rw [writeVertices_keys, g3]; norm_num) 1 (by simp [Template.maxDer?])
    (ContinuousLinearMap.id ℝ (Fin 2 → ℝ)) (fun _ _ => 77) (fun _ _ => 77) ⟨trivial, trivial⟩
    ⟨by simp, fun c hc => Or.inr (Or.inl (by
      simp only [List.mem_cons, List.not_mem_nil, or_false] at hc
      subst hc
      norm_num)), fun c hc => Or.inr (Or.inl (by
      simp only [List.mem_cons, List.not_mem_nil, or_false] at hc
      rcases hc with rfl | rfl <;> norm_num)), trivial⟩
  exact ⟨s, d, pre, v, J, vars, h1, h2⟩

end Verif
