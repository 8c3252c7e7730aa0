import Verif.Model.EvaluatorLife
import Verif.Props.EvaluatorBuffers
import Verif.Props.ManifoldAppend
import Verif.Props.ManifoldUpdate

/-!
# C90: an evaluator goes on to answer for its spline while the spline changes
-/

set_option linter.unusedSectionVars false

namespace Verif.MSpline

open Finset Polynomial Quaternion BufM

variable {K : Type} [Field K] [LinearOrder K] [IsStrictOrderedRing K] {P V : Type}

/-! ### What changes keep -/

/-- `s'` is `s` with other vertices and perhaps with further knots at the end. -/
structure Later (s s' : MSpline K P) : Prop where
  mwf : s'.MWF
  state : s'.state = .evaluable
  order : s'.order = s.order
  keys : ∃ ts, s'.keys = s.keys ++ ts

theorem Later.refl {s : MSpline K P} (h : s.MWF) (he : s.state = .evaluable) : Later s s :=
  ⟨h, he, rfl, [], (List.append_nil _).symm⟩

theorem Later.trans {s s' s'' : MSpline K P} (h : Later s s') (h' : Later s' s'') : Later s s'' := by
  obtain ⟨ts, e⟩ := h.keys
  obtain ⟨ts', e'⟩ := h'.keys
  exact ⟨h'.mwf, h'.state, h'.order.trans h.order, ts ++ ts', by rw [e', e, List.append_assoc]⟩

/-- The changes of a reasonable client. -/
def Change.Regular (s : MSpline K P) : Change K P → Prop
  | .call c => c.Regular s
  | .write _ => True

/-- All changes of a program are those of a reasonable client. -/
def AllRegular {α : Type} (M : Mfd K P V) : List (Event K P α) → MSpline K P → Prop
  | [], _ => True
  | .query _ :: es, s => AllRegular M es s
  | .change c :: es, s => c.Regular s ∧ AllRegular M es (c.run M s)

theorem writeVertices_keys (f : K → P → P) (s : MSpline K P) : (s.writeVertices f).keys = s.keys := by
  unfold writeVertices MSpline.keys
  rw [List.map_map]
  rfl

theorem writeVertices_mwf (f : K → P → P) {s : MSpline K P} (h : s.MWF) : (s.writeVertices f).MWF :=
  mwf_segs h _ (writeVertices_keys f s) fun j => by
    rw [List.getElem?_map, Option.map_map]
    rfl

theorem change_later (M : Mfd K P V) (c : Change K P) {s : MSpline K P} (h : s.MWF) (he : s.state = .evaluable) (hr : c.Regular s) :
    Later s (c.run M s) ∧ (¬ c.isAppend → (c.run M s).keys = s.keys) := by
  have same : Later s s ∧ (¬ c.isAppend → s.keys = s.keys) := ⟨Later.refl h he, fun _ => rfl⟩
  cases c with
  | write f =>
    exact ⟨⟨writeVertices_mwf f h, he, rfl, [], by rw [List.append_nil]; exact writeVertices_keys f s⟩, fun _ => writeVertices_keys f s⟩
  | call c =>
    have hr : c.Regular s := hr
    show Later s (c.run M s).2 ∧ (_ → (c.run M s).2.keys = s.keys)
    cases c with
    | addKnot t => exact absurd (hr.symm.trans he) (by decide)
    | addControlVertex t p => exact absurd (hr.symm.trans he) (by decide)
    | addKnots ts => simp only [Call.run, addKnots, assertConstructing_evaluable he]; exact ⟨same.1, fun _ => trivial⟩
    | addKnotsAndControlVertices ts cs => simp only [Call.run, addKnotsAndControlVertices, assertConstructing_evaluable he]; exact ⟨same.1, fun _ => trivial⟩
    | init => simp only [Call.run, init, he]; exact ⟨same.1, fun _ => trivial⟩
    | initWithKnots ts => simp only [Call.run, initWithKnots, assertConstructing_evaluable he]; exact ⟨same.1, fun _ => trivial⟩
    | initWithKnotsAndControlVertices ts cs =>
      simp only [Call.run, initWithKnotsAndControlVertices, assertConstructing_evaluable he]; exact ⟨same.1, fun _ => trivial⟩
    | initConstant ts p => simp only [Call.run, initConstantSpline, assertConstructing_evaluable he]; exact ⟨same.1, fun _ => trivial⟩
    | append ts v =>
      obtain ⟨s', r1, r2, r3, r4, r5, -⟩ := append_ok h he M ts v (hr he)
      simp only [Call.run, r1]
      exact ⟨⟨r2, r4, r3, ts, r5⟩, fun hn => absurd trivial hn⟩
    | manipulate f n t o =>
      have hr : 0 ≤ o := hr
      obtain ⟨m, rfl⟩ := Int.eq_ofNat_of_zero_le hr
      simp only [Call.run]
      rcases Nat.lt_or_ge (s.keys.length - s.order) n with hn | hn
      · unfold manipulateControlVertices
        rw [numControlVertices_eq h he, Outcome.bind_ok, if_pos hn]
        exact same
      · rcases evaluable_total h he t with ⟨i, hi⟩ | ht
        · rw [manipulate_nonneg h he hi n hn]
          have hk := (manipulateLoop_spec f h.nodup n (min (i + 1 - s.order + m) (s.keys.length - s.order)) 0 s.segs rfl (by omega)).1
          exact ⟨⟨mwf_manipulateLoop h f _ n (by omega), he, rfl, [], by rw [List.append_nil]; exact hk⟩, fun _ => hk⟩
        · unfold manipulateControlVertices
          rw [numControlVertices_eq h he, Outcome.bind_ok, if_neg (by omega), getSegmentIterator_throws h he t ht]
          exact same

/-! ### The evaluator and its buffers fit the later spline -/

theorem Later.evaluatorOf {s s' : MSpline K P} (h : s.MWF) (l : Later s s') {t : K} {i : ℕ} (hi : s.InSeg t i) :
    s'.evaluatorOf t i = s.evaluatorOf t i := by
  obtain ⟨ts, e⟩ := l.keys
  have h1 := hi.lower
  have h2 := hi.upper
  have h3 := h.order_pos
  unfold MSpline.evaluatorOf
  rw [l.order, kn_append e (by omega), kn_append e (by omega), e, List.getElem?_append_left (by omega), List.getElem?_append_left (by omega),
    List.getElem?_append_left (by omega)]

theorem Later.bufInv {s s' : MSpline K P} (h : s.MWF) (he : s.state = .evaluable) (l : Later s s') {t : K} {i : ℕ} (hi : s.InSeg t i)
    (hi' : s'.InSeg t i) {c : Template} {b : Buffers K} (hb : BufInv c s (s.evaluatorOf t i) b) : BufInv c s' (s.evaluatorOf t i) b := by
  obtain ⟨ts, e⟩ := l.keys
  have h1 := hi.lower
  have h2 := hi.upper
  have h3 := h.order_pos
  refine ⟨hb.1, fun d v hv => ?_⟩
  obtain ⟨w, hw, hwv⟩ := hb.2 d v hv
  obtain ⟨w₀, hw₀, e₀⟩ := weights_ideal h he hi c.cumulative d
  rw [hw] at hw₀
  obtain rfl := Outcome.ok.inj hw₀
  obtain ⟨w', hw', e'⟩ := weights_ideal l.mwf l.state hi' c.cumulative d
  rw [l.evaluatorOf h hi] at hw'
  refine ⟨w', hw', fun j hj => ?_⟩
  rw [l.order] at hj
  have hp : ∀ q, piece s'.kn i (s.order - 1) q = piece s.kn i (s.order - 1) q :=
    piece_congr_local _ _ _ _ fun m hm => kn_append e (by omega)
  rw [hwv j hj, e₀ j hj, e' j (by rw [l.order]; exact hj)]
  unfold idealWeight
  simp only [l.order, hp]

/-! ### Programs -/

/-- What the queries of a program should answer: the same as on a new evaluator of the spline as it is then. -/
def expected {α β : Type} (M : Mfd K P V) (answer : MSpline K P → α → Outcome β) : List (Event K P α) → MSpline K P → List (Outcome β)
  | [], _ => []
  | .query q :: es, s => answer s q :: expected M answer es s
  | .change c :: es, s => expected M answer es (c.run M s)

/-- No segments are appended. -/
def NoAppend {α : Type} (es : List (Event K P α)) : Prop := ∀ c, Event.change c ∈ es → ¬ c.isAppend

theorem session_eq {α β : Type} (M : Mfd K P V) (ask : MSpline K P → α → BufM K β) (answer : MSpline K P → α → Outcome β) (c : Template)
    {s0 : MSpline K P} (h0 : s0.MWF) (he0 : s0.state = .evaluable) {t : K} {i : ℕ} (hi : s0.InSeg t i)
    (href : ∀ s g B, Later s0 s → s.evaluatorAt t = .ok (s0.evaluatorOf t i) → Ready c s (s0.evaluatorOf t i) g B → ∀ q,
      Refines (BufInv c s (s0.evaluatorOf t i)) (ask s q) (answer s q)) (hc : c.Fits s0.order) :
    ∀ (es : List (Event K P α)) (s : MSpline K P) (b : Buffers K), Later s0 s → AllRegular M es s →
      (t < s0.kn (s0.keys.length - s0.order) ∨ (s.keys = s0.keys ∧ NoAppend es)) → BufInv c s (s0.evaluatorOf t i) b →
      session M ask es s b = expected M answer es s
  | [], _, _, _, _, _, _ => rfl
  | .query q :: es, s, b, l, hr, ht, hb => by
    have hi' : s.InSeg t i := by
      rcases ht with ht | ⟨ht, -⟩
      · obtain ⟨ts, e⟩ := l.keys
        exact append_inSeg e l.order h0.order_pos hi ht
      · exact ⟨by rw [l.order]; exact hi.lower, by rw [l.order, ht]; exact hi.upper, by rw [kn_eq_knOf, ht]; exact hi.left,
          by rw [l.order, kn_eq_knOf, ht]; exact hi.right⟩
    obtain ⟨g, B, R⟩ := ready_of (c := c) l.mwf l.state hi' (by rw [l.order]; exact hc)
    have hev := evaluatorAt_eq l.mwf l.state hi'
    rw [l.evaluatorOf h0 hi] at R hev
    obtain ⟨a1, a2⟩ := href s g B l hev R q b hb
    have ht' : t < s0.kn (s0.keys.length - s0.order) ∨ (s.keys = s0.keys ∧ NoAppend es) :=
      ht.imp_right fun h => ⟨h.1, fun c hc => h.2 c (List.mem_cons_of_mem _ hc)⟩
    unfold session expected
    rw [a1, session_eq M ask answer c h0 he0 hi href hc es s _ l hr ht' a2]
  | .change x :: es, s, b, l, hr, ht, hb => by
    obtain ⟨l1, l2⟩ := change_later M x l.mwf l.state hr.1
    have hi' : s.InSeg t i := by
      rcases ht with ht | ⟨ht, -⟩
      · obtain ⟨ts, e⟩ := l.keys
        exact append_inSeg e l.order h0.order_pos hi ht
      · exact ⟨by rw [l.order]; exact hi.lower, by rw [l.order, ht]; exact hi.upper, by rw [kn_eq_knOf, ht]; exact hi.left,
          by rw [l.order, kn_eq_knOf, ht]; exact hi.right⟩
    have ht' : t < s0.kn (s0.keys.length - s0.order) ∨ ((x.run M s).keys = s0.keys ∧ NoAppend es) :=
      ht.imp_right fun h => ⟨(l2 (h.2 x (by simp))).trans h.1, fun c hc => h.2 c (List.mem_cons_of_mem _ hc)⟩
    have ll := l.trans l1
    have hi'' : (x.run M s).InSeg t i := by
      rcases ht' with ht | ⟨ht, -⟩
      · obtain ⟨ts, e⟩ := ll.keys
        exact append_inSeg e ll.order h0.order_pos hi ht
      · exact ⟨by rw [ll.order]; exact hi.lower, by rw [ll.order, ht]; exact hi.upper, by rw [kn_eq_knOf, ht]; exact hi.left,
          by rw [ll.order, kn_eq_knOf, ht]; exact hi.right⟩
    have hev : s.evaluatorOf t i = s0.evaluatorOf t i := l.evaluatorOf h0 hi
    have hb' := l1.bufInv l.mwf l.state hi' hi'' (by rw [hev]; exact hb)
    rw [hev] at hb'
    unfold session expected
    exact session_eq M ask answer c h0 he0 hi href hc es _ b ll hr.2 ht' hb'

/-- An evaluator that could be constructed. -/
theorem constructed {M : Mfd K P V} {order : ℕ} (ho : 1 ≤ order) {s : MSpline K P} (h : RegularReach M order s) {c : Template}
    (hc : c.Fits order) {t : K} {fresh : ℕ → ℕ → K} {e : Evaluator K} {b : Buffers K} (hb : s.construct c t fresh = .ok (e, b)) :
    s.MWF ∧ s.order = order ∧ s.state = .evaluable ∧ ∃ i, s.InSeg t i ∧ e = s.evaluatorOf t i ∧ BufInv c s (s.evaluatorOf t i) b := by
  obtain ⟨hw, rfl⟩ := h.mwf ho
  have hfst : s.evaluatorAt t = .ok e := by
    have := C71_construct M s.order ho s h c hc t fresh
    rw [hb] at this
    exact this.symm
  have hst : s.state = .evaluable := by
    rcases hst : s.state with _ | _
    · rw [evaluatorAt_throws hw t (Or.inl hst)] at hfst; cases hfst
    · rfl
  have ht : s.kn (s.order - 1) ≤ t ∧ t ≤ s.kn (s.keys.length - s.order) := by
    by_contra ht
    rw [evaluatorAt_throws hw t (Or.inr (by
        rcases not_and_or.1 ht with h | h
        · exact Or.inl (not_le.1 h)
        · exact Or.inr (not_le.1 h)))] at hfst
    cases hfst
  obtain ⟨i, hi, -⟩ := getSegmentIterator_ok hw hst t ht.1 ht.2
  obtain ⟨b₀, hb₀, hinv⟩ := construct_eq hw hst hi hc fresh
  rw [hb₀] at hb
  cases hb
  exact ⟨hw, rfl, hst, i, hi, rfl, hinv⟩

/-- **C90**: while control vertices are written and segments appended, the queries on one evaluator of a Euclidean spline answer like a new
evaluator of the spline as it is then, if its time is before the end of the spline it was made for or nothing is appended.  (Missing: the
time at the end, see `C90_end_violated`.) -/
theorem C90_euclidean_partial [AddCommGroup P] [Module K P] (order : ℕ) (ho : 1 ≤ order) (s : MSpline K P)
    (h : RegularReach (euclidean K P) order s) (c : Template) (hc : c.Fits order) (t : K) (fresh : ℕ → ℕ → K) (e : Evaluator K)
    (b : Buffers K) (hb : s.construct c t fresh = .ok (e, b)) (es : List (Event K P ECall)) (hr : AllRegular (euclidean K P) es s) (tmax : K)
    (hmax : s.getMaxTime = .ok tmax) (ht : t < tmax ∨ NoAppend es) :
    session (euclidean K P) (fun s => ECall.run c s e) es s b = expected (euclidean K P) (fun s => ECall.answer c s t) es s := by
  obtain ⟨hw, rfl, hst, i, hi, rfl, hinv⟩ := constructed ho h hc hb
  rw [getMaxTime_eq hw hst, Outcome.ok.injEq] at hmax
  subst hmax
  refine session_eq _ _ _ c hw hst hi (fun s' g B l hfst R q => ?_) hc es s b (Later.refl hw hst) hr (ht.imp_right fun h => ⟨rfl, h⟩) hinv
  cases q with
  | evalD der =>
    unfold ECall.run ECall.answer euclideanEvalD
    dsimp only
    rw [hfst, Outcome.bind_ok]
    exact (euclideanEvalDB_refines R der).map _
  | jacobian der =>
    unfold ECall.run ECall.answer euclideanEvalJacobian
    dsimp only
    rw [hfst, Outcome.bind_ok]
    exact (euclideanEvalJacobianB_refines R der).map _

/-- **C90**: the same for quaternion splines. -/
theorem C90_quaternion_partial (lg : ℍ[ℝ] → V3) (S L : V3 → M33) (order : ℕ) (ho : 1 ≤ order) (s : MSpline ℝ ℍ[ℝ])
    (h : RegularReach (quatGroup lg).toMfd order s) (c : Template) (hc : c.Fits order) (t : ℝ) (fresh : ℕ → ℕ → ℝ) (e : Evaluator ℝ)
    (b : Buffers ℝ) (hb : s.construct c t fresh = .ok (e, b)) (es : List (Event ℝ ℍ[ℝ] QCall)) (hr : AllRegular (quatGroup lg).toMfd es s)
    (tmax : ℝ) (hmax : s.getMaxTime = .ok tmax) (ht : t < tmax ∨ NoAppend es) :
    session (quatGroup lg).toMfd (fun s => QCall.run c lg S L s e) es s b
      = expected (quatGroup lg).toMfd (fun s => QCall.answer lg S L s t) es s := by
  obtain ⟨hw, rfl, hst, i, hi, rfl, hinv⟩ := constructed ho h hc hb
  rw [getMaxTime_eq hw hst, Outcome.ok.injEq] at hmax
  subst hmax
  refine session_eq _ _ _ c hw hst hi (fun s' g B l hfst R q => ?_) hc es s b (Later.refl hw hst) hr (ht.imp_right fun h => ⟨rfl, h⟩) hinv
  cases q with
  | evalD der => exact (quatEvalDB_refines R lg hfst der).map _
  | angular der => exact (evalAngularDerivativeB_refines R lg hfst der).map _
  | jacobian der => exact (quatEvalJacobianB_refines R lg S L hfst der).map _
  | angularJacobian der => exact (evalAngularJacobianB_refines R lg S L hfst der).map _

/-- The spline at the end of a program. -/
def finally_ {α : Type} (M : Mfd K P V) : List (Event K P α) → MSpline K P → MSpline K P
  | [], s => s
  | .query _ :: es, s => finally_ M es s
  | .change c :: es, s => finally_ M es (c.run M s)

theorem finally_later {α : Type} (M : Mfd K P V) {s0 : MSpline K P} : ∀ (es : List (Event K P α)) (s : MSpline K P), Later s0 s →
    AllRegular M es s → Later s0 (finally_ M es s) ∧ (NoAppend es → (finally_ M es s).keys = s.keys)
  | [], _, l, _ => ⟨l, fun _ => rfl⟩
  | .query _ :: es, s, l, hr =>
    have ih := finally_later M es s l hr
    ⟨ih.1, fun hn => ih.2 fun c hc => hn c (List.mem_cons_of_mem _ hc)⟩
  | .change x :: es, s, l, hr => by
    obtain ⟨l1, l2⟩ := change_later M x l.mwf l.state hr.1
    obtain ⟨i1, i2⟩ := finally_later M es (x.run M s) (l.trans l1) hr.2
    exact ⟨i1, fun hn => (i2 fun c hc => hn c (List.mem_cons_of_mem _ hc)).trans (l2 (hn x (by simp)))⟩

/-- **C90**: all that an evaluator holds (time, interval, iterators of the first and behind the last relevant segment) is what a new
evaluator of the changed spline would hold, so that it also goes over the same segments and reports the same design variables.  (Missing: the
time at the end, see `C90_end_violated`.) -/
theorem C90_same_evaluator_partial {α : Type} (M : Mfd K P V) (order : ℕ) (ho : 1 ≤ order) (s : MSpline K P) (h : RegularReach M order s)
    (t : K) (e : Evaluator K) (hb : s.evaluatorAt t = .ok e) (es : List (Event K P α)) (hr : AllRegular M es s) (tmax : K)
    (hmax : s.getMaxTime = .ok tmax) (ht : t < tmax ∨ NoAppend es) : (finally_ M es s).evaluatorAt t = .ok e := by
  obtain ⟨hw, rfl⟩ := h.mwf ho
  rcases hst : s.state with _ | _
  · rw [evaluatorAt_throws hw t (Or.inl hst)] at hb; cases hb
  rcases evaluable_total hw hst t with ⟨i, hi⟩ | h1
  · rw [evaluatorAt_eq hw hst hi] at hb
    rw [getMaxTime_eq hw hst, Outcome.ok.injEq] at hmax
    subst hmax
    obtain ⟨l, l2⟩ := finally_later M es s (Later.refl hw hst) hr
    have hi' : (finally_ M es s).InSeg t i := by
      rcases ht with ht | ht
      · obtain ⟨ts, e⟩ := l.keys
        exact append_inSeg e l.order hw.order_pos hi ht
      · exact ⟨by rw [l.order]; exact hi.lower, by rw [l.order, l2 ht]; exact hi.upper, by rw [kn_eq_knOf, l2 ht]; exact hi.left,
          by rw [l.order, kn_eq_knOf, l2 ht]; exact hi.right⟩
    rw [evaluatorAt_eq l.mwf l.state hi', l.evaluatorOf hw hi, hb]
  · rw [evaluatorAt_throws hw t (Or.inr h1)] at hb; cases hb

deriving instance DecidableEq for EAnswer

/-- A spline of order two. -/
def endSpline : MSpline ℚ ℚ := ((Call.initWithKnotsAndControlVertices [0, 1, 2, 3] [0, 1]).run (euclidean ℚ ℚ) (create 2)).2

/-- **C90 is violated at the end of the spline**: an evaluator made for the last time of a spline answers, after a segment is appended,
with the slope before that time, and a new evaluator with the slope after it. -/
theorem C90_end_violated : ∃ (s : MSpline ℚ ℚ) (e : Evaluator ℚ) (b : Buffers ℚ), RegularReach (euclidean ℚ ℚ) 2 s ∧
    s.getMaxTime = .ok 2 ∧ s.construct ⟨1, -1, false⟩ 2 (fun _ _ => 77) = .ok (e, b) ∧
    AllRegular (euclidean ℚ ℚ) [.query (.evalD 1), .change (.call (.append [4] (some 5))), Event.query (ECall.evalD 1)] s ∧
    session (euclidean ℚ ℚ) (fun s => ECall.run ⟨1, -1, false⟩ s e)
      [.query (.evalD 1), .change (.call (.append [4] (some 5))), .query (.evalD 1)] s b = [.ok (.point 1), .ok (.point 1)] ∧
    expected (euclidean ℚ ℚ) (fun s => ECall.answer ⟨1, -1, false⟩ s 2)
      [.query (.evalD 1), .change (.call (.append [4] (some 5))), .query (.evalD 1)] s = [.ok (.point 1), .ok (.point 4)] := by
  have key : ∀ x, endSpline.construct ⟨1, -1, false⟩ 2 (fun _ _ => 77) = x → (x.bind fun eb => .ok (session (euclidean ℚ ℚ)
      (fun s => ECall.run ⟨1, -1, false⟩ s eb.1) [.query (.evalD 1), .change (.call (.append [4] (some 5))), .query (.evalD 1)] endSpline eb.2))
      = .ok [.ok (.point 1), .ok (.point 1)] := by
    rintro _ rfl
    decide +kernel
  rcases hx : endSpline.construct ⟨1, -1, false⟩ 2 (fun _ _ => 77) with ⟨e, b⟩ | _ | _
  · exact ⟨endSpline, e, b, .call _ .create trivial, by decide +kernel, hx, ⟨fun _ => by decide +kernel, trivial⟩,
      Outcome.ok.inj (key _ hx), by decide +kernel⟩
  · exact absurd (key _ hx) (by simp [Outcome.bind])
  · exact absurd (key _ hx) (by simp [Outcome.bind])

/-- Not vacuous: an evaluator asked before and after vertices are written, segments appended and vertices moved. -/
example : ∃ (s : MSpline ℚ ℚ) (e : Evaluator ℚ) (b : Buffers ℚ), RegularReach (euclidean ℚ ℚ) 2 s ∧
    s.construct ⟨1, -1, false⟩ (3 / 2) (fun _ _ => 77) = .ok (e, b) ∧
    AllRegular (euclidean ℚ ℚ) [.query (.evalD 0), .change (.write fun x p => x + p), .query (.evalD 0),
      .change (.call (.append [4, 6] (some 5))), .query (.evalD 0), .change (.call (.manipulate (fun _ p => 2 * p) 2 1 0)),
      Event.query (ECall.jacobian 1)] s ∧
    session (euclidean ℚ ℚ) (fun s => ECall.run ⟨1, -1, false⟩ s e) [.query (.evalD 0), .change (.write fun x p => x + p), .query (.evalD 0),
      .change (.call (.append [4, 6] (some 5))), .query (.evalD 0), .change (.call (.manipulate (fun _ p => 2 * p) 2 1 0)),
      .query (.evalD 0), .query (.jacobian 1)] s b = [.ok (.point (1 / 2)), .ok (.point 1), .ok (.point 1), .ok (.point 2), .ok (.blocks [-1, 1])] := by
  have key : ∀ x, endSpline.construct ⟨1, -1, false⟩ (3 / 2) (fun _ _ => 77) = x → (x.bind fun eb => .ok (session (euclidean ℚ ℚ)
      (fun s => ECall.run ⟨1, -1, false⟩ s eb.1) [.query (.evalD 0), .change (.write fun x p => x + p), .query (.evalD 0),
      .change (.call (.append [4, 6] (some 5))), .query (.evalD 0), .change (.call (.manipulate (fun _ p => 2 * p) 2 1 0)),
      .query (.evalD 0), .query (.jacobian 1)] endSpline eb.2))
      = .ok [.ok (.point (1 / 2)), .ok (.point 1), .ok (.point 1), .ok (.point 2), .ok (.blocks [-1, 1])] := by
    rintro _ rfl
    decide +kernel
  rcases hx : endSpline.construct ⟨1, -1, false⟩ (3 / 2) (fun _ _ => 77) with ⟨e, b⟩ | _ | _
  · exact ⟨endSpline, e, b, .call _ .create trivial, hx, ⟨trivial, fun _ => by decide +kernel, show (0 : ℤ) ≤ 0 by norm_num, trivial⟩,
      Outcome.ok.inj (key _ hx)⟩
  · exact absurd (key _ hx) (by simp [Outcome.bind])
  · exact absurd (key _ hx) (by simp [Outcome.bind])

end Verif.MSpline
