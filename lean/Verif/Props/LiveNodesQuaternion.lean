import Verif.Props.LiveNodes

/-!
# C94: the Jacobians of expressions of unit quaternion splines in the course of a program
-/

set_option linter.unusedSectionVars false

namespace Verif

open MSpline BufM Quaternion

section derivative

variable {R : Type} [NormedAddCommGroup R] [NormedSpace ℝ R]

/-- At any point of a program there is a spline made by calls alone with the same knots, for which the bounds of the factory are good. -/
theorem nodes_bounds {K P V : Type} [Field K] [LinearOrder K] [IsStrictOrderedRing K] {α : Type} (M : Mfd K P V) (order : ℕ) (ho : 1 ≤ order)
    (s : MSpline K P) (h : RegularReach M order s) (hst : s.state = .evaluable) (lower upper : K) (x : TimeExpr K)
    (hx : TimeExpr.create s lower upper = .ok x) (es : List (NodeEvent K P α)) (hr : NodesRegular M es s) :
    ∃ r, RegularReach M order r ∧ r.state = .evaluable ∧ SameKnots r (nodesFinally M es s) ∧
      TimeExpr.create r lower upper = .ok ⟨lower, upper, none⟩ := by
  obtain ⟨hw, e0⟩ := h.mwf ho
  obtain ⟨rfl, hlu, hlo, hup⟩ := create_bounds hw hst hx
  obtain ⟨r, k1, k2, k3, k4⟩ := nodes_sameKnots M ho es s s h hst ⟨hw, hst, rfl, rfl⟩ hr
  obtain ⟨hwr, er⟩ := k1.mwf ho
  refine ⟨r, k1, k2, k3, ?_⟩
  obtain ⟨ts, ek⟩ := k4.keys
  have hen := hw.enough hst
  unfold TimeExpr.create
  rw [if_neg (not_not.2 hlu), getMinTime_eq hwr k2, Outcome.bind_ok, if_neg, getMaxTime_eq hwr k2, Outcome.bind_ok, if_neg]
  · refine not_not.2 (hup.trans ?_)
    rw [← kn_append ek (show s.keys.length - s.order < s.keys.length by omega)]
    exact hwr.mono _ _ (by rw [k4.order, ek, List.length_append]; omega) (by rw [ek, List.length_append, k4.order]; omega)
  · refine not_not.2 ?_
    rw [k4.order, kn_append ek (by omega)]
    exact hlo

theorem change_zero (τ : TimeNode ℝ) : τ.change (fun _ _ => 0) = 0 := by
  unfold TimeNode.change applyCols
  simp

/-- **C94**: at any point of any program, with the time between the bounds and not at a knot, the rotation nodes of a factory of a unit
quaternion spline and the nodes of its derivatives announce design variables and give blocks for exactly these, and the blocks are the
derivative of the value at this point.  (Missing: derivatives for order one, and times at knots.) -/
theorem C94_quaternion_derivative_partial (lg : ℍ[ℝ] → V3) (S L : V3 → M33) (hS : ExpDiff S) (order : ℕ) (ho : 1 ≤ order) (s : MSpline ℝ ℍ[ℝ])
    (h : RegularReach (quatGroup lg).toMfd order s) (hst : s.state = .evaluable) (c : Template) (hc : c.Fits order) (lower upper : ℝ)
    (d : LiveData ℝ) (hd : LiveData.between s lower upper = .ok d) (es : List (NodeEvent ℝ ℍ[ℝ] (QuaternionCall R)))
    (τ : TimeNode ℝ) (h1 : lower ≤ τ.value) (h2 : τ.value ≤ upper) (s' : MSpline ℝ ℍ[ℝ]) (hs' : s' = nodesFinally (quatGroup lg).toMfd es s)
    (hk : τ.value ∉ s'.keys) (e : Evaluator ℝ) (he : s'.evaluatorAt τ.value = .ok e) (first : ℕ) (hf : first < s'.keys.length)
    (hfirst : e.firstIt = s'.keys[first]?) (hg : GoodWindow lg L s' first) (n : ℕ) (hn : n = 0 ∨ 2 ≤ order ∧ n ≤ 2)
    (chain : ℍ[ℝ] →L[ℝ] R) (f1 f2 : ℕ → ℕ → ℝ) (hr : NodesRegular (quatGroup lg).toMfd es s)
    (ha : Apart (quatGroup lg).toMfd (es ++ [.call (.value n) τ f1, .call (.jacobians n chain) τ f2, .variables τ]) s []) :
    ∃ pre v J vars, nodeSession (quatGroup lg).toMfd c (fun c s τ b e q => QuaternionCall.run lg S L c s τ b e q)
        (es ++ [.call (.value n) τ f1, .call (.jacobians n chain) τ f2, .variables τ]) s d
        = pre ++ [.ok (.value (.inl v)), .ok (.blocks J), .ok (.variables vars)] ∧
      (∀ y, y ∈ J.map Prod.fst ↔ y ∈ vars) ∧
      ∀ (δ : ExprVar ℝ → ℕ → ℝ) (T : ℝ → ℝ), T 0 = τ.value → HasDerivAt T (τ.change δ) 0 → ∃ f : ℝ → ℍ[ℝ], f 0 = v ∧
        (∀ᶠ x in nhds 0, (quatUpdated lg s' δ x).quatEvalD lg (T x) n = .ok (f x)) ∧
        HasDerivAt (fun x => chain (f x)) (totalChange J δ) 0 := by
  have hrun := C94_quaternion_timed_partial lg S L order ho s h hst c hc lower upper d hd
    (es ++ [.call (.value n) τ f1, .call (.jacobians n chain) τ f2, .variables τ]) (nodesRegular_append_queries _ _ (by simp) es s hr) ha
  rw [nodeExpected_append, ← hs'] at hrun
  obtain ⟨x, hx, rfl⟩ := Outcome.map_eq_ok.1 hd
  obtain ⟨r, k1, k2, k3, hcr⟩ := nodes_bounds (quatGroup lg).toMfd order ho s h hst lower upper x hx es hr
  rw [← hs'] at k3
  obtain ⟨J, vars, c1, c2, c3, c4⟩ := C63_value_timed_partial lg S L hS order ho r k1 k2 lower upper _ hcr [] (by simp) _ rfl s' k3 τ h1 h2 hk
    e he first hf hfirst hg n hn chain
  obtain ⟨f, -, hf0, -⟩ := c4 (fun _ _ => 0) (fun _ => τ.value) rfl (by rw [change_zero]; exact hasDerivAt_const _ _)
  refine ⟨_, f 0, J, vars, hrun.trans (congrArg _ ?_), c3, fun δ T hT0 hT => ?_⟩
  · unfold nodeExpected nodeExpected nodeExpected nodeExpected QuaternionCall.answer
    dsimp only
    rw [show TimeExpr.history (quatGroup lg).toMfd [] ⟨lower, upper, none⟩ = ⟨lower, upper, none⟩ from rfl] at hf0 c1 c2
    rw [hf0, c1, c2]
    rfl
  · obtain ⟨f', g1, g2, g3⟩ := c4 δ T hT0 hT
    exact ⟨f', Outcome.ok.inj (g2.symm.trans hf0), g1, g3⟩

/-- **C94**: the same for angular velocities and angular accelerations; the blocks are for the segments that act at the time and the design
variables of the time, and not for all announced design variables.  (Missing: order one, times at knots, and a block for each announced
design variable, see `C63_angular_variable_without_block`.) -/
theorem C94_angular_derivative_partial (lg : ℍ[ℝ] → V3) (S L : V3 → M33) (hS : ExpDiff S) (order : ℕ) (ho : 2 ≤ order) (s : MSpline ℝ ℍ[ℝ])
    (h : RegularReach (quatGroup lg).toMfd order s) (hst : s.state = .evaluable) (c : Template) (hc : c.Fits order) (lower upper : ℝ)
    (d : LiveData ℝ) (hd : LiveData.between s lower upper = .ok d) (es : List (NodeEvent ℝ ℍ[ℝ] (QuaternionCall R)))
    (τ : TimeNode ℝ) (h1 : lower ≤ τ.value) (h2 : τ.value ≤ upper) (s' : MSpline ℝ ℍ[ℝ]) (hs' : s' = nodesFinally (quatGroup lg).toMfd es s)
    (hk : τ.value ∉ s'.keys) (e : Evaluator ℝ) (he : s'.evaluatorAt τ.value = .ok e) (first : ℕ) (hf : first < s'.keys.length)
    (hfirst : e.firstIt = s'.keys[first]?) (hg : GoodWindow lg L s' first) (n : ℕ) (hn : n = 1 ∨ n = 2)
    (chain : V3 →L[ℝ] R) (f1 f2 : ℕ → ℕ → ℝ) (hr : NodesRegular (quatGroup lg).toMfd es s)
    (ha : Apart (quatGroup lg).toMfd (es ++ [.call (.angular n) τ f1, .call (.angularJacobians n chain) τ f2, .variables τ]) s []) :
    ∃ pre v J vars, nodeSession (quatGroup lg).toMfd c (fun c s τ b e q => QuaternionCall.run lg S L c s τ b e q)
        (es ++ [.call (.angular n) τ f1, .call (.angularJacobians n chain) τ f2, .variables τ]) s d
        = pre ++ [.ok (.value (.inr v)), .ok (.blocks J), .ok (.variables vars)] ∧
      (∀ y, y ∈ J.map Prod.fst → y ∈ vars) ∧
      (∀ y, y ∈ J.map Prod.fst ↔ (∃ j, first ≤ j ∧ j < first + order ∧ y = .seg (s'.kn j)) ∨ ∃ r ∈ τ.rows, y = .time r.1) ∧
      ∀ (δ : ExprVar ℝ → ℕ → ℝ) (T : ℝ → ℝ), T 0 = τ.value → HasDerivAt T (τ.change δ) 0 → ∃ f : ℝ → V3, f 0 = v ∧
        (∀ᶠ x in nhds 0, (quatUpdated lg s' δ x).evalAngularDerivative lg (T x) n = .ok (f x)) ∧
        HasDerivAt (fun x => chain (f x)) (totalChange J δ) 0 := by
  have ho1 : 1 ≤ order := by omega
  have hrun := C94_quaternion_timed_partial lg S L order ho1 s h hst c hc lower upper d hd
    (es ++ [.call (.angular n) τ f1, .call (.angularJacobians n chain) τ f2, .variables τ]) (nodesRegular_append_queries _ _ (by simp) es s hr) ha
  rw [nodeExpected_append, ← hs'] at hrun
  obtain ⟨x, hx, rfl⟩ := Outcome.map_eq_ok.1 hd
  obtain ⟨r, k1, k2, k3, hcr⟩ := nodes_bounds (quatGroup lg).toMfd order ho1 s h hst lower upper x hx es hr
  rw [← hs'] at k3
  obtain ⟨J, vars, c1, c2, c3, c3', c4⟩ := C63_angular_timed_partial lg S L hS order ho r k1 k2 lower upper _ hcr [] (by simp) _ rfl s' k3 τ h1 h2
    hk e he first hf hfirst hg n hn chain
  obtain ⟨f, -, hf0, -⟩ := c4 (fun _ _ => 0) (fun _ => τ.value) rfl (by rw [change_zero]; exact hasDerivAt_const _ _)
  refine ⟨_, f 0, J, vars, hrun.trans (congrArg _ ?_), c3, c3', fun δ T hT0 hT => ?_⟩
  · unfold nodeExpected nodeExpected nodeExpected nodeExpected QuaternionCall.answer
    dsimp only
    rw [show TimeExpr.history (quatGroup lg).toMfd [] ⟨lower, upper, none⟩ = ⟨lower, upper, none⟩ from rfl] at hf0 c1 c2
    rw [hf0, c1, c2]
    rfl
  · obtain ⟨f', g1, g2, g3⟩ := c4 δ T hT0 hT
    exact ⟨f', Outcome.ok.inj (g2.symm.trans hf0), g1, g3⟩

end derivative

/-- The hypotheses of both theorems: the blocks for the rotation, its derivatives and the angular rates after a value was asked for and the
signs of all control vertices were changed. -/
example : ∃ (s : MSpline ℝ ℍ[ℝ]) (d : LiveData ℝ), s.verts.take 3 = demoQuats ∧
    (∀ n : ℕ, n ≤ 2 → ∃ pre v J vars, nodeSession (quatGroup arcLog).toMfd ⟨1, -1, false⟩
      (fun c s τ b e q => QuaternionCall.run arcLog expDiffMat (logDiffMat arcLog) c s τ b e q)
      ([.call (.value 0) ⟨9 / 4, []⟩ (fun _ _ => 77), .change (.write fun _ q => -q)] ++
        [.call (.value n) ⟨5 / 2, [(4, [1, 2])]⟩ (fun _ _ => 77),
          .call (.jacobians n (ContinuousLinearMap.id ℝ ℍ[ℝ])) ⟨5 / 2, [(4, [1, 2])]⟩ (fun _ _ => 77), .variables ⟨5 / 2, [(4, [1, 2])]⟩]) s d
      = pre ++ [.ok (.value (.inl v)), .ok (.blocks J), .ok (.variables vars)] ∧ (∀ y, y ∈ J.map Prod.fst ↔ y ∈ vars)) ∧
    (∀ n : ℕ, n = 1 ∨ n = 2 → ∃ pre v J vars, nodeSession (quatGroup arcLog).toMfd ⟨1, -1, false⟩
      (fun c s τ b e q => QuaternionCall.run arcLog expDiffMat (logDiffMat arcLog) c s τ b e q)
      ([.call (.value 0) ⟨9 / 4, []⟩ (fun _ _ => 77), .change (.write fun _ q => -q)] ++
        [.call (.angular n) ⟨5 / 2, [(4, [1, 2])]⟩ (fun _ _ => 77),
          .call (.angularJacobians n (ContinuousLinearMap.id ℝ V3)) ⟨5 / 2, [(4, [1, 2])]⟩ (fun _ _ => 77), .variables ⟨5 / 2, [(4, [1, 2])]⟩]) s d
      = pre ++ [.ok (.value (.inr v)), .ok (.blocks J), .ok (.variables vars)] ∧ .time 4 ∈ J.map Prod.fst) := by
  obtain ⟨s, g, hw, ho, hst, hk, hv, i1, i2, w0, w1, hx⟩ := demo_window
  have hc : (⟨1, -1, false⟩ : Template).Fits 2 := ⟨Or.inr rfl, by norm_num⟩
  obtain ⟨d, hd⟩ : ∃ d, LiveData.between s (3 / 2) 3 = .ok d := ⟨_, by unfold LiveData.between; rw [hx]; rfl⟩
  have l := (change_later (quatGroup arcLog).toMfd (.write fun _ q => -q) hw hst trivial).1
  have ek : (s.writeVertices fun _ q => -q).keys = [0, 1, 2, 3, 4] := by rw [writeVertices_keys, hk]
  have eo : (s.writeVertices fun _ q => -q).order = 2 := l.order.trans ho
  have lw : (s.writeVertices fun _ q => -q).MWF := l.mwf
  have ls : (s.writeVertices fun _ q => -q).state = .evaluable := l.state
  have i2' : (s.writeVertices fun _ q => -q).InSeg (5 / 2) 2 := by
    refine ⟨by omega, by rw [ek, eo]; decide, ?_, Or.inl ?_⟩ <;> (unfold kn; rw [ek]; norm_num)
  have he := evaluatorAt_eq lw ls i2'
  have f2 : ((s.writeVertices fun _ q => -q).evaluatorOf (5 / 2) 2).firstIt = (s.writeVertices fun _ q => -q).keys[1]? := by
    show (s.writeVertices fun _ q => -q).keys[2 + 1 - (s.writeVertices fun _ q => -q).order]? = _
    rw [eo]
  have ev : ∀ (j : ℕ) (q : ℍ[ℝ]), (s.writeVertices fun _ q => -q).verts[j]? = some q → s.verts[j]? = some (-q) := by
    intro j q hq
    unfold MSpline.verts writeVertices at hq
    unfold MSpline.verts
    simp only [List.getElem?_map, Option.map_map, Option.map_eq_some_iff, Function.comp] at hq ⊢
    obtain ⟨g, hg, rfl⟩ := hq
    exact ⟨g, hg, (neg_neg _).symm⟩
  have hg : GoodWindow arcLog (logDiffMat arcLog) (s.writeVertices fun _ q => -q) 1 := by
    refine ⟨fun j hj q hq => ?_, fun j hj a b ha hb => ?_⟩
    · rw [← norm_neg]
      exact w1.unit j (by rw [ho]; rwa [eo] at hj) _ (ev _ _ hq)
    · have := w1.log j (by rw [ho]; rwa [eo] at hj) _ _ (ev _ _ ha) (ev _ _ hb)
      rw [qplus_eq, quatInv_eq] at this ⊢
      simpa using this
  have hn : (5 / 2 : ℝ) ∉ (s.writeVertices fun _ q => -q).keys := by rw [ek]; norm_num
  refine ⟨s, d, hv, fun n hn2 => ?_, fun n hn2 => ?_⟩
  · obtain ⟨pre, v, J, vars, e1, e2, -⟩ := C94_quaternion_derivative_partial arcLog expDiffMat (logDiffMat arcLog) expDiff_expDiffMat 2 (by norm_num)
      s g hst ⟨1, -1, false⟩ hc (3 / 2) 3 _ hd [.call (.value 0) ⟨9 / 4, []⟩ (fun _ _ => 77), .change (.write fun _ q => -q)]
      ⟨5 / 2, [(4, [1, 2])]⟩ (by norm_num) (by norm_num) _ rfl hn _ he 1 (by show 1 < (s.writeVertices fun _ q => -q).keys.length; rw [ek]; decide)
      f2 hg n (Or.inr ⟨le_rfl, hn2⟩)
      (ContinuousLinearMap.id ℝ ℍ[ℝ]) (fun _ _ => 77) (fun _ _ => 77) ⟨trivial, trivial⟩
      ⟨by simp, fun c hc => Or.inr (Or.inl (by
        simp only [List.mem_cons, List.not_mem_nil, or_false] at hc
        subst hc
        norm_num)), fun c hc => Or.inr (Or.inl (by
        simp only [List.mem_cons, List.not_mem_nil, or_false] at hc
        rcases hc with rfl | rfl <;> norm_num)), trivial⟩
    exact ⟨pre, v, J, vars, e1, e2⟩
  · obtain ⟨pre, v, J, vars, e1, -, e2, -⟩ := C94_angular_derivative_partial arcLog expDiffMat (logDiffMat arcLog) expDiff_expDiffMat 2 le_rfl
      s g hst ⟨1, -1, false⟩ hc (3 / 2) 3 _ hd [.call (.value 0) ⟨9 / 4, []⟩ (fun _ _ => 77), .change (.write fun _ q => -q)]
      ⟨5 / 2, [(4, [1, 2])]⟩ (by norm_num) (by norm_num) _ rfl hn _ he 1 (by show 1 < (s.writeVertices fun _ q => -q).keys.length; rw [ek]; decide)
      f2 hg n hn2
      (ContinuousLinearMap.id ℝ V3) (fun _ _ => 77) (fun _ _ => 77) ⟨trivial, trivial⟩
      ⟨by simp, fun c hc => Or.inr (Or.inl (by
        simp only [List.mem_cons, List.not_mem_nil, or_false] at hc
        subst hc
        norm_num)), fun c hc => Or.inr (Or.inl (by
        simp only [List.mem_cons, List.not_mem_nil, or_false] at hc
        rcases hc with rfl | rfl <;> norm_num)), trivial⟩
    exact ⟨pre, v, J, vars, e1, (e2 _).2 (Or.inr ⟨_, List.mem_singleton.2 rfl, rfl⟩)⟩

end Verif
