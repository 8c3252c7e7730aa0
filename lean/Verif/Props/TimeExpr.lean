import Verif.Model.OptSpline
import Verif.Props.ManifoldAppend

/-!
# C44: expressions at a variable time
-/

set_option linter.unusedSectionVars false

namespace Verif

variable {K : Type*} [Field K] [LinearOrder K] [IsStrictOrderedRing K] {P V : Type*}

open MSpline

/-- A consistent, initialised spline with the knots and the order of `s0`: what becomes of `s0` when only control vertices change. -/
structure SameKnots (s0 s : MSpline K P) : Prop where
  mwf : s.MWF
  evaluable : s.state = .evaluable
  order : s.order = s0.order
  keys : s.keys = s0.keys

theorem SameKnots.inSeg {s0 s : MSpline K P} (h : SameKnots s0 s) {t : K} {i : ℕ} : s.InSeg t i ↔ s0.InSeg t i := by
  have e : s.kn = s0.kn := by rw [kn_eq_knOf, kn_eq_knOf, h.keys]
  constructor
  · rintro ⟨h1, h2, h3, h4⟩
    rw [h.order] at h1
    rw [h.order, h.keys] at h2
    rw [e] at h3
    rw [e, h.order, h.keys] at h4
    exact ⟨h1, h2, h3, h4⟩
  · rintro ⟨h1, h2, h3, h4⟩
    rw [← h.order] at h1
    rw [← h.order, ← h.keys] at h2
    rw [← e] at h3
    rw [← e, ← h.order, ← h.keys] at h4
    exact ⟨h1, h2, h3, h4⟩

/-- The evaluations of an expression, each with the spline as it then is and the value of the time expression. -/
def TimeExpr.history (M : Mfd K P V) (hist : List (MSpline K P × K)) (x : TimeExpr K) : TimeExpr K :=
  hist.foldl (fun (x : TimeExpr K) e => (x.evaluate M e.1 e.2).2) x

theorem getEvaluator_cases (s0 s : MSpline K P) (hs : SameKnots s0 s) (t : K) (x : TimeExpr K)
    (hlo : s0.kn (s0.order - 1) ≤ x.lower) (hup : x.upper ≤ s0.kn (s0.keys.length - s0.order))
    (hc : ∀ c, x.cached = some c → ∃ i, s0.InSeg c i) :
    ((t < x.lower ∨ x.upper < t) ∧ x.getEvaluator s t = (.throws, x)) ∨
    (x.lower ≤ t ∧ t ≤ x.upper ∧ x.getEvaluator s t = (.ok t, ⟨x.lower, x.upper, some t⟩) ∧ (∃ i, s0.InSeg t i) ∧
      ∀ c i, x.cached = some c → s0.InSeg c i → s0.kn i = t → c = t) ∨
    (x.lower ≤ t ∧ t ≤ x.upper ∧ ∃ c i, x.cached = some c ∧ s0.InSeg c i ∧ s0.kn i = t ∧
      x.getEvaluator s t = (.ok c, ⟨x.lower, x.upper, some c⟩)) := by
  have ekn : s.kn = s0.kn := by rw [kn_eq_knOf, kn_eq_knOf, hs.keys]
  by_cases h1 : t < x.lower
  · left
    refine ⟨Or.inl h1, ?_⟩
    unfold TimeExpr.getEvaluator
    rw [if_pos h1]
  by_cases h2 : x.upper < t
  · left
    refine ⟨Or.inr h2, ?_⟩
    unfold TimeExpr.getEvaluator
    rw [if_neg h1, if_pos h2]
  right
  have hin : ∃ i, s.InSeg t i := by
    rcases evaluable_total hs.mwf hs.evaluable t with h | h
    · exact h
    · rw [ekn, hs.order, hs.keys] at h
      rcases h with h | h
      · exact absurd (lt_of_lt_of_le h (hlo.trans (not_lt.1 h1))) (lt_irrefl _)
      · exact absurd (lt_of_lt_of_le h ((not_lt.1 h2).trans hup)) (lt_irrefl _)
  obtain ⟨i, hi⟩ := hin
  have hfresh : s.evaluatorAt t = .ok (s.evaluatorOf t i) := evaluatorAt_eq hs.mwf hs.evaluable hi
  rcases hcd : x.cached with _ | c
  · left
    refine ⟨not_lt.1 h1, not_lt.1 h2, ?_, ⟨i, hs.inSeg.1 hi⟩, fun c _ h => by cases h⟩
    unfold TimeExpr.getEvaluator
    rw [if_neg h1, if_neg h2, hcd]
    simp only [hfresh]
  · obtain ⟨j, hj⟩ := hc c hcd
    have hj' := hs.inSeg.2 hj
    have hev := evaluatorAt_eq hs.mwf hs.evaluable hj'
    have hlen : j < s.keys.length := by have := hj'.upper; omega
    have hti : (s.evaluatorOf c j).ti = some (s0.kn j) := by
      unfold evaluatorOf
      simp only []
      rw [kn_getElem s hlen, ekn]
    by_cases hk : s0.kn j = t
    · right
      refine ⟨not_lt.1 h1, not_lt.1 h2, c, j, rfl, hj, hk, ?_⟩
      unfold TimeExpr.getEvaluator
      rw [if_neg h1, if_neg h2, hcd]
      simp only [hev, hti, hk]
      simp
    · left
      refine ⟨not_lt.1 h1, not_lt.1 h2, ?_, ⟨i, hs.inSeg.1 hi⟩, ?_⟩
      · unfold TimeExpr.getEvaluator
        rw [if_neg h1, if_neg h2, hcd]
        simp only [hev, hti]
        rw [if_pos (by simpa using hk)]
        simp only [hfresh]
      · intro c' i' h3 h4 h5
        rw [Option.some.injEq] at h3
        subst h3
        have h6 : i' = j := by
          have := (hs.inSeg.2 h4).unique hs.mwf hj'
          exact this
        rw [h6] at h5
        exact absurd h5 hk

theorem history_inv (M : Mfd K P V) (s0 : MSpline K P) (x0 : TimeExpr K) (h0 : x0.cached = none)
    (hlo : s0.kn (s0.order - 1) ≤ x0.lower) (hup : x0.upper ≤ s0.kn (s0.keys.length - s0.order)) :
    ∀ (hist : List (MSpline K P × K)), (∀ e ∈ hist, SameKnots s0 e.1) →
      (TimeExpr.history M hist x0).lower = x0.lower ∧ (TimeExpr.history M hist x0).upper = x0.upper ∧
      ∀ c, (TimeExpr.history M hist x0).cached = some c → (∃ i, s0.InSeg c i) ∧ ∃ e ∈ hist, e.2 = c := by
  intro hist
  induction hist using List.reverseRecOn with
  | nil => intro _; exact ⟨rfl, rfl, fun c hc => by rw [show TimeExpr.history M [] x0 = x0 from rfl, h0] at hc; cases hc⟩
  | append_singleton hist e ih =>
    intro hh
    obtain ⟨i1, i2, i3⟩ := ih fun a ha => hh a (by simp [ha])
    have he : TimeExpr.history M (hist ++ [e]) x0 = ((TimeExpr.history M hist x0).evaluate M e.1 e.2).2 := by
      unfold TimeExpr.history; rw [List.foldl_append]; rfl
    rw [he]
    generalize TimeExpr.history M hist x0 = x at i1 i2 i3
    have hev : (x.evaluate M e.1 e.2).2 = (x.getEvaluator e.1 e.2).2 := by
      unfold TimeExpr.evaluate
      rcases x.getEvaluator e.1 e.2 with ⟨_ | _ | _, y⟩ <;> rfl
    rw [hev]
    rcases getEvaluator_cases s0 e.1 (hh e (by simp)) e.2 x (by rw [i1]; exact hlo) (by rw [i2]; exact hup)
      (fun c hc => (i3 c hc).1) with ⟨-, h⟩ | ⟨-, -, h, hin, -⟩ | ⟨-, -, c, i, hc, hci, -, h⟩
    · rw [h]
      exact ⟨i1, i2, fun c hc => ⟨(i3 c hc).1, by obtain ⟨a, ha, hac⟩ := (i3 c hc).2; exact ⟨a, by simp [ha], hac⟩⟩⟩
    · rw [h]
      refine ⟨i1, i2, fun c hc => ?_⟩
      simp only [Option.some.injEq] at hc
      rw [← hc]
      exact ⟨hin, e, by simp, rfl⟩
    · rw [h]
      refine ⟨i1, i2, fun c' hc' => ?_⟩
      simp only [Option.some.injEq] at hc'
      rw [← hc']
      exact ⟨⟨i, hci⟩, by obtain ⟨a, ha, hac⟩ := (i3 c hc).2; exact ⟨a, by simp [ha], hac⟩⟩

/-- The valid range that the constructor checks against. -/
theorem create_bounds {s : MSpline K P} (h : s.MWF) (he : s.state = .evaluable) {lower upper : K} {x : TimeExpr K}
    (hx : TimeExpr.create s lower upper = .ok x) :
    x = ⟨lower, upper, none⟩ ∧ lower < upper ∧ s.kn (s.order - 1) ≤ lower ∧ upper ≤ s.kn (s.keys.length - s.order) := by
  unfold TimeExpr.create at hx
  rw [getMinTime_eq h he, getMaxTime_eq h he] at hx
  simp only [Outcome.bind_ok] at hx
  by_cases h1 : lower < upper
  · rw [if_neg (not_not.2 h1)] at hx
    by_cases h2 : s.kn (s.order - 1) ≤ lower
    · rw [if_neg (not_not.2 h2)] at hx
      by_cases h3 : upper ≤ s.kn (s.keys.length - s.order)
      · rw [if_neg (not_not.2 h3), Outcome.ok.injEq] at hx
        exact ⟨hx.symm, h1, h2, h3⟩
      · rw [if_pos h3] at hx; cases hx
    · rw [if_pos h2] at hx; cases hx
  · rw [if_pos h1] at hx; cases hx

/-- C44: the declared bounds are accepted exactly if they are in order and within the valid interval of the spline. -/
theorem C44_bounds_checked (s : MSpline K P) (a b lower upper : K) (ha : s.getMinTime = .ok a) (hb : s.getMaxTime = .ok b) :
    (lower < upper ∧ a ≤ lower ∧ upper ≤ b → ∃ x, TimeExpr.create s lower upper = .ok x ∧ x.lower = lower ∧ x.upper = upper) ∧
    (¬ (lower < upper ∧ a ≤ lower ∧ upper ≤ b) → TimeExpr.create s lower upper = .throws) := by
  unfold TimeExpr.create
  rw [ha, hb]
  simp only [Outcome.bind_ok]
  constructor
  · rintro ⟨h1, h2, h3⟩
    rw [if_neg (not_not.2 h1), if_neg (not_not.2 h2), if_neg (not_not.2 h3)]
    exact ⟨_, rfl, rfl, rfl⟩
  · intro hn
    by_cases h1 : lower < upper
    · rw [if_neg (not_not.2 h1)]
      by_cases h2 : a ≤ lower
      · rw [if_neg (not_not.2 h2), if_pos (fun h3 => hn ⟨h1, h2, h3⟩)]
      · rw [if_pos h2]
    · rw [if_pos h1]

/-- C44: after any history a time outside the declared bounds is rejected and changes nothing. -/
theorem C44_out_of_bounds (M : Mfd K P V) (order : ℕ) (ho : 1 ≤ order) (s0 : MSpline K P) (h : RegularReach M order s0)
    (he : s0.state = .evaluable) (lower upper : K) (x0 : TimeExpr K) (hx : TimeExpr.create s0 lower upper = .ok x0)
    (hist : List (MSpline K P × K)) (hh : ∀ e ∈ hist, SameKnots s0 e.1) (s : MSpline K P) (t : K)
    (ht : t < lower ∨ upper < t) :
    (TimeExpr.history M hist x0).evaluate M s t = (.throws, TimeExpr.history M hist x0) := by
  obtain ⟨hw, -⟩ := h.mwf ho
  obtain ⟨rfl, -, hlo, hup⟩ := create_bounds hw he hx
  obtain ⟨i1, i2, i3⟩ := history_inv M s0 ⟨lower, upper, none⟩ rfl hlo hup hist hh
  generalize TimeExpr.history M hist ⟨lower, upper, none⟩ = x at i1 i2 i3
  have i1 : x.lower = lower := i1
  have i2 : x.upper = upper := i2
  rw [← i1, ← i2] at ht
  unfold TimeExpr.evaluate TimeExpr.getEvaluator
  rcases ht with ht | ht
  · rw [if_pos ht]
  · by_cases h1 : t < x.lower
    · rw [if_pos h1]
    · rw [if_neg h1, if_pos ht]

/-- C44: after any history of evaluations (at any times, the control vertices changing in between), the expression evaluates to the
curve at the current time.  (What is missing: it must not be the case that the current time is a knot and an earlier evaluation was at
a later time of the segment that starts there.  Then the result can be wrong, see `C44_stale_evaluator`.) -/
theorem C44_value_partial (M : Mfd K P V) (order : ℕ) (ho : 1 ≤ order) (s0 : MSpline K P) (h : RegularReach M order s0)
    (he : s0.state = .evaluable) (lower upper : K) (x0 : TimeExpr K) (hx : TimeExpr.create s0 lower upper = .ok x0)
    (hist : List (MSpline K P × K)) (hh : ∀ e ∈ hist, SameKnots s0 e.1) (s : MSpline K P) (hs : SameKnots s0 s) (t : K)
    (h1 : lower ≤ t) (h2 : t ≤ upper)
    (hk : ∀ e ∈ hist, ∀ i, s0.InSeg e.2 i → s0.kn i = t → e.2 = t) :
    ∃ p, s.evalGeneric M t = .ok p ∧ ((TimeExpr.history M hist x0).evaluate M s t).1 = .ok p := by
  obtain ⟨hw, -⟩ := h.mwf ho
  obtain ⟨rfl, -, hlo, hup⟩ := create_bounds hw he hx
  obtain ⟨i1, i2, i3⟩ := history_inv M s0 ⟨lower, upper, none⟩ rfl hlo hup hist hh
  generalize TimeExpr.history M hist ⟨lower, upper, none⟩ = x at i1 i2 i3
  have i1 : x.lower = lower := i1
  have i2 : x.upper = upper := i2
  have hval : ∀ i, s0.InSeg t i → ∃ p, s.evalGeneric M t = .ok p := by
    intro i hi
    obtain ⟨p, hp, -⟩ := evalGeneric_segCurve hs.mwf hs.evaluable M (hs.inSeg.2 hi)
    exact ⟨p, hp⟩
  unfold TimeExpr.evaluate
  rcases getEvaluator_cases s0 s hs t x (by rw [i1]; exact hlo) (by rw [i2]; exact hup)
    (fun c hc => (i3 c hc).1) with ⟨h3, -⟩ | ⟨-, -, h3, ⟨i, hi⟩, -⟩ | ⟨-, -, c, i, hc, hci, h4, h3⟩
  · rw [i1, i2] at h3
    rcases h3 with h3 | h3
    · exact absurd h3 (not_lt.2 h1)
    · exact absurd h3 (not_lt.2 h2)
  · rw [h3]
    obtain ⟨p, hp⟩ := hval i hi
    exact ⟨p, hp, hp⟩
  · obtain ⟨e, he1, he2⟩ := (i3 c hc).2
    have : c = t := by rw [← he2]; exact hk e he1 i (by rw [he2]; exact hci) h4
    rw [h3]
    subst this
    obtain ⟨p, hp⟩ := hval i hci
    exact ⟨p, hp, hp⟩

/-- C44 is violated: after an evaluation inside a segment, the evaluation at the knot where that segment starts returns the value at
the old time. -/
theorem C44_stale_evaluator (M : Mfd K P V) (order : ℕ) (ho : 1 ≤ order) (s : MSpline K P) (h : RegularReach M order s)
    (he : s.state = .evaluable) (lower upper : K) (x0 : TimeExpr K) (hx : TimeExpr.create s lower upper = .ok x0) (c : K) (i : ℕ)
    (hc : s.InSeg c i) (h1 : lower ≤ s.kn i) (h2 : c ≤ upper) :
    ((TimeExpr.history M [(s, c)] x0).evaluate M s (s.kn i)).1 = s.evalGeneric M c := by
  obtain ⟨hw, -⟩ := h.mwf ho
  obtain ⟨rfl, -, hlo, hup⟩ := create_bounds hw he hx
  have hs : SameKnots s s := ⟨hw, he, rfl, rfl⟩
  have hcl := hc.left
  have e1 : (TimeExpr.mk lower upper none).getEvaluator s c = (.ok c, ⟨lower, upper, some c⟩) := by
    rcases getEvaluator_cases s s hs c ⟨lower, upper, none⟩ hlo hup (fun c hc => by cases hc) with ⟨h3, -⟩ | ⟨-, -, h3, -⟩ |
      ⟨-, -, c, i, hc, -⟩
    · rcases h3 with h3 | h3
      · exact absurd h3 (not_lt.2 (h1.trans hcl))
      · exact absurd h3 (not_lt.2 h2)
    · exact h3
    · cases hc
  have e2 : TimeExpr.history M [(s, c)] ⟨lower, upper, none⟩ = ⟨lower, upper, some c⟩ := by
    unfold TimeExpr.history TimeExpr.evaluate
    simp only [List.foldl_cons, List.foldl_nil, e1]
  rw [e2]
  unfold TimeExpr.evaluate
  rcases getEvaluator_cases s s hs (s.kn i) ⟨lower, upper, some c⟩ hlo hup (fun c' hc' => by
    rw [Option.some.injEq] at hc'; rw [← hc']; exact ⟨i, hc⟩) with ⟨h3, -⟩ | ⟨-, -, h3, -, h4⟩ | ⟨-, -, c', i', hc', -, -, h3⟩
  · rcases h3 with h3 | h3
    · exact absurd h3 (not_lt.2 h1)
    · exact absurd h3 (not_lt.2 (hcl.trans h2))
  · have := h4 c i rfl hc rfl
    rw [h3, this]
  · rw [Option.some.injEq] at hc'
    rw [h3, ← hc']

/-- A concrete case: on the example spline, evaluating at 3/2 and then at 1 gives the value at 3/2 instead of that at 1. -/
theorem C44_violated : ∃ (s : MSpline ℚ ℚ) (x0 : TimeExpr ℚ), RegularReach halfLine 2 s ∧ TimeExpr.create s 1 3 = .ok x0 ∧
    ((TimeExpr.history halfLine [(s, 3 / 2)] x0).evaluate halfLine s 1).1 = s.evalGeneric halfLine (3 / 2) ∧
    s.evalGeneric halfLine (3 / 2) ≠ s.evalGeneric halfLine 1 :=
  ⟨demo, ⟨1, 3, none⟩, demo_reach, by decide +kernel, by decide +kernel, by decide +kernel⟩

/-- Not vacuous: a history through several segments, back and forth, with right results. -/
example : TimeExpr.create demo 1 3 = .ok ⟨1, 3, none⟩ ∧
    ((TimeExpr.history halfLine [(demo, 3 / 2), (demo, 5 / 2), (demo, 2), (demo, 3 / 2), (demo, 3)] ⟨1, 3, none⟩).evaluate halfLine demo
      (5 / 4)).1 = demo.evalGeneric halfLine (5 / 4) := by
  decide +kernel

end Verif
