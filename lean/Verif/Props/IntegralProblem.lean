import Verif.Model.IntegralProblem
import Verif.Props.Integrator
import Verif.Props.Views

/-!
# Adding the error terms of an integral to an optimisation problem (C111)
-/

set_option linter.unusedSectionVars false

namespace Verif
namespace IntegralProblem

open Finset BSpline

section

variable {K : Type*} [Field K] [LinearOrder K] [IsStrictOrderedRing K] {E : Type*}

/-- The points of a rule lie between the bounds. -/
theorem point_between (r : Rule) (a b : K) (n : ℤ) (hn : 2 ≤ n) (i : ℕ) (hi : (i : ℤ) ≤ r.maxIndex n) :
    r.point a b n i ∈ Set.uIcc a b := by
  have hm := maxIndex_pos r n hn
  have hmK : (0 : K) < ((r.maxIndex n : ℤ) : K) := by exact_mod_cast hm
  have hiK : ((i : ℤ) : K) ≤ ((r.maxIndex n : ℤ) : K) := by exact_mod_cast hi
  have h0 : (0 : K) ≤ ((i : ℤ) : K) := by exact_mod_cast Int.natCast_nonneg i
  rw [point_eq r a b n hn]
  have e : a + r.stepSize a b n * ((i : ℤ) : K) = a + (((i : ℤ) : K) / ((r.maxIndex n : ℤ) : K)) * (b - a) := by
    unfold Rule.stepSize; field_simp
  rw [e]
  have h1 : ((i : ℤ) : K) / ((r.maxIndex n : ℤ) : K) ≤ 1 := (div_le_one hmK).2 hiK
  have h2 : 0 ≤ ((i : ℤ) : K) / ((r.maxIndex n : ℤ) : K) := div_nonneg h0 hmK.le
  rcases le_total a b with h | h
  · rw [Set.uIcc_of_le h]
    constructor <;> nlinarith
  · rw [Set.uIcc_of_ge h]
    constructor <;> nlinarith

/-- How the loop ends, whatever the factory does. -/
theorem addLoop_cases (r : Rule) (a b : K) (n : ℤ) (factory : K → Option K → Outcome E) (k i : ℕ) (P : List E) :
    (∃ es, addLoop r a b n factory k i P = ⟨P ++ es, .ok ()⟩ ∧
      List.Forall₂ (fun j e => factory (r.point a b n (j : ℕ)) (termFactor r a b n j) = .ok e) (List.range' i k) es) ∨
    ∃ j es o, j < k ∧ addLoop r a b n factory k i P = ⟨P ++ es, o⟩ ∧
      List.Forall₂ (fun j e => factory (r.point a b n (j : ℕ)) (termFactor r a b n j) = .ok e) (List.range' i j) es ∧
      ((o = .throws ∧ factory (r.point a b n ((i + j : ℕ) : ℤ)) (termFactor r a b n ((i + j : ℕ) : ℤ)) = .throws) ∨
       (o = .ub ∧ factory (r.point a b n ((i + j : ℕ) : ℤ)) (termFactor r a b n ((i + j : ℕ) : ℤ)) = .ub)) := by
  induction k generalizing i P with
  | zero => exact .inl ⟨[], by simp [addLoop], by simp⟩
  | succ k ih =>
    unfold addLoop
    cases hf : factory (r.point a b n i) (termFactor r a b n i) with
    | throws => exact .inr ⟨0, [], .throws, by omega, by simp, by simp, .inl ⟨rfl, by simpa using hf⟩⟩
    | ub => exact .inr ⟨0, [], .ub, by omega, by simp, by simp, .inr ⟨rfl, by simpa using hf⟩⟩
    | ok e =>
      rcases ih (i + 1) (P ++ [e]) with ⟨es, h1, h2⟩ | ⟨j, es, o, hj, h1, h2, h3⟩
      · exact .inl ⟨e :: es, by simp [h1], by rw [List.range'_succ]; exact .cons hf h2⟩
      · refine .inr ⟨j + 1, e :: es, o, by omega, by simp [h1], by rw [List.range'_succ]; exact .cons hf h2, ?_⟩
        rw [show i + (j + 1) = i + 1 + j by ring]
        exact h3

/-- **C111, success.** If the factory makes an error term at every time between the bounds, the call succeeds: the problem keeps its error terms in
their order and gets one for each point of the rule; and if the cost of each is its factor times some function of its time, the cost of the problem
grows by the numerical integral of this function. -/
theorem C111_added (r : Rule) (a b : K) (n : ℤ) (hn : 2 ≤ n) (factory : K → Option K → Outcome E)
    (hf : ∀ t ∈ Set.uIcc a b, ∀ w, ∃ e, factory t (some w) = .ok e) (P : List E) :
    ∃ es, addErrorTerms r a b n factory P = ⟨P ++ es, .ok ()⟩ ∧ (es.length : ℤ) = (if a = b then 0 else r.numPoints n) ∧
      ∀ (cost : E → K) (q : K → K), (∀ t ∈ Set.uIcc a b, ∀ w e, factory t (some w) = .ok e → cost e = w * q t) →
        ((P ++ es).map cost).sum = (P.map cost).sum + integrateFunctor r a b q n 0 := by
  by_cases hab : a = b
  · subst hab
    exact ⟨[], by simp [addErrorTerms], by simp, fun cost q _ => by simp [integrateFunctor]⟩
  have hm := maxIndex_pos r n hn
  have htf : ∀ i : ℤ, termFactor r a b n i = some (r.commonFactor a b n * r.valueFactor n i) := fun i => by
    unfold termFactor; rw [if_neg (by omega)]
  have hcall : addErrorTerms r a b n factory P = addLoop r a b n factory ((r.maxIndex n).toNat + 1) 0 P := by
    unfold addErrorTerms; rw [if_neg hab, if_neg (by omega)]
  rw [hcall]
  rcases addLoop_cases r a b n factory ((r.maxIndex n).toNat + 1) 0 P with ⟨es, h1, h2⟩ | ⟨j, es, o, hj, h1, h2, h3⟩
  · refine ⟨es, h1, ?_, fun cost q hc => ?_⟩
    · rw [if_neg hab, ← h2.length_eq, List.length_range']
      have : r.numPoints n = r.maxIndex n + 1 := by unfold Rule.maxIndex; ring
      omega
    · rw [List.map_append, List.sum_append, integrateFunctor_eq _ _ _ hab]
      congr 1
      have key : es.map cost = (List.range ((r.maxIndex n).toNat + 1)).map
          (fun i : ℕ => r.commonFactor a b n * r.valueFactor n i * q (r.point a b n i)) := by
        have gen : ∀ (l : List ℕ) (es : List E), (∀ i ∈ l, (i : ℤ) ≤ r.maxIndex n) →
            List.Forall₂ (fun j e => factory (r.point a b n (j : ℕ)) (termFactor r a b n j) = .ok e) l es →
            es.map cost = l.map (fun i : ℕ => r.commonFactor a b n * r.valueFactor n i * q (r.point a b n i)) := by
          intro l es hl h
          induction h with
          | nil => rfl
          | @cons i e l' es' hi _ ih =>
            rw [List.map_cons, List.map_cons, ih fun x hx => hl x (List.mem_cons_of_mem _ hx)]
            rw [htf] at hi
            rw [hc _ (point_between r a b n hn i (hl i (List.mem_cons_self ..))) _ _ hi]
        rw [List.range_eq_range']
        exact gen _ _ (fun i hi => by rw [List.mem_range'_1] at hi; omega) h2
      rw [key, list_sum_map_range, smul_sum]
      exact sum_congr rfl fun i _ => by simp only [smul_eq_mul]; ring
  · exfalso
    have hp := point_between r a b n hn (0 + j) (by omega)
    obtain ⟨e, he⟩ := hf _ hp (r.commonFactor a b n * r.valueFactor n ((0 + j : ℕ) : ℤ))
    rw [htf] at h3
    rw [he] at h3
    rcases h3 with h3 | h3 <;> exact nomatch h3.2

/-- **C111, failure.** A call that throws has too few points, or the factory threw at some point of the rule.  Then the error terms for the points
before this one stay in the problem. -/
theorem C111_failed (r : Rule) (a b : K) (n : ℤ) (factory : K → Option K → Outcome E) (P P' : List E)
    (h : addErrorTerms r a b n factory P = ⟨P', .throws⟩) :
    a ≠ b ∧ ((r.numPoints n ≤ 0 ∧ P' = P) ∨
      ∃ (j : ℕ) (es : List E), (j : ℤ) < r.numPoints n ∧ P' = P ++ es ∧ es.length = j ∧
        factory (r.point a b n j) (termFactor r a b n j) = .throws ∧
        ∀ i (hi : i < es.length), factory (r.point a b n i) (termFactor r a b n i) = .ok es[i]) := by
  have hnp : r.numPoints n = r.maxIndex n + 1 := by unfold Rule.maxIndex; ring
  unfold addErrorTerms at h
  split at h
  · simp at h
  rename_i hab
  refine ⟨hab, ?_⟩
  split at h
  · rename_i hlt
    simp only [Call.mk.injEq] at h
    exact .inl ⟨by omega, h.1.symm⟩
  rename_i hlt
  right
  rcases addLoop_cases r a b n factory ((r.maxIndex n).toNat + 1) 0 P with ⟨es, h1, h2⟩ | ⟨j, es, o, hj, h1, h2, h3⟩
  · rw [h1] at h; simp at h
  · rw [h1, Call.mk.injEq] at h
    obtain ⟨hP, ho⟩ := h
    have hlen : es.length = j := by rw [← h2.length_eq, List.length_range']
    refine ⟨j, es, by omega, hP.symm, hlen, ?_, ?_⟩
    · rcases h3 with h3 | h3
      · simpa using h3.2
      · rw [h3.1] at ho; exact nomatch ho
    · intro i hi
      have := List.Forall₂.get h2 (i := i) (by rw [List.length_range']; omega) hi
      simpa using this

/-- **C111, number of points.** The call is rejected for its number of points exactly if the rule would use none: at most zero points for the
trapezoidal rule, at most minus two for Simpson's. -/
theorem C111_points (r : Rule) (a b : K) (hab : a ≠ b) (n : ℤ) (e : E) (P : List E) :
    (addErrorTerms r a b n (fun _ _ => .ok e) P).result = .throws ↔ n ≤ (match r with | .trapezoidal => 0 | .simpson => -2) := by
  have hiff : r.maxIndex n < 0 ↔ n ≤ (match r with | .trapezoidal => 0 | .simpson => -2) := by
    cases r
    · simp only [Rule.maxIndex, Rule.numPoints]
      rcases le_or_gt 0 n with h | h
      · have := Int.tmod_eq_emod_of_nonneg h (b := 2)
        omega
      · have h2 : (-n).tmod 2 = - n.tmod 2 := Int.neg_tmod n 2
        have := Int.tmod_eq_emod_of_nonneg (show 0 ≤ -n by omega) (b := 2)
        omega
    · simp only [Rule.maxIndex, Rule.numPoints]
      omega
  rw [← hiff]
  unfold addErrorTerms
  rw [if_neg hab]
  split
  · rename_i h; exact ⟨fun _ => by omega, fun _ => rfl⟩
  · rename_i h
    refine ⟨fun hr => ?_, fun h' => absurd h' (by omega)⟩
    rcases addLoop_cases r a b n (fun _ _ => .ok e) ((r.maxIndex n).toNat + 1) 0 P with ⟨es, h1, h2⟩ | ⟨j, es, o, hj, h1, h2, h3⟩
    · rw [h1] at hr; exact nomatch hr
    · rcases h3 with h3 | h3 <;> exact nomatch h3.2

/-- **C111, one point (violation).** Too few points are not rejected: asked for one, zero or minus one points, the default rule adds one error term, for the
end of the interval, with a factor that is no finite number. -/
theorem C111_points_violated (a b : K) (hab : a ≠ b) (n : ℤ) (hn : n = 1 ∨ n = 0 ∨ n = -1) (P : List (K × Option K)) :
    addErrorTerms .simpson a b n (fun t f => .ok (t, f)) P = ⟨P ++ [(b, none)], .ok ()⟩ := by
  have hm : Rule.maxIndex .simpson n = 0 := by rcases hn with rfl | rfl | rfl <;> rfl
  unfold addErrorTerms
  rw [if_neg hab, hm]
  simp [addLoop, termFactor, Rule.point, hm]

end

/-! ### Expressions of a spline -/

section

variable {K : Type*} [Field K] [LinearOrder K] [IsStrictOrderedRing K] {D : ℕ}

/-- The expression of a spline's value or derivative exists exactly for times the spline has. -/
theorem toExpression_ok_iff (s : BSpline K D) (h : s.WF) {tmin tmax : K} (hmin : s.tMin = .ok tmin) (hmax : s.tMax = .ok tmax) (t : K) (der : ℤ) :
    (tmin ≤ t ∧ t < tmax + 1 / 10 ^ 10 → ∃ x, SimpleErrors.toExpression s t der = .ok x) ∧
    (¬ (tmin ≤ t ∧ t < tmax + 1 / 10 ^ 10) → SimpleErrors.toExpression s t der = .throws) := by
  have hk := h.order_pos
  rw [tMin_eq h] at hmin
  rw [tMax_eq h] at hmax
  have e1 := Outcome.ok.inj hmin
  have e2 := Outcome.ok.inj hmax
  constructor
  · rintro ⟨h1, h2⟩
    obtain ⟨i, hT, hi1, hi2⟩ := lookup_valid h t (by rw [e1]; exact h1) (by rw [e2]; exact h2)
    refine ⟨⟨linSpacedIdx s.order (i + 1 - s.order), t, der⟩, ?_⟩
    unfold SimpleErrors.toExpression SimpleErrors.VectorNode.create
    rw [localIndices_eq h t i hi1 _ hT, Outcome.bind_ok, if_neg (by simp)]
  · intro hn
    have := (C06_throws_iff_partial s h t _ _ (tMin_eq h) (tMax_eq h)).2 (by
      rw [e1, e2]
      by_contra hc
      push Not at hc
      exact hn hc)
    unfold SimpleErrors.toExpression localVvCoefficientVectorIndices
    rw [this]
    rfl

/-- **C111, splines.** For expressions of a plain spline and bounds in any order: the call succeeds if both bounds are times of the spline, else
it throws; it is never undefined.  When it throws, the problem is unchanged exactly if the first bound is not a time of the spline. -/
theorem C111_spline (s : BSpline K D) (h : s.WF) {tmin tmax : K} (hmin : s.tMin = .ok tmin) (hmax : s.tMax = .ok tmax) (r : Rule) (a b : K)
    (hab : a ≠ b) (n : ℤ) (hn : 2 ≤ n) (der : ℤ) {E : Type*} (term : SimpleErrors.VectorNode K → Option K → E) (P : List E) :
    let has := fun t : K => tmin ≤ t ∧ t < tmax + 1 / 10 ^ 10
    let call := addErrorTerms r a b n (fun t f => (SimpleErrors.toExpression s t der).map fun x => term x f) P
    (has a ∧ has b → call.result = .ok ()) ∧ (¬ (has a ∧ has b) → call.result = .throws ∧ (call.problem = P ↔ ¬ has a)) := by
  intro has call
  have hm := maxIndex_pos r n hn
  have conv : ∀ t ∈ Set.uIcc a b, has a → has b → has t := by
    intro t ht ha hb
    rcases le_total a b with hle | hle
    · rw [Set.uIcc_of_le hle] at ht; exact ⟨ha.1.trans ht.1, ht.2.trans_lt hb.2⟩
    · rw [Set.uIcc_of_ge hle] at ht; exact ⟨hb.1.trans ht.1, ht.2.trans_lt ha.2⟩
  have p0 : r.point a b n (0 : ℕ) = a := by rw [point_eq r a b n hn]; simp
  have pm : r.point a b n (((r.maxIndex n).toNat : ℕ) : ℤ) = b := by
    rw [Int.toNat_of_nonneg (by omega)]; unfold Rule.point; rw [if_pos rfl]
  constructor
  · rintro ⟨ha, hb⟩
    obtain ⟨es, h1, -⟩ := C111_added r a b n hn (fun t f => (SimpleErrors.toExpression s t der).map fun x => term x f)
      (fun t ht w => by
        obtain ⟨x, hx⟩ := (toExpression_ok_iff s h hmin hmax t der).1 (conv t ht ha hb)
        exact ⟨term x (some w), by simp only [hx, Outcome.map]⟩) P
    show (addErrorTerms _ _ _ _ _ _).result = _
    rw [h1]
  · intro hno
    have hcall : call = addLoop r a b n (fun t f => (SimpleErrors.toExpression s t der).map fun x => term x f) ((r.maxIndex n).toNat + 1) 0 P := by
      show addErrorTerms _ _ _ _ _ _ = _
      unfold addErrorTerms; rw [if_neg hab, if_neg (by omega)]
    rcases addLoop_cases r a b n (fun t f => (SimpleErrors.toExpression s t der).map fun x => term x f) ((r.maxIndex n).toNat + 1) 0 P with
      ⟨es, h1, h2⟩ | ⟨j, es, o, hj, h1, h2, h3⟩
    · exfalso
      apply hno
      have all : ∀ i, i ≤ (r.maxIndex n).toNat → has (r.point a b n (i : ℕ)) := by
        intro i hi
        by_contra hc
        have hth := (toExpression_ok_iff s h hmin hmax _ der).2 hc
        have hlen : es.length = (r.maxIndex n).toNat + 1 := by rw [← h2.length_eq, List.length_range']
        have := List.Forall₂.get h2 (i := i) (by rw [List.length_range']; omega) (by omega)
        simp [hth, Outcome.map] at this
      have ha := all 0 (by omega)
      have hb := all _ le_rfl
      rw [p0] at ha
      rw [pm] at hb
      exact ⟨ha, hb⟩
    · rw [hcall, h1]
      have hth : ∀ t f, (SimpleErrors.toExpression s t der).map (fun x => term x f) ≠ .ub := by
        intro t f
        by_cases hc : has t
        · obtain ⟨x, hx⟩ := (toExpression_ok_iff s h hmin hmax t der).1 hc
          rw [hx]; exact fun h => nomatch h
        · rw [(toExpression_ok_iff s h hmin hmax t der).2 hc]; exact fun h => nomatch h
      rcases h3 with ⟨rfl, h3⟩ | ⟨rfl, h3⟩
      · refine ⟨rfl, ?_⟩
        have hlen : es.length = j := by rw [← h2.length_eq, List.length_range']
        show P ++ es = P ↔ _
        rw [show P ++ es = P ↔ es = [] by simp, ← List.length_eq_zero_iff, hlen]
        constructor
        · rintro rfl
          intro ha
          simp only [Nat.add_zero] at h3
          rw [p0] at h3
          obtain ⟨x, hx⟩ := (toExpression_ok_iff s h hmin hmax a der).1 ha
          rw [hx] at h3
          exact nomatch h3
        · intro ha
          by_contra hj0
          have := List.Forall₂.get h2 (i := 0) (by rw [List.length_range']; omega) (by omega)
          simp only [List.get_eq_getElem, List.getElem_range', Nat.mul_zero, Nat.add_zero] at this
          rw [p0, (toExpression_ok_iff s h hmin hmax a der).2 ha] at this
          exact nomatch this
      · exact absurd h3 (hth _ _)

end

/-- The expression of the value of `exSpline`, whose valid interval is `[1, 5]`, with its factor. -/
def exFactory (t : ℚ) (f : Option ℚ) : Outcome (List ℕ × ℚ × Option ℚ) :=
  (SimpleErrors.toExpression exSpline t 0).map fun x => (x.dvs, x.time, f)

/-- The cost of an error term of `exFactory` for the constant function one. -/
def exCost (e : List ℕ × ℚ × Option ℚ) : ℚ := e.2.2.getD 0

/-- **C111, all or nothing (violation).** Full statement: a call that throws leaves the problem unchanged.  Integrating from 1 to 7 over a spline
that ends at 5 throws but leaves two of three error terms; the correct call that follows makes a problem whose cost is 9 for the function one,
instead of the length of the interval, 4. -/
theorem C111_violated :
    let first := addErrorTerms .simpson 1 7 3 exFactory []
    let second := addErrorTerms .simpson 1 5 3 exFactory first.problem
    first.result = .throws ∧ first.problem.length = 2 ∧ second.result = .ok () ∧ (second.problem.map exCost).sum = 9 ∧
      (addErrorTerms .simpson 1 5 3 exFactory []).result = .ok () ∧
      ((addErrorTerms .simpson 1 5 3 exFactory []).problem.map exCost).sum = 4 := by
  decide +kernel

/-- C111 at work: the splines' theorem on `exSpline`, bounds in decreasing order. -/
example : (addErrorTerms .simpson 5 1 4 exFactory []).result = .ok () ∧ (addErrorTerms .simpson 6 1 4 exFactory []).problem = [] := by
  have h := C111_spline exSpline exSpline_wf (tmin := 1) (tmax := 5) (by decide +kernel) (by decide +kernel) .simpson
  refine ⟨(h 5 1 (by norm_num) 4 (by norm_num) 0 (fun x f => (x.dvs, x.time, f)) []).1 (by norm_num), ?_⟩
  exact ((h 6 1 (by norm_num) 4 (by norm_num) 0 (fun x f => (x.dvs, x.time, f)) []).2 (by norm_num)).2.2 (by norm_num)

/-! ### Squared errors of expressions -/

/-- The sum of squared errors of a problem of expression error terms, for given values of the expressions; none if some error is not a number. -/
noncomputable def Spec.total {X : Type*} {m D : ℕ} (val : X → Fin D → ℝ) : List (ExprTerm X m D) → Option ℝ
  | [] => some 0
  | e :: es => (e.root).bind fun S => (Spec.total val es).map fun c => (∑ i, (∑ j, S i j * val e.expr j) ^ 2) + c

theorem total_append {X : Type*} {m D : ℕ} (val : X → Fin D → ℝ) (P Q : List (ExprTerm X m D)) :
    Spec.total val (P ++ Q) = (Spec.total val P).bind fun p => (Spec.total val Q).map fun q => p + q := by
  induction P with
  | nil => simp [Spec.total]
  | cons e P ih =>
    simp only [List.cons_append, Spec.total, ih]
    cases e.root with
    | none => rfl
    | some S =>
      cases Spec.total val P with
      | none => rfl
      | some p =>
        cases Spec.total val Q with
        | none => rfl
        | some q => simp [add_assoc]

/-- **C111, cost (partial).** Full statement: for every interval and number of points the call adds the numerical integral of `|sqrtInvR E(t)|²` to the sum of
squared errors, or throws.  Proved for increasing bounds and at least two points, for a callable that returns an expression at every time between the
bounds.  Missing: decreasing bounds (`C47_reversed_nan`) and fewer points (`C111_points_violated`). -/
theorem C111_cost_partial {X : Type*} {m D : ℕ} (a b : ℝ) (hab : a ≤ b) (n : ℤ) (hn : 2 ≤ n) (callable : ℝ → PyResult X) (x : ℝ → X)
    (hx : ∀ t ∈ Set.Icc a b, callable t = .value (x t)) (W : Fin m → Fin D → ℝ) (P : List (ExprTerm X m D)) :
    ∃ P', addToProblem a b n callable W P = ⟨P', .ok ()⟩ ∧ P <+: P' ∧
      ∀ (val : X → Fin D → ℝ) (p : ℝ), Spec.total val P = some p →
        Spec.total val P' = some (p + integrateFunctor .simpson a b (fun t => ∑ i, (∑ j, W i j * val (x t) j) ^ 2) n 0) := by
  rcases hab.eq_or_lt with rfl | hlt
  · exact ⟨P, by simp [addToProblem, addErrorTerms], List.prefix_rfl, fun val p hp => by simp [hp, integrateFunctor]⟩
  have hm := maxIndex_pos .simpson n hn
  -- a factory with nonnegative factors only
  have hfac : ∀ t ∈ Set.uIcc a b, ∀ w, ∃ e, expressionTerm (fun t => extract (callable t)) W t (some w) = .ok e := by
    intro t ht w
    rw [Set.uIcc_of_le hab] at ht
    exact ⟨⟨x t, ((some w).bind cppSqrt).map fun s i j => W i j * s⟩, by simp only [expressionTerm, hx t ht, extract, Outcome.map]⟩
  have htf : ∀ i : ℤ, termFactor .simpson a b n i = some (Rule.commonFactor .simpson a b n * Rule.valueFactor .simpson n i) := fun i => by
    unfold termFactor; rw [if_neg (by omega)]
  have hcall : addToProblem a b n callable W P =
      addLoop .simpson a b n (expressionTerm (fun t => extract (callable t)) W) ((Rule.maxIndex .simpson n).toNat + 1) 0 P := by
    unfold addToProblem addErrorTerms; rw [if_neg hlt.ne, if_neg (by omega)]
  rcases addLoop_cases .simpson a b n (expressionTerm (fun t => extract (callable t)) W) ((Rule.maxIndex .simpson n).toNat + 1) 0 P with
    ⟨es, h1, h2⟩ | ⟨j, es, o, hj, h1, h2, h3⟩
  · refine ⟨P ++ es, by rw [hcall, h1], List.prefix_append _ _, fun val p hp => ?_⟩
    rw [total_append, hp, Option.bind_some, integrateFunctor_eq _ _ _ hlt.ne]
    have gen : ∀ (l : List ℕ) (es : List (ExprTerm X m D)), (∀ i ∈ l, (i : ℤ) ≤ Rule.maxIndex .simpson n) →
        List.Forall₂ (fun j e => expressionTerm (fun t => extract (callable t)) W (Rule.point .simpson a b n (j : ℕ))
          (termFactor .simpson a b n j) = .ok e) l es →
        Spec.total val es = some ((l.map fun i : ℕ => Rule.commonFactor .simpson a b n * Rule.valueFactor .simpson n i *
          ∑ i', (∑ j, W i' j * val (x (Rule.point .simpson a b n i)) j) ^ 2).sum) := by
      intro l es hl h
      induction h with
      | nil => simp [Spec.total]
      | @cons i e l' es' hi _ ih =>
        have hpt := point_between .simpson a b n hn i (hl i (List.mem_cons_self ..))
        rw [Set.uIcc_of_le hab] at hpt
        have hw : 0 ≤ Rule.commonFactor .simpson a b n * Rule.valueFactor .simpson n (i : ℤ) :=
          mul_nonneg (commonFactor_nonneg .simpson a b hlt n hn) (valueFactor_nonneg .simpson n i)
        simp only [expressionTerm, hx _ hpt, extract, Outcome.map, htf, Option.bind_some, cppSqrt, if_neg (not_lt.2 hw), Option.map_some,
          Outcome.ok.injEq] at hi
        subst hi
        simp only [Spec.total, Option.bind_some]
        rw [ih fun y hy => hl y (List.mem_cons_of_mem _ hy)]
        simp only [Option.map_some, List.map_cons, List.sum_cons]
        congr 2
        rw [mul_sum]
        refine sum_congr rfl fun i' _ => ?_
        have e : ∑ j, W i' j * Real.sqrt (Rule.commonFactor .simpson a b n * Rule.valueFactor .simpson n (i : ℤ)) *
            val (x (Rule.point .simpson a b n (i : ℤ))) j =
            Real.sqrt (Rule.commonFactor .simpson a b n * Rule.valueFactor .simpson n (i : ℤ)) *
              ∑ j, W i' j * val (x (Rule.point .simpson a b n (i : ℤ))) j := by
          rw [mul_sum]; exact sum_congr rfl fun j _ => by ring
        rw [e, mul_pow, Real.sq_sqrt hw]
    rw [gen _ es (fun i hi => by rw [List.mem_range'_1] at hi; omega) h2, Option.map_some, ← List.range_eq_range', list_sum_map_range, smul_sum]
    congr 2
    exact sum_congr rfl fun i _ => by simp only [smul_eq_mul]; ring
  · exfalso
    have hp := point_between .simpson a b n hn (0 + j) (by omega)
    obtain ⟨e, he⟩ := hfac _ hp (Rule.commonFactor .simpson a b n * Rule.valueFactor .simpson n ((0 + j : ℕ) : ℤ))
    rw [htf, he] at h3
    rcases h3 with h3 | h3 <;> exact nomatch h3.2

/-- **C111, Python callables.** The call succeeds exactly if the callable returns an expression at every point of the rule; otherwise, if it raises an
exception or returns another object, the call throws; it is never undefined. -/
theorem C111_python {X : Type*} {m D : ℕ} (a b : ℝ) (hab : a ≠ b) (n : ℤ) (hn : -1 ≤ n) (callable : ℝ → PyResult X) (W : Fin m → Fin D → ℝ)
    (P : List (ExprTerm X m D)) :
    ((∀ i : ℕ, (i : ℤ) < Rule.numPoints .simpson n → ∃ x, callable (Rule.point .simpson a b n i) = .value x) →
      (addToProblem a b n callable W P).result = .ok ()) ∧
    ((∃ i : ℕ, (i : ℤ) < Rule.numPoints .simpson n ∧ ∀ x, callable (Rule.point .simpson a b n i) ≠ .value x) →
      (addToProblem a b n callable W P).result = .throws) := by
  have hnp : Rule.numPoints .simpson n = Rule.maxIndex .simpson n + 1 := by unfold Rule.maxIndex; ring
  have hm : 0 ≤ Rule.maxIndex .simpson n := by
    simp only [Rule.maxIndex, Rule.numPoints]
    rcases le_or_gt 0 n with h | h
    · have := Int.tmod_eq_emod_of_nonneg h (b := 2)
      omega
    · obtain rfl : n = -1 := by omega
      decide
  have hcall : addToProblem a b n callable W P =
      addLoop .simpson a b n (expressionTerm (fun t => extract (callable t)) W) ((Rule.maxIndex .simpson n).toNat + 1) 0 P := by
    unfold addToProblem addErrorTerms; rw [if_neg hab, if_neg (by omega)]
  rw [hcall]
  rcases addLoop_cases .simpson a b n (expressionTerm (fun t => extract (callable t)) W) ((Rule.maxIndex .simpson n).toNat + 1) 0 P with
    ⟨es, h1, h2⟩ | ⟨j, es, o, hj, h1, h2, h3⟩
  · rw [h1]
    refine ⟨fun _ => rfl, fun ⟨i, hi, hx⟩ => ?_⟩
    exfalso
    have hlen : es.length = (Rule.maxIndex .simpson n).toNat + 1 := by rw [← h2.length_eq, List.length_range']
    have := List.Forall₂.get h2 (i := i) (by rw [List.length_range']; omega) (by omega)
    simp only [List.get_eq_getElem, List.getElem_range', Nat.one_mul, Nat.zero_add, expressionTerm] at this
    cases hc : callable (Rule.point .simpson a b n i) with
    | value x => exact hx x hc
    | raised => simp [hc, extract, Outcome.map] at this
    | other => simp [hc, extract, Outcome.map] at this
  · rw [h1]
    simp only [Nat.zero_add, expressionTerm] at h3
    constructor
    · intro hx
      obtain ⟨x, hx⟩ := hx j (by omega)
      rw [hx] at h3
      rcases h3 with h3 | h3 <;> exact nomatch h3.2
    · intro _
      rcases h3 with ⟨rfl, _⟩ | ⟨_, h3⟩
      · rfl
      · cases hc : callable (Rule.point .simpson a b n j) <;> simp [hc, extract, Outcome.map] at h3

/-- C111 at work: a callable that returns something else at the end of the interval. -/
example : (addToProblem (m := 1) (D := 1) 0 3 3 (fun t => if t = 3 then .other else PyResult.value t) (fun _ _ => 1) []).result = .throws := by
  refine (C111_python 0 3 (by norm_num) 3 (by norm_num) _ _ _).2 ⟨2, by decide, fun x => ?_⟩
  have : Rule.point .simpson (0 : ℝ) 3 3 ((2 : ℕ) : ℤ) = 3 := by unfold Rule.point; rw [if_pos (by decide)]
  simp only [this]
  simp

/-- **C111, infinite weight (violation).** A problem to which the default rule added a single point has no cost, whatever the values of the
expressions, even though the call did not throw. -/
theorem C111_cost_violated {X : Type*} {m D : ℕ} (a b : ℝ) (hab : a ≠ b) (n : ℤ) (hn : n = 1 ∨ n = 0 ∨ n = -1) (x : X)
    (W : Fin m → Fin D → ℝ) (P : List (ExprTerm X m D)) :
    (addToProblem a b n (fun _ => .value x) W P).result = .ok () ∧
      ∀ val : X → Fin D → ℝ, Spec.total val (addToProblem a b n (fun _ => .value x) W P).problem = none := by
  have hm : Rule.maxIndex .simpson n = 0 := by rcases hn with rfl | rfl | rfl <;> rfl
  have e : addToProblem a b n (fun _ => .value x) W P = ⟨P ++ [⟨x, none⟩], .ok ()⟩ := by
    unfold addToProblem addErrorTerms
    rw [if_neg hab, hm]
    simp [addLoop, termFactor, hm, expressionTerm, extract, Outcome.map]
  rw [e]
  refine ⟨rfl, fun val => ?_⟩
  rw [total_append]
  cases Spec.total val P <;> simp [Spec.total]

/-- C111 at work: the integral of `t ^ 2` from 0 to 3. -/
example : ∃ P', addToProblem (m := 1) (D := 1) 0 3 3 (fun t => PyResult.value t) (fun _ _ => 1) [] = ⟨P', .ok ()⟩ ∧
    Spec.total (fun (t : ℝ) _ => t) P' = some 9 := by
  obtain ⟨P', h1, -, h2⟩ := C111_cost_partial (m := 1) (D := 1) 0 3 (by norm_num) 3 (by norm_num) (fun t => PyResult.value t) id
    (fun _ _ => rfl) (fun _ _ => 1) []
  refine ⟨P', h1, ?_⟩
  rw [h2 (fun t _ => t) 0 rfl]
  have := C36_simpson_integral 0 3 3 (by norm_num) (Polynomial.X ^ 2) (by simp)
  simp only [Polynomial.eval_pow, Polynomial.eval_X] at this
  simp [this]
  norm_num

end IntegralProblem
end Verif
