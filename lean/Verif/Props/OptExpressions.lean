import Verif.Lemmas.OptExpressions
import Verif.Lemmas.MovingTime
import Verif.Props.Euclidean

/-!
# C63: the expression nodes of optimisable manifold splines
-/

set_option linter.unusedSectionVars false

namespace Verif

open Finset MSpline Quaternion

section general

variable {K : Type*} [Field K] [LinearOrder K] [IsStrictOrderedRing K] {P V : Type*}

theorem zipWith_fst {Q R : Type*} (chain : Q → R) : ∀ (ks : List K) (J : List (List Q)), J.length = ks.length →
    (List.zipWith (fun k b => (ExprVar.seg k, b.map chain)) ks J).map Prod.fst = ks.map ExprVar.seg
  | [], [], _ => rfl
  | [], _ :: _, h => by simp at h
  | _ :: _, [], h => by simp at h
  | k :: ks, b :: bs, h => by
    rw [List.zipWith_cons_cons, List.map_cons, List.map_cons, zipWith_fst chain ks bs (by simpa using h)]

theorem windowVars_eq {s : MSpline K P} {t : K} {i : ℕ} (hi : s.InSeg t i) :
    ((s.keys.drop (i + 1 - s.order)).take s.order).map ExprVar.seg = (List.range s.order).map fun j => ExprVar.seg (s.kn (i + 1 - s.order + j)) := by
  apply List.ext_getElem?
  intro j
  rw [List.getElem?_map, List.getElem?_map]
  by_cases hj : j < s.order
  · have hl := window_length hi
    have := window_getD (s := s) (i := i) hj
    rw [List.getD_eq_getElem?_getD, List.getElem?_eq_getElem (by omega), Option.getD_some] at this
    rw [List.getElem?_eq_getElem (by omega), this, List.getElem?_range hj]
    rfl
  · rw [List.getElem?_eq_none (by rw [window_length hi]; omega), List.getElem?_eq_none (by simp; omega)]
    rfl

theorem window_nodup {s : MSpline K P} (h : s.MWF) {t : K} {i : ℕ} : (((s.keys.drop (i + 1 - s.order)).take s.order).map ExprVar.seg).Nodup := by
  refine List.Nodup.map ?_ ((h.nodup.sublist (List.drop_sublist _ _)).sublist (List.take_sublist _ _))
  intro a b hab
  cases hab
  rfl

theorem mem_slice {ks : List K} {a n : ℕ} {k : K} : k ∈ (ks.drop a).take n ↔ ∃ j, a ≤ j ∧ j < a + n ∧ ks[j]? = some k := by
  rw [List.mem_iff_getElem?]
  constructor
  · rintro ⟨j, hj⟩
    have hjn : j < n := by
      by_contra hc
      rw [List.getElem?_take, if_neg hc] at hj
      cases hj
    rw [List.getElem?_take_of_lt hjn, List.getElem?_drop] at hj
    exact ⟨a + j, by omega, by omega, hj⟩
  · rintro ⟨j, h1, h2, h3⟩
    refine ⟨j - a, ?_⟩
    rw [List.getElem?_take_of_lt (by omega), List.getElem?_drop, show a + (j - a) = j by omega]
    exact h3

/-- What is known of an expression at a variable time after any history, at a time that is not a knot. -/
theorem timed_setup (M : Mfd K P V) (order : ℕ) (ho : 1 ≤ order) (s0 : MSpline K P) (h : RegularReach M order s0)
    (he : s0.state = .evaluable) (lower upper : K) (x0 : TimeExpr K) (hx : TimeExpr.create s0 lower upper = .ok x0)
    (hist : List (MSpline K P × K)) (hh : ∀ e ∈ hist, SameKnots s0 e.1) (s : MSpline K P) (hs : SameKnots s0 s) (t : K)
    (h1 : lower ≤ t) (h2 : t ≤ upper) (ht : t ∉ s.keys) :
    ∃ i a b, s.InSeg t i ∧ s.InSeg (TimeExpr.history M hist x0).lower a ∧ s.InSeg (TimeExpr.history M hist x0).upper b ∧ a ≤ i ∧ i ≤ b ∧
      (TimeExpr.history M hist x0).lower = lower ∧ (TimeExpr.history M hist x0).upper = upper ∧
      ∃ x', (TimeExpr.history M hist x0).getEvaluator s t = (.ok t, x') := by
  obtain ⟨hw, -⟩ := h.mwf ho
  obtain ⟨rfl, hlu, hlo, hup⟩ := create_bounds hw he hx
  obtain ⟨i1, i2, i3⟩ := history_inv M s0 ⟨lower, upper, none⟩ rfl hlo hup hist hh
  generalize TimeExpr.history M hist ⟨lower, upper, none⟩ = x at i1 i2 i3
  have i1 : x.lower = lower := i1
  have i2 : x.upper = upper := i2
  have ekn : s.kn = s0.kn := by rw [kn_eq_knOf, kn_eq_knOf, hs.keys]
  have hl' : s.kn (s.order - 1) ≤ lower := by rw [ekn, hs.order]; exact hlo
  have hu' : upper ≤ s.kn (s.keys.length - s.order) := by rw [ekn, hs.order, hs.keys]; exact hup
  obtain ⟨a, ha, -⟩ := getSegmentIterator_ok hs.mwf hs.evaluable lower hl' (hlu.le.trans hu')
  obtain ⟨b, hb, -⟩ := getSegmentIterator_ok hs.mwf hs.evaluable upper (hl'.trans hlu.le) hu'
  obtain ⟨i, hi, -⟩ := getSegmentIterator_ok hs.mwf hs.evaluable t (hl'.trans h1) (h2.trans hu')
  refine ⟨i, a, b, hi, by rw [i1]; exact ha, by rw [i2]; exact hb, inSeg_mono hs.mwf ha hi h1, inSeg_mono hs.mwf hi hb h2, i1, i2, ?_⟩
  rcases getEvaluator_cases s0 s hs t x (by rw [i1]; exact hlo) (by rw [i2]; exact hup)
    (fun c hc => (i3 c hc).1) with ⟨h3, -⟩ | ⟨-, -, h3, -⟩ | ⟨-, -, c, j, hc, hcj, h4, h3⟩
  · rw [i1, i2] at h3
    rcases h3 with h3 | h3
    · exact absurd h3 (not_lt.2 h1)
    · exact absurd h3 (not_lt.2 h2)
  · exact ⟨_, h3⟩
  · exfalso
    apply ht
    rw [hs.keys, ← h4]
    exact List.mem_of_getElem? (kn_getElem s0 (by have := hcj.upper; omega))

variable {Q R : Type*} [AddCommGroup Q] [Module K Q] [AddCommGroup R] [Module K R]

theorem sum_window {s : MSpline K P} {t : K} {i : ℕ} (hi : s.InSeg t i) (δ : ExprVar K → ℕ → K) (J : List (List Q)) :
    ∑ j ∈ range ((s.keys.drop (i + 1 - s.order)).take s.order).length, applyCols (J.getD j [])
      (δ (.seg (((s.keys.drop (i + 1 - s.order)).take s.order).getD j 0))) =
    ∑ j ∈ range s.order, applyCols (J.getD j []) (δ (.seg (s.kn (i + 1 - s.order + j)))) := by
  rw [window_length hi]
  refine sum_congr rfl fun j hj => ?_
  rw [mem_range] at hj
  rw [window_getD hj]

/-- Nodes at a constant time. -/
theorem const_node {s : MSpline K P} (h : s.MWF) (he : s.state = .evaluable) {t : K} {i : ℕ} (hi : s.InSeg t i) (τ : TimeNode K)
    (jac : K → Outcome (List (List Q))) (zeros : Option ℕ) (timeCol : K → Outcome Q) (chain : Q →ₗ[K] R) (J : List (List Q))
    (hJ : jac t = .ok J) (hl : J.length = s.order) :
    ∃ J' vars, (nodeJacobians s τ (.constTime t) jac zeros timeCol chain).1 = .ok J' ∧
      (FactoryData.constTime t).designVariables s τ = .ok vars ∧
      vars = (List.range s.order).map (fun j => .seg (s.kn (i + 1 - s.order + j))) ∧
      vars.Nodup ∧ J'.map Prod.fst = vars ∧
      ∀ δ : ExprVar K → ℕ → K, totalChange J' δ =
        chain (∑ j ∈ range s.order, applyCols (J.getD j []) (δ (.seg (s.kn (i + 1 - s.order + j))))) := by
  have hlen := window_length hi
  refine ⟨_, _, by rw [nodeJacobians_const h he hi τ jac zeros timeCol chain J hJ hl], ?_, windowVars_eq hi, window_nodup (t := t) h,
    zipWith_fst chain _ _ (by rw [hl, hlen]), fun δ => ?_⟩
  · unfold FactoryData.designVariables
    simp only []
    rw [evaluatorAt_eq h he hi, Outcome.bind_ok, windowKeys_eq h hi]
    rfl
  · rw [totalChange_blocks chain δ _ J (by rw [hlen, hl]), sum_window hi]

/-- Nodes at a variable time. -/
theorem timed_node {s : MSpline K P} (h : s.MWF) (he : s.state = .evaluable) {t : K} {i a b : ℕ} (hi : s.InSeg t i) (τ : TimeNode K)
    (x x' : TimeExpr K) (hx : x.getEvaluator s τ.value = (.ok t, x')) (ha : s.InSeg x.lower a) (hb : s.InSeg x.upper b) (hai : a ≤ i)
    (hib : i ≤ b) (jac : K → Outcome (List (List Q))) (zeros : Option ℕ) (timeCol : K → Outcome Q) (chain : Q →ₗ[K] R) (J : List (List Q))
    (hJ : jac t = .ok J) (hl : J.length = s.order) (D : Q) (hD : timeCol t = .ok D) :
    ∃ J' vars, (nodeJacobians s τ (.timed x) jac zeros timeCol chain).1 = .ok J' ∧
      (FactoryData.timed x).designVariables s τ = .ok vars ∧
      (∀ v, v ∈ vars ↔ (∃ j, a + 1 - s.order ≤ j ∧ j ≤ b ∧ v = .seg (s.kn j)) ∨ ∃ r ∈ τ.rows, v = .time r.1) ∧
      (∀ v, v ∈ J'.map Prod.fst ↔ if zeros.isSome then v ∈ vars else
        (∃ j, i + 1 - s.order ≤ j ∧ j ≤ i ∧ v = .seg (s.kn j)) ∨ ∃ r ∈ τ.rows, v = .time r.1) ∧
      ∀ δ : ExprVar K → ℕ → K, totalChange J' δ =
        chain (∑ j ∈ range s.order, applyCols (J.getD j []) (δ (.seg (s.kn (i + 1 - s.order + j))))) + τ.change δ • chain D := by
  have hlen := window_length hi
  have hsp := spanKeys_eq h he ha hb (hai.trans hib)
  have i1 := hi.lower
  have b2 := hb.upper
  have slice : ∀ (n m : ℕ), m ≤ s.keys.length → ∀ v : ExprVar K, v ∈ ((s.keys.drop n).take (m - n)).map ExprVar.seg ↔
      ∃ j, n ≤ j ∧ j < m ∧ v = .seg (s.kn j) := by
    intro n m hm v
    rw [List.mem_map]
    constructor
    · rintro ⟨k, hk, rfl⟩
      obtain ⟨j, l1, l2, l3⟩ := mem_slice.1 hk
      rw [kn_getElem s (by omega), Option.some.injEq] at l3
      exact ⟨j, l1, by omega, by rw [l3]⟩
    · rintro ⟨j, l1, l2, rfl⟩
      exact ⟨_, mem_slice.2 ⟨j, l1, by omega, kn_getElem s (by omega)⟩, rfl⟩
  have hrows : ∀ v : ExprVar K, (v ∈ τ.rows.map fun r => ExprVar.time r.1) ↔ ∃ r ∈ τ.rows, v = .time r.1 := by
    intro v
    rw [List.mem_map]
    exact ⟨fun ⟨r, h1, h2⟩ => ⟨r, h1, h2.symm⟩, fun ⟨r, h1, h2⟩ => ⟨r, h1, h2.symm⟩⟩
  have hwin : ∀ v : ExprVar K, v ∈ ((s.keys.drop (i + 1 - s.order)).take s.order).map ExprVar.seg ↔
      ∃ j, i + 1 - s.order ≤ j ∧ j ≤ i ∧ v = .seg (s.kn j) := by
    intro v
    have := slice (i + 1 - s.order) (i + 1) (by omega) v
    rw [show i + 1 - (i + 1 - s.order) = s.order by omega] at this
    rw [this]
    simp only [Nat.lt_succ_iff]
  have hspan : ∀ v : ExprVar K, v ∈ ((s.keys.drop (a + 1 - s.order)).take (b + 1 - (a + 1 - s.order))).map ExprVar.seg ↔
      ∃ j, a + 1 - s.order ≤ j ∧ j ≤ b ∧ v = .seg (s.kn j) := by
    intro v
    rw [slice (a + 1 - s.order) (b + 1) (by have := h.order_pos; omega) v]
    simp only [Nat.lt_succ_iff]
  have hvars : (FactoryData.timed x).designVariables s τ =
      .ok (((s.keys.drop (a + 1 - s.order)).take (b + 1 - (a + 1 - s.order))).map ExprVar.seg ++ τ.rows.map fun r => ExprVar.time r.1) := by
    unfold FactoryData.designVariables
    simp only []
    rw [hsp]
    rfl
  have key : ∀ (zs : List (ExprVar K × List R)), zeroBlocks s x zeros = .ok zs → (∀ δ, totalChange zs δ = 0) →
      (∀ v, v ∈ zs.map Prod.fst ↔ zeros.isSome ∧ ∃ j, a + 1 - s.order ≤ j ∧ j ≤ b ∧ v = .seg (s.kn j)) → 
      ∃ J' vars, (nodeJacobians s τ (.timed x) jac zeros timeCol chain).1 = .ok J' ∧
      (FactoryData.timed x).designVariables s τ = .ok vars ∧
      (∀ v, v ∈ vars ↔ (∃ j, a + 1 - s.order ≤ j ∧ j ≤ b ∧ v = .seg (s.kn j)) ∨ ∃ r ∈ τ.rows, v = .time r.1) ∧
      (∀ v, v ∈ J'.map Prod.fst ↔ if zeros.isSome then v ∈ vars else
        (∃ j, i + 1 - s.order ≤ j ∧ j ≤ i ∧ v = .seg (s.kn j)) ∨ ∃ r ∈ τ.rows, v = .time r.1) ∧
      ∀ δ : ExprVar K → ℕ → K, totalChange J' δ =
        chain (∑ j ∈ range s.order, applyCols (J.getD j []) (δ (.seg (s.kn (i + 1 - s.order + j))))) + τ.change δ • chain D := by
    intro zs hz hz0 hzv
    refine ⟨_, _, by rw [nodeJacobians_timed h he hi τ x x' hx jac zeros timeCol chain J hJ hl D hD zs hz], hvars, fun v => ?_, fun v => ?_,
      fun δ => ?_⟩
    · rw [List.mem_append, hspan, hrows]
    · rw [List.map_append, List.map_append, zipWith_fst chain _ _ (by rw [hl, hlen]), List.map_map, List.mem_append, List.mem_append,
        List.mem_append, hspan, hwin, hzv]
      have := hrows v
      simp only [Function.comp_def]
      rw [this]
      rcases zeros with _ | n
      · simp
      · simp only [Option.isSome_some, true_and, if_true]
        constructor
        · rintro ((⟨j, l1, l2, l3⟩ | hh) | hr)
          · exact Or.inl ⟨j, by omega, by omega, l3⟩
          · exact Or.inl hh
          · exact Or.inr hr
        · rintro (hh | hr)
          · exact Or.inl (Or.inr hh)
          · exact Or.inr hr
    · rw [totalChange_append, totalChange_append, hz0, add_zero, totalChange_rows, totalChange_blocks chain δ _ J (by rw [hlen, hl]),
        sum_window hi]
  rcases zeros with _ | n
  · exact key [] rfl (fun _ => rfl) (fun v => by simp)
  · refine key (((s.keys.drop (a + 1 - s.order)).take (b + 1 - (a + 1 - s.order))).map fun k => (ExprVar.seg k, List.replicate n 0))
      (by unfold zeroBlocks; rw [hsp]; rfl) (totalChange_zeros n _) fun v => ?_
    rw [List.map_map]
    have := hspan v
    simp only [Function.comp_def]
    rw [this]
    simp

/-- Specification: `d'` is what the factory data `d` of an expression can be after a sequence of calls of `evaluateImplementation` and
`evaluateJacobiansImplementation`, each with the spline and the time expression as they then are; the calls may throw. -/
inductive NodeRun : FactoryData K → List (MSpline K P × TimeNode K) → FactoryData K → Prop
  | nil (d : FactoryData K) : NodeRun d [] d
  | value {d d' : FactoryData K} {hist : List (MSpline K P × TimeNode K)} (h : NodeRun d hist d') (s : MSpline K P) (τ : TimeNode K)
      {X : Type} (eval : K → Outcome X) : NodeRun d (hist ++ [(s, τ)]) (nodeValue s τ d' eval).2
  | jacobians {d d' : FactoryData K} {hist : List (MSpline K P × TimeNode K)} (h : NodeRun d hist d') (s : MSpline K P)
      (τ : TimeNode K) {Q R : Type} [Zero R] [SMul K R] (jac : K → Outcome (List (List Q))) (zeros : Option ℕ) (timeCol : K → Outcome Q)
      (chain : Q → R) : NodeRun d (hist ++ [(s, τ)]) (nodeJacobians s τ d' jac zeros timeCol chain).2

theorem nodeValue_state {X : Type*} (M : Mfd K P V) (s : MSpline K P) (τ : TimeNode K) (x : TimeExpr K) (eval : K → Outcome X) :
    (nodeValue s τ (.timed x) eval).2 = .timed (x.evaluate M s τ.value).2 := by
  unfold nodeValue FactoryData.evaluatorTime TimeExpr.evaluate
  dsimp only
  generalize x.getEvaluator s τ.value = g
  rcases g with ⟨_ | _ | _, y⟩ <;> rfl

theorem nodeJacobians_state {Q R : Type*} [Zero R] [SMul K R] (M : Mfd K P V) (s : MSpline K P) (τ : TimeNode K) (x : TimeExpr K)
    (jac : K → Outcome (List (List Q))) (zeros : Option ℕ) (timeCol : K → Outcome Q) (chain : Q → R) :
    (nodeJacobians s τ (.timed x) jac zeros timeCol chain).2 = .timed (x.evaluate M s τ.value).2 := by
  unfold nodeJacobians FactoryData.evaluatorTime TimeExpr.evaluate
  dsimp only
  generalize x.getEvaluator s τ.value = g
  rcases g with ⟨_ | _ | _, y⟩ <;> rfl

/-- C63: after every sequence of calls on an expression (values and Jacobians in any order) the evaluator it keeps is that of the
history of its times, for which the other theorems are stated; an expression for a constant time does not change. -/
theorem C63_history (M : Mfd K P V) (hist : List (MSpline K P × TimeNode K)) (d d' : FactoryData K) (h : NodeRun d hist d') :
    (∀ t, d = .constTime t → d' = d) ∧
    ∀ x, d = .timed x → d' = .timed (TimeExpr.history M (hist.map fun e => (e.1, e.2.value)) x) := by
  induction h with
  | nil => exact ⟨fun _ _ => rfl, fun x hx => hx⟩
  | value h s τ eval ih =>
    refine ⟨fun t ht => ?_, fun x hx => ?_⟩
    · rw [ih.1 t ht, ht]
      rfl
    · rw [ih.2 x hx, nodeValue_state M]
      simp only [TimeExpr.history, List.map_append, List.foldl_append, List.map_cons, List.map_nil, List.foldl_cons, List.foldl_nil]
  | jacobians h s τ jac zeros timeCol chain ih =>
    refine ⟨fun t ht => ?_, fun x hx => ?_⟩
    · rw [ih.1 t ht, ht]
      rfl
    · rw [ih.2 x hx, nodeJacobians_state M]
      simp only [TimeExpr.history, List.map_append, List.foldl_append, List.map_cons, List.map_nil, List.foldl_cons, List.foldl_nil]

/-- Two calls, the second of which throws or not. -/
example (s : MSpline ℚ ℚ) (x : TimeExpr ℚ) : ∃ d', NodeRun (.timed x) [(s, (⟨1, []⟩ : TimeNode ℚ)), (s, ⟨5, [(0, [1])]⟩)] d' :=
  ⟨_, .value (.value (.nil _) s ⟨1, []⟩ fun c => Outcome.ok c) s ⟨5, [(0, [1])]⟩ fun c => Outcome.ok c⟩

end general

section quaternion

variable {R : Type*} [NormedAddCommGroup R] [NormedSpace ℝ R]

/-- The control vertices of a window are unit quaternions and the logarithm is differentiable, with `L` its derivative, at the rotations
from each to the next. -/
structure GoodWindow (lg : ℍ[ℝ] → V3) (L : V3 → M33) (s : MSpline ℝ ℍ[ℝ]) (first : ℕ) : Prop where
  unit : ∀ j, j < s.order → ∀ q, s.verts[first + j]? = some q → ‖q‖ = 1
  log : ∀ j, j + 1 < s.order → ∀ a b, s.verts[first + j]? = some a → s.verts[first + (j + 1)]? = some b → LogDiffAt lg L (qplus (quatInv a) b)

/-- The spline after the update of each control vertex by `x` times its part of `δ`. -/
noncomputable def quatUpdated (lg : ℍ[ℝ] → V3) (s : MSpline ℝ ℍ[ℝ]) (δ : ExprVar ℝ → ℕ → ℝ) (x : ℝ) : MSpline ℝ ℍ[ℝ] :=
  s.moved fun m p => (quatGroup lg).update p (x • fun c : Fin 3 => δ (.seg (s.kn m)) c)

theorem blocks_quat (u : ℕ → ℕ → ℝ) (n : ℕ) (J : List DMat) (hl : J.length = n) :
    ∑ j ∈ range n, applyCols ((J.map fun M => List.ofFn M).getD j []) (u j) =
    ∑ j ∈ range n, DMat.app (J.getD j 0) (fun c : Fin 3 => u j c) := by
  refine sum_congr rfl fun j hj => ?_
  rw [mem_range] at hj
  simp only [List.getD_eq_getElem?_getD]
  rw [List.getElem?_map, List.getElem?_eq_getElem (by omega), Option.map_some, Option.getD_some, Option.getD_some, applyCols_ofFn]
  rfl

theorem blocks_angular (u : ℕ → ℕ → ℝ) (n : ℕ) (J : List M33) (hl : J.length = n) :
    ∑ j ∈ range n, applyCols ((J.map fun A => List.ofFn fun k => fun r => A r k).getD j []) (u j) =
    ∑ j ∈ range n, (J.getD j 0).mulVec (fun c : Fin 3 => u j c) := by
  refine sum_congr rfl fun j hj => ?_
  rw [mem_range] at hj
  simp only [List.getD_eq_getElem?_getD]
  rw [List.getElem?_map, List.getElem?_eq_getElem (by omega), Option.map_some, Option.getD_some, Option.getD_some, applyCols_ofFn]
  funext r
  simp only [Finset.sum_apply, Pi.smul_apply, smul_eq_mul, Matrix.mulVec, dotProduct]
  exact sum_congr rfl fun k _ => mul_comm _ _

/-- C63: the value (or derivative) node of a unit quaternion spline at a constant time collects one block for each of the announced
design variables, which are the `order` segments acting at that time; together the blocks are the derivative of the node's value, times
the chain rule matrix, under updates of the control vertices.  (What is missing: derivatives for order one.) -/
theorem C63_value_const_partial (lg : ℍ[ℝ] → V3) (S L : V3 → M33) (hS : ExpDiff S) (order : ℕ) (ho : 1 ≤ order) (s : MSpline ℝ ℍ[ℝ])
    (h : RegularReach (quatGroup lg).toMfd order s) (t : ℝ) (e : Evaluator ℝ) (he : s.evaluatorAt t = .ok e) (first : ℕ)
    (hf : first < s.keys.length) (hfirst : e.firstIt = s.keys[first]?) (hg : GoodWindow lg L s first) (d : ℕ)
    (hd : d = 0 ∨ 2 ≤ order ∧ d ≤ 2) (τ : TimeNode ℝ) (chain : ℍ[ℝ] →L[ℝ] R) :
    ∃ J vars, (quatValueJacobians lg S L s τ (.constTime t) d chain).1 = .ok J ∧
      (FactoryData.constTime t).designVariables s τ = .ok vars ∧ vars = (List.range order).map (fun j => .seg (s.kn (first + j))) ∧
      vars.Nodup ∧ J.map Prod.fst = vars ∧
      ∀ δ : ExprVar ℝ → ℕ → ℝ, ∃ f : ℝ → ℍ[ℝ],
        (∀ x, (nodeValue (quatUpdated lg s δ x) τ (.constTime t) fun c => (quatUpdated lg s δ x).quatEvalD lg c d).1 = .ok (f x)) ∧
        s.quatEvalD lg t d = .ok (f 0) ∧ HasDerivAt (fun x => chain (f x)) (totalChange J δ) 0 := by
  obtain ⟨hw, rfl⟩ := h.mwf ho
  obtain ⟨hst, i, hi, rfl⟩ := evaluatorAt_inv hw he
  have hfi : first = i + 1 - s.order := keys_inj hw hf hfirst.symm
  subst hfi
  obtain ⟨J, h1, h2, h3⟩ := jacobian_core lg S L hS hw hst hi hg.unit hg.log d hd
  obtain ⟨J', vars, c1, c2, c3, c4, c5, c6⟩ := const_node hw hst hi τ
    (fun c => (s.quatEvalJacobian lg S L c d).map fun J => J.map fun M => List.ofFn M) (some 3) (fun c => s.quatEvalD lg c ((d : ℤ) + 1))
    (chain : ℍ[ℝ] →ₗ[ℝ] R) (J.map fun M => List.ofFn M) (by rw [h1]; rfl) (by rw [List.length_map]; exact h2)
  refine ⟨J', vars, c1, c2, c3, c4, c5, fun δ => ?_⟩
  obtain ⟨f, g1, g2, g3, -⟩ := h3 fun m => fun c : Fin 3 => δ (.seg (s.kn m)) c
  refine ⟨f, g1, g2, (chain.hasFDerivAt.comp_hasDerivAt 0 g3).congr_deriv ?_⟩
  rw [c6, blocks_quat (fun j => δ (.seg (s.kn (i + 1 - s.order + j)))) s.order J h2]
  rfl

/-- C63: the value (or derivative) node of a unit quaternion spline at a variable time, after any history of evaluations, at a time that
is not a knot: exactly the announced design variables get blocks, and together the blocks are the derivative of the node's value, times the
chain rule matrix, under updates of the control vertices and a simultaneous change of the time.  (What is missing: derivatives for
order one, and times at knots, where already the value can be wrong, see `C44_violated`.) -/
theorem C63_value_timed_partial (lg : ℍ[ℝ] → V3) (S L : V3 → M33) (hS : ExpDiff S) (order : ℕ) (ho : 1 ≤ order) (s0 : MSpline ℝ ℍ[ℝ])
    (h : RegularReach (quatGroup lg).toMfd order s0) (h0 : s0.state = .evaluable) (lower upper : ℝ) (x0 : TimeExpr ℝ)
    (hx : TimeExpr.create s0 lower upper = .ok x0) (hist : List (MSpline ℝ ℍ[ℝ] × ℝ)) (hh : ∀ e ∈ hist, SameKnots s0 e.1)
    (X : TimeExpr ℝ) (hX : X = TimeExpr.history (quatGroup lg).toMfd hist x0) (s : MSpline ℝ ℍ[ℝ]) (hs : SameKnots s0 s) (τ : TimeNode ℝ)
    (h1 : lower ≤ τ.value) (h2 : τ.value ≤ upper) (ht : τ.value ∉ s.keys) (e : Evaluator ℝ) (he : s.evaluatorAt τ.value = .ok e)
    (first : ℕ) (hf : first < s.keys.length) (hfirst : e.firstIt = s.keys[first]?) (hg : GoodWindow lg L s first) (d : ℕ)
    (hd : d = 0 ∨ 2 ≤ order ∧ d ≤ 2) (chain : ℍ[ℝ] →L[ℝ] R) :
    ∃ J vars, (quatValueJacobians lg S L s τ (.timed X) d chain).1 = .ok J ∧
      (FactoryData.timed X).designVariables s τ = .ok vars ∧ (∀ v, v ∈ J.map Prod.fst ↔ v ∈ vars) ∧
      ∀ (δ : ExprVar ℝ → ℕ → ℝ) (T : ℝ → ℝ), T 0 = τ.value → HasDerivAt T (τ.change δ) 0 → ∃ f : ℝ → ℍ[ℝ],
        (∀ᶠ x in nhds 0, (quatUpdated lg s δ x).quatEvalD lg (T x) d = .ok (f x)) ∧
        (nodeValue s τ (.timed X) fun c => s.quatEvalD lg c d).1 = .ok (f 0) ∧
        HasDerivAt (fun x => chain (f x)) (totalChange J δ) 0 := by
  obtain ⟨i, a, b, hi, ha, hb, hai, hib, -, -, x', hgx⟩ := timed_setup (quatGroup lg).toMfd order ho s0 h h0 lower upper x0 hx hist hh s hs
    τ.value h1 h2 ht
  rw [← hX] at ha hb hgx
  have hw := hs.mwf
  have hst := hs.evaluable
  obtain ⟨-, hord⟩ := h.mwf ho
  have hord : s.order = order := hs.order.trans hord
  subst hord
  obtain ⟨-, i', hi', rfl⟩ := evaluatorAt_inv hw he
  obtain rfl := hi.unique hw hi'
  have hfi : first = i + 1 - s.order := keys_inj hw hf hfirst.symm
  subst hfi
  obtain ⟨J, D, k1, k2, k3, k4⟩ := jacobian_core_timed lg S L hS hw hst hi ht hg.unit hg.log d hd
  obtain ⟨J', vars, c1, c2, -, c4, c5⟩ := timed_node hw hst hi τ X x' hgx ha hb hai hib
    (fun c => (s.quatEvalJacobian lg S L c d).map fun J => J.map fun M => List.ofFn M) (some 3) (fun c => s.quatEvalD lg c ((d : ℤ) + 1))
    (chain : ℍ[ℝ] →ₗ[ℝ] R) (J.map fun M => List.ofFn M) (by rw [k1]; rfl) (by rw [List.length_map]; exact k2) D k3
  refine ⟨J', vars, c1, c2, c4, fun δ T hT0 hT => ?_⟩
  obtain ⟨f, g1, g2, g3⟩ := k4 (fun m => fun c : Fin 3 => δ (.seg (s.kn m)) c) T _ hT0 hT
  refine ⟨f, g1, ?_, (chain.hasFDerivAt.comp_hasDerivAt 0 g3).congr_deriv ?_⟩
  · unfold nodeValue FactoryData.evaluatorTime
    simp only [hgx]
    exact g2
  · rw [c5, blocks_quat (fun j => δ (.seg (s.kn (i + 1 - s.order + j)))) s.order J k2, map_add, map_smul]
    rfl

theorem evalAngular_of {lg : ℍ[ℝ] → V3} {s : MSpline ℝ ℍ[ℝ]} {t : ℝ} {v w : ℍ[ℝ]} {d : ℕ} (hd : d = 1 ∨ d = 2)
    (h0 : s.quatEvalD lg t (0 : ℕ) = .ok v) (h1 : s.quatEvalD lg t d = .ok w) : s.evalAngularDerivative lg t d = .ok (angL (star v * w)) := by
  unfold evalAngularDerivative
  rw [Nat.cast_zero] at h0
  rw [h1, Outcome.bind_ok, h0, Outcome.bind_ok, if_neg (by omega), angularTmp_eq]
  rfl

/-- The angular rate one order up is the derivative of the angular rate with respect to time, as far as the algebra goes. -/
theorem evalAngular_succ {lg : ℍ[ℝ] → V3} {s : MSpline ℝ ℍ[ℝ]} {t : ℝ} {v v' w w' : ℍ[ℝ]} {d : ℕ} (hd : d = 1 ∨ d = 2)
    (h0 : s.quatEvalD lg t (0 : ℕ) = .ok v) (h0' : s.quatEvalD lg t (((0 : ℕ) : ℤ) + 1) = .ok v') (h1 : s.quatEvalD lg t d = .ok w)
    (h1' : s.quatEvalD lg t ((d : ℤ) + 1) = .ok w') :
    s.evalAngularDerivative lg t (d + 1) = .ok (angL (star v' * w + star v * w')) := by
  rcases hd with rfl | rfl
  · have e : w = v' := by
      have : ((1 : ℕ) : ℤ) = ((0 : ℕ) : ℤ) + 1 := by norm_num
      rw [this, h0', Outcome.ok.injEq] at h1
      exact h1.symm
    subst e
    have h2 : s.quatEvalD lg t (2 : ℕ) = .ok w' := h1'
    rw [show 1 + 1 = 2 from rfl, evalAngular_of (Or.inr rfl) h0 h2, map_add, angL_star_self, zero_add]
  · unfold evalAngularDerivative
    have h3 : s.quatEvalD lg t ((2 + 1 : ℕ) : ℤ) = .ok w' := h1'
    have h4 : s.quatEvalD lg t 1 = .ok v' := h0'
    have h5 : s.quatEvalD lg t 2 = .ok w := h1
    rw [Nat.cast_zero] at h0
    rw [h3, Outcome.bind_ok, h0, Outcome.bind_ok, if_pos rfl, h4, Outcome.bind_ok, h5, Outcome.bind_ok, angularTmp_eq]
    refine congrArg Outcome.ok (funext fun r => ?_)
    have := congrFun (angularTmp_eq v' w) r
    unfold angularTmp at this
    rw [map_add, Pi.add_apply]
    show _ = 2 * qeps (star v' * w) r + 2 * qeps (star v * w') r
    rw [← this]
    ring

/-- C63: the angular velocity (`d = 1`) and angular acceleration (`d = 2`) nodes at a constant time.  (What is missing: order one.) -/
theorem C63_angular_const_partial (lg : ℍ[ℝ] → V3) (S L : V3 → M33) (hS : ExpDiff S) (order : ℕ) (ho : 2 ≤ order) (s : MSpline ℝ ℍ[ℝ])
    (h : RegularReach (quatGroup lg).toMfd order s) (t : ℝ) (e : Evaluator ℝ) (he : s.evaluatorAt t = .ok e) (first : ℕ)
    (hf : first < s.keys.length) (hfirst : e.firstIt = s.keys[first]?) (hg : GoodWindow lg L s first) (d : ℕ)
    (hd : d = 1 ∨ d = 2) (τ : TimeNode ℝ) (chain : V3 →L[ℝ] R) :
    ∃ J vars, (angularJacobians lg S L s τ (.constTime t) d chain).1 = .ok J ∧
      (FactoryData.constTime t).designVariables s τ = .ok vars ∧ vars = (List.range order).map (fun j => .seg (s.kn (first + j))) ∧
      vars.Nodup ∧ J.map Prod.fst = vars ∧
      ∀ δ : ExprVar ℝ → ℕ → ℝ, ∃ f : ℝ → V3,
        (∀ x, (nodeValue (quatUpdated lg s δ x) τ (.constTime t) fun c => (quatUpdated lg s δ x).evalAngularDerivative lg c d).1 = .ok (f x)) ∧
        s.evalAngularDerivative lg t d = .ok (f 0) ∧ HasDerivAt (fun x => chain (f x)) (totalChange J δ) 0 := by
  obtain ⟨hw, rfl⟩ := h.mwf (by omega)
  obtain ⟨J, h1, h2, h3⟩ := C62_angular_jacobian_partial lg S L hS s.order ho s h t e he first hf hfirst hg.unit hg.log d hd
  obtain ⟨hst, i, hi, rfl⟩ := evaluatorAt_inv hw he
  have hfi : first = i + 1 - s.order := keys_inj hw hf hfirst.symm
  subst hfi
  obtain ⟨J', vars, c1, c2, c3, c4, c5, c6⟩ := const_node hw hst hi τ
    (fun c => (s.evalAngularJacobian lg S L c d).map fun J => J.map fun A => List.ofFn fun k => fun r => A r k) none
    (fun c => s.evalAngularDerivative lg c (d + 1)) (chain : V3 →ₗ[ℝ] R) (J.map fun A => List.ofFn fun k => fun r => A r k) (by rw [h1]; rfl)
    (by rw [List.length_map]; exact h2)
  refine ⟨J', vars, c1, c2, c3, c4, c5, fun δ => ?_⟩
  obtain ⟨f, g1, g2, g3⟩ := h3 fun m => fun c : Fin 3 => δ (.seg (s.kn m)) c
  refine ⟨f, g1, g2, (chain.hasFDerivAt.comp_hasDerivAt 0 g3).congr_deriv ?_⟩
  rw [c6, blocks_angular (fun j => δ (.seg (s.kn (i + 1 - s.order + j)))) s.order J h2]
  rfl

/-- C63: the angular velocity and angular acceleration nodes at a variable time that is not a knot: the blocks are for announced design
variables and together they are the derivative under updates of the control vertices and a simultaneous change of the time.  (What is
missing: order one, times at knots, and a block for each announced design variable, see `C63_angular_variable_without_block`.) -/
theorem C63_angular_timed_partial (lg : ℍ[ℝ] → V3) (S L : V3 → M33) (hS : ExpDiff S) (order : ℕ) (ho : 2 ≤ order) (s0 : MSpline ℝ ℍ[ℝ])
    (h : RegularReach (quatGroup lg).toMfd order s0) (h0 : s0.state = .evaluable) (lower upper : ℝ) (x0 : TimeExpr ℝ)
    (hx : TimeExpr.create s0 lower upper = .ok x0) (hist : List (MSpline ℝ ℍ[ℝ] × ℝ)) (hh : ∀ e ∈ hist, SameKnots s0 e.1)
    (X : TimeExpr ℝ) (hX : X = TimeExpr.history (quatGroup lg).toMfd hist x0) (s : MSpline ℝ ℍ[ℝ]) (hs : SameKnots s0 s) (τ : TimeNode ℝ)
    (h1 : lower ≤ τ.value) (h2 : τ.value ≤ upper) (ht : τ.value ∉ s.keys) (e : Evaluator ℝ) (he : s.evaluatorAt τ.value = .ok e)
    (first : ℕ) (hf : first < s.keys.length) (hfirst : e.firstIt = s.keys[first]?) (hg : GoodWindow lg L s first) (d : ℕ)
    (hd : d = 1 ∨ d = 2) (chain : V3 →L[ℝ] R) :
    ∃ J vars, (angularJacobians lg S L s τ (.timed X) d chain).1 = .ok J ∧
      (FactoryData.timed X).designVariables s τ = .ok vars ∧ (∀ v, v ∈ J.map Prod.fst → v ∈ vars) ∧
      (∀ v, v ∈ J.map Prod.fst ↔ (∃ j, first ≤ j ∧ j < first + order ∧ v = .seg (s.kn j)) ∨ ∃ r ∈ τ.rows, v = .time r.1) ∧
      ∀ (δ : ExprVar ℝ → ℕ → ℝ) (T : ℝ → ℝ), T 0 = τ.value → HasDerivAt T (τ.change δ) 0 → ∃ f : ℝ → V3,
        (∀ᶠ x in nhds 0, (quatUpdated lg s δ x).evalAngularDerivative lg (T x) d = .ok (f x)) ∧
        (nodeValue s τ (.timed X) fun c => s.evalAngularDerivative lg c d).1 = .ok (f 0) ∧
        HasDerivAt (fun x => chain (f x)) (totalChange J δ) 0 := by
  obtain ⟨i, a, b, hi, ha, hb, hai, hib, -, -, x', hgx⟩ := timed_setup (quatGroup lg).toMfd order (by omega) s0 h h0 lower upper x0 hx hist hh s
    hs τ.value h1 h2 ht
  rw [← hX] at ha hb hgx
  have hw := hs.mwf
  have hst := hs.evaluable
  obtain ⟨-, hord⟩ := h.mwf (by omega)
  have hord : s.order = order := hs.order.trans hord
  subst hord
  obtain ⟨-, i', hi', rfl⟩ := evaluatorAt_inv hw he
  obtain rfl := hi.unique hw hi'
  have hfi : first = i + 1 - s.order := keys_inj hw hf hfirst.symm
  subst hfi
  obtain ⟨J0, D0, k1, k2, k3, k4⟩ := jacobian_core_timed lg S L hS hw hst hi ht hg.unit hg.log 0 (Or.inl rfl)
  obtain ⟨Jd, Dd, l1, l2, l3, l4⟩ := jacobian_core_timed lg S L hS hw hst hi ht hg.unit hg.log d (Or.inr ⟨ho, by omega⟩)
  obtain ⟨v0, -, v2, -⟩ := k4 0 (fun _ => τ.value) 0 rfl (hasDerivAt_const _ _)
  obtain ⟨w0, -, w2, -⟩ := l4 0 (fun _ => τ.value) 0 rfl (hasDerivAt_const _ _)
  have hJ : s.evalAngularJacobian lg S L τ.value d = .ok (List.zipWith (angularBlock (v0 0) (w0 0)) J0 Jd) := by
    unfold evalAngularJacobian
    rw [Nat.cast_zero] at v2 k1
    rw [w2, Outcome.bind_ok, v2, Outcome.bind_ok, l1, Outcome.bind_ok, k1, Outcome.bind_ok]
  have hJl : (List.zipWith (angularBlock (v0 0) (w0 0)) J0 Jd).length = s.order := by simp [k2, l2]
  have hD := evalAngular_succ hd v2 k3 w2 l3
  obtain ⟨J', vars, c1, c2, c3, c4, c5⟩ := timed_node hw hst hi τ X x' hgx ha hb hai hib
    (fun c => (s.evalAngularJacobian lg S L c d).map fun J => J.map fun A => List.ofFn fun k => fun r => A r k) none
    (fun c => s.evalAngularDerivative lg c (d + 1)) (chain : V3 →ₗ[ℝ] R) ((List.zipWith (angularBlock (v0 0) (w0 0)) J0 Jd).map fun A =>
      List.ofFn fun k => fun r => A r k) (by rw [hJ]; rfl) (by rw [List.length_map]; exact hJl) _ hD
  have i1 := hi.lower
  refine ⟨J', vars, c1, c2, fun v hv => ?_, fun v => ?_, fun δ T hT0 hT => ?_⟩
  · rw [c4, if_neg (by simp)] at hv
    rw [c3]
    rcases hv with ⟨j, m1, m2, m3⟩ | hr
    · exact Or.inl ⟨j, by omega, by omega, m3⟩
    · exact Or.inr hr
  · rw [c4, if_neg (by simp)]
    refine or_congr ⟨fun ⟨j, m1, m2, m3⟩ => ⟨j, m1, by omega, m3⟩, fun ⟨j, m1, m2, m3⟩ => ⟨j, m1, by omega, m3⟩⟩ Iff.rfl
  · obtain ⟨g0, p1, p2, p3⟩ := k4 (fun m => fun c : Fin 3 => δ (.seg (s.kn m)) c) T _ hT0 hT
    obtain ⟨gd, q1, q2, q3⟩ := l4 (fun m => fun c : Fin 3 => δ (.seg (s.kn m)) c) T _ hT0 hT
    have e0 : g0 0 = v0 0 := by rw [v2, Outcome.ok.injEq] at p2; exact p2.symm
    have ed : gd 0 = w0 0 := by rw [w2, Outcome.ok.injEq] at q2; exact q2.symm
    refine ⟨fun x => angL (star (g0 x) * gd x), ?_, ?_, ?_⟩
    · filter_upwards [p1, q1] with x hp hq
      exact evalAngular_of hd hp hq
    · unfold nodeValue FactoryData.evaluatorTime
      simp only [hgx]
      exact evalAngular_of hd p2 q2
    · refine (chain.hasFDerivAt.comp_hasDerivAt 0 (hasDerivAt_angL ((hasDerivAt_star p3).fun_mul q3))).congr_deriv ?_
      rw [c5, blocks_angular (fun j => δ (.seg (s.kn (i + 1 - s.order + j)))) s.order _ hJl]
      show chain _ = chain _ + τ.change δ • chain _
      rw [← map_smul, ← map_add]
      congr 1
      rw [e0, ed, star_add, star_sum, Quaternion.star_smul, add_mul, mul_add, sum_mul, mul_sum]
      have hsum : ∑ j ∈ range s.order, ((List.zipWith (angularBlock (v0 0) (w0 0)) J0 Jd).getD j 0).mulVec
          (fun c : Fin 3 => δ (.seg (s.kn (i + 1 - s.order + j))) c) = angL (∑ j ∈ range s.order,
          (star (DMat.app (J0.getD j 0) fun c : Fin 3 => δ (.seg (s.kn (i + 1 - s.order + j))) c) * w0 0 +
            star (v0 0) * DMat.app (Jd.getD j 0) fun c : Fin 3 => δ (.seg (s.kn (i + 1 - s.order + j))) c)) := by
        rw [map_sum]
        refine sum_congr rfl fun j hj => ?_
        rw [mem_range] at hj
        rw [← angularBlock_app]
        simp only [List.getD_eq_getElem?_getD]
        rw [List.getElem?_zipWith, List.getElem?_eq_getElem (by omega : j < J0.length), List.getElem?_eq_getElem (by omega : j < Jd.length)]
        rfl
      rw [hsum, sum_add_distrib, ← map_smul, ← map_add]
      congr 1
      rw [smul_add, smul_mul_assoc, mul_smul_comm]
      abel

/-- C63 is violated: an angular velocity or angular acceleration node at a variable time announces design variables for which it gives no
block: whenever the lower bound is in an earlier segment than the current time, the first of its segments. -/
theorem C63_angular_variable_without_block (lg : ℍ[ℝ] → V3) (S L : V3 → M33) (hS : ExpDiff S) (order : ℕ) (ho : 2 ≤ order)
    (s : MSpline ℝ ℍ[ℝ]) (h : RegularReach (quatGroup lg).toMfd order s) (h0 : s.state = .evaluable) (lower upper : ℝ) (X : TimeExpr ℝ)
    (hx : TimeExpr.create s lower upper = .ok X) (τ : TimeNode ℝ) (h1 : lower ≤ τ.value) (h2 : τ.value ≤ upper) (ht : τ.value ∉ s.keys)
    (el e : Evaluator ℝ) (hel : s.evaluatorAt lower = .ok el) (he : s.evaluatorAt τ.value = .ok e) (k first : ℕ) (hk : k < s.keys.length)
    (hkl : el.firstIt = s.keys[k]?) (hf : first < s.keys.length) (hfirst : e.firstIt = s.keys[first]?) (hkf : k < first)
    (hg : GoodWindow lg L s first) (d : ℕ) (hd : d = 1 ∨ d = 2) (chain : V3 →L[ℝ] R) :
    ∃ J vars, (angularJacobians lg S L s τ (.timed X) d chain).1 = .ok J ∧ (FactoryData.timed X).designVariables s τ = .ok vars ∧
      .seg (s.kn k) ∈ vars ∧ .seg (s.kn k) ∉ J.map Prod.fst := by
  obtain ⟨hw, rfl⟩ := h.mwf (by omega)
  have hs : SameKnots s s := ⟨hw, h0, rfl, rfl⟩
  obtain ⟨J, vars, c1, c2, -, c4, -⟩ := C63_angular_timed_partial lg S L hS s.order ho s h h0 lower upper X hx [] (by simp) X rfl s hs τ h1 h2 ht
    e he first hf hfirst hg d hd chain
  refine ⟨J, vars, c1, c2, ?_, ?_⟩
  · obtain ⟨i, a, b, hi, ha, hb, hai, hib, e1, -, -⟩ := timed_setup (quatGroup lg).toMfd s.order (by omega) s h h0 lower upper X hx [] (by simp) s hs
      τ.value h1 h2 ht
    have hX : TimeExpr.history (quatGroup lg).toMfd [] X = X := rfl
    rw [hX] at ha hb e1
    obtain ⟨-, a', ha', rfl⟩ := evaluatorAt_inv hw hel
    rw [e1] at ha
    obtain rfl := ha.unique hw ha'
    have hka : k = a + 1 - s.order := keys_inj hw hk hkl.symm
    have hsp := spanKeys_eq hw h0 (by rw [e1]; exact ha) hb (hai.trans hib)
    have hv : (FactoryData.timed X).designVariables s τ =
        .ok (((s.keys.drop (a + 1 - s.order)).take (b + 1 - (a + 1 - s.order))).map ExprVar.seg ++ τ.rows.map fun r => ExprVar.time r.1) := by
      unfold FactoryData.designVariables
      simp only []
      rw [hsp]
      rfl
    rw [hv, Outcome.ok.injEq] at c2
    rw [← c2, List.mem_append]
    left
    refine List.mem_map.2 ⟨s.kn k, mem_slice.2 ⟨k, by omega, ?_, kn_getElem s hk⟩, rfl⟩
    have := ha.lower
    omega
  · rw [c4]
    rintro (⟨j, m1, m2, m3⟩ | ⟨r, -, m⟩)
    · simp only [ExprVar.seg.injEq] at m3
      have hj : j < s.keys.length := by
        obtain ⟨-, i, hi, rfl⟩ := evaluatorAt_inv hw he
        have : first = i + 1 - s.order := keys_inj hw hf hfirst.symm
        have := hi.upper
        have := hi.lower
        omega
      have : s.keys[k]? = s.keys[j]? := by rw [kn_getElem s hk, kn_getElem s hj, m3]
      have := keys_inj hw hk this
      omega
    · cases m

end quaternion

section euclidean

variable {R : Type*} [NormedAddCommGroup R] [NormedSpace ℝ R] {D : ℕ}

/-- The spline after the update of each control vertex by `x` times its part of `δ`. -/
noncomputable def vectorUpdated (s : MSpline ℝ (Fin D → ℝ)) (δ : ExprVar ℝ → ℕ → ℝ) (x : ℝ) : MSpline ℝ (Fin D → ℝ) :=
  s.moved fun m p => (euclidean ℝ (Fin D → ℝ)).exp p (x • fun c : Fin D => δ (.seg (s.kn m)) c)

theorem eucl_moved {s : MSpline ℝ (Fin D → ℝ)} (h : s.MWF) (he : s.state = .evaluable) {t : ℝ} {i : ℕ} (hi : s.InSeg t i) (m : Option ℕ) (d : ℕ)
    (hm : ∀ n, m = some n → d ≤ n) (δ : ExprVar ℝ → ℕ → ℝ) (x : ℝ) :
    (vectorUpdated s δ x).euclideanEvalD m t d = .ok (∑ c ∈ range s.order,
      (Polynomial.derivative^[d] (piece s.kn i (s.order - 1) (i + 1 - s.order + c))).eval t •
        (s.vert (i + 1 - s.order + c) + x • fun k : Fin D => δ (.seg (s.kn (i + 1 - s.order + c))) k)) := by
  have h1 := hi.lower
  have h2 := hi.upper
  have hw' : (vectorUpdated s δ x).MWF := moved_mwf h _
  have hi' : (vectorUpdated s δ x).InSeg t i := moved_inSeg hi _
  have e1 : (vectorUpdated s δ x).order = s.order := rfl
  have e2 : (vectorUpdated s δ x).kn = s.kn := moved_kn s _
  rw [euclideanEvalD_eq hw' he hi' m d hm, ← segSum_local hw' hi'.lower hi'.upper d t, e1, e2]
  refine congrArg Outcome.ok (sum_congr rfl fun c hc => ?_)
  rw [mem_range] at hc
  congr 1
  unfold vert vectorUpdated
  have hlt : i + 1 - s.order + c < s.verts.length := by rw [keys_length] at h2; simp [verts]; omega
  rw [List.getD_eq_getElem?_getD, moved_verts, List.getElem?_eq_getElem hlt, Option.map_some, Option.getD_some,
    List.getD_eq_getElem?_getD, List.getElem?_eq_getElem hlt, Option.getD_some]
  rfl

theorem euclideanEvalJacobian_eq {s : MSpline ℝ (Fin D → ℝ)} (h : s.MWF) (he : s.state = .evaluable) {t : ℝ} {i : ℕ} (hi : s.InSeg t i)
    (m : Option ℕ) (d : ℕ) (hm : ∀ n, m = some n → d ≤ n) :
    s.euclideanEvalJacobian m t d = .ok ((List.range s.order).map fun c =>
      (Polynomial.derivative^[d] (piece s.kn i (s.order - 1) (i + 1 - s.order + c))).eval t) := by
  obtain ⟨w, hw, hwc⟩ := localBi_eq h he hi d
  unfold euclideanEvalJacobian
  rw [evaluatorAt_eq h he hi, Outcome.bind_ok, if_neg (by omega), if_neg, Int.toNat_natCast, hw, Outcome.map_ok]
  · refine congrArg Outcome.ok (List.map_congr_left fun c hc => ?_)
    exact hwc c (List.mem_range.1 hc)
  · rcases m with _ | m
    · simp
    · have := hm m rfl
      change ¬ (decide ((m : ℤ) < (d : ℤ)) = true)
      rw [decide_eq_true_eq]
      omega

theorem blocks_eucl (u : ℕ → ℕ → ℝ) (n : ℕ) (w : ℕ → ℝ) :
    ∑ j ∈ range n, applyCols ((((List.range n).map w).map fun w => List.ofFn fun k : Fin D => fun r : Fin D => if r = k then w else 0).getD j [])
      (u j) = ∑ j ∈ range n, w j • (fun c : Fin D => u j c) := by
  refine sum_congr rfl fun j hj => ?_
  rw [mem_range] at hj
  rw [List.getD_eq_getElem?_getD, List.getElem?_map, List.getElem?_map, List.getElem?_range hj, Option.map_some, Option.map_some,
    Option.getD_some, applyCols_ofFn]
  funext r
  simp [Finset.sum_apply, mul_comm]

theorem eucl_deriv (s : MSpline ℝ (Fin D → ℝ)) (β : ℕ → Polynomial ℝ) (v u : ℕ → Fin D → ℝ) (d n : ℕ) (T : ℝ → ℝ) (T' : ℝ)
    (hT : HasDerivAt T T' 0) :
    HasDerivAt (fun x => ∑ c ∈ range n, (Polynomial.derivative^[d] (β c)).eval (T x) • (v c + x • u c))
      (∑ c ∈ range n, (Polynomial.derivative^[d] (β c)).eval (T 0) • u c +
        T' • ∑ c ∈ range n, (Polynomial.derivative^[d + 1] (β c)).eval (T 0) • v c) 0 := by
  have : HasDerivAt (fun x => ∑ c ∈ range n, (Polynomial.derivative^[d] (β c)).eval (T x) • (v c + x • u c))
      (∑ c ∈ range n, ((Polynomial.derivative^[d] (β c)).eval (T 0) • ((1 : ℝ) • u c) +
        ((Polynomial.derivative^[d + 1] (β c)).eval (T 0) * T') • (v c + (0 : ℝ) • u c))) 0 := by
    refine HasDerivAt.fun_sum fun c _ => ?_
    have h1 : HasDerivAt (fun x => (Polynomial.derivative^[d] (β c)).eval (T x)) ((Polynomial.derivative^[d + 1] (β c)).eval (T 0) * T') 0 := by
      rw [Function.iterate_succ_apply']
      exact ((Polynomial.derivative^[d] (β c)).hasDerivAt (T 0)).comp 0 hT
    have h2 : HasDerivAt (fun x : ℝ => v c + x • u c) ((1 : ℝ) • u c) 0 := ((hasDerivAt_id (0 : ℝ)).smul_const (u c)).const_add (v c)
    exact h1.fun_smul h2
  refine this.congr_deriv ?_
  rw [sum_add_distrib, smul_sum]
  congr 1
  · refine sum_congr rfl fun c _ => by rw [one_smul]
  · refine sum_congr rfl fun c _ => by rw [zero_smul, add_zero, mul_comm, mul_smul]

/-- The value (or derivative) node of a consistent Euclidean spline at a constant time. -/
theorem euclidean_const_node {s : MSpline ℝ (Fin D → ℝ)} (hw : s.MWF) (h0 : s.state = .evaluable) {t : ℝ} {i : ℕ} (hi : s.InSeg t i)
    (m : Option ℕ) (d : ℕ) (hd : ∀ n, m = some n → d ≤ n) (τ : TimeNode ℝ) (chain : (Fin D → ℝ) →L[ℝ] R) :
    ∃ J vars, (euclideanValueJacobians s m τ (.constTime t) d chain).1 = .ok J ∧
      (FactoryData.constTime t).designVariables s τ = .ok vars ∧
      vars = (List.range s.order).map (fun j => .seg (s.kn (i + 1 - s.order + j))) ∧ vars.Nodup ∧ J.map Prod.fst = vars ∧
      ∀ δ : ExprVar ℝ → ℕ → ℝ, ∃ f : ℝ → Fin D → ℝ,
        (∀ x, (nodeValue (vectorUpdated s δ x) τ (.constTime t) fun c => (vectorUpdated s δ x).euclideanEvalD m c d).1 = .ok (f x)) ∧
        s.euclideanEvalD m t d = .ok (f 0) ∧ HasDerivAt (fun x => chain (f x)) (totalChange J δ) 0 := by
  have hJ := euclideanEvalJacobian_eq hw h0 hi m d hd
  obtain ⟨J', vars, c1, c2, c3, c4, c5, c6⟩ := const_node hw h0 hi τ
    (fun c => (s.euclideanEvalJacobian m c d).map fun J => J.map fun w => List.ofFn fun k : Fin D => fun r : Fin D => if r = k then w else 0)
    (some D) (fun c => s.euclideanEvalD m c ((d : ℤ) + 1)) (chain : (Fin D → ℝ) →ₗ[ℝ] R) _ (by rw [hJ]; rfl) (by simp)
  refine ⟨J', vars, c1, c2, c3, c4, c5, fun δ => ⟨_, eucl_moved hw h0 hi m d hd δ, ?_, ?_⟩⟩
  · rw [euclideanEvalD_eq hw h0 hi m d hd, ← segSum_local hw hi.lower hi.upper d t]
    refine congrArg Outcome.ok (sum_congr rfl fun c _ => by rw [zero_smul, add_zero])
  · have := eucl_deriv s (fun c => piece s.kn i (s.order - 1) (i + 1 - s.order + c)) (fun c => s.vert (i + 1 - s.order + c))
      (fun c => fun k : Fin D => δ (.seg (s.kn (i + 1 - s.order + c))) k) d s.order (fun _ => t) 0 (hasDerivAt_const _ _)
    refine (chain.hasFDerivAt.comp_hasDerivAt 0 this).congr_deriv ?_
    rw [c6, blocks_eucl (fun j => δ (.seg (s.kn (i + 1 - s.order + j)))) s.order, zero_smul, add_zero]
    rfl

/-- C63: the value (or derivative) node of a Euclidean spline at a constant time. -/
theorem C63_euclidean_const (order : ℕ) (ho : 1 ≤ order) (s : MSpline ℝ (Fin D → ℝ)) (h : RegularReach (euclidean ℝ (Fin D → ℝ)) order s)
    (h0 : s.state = .evaluable) (tmin tmax : ℝ) (hmin : s.getMinTime = .ok tmin) (hmax : s.getMaxTime = .ok tmax) (t : ℝ) (h1 : tmin ≤ t)
    (h2 : t ≤ tmax) (m : Option ℕ) (d : ℕ) (hd : ∀ n, m = some n → d ≤ n) (τ : TimeNode ℝ) (chain : (Fin D → ℝ) →L[ℝ] R) :
    ∃ J vars, (euclideanValueJacobians s m τ (.constTime t) d chain).1 = .ok J ∧
      (FactoryData.constTime t).designVariables s τ = .ok vars ∧ vars.length = order ∧ vars.Nodup ∧ J.map Prod.fst = vars ∧
      ∀ δ : ExprVar ℝ → ℕ → ℝ, ∃ f : ℝ → Fin D → ℝ,
        (∀ x, (nodeValue (vectorUpdated s δ x) τ (.constTime t) fun c => (vectorUpdated s δ x).euclideanEvalD m c d).1 = .ok (f x)) ∧
        s.euclideanEvalD m t d = .ok (f 0) ∧ HasDerivAt (fun x => chain (f x)) (totalChange J δ) 0 := by
  obtain ⟨hw, rfl⟩ := h.mwf ho
  rw [getMinTime_eq hw h0, Outcome.ok.injEq] at hmin
  rw [getMaxTime_eq hw h0, Outcome.ok.injEq] at hmax
  subst hmin hmax
  obtain ⟨i, hi, -⟩ := getSegmentIterator_ok hw h0 t h1 h2
  obtain ⟨J, vars, c1, c2, c3, c4, c5, c6⟩ := euclidean_const_node hw h0 hi m d hd τ chain
  exact ⟨J, vars, c1, c2, by rw [c3]; simp, c4, c5, c6⟩

/-- C63: the value (or derivative) node of a Euclidean spline at a variable time, after any history of evaluations.  (What is missing:
times at knots, where already the value can be wrong, see `C44_violated`.) -/
theorem C63_euclidean_timed_partial (order : ℕ) (ho : 1 ≤ order) (s0 : MSpline ℝ (Fin D → ℝ))
    (h : RegularReach (euclidean ℝ (Fin D → ℝ)) order s0) (h0 : s0.state = .evaluable) (lower upper : ℝ) (x0 : TimeExpr ℝ)
    (hx : TimeExpr.create s0 lower upper = .ok x0) (hist : List (MSpline ℝ (Fin D → ℝ) × ℝ)) (hh : ∀ e ∈ hist, SameKnots s0 e.1)
    (X : TimeExpr ℝ) (hX : X = TimeExpr.history (euclidean ℝ (Fin D → ℝ)) hist x0) (s : MSpline ℝ (Fin D → ℝ)) (hs : SameKnots s0 s)
    (τ : TimeNode ℝ) (h1 : lower ≤ τ.value) (h2 : τ.value ≤ upper) (ht : τ.value ∉ s.keys) (m : Option ℕ) (d : ℕ)
    (hd : ∀ n, m = some n → d ≤ n) (chain : (Fin D → ℝ) →L[ℝ] R) :
    ∃ J vars, (euclideanValueJacobians s m τ (.timed X) d chain).1 = .ok J ∧
      (FactoryData.timed X).designVariables s τ = .ok vars ∧ (∀ v, v ∈ J.map Prod.fst ↔ v ∈ vars) ∧
      ∀ (δ : ExprVar ℝ → ℕ → ℝ) (T : ℝ → ℝ), T 0 = τ.value → HasDerivAt T (τ.change δ) 0 → ∃ f : ℝ → Fin D → ℝ,
        (∀ᶠ x in nhds 0, (vectorUpdated s δ x).euclideanEvalD ((FactoryData.timed X).maxDer m) (T x) d = .ok (f x)) ∧
        (nodeValue s τ (.timed X) fun c => s.euclideanEvalD ((FactoryData.timed X).maxDer m) c d).1 = .ok (f 0) ∧
        HasDerivAt (fun x => chain (f x)) (totalChange J δ) 0 := by
  obtain ⟨i, a, b, hi, ha, hb, hai, hib, -, -, x', hgx⟩ := timed_setup (euclidean ℝ (Fin D → ℝ)) order ho s0 h h0 lower upper x0 hx hist hh s hs
    τ.value h1 h2 ht
  rw [← hX] at ha hb hgx
  have hw := hs.mwf
  have hst := hs.evaluable
  have hm' : ∀ n, (FactoryData.timed X).maxDer m = some n → d + 1 ≤ n := by
    intro n hn
    unfold FactoryData.maxDer at hn
    simp only [Option.map_eq_some_iff] at hn
    obtain ⟨n', h3, h4⟩ := hn
    have := hd n' h3
    omega
  have hm : ∀ n, (FactoryData.timed X).maxDer m = some n → d ≤ n := fun n hn => by have := hm' n hn; omega
  have hJ := euclideanEvalJacobian_eq hw hst hi ((FactoryData.timed X).maxDer m) d hm
  have hD := euclideanEvalD_eq hw hst hi ((FactoryData.timed X).maxDer m) (d + 1) hm'
  obtain ⟨J', vars, c1, c2, -, c4, c5⟩ := timed_node hw hst hi τ X x' hgx ha hb hai hib
    (fun c => (s.euclideanEvalJacobian ((FactoryData.timed X).maxDer m) c d).map fun J =>
      J.map fun w => List.ofFn fun k : Fin D => fun r : Fin D => if r = k then w else 0)
    (some D) (fun c => s.euclideanEvalD ((FactoryData.timed X).maxDer m) c ((d : ℤ) + 1)) (chain : (Fin D → ℝ) →ₗ[ℝ] R) _
    (by rw [hJ]; rfl) (by simp) (s.segSum i (d + 1) τ.value) (by rw [← hD]; norm_cast)
  refine ⟨J', vars, c1, c2, c4, fun δ T hT0 hT => ?_⟩
  obtain ⟨k1, k2, k3⟩ := eventually_inSeg hw.order_pos hi ht
  refine ⟨fun x => ∑ c ∈ range s.order, (Polynomial.derivative^[d] (piece s.kn i (s.order - 1) (i + 1 - s.order + c))).eval (T x) •
        (s.vert (i + 1 - s.order + c) + x • fun k : Fin D => δ (.seg (s.kn (i + 1 - s.order + c))) k), ?_, ?_, ?_⟩
  · have hTc := hT.continuousAt
    have h1 : ∀ᶠ x in nhds 0, s.kn i < T x := hTc.eventually (by rw [hT0]; exact lt_mem_nhds k1)
    have h2 : ∀ᶠ x in nhds 0, T x < s.kn (i + 1) := hTc.eventually (by rw [hT0]; exact gt_mem_nhds k2)
    filter_upwards [h1, h2] with x h1 h2
    exact eucl_moved hw hst (k3 _ h1 h2) _ d hm δ x
  · unfold nodeValue FactoryData.evaluatorTime
    simp only [hgx]
    rw [euclideanEvalD_eq hw hst hi _ d hm, ← segSum_local hw hi.lower hi.upper d τ.value]
    refine congrArg Outcome.ok (sum_congr rfl fun c _ => by rw [hT0, zero_smul, add_zero])
  · have := eucl_deriv s (fun c => piece s.kn i (s.order - 1) (i + 1 - s.order + c)) (fun c => s.vert (i + 1 - s.order + c))
      (fun c => fun k : Fin D => δ (.seg (s.kn (i + 1 - s.order + c))) k) d s.order T _ hT
    refine (chain.hasFDerivAt.comp_hasDerivAt 0 this).congr_deriv ?_
    rw [c5, blocks_eucl (fun j => δ (.seg (s.kn (i + 1 - s.order + j)))) s.order, hT0, segSum_local hw hi.lower hi.upper (d + 1) τ.value,
      map_add, map_smul]
    rfl

end euclidean

section examples

/-- The spline of order two through the rotations of the examples. -/
theorem demo_window : ∃ s : MSpline ℝ ℍ[ℝ], RegularReach (quatGroup arcLog).toMfd 2 s ∧ s.MWF ∧ s.order = 2 ∧ s.state = .evaluable ∧
    s.keys = [0, 1, 2, 3, 4] ∧ s.verts.take 3 = demoQuats ∧ s.InSeg (3 / 2) 1 ∧ s.InSeg (5 / 2) 2 ∧
    GoodWindow arcLog (logDiffMat arcLog) s 0 ∧ GoodWindow arcLog (logDiffMat arcLog) s 1 ∧
    TimeExpr.create s (3 / 2) 3 = .ok ⟨3 / 2, 3, none⟩ := by
  obtain ⟨s, g1, g2, g3, g4, g5, g6, g7⟩ := quat_spline_exists arcLog 2 (by norm_num) [0, 1, 2, 3, 4] demoQuats (by
    simp [List.pairwise_cons]; norm_num) rfl (by decide) demoQuats_unit
  obtain ⟨hw, ho⟩ := g1.mwf (by norm_num)
  have hv : ∀ j, j < 3 → s.verts[j]? = demoQuats[j]? := by
    intro j hj
    have : (s.verts.take 3)[j]? = demoQuats[j]? := by rw [show (3 : ℕ) = demoQuats.length from rfl, g5]
    rw [List.getElem?_take_of_lt hj] at this
    exact this
  have hunit : ∀ j, j < 3 → ∀ q, s.verts[j]? = some q → ‖q‖ = 1 := by
    intro j hj q hq
    rw [hv j hj] at hq
    exact demoQuats_unit q (List.mem_of_getElem? hq)
  have hL : ∀ j, j + 1 < 3 → ∀ a b, s.verts[j]? = some a → s.verts[j + 1]? = some b →
      LogDiffAt arcLog (logDiffMat arcLog) (qplus (quatInv a) b) := by
    intro j hj a b ha hb
    have na := hunit j (by omega) a ha
    have nb := hunit (j + 1) hj b hb
    have hn : ‖qplus (quatInv a) b‖ = 1 := by rw [qplus_eq, quatInv_eq, norm_mul, norm_star, na, nb, _root_.mul_one]
    have hre : -1 < (qplus (quatInv a) b).re ∧ (qplus (quatInv a) b).re < 1 := by
      rw [hv j (by omega)] at ha
      rw [hv (j + 1) hj] at hb
      rw [qplus_eq, quatInv_eq]
      obtain rfl | rfl : j = 0 ∨ j = 1 := by omega
      · obtain rfl : (1 : ℍ[ℝ]) = a := by simpa [demoQuats] using ha
        obtain rfl : quatI = b := by simpa [demoQuats] using hb
        rw [Quaternion.re_mul]
        norm_num [quatI]
      · obtain rfl : quatI = a := by simpa [demoQuats] using ha
        obtain rfl : quatIJ = b := by simpa [demoQuats] using hb
        rw [Quaternion.re_mul]
        simp only [Quaternion.re_star, Quaternion.imI_star, Quaternion.imJ_star, Quaternion.imK_star]
        norm_num [quatI, quatIJ]
    exact logDiffAt_logDiffMat arcLog _ (arcLog_differentiable hre.1 hre.2) (exp_arcLog hn hre.1 hre.2)
  refine ⟨s, g1, hw, ho, g2, g3, g5, ?_, ?_, ⟨fun j hj => ?_, fun j hj => ?_⟩, ⟨fun j hj => ?_, fun j hj => ?_⟩, ?_⟩
  · refine ⟨by omega, by rw [g3, ho]; decide, ?_, Or.inl ?_⟩ <;> (unfold kn; rw [g3]; norm_num)
  · refine ⟨by omega, by rw [g3, ho]; decide, ?_, Or.inl ?_⟩ <;> (unfold kn; rw [g3]; norm_num)
  · rw [Nat.zero_add]
    exact hunit j (by omega)
  · rw [Nat.zero_add, Nat.zero_add]
    exact hL j (by omega)
  · exact hunit _ (by omega)
  · have := hL (1 + j) (by omega)
    rwa [Nat.add_assoc] at this
  · unfold TimeExpr.create
    rw [g6, g7]
    simp [demoQuats]
    norm_num

/-- The theorems on nodes of unit quaternion splines apply: with the true derivatives of the exponential and the logarithm, a time expression
with two design variables, and a chain rule that projects; and an angular velocity node does announce a variable it gives no block for. -/
example : ∃ s : MSpline ℝ ℍ[ℝ], s.verts.take 3 = demoQuats ∧
    (∀ d : ℕ, d ≤ 2 → ∃ J, (quatValueJacobians arcLog expDiffMat (logDiffMat arcLog) s ⟨5 / 2, [(4, [1, 2]), (7, [3])]⟩ (.constTime (5 / 2)) d
      (ContinuousLinearMap.id ℝ ℍ[ℝ])).1 = .ok J ∧ J.map Prod.fst = [.seg 1, .seg 2]) ∧
    (∀ d : ℕ, d ≤ 2 → ∃ J, (quatValueJacobians arcLog expDiffMat (logDiffMat arcLog) s ⟨5 / 2, [(4, [1, 2]), (7, [3])]⟩
      (.timed ⟨3 / 2, 3, none⟩) d (ContinuousLinearMap.id ℝ ℍ[ℝ])).1 = .ok J ∧ .time 7 ∈ J.map Prod.fst) ∧
    (∀ d : ℕ, d = 1 ∨ d = 2 → ∃ J, (angularJacobians arcLog expDiffMat (logDiffMat arcLog) s ⟨5 / 2, []⟩ (.constTime (5 / 2)) d
      (ContinuousLinearMap.proj (R := ℝ) (φ := fun _ : Fin 3 => ℝ) 1)).1 = .ok J ∧ J.map Prod.fst = [.seg 1, .seg 2]) ∧
    ∀ d : ℕ, d = 1 ∨ d = 2 → ∃ J vars, (angularJacobians arcLog expDiffMat (logDiffMat arcLog) s ⟨5 / 2, [(4, [1, 2]), (7, [3])]⟩
      (.timed ⟨3 / 2, 3, none⟩) d (ContinuousLinearMap.proj (R := ℝ) (φ := fun _ : Fin 3 => ℝ) 1)).1 = .ok J ∧
      (FactoryData.timed ⟨3 / 2, 3, none⟩).designVariables s ⟨5 / 2, [(4, [1, 2]), (7, [3])]⟩ = .ok vars ∧ .seg 0 ∈ vars ∧
      .seg 0 ∉ J.map Prod.fst := by
  obtain ⟨s, g, hw, ho, hst, hk, hv, i1, i2, w0, w1, hx⟩ := demo_window
  have he1 := evaluatorAt_eq hw hst i1
  have he2 := evaluatorAt_eq hw hst i2
  have f1 : (s.evaluatorOf (3 / 2) 1).firstIt = s.keys[0]? := by
    show s.keys[1 + 1 - s.order]? = _
    rw [ho]
  have f2 : (s.evaluatorOf (5 / 2) 2).firstIt = s.keys[1]? := by
    show s.keys[2 + 1 - s.order]? = _
    rw [ho]
  have hn : (5 / 2 : ℝ) ∉ s.keys := by rw [hk]; norm_num
  have hl0 : 0 < s.keys.length := by rw [hk]; decide
  have hl1 : 1 < s.keys.length := by rw [hk]; decide
  have hvars : (List.range 2).map (fun j => ExprVar.seg (s.kn (1 + j))) = [.seg 1, .seg 2] := by
    unfold kn
    rw [hk]
    rfl
  have hsame : SameKnots s s := ⟨hw, hst, rfl, rfl⟩
  have k0 : s.kn 0 = 0 := by unfold kn; rw [hk]; rfl
  refine ⟨s, hv, fun d hd => ?_, fun d hd => ?_, fun d hd => ?_, fun d hd => ?_⟩
  · obtain ⟨J, vars, e1, -, e2, -, e3, -⟩ := C63_value_const_partial arcLog expDiffMat (logDiffMat arcLog) expDiff_expDiffMat 2 (by norm_num) s g
      (5 / 2) _ he2 1 hl1 f2 w1 d (Or.inr ⟨le_rfl, hd⟩) ⟨5 / 2, [(4, [1, 2]), (7, [3])]⟩ (ContinuousLinearMap.id ℝ ℍ[ℝ])
    exact ⟨J, e1, by rw [e3, e2, hvars]⟩
  · obtain ⟨J, vars, e1, e2, e3, -⟩ := C63_value_timed_partial arcLog expDiffMat (logDiffMat arcLog) expDiff_expDiffMat 2 (by norm_num) s g hst
      (3 / 2) 3 _ hx [] (by simp) _ rfl s hsame ⟨5 / 2, [(4, [1, 2]), (7, [3])]⟩ (by norm_num) (by norm_num) hn _ he2 1 hl1 f2 w1 d
      (Or.inr ⟨le_rfl, hd⟩) (ContinuousLinearMap.id ℝ ℍ[ℝ])
    refine ⟨J, e1, (e3 _).2 ?_⟩
    unfold FactoryData.designVariables at e2
    simp only [Outcome.map] at e2
    split at e2
    · rw [Outcome.ok.injEq] at e2
      subst e2
      simp
    all_goals cases e2
  · obtain ⟨J, vars, e1, -, e2, -, e3, -⟩ := C63_angular_const_partial arcLog expDiffMat (logDiffMat arcLog) expDiff_expDiffMat 2 le_rfl s g
      (5 / 2) _ he2 1 hl1 f2 w1 d hd ⟨5 / 2, []⟩ (ContinuousLinearMap.proj (R := ℝ) (φ := fun _ : Fin 3 => ℝ) 1)
    exact ⟨J, e1, by rw [e3, e2, hvars]⟩
  · have := C63_angular_variable_without_block arcLog expDiffMat (logDiffMat arcLog) expDiff_expDiffMat 2 le_rfl s g hst
      (3 / 2) 3 _ hx ⟨5 / 2, [(4, [1, 2]), (7, [3])]⟩ (by norm_num) (by norm_num) hn _ _ he1 he2 0 1 hl0 f1 hl1 f2 (by norm_num) w1 d hd
      (ContinuousLinearMap.proj (R := ℝ) (φ := fun _ : Fin 3 => ℝ) 1)
    rwa [k0] at this

/-- The theorems on nodes of Euclidean splines apply: a spline of order three in the plane, its second derivative, and a history that has
visited another segment. -/
example : ∃ s : MSpline ℝ (Fin 2 → ℝ), s.verts.take 4 = [![0, 1], ![2, 0], ![3, 5], ![1, 1]] ∧
    (∃ J, (euclideanValueJacobians s (some 2) ⟨5 / 2, []⟩ (.constTime (5 / 2)) 2 (ContinuousLinearMap.id ℝ (Fin 2 → ℝ))).1 = .ok J ∧
      J.length = 3) ∧
    ∃ J, (euclideanValueJacobians s (some 2) ⟨5 / 2, [(4, [1, 2])]⟩
      (.timed (TimeExpr.history (euclidean ℝ (Fin 2 → ℝ)) [(s, 7 / 2)] ⟨2, 4, none⟩)) 2 (ContinuousLinearMap.id ℝ (Fin 2 → ℝ))).1 = .ok J := by
  obtain ⟨s, -, g1, g2, g3, g4, g5, g6, g7⟩ := C55_init_with_vertices (euclidean ℝ (Fin 2 → ℝ)) 3 (by norm_num) [0, 1, 2, 3, 4, 5, 6]
    [![0, 1], ![2, 0], ![3, 5], ![1, 1]] (by simp [List.pairwise_cons]; norm_num) rfl (by decide) (fun _ _ => rfl)
  obtain ⟨hw, ho⟩ := g1.mwf (by norm_num)
  refine ⟨s, g5, ?_, ?_⟩
  · obtain ⟨J, vars, e1, -, e2, -, e3, -⟩ := C63_euclidean_const 3 (by norm_num) s g1 g2 _ _ g6 g7 (5 / 2) (by norm_num) (by norm_num) (some 2) 2
      (by simp) ⟨5 / 2, []⟩ (ContinuousLinearMap.id ℝ (Fin 2 → ℝ))
    refine ⟨J, e1, ?_⟩
    rw [← e3, List.length_map] at e2
    exact e2
  · have hs : SameKnots s s := ⟨hw, g2, rfl, rfl⟩
    obtain ⟨J, vars, e1, -⟩ := C63_euclidean_timed_partial 3 (by norm_num) s g1 g2 2 4 ⟨2, 4, none⟩ (by
        unfold TimeExpr.create
        rw [g6, g7]
        norm_num) [(s, 7 / 2)] (by simpa using hs) _ rfl s hs ⟨5 / 2, [(4, [1, 2])]⟩ (by norm_num) (by norm_num) (by rw [g3]; norm_num)
      (some 2) 2 (by simp) (ContinuousLinearMap.id ℝ (Fin 2 → ℝ))
    exact ⟨J, e1⟩

end examples



end Verif
