import Verif.Spec.ExpressionCalculus
import Verif.Props.OptSpline
import Verif.Props.TimeExpr

/-!
# What the expression nodes of optimisable splines collect
-/

set_option linter.unusedSectionVars false

namespace Verif

open Finset MSpline OptWorld

section algebra

variable {K : Type*} [Field K] {Q R : Type*} [AddCommGroup Q] [Module K Q] [AddCommGroup R] [Module K R]

theorem applyCols_map (chain : Q →ₗ[K] R) (cols : List Q) (u : ℕ → K) : applyCols (cols.map chain) u = chain (applyCols cols u) := by
  unfold applyCols
  rw [map_sum, List.length_map]
  refine sum_congr rfl fun k hk => ?_
  rw [mem_range] at hk
  rw [map_smul]
  simp [List.getD_eq_getElem?_getD, hk]

theorem applyCols_replicate (n : ℕ) (u : ℕ → K) : applyCols (List.replicate n (0 : R)) u = 0 := by
  unfold applyCols
  refine sum_eq_zero fun k hk => ?_
  simp [List.getD_eq_getElem?_getD, List.getElem?_replicate]
  split <;> simp

theorem applyCols_ofFn {n : ℕ} (M : Fin n → Q) (u : ℕ → K) : applyCols (List.ofFn M) u = ∑ k : Fin n, u k • M k := by
  unfold applyCols
  rw [List.length_ofFn, sum_range]
  refine sum_congr rfl fun k _ => ?_
  simp [List.getD_eq_getElem?_getD]

theorem applyCols_smul (l : List K) (v : R) (u : ℕ → K) : applyCols (l.map fun a => a • v) u = applyCols l u • v := by
  unfold applyCols
  rw [sum_smul, List.length_map]
  refine sum_congr rfl fun k hk => ?_
  rw [mem_range] at hk
  simp [List.getD_eq_getElem?_getD, hk, smul_smul]

theorem totalChange_append (a b : List (ExprVar K × List R)) (δ : ExprVar K → ℕ → K) :
    totalChange (a ++ b) δ = totalChange a δ + totalChange b δ := by
  simp [totalChange]

theorem totalChange_blocks (chain : Q →ₗ[K] R) (δ : ExprVar K → ℕ → K) : ∀ (ks : List K) (blocks : List (List Q)), ks.length = blocks.length →
    totalChange (List.zipWith (fun k b => (ExprVar.seg k, b.map chain)) ks blocks) δ =
      chain (∑ j ∈ range ks.length, applyCols (blocks.getD j []) (δ (.seg (ks.getD j 0))))
  | [], [], _ => by simp [totalChange]
  | [], b :: bs, h => by simp at h
  | k :: ks, [], h => by simp at h
  | k :: ks, b :: bs, h => by
    have ih := totalChange_blocks chain δ ks bs (by simpa using h)
    rw [List.length_cons, sum_range_succ']
    rw [List.zipWith_cons_cons]
    have : totalChange ((ExprVar.seg k, b.map chain) :: List.zipWith (fun k b => (ExprVar.seg k, b.map chain)) ks bs) δ =
        applyCols (b.map chain) (δ (.seg k)) + totalChange (List.zipWith (fun k b => (ExprVar.seg k, b.map chain)) ks bs) δ := by
      simp [totalChange]
    rw [this, ih, applyCols_map, map_add, add_comm]
    rfl

theorem totalChange_zeros (n : ℕ) (ks : List K) (δ : ExprVar K → ℕ → K) :
    totalChange (ks.map fun k => (ExprVar.seg k, List.replicate n (0 : R))) δ = 0 := by
  unfold totalChange
  rw [List.map_map]
  refine List.sum_eq_zero fun x hx => ?_
  obtain ⟨k, -, rfl⟩ := List.mem_map.1 hx
  exact applyCols_replicate n _

theorem totalChange_rows (τ : TimeNode K) (v : R) (δ : ExprVar K → ℕ → K) :
    totalChange (τ.rows.map fun r : ℕ × List K => (ExprVar.time r.1, r.2.map fun a => a • v)) δ = τ.change δ • v := by
  unfold totalChange TimeNode.change
  rw [List.map_map]
  induction τ.rows with
  | nil => simp
  | cons r rs ih =>
    simp only [List.map_cons, List.sum_cons, add_smul]
    rw [ih]
    congr 1
    exact applyCols_smul r.2 v _

end algebra

variable {K : Type*} [Field K] [LinearOrder K] [IsStrictOrderedRing K] {P : Type*}

theorem window_length {s : MSpline K P} {t : K} {i : ℕ} (hi : s.InSeg t i) : ((s.keys.drop (i + 1 - s.order)).take s.order).length = s.order := by
  have h1 := hi.lower
  have h2 := hi.upper
  rw [List.length_take, List.length_drop]
  omega

theorem window_getD {s : MSpline K P} {i j : ℕ} (hj : j < s.order) :
    ((s.keys.drop (i + 1 - s.order)).take s.order).getD j 0 = s.kn (i + 1 - s.order + j) := by
  unfold kn
  simp [List.getD_eq_getElem?_getD, hj]

theorem windowKeys_eq {s : MSpline K P} (h : s.MWF) {t : K} {i : ℕ} (hi : s.InSeg t i) :
    windowKeys s (s.evaluatorOf t i) = .ok ((s.keys.drop (i + 1 - s.order)).take s.order) := by
  have h1 := hi.lower
  have h2 := hi.upper
  have h3 := h.order_pos
  unfold windowKeys evaluatorOf
  simp only []
  rw [itPos_at h.nodup (by omega)]
  have := walk_eq h.nodup s.order (i + 1 - s.order) (by omega)
  rwa [show i + 1 - s.order + s.order = i + 1 by omega] at this

/-- The segments of a time expression with bounds in the knot intervals `a` and `b`. -/
theorem spanKeys_eq {s : MSpline K P} (h : s.MWF) (he : s.state = .evaluable) {x : TimeExpr K} {a b : ℕ} (ha : s.InSeg x.lower a)
    (hb : s.InSeg x.upper b) (hab : a ≤ b) :
    spanKeys s x = .ok ((s.keys.drop (a + 1 - s.order)).take (b + 1 - (a + 1 - s.order))) := by
  have h1 := ha.lower
  have h2 := ha.upper
  have h3 := hb.upper
  have ho := h.order_pos
  obtain ⟨hr1, hr2⟩ := ha.range h
  obtain ⟨hr3, hr4⟩ := hb.range h
  obtain ⟨a', ha', hita⟩ := getSegmentIterator_ok h he x.lower hr1 hr2
  obtain rfl := ha.unique h ha'
  obtain ⟨b', hb', hitb⟩ := getSegmentIterator_ok h he x.upper hr3 hr4
  obtain rfl := hb.unique h hb'
  unfold spanKeys
  rw [getMinTime_eq h he, Outcome.bind_ok, max_eq_right hr1, hita, Outcome.bind_ok]
  unfold firstRelevantByLast absBegin
  rw [show -((s.order : ℤ) - 1) = -((s.order - 1 : ℕ) : ℤ) by omega, moveIter_bwd h.nodup (Nat.zero_le _) (by omega), Outcome.bind_ok,
    getMaxTime_eq h he, Outcome.bind_ok, min_eq_right hr4, hitb, Outcome.bind_ok, h.iters_eq he]
  simp only []
  rw [if_pos, itInc_at h.nodup (by omega), Outcome.bind_ok, itPos_at h.nodup (by omega),
    show max (a - (s.order - 1)) 0 = a + 1 - s.order by omega]
  · have := walk_eq h.nodup (b + 1 - (a + 1 - s.order)) (a + 1 - s.order) (by omega)
    rwa [show a + 1 - s.order + (b + 1 - (a + 1 - s.order)) = b + 1 by omega] at this
  · rw [Ne, at_inj h.nodup (by omega) (by omega)]
    omega

theorem inSeg_mono {s : MSpline K P} (h : s.MWF) {t t' : K} {i j : ℕ} (hi : s.InSeg t i) (hj : s.InSeg t' j) (ht : t ≤ t') : i ≤ j := by
  by_contra hc
  have h1 : s.kn (j + 1) ≤ s.kn i := h.mono _ _ (by omega) (by have := hi.upper; omega)
  rcases hj.right with h2 | ⟨-, h3⟩
  · exact absurd (ht.trans_lt h2) (not_lt.2 (h1.trans hi.left))
  · have := hi.upper; omega

variable {Q R : Type*} [AddCommGroup Q] [Module K Q] [AddCommGroup R] [Module K R]

/-- A node at a constant time. -/
theorem nodeJacobians_const {s : MSpline K P} (h : s.MWF) (he : s.state = .evaluable) {t : K} {i : ℕ} (hi : s.InSeg t i) (τ : TimeNode K)
    (jac : K → Outcome (List (List Q))) (zeros : Option ℕ) (timeCol : K → Outcome Q) (chain : Q → R) (J : List (List Q))
    (hJ : jac t = .ok J) (hl : J.length = s.order) :
    nodeJacobians s τ (.constTime t) jac zeros timeCol chain =
      (.ok (List.zipWith (fun k b => (ExprVar.seg k, b.map chain)) ((s.keys.drop (i + 1 - s.order)).take s.order) J), .constTime t) := by
  unfold nodeJacobians FactoryData.evaluatorTime
  simp only []
  rw [evaluatorAt_eq h he hi, Outcome.bind_ok, hJ, Outcome.bind_ok, windowKeys_eq h hi, Outcome.bind_ok]
  unfold addBlocks
  rw [if_neg (by rw [window_length hi, hl]; omega), Outcome.bind_ok]

/-- A node at a variable time. -/
theorem nodeJacobians_timed {s : MSpline K P} (h : s.MWF) (he : s.state = .evaluable) {t : K} {i : ℕ} (hi : s.InSeg t i) (τ : TimeNode K)
    (x x' : TimeExpr K) (hx : x.getEvaluator s τ.value = (.ok t, x'))
    (jac : K → Outcome (List (List Q))) (zeros : Option ℕ) (timeCol : K → Outcome Q) (chain : Q → R) (J : List (List Q))
    (hJ : jac t = .ok J) (hl : J.length = s.order) (D : Q) (hD : timeCol t = .ok D) (zs : List (ExprVar K × List R))
    (hz : zeroBlocks s x zeros = .ok zs) :
    nodeJacobians s τ (.timed x) jac zeros timeCol chain =
      (.ok (List.zipWith (fun k b => (ExprVar.seg k, b.map chain)) ((s.keys.drop (i + 1 - s.order)).take s.order) J ++ zs ++
        τ.rows.map fun r : ℕ × List K => (ExprVar.time r.1, r.2.map fun a => a • chain D)), .timed x') := by
  unfold nodeJacobians FactoryData.evaluatorTime
  simp only [hx]
  rw [evaluatorAt_eq h he hi, Outcome.bind_ok, hJ, Outcome.bind_ok, windowKeys_eq h hi, Outcome.bind_ok]
  unfold addBlocks
  rw [if_neg (by rw [window_length hi, hl]; omega), Outcome.bind_ok, hz, Outcome.bind_ok, hD, Outcome.bind_ok]

end Verif
