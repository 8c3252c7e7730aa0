import Verif.Props.PoseExpressions
import Verif.Props.Smooth

/-!
# Expressions with a moving time (C45, C49)
-/

set_option linter.unusedSectionVars false

namespace Verif

open Matrix Finset BSpline Filter Topology

namespace Pose

/-! ## The time derivative of the transformation -/

theorem transformation_time (s : Pose ℝ) (h : s.spline.WF) (hw : s.spline.WideLast) (hd : Differential s.rotation) (t : ℝ)
    (ht : s.spline.Regular 0 t) :
    ∃ c c', s.spline.evalD t 0 = .ok c ∧ s.spline.evalD t 1 = .ok c' ∧
      s.transformation t = .ok (curveValueToTransformation s.rotation c) ∧
      ∀ i j, HasDerivAt (fun x => (s.transformation x).getD 0 i j)
        ((boxPlus ((curveValueJacobian s.rotation c).mulVec c') * curveValueToTransformation s.rotation c) i j) t := by
  obtain ⟨hnear, c', hc', hder⟩ := C04_regular s.spline h hw 0 t ht
  obtain ⟨c, hc⟩ := hnear.self_of_nhds
  have hc0 : s.spline.evalD t 0 = .ok c := hc
  have hc1 : s.spline.evalD t 1 = .ok c' := hc'
  have hder : HasDerivAt (fun x => (s.spline.evalD x 0).getD 0) c' t := hder
  refine ⟨c, c', hc0, hc1, ?_, fun i j => ?_⟩
  · have : s.spline.eval t = .ok c := hc0
    unfold transformation
    rw [this, Outcome.map_ok]
  · have hR := fun a b => hd _ _ _ (hasDerivAt_tail hder) a b
    have := rigid_hasDerivAt hR (hasDerivAt_head hder) i j
    rw [hc0, Outcome.getD_ok, curveValue_tangent] at this
    refine this.congr_of_eventuallyEq ?_
    filter_upwards [hnear] with x hx
    obtain ⟨v, hv⟩ := hx
    have hv0 : s.spline.evalD x 0 = .ok v := hv
    have hv1 : s.spline.eval x = .ok v := hv
    unfold transformation
    rw [hv1, hv0, Outcome.map_ok, Outcome.getD_ok, Outcome.getD_ok, curveValueToTransformation_eq]

theorem boxPlus_smul (a : ℝ) (ξ : Fin 6 → ℝ) : boxPlus (a • ξ) = a • boxPlus ξ := by
  ext i j
  fin_cases i <;> fin_cases j <;> simp [boxPlus]

/-- Whether a query is defined does not depend on the order of the derivative. -/
theorem evalD_defined {D : ℕ} {b : BSpline ℝ D} {t : ℝ} {der : ℤ} {r : ValJac ℝ D} (h : b.evalDAndJacobian t der = .ok r) (n : ℕ) :
    ∃ v, b.evalD t n = .ok v := by
  obtain ⟨x, u, i, B, -, -, hU, -, -, -, hB, -⟩ := evalDAndJacobian_inv h
  unfold evalD evalDNat
  rw [if_neg (by omega), hU, Outcome.bind_ok]
  dsimp only
  rw [hB, Outcome.bind_ok]
  exact ⟨_, rfl⟩

/-! ## Rolling shutter -/

/-- **C49** (and C60), rolling shutter expression: whenever the value is defined, the node announces design variables, emits one block for each
of them in order, and the blocks are the derivative of the value with respect to the coefficients. -/
theorem C49_rolling_shutter_blocks (s : Pose ℝ) (hd : Differential s.rotation) (start line ℓ : ℝ)
    (T : Matrix (Fin 4) (Fin 4) ℝ) (hT : s.rollingShutterValue start line ℓ = .ok T) :
    ∃ dvs em, s.rollingShutterVariables start line ℓ = .ok dvs ∧ s.rollingShutterJacobians start line ℓ = .ok em ∧
      em.blocks.map Prod.fst = dvs ∧
      ∀ δ : List ℝ, δ.length = s.spline.coefficientVector.length → ∀ i j,
        HasDerivAt (fun ε => ((s.along δ ε).rollingShutterValue start line ℓ).getD 0 i j)
          ((boxPlus (emissionEffect em.blocks δ) * T) i j) 0 := by
  obtain ⟨dvs, em, h1, h2, h3, h4⟩ := C60_transformation s hd _ T hT
  unfold transformationNodeJacobians transformationAndJacobian at h2
  cases hb : s.spline.evalDAndJacobian (ℓ * 1 * line + start) 0 with
  | throws => rw [hb] at h2; exact nomatch h2
  | ub => rw [hb] at h2; exact nomatch h2
  | ok b =>
    obtain ⟨lo, g1, g2, g3⟩ := active_eq hb
    have h1' : s.spline.localVvCoefficientVectorIndices (ℓ * 1 * line + start) = .ok dvs := h1
    obtain rfl := Outcome.ok.inj (h1'.symm.trans g1)
    obtain ⟨w, hw⟩ : ∃ w, s.spline.evalD (ℓ * 1 * line + start) 1 = .ok w := evalD_defined hb 1
    refine ⟨_, { blocks := em, timeColumn := fun i => (curveValueJacobian s.rotation b.value).mulVec w i * line * 1 }, h1, ?_, h3, h4⟩
    rw [hb, Outcome.map_ok, Outcome.bind_ok] at h2
    unfold emitFor at h2
    rw [if_pos (by simp [linSpacedIdx])] at h2
    have h2 := Outcome.ok.inj h2
    unfold rollingShutterJacobians
    dsimp only
    rw [g1, Outcome.bind_ok, hb, Outcome.bind_ok, if_pos, hw, Outcome.map_ok, ← h2]
    simp [linSpacedIdx]
    omega

/-- **C49**, rolling shutter expression: the column emitted for the line delay is the derivative of the value with respect to the line
delay, wherever the spline is differentiable in time. -/
theorem C49_rolling_shutter (s : Pose ℝ) (h : s.spline.WF) (hw : s.spline.WideLast) (hd : Differential s.rotation) (start line ℓ : ℝ)
    (ht : s.spline.Regular 0 (start + line * ℓ)) :
    ∃ T em, s.rollingShutterValue start line ℓ = .ok T ∧ s.rollingShutterJacobians start line ℓ = .ok em ∧
      ∀ i j, HasDerivAt (fun x => (s.rollingShutterValue start line x).getD 0 i j) ((boxPlus em.timeColumn * T) i j) ℓ := by
  rw [show start + line * ℓ = ℓ * 1 * line + start by ring] at ht
  obtain ⟨c, c', hc, hc', hT, hder⟩ := transformation_time s h hw hd _ ht
  obtain ⟨dvs, em, h1, h2, -, -⟩ := C49_rolling_shutter_blocks s hd start line ℓ _ hT
  refine ⟨_, em, hT, h2, fun i j => ?_⟩
  have hcol : em.timeColumn = line • (curveValueJacobian s.rotation c).mulVec c' := by
    have h1 : s.spline.localVvCoefficientVectorIndices (ℓ * 1 * line + start) = .ok dvs := h1
    obtain ⟨b, hb, rfl⟩ := jacobian_of_value hc
    unfold rollingShutterJacobians at h2
    dsimp only at h2
    rw [h1, Outcome.bind_ok, hb, Outcome.bind_ok] at h2
    split_ifs at h2 with hall
    rw [hc', Outcome.map_ok] at h2
    rw [← Outcome.ok.inj h2]
    ext i
    simp only [Pi.smul_apply, smul_eq_mul]
    ring
  have hτ : HasDerivAt (fun x : ℝ => x * 1 * line + start) line ℓ := by
    have := ((hasDerivAt_id ℓ).mul_const line).add_const start
    refine hasDerivAt_congr this (fun x => ?_) (by simp)
    simp
  have := (hder i j).comp ℓ hτ
  refine hasDerivAt_congr this (fun x => rfl) ?_
  rw [hcol, boxPlus_smul, Matrix.smul_mul, Matrix.smul_apply, smul_eq_mul]
  ring

/-! ## The time window -/

theorem inSegment_mono {b : BSpline ℝ D} (h : b.WF) {t t' : ℝ} {i i' : ℕ} (hi : b.InSegment t i) (hi' : b.InSegment t' i') (htt : t ≤ t') :
    i ≤ i' := by
  have hk := h.order_pos
  have hn := h.enough
  have hm := h.mono
  have h1 := hi.lower
  have h2 := hi.upper
  have h3 := hi'.upper
  by_contra hlt
  have h4 : b.kn (i' + 1) ≤ b.kn i := hm _ _ (by omega) (by omega)
  have h5 := hi.left
  rcases hi'.right with h6 | ⟨h6, h7⟩
  · linarith
  · omega

theorem lookup_wide {b : BSpline ℝ D} (h : b.WF) (hw : b.WideLast) {t : ℝ} (h1 : b.kn (b.order - 1) ≤ t)
    (h2 : t ≤ b.kn (b.knots.length - b.order)) :
    ∃ i, b.computeTIndex t = .ok (b.kn (i + 1) - b.kn i, i) ∧ b.InSegment t i ∧
      b.localVvCoefficientVectorIndices t = .ok (linSpacedIdx b.order (i + 1 - b.order)) := by
  obtain ⟨i, hT, hi⟩ := lookup h t (admissible_of_wide t (WideLast.wide h hw) h1 h2)
  exact ⟨i, hT, hi, localIndices_eq h t i hi.lower _ hT⟩

theorem linSpacedIdx_head {k : ℕ} (hk : 0 < k) (b : ℕ) : (linSpacedIdx k b).head? = some b := by
  obtain ⟨k, rfl⟩ : ∃ m, k = m + 1 := ⟨k - 1, by omega⟩
  simp [linSpacedIdx, List.range_succ_eq_map]

theorem linSpacedIdx_last {k : ℕ} (hk : 0 < k) (b : ℕ) : (linSpacedIdx k b).getLast? = some (b + k - 1) := by
  obtain ⟨k, rfl⟩ : ∃ m, k = m + 1 := ⟨k - 1, by omega⟩
  simp [linSpacedIdx, List.range_succ]

/-- The window made from the segments `iL` and `iR` (numbers of the left knots). -/
theorem window_of_segments {b : BSpline ℝ D} (h : b.WF) (hw : b.WideLast) {iL iR : ℕ} (hL1 : b.order - 1 ≤ iL)
    (hL2 : iL + 1 ≤ b.knots.length - b.order) (hR1 : b.order - 1 ≤ iR) (hR2 : iR + 1 ≤ b.knots.length - b.order) :
    ∃ jL jR, b.InSegment ((b.kn iL + b.kn (iL + 1)) / 2) jL ∧ b.InSegment ((b.kn iR + b.kn (iR + 1)) / 2) jR ∧
      b.localVvCoefficientVectorIndices ((b.kn iL + b.kn (iL + 1)) / 2) = .ok (linSpacedIdx b.order (jL + 1 - b.order)) ∧
      b.localVvCoefficientVectorIndices ((b.kn iR + b.kn (iR + 1)) / 2) = .ok (linSpacedIdx b.order (jR + 1 - b.order)) ∧
      ∀ t i, b.InSegment t i → b.kn iL ≤ t → t < b.kn (iR + 1) → jL ≤ i ∧ i ≤ jR := by
  have hk := h.order_pos
  have hn := h.enough
  have hm := h.mono
  have hLw : b.kn iL ≤ b.kn (iL + 1) := hm _ _ (by omega) (by omega)
  have hRw : b.kn iR ≤ b.kn (iR + 1) := hm _ _ (by omega) (by omega)
  have e1 : b.kn (b.order - 1) ≤ b.kn iL := hm _ _ hL1 (by omega)
  have e2 : b.kn (iL + 1) ≤ b.kn (b.knots.length - b.order) := hm _ _ hL2 (by omega)
  have e3 : b.kn (b.order - 1) ≤ b.kn iR := hm _ _ hR1 (by omega)
  have e4 : b.kn (iR + 1) ≤ b.kn (b.knots.length - b.order) := hm _ _ hR2 (by omega)
  obtain ⟨jL, -, hjL, hL⟩ := lookup_wide h hw (t := (b.kn iL + b.kn (iL + 1)) / 2) (by linarith) (by linarith)
  obtain ⟨jR, -, hjR, hR⟩ := lookup_wide h hw (t := (b.kn iR + b.kn (iR + 1)) / 2) (by linarith) (by linarith)
  refine ⟨jL, jR, hjL, hjR, hL, hR, fun t i hi ht1 ht2 => ⟨?_, ?_⟩⟩
  · by_contra hlt
    have l1 := hjL.left
    have l2 := hjL.upper
    have l3 : b.kn (i + 1) ≤ b.kn jL := hm _ _ (by omega) (by omega)
    have l4 := hi.pos
    have l5 := hi.left
    rcases Nat.lt_trichotomy i iL with hc | rfl | hc
    · have l6 : b.kn (i + 1) ≤ b.kn iL := hm _ _ (by omega) (by omega)
      rcases hi.right with h6 | ⟨h6, h7⟩
      · linarith
      · omega
    · linarith
    · have l6 : b.kn (iL + 1) ≤ b.kn i := hm _ _ (by omega) (by have := hi.upper; omega)
      linarith
  · by_contra hlt
    have l1 := hjR.le
    have l2 := hi.left
    have l3 : b.kn (jR + 1) ≤ b.kn i := hm _ _ (by omega) (by have := hi.upper; omega)
    by_cases hc : i ≤ iR
    · have l4 : b.kn (jR + 1) ≤ b.kn iR := hm _ _ (by omega) (by omega)
      linarith
    · have l4 : b.kn (iR + 1) ≤ b.kn i := hm _ _ (by omega) (by have := hi.upper; omega)
      linarith

/-- What a constructed window knows. -/
theorem window_inv {s : Pose ℝ} (h : s.spline.WF) (hw : s.spline.WideLast) {init lo hi : ℝ} {w : TimeWindow ℝ}
    (hwin : s.timeWindow init lo hi = .ok w) :
    ∃ l r : ℕ, w.indices = linSpacedIdx (r + 1 - l) l ∧ r < s.spline.coeffs.length ∧
      s.spline.kn (s.spline.order - 1) ≤ w.tmin ∧ w.tmax ≤ s.spline.kn (s.spline.knots.length - s.spline.order) ∧
      ∀ t, w.tmin ≤ t → t < w.tmax → ∃ i, s.spline.InSegment t i ∧
        s.spline.localVvCoefficientVectorIndices t = .ok (linSpacedIdx s.spline.order (i + 1 - s.spline.order)) ∧
        l ≤ i + 1 - s.spline.order ∧ i ≤ r := by
  have hk := h.order_pos
  have hn := h.enough
  have hm := h.mono
  have hc := h.coeffs_len
  unfold timeWindow at hwin
  dsimp only at hwin
  obtain ⟨tmax, -, hwin⟩ := Outcome.bind_eq_ok.1 hwin
  obtain ⟨right, -, hwin⟩ := Outcome.bind_eq_ok.1 hwin
  obtain ⟨tmin, -, hwin⟩ := Outcome.bind_eq_ok.1 hwin
  obtain ⟨left, -, hwin⟩ := Outcome.bind_eq_ok.1 hwin
  obtain ⟨⟨r1, r2⟩, hri, hwin⟩ := Outcome.bind_eq_ok.1 hwin
  obtain ⟨⟨l1, l2⟩, hli, hwin⟩ := Outcome.bind_eq_ok.1 hwin
  obtain ⟨iR, hR1, hR2, rfl, rfl, -⟩ := timeIntervalOf_eq h hri
  obtain ⟨iL, hL1, hL2, rfl, rfl, -⟩ := timeIntervalOf_eq h hli
  obtain ⟨jL, jR, hjL, hjR, eL, eR, hin⟩ := window_of_segments h hw hL1 hL2 hR1 hR2
  rw [eL, Outcome.bind_ok, eR, Outcome.bind_ok, linSpacedIdx_head (by omega), linSpacedIdx_last (by omega)] at hwin
  dsimp only at hwin
  split_ifs at hwin with hlr
  obtain rfl := Outcome.ok.inj hwin
  have hu := hjR.upper
  have hlo := hjR.lower
  have e1 : s.spline.kn (s.spline.order - 1) ≤ s.spline.kn iL := hm _ _ hL1 (by omega)
  have e4 : s.spline.kn (iR + 1) ≤ s.spline.kn (s.spline.knots.length - s.spline.order) := hm _ _ hR2 (by omega)
  refine ⟨jL + 1 - s.spline.order, jR + 1 - s.spline.order + s.spline.order - 1, rfl, by omega, e1, e4, fun t ht1 ht2 => ?_⟩
  obtain ⟨i, -, hi, hidx⟩ := lookup_wide h hw (t := t) (le_trans e1 ht1) (le_trans ht2.le e4)
  obtain ⟨g1, g2⟩ := hin t i hi ht1 ht2
  exact ⟨i, hi, hidx, by omega, by omega⟩

/-- The loop over the announced coefficients. -/
theorem window_fold (J : Fin 6 → ℕ → ℝ) {l m k : ℕ} (hlm : l ≤ m) (hk : 0 < k) (n : ℕ) :
    (linSpacedIdx n l).foldl (windowStep J m (m + k - 1)) (0, [])
      = (min (l + n - m) k, (List.range n).map fun q =>
          (l + q, if m ≤ l + q ∧ l + q ≤ m + k - 1 then Matrix.of fun r (c : Fin 6) => J r ((l + q - m) * 6 + c) else 0)) := by
  induction n with
  | zero => simp [linSpacedIdx, Nat.sub_eq_zero_of_le hlm]
  | succ n ih =>
    have : linSpacedIdx (n + 1) l = linSpacedIdx n l ++ [l + n] := by simp [linSpacedIdx, List.range_succ]
    rw [this, List.foldl_append, ih, List.range_succ, List.map_append]
    simp only [List.foldl_cons, List.foldl_nil, List.map_cons, List.map_nil]
    unfold windowStep
    dsimp only
    split_ifs with hc
    · rw [show min (l + n - m) k = l + n - m by omega, show l + n - m + 1 = min (l + (n + 1) - m) k by omega]
    · rw [show min (l + n - m) k = min (l + (n + 1) - m) k by omega]

theorem emissionEffect_range {m D : ℕ} (n : ℕ) (f : ℕ → ℕ × Matrix (Fin m) (Fin D) ℝ) (δ : List ℝ) :
    emissionEffect ((List.range n).map f) δ
      = ∑ q ∈ range n, (f q).2.mulVec (fun c : Fin D => entry δ ((f q).1 * D + c)) := by
  unfold emissionEffect
  induction n with
  | zero => simp
  | succ n ih => rw [List.range_succ, List.map_append, List.map_append, List.sum_append, ih, Finset.sum_range_succ]; simp

theorem window_effect (J : Fin 6 → ℕ → ℝ) {l m k n : ℕ} (hlm : l ≤ m) (hk : 0 < k) (hn : m + k ≤ l + n) (δ : List ℝ) :
    emissionEffect ((List.range n).map fun q =>
        (l + q, if m ≤ l + q ∧ l + q ≤ m + k - 1 then Matrix.of fun r (c : Fin 6) => J r ((l + q - m) * 6 + c) else 0)) δ
      = effect J (linSpacedIdx (k * 6) (m * 6)) δ := by
  rw [← emit_effect, emitBlocks_eq, emissionEffect_range, emissionEffect_range]
  obtain ⟨a, rfl⟩ : ∃ a, m = l + a := ⟨m - l, by omega⟩
  obtain ⟨e, rfl⟩ : ∃ e, n = a + (k + e) := ⟨n - a - k, by omega⟩
  rw [Finset.sum_range_add, Finset.sum_range_add]
  have h1 : ∀ q ∈ range a, (if l + a ≤ l + q ∧ l + q ≤ l + a + k - 1 then
      (Matrix.of fun r (c : Fin 6) => J r ((l + q - (l + a)) * 6 + c)) else 0).mulVec (fun c : Fin 6 => entry δ ((l + q) * 6 + c)) = 0 := by
    intro q hq
    have := Finset.mem_range.1 hq
    rw [if_neg (by omega), Matrix.zero_mulVec]
  have h2 : ∀ q ∈ range e, (if l + a ≤ l + (a + (k + q)) ∧ l + (a + (k + q)) ≤ l + a + k - 1 then
      (Matrix.of fun r (c : Fin 6) => J r ((l + (a + (k + q)) - (l + a)) * 6 + c)) else 0).mulVec
        (fun c : Fin 6 => entry δ ((l + (a + (k + q))) * 6 + c)) = 0 := by
    intro q hq
    rw [if_neg (by omega), Matrix.zero_mulVec]
  rw [Finset.sum_eq_zero h1, Finset.sum_eq_zero h2, zero_add, add_zero]
  refine Finset.sum_congr rfl fun q hq => ?_
  have := Finset.mem_range.1 hq
  rw [if_pos (by omega), show l + (a + q) - (l + a) = q by omega, show l + (a + q) = l + a + q by omega]

/-- The Jacobians of a window whose indices include the active ones. -/
theorem window_jacobians_of {s : Pose ℝ} (hk : 0 < s.spline.order) {w : TimeWindow ℝ} {l r : ℕ} (hidx : w.indices = linSpacedIdx (r + 1 - l) l)
    (hr : r < s.spline.coeffs.length) {t : ℝ} (h1 : w.tmin ≤ t) (h2 : t < w.tmax) {b : ValJac ℝ 6} (hb : s.spline.evalDAndJacobian t 0 = .ok b)
    {m : ℕ} (hloc : s.spline.localVvCoefficientVectorIndices t = .ok (linSpacedIdx s.spline.order m)) (hl : l ≤ m)
    (hm : m + s.spline.order ≤ r + 1) :
    ∃ d : Fin 6 → ℝ, s.spline.evalD t 1 = .ok d ∧
      s.timeOffsetJacobians w t = .ok
        { blocks := w.indices.map fun x => (x, if m ≤ x ∧ x ≤ m + s.spline.order - 1 then
            Matrix.of fun r (c : Fin 6) => mulJac (curveValueJacobian s.rotation b.value) (rows6 b.jacobian) r ((x - m) * 6 + c) else 0)
          timeColumn := (curveValueJacobian s.rotation b.value).mulVec d } ∧
      (∀ x ∈ linSpacedIdx s.spline.order m, x ∈ w.indices) ∧ b.indices = linSpacedIdx (s.spline.order * 6) (m * 6) ∧
      ∀ δ, emissionEffect (w.indices.map fun x => (x, if m ≤ x ∧ x ≤ m + s.spline.order - 1 then
          Matrix.of fun r (c : Fin 6) => mulJac (curveValueJacobian s.rotation b.value) (rows6 b.jacobian) r ((x - m) * 6 + c) else 0)) δ
        = effect (mulJac (curveValueJacobian s.rotation b.value) (rows6 b.jacobian)) b.indices δ := by
  obtain ⟨d, hd⟩ := evalD_defined hb 1
  obtain ⟨lo', g1, g2, g3⟩ := active_eq hb
  obtain rfl : m = lo' := by
    have := congrArg List.head? (Outcome.ok.inj (hloc.symm.trans g1))
    rw [linSpacedIdx_head (by omega), linSpacedIdx_head (by omega)] at this
    exact Option.some.inj this
  have hmap : ∀ f : ℕ → ℕ × Matrix (Fin 6) (Fin 6) ℝ, w.indices.map f = (List.range (r + 1 - l)).map fun q => f (l + q) := by
    intro f
    rw [hidx]
    simp [linSpacedIdx]
  refine ⟨d, hd, ?_, ?_, g2, fun δ => ?_⟩
  · unfold timeOffsetJacobians
    rw [if_pos ⟨h1, h2⟩, g1, Outcome.bind_ok, hb, Outcome.bind_ok]
    dsimp only
    rw [linSpacedIdx_head (by omega), linSpacedIdx_last (by omega)]
    dsimp only
    have hd' : s.spline.evalD t 1 = .ok d := hd
    rw [if_pos, hd', Outcome.map_ok, hmap]
    · rw [hidx, window_fold _ (by omega) (by omega)]
    · rw [hidx]
      simp [linSpacedIdx]
      omega
  · intro x hx
    rw [hidx]
    simp only [linSpacedIdx, List.mem_map, List.mem_range] at hx ⊢
    obtain ⟨q, hq, rfl⟩ := hx
    exact ⟨m + q - l, by omega, by omega⟩
  · rw [hmap, window_effect _ (by omega) (by omega) (by omega), g2]

/-- The Jacobians of the time offset expression at a time in the window. -/
theorem window_jacobians {s : Pose ℝ} (h : s.spline.WF) (hw : s.spline.WideLast) {init lo hi : ℝ} {w : TimeWindow ℝ}
    (hwin : s.timeWindow init lo hi = .ok w) {t : ℝ} (h1 : w.tmin ≤ t) (h2 : t < w.tmax) :
    ∃ (m : ℕ) (b : ValJac ℝ 6) (d : Fin 6 → ℝ), s.spline.localVvCoefficientVectorIndices t = .ok (linSpacedIdx s.spline.order m) ∧
      s.spline.evalDAndJacobian t 0 = .ok b ∧ s.spline.evalD t 1 = .ok d ∧
      s.timeOffsetJacobians w t = .ok
        { blocks := w.indices.map fun x => (x, if m ≤ x ∧ x ≤ m + s.spline.order - 1 then
            Matrix.of fun r (c : Fin 6) => mulJac (curveValueJacobian s.rotation b.value) (rows6 b.jacobian) r ((x - m) * 6 + c) else 0)
          timeColumn := (curveValueJacobian s.rotation b.value).mulVec d } ∧
      (∀ x ∈ linSpacedIdx s.spline.order m, x ∈ w.indices) ∧ b.indices = linSpacedIdx (s.spline.order * 6) (m * 6) ∧
      ∀ δ, emissionEffect (w.indices.map fun x => (x, if m ≤ x ∧ x ≤ m + s.spline.order - 1 then
          Matrix.of fun r (c : Fin 6) => mulJac (curveValueJacobian s.rotation b.value) (rows6 b.jacobian) r ((x - m) * 6 + c) else 0)) δ
        = effect (mulJac (curveValueJacobian s.rotation b.value) (rows6 b.jacobian)) b.indices δ := by
  have hk := h.order_pos
  obtain ⟨l, r, hidx, hr, hmin, hmax, hin⟩ := window_inv h hw hwin
  obtain ⟨i, hseg, hloc, hl1, hr1⟩ := hin t h1 h2
  have hlow := hseg.lower
  obtain ⟨v, hv⟩ : ∃ v, s.spline.evalD t 0 = .ok v := by
    obtain ⟨i', -, -, he⟩ := evalDNat_admissible h t
      (admissible_of_wide t (WideLast.wide h hw) (le_trans hmin h1) (le_trans h2.le hmax))
    exact ⟨_, he 0⟩
  obtain ⟨b, hb, -⟩ := jacobian_of_value hv
  obtain ⟨d, h3⟩ := window_jacobians_of (by omega) hidx hr h1 h2 hb hloc hl1 (by omega)
  exact ⟨_, b, d, hloc, hb, h3⟩

/-- **C45**: at every later time in the window of a constructed expression the value and the Jacobians are defined; the announced coefficients
include all active ones; a change of coefficients that are not announced does not change the value; there is exactly one block for each
announced coefficient, in order: for an active coefficient the block that the transformation expression at this time emits for
it, for the others zero; and the blocks are the derivative of the value for every change of all coefficients. -/
theorem C45_window (s : Pose ℝ) (h : s.spline.WF) (hw : s.spline.WideLast) (hd : Differential s.rotation) (init lo hi : ℝ) (w : TimeWindow ℝ)
    (hwin : s.timeWindow init lo hi = .ok w) (t : ℝ) (h1 : w.tmin ≤ t) (h2 : t < w.tmax) :
    ∃ T em active emA, s.timeOffsetValue w t = .ok T ∧ s.transformation t = .ok T ∧ s.timeOffsetJacobians w t = .ok em ∧
      s.activeVariables t = .ok active ∧ s.transformationNodeJacobians active t = .ok emA ∧
      (∀ x ∈ active, x ∈ w.indices) ∧
      (∀ δ : List ℝ, δ.length = s.spline.coefficientVector.length → (∀ x ∈ w.indices, ∀ c : Fin 6, entry δ (x * 6 + c) = 0) →
        ∀ ε, (s.along δ ε).timeOffsetValue w t = .ok T) ∧
      em.blocks.map Prod.fst = w.indices ∧
      (∀ x B, (x, B) ∈ em.blocks → (x ∈ active → (x, B) ∈ emA) ∧ (x ∉ active → B = 0)) ∧
      ∀ δ : List ℝ, δ.length = s.spline.coefficientVector.length → ∀ i j,
        HasDerivAt (fun ε => ((s.along δ ε).timeOffsetValue w t).getD 0 i j)
          ((boxPlus (emissionEffect em.blocks δ) * T) i j) 0 := by
  have hk := h.order_pos
  obtain ⟨m, b, d, g1, hb, hd1, g2, g3, g4, g5⟩ := window_jacobians h hw hwin h1 h2
  have hval : s.transformation t = .ok (curveValueToTransformation s.rotation b.value) := by
    have : s.spline.eval t = .ok b.value := evalD_of_jacobian hb
    unfold transformation
    rw [this, Outcome.map_ok]
  have htJ : s.transformationAndJacobian t = .ok
      { value := curveValueToTransformation s.rotation b.value
        jacobian := mulJac (curveValueJacobian s.rotation b.value) (rows6 b.jacobian)
        indices := b.indices } := by
    unfold transformationAndJacobian
    rw [hb]
    rfl
  have hemA : s.transformationNodeJacobians (linSpacedIdx s.spline.order m) t
      = .ok (emitBlocks 6 (linSpacedIdx s.spline.order m) (mulJac (curveValueJacobian s.rotation b.value) (rows6 b.jacobian))) := by
    unfold transformationNodeJacobians
    rw [htJ, Outcome.bind_ok]
    unfold emitFor
    rw [if_pos (by simp [linSpacedIdx])]
  have hvw : ∀ s' : Pose ℝ, s'.timeOffsetValue w t = s'.transformation t := fun s' => if_pos ⟨h1, h2⟩
  have hmem : ∀ x, x ∈ linSpacedIdx s.spline.order m ↔ m ≤ x ∧ x ≤ m + s.spline.order - 1 := by
    intro x
    simp only [linSpacedIdx, List.mem_map, List.mem_range]
    constructor
    · rintro ⟨q, hq, rfl⟩
      omega
    · intro hx
      exact ⟨x - m, by omega, by omega⟩
  refine ⟨_, _, _, _, (hvw s).trans hval, hval, g2, g1, hemA, g3, ?_, ?_, ?_, ?_⟩
  · intro δ hδ hz ε
    rw [hvw]
    have hm0 : (s.along δ ε).spline.evalD t 0 = _ := moved_evalD s.spline t 0 b hb δ hδ ε
    have he : effect (fun (i : Fin 6) q => b.jacobian i q) b.indices δ = 0 := by
      ext r
      unfold effect
      rw [g4, show (linSpacedIdx (s.spline.order * 6) (m * 6)).length = s.spline.order * 6 by simp [linSpacedIdx]]
      refine Finset.sum_eq_zero fun q hq => ?_
      have hq := Finset.mem_range.1 hq
      have : (linSpacedIdx (s.spline.order * 6) (m * 6)).getD q 0 = (m + q / 6) * 6 + (⟨q % 6, by omega⟩ : Fin 6) := by
        simp [linSpacedIdx, List.getD_eq_getElem?_getD, hq]
        omega
      rw [this, hz (m + q / 6) (g3 _ ((hmem _).2 (by omega))), mul_zero]
    have hm1 : (s.along δ ε).spline.eval t = .ok b.value := by
      unfold BSpline.eval
      rw [hm0, he]
      simp
    unfold transformation
    rw [hm1, Outcome.map_ok]
    rfl
  · simp [Function.comp_def]
  · intro x B hx
    simp only [List.mem_map, Prod.mk.injEq] at hx
    obtain ⟨y, hy, rfl, rfl⟩ := hx
    constructor
    · intro hy'
      have := (hmem y).1 hy'
      rw [if_pos this, emitBlocks_eq]
      refine List.mem_map.2 ⟨y - m, List.mem_range.2 (by omega), ?_⟩
      rw [show m + (y - m) = y by omega]
    · intro hy'
      rw [if_neg (fun hc => hy' ((hmem y).2 hc))]
  · intro δ hδ i j
    rw [g5 δ]
    simp only [hvw]
    exact (C56_transformation s hd t _ htJ δ hδ).2.2 i j

/-- **C45**, the window itself: for an initial time in the valid interval and margins that are not negative the construction succeeds, and every
time before the end of the spline that is within the margins of the initial time is in the window. -/
theorem C45_defined (s : Pose ℝ) (h : s.spline.WF) (hw : s.spline.WideLast) (init lo hi tmin tmax : ℝ) (hmin : s.spline.tMin = .ok tmin)
    (hmax : s.spline.tMax = .ok tmax) (h1 : tmin ≤ init) (h2 : init ≤ tmax) (hlo : 0 ≤ lo) (hhi : 0 ≤ hi) :
    ∃ w, s.timeWindow init lo hi = .ok w ∧ tmin ≤ w.tmin ∧ w.tmax ≤ tmax ∧
      ∀ t, tmin ≤ t → t < tmax → init - lo ≤ t → t ≤ init + hi → w.tmin ≤ t ∧ t < w.tmax := by
  have hk := h.order_pos
  have hn := h.enough
  have hm := h.mono
  rw [tMin_eq h] at hmin
  rw [tMax_eq h] at hmax
  have hmin' := Outcome.ok.inj hmin
  have hmax' := Outcome.ok.inj hmax
  have hsegs : s.spline.numValidTimeSegments = s.spline.knots.length + 1 - 2 * s.spline.order := rfl
  -- the right segment
  obtain ⟨iR, hR, hR1, hR2, hRt⟩ : ∃ iR : ℕ, (if tmax < hi + init then .ok ((s.spline.numValidTimeSegments : ℤ) - 1)
      else (s.spline.segmentIndex (init + hi)).map fun i : ℕ => (i : ℤ)) = .ok (((iR + 1 - s.spline.order : ℕ) : ℤ)) ∧
      s.spline.order - 1 ≤ iR ∧ iR + 1 ≤ s.spline.knots.length - s.spline.order ∧
      ((iR + 1 = s.spline.knots.length - s.spline.order) ∨ (init + hi < s.spline.kn (iR + 1) ∧ s.spline.InSegment (init + hi) iR)) := by
    by_cases hc : tmax < hi + init
    · refine ⟨s.spline.knots.length - s.spline.order - 1, ?_, by omega, by omega, Or.inl (by omega)⟩
      rw [if_pos hc]
      congr 1
      omega
    · obtain ⟨i, hT, hi', -⟩ := lookup_wide h hw (t := init + hi) (by linarith) (by linarith)
      have l1 := hi'.lower
      refine ⟨i, ?_, hi'.lower, hi'.upper, ?_⟩
      · rw [if_neg hc]
        unfold segmentIndex bidxOf
        rw [hT, Outcome.bind_ok]
        dsimp only
        rw [if_neg (by omega), Outcome.map_ok]
      · rcases hi'.right with hr | ⟨-, hr⟩
        · exact Or.inr ⟨hr, hi'⟩
        · exact Or.inl hr
  obtain ⟨iL, hL, hL1, hL2, hLt⟩ : ∃ iL : ℕ, (if init - lo < tmin then .ok (0 : ℤ)
      else (s.spline.segmentIndex (init - lo)).map fun i : ℕ => (i : ℤ)) = .ok (((iL + 1 - s.spline.order : ℕ) : ℤ)) ∧
      s.spline.order - 1 ≤ iL ∧ iL + 1 ≤ s.spline.knots.length - s.spline.order ∧
      ((iL = s.spline.order - 1) ∨ (s.spline.kn iL ≤ init - lo ∧ s.spline.InSegment (init - lo) iL)) := by
    by_cases hc : init - lo < tmin
    · refine ⟨s.spline.order - 1, ?_, by omega, by omega, Or.inl rfl⟩
      rw [if_pos hc]
      congr 1
      omega
    · obtain ⟨i, hT, hi', -⟩ := lookup_wide h hw (t := init - lo) (by linarith) (by linarith)
      have l1 := hi'.lower
      refine ⟨i, ?_, hi'.lower, hi'.upper, Or.inr ⟨hi'.left, hi'⟩⟩
      rw [if_neg hc]
      unfold segmentIndex bidxOf
      rw [hT, Outcome.bind_ok]
      dsimp only
      rw [if_neg (by omega), Outcome.map_ok]
  have hLR : iL ≤ iR := by
    rcases hRt with hRt | ⟨-, hRt⟩
    · omega
    · rcases hLt with hLt | ⟨-, hLt⟩
      · omega
      · exact inSegment_mono h hLt hRt (by linarith)
  obtain ⟨jL, jR, hjL, hjR, eL, eR, hin⟩ := window_of_segments h hw hL1 hL2 hR1 hR2
  have hjLR : jL ≤ jR := by
    refine inSegment_mono h hjL hjR ?_
    have a1 : s.spline.kn iL ≤ s.spline.kn iR := hm _ _ hLR (by omega)
    have a2 : s.spline.kn (iL + 1) ≤ s.spline.kn (iR + 1) := hm _ _ (by omega) (by omega)
    linarith
  have e1 : s.spline.kn (s.spline.order - 1) ≤ s.spline.kn iL := hm _ _ hL1 (by omega)
  have e4 : s.spline.kn (iR + 1) ≤ s.spline.kn (s.spline.knots.length - s.spline.order) := hm _ _ hR2 (by omega)
  refine ⟨{ tmin := s.spline.kn iL, tmax := s.spline.kn (iR + 1), indices := (List.range (jR + 1 - s.spline.order + s.spline.order - 1 + 1 -
      (jL + 1 - s.spline.order))).map (fun i => (jL + 1 - s.spline.order) + i) }, ?_, by rw [← hmin']; exact e1, by rw [← hmax']; exact e4, ?_⟩
  · unfold timeWindow
    dsimp only
    rw [tMax_eq h, Outcome.bind_ok, hmax', hR, Outcome.bind_ok, tMin_eq h, Outcome.bind_ok, hmin', hL, Outcome.bind_ok,
      timeIntervalOf_knot h hR1 hR2, Outcome.bind_ok, timeIntervalOf_knot h hL1 hL2, Outcome.bind_ok]
    dsimp only
    rw [eL, Outcome.bind_ok, eR, Outcome.bind_ok, linSpacedIdx_head (by omega), linSpacedIdx_last (by omega)]
    dsimp only
    rw [if_neg (by omega)]
  · intro t ht1 ht2 ht3 ht4
    constructor
    · show s.spline.kn iL ≤ t
      rcases hLt with hLt | ⟨hLt, -⟩
      · rw [hLt, hmin']; exact ht1
      · linarith
    · show t < s.spline.kn (iR + 1)
      rcases hRt with hRt | ⟨hRt, -⟩
      · rw [hRt, hmax']; exact ht2
      · linarith

/-- **C49**, time offset expression: when the time is a function `τ` of a variable with derivative `v`, then the derivative of the value with
respect to that variable is the emitted time column times `v`, wherever the spline is differentiable in time. -/
theorem C49_time_offset (s : Pose ℝ) (h : s.spline.WF) (hw : s.spline.WideLast) (hd : Differential s.rotation) (init lo hi : ℝ)
    (w : TimeWindow ℝ) (hwin : s.timeWindow init lo hi = .ok w) (τ : ℝ → ℝ) (x v : ℝ) (hτ : HasDerivAt τ v x) (h1 : w.tmin < τ x)
    (h2 : τ x < w.tmax) (ht : s.spline.Regular 0 (τ x)) :
    ∃ T em, s.timeOffsetValue w (τ x) = .ok T ∧ s.timeOffsetJacobians w (τ x) = .ok em ∧
      ∀ i j, HasDerivAt (fun y => (s.timeOffsetValue w (τ y)).getD 0 i j) ((boxPlus (v • em.timeColumn) * T) i j) x := by
  obtain ⟨m, b, d, g1, hb, hd1, g2, -⟩ := window_jacobians h hw hwin h1.le h2
  obtain ⟨c, c', hc, hc', hT, hder⟩ := transformation_time s h hw hd _ ht
  obtain rfl := Outcome.ok.inj (hd1.symm.trans hc')
  obtain rfl := Outcome.ok.inj ((evalD_of_jacobian hb).symm.trans hc)
  refine ⟨_, _, (if_pos ⟨h1.le, h2⟩ : s.timeOffsetValue w (τ x) = _).trans hT, g2, fun i j => ?_⟩
  have hcomp := (hder i j).comp x hτ
  have hnear : ∀ᶠ y in 𝓝 x, w.tmin < τ y ∧ τ y < w.tmax := hτ.continuousAt.eventually (Ioo_mem_nhds h1 h2)
  refine (hasDerivAt_congr hcomp (fun y => rfl) ?_).congr_of_eventuallyEq ?_
  · rw [boxPlus_smul, Matrix.smul_mul, Matrix.smul_apply, smul_eq_mul]
    ring
  · filter_upwards [hnear] with y hy
    rw [show s.timeOffsetValue w (τ y) = s.transformation (τ y) from if_pos ⟨hy.1.le, hy.2⟩]
    rfl

/-- The pose spline turning about a fixed axis, with a window around `5/2`. -/
example : ∃ w, spinning.spline.WF ∧ spinning.spline.WideLast ∧ Differential spinning.rotation ∧
    spinning.timeWindow (5/2) (1/10) (1/10) = .ok w ∧ w.tmin < 5/2 ∧ 5/2 < w.tmax ∧ spinning.spline.Regular 0 (5/2) ∧
    HasDerivAt (fun x : ℝ => 2 + 3 * x) 3 (1/6) ∧ spinning.spline.Regular 0 (2 + 5 * (1/10)) := by
  have hmin : spinning.spline.tMin = .ok 2 := rfl
  have hmax : spinning.spline.tMax = .ok 3 := rfl
  obtain ⟨w, hw1, hw2, hw3, hw4⟩ := C45_defined spinning (demo_wf _ _ _) (demo_wide _ _ _) (5/2) (1/10) (1/10) 2 3 hmin hmax
    (by norm_num) (by norm_num) (by norm_num) (by norm_num)
  have a1 := hw4 (5/2 - 1/10) (by norm_num) (by norm_num) (by norm_num) (by norm_num)
  have a2 := hw4 (5/2) (by norm_num) (by norm_num) (by norm_num) (by norm_num)
  refine ⟨w, demo_wf _ _ _, demo_wide _ _ _, rodrigues_differential, hw1, by linarith [a1.1], a2.2,
    Or.inl ⟨0, 2, 3, demo_seg _ _ _, by norm_num, by norm_num⟩, ?_, Or.inl ⟨0, 2, 3, demo_seg _ _ _, by norm_num, by norm_num⟩⟩
  have := ((hasDerivAt_id (1/6 : ℝ)).const_mul 3).const_add 2
  simpa using this

end Pose
end Verif
