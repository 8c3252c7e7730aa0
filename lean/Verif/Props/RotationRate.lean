import Verif.Props.ManifoldSmooth
import Verif.Lemmas.Linear
import Mathlib.Analysis.Calculus.MeanValue
import Mathlib.Analysis.SpecialFunctions.Trigonometric.InverseDeriv
import Mathlib.Geometry.Euclidean.Angle.Unoriented.TriangleInequality

/-!
# Property C83: how fast the rotation of a quaternion spline turns

The step between two neighbouring control vertices is the logarithm from the one to the other.  Divided by the time between the knots it
belongs to, it is a rate of rotation.  The rotation of the spline never turns faster than the greatest of these rates.  A rotation of constant
rate is reproduced exactly.
-/

set_option linter.unusedSectionVars false

namespace Verif.MSpline

open Finset Polynomial Quaternion

/-! ### The weights -/

/-- The derivative of a cumulative weight is a multiple of a basis function of one degree less. -/
theorem derivative_betaPoly {s : MSpline ℝ ℍ[ℝ]} (h : s.MWF) {i p : ℕ} (hp : s.order = p + 2) (h1 : s.order ≤ i + 1)
    (h2 : i + s.order < s.keys.length) {j : ℕ} (hj : j + 1 < s.order) :
    derivative (s.betaPoly i (j + 1)) = ((p : ℝ[X]) + 1) *
      (C (1 / (s.kn (i + 1 - s.order + j + s.order) - s.kn (i + 1 - s.order + j + 1))) * piece s.kn i p (i + 1 - s.order + j + 1)) := by
  have hlt := h.strict (a := i) (b := i + 1) (by omega) (by omega)
  unfold betaPoly
  obtain ⟨m, hm⟩ : ∃ m, i + 1 - s.order = m := ⟨_, rfl⟩
  rw [hm, derivative_sum, sum_Ico_eq_sum_range]
  have e : ∀ l ∈ range (s.order - (j + 1)), derivative (piece s.kn i (s.order - 1) (m + (j + 1 + l))) =
      ((p : ℝ[X]) + 1) * (C (1 / (s.kn (m + (j + 1 + l) + p + 1) - s.kn (m + (j + 1 + l)))) * piece s.kn i p (m + (j + 1 + l))) -
      ((p : ℝ[X]) + 1) * (C (1 / (s.kn (m + (j + 1 + (l + 1)) + p + 1) - s.kn (m + (j + 1 + (l + 1))))) *
        piece s.kn i p (m + (j + 1 + (l + 1)))) := by
    intro l hl
    have hl := mem_range.1 hl
    rw [show s.order - 1 = p + 1 by omega, derivative_piece s.kn s.keys.length i h.mono hlt p _ (by omega), mul_sub,
      show m + (j + 1 + l) + p + 2 = m + (j + 1 + (l + 1)) + p + 1 by omega, show m + (j + 1 + l) + 1 = m + (j + 1 + (l + 1)) by omega]
  rw [sum_congr rfl e, sum_range_sub' (fun l => ((p : ℝ[X]) + 1) *
    (C (1 / (s.kn (m + (j + 1 + l) + p + 1) - s.kn (m + (j + 1 + l)))) * piece s.kn i p (m + (j + 1 + l)))),
    piece_zero_of_lt s.kn i p (m + (j + 1 + (s.order - (j + 1)))) (by omega), mul_zero, mul_zero, sub_zero,
    show m + (j + 1 + 0) = m + j + 1 by omega, show m + j + 1 + p + 1 = m + j + s.order by omega]

/-! ### The size of the derivative -/

theorem norm_rD_one (b : ℕ → ℝ) (v : V3) : ‖rD b (quatV v) 1‖ = |b 1| * (norm3 v / 2) := by
  have h0 := norm_rD_zero b v
  simp only [rD] at h0 ⊢
  rw [norm_mul, h0, norm_smul, norm_quatV, Real.norm_eq_abs, _root_.one_mul]

theorem norm_dProd_one (β : ℕ → ℝ[X]) (x : ℝ) : ∀ (φs : List V3) (k : ℕ),
    ‖dProd ((factorsFrom β k φs).map fun f e => f e x) 1‖ ≤
      ∑ j ∈ range φs.length, |(derivative (β (k + j + 1))).eval x| * (norm3 (φs.getD j 0) / 2)
  | [], k => by simp [factorsFrom, dProd]
  | φ :: φs, k => by
    simp only [factorsFrom, List.map_cons]
    rw [dProd_one, List.length_cons, sum_range_succ']
    refine (norm_add_le _ _).trans (add_le_add ?_ ?_)
    · rw [norm_mul, norm_rD_zero, _root_.mul_one]
      refine (norm_dProd_one β x φs (k + 1)).trans (le_of_eq (sum_congr rfl fun j _ => ?_))
      rw [show k + 1 + j + 1 = k + (j + 1) + 1 by omega]
      simp
    · rw [norm_mul, norm_factors, _root_.one_mul, norm_rD_one]
      simp

theorem norm3_angL (x : ℍ[ℝ]) : norm3 (angL x) ≤ 2 * ‖x‖ := by
  have e : ‖x‖ ^ 2 = x.re ^ 2 + x.imI ^ 2 + x.imJ ^ 2 + x.imK ^ 2 := by
    rw [pow_two, ← Quaternion.normSq_eq_norm_mul_self, Quaternion.normSq_def']
  unfold norm3
  apply Real.sqrt_le_iff.2
  refine ⟨by positivity, ?_⟩
  rw [mul_pow, e]
  simp only [angL, qeps, LinearMap.coe_mk, AddHom.coe_mk]
  simp
  nlinarith [sq_nonneg x.re]

theorem phiList_getD (lg : ℍ[ℝ] → V3) : ∀ (cs : List ℍ[ℝ]) (a : ℍ[ℝ]) (j : ℕ) (hj : j < cs.length),
    (phiList lg a cs).getD j 0 = lg (cs[j] * star ((a :: cs)[j]'(by simp; omega)))
  | [], _, _, hj => absurd hj (by simp)
  | c :: cs, a, 0, _ => rfl
  | c :: cs, a, j + 1, hj => by
    have := phiList_getD lg cs c j (by simpa using hj)
    simp only [phiList, List.getD_cons_succ, List.getElem_cons_succ]
    rw [this]

theorem window_getElem {s : MSpline ℝ ℍ[ℝ]} {i : ℕ} {c : ℍ[ℝ]} {cs : List ℍ[ℝ]}
    (hv : (s.verts.drop (i + 1 - s.order)).take s.order = c :: cs) (hl : cs.length + 1 = s.order) (j : ℕ) (hj : j < (c :: cs).length) :
    s.verts[i + 1 - s.order + j]? = some (c :: cs)[j] := by
  have := List.getElem?_eq_getElem hj
  rw [← this, ← hv, List.getElem?_take_of_lt (by simp at hj; omega), List.getElem?_drop]

/-- The rate the control vertices allow at time `t`. -/
def RateLimit (lg : ℍ[ℝ] → V3) (s : MSpline ℝ ℍ[ℝ]) (nv : ℕ) (B t : ℝ) : Prop :=
  ∀ j a b τ₁ τ₂, j + 1 < nv → s.verts[j]? = some a → s.verts[j + 1]? = some b → s.keys[j + 1]? = some τ₁ →
    s.keys[j + s.order]? = some τ₂ → τ₁ ≤ t → t ≤ τ₂ → ((s.order - 1 : ℕ) : ℝ) * norm3 (lg (qplus (quatInv a) b)) ≤ B * (τ₂ - τ₁)

theorem norm_segQ_one (lg : ℍ[ℝ] → V3) {s : MSpline ℝ ℍ[ℝ]} (h : s.MWF) (ho : 2 ≤ s.order) {t B : ℝ} {i : ℕ} (hi : s.InSeg t i)
    {c : ℍ[ℝ]} {cs : List ℍ[ℝ]} (hv : (s.verts.drop (i + 1 - s.order)).take s.order = c :: cs) (hc : ‖c‖ = 1)
    (hB : s.RateLimit lg (s.keys.length - s.order) B t) : ‖s.segQ lg i c cs 1 t‖ ≤ B / 2 := by
  have h1 := hi.lower
  have h2 := hi.upper
  have hl := segVerts_length hi hv
  have hlt := hi.lt h
  obtain ⟨p, hp⟩ : ∃ p, s.order = p + 2 := ⟨s.order - 2, by omega⟩
  unfold segQ segFactors
  rw [norm_mul, hc, _root_.mul_one]
  refine (norm_dProd_one _ t _ 0).trans ?_
  rw [phiList_length]
  have hsum := piece_sum_one s.kn s.keys.length i h.mono hlt p (by omega) (by omega)
  rw [sum_Ico_eq_sum_range, show i + 1 - (i - p) = p + 1 by omega, show i - p = i + 1 - s.order + 1 by omega] at hsum
  have hsum' := congrArg (Polynomial.eval t) hsum
  rw [eval_finsetSum, eval_one] at hsum'
  rw [show cs.length = p + 1 by omega]
  have key : ∀ j ∈ range (p + 1), |(derivative (s.betaPoly i (0 + j + 1))).eval t| * (norm3 ((phiList lg c cs).getD j 0) / 2) ≤
      B / 2 * (piece s.kn i p (i + 1 - s.order + 1 + j)).eval t := by
    intro j hj
    have hj := mem_range.1 hj
    obtain ⟨m, hm⟩ : ∃ m, i + 1 - s.order = m := ⟨_, rfl⟩
    have hnn : 0 ≤ (piece s.kn i p (m + j + 1)).eval t :=
      piece_nonneg s.kn s.keys.length i h.mono t hi.left hi.right_le p _ (by omega)
    have hden : 0 < s.kn (m + j + s.order) - s.kn (m + j + 1) := sub_pos.2 (h.strict (by omega) (by omega))
    have hb := hB (m + j) _ _ _ _ (by omega) (hm ▸ window_getElem hv hl j (by simp; omega))
      (by have := window_getElem hv hl (j + 1) (by simp; omega); rw [hm] at this; exact this)
      (kn_getElem s (by omega)) (kn_getElem s (by omega)) ((h.mono _ _ (by omega) (by omega)).trans hi.left)
      (hi.right_le.trans (h.mono _ _ (by omega) (by omega)))
    rw [qplus_eq, quatInv_eq, List.getElem_cons_succ, show s.order - 1 = p + 1 by omega] at hb
    rw [Nat.zero_add, derivative_betaPoly h hp h1 h2 (by omega), phiList_getD lg cs c j (by omega), hm,
      show m + 1 + j = m + j + 1 by omega]
    simp only [eval_mul, eval_add, eval_natCast, eval_one, eval_C]
    rw [abs_of_nonneg (by positivity)]
    set w := (piece s.kn i p (m + j + 1)).eval t
    generalize norm3 (lg _) = nn at hb ⊢
    set D := s.kn (m + j + s.order) - s.kn (m + j + 1)
    have : ((p : ℝ) + 1) * (1 / D * w) * (nn / 2) = (((p + 1 : ℕ) : ℝ) * nn / D) / 2 * w := by
      push_cast
      field_simp
    rw [this]
    refine mul_le_mul_of_nonneg_right ?_ hnn
    exact div_le_div_of_nonneg_right ((div_le_iff₀ hden).2 hb) (by norm_num)
  refine (sum_le_sum key).trans (le_of_eq ?_)
  rw [← mul_sum, hsum', _root_.mul_one]

/-- **C83**: at every valid time the rate of rotation is at most the greatest rate of the steps between the control vertices in use: the
size of the step times `order - 1` over the time between the knots `j + 1` and `j + order`. -/
theorem C83_rate_limit (lg : ℍ[ℝ] → V3) (order : ℕ) (ho : 2 ≤ order) (s : MSpline ℝ ℍ[ℝ])
    (h : RegularReach (quatGroup lg).toMfd order s) (he : s.state = .evaluable) (nv : ℕ) (hnv : s.numControlVertices = .ok nv)
    (hverts : ∀ v ∈ s.verts.take nv, ‖v‖ = 1) (tmin tmax : ℝ) (hmin : s.getMinTime = .ok tmin)
    (hmax : s.getMaxTime = .ok tmax) (t : ℝ) (h1 : tmin ≤ t) (h2 : t ≤ tmax) (B : ℝ) (hB : s.RateLimit lg nv B t) :
    ∃ w, s.evalAngularVelocity lg t = .ok w ∧ norm3 w ≤ B := by
  obtain ⟨hw, rfl⟩ := h.mwf (by omega)
  rw [numControlVertices_eq hw he, Outcome.ok.injEq] at hnv
  rw [getMinTime_eq hw he, Outcome.ok.injEq] at hmin
  rw [getMaxTime_eq hw he, Outcome.ok.injEq] at hmax
  subst hmin hmax hnv
  obtain ⟨i, hi, -⟩ := getSegmentIterator_ok hw he t h1 h2
  obtain ⟨c, cs, hv⟩ := segVerts_exists hw hi
  have hc : ‖c‖ = 1 := hverts c (segVerts_mem hi _ rfl hv c (by simp))
  refine ⟨_, evalAngular_segQ lg hw he hi hv 1 (Or.inl le_rfl), ?_⟩
  refine (norm3_angL _).trans ?_
  rw [norm_mul, norm_star, segQ_unit lg s i c cs hc t, _root_.one_mul]
  have := norm_segQ_one lg hw ho hi hv hc hB
  linarith

/-! ### The angle between two orientations -/

open Filter Topology InnerProductGeometry in
/-- The angle between two unit vectors and the length of the chord. -/
theorem angle_le_arcsin {p q : ℍ[ℝ]} (hp : ‖p‖ = 1) (hq : ‖q‖ = 1) {δ : ℝ} (hd : ‖p - q‖ ≤ δ) :
    angle p q ≤ 2 * Real.arcsin (δ / 2) := by
  have e := norm_sub_sq_real p q
  have hc := cos_angle_mul_norm_mul_norm p q
  rw [hp, hq, _root_.mul_one, _root_.mul_one] at hc
  rw [hp, hq, ← hc] at e
  have h0 := angle_nonneg p q
  have hpi := angle_le_pi p q
  have hs : Real.sin (angle p q / 2) = ‖p - q‖ / 2 := by
    have hn : 0 ≤ Real.sin (angle p q / 2) := Real.sin_nonneg_of_nonneg_of_le_pi (by linarith) (by linarith)
    have h2 := Real.cos_sq' (angle p q / 2)
    have h3 := Real.cos_two_mul (angle p q / 2)
    rw [show 2 * (angle p q / 2) = angle p q by ring] at h3
    have h4 : (Real.sin (angle p q / 2)) ^ 2 = (‖p - q‖ / 2) ^ 2 := by
      rw [div_pow, e]
      nlinarith
    exact (sq_eq_sq₀ hn (by positivity)).1 h4
  have := Real.arcsin_sin (x := angle p q / 2) (by linarith) (by linarith)
  rw [hs] at this
  have hm := Real.monotone_arcsin (show ‖p - q‖ / 2 ≤ δ / 2 by linarith)
  linarith

open Filter Topology in
/-- Many small arcs are as long as their chords. -/
theorem tendsto_arcsin (y : ℝ) : Tendsto (fun N : ℕ => (N : ℝ) * (2 * Real.arcsin (y / N))) atTop (𝓝 (2 * y)) := by
  rcases eq_or_ne y 0 with rfl | hy
  · simp
  have hd : HasDerivAt Real.arcsin 1 0 := by
    have := Real.hasDerivAt_arcsin (x := 0) (by norm_num) (by norm_num)
    simpa using this
  have hslope := hasDerivAt_iff_tendsto_slope_zero.1 hd
  have hy0 : Tendsto (fun N : ℕ => y / (N : ℝ)) atTop (𝓝[≠] 0) := by
    refine tendsto_nhdsWithin_iff.2 ⟨tendsto_const_div_atTop_nhds_zero_nat y, ?_⟩
    filter_upwards [eventually_gt_atTop 0] with N hN
    exact div_ne_zero hy (by exact_mod_cast hN.ne')
  have := (hslope.comp hy0).const_mul (2 * y)
  rw [_root_.mul_one] at this
  refine this.congr' ?_
  filter_upwards [eventually_gt_atTop 0] with N hN
  have hN' : (N : ℝ) ≠ 0 := by exact_mod_cast hN.ne'
  simp only [Function.comp_apply, zero_add, Real.arcsin_zero, sub_zero, smul_eq_mul]
  field_simp

open Filter Topology InnerProductGeometry in
/-- A curve on the unit sphere with bounded speed: the angle is bounded by the length. -/
theorem angle_le_of_lipschitz {q : ℝ → ℍ[ℝ]} {a b L : ℝ} (hab : a ≤ b) (hu : ∀ x ∈ Set.Icc a b, ‖q x‖ = 1)
    (hl : ∀ x ∈ Set.Icc a b, ∀ y ∈ Set.Icc a b, x ≤ y → ‖q y - q x‖ ≤ L * (y - x)) : angle (q a) (q b) ≤ L * (b - a) := by
  have key : ∀ N : ℕ, 0 < N → angle (q a) (q b) ≤ (N : ℝ) * (2 * Real.arcsin (L * (b - a) / 2 / N)) := by
    intro N hN
    have hN' : (0 : ℝ) < N := by exact_mod_cast hN
    have hmem : ∀ n : ℕ, n ≤ N → a + n * ((b - a) / N) ∈ Set.Icc a b := by
      intro n hn
      have hn' : (n : ℝ) ≤ N := by exact_mod_cast hn
      have h0 : 0 ≤ (b - a) / N := div_nonneg (by linarith) hN'.le
      refine ⟨by have := mul_nonneg (Nat.cast_nonneg (α := ℝ) n) h0; linarith, ?_⟩
      have : (n : ℝ) * ((b - a) / N) ≤ N * ((b - a) / N) := mul_le_mul_of_nonneg_right hn' h0
      rw [mul_div_cancel₀ _ hN'.ne'] at this
      linarith
    have ind : ∀ n : ℕ, n ≤ N → angle (q a) (q (a + n * ((b - a) / N))) ≤ (n : ℝ) * (2 * Real.arcsin (L * (b - a) / 2 / N)) := by
      intro n
      induction n with
      | zero =>
        intro _
        have hne : q a ≠ 0 := by
          intro h0
          have := hu a ⟨le_rfl, hab⟩
          rw [h0, norm_zero] at this
          exact zero_ne_one this
        simp [angle_self hne]
      | succ n ih =>
        intro hn
        have m1 := hmem n (by omega)
        have m2 := hmem (n + 1) hn
        have h1 := ih (by omega)
        have hstep : a + ((n + 1 : ℕ) : ℝ) * ((b - a) / N) - (a + n * ((b - a) / N)) = (b - a) / N := by push_cast; ring
        have h2 : angle (q (a + n * ((b - a) / N))) (q (a + ((n + 1 : ℕ) : ℝ) * ((b - a) / N))) ≤ 2 * Real.arcsin (L * (b - a) / 2 / N) := by
          have := hl _ m1 _ m2 (by
            have h0 : 0 ≤ (b - a) / N := div_nonneg (by linarith) hN'.le
            linarith)
          rw [hstep, norm_sub_rev] at this
          have := angle_le_arcsin (hu _ m1) (hu _ m2) this
          rwa [show L * ((b - a) / N) / 2 = L * (b - a) / 2 / N by ring] at this
        have h3 := angle_le_angle_add_angle (q a) (q (a + n * ((b - a) / N))) (q (a + ((n + 1 : ℕ) : ℝ) * ((b - a) / N)))
        push_cast at h2 h3 ⊢
        linarith
    have := ind N le_rfl
    rwa [mul_div_cancel₀ _ hN'.ne', add_sub_cancel] at this
  have hlim := tendsto_arcsin (L * (b - a) / 2)
  rw [show 2 * (L * (b - a) / 2) = L * (b - a) by ring] at hlim
  refine ge_of_tendsto hlim ?_
  filter_upwards [eventually_gt_atTop 0] with N hN
  exact key N hN

/-- **C83**: between two valid times a rotation turns by no more than the time between them multiplied with the greatest rate of the steps
between control vertices.  The angle between two unit quaternions is half the angle between the orientations. -/
theorem C83_turn_limit (lg : ℍ[ℝ] → V3) (order : ℕ) (ho : 2 ≤ order) (s : MSpline ℝ ℍ[ℝ])
    (h : RegularReach (quatGroup lg).toMfd order s) (he : s.state = .evaluable) (nv : ℕ) (hnv : s.numControlVertices = .ok nv)
    (hverts : ∀ v ∈ s.verts.take nv, ‖v‖ = 1) (hlog : s.LogInverse lg nv) (tmin tmax : ℝ) (hmin : s.getMinTime = .ok tmin)
    (hmax : s.getMaxTime = .ok tmax) (t₁ t₂ : ℝ) (h1 : tmin ≤ t₁) (h12 : t₁ ≤ t₂) (h2 : t₂ ≤ tmax) (B : ℝ)
    (hB : ∀ t, t₁ ≤ t → t ≤ t₂ → s.RateLimit lg nv B t) :
    ∃ q₁ q₂, s.quatEvalD lg t₁ 0 = .ok q₁ ∧ s.quatEvalD lg t₂ 0 = .ok q₂ ∧ ‖q₂ - q₁‖ ≤ B / 2 * (t₂ - t₁) ∧
      InnerProductGeometry.angle q₁ q₂ ≤ B / 2 * (t₂ - t₁) := by
  obtain ⟨hok, hcont⟩ := C70_quaternion_continuous lg order s h he nv hnv hverts hlog tmin tmax hmin hmax 0 (by omega) (by omega)
  have hone := (C29_one_sided_partial lg order ho s h he tmin tmax hmin hmax 0 (by omega)).1
  obtain ⟨hw, rfl⟩ := h.mwf (by omega)
  rw [numControlVertices_eq hw he, Outcome.ok.injEq] at hnv
  rw [getMinTime_eq hw he, Outcome.ok.injEq] at hmin
  rw [getMaxTime_eq hw he, Outcome.ok.injEq] at hmax
  subst hmin hmax hnv
  simp only [Nat.cast_zero, zero_add] at hok hcont hone
  have hunit : ∀ x, s.kn (s.order - 1) ≤ x → x ≤ s.kn (s.keys.length - s.order) → ‖(s.quatEvalD lg x 0).getD 0‖ = 1 := by
    intro x b1 b2
    obtain ⟨i, hi, -⟩ := getSegmentIterator_ok hw he x b1 b2
    obtain ⟨c, cs, hv⟩ := segVerts_exists hw hi
    have e0 := quatEvalD_segQ lg hw he hi hv 0 (Or.inl (by omega))
    rw [Nat.cast_zero] at e0
    rw [e0]
    exact segQ_unit lg s i c cs (hverts c (segVerts_mem hi _ rfl hv c (by simp))) x
  have hlip : ∀ x ∈ Set.Icc t₁ t₂, ∀ y ∈ Set.Icc t₁ t₂, x ≤ y →
      ‖(s.quatEvalD lg y 0).getD 0 - (s.quatEvalD lg x 0).getD 0‖ ≤ B / 2 * (y - x) := by
    intro x hx y hy hxy
    refine norm_image_sub_le_of_norm_deriv_right_le_segment (f := fun x => (s.quatEvalD lg x 0).getD 0)
      (f' := fun x => (s.quatEvalD lg x 1).getD 0) (hcont.mono fun z hz => ⟨(h1.trans hx.1).trans hz.1, hz.2.trans (hy.2.trans h2)⟩)
      (fun z hz => ?_) (fun z hz => ?_) y ⟨hxy, le_rfl⟩
    · obtain ⟨v, hv, hd⟩ := hone z ((h1.trans hx.1).trans hz.1) (hz.2.trans_le (hy.2.trans h2))
      simp only [hv]
      exact hd
    · obtain ⟨i, hi, -⟩ := getSegmentIterator_ok hw he z ((h1.trans hx.1).trans hz.1) (hz.2.le.trans (hy.2.trans h2))
      obtain ⟨c, cs, hv⟩ := segVerts_exists hw hi
      have e1 := quatEvalD_segQ lg hw he hi hv 1 (Or.inl (by omega))
      rw [Nat.cast_one] at e1
      simp only [e1]
      exact norm_segQ_one lg hw ho hi hv (hverts c (segVerts_mem hi _ rfl hv c (by simp)))
        (hB z (hx.1.trans hz.1) (hz.2.le.trans hy.2))
  obtain ⟨q₁, e₁⟩ := hok t₁ ⟨h1, h12.trans h2⟩
  obtain ⟨q₂, e₂⟩ := hok t₂ ⟨h1.trans h12, h2⟩
  refine ⟨q₁, q₂, e₁, e₂, ?_, ?_⟩
  · have := hlip t₁ ⟨le_rfl, h12⟩ t₂ ⟨h12, le_rfl⟩ h12
    rwa [e₁, e₂] at this
  · have := angle_le_of_lipschitz h12 (fun x hx => hunit x (h1.trans hx.1) (hx.2.trans h2)) hlip
    rwa [e₁, e₂] at this

/-! ### Rotations of constant rate -/

theorem exp_add_smul (a b : ℝ) (V : ℍ[ℝ]) : NormedSpace.exp ((a + b) • V) = NormedSpace.exp (a • V) * NormedSpace.exp (b • V) := by
  rw [add_smul]
  exact NormedSpace.exp_add_of_commute_of_mem_ball (𝕂 := ℝ) (((Commute.refl V).smul_left a).smul_right b)
    ((NormedSpace.expSeries_radius_eq_top ℝ ℍ[ℝ]).symm ▸ edist_lt_top _ _) ((NormedSpace.expSeries_radius_eq_top ℝ ℍ[ℝ]).symm ▸ edist_lt_top _ _)

theorem star_exp (x : ℝ) (φ : V3) : star (NormedSpace.exp (x • quatV φ)) = NormedSpace.exp (-x • quatV φ) := by
  have hu : ‖NormedSpace.exp (x • quatV φ)‖ = 1 := by rw [← quatV_smul, ← axisAngle2quat_eq, norm_axisAngle2quat]
  have e2 := exp_add_smul x (-x) (quatV φ)
  rw [add_neg_cancel, zero_smul, NormedSpace.exp_zero] at e2
  have e3 := congrArg (fun z => star (NormedSpace.exp (x • quatV φ)) * z) e2
  rw [_root_.mul_one, ← mul_assoc, unit_star_mul hu, _root_.one_mul] at e3
  exact e3

/-- Factors about the same axis. -/
theorem dProd_axis (β : ℕ → ℝ[X]) (φ : V3) (x : ℝ) : ∀ (γ : List ℝ) (k : ℕ),
    dProd ((factorsFrom β k (γ.map fun g => g • φ)).map fun f e => f e x) 0 =
      NormedSpace.exp ((∑ j ∈ range γ.length, γ.getD j 0 * (β (k + j + 1)).eval x) • quatV φ)
  | [], k => by simp [factorsFrom, dProd]
  | g :: γ, k => by
    simp only [List.map_cons, factorsFrom]
    rw [dProd_zero, dProd_axis β φ x γ (k + 1), List.length_cons, sum_range_succ']
    simp only [rD]
    rw [quatV_smul, smul_smul, exp_add_smul]
    congr 2
    · congr 1
      refine sum_congr rfl fun j _ => ?_
      rw [show k + 1 + j + 1 = k + (j + 1) + 1 by omega, List.getD_cons_succ]
    · rw [List.getD_cons_zero, mul_comm]
      rfl

/-- The average of the knots `j + 1` to `j + order - 1`. -/
noncomputable def center (s : MSpline ℝ ℍ[ℝ]) (j : ℕ) : ℝ := (∑ l ∈ range (s.order - 1), s.keys.getD (j + 1 + l) 0) / ((s.order - 1 : ℕ) : ℝ)

theorem keys_getD {s : MSpline ℝ ℍ[ℝ]} {j : ℕ} (hj : j < s.keys.length) : s.keys.getD j 0 = s.kn j := by
  have := kn_getElem s hj
  rw [List.getD_eq_getElem?_getD, this]
  rfl

/-- The cumulative weights applied to the steps between the centers. -/
theorem beta_linear {s : MSpline ℝ ℍ[ℝ]} (h : s.MWF) (ho : 2 ≤ s.order) {i : ℕ} (h1 : s.order ≤ i + 1) (h2 : i + s.order < s.keys.length)
    (x : ℝ) : ∑ j ∈ range (s.order - 1), (s.center (i + 1 - s.order + j + 1) - s.center (i + 1 - s.order + j)) *
      (s.betaPoly i (j + 1)).eval x = x - s.center (i + 1 - s.order) := by
  have hlt := h.strict (a := i) (b := i + 1) (by omega) (by omega)
  obtain ⟨m, hm⟩ : ∃ m, i + 1 - s.order = m := ⟨_, rfl⟩
  have hone := congrArg (Polynomial.eval x) (beta_zero h h1 h2)
  have hlin := congrArg (Polynomial.eval x) (piece_linear s.kn s.keys.length i h.mono hlt (s.order - 1) (by omega) (by omega))
  rw [sum_Ico_eq_sum_range, show i + 1 - (i - (s.order - 1)) = s.order by omega, show i - (s.order - 1) = m by omega, eval_finsetSum] at hlin
  unfold betaPoly at hone ⊢
  rw [hm] at hone ⊢
  rw [eval_finsetSum, Nat.Ico_zero_eq_range] at hone
  simp only [eval_mul, eval_C, eval_X, eval_one, eval_finsetSum] at hlin hone ⊢
  have hk0 : ((s.order - 1 : ℕ) : ℝ) ≠ 0 := by
    have : s.order - 1 ≠ 0 := by omega
    exact_mod_cast this
  have hcen : ∀ j, j < s.order → knotSum s.kn (s.order - 1) (m + j) = ((s.order - 1 : ℕ) : ℝ) * s.center (m + j) := by
    intro j hj
    unfold center knotSum
    rw [mul_div_cancel₀ _ hk0]
    refine sum_congr rfl fun l hl => ?_
    have := mem_range.1 hl
    rw [keys_getD (by omega)]
  have hlin' : ∑ j ∈ range s.order, s.center (m + j) * (piece s.kn i (s.order - 1) (m + j)).eval x = x := by
    have : ((s.order - 1 : ℕ) : ℝ) * ∑ j ∈ range s.order, s.center (m + j) * (piece s.kn i (s.order - 1) (m + j)).eval x =
        ((s.order - 1 : ℕ) : ℝ) * x := by
      rw [← hlin, mul_sum]
      refine sum_congr rfl fun j hj => ?_
      rw [hcen j (mem_range.1 hj)]
      ring
    exact mul_left_cancel₀ hk0 this
  have e : ∀ (n : ℕ) (g w : ℕ → ℝ), ∑ j ∈ range n, (g (j + 1) - g j) * ∑ c ∈ Ico (j + 1) (n + 1), w c =
      ∑ c ∈ range (n + 1), g c * w c - g 0 * ∑ c ∈ range (n + 1), w c := by
    intro n g w
    induction n with
    | zero => simp
    | succ n ih =>
      rw [sum_range_succ]
      have : ∀ j ∈ range n, (g (j + 1) - g j) * ∑ c ∈ Ico (j + 1) (n + 1 + 1), w c =
          (g (j + 1) - g j) * ∑ c ∈ Ico (j + 1) (n + 1), w c + (g (j + 1) - g j) * w (n + 1) := by
        intro j hj
        have := mem_range.1 hj
        rw [sum_Ico_succ_top (by omega)]
        ring
      rw [sum_congr rfl this, sum_add_distrib, ih, ← sum_mul, sum_range_sub g, sum_Ico_succ_top (by omega), Ico_self, sum_empty,
        sum_range_succ _ (n + 1), sum_range_succ _ (n + 1)]
      ring
  have := e (s.order - 1) (fun j => s.center (m + j)) (fun c => (piece s.kn i (s.order - 1) (m + c)).eval x)
  rw [show s.order - 1 + 1 = s.order by omega] at this
  simp only [← Nat.add_assoc] at this
  rw [this, hlin', hone, _root_.mul_one]
  rfl

/-- The control vertices of a rotation with the constant rate `φ`, as quaternions starting from `q₀`: each one is the rotation at the average
of the `order - 1` knots it belongs to. -/
def Steady (lg : ℍ[ℝ] → V3) (s : MSpline ℝ ℍ[ℝ]) (nv : ℕ) (φ : V3) (q₀ : ℍ[ℝ]) : Prop :=
  (∀ j, j < nv → s.verts[j]? = some (qplus q₀ (axisAngle2quat (s.center j • φ)))) ∧
  ∀ j, j + 1 < nv → lg (axisAngle2quat ((s.center (j + 1) - s.center j) • φ)) = (s.center (j + 1) - s.center j) • φ

theorem segQ_steady (lg : ℍ[ℝ] → V3) {s : MSpline ℝ ℍ[ℝ]} (h : s.MWF) (ho : 2 ≤ s.order) {t : ℝ} {i : ℕ} (hi : s.InSeg t i)
    {c : ℍ[ℝ]} {cs : List ℍ[ℝ]} (hv : (s.verts.drop (i + 1 - s.order)).take s.order = c :: cs) {φ : V3} {q₀ : ℍ[ℝ]} (hq : ‖q₀‖ = 1)
    (hst : s.Steady lg (s.keys.length - s.order) φ q₀) (x : ℝ) :
    s.segQ lg i c cs 0 x = NormedSpace.exp (x • quatV φ) * q₀ := by
  have h1 := hi.lower
  have h2 := hi.upper
  have hl := segVerts_length hi hv
  obtain ⟨m, hm⟩ : ∃ m, i + 1 - s.order = m := ⟨_, rfl⟩
  have hvert : ∀ j (hj : j < (c :: cs).length), (c :: cs)[j] = NormedSpace.exp (s.center (m + j) • quatV φ) * q₀ := by
    intro j hj
    have e1 := window_getElem hv hl j hj
    rw [hm, hst.1 (m + j) (by simp at hj; omega), Option.some.injEq, qplus_eq, axisAngle2quat_eq, quatV_smul] at e1
    exact e1.symm
  have hphi : phiList lg c cs = ((List.range (s.order - 1)).map fun j => s.center (m + j + 1) - s.center (m + j)).map fun g => g • φ := by
    apply List.ext_getElem
    · rw [phiList_length]; simp; omega
    · intro j hj1 hj2
      have hj : j < cs.length := by rwa [phiList_length] at hj1
      have e := phiList_getD lg cs c j hj
      rw [List.getD_eq_getElem?_getD, List.getElem?_eq_getElem hj1, Option.getD_some] at e
      rw [e]
      have a1 := hvert (j + 1) (by simp; omega)
      rw [List.getElem_cons_succ] at a1
      rw [a1, hvert j (by simp; omega), star_mul, ← mul_assoc, mul_assoc _ q₀, unit_mul_star hq, _root_.mul_one]
      rw [star_exp, ← exp_add_smul, ← sub_eq_add_neg, ← quatV_smul, ← axisAngle2quat_eq, show m + (j + 1) = m + j + 1 by omega,
        hst.2 (m + j) (by omega)]
      simp
  have hc : c = NormedSpace.exp (s.center m • quatV φ) * q₀ := hvert 0 (by simp)
  unfold segQ segFactors
  rw [hphi, dProd_axis, hc, ← mul_assoc, ← exp_add_smul]
  congr 3
  have hb := beta_linear h ho h1 h2 x
  rw [hm] at hb
  rw [List.length_map, List.length_range, ← eq_sub_iff_add_eq, ← hb]
  refine sum_congr rfl fun j hj => ?_
  have := mem_range.1 hj
  rw [Nat.zero_add, List.getD_eq_getElem?_getD, List.getElem?_map, List.getElem?_range this]
  rfl

/-- **C83**: a rotation of constant rate is reproduced.  If each control vertex is the rotation at the average of its knots and the logarithm
recovers the steps between them, the curve is the rotation at all valid times.  The angular velocity is constant and as great as the
given rate, and the angular acceleration is zero. -/
theorem C83_steady (lg : ℍ[ℝ] → V3) (order : ℕ) (ho : 2 ≤ order) (s : MSpline ℝ ℍ[ℝ])
    (h : RegularReach (quatGroup lg).toMfd order s) (he : s.state = .evaluable) (nv : ℕ) (hnv : s.numControlVertices = .ok nv)
    (φ : V3) (q₀ : ℍ[ℝ]) (hq : ‖q₀‖ = 1) (hst : s.Steady lg nv φ q₀) (tmin tmax : ℝ) (hmin : s.getMinTime = .ok tmin)
    (hmax : s.getMaxTime = .ok tmax) :
    ∃ w, quatV w = star q₀ * quatV φ * q₀ ∧ norm3 w = norm3 φ ∧ ∀ t, tmin ≤ t → t ≤ tmax →
      s.quatEvalD lg t 0 = .ok (qplus q₀ (axisAngle2quat (t • φ))) ∧ s.evalAngularVelocity lg t = .ok w ∧
      s.evalAngularAcceleration lg t = .ok 0 := by
  obtain ⟨hw, rfl⟩ := h.mwf (by omega)
  rw [numControlVertices_eq hw he, Outcome.ok.injEq] at hnv
  rw [getMinTime_eq hw he, Outcome.ok.injEq] at hmin
  rw [getMaxTime_eq hw he, Outcome.ok.injEq] at hmax
  subst hmin hmax hnv
  have hre : (star q₀ * quatV φ * q₀).re = 0 := by
    simp only [Quaternion.re_mul, Quaternion.imI_mul, Quaternion.imJ_mul, Quaternion.imK_mul, Quaternion.re_star, Quaternion.imI_star,
      Quaternion.imJ_star, Quaternion.imK_star, quatV_re, quatV_imI, quatV_imJ, quatV_imK]
    ring
  have hwv := quatV_angL _ hre
  refine ⟨angL (star q₀ * quatV φ * q₀), hwv, ?_, fun t h1 h2 => ?_⟩
  · have h1 := norm_quatV (angL (star q₀ * quatV φ * q₀))
    rw [hwv, norm_mul, norm_mul, norm_star, hq, norm_quatV] at h1
    linarith
  obtain ⟨i, hi, -⟩ := getSegmentIterator_ok hw he t h1 h2
  obtain ⟨c, cs, hv⟩ := segVerts_exists hw hi
  have e0 : s.segQ lg i c cs 0 = fun x => NormedSpace.exp (x • quatV φ) * q₀ := funext (segQ_steady lg hw ho hi hv hq hst)
  have hder : ∀ (A : ℍ[ℝ]) (x : ℝ), HasDerivAt (fun x => NormedSpace.exp (x • quatV φ) * A) (NormedSpace.exp (x • quatV φ) * (quatV φ * A)) x := by
    intro A x
    have := (hasDerivAt_exp_smul_const (𝕂 := ℝ) (quatV φ) x).mul_const A
    rwa [mul_assoc] at this
  have e1 : s.segQ lg i c cs 1 = fun x => NormedSpace.exp (x • quatV φ) * (quatV φ * q₀) := by
    funext x
    have := segQ_deriv lg s i c cs x 0 (by omega)
    rw [e0] at this
    exact this.unique (hder q₀ x)
  have e2 : s.segQ lg i c cs 2 = fun x => NormedSpace.exp (x • quatV φ) * (quatV φ * (quatV φ * q₀)) := by
    funext x
    have := segQ_deriv lg s i c cs x 1 (by omega)
    rw [e1] at this
    exact this.unique (hder _ x)
  have hu : ‖NormedSpace.exp (t • quatV φ)‖ = 1 := by rw [← quatV_smul, ← axisAngle2quat_eq, norm_axisAngle2quat]
  have hcancel : ∀ A, star (NormedSpace.exp (t • quatV φ) * q₀) * (NormedSpace.exp (t • quatV φ) * A) = star q₀ * A := by
    intro A
    rw [star_mul, mul_assoc, ← mul_assoc (star (NormedSpace.exp _)), unit_star_mul hu, _root_.one_mul]
  refine ⟨?_, ?_, ?_⟩
  · have := quatEvalD_segQ lg hw he hi hv 0 (Or.inl (by omega))
    rw [Nat.cast_zero] at this
    rw [this, e0, qplus_eq, axisAngle2quat_eq, quatV_smul]
  · unfold evalAngularVelocity
    have := evalAngular_segQ lg hw he hi hv 1 (Or.inl le_rfl)
    rw [this, e0, e1, hcancel, mul_assoc]
  · unfold evalAngularAcceleration
    have := evalAngular_segQ lg hw he hi hv 2 (Or.inr ⟨ho, le_rfl⟩)
    rw [this, e0, e2, hcancel]
    congr 1
    have hsq : quatV φ * quatV φ = ((-(norm3 φ / 2) ^ 2 : ℝ) : ℍ[ℝ]) := by
      have hn : ‖quatV φ‖ ^ 2 = (φ 0 / 2) ^ 2 + (φ 1 / 2) ^ 2 + (φ 2 / 2) ^ 2 := by
        rw [pow_two, ← Quaternion.normSq_eq_norm_mul_self, Quaternion.normSq_def']
        simp
      rw [norm_quatV] at hn
      ext
      · simp only [Quaternion.re_mul, quatV_re, quatV_imI, quatV_imJ, quatV_imK, Quaternion.re_coe]
        rw [hn]
        ring
      all_goals
        simp only [Quaternion.imI_mul, Quaternion.imJ_mul, Quaternion.imK_mul, quatV_re, quatV_imI, quatV_imJ, quatV_imK, Quaternion.imI_coe,
          Quaternion.imJ_coe, Quaternion.imK_coe]
        ring
    rw [← mul_assoc (quatV φ), hsq, ← mul_assoc, ← Quaternion.coe_commutes, mul_assoc, unit_star_mul hq, _root_.mul_one]
    generalize -(norm3 φ / 2) ^ 2 = r
    funext l
    fin_cases l <;> simp [angL, qeps]

/-! ### Examples -/

/-- The logarithm recovers every rotation vector shorter than a full turn. -/
theorem arcLog_exp {v : V3} (h0 : 0 < norm3 v) (h1 : norm3 v < 2 * Real.pi) : arcLog (axisAngle2quat v) = v := by
  have hs : 0 < Real.sin (norm3 v / 2) := Real.sin_pos_of_pos_of_lt_pi (by linarith) (by linarith)
  have hre : (axisAngle2quat v).re = Real.cos (norm3 v / 2) := by
    unfold axisAngle2quat
    simp [h0.ne']
  have hang : angL (axisAngle2quat v) = (2 * (Real.sin (norm3 v / 2) / norm3 v)) • v := by
    unfold axisAngle2quat
    funext l
    fin_cases l <;> simp [angL, qeps, h0.ne'] <;> ring
  unfold arcLog
  rw [hre, hang, Real.arccos_cos (by linarith) (by linarith), ← Real.sin_sq, Real.sqrt_sq hs.le, smul_smul]
  have : norm3 v / 2 / Real.sin (norm3 v / 2) * (2 * (Real.sin (norm3 v / 2) / norm3 v)) = 1 := by
    field_simp
  rw [this, one_smul]

theorem norm3_smul (c : ℝ) (v : V3) : norm3 (c • v) = |c| * norm3 v := by
  have h1 := norm_quatV (c • v)
  rw [quatV_smul, norm_smul, norm_quatV, Real.norm_eq_abs] at h1
  linarith

/-- The rate of the examples: one radian per unit of time. -/
noncomputable def exRate : V3 := ![3 / 5, 4 / 5, 0]

theorem norm3_exRate : norm3 exRate = 1 := by
  unfold norm3 exRate
  rw [Real.sqrt_eq_one]
  simp
  norm_num

theorem exRate_log (x : ℝ) (h0 : 0 < x) (h1 : x < 4) : arcLog (axisAngle2quat (x • exRate)) = x • exRate := by
  have hn : norm3 (x • exRate) = x := by rw [norm3_smul, norm3_exRate, abs_of_pos h0, _root_.mul_one]
  have := Real.two_le_pi
  exact arcLog_exp (by rw [hn]; exact h0) (by rw [hn]; linarith)

/-- The control vertices of the rotation over the knots 0, 1, 2, 4, 7, 8, 9 with order 3. -/
noncomputable def exSteady : List ℍ[ℝ] := [3 / 2, 3, 11 / 2, 15 / 2].map fun x : ℝ => qplus quatI (axisAngle2quat (x • exRate))

theorem exSteady_unit : ∀ c ∈ exSteady, ‖c‖ = 1 := by
  intro c hc
  obtain ⟨x, -, rfl⟩ := List.mem_map.1 hc
  rw [qplus_eq, norm_mul, norm_axisAngle2quat, norm_quatI, _root_.mul_one]

theorem exSteady_steady {s : MSpline ℝ ℍ[ℝ]} (ho : s.order = 3) (hk : s.keys = [0, 1, 2, 4, 7, 8, 9]) (hv : s.verts.take 4 = exSteady) :
    s.Steady arcLog 4 exRate quatI := by
  have hcen : ∀ j, j < 4 → [3 / 2, 3, 11 / 2, 15 / 2][j]? = some (s.center j) := by
    intro j hj
    unfold center
    rw [ho, hk]
    obtain rfl | rfl | rfl | rfl : j = 0 ∨ j = 1 ∨ j = 2 ∨ j = 3 := by omega
    all_goals simp [sum_range_succ]; try norm_num
  constructor
  · intro j hj
    have : (s.verts.take 4)[j]? = exSteady[j]? := by rw [hv]
    rw [List.getElem?_take_of_lt hj] at this
    rw [this, exSteady, List.getElem?_map, hcen j hj]
    rfl
  · intro j hj
    have c0 := hcen j (by omega)
    have c1 := hcen (j + 1) hj
    obtain rfl | rfl | rfl : j = 0 ∨ j = 1 ∨ j = 2 := by omega
    all_goals
      simp only [List.getElem?_cons_zero, List.getElem?_cons_succ, Option.some.injEq, Nat.zero_add, Nat.reduceAdd] at c0 c1 ⊢
      rw [← c0, ← c1]
      exact exRate_log _ (by norm_num) (by norm_num)

/-- C83 applies to a rotation by one radian per unit of time, sampled at uneven knots. -/
example : ∃ s : MSpline ℝ ℍ[ℝ], s.verts.take 4 = exSteady ∧ ∃ w, norm3 w = 1 ∧ ∀ t, 2 ≤ t → t ≤ 7 →
    s.quatEvalD arcLog t 0 = .ok (qplus quatI (axisAngle2quat (t • exRate))) ∧ s.evalAngularVelocity arcLog t = .ok w ∧
    s.evalAngularAcceleration arcLog t = .ok 0 := by
  obtain ⟨s, g1, g2, g3, g4, g5, g6, g7⟩ := quat_spline_exists arcLog 3 (by norm_num) [0, 1, 2, 4, 7, 8, 9] exSteady (by
    simp [List.pairwise_cons]; norm_num) rfl (by decide) exSteady_unit
  have hord := (g1.mwf (by norm_num)).2
  obtain ⟨w, -, hw, hs⟩ := C83_steady arcLog 3 (by norm_num) s g1 g2 4 g4 exRate quatI norm_quatI (exSteady_steady hord g3 g5) 2 7 g6 g7
  exact ⟨s, g5, w, by rw [hw, norm3_exRate], hs⟩

/-- The limits apply to it with the rate one. -/
theorem exSteady_limit {s : MSpline ℝ ℍ[ℝ]} (ho : s.order = 3) (hk : s.keys = [0, 1, 2, 4, 7, 8, 9]) (hv : s.verts.take 4 = exSteady) (t : ℝ) :
    s.RateLimit arcLog 4 1 t ∧ s.LogInverse arcLog 4 := by
  obtain ⟨hs1, hs2⟩ := exSteady_steady ho hk hv
  have hstep : ∀ j a b, j + 1 < 4 → s.verts[j]? = some a → s.verts[j + 1]? = some b →
      qplus (quatInv a) b = axisAngle2quat ((s.center (j + 1) - s.center j) • exRate) := by
    intro j a b hj ha hb
    rw [hs1 j (by omega), Option.some.injEq] at ha
    rw [hs1 (j + 1) hj, Option.some.injEq] at hb
    subst ha hb
    have hinv : ∀ x : ℝ, star (axisAngle2quat (x • exRate)) = axisAngle2quat (-x • exRate) := by
      intro x
      rw [axisAngle2quat_eq, axisAngle2quat_eq, quatV_smul, quatV_smul, star_exp]
    rw [qplus_eq, qplus_eq, qplus_eq, quatInv_eq, star_mul, hinv, ← mul_assoc, mul_assoc _ quatI, unit_mul_star norm_quatI, _root_.mul_one,
      axisAngle2quat_eq, axisAngle2quat_eq, axisAngle2quat_eq, quatV_smul, quatV_smul, quatV_smul, ← exp_add_smul, ← sub_eq_add_neg]
  constructor
  · intro j a b τ₁ τ₂ hj ha hb hτ1 hτ2 _ _
    rw [hstep j a b hj ha hb, hs2 j hj, norm3_smul, norm3_exRate]
    rw [ho, hk] at hτ2
    rw [hk] at hτ1
    unfold center
    rw [ho, hk]
    obtain rfl | rfl | rfl : j = 0 ∨ j = 1 ∨ j = 2 := by omega
    all_goals
      simp at hτ1 hτ2
      subst hτ1 hτ2
      simp [sum_range_succ]
      norm_num [abs_of_pos]
  · intro j a b hj ha hb
    rw [hstep j a b hj ha hb, hs2 j hj]

example : ∃ s : MSpline ℝ ℍ[ℝ], s.verts.take 4 = exSteady ∧ (∃ w, s.evalAngularVelocity arcLog 4 = .ok w ∧ norm3 w ≤ 1) ∧
    ∃ q₁ q₂, s.quatEvalD arcLog 3 0 = .ok q₁ ∧ s.quatEvalD arcLog 6 0 = .ok q₂ ∧ ‖q₂ - q₁‖ ≤ 1 / 2 * (6 - 3) ∧
      InnerProductGeometry.angle q₁ q₂ ≤ 1 / 2 * (6 - 3) := by
  obtain ⟨s, g1, g2, g3, g4, g5, g6, g7⟩ := quat_spline_exists arcLog 3 (by norm_num) [0, 1, 2, 4, 7, 8, 9] exSteady (by
    simp [List.pairwise_cons]; norm_num) rfl (by decide) exSteady_unit
  have hord := (g1.mwf (by norm_num)).2
  have hu : ∀ v ∈ s.verts.take 4, ‖v‖ = 1 := by
    have : s.verts.take 4 = exSteady := g5
    rw [this]
    exact exSteady_unit
  refine ⟨s, g5, ?_, ?_⟩
  · exact C83_rate_limit arcLog 3 (by norm_num) s g1 g2 4 g4 hu 2 7 g6 g7 4 (by norm_num) (by norm_num) 1 (exSteady_limit hord g3 g5 4).1
  · exact C83_turn_limit arcLog 3 (by norm_num) s g1 g2 4 g4 hu (exSteady_limit hord g3 g5 0).2 2 7 g6 g7 3 6 (by norm_num) (by norm_num)
      (by norm_num) 1 fun t _ _ => (exSteady_limit hord g3 g5 t).1

end Verif.MSpline
