import Verif.Model.MotionErrorFactory
import Verif.Lemmas.Svd
import Verif.Props.MotionError
import Verif.Props.SegmentViews
import Verif.Props.SplineVariables

/-!
# Property C64: the motion error terms made by the factory
-/

set_option linter.unusedSectionVars false

namespace Verif

open Finset Polynomial BSpline MeasureTheory SplineVars MotionError

variable {D : ℕ}

/-- The weighted square of the `der`-th derivative of the curve, integrated over `[a, b]`. -/
noncomputable def energy (s : BSpline ℝ D) (W : Mat ℝ) (der : ℕ) (a b : ℝ) : ℝ :=
  ∫ t in a..b, ∑ d : Fin D, ∑ e : Fin D, W d e * ((s.evalD t der).getD 0 d * (s.evalD t der).getD 0 e)

/-- The same knots and as many coefficients. -/
structure SameShape (s s' : BSpline ℝ D) : Prop where
  order : s'.order = s.order
  knots : s'.knots = s.knots
  basis : s'.basis = s.basis
  length : s'.coeffs.length = s.coeffs.length

/-- The singular value decomposition is right. -/
def SvdSound (svd : SvdSolver) : Prop := ∀ n Q, IsSvd n Q (svd n Q).1 (svd n Q).2

/-- A weight matrix: symmetric and positive semidefinite. -/
structure GoodWeight (D : ℕ) (W : Mat ℝ) : Prop where
  symm : ∀ r < D, ∀ c < D, W r c = W c r
  psd : ∀ y : ℕ → ℝ, 0 ≤ ∑ d ∈ range D, ∑ e ∈ range D, y d * W d e * y e

theorem GoodWeight.accepted {W : Mat ℝ} (h : GoodWeight D W) : AcceptedWeight D W := by
  intro r hr c hc
  rw [h.symm r hr c hc, sub_self, abs_zero]
  norm_num

theorem SameShape.eq {s s' : BSpline ℝ D} (h : SameShape s s') : s' = withCoeffs s s'.coeffs := by
  obtain ⟨h1, h2, h3, h4⟩ := h
  cases s'
  simp only at h1 h2 h3
  subst h1 h2 h3
  rfl

theorem SameShape.wf {s s' : BSpline ℝ D} (h : SameShape s s') (hs : s.WF) : s'.WF := by
  rw [h.eq]
  exact WF.withCoeffs hs s'.coeffs h.length

theorem SameShape.wide {s s' : BSpline ℝ D} (h : SameShape s s') (hs : s.WideLast) : s'.WideLast := by
  rw [h.eq]
  exact hs

theorem SameShape.segQ {s s' : BSpline ℝ D} (h : SameShape s s') (W : Mat ℝ) (seg : ℤ) (der : ℕ) :
    s'.segmentQuadraticIntegral W seg der = s.segmentQuadraticIntegral W seg der := by
  rw [h.eq]
  rfl

/-- The matrix of one segment, as a quadratic form in the coefficients of the segment. -/
theorem segment_energy {s : BSpline ℝ D} (h : s.WF) (hw : s.WideLast) (W : Mat ℝ) (hW : AcceptedWeight D W) (der n : ℕ)
    (hn : n < s.numValidTimeSegments) :
    ∃ Q, s.segmentQuadraticIntegral W n der = .ok Q ∧
      bil (s.order * D) Q (shiftV (stacked s) (n * D)) (shiftV (stacked s) (n * D))
        = energy s W der (s.kn (s.order - 1 + n)) (s.kn (s.order - 1 + n + 1)) := by
  have hk := h.order_pos
  have hen := h.enough
  have hcl := h.coeffs_len
  obtain ⟨Q, hQ, hb⟩ := segmentQ h W hW der n hn _ (segBasis_spec h n hn).1
  have hnum : s.numValidTimeSegments = s.knots.length - s.order - (s.order - 1) := by
    unfold numValidTimeSegments numValidTimeSegmentsOf
    omega
  refine ⟨Q, hQ, (hb _ _).trans ?_⟩
  have hpieces := (pieces_integral (kn := s.kn) (lo := s.order - 1 + n) (hi := s.order - 1 + n + 1)
    (g := fun t => ∑ d : Fin D, ∑ e : Fin D, W d e * ((s.evalD t der).getD 0 d * (s.evalD t der).getD 0 e))
    (P := fun i t => ∑ d : Fin D, ∑ e : Fin D, W d e *
      ((derivative^[der] (s.segPoly i d)).eval t * (derivative^[der] (s.segPoly i e)).eval t))
    (fun i => continuous_finsetSum _ fun d _ => continuous_finsetSum _ fun e _ =>
      continuous_const.mul ((Polynomial.continuous _).mul (Polynomial.continuous _)))
    (fun i _ h2 => h.mono i (i + 1) (by omega) (by omega))
    (by
      intro i h1 h2 x hx1 hx2
      rw [evalD_on_segment h hw (by omega) (by omega) der x hx1.le (.inl hx2)]
      rfl)
    (s.order - 1 + n + 1) (by omega) le_rfl).2
  unfold energy
  rw [hpieces, Nat.Ico_succ_singleton, sum_singleton]
  rw [sum_integral W _ _ (fun d => localPoly_continuous _ _ _ _ _ _ _)
    (fun d => localPoly_continuous _ _ _ _ _ _ _)]
  rcases (h.mono (s.order - 1 + n) (s.order - 1 + n + 1) (by omega) (by omega)).eq_or_lt with heq | hlt
  · rw [← heq]; simp
  refine intervalIntegral.integral_congr fun t _ => ?_
  have hloc : ∀ d : Fin D, (localPoly D s.order (segBasis s n)
      (s.kn (s.order - 1 + n + 1) - s.kn (s.order - 1 + n)) der (shiftV (stacked s) (n * D)) d).eval
      ((t - s.kn (s.order - 1 + n)) / (s.kn (s.order - 1 + n + 1) - s.kn (s.order - 1 + n)))
      = (derivative^[der] (s.segPoly (s.order - 1 + n) d)).eval t := by
    intro d
    rw [segPoly_derivative_eval h (s.order - 1 + n) (by omega) (by omega) hlt (segBasis s n)
      (segBasis_spec h n hn).2 d der t]
    unfold localPoly
    congr 3
    funext r
    unfold localPower powerCoeffs
    refine sum_congr rfl fun j hj => ?_
    have := mem_range.1 hj
    unfold shiftV
    rw [show n * D + (j * D + (d : ℕ)) = (n + j) * D + d by ring, stacked_at s (n + j) (by omega) d]
    rw [show s.order - 1 + n + 1 - s.order + j = n + j by omega]
  rw [Finset.sum_range]
  refine sum_congr rfl fun d _ => ?_
  rw [Finset.sum_range]
  refine sum_congr rfl fun e _ => ?_
  rw [hloc, hloc]

/-- The matrix of one segment is symmetric and positive semidefinite. -/
theorem segment_good {s : BSpline ℝ D} (h : s.WF) (W : Mat ℝ) (hW : GoodWeight D W) (der n : ℕ) (hn : n < s.numValidTimeSegments) :
    ∃ Q, s.segmentQuadraticIntegral W n der = .ok Q ∧ (∀ p < s.order * D, ∀ q < s.order * D, Q p q = Q q p) ∧
      ∀ x : ℕ → ℝ, 0 ≤ ∑ p ∈ range (s.order * D), ∑ q ∈ range (s.order * D), x p * Q p q * x q := by
  have hk := h.order_pos
  have hen := h.enough
  obtain ⟨Q, hQ, hb⟩ := segmentQ h W hW.accepted der n hn _ (segBasis_spec h n hn).1
  have hn' := hn
  unfold numValidTimeSegments numValidTimeSegmentsOf at hn'
  refine ⟨Q, hQ, fun p hp q hq => ?_, fun x => ?_⟩
  · rw [← bil_unit _ Q p q hp hq, ← bil_unit _ Q q p hq hp, hb, hb, sum_comm]
    refine sum_congr rfl fun e he => sum_congr rfl fun d hd => ?_
    rw [hW.symm d (mem_range.1 hd) e (mem_range.1 he)]
    congr 1
    refine intervalIntegral.integral_congr fun t _ => ?_
    exact mul_comm _ _
  · have hb' := hb x x
    unfold bil at hb'
    rw [hb', sum_integral W _ _ (fun d => localPoly_continuous _ _ _ _ _ _ _)
      (fun d => localPoly_continuous _ _ _ _ _ _ _)]
    refine intervalIntegral.integral_nonneg (h.mono _ _ (by omega) (by omega)) fun t _ => ?_
    refine (hW.psd (fun d => (localPoly D s.order (segBasis s n)
        (s.kn (s.order - 1 + n + 1) - s.kn (s.order - 1 + n)) der x d).eval
        ((t - s.kn (s.order - 1 + n)) / (s.kn (s.order - 1 + n + 1) - s.kn (s.order - 1 + n))))).trans_eq ?_
    refine sum_congr rfl fun d _ => sum_congr rfl fun e _ => ?_
    ring

theorem sum_sq_root (n : ℕ) (R Q : Mat ℝ) (h : ∀ p < n, ∀ q < n, ∑ r ∈ range n, R r p * R r q = Q p q) (x : ℕ → ℝ) :
    ∑ r ∈ range n, (∑ q ∈ range n, R r q * x q) ^ 2 = bil n Q x x := by
  unfold bil
  calc ∑ r ∈ range n, (∑ q ∈ range n, R r q * x q) ^ 2
      = ∑ r ∈ range n, ∑ p ∈ range n, ∑ q ∈ range n, x p * (R r p * R r q) * x q := by
        refine sum_congr rfl fun r _ => ?_
        rw [sq, sum_mul_sum]
        refine sum_congr rfl fun p _ => sum_congr rfl fun q _ => by ring
    _ = ∑ p ∈ range n, ∑ q ∈ range n, ∑ r ∈ range n, x p * (R r p * R r q) * x q := by
        rw [sum_comm]
        exact sum_congr rfl fun p _ => sum_comm
    _ = _ := by
        refine sum_congr rfl fun p hp => sum_congr rfl fun q hq => ?_
        rw [← h p (mem_range.1 hp) q (mem_range.1 hq), mul_sum, sum_mul]

/-- **C64** (square root): for every symmetric positive semidefinite weight, `segmentIntegral` returns a square root of the matrix of the
segment: `Rᵀ R` is the matrix of `segmentQuadraticIntegral`. -/
theorem C64_root (svd : SvdSolver) (hsvd : SvdSound svd) (s : BSpline ℝ D) (h : s.WF) (W : Mat ℝ) (hW : GoodWeight D W) (der n : ℕ)
    (hn : n < s.numValidTimeSegments) :
    ∃ R Q, s.segmentIntegral svd n W der = .ok R ∧ s.segmentQuadraticIntegral W n der = .ok Q ∧
      ∀ p < s.order * D, ∀ q < s.order * D, ∑ r ∈ range (s.order * D), R r p * R r q = Q p q := by
  obtain ⟨Q, hQ, hs, hp⟩ := segment_good h W hW der n hn
  refine ⟨_, Q, by unfold BSpline.segmentIntegral; rw [hQ]; rfl, hQ, ?_⟩
  exact svd_root (hsvd _ Q) hs hp

/-- **C64** (energy of a segment): the squared length of `R` times the coefficients of the segment is the motion energy of the
segment, for the spline the matrix was made from and for every other choice of the coefficients. -/
theorem C64_segment (svd : SvdSolver) (hsvd : SvdSound svd) (s : BSpline ℝ D) (h : s.WF) (hw : s.WideLast) (W : Mat ℝ) (hW : GoodWeight D W)
    (der n : ℕ) (hn : n < s.numValidTimeSegments) (a b : ℝ) (hab : s.timeIntervalOf n = .ok (a, b)) :
    ∃ R, s.segmentIntegral svd n W der = .ok R ∧ ∀ s', SameShape s s' →
      ∃ c, s'.segmentCoefficientVector n = .ok c ∧
      ∑ r ∈ range (s.order * D), (∑ q ∈ range (s.order * D), R r q * c.getD q 0) ^ 2 = energy s' W der a b := by
  obtain ⟨R, Q, hR, hQ, hroot⟩ := C64_root svd hsvd s h W hW der n hn
  have hk := h.order_pos
  have hen := h.enough
  have hn' := hn
  unfold numValidTimeSegments numValidTimeSegmentsOf at hn'
  have hti : s.timeIntervalOf n = .ok (s.kn (s.order - 1 + n), s.kn (s.order - 1 + n + 1)) := by
    unfold timeIntervalOf minimumKnotsRequired numKnotsRequired numCoefficientsRequired
    rw [if_neg (by omega), if_neg (by push Not; constructor <;> omega)]
    congr 3 <;> omega
  rw [hti] at hab
  obtain ⟨rfl, rfl⟩ := Prod.mk.inj (Outcome.ok.inj hab)
  refine ⟨R, hR, fun s' hs' => ?_⟩
  have hwf' := hs'.wf h
  have hn2 : n < s'.numValidTimeSegments := by
    unfold numValidTimeSegments numValidTimeSegmentsOf
    rw [hs'.knots, hs'.order]
    exact hn'
  obtain ⟨c, iv, iw, hc, hiv, -, -, -, -, hent, hidx⟩ := C10_segment_views s' hwf' n hn2
  refine ⟨c, hc, ?_⟩
  obtain ⟨Q', hQ', he⟩ := segment_energy hwf' (hs'.wide hw) W hW.accepted der n hn2
  rw [hs'.segQ, hQ] at hQ'
  obtain rfl := Outcome.ok.inj hQ'
  have hkn : s'.kn = s.kn := by
    funext i
    unfold BSpline.kn
    rw [hs'.knots]
  rw [hs'.order, hkn] at he
  rw [sum_sq_root _ R Q hroot, ← he]
  refine bil_congr _ _ _ _ _ _ (fun q hq => ?_) (fun q hq => ?_) <;>
  · rw [hs'.order] at hent hidx
    have hD : 0 < D := by
      rcases Nat.eq_zero_or_pos D with h0 | h0
      · subst h0; simp at hq
      · exact h0
    obtain ⟨x, hx, -, hxe⟩ := hent q hq
    have hj : q / D < s.order := Nat.div_lt_of_lt_mul (by rw [Nat.mul_comm]; exact hq)
    have := (hidx (q / D) hj).2.2.2 ⟨q % D, Nat.mod_lt _ hD⟩
    simp only [Nat.div_add_mod'] at this
    rw [this] at hx
    have hx' := Option.some.inj hx
    unfold entry at hxe
    rw [hxe, ← hx']
    unfold shiftV stacked
    rw [add_mul, add_assoc, Nat.div_add_mod']

theorem sum_zipIdx {α : Type*} (ts : List α) (f : α → ℕ → ℝ) (F : ℕ → ℝ) (h : ∀ i t, ts[i]? = some t → f t i = F i) :
    ((ts.zipIdx).map fun p => f p.1 p.2).sum = ∑ n ∈ range ts.length, F n := by
  induction ts using List.reverseRecOn with
  | nil => simp
  | append_singleton ts t ih =>
    rw [List.zipIdx_append, List.map_append, List.sum_append, List.length_append, List.length_singleton, sum_range_succ,
      ih fun i x hx => h i x (by
        rw [List.getElem?_append_left]
        · exact hx
        · by_contra hge
          rw [List.getElem?_eq_none (by omega)] at hx
          cases hx)]
    congr 1
    have := h ts.length t (by simp)
    simp [this]

theorem interval_eq {s : BSpline ℝ D} (h : s.WF) (n : ℕ) (hn : n < s.numValidTimeSegments) {a b : ℝ}
    (hab : s.timeIntervalOf n = .ok (a, b)) : s.kn (s.order - 1 + n) = a ∧ s.kn (s.order - 1 + n + 1) = b := by
  have hk := h.order_pos
  have hen := h.enough
  have hn' := hn
  unfold numValidTimeSegments numValidTimeSegmentsOf at hn'
  unfold timeIntervalOf minimumKnotsRequired numKnotsRequired numCoefficientsRequired at hab
  rw [if_neg (by omega), if_neg (by push Not; constructor <;> omega)] at hab
  obtain ⟨rfl, rfl⟩ := Prod.mk.inj (Outcome.ok.inj hab)
  constructor <;> congr 1 <;> omega

theorem segment_rejects {s : BSpline ℝ D} (h : s.WF) (W : Mat ℝ) (hW : ¬ AcceptedWeight D W) (der n : ℕ) (hn : n < s.numValidTimeSegments) :
    s.segmentQuadraticIntegral W n der = .throws := by
  have hk := h.order_pos
  have hen := h.enough
  have hB := (segBasis_spec h n hn).1
  have hbl : n < s.basis.length := by
    by_contra hc
    rw [List.getElem?_eq_none (by omega)] at hB
    cases hB
  have hn' := hn
  unfold numValidTimeSegments numValidTimeSegmentsOf at hn'
  have hti : s.timeIntervalOf n = .ok (s.kn (s.order - 1 + n), s.kn (s.order - 1 + n + 1)) := by
    unfold timeIntervalOf minimumKnotsRequired numKnotsRequired numCoefficientsRequired
    rw [if_neg (by omega), if_neg (by push Not; constructor <;> omega)]
    congr 3 <;> omega
  unfold segmentQuadraticIntegral Dii Vi Mi
  rw [if_neg (by push Not; constructor <;> omega), if_neg (by push Not; constructor <;> omega),
    if_neg (by unfold numValidTimeSegments numValidTimeSegmentsOf; push Not; constructor <;> omega), hti]
  simp only [Outcome.bind_ok, Int.toNat_natCast, hB]
  rw [if_neg (by push Not; constructor <;> omega)]
  exact if_neg hW

theorem collectVars_ok {v : SplineVars ℝ D} (hm : Mirror v) : ∀ is : List ℕ, (∀ i ∈ is, i < v.spline.coeffs.length) →
    ∃ xs : List (MappedVar ℝ D), collectVars v is = .ok xs ∧ xs.length = is.length ∧ ∀ j i : ℕ, is[j]? = some i → xs[j]? = v.vars[i]?
  | [], _ => ⟨[], rfl, rfl, by simp⟩
  | i :: is, h => by
    obtain ⟨xs, h1, h2, h3⟩ := collectVars_ok hm is fun j hj => h j (List.mem_cons_of_mem _ hj)
    obtain ⟨x, hx, hx'⟩ := designVariable_ok hm i (h i List.mem_cons_self)
    refine ⟨x :: xs, ?_, by simp [h2], ?_⟩
    · unfold collectVars
      rw [hx, h1]
      rfl
    · intro j k hj
      cases j with
      | zero =>
        simp only [List.getElem?_cons_zero, Option.some.injEq] at hj ⊢
        subst hj
        exact hx'.symm
      | succ j =>
        simp only [List.getElem?_cons_succ] at hj ⊢
        exact h3 j k hj

theorem motionTerms_spec (svd : SvdSolver) (v : SplineVars ℝ D) (W : Mat ℝ) (o : ℕ) (P : ℕ → PriorTerm D → Prop) : ∀ n,
    (∀ i < n, ∃ t, motionTerm svd v W o i = .ok t ∧ P i t) →
    ∃ ts, motionTerms svd v W o n = .ok ts ∧ ts.length = n ∧ ∀ i t, ts[i]? = some t → P i t
  | 0, _ => ⟨[], rfl, rfl, by simp⟩
  | n + 1, h => by
    obtain ⟨ts, h1, h2, h3⟩ := motionTerms_spec svd v W o P n fun i hi => h i (by omega)
    obtain ⟨t, ht, hP⟩ := h n (by omega)
    refine ⟨ts ++ [t], ?_, by simp [h2], ?_⟩
    · unfold motionTerms
      rw [h1, ht]
      rfl
    · intro i x hx
      rcases Nat.lt_or_ge i ts.length with hlt | hge
      · rw [List.getElem?_append_left hlt] at hx
        exact h3 i x hx
      · rw [List.getElem?_append_right hge] at hx
        have : i - ts.length = 0 := by
          by_contra hne
          rw [List.getElem?_eq_none (by simp; omega)] at hx
          cases hx
        rw [this] at hx
        simp only [List.getElem?_cons_zero, Option.some.injEq] at hx
        subst hx
        rwa [show i = n by omega]

/-- What the factory should add for segment `i`: the design variables of the coefficients of the segment in order, `d = R c`, and the
squared length of `R` times the coefficients `c` is the motion energy of the segment. -/
def TermSpec (v : SplineVars ℝ D) (W : Mat ℝ) (o i : ℕ) (t : PriorTerm D) : Prop :=
  t.dvs.length = v.spline.order ∧ (∀ j < v.spline.order, t.dvs[j]? = v.vars[i + j]?) ∧
  ∃ a b, v.spline.timeIntervalOf i = .ok (a, b) ∧
    (∃ c, v.spline.segmentCoefficientVector i = .ok c ∧ ∀ r, t.d r = ∑ q ∈ range (v.spline.order * D), t.R r q * c.getD q 0) ∧
    ∀ s', SameShape v.spline s' → ∃ c, s'.segmentCoefficientVector i = .ok c ∧
      ∑ r ∈ range (v.spline.order * D), (∑ q ∈ range (v.spline.order * D), t.R r q * c.getD q 0) ^ 2 = energy s' W o a b

/-- **C64** (terms): one error term for each segment, in order, each as it should be. -/
theorem C64_terms (svd : SvdSolver) (hsvd : SvdSound svd) (v : SplineVars ℝ D) (hm : Mirror v) (h : v.spline.WF) (hw : v.spline.WideLast)
    (W : Mat ℝ) (hW : GoodWeight D W) (o : ℕ) (ho : o < 2 ^ 31) :
    ∃ ts, addMotionErrorTerms svd v W o = .ok ts ∧ ts.length = v.spline.numValidTimeSegments ∧
      ∀ i t, ts[i]? = some t → TermSpec v W o i t := by
  refine motionTerms_spec svd v W o (TermSpec v W o) _ fun i hi => ?_
  have hto : (MotionError.toInt o).toNat = o := by
    unfold MotionError.toInt
    rw [if_pos ho, Int.toNat_natCast]
  have hk := h.order_pos
  have hen := h.enough
  have hi' := hi
  unfold numValidTimeSegments numValidTimeSegmentsOf at hi'
  have hti : v.spline.timeIntervalOf i = .ok (v.spline.kn (v.spline.order - 1 + i), v.spline.kn (v.spline.order - 1 + i + 1)) := by
    unfold timeIntervalOf minimumKnotsRequired numKnotsRequired numCoefficientsRequired
    rw [if_neg (by omega), if_neg (by push Not; constructor <;> omega)]
    congr 3 <;> omega
  obtain ⟨R, hR, hen2⟩ := C64_segment svd hsvd v.spline h hw W hW o i hi _ _ hti
  obtain ⟨c, iv, iw, hc, -, hiw, -, -, hiwl, -, hidx⟩ := C10_segment_views v.spline h i hi
  obtain ⟨xs, hx1, hx2, hx3⟩ := collectVars_ok hm iw (by
    intro k hk2
    obtain ⟨j, hj, hje⟩ := List.mem_iff_getElem.1 hk2
    have := hidx j (by omega)
    rw [List.getElem?_eq_getElem hj, hje] at this
    have e := Option.some.inj this.1
    omega)
  refine ⟨{ dvs := xs, d := fun r => ∑ q ∈ range (v.spline.order * D), R r q * c.getD q 0, R := R }, ?_, ?_⟩
  · unfold motionTerm
    rw [hto, hR, hc, hiw]
    simp only [Outcome.bind_ok]
    rw [hx1]
    rfl
  · refine ⟨by rw [hx2, hiwl], fun j hj => hx3 j (i + j) (hidx j hj).1, _, _, hti, ⟨c, hc, fun r => rfl⟩, hen2⟩

/-- The sum over all segments is the energy over the valid interval. -/
theorem energy_total {s : BSpline ℝ D} (h : s.WF) (hw : s.WideLast) (W : Mat ℝ) (hW : AcceptedWeight D W) (der : ℕ) (lo hi : ℝ)
    (hlo : s.tMin = .ok lo) (hhi : s.tMax = .ok hi) :
    ∑ n ∈ range s.numValidTimeSegments, energy s W der (s.kn (s.order - 1 + n)) (s.kn (s.order - 1 + n + 1)) = energy s W der lo hi := by
  obtain ⟨Q, hQ, hval⟩ := C09_quadratic_integral s h hw W hW der lo hi hlo hhi
  obtain ⟨Q', hQ', hb⟩ := sumBlocks_bil h (fun seg => s.segmentQuadraticIntegral W seg der)
    (fun n x y => bil (s.order * D) ((s.segmentQuadraticIntegral W n der).getD 0) x y)
    (fun n hn => by
      obtain ⟨Qn, hQn, -⟩ := segment_energy h hw W hW der n hn
      exact ⟨Qn, hQn, fun x y => by rw [hQn]; rfl⟩) s.numValidTimeSegments le_rfl
  have : Q' = Q := by
    unfold curveQuadraticIntegral at hQ
    rw [hQ] at hQ'
    exact (Outcome.ok.inj hQ').symm
  subst this
  rw [show energy s W der lo hi = _ from hval.symm]
  have := hb (stacked s) (stacked s)
  unfold bil at this
  refine Eq.trans ?_ this.symm
  refine sum_congr rfl fun n hn => ?_
  obtain ⟨Qn, hQn, he⟩ := segment_energy h hw W hW der n (mem_range.1 hn)
  rw [← he]
  beta_reduce
  rw [hQn]
  rfl

/-- The squared length of the error `d + R Δ`, where `Δ` is the change of the coefficients of segment `i` since the term was made. -/
noncomputable def PriorTerm.costPlus (t : PriorTerm D) (s s' : BSpline ℝ D) (i : ℕ) : ℝ :=
  ∑ r ∈ range (s.order * D), (t.d r + ∑ q ∈ range (s.order * D), t.R r q * (stacked s' (i * D + q) - stacked s (i * D + q))) ^ 2

/-- The squared length of the error `R Δ - d`. -/
noncomputable def PriorTerm.costMinus (t : PriorTerm D) (s s' : BSpline ℝ D) (i : ℕ) : ℝ :=
  ∑ r ∈ range (s.order * D), ((∑ q ∈ range (s.order * D), t.R r q * (stacked s' (i * D + q) - stacked s (i * D + q))) - t.d r) ^ 2

theorem seg_stacked {s : BSpline ℝ D} (h : s.WF) (n : ℕ) (hn : n < s.numValidTimeSegments) {c : List ℝ}
    (hc : s.segmentCoefficientVector n = .ok c) (q : ℕ) (hq : q < s.order * D) : c.getD q 0 = stacked s (n * D + q) := by
  obtain ⟨c', iv, iw, hc', -, -, -, -, -, hent, hidx⟩ := C10_segment_views s h n hn
  rw [hc] at hc'
  obtain rfl := Outcome.ok.inj hc'
  have hD : 0 < D := by
    rcases Nat.eq_zero_or_pos D with h0 | h0
    · subst h0; simp at hq
    · exact h0
  obtain ⟨x, hx, -, hxe⟩ := hent q hq
  have hj : q / D < s.order := Nat.div_lt_of_lt_mul (by rw [Nat.mul_comm]; exact hq)
  have := (hidx (q / D) hj).2.2.2 ⟨q % D, Nat.mod_lt _ hD⟩
  simp only [Nat.div_add_mod'] at this
  rw [this] at hx
  unfold entry at hxe
  rw [hxe, ← Option.some.inj hx]
  unfold stacked
  rw [add_mul, add_assoc, Nat.div_add_mod']

/-- **C64** (total): if the error of a term is `d + R Δ`, the costs of all terms add up to the motion energy of the current
curve over the valid interval, whatever the coefficients became since. -/
theorem C64_total (svd : SvdSolver) (hsvd : SvdSound svd) (v : SplineVars ℝ D) (hm : Mirror v) (h : v.spline.WF) (hw : v.spline.WideLast)
    (W : Mat ℝ) (hW : GoodWeight D W) (o : ℕ) (ho : o < 2 ^ 31) (lo hi : ℝ) (hlo : v.spline.tMin = .ok lo) (hhi : v.spline.tMax = .ok hi) :
    ∃ ts, addMotionErrorTerms svd v W o = .ok ts ∧ ∀ s', SameShape v.spline s' →
      ((ts.zipIdx).map fun p => p.1.costPlus v.spline s' p.2).sum = energy s' W o lo hi := by
  obtain ⟨ts, h1, h2, h3⟩ := C64_terms svd hsvd v hm h hw W hW o ho
  refine ⟨ts, h1, fun s' hs' => ?_⟩
  have hlo' : s'.tMin = .ok lo := by rw [hs'.eq]; exact hlo
  have hhi' : s'.tMax = .ok hi := by rw [hs'.eq]; exact hhi
  have hnum : s'.numValidTimeSegments = v.spline.numValidTimeSegments := by
    unfold numValidTimeSegments numValidTimeSegmentsOf
    rw [hs'.knots, hs'.order]
  have hkn : s'.kn = v.spline.kn := by
    funext i
    unfold BSpline.kn
    rw [hs'.knots]
  rw [← energy_total (hs'.wf h) (hs'.wide hw) W hW.accepted o lo hi hlo' hhi', hnum, ← h2, hs'.order, hkn]
  refine sum_zipIdx ts (fun t n => t.costPlus v.spline s' n) _ fun i t ht => ?_
  obtain ⟨-, -, a, b, hab, ⟨c, hc, hd⟩, hall⟩ := h3 i t ht
  have hi : i < v.spline.numValidTimeSegments := by
    rw [← h2]
    by_contra hge
    rw [List.getElem?_eq_none (by omega)] at ht
    cases ht
  obtain ⟨rfl, rfl⟩ := interval_eq h i hi hab
  obtain ⟨c', hc', he⟩ := hall s' hs'
  rw [← he]
  unfold PriorTerm.costPlus
  refine sum_congr rfl fun r _ => ?_
  rw [hd, ← sum_add_distrib]
  congr 1
  refine sum_congr rfl fun q hq => ?_
  rw [seg_stacked h i hi hc q (mem_range.1 hq),
    seg_stacked (hs'.wf h) i (by rw [hnum]; exact hi) hc' q (by rw [hs'.order]; exact mem_range.1 hq)]
  ring

/-- **C64** (other convention): if the error of a term is `R Δ - d`, the costs add up to the motion energy of the curve with the
coefficients `c' - 2 c`: the energy of the curve when the terms were made as long as nothing changes, but then the costs pull
the coefficients to twice their value instead of to a curve without motion. -/
theorem C64_minus (svd : SvdSolver) (hsvd : SvdSound svd) (v : SplineVars ℝ D) (hm : Mirror v) (h : v.spline.WF) (hw : v.spline.WideLast)
    (W : Mat ℝ) (hW : GoodWeight D W) (o : ℕ) (ho : o < 2 ^ 31) (lo hi : ℝ) (hlo : v.spline.tMin = .ok lo) (hhi : v.spline.tMax = .ok hi) :
    ∃ ts, addMotionErrorTerms svd v W o = .ok ts ∧ ∀ s' s'', SameShape v.spline s' → SameShape v.spline s'' →
      (∀ i < v.spline.coeffs.length, ∀ d : Fin D, s''.col i d = s'.col i d - 2 * v.spline.col i d) →
      ((ts.zipIdx).map fun p => p.1.costMinus v.spline s' p.2).sum = energy s'' W o lo hi := by
  obtain ⟨ts, h1, h2, h3⟩ := C64_terms svd hsvd v hm h hw W hW o ho
  refine ⟨ts, h1, fun s' s'' hs' hs'' hcol => ?_⟩
  have hlo' : s''.tMin = .ok lo := by rw [hs''.eq]; exact hlo
  have hhi' : s''.tMax = .ok hi := by rw [hs''.eq]; exact hhi
  have hnum : s''.numValidTimeSegments = v.spline.numValidTimeSegments := by
    unfold numValidTimeSegments numValidTimeSegmentsOf
    rw [hs''.knots, hs''.order]
  have hkn : s''.kn = v.spline.kn := by
    funext i
    unfold BSpline.kn
    rw [hs''.knots]
  rw [← energy_total (hs''.wf h) (hs''.wide hw) W hW.accepted o lo hi hlo' hhi', hnum, ← h2, hs''.order, hkn]
  refine sum_zipIdx ts (fun t n => t.costMinus v.spline s' n) _ fun i t ht => ?_
  obtain ⟨-, -, a, b, hab, ⟨c, hc, hd⟩, hall⟩ := h3 i t ht
  have hi : i < v.spline.numValidTimeSegments := by
    rw [← h2]
    by_contra hge
    rw [List.getElem?_eq_none (by omega)] at ht
    cases ht
  obtain ⟨rfl, rfl⟩ := interval_eq h i hi hab
  obtain ⟨c', hc', he⟩ := hall s'' hs''
  rw [← he]
  unfold PriorTerm.costMinus
  refine sum_congr rfl fun r _ => ?_
  rw [hd, ← sum_sub_distrib]
  congr 1
  refine sum_congr rfl fun q hq => ?_
  rw [seg_stacked h i hi hc q (mem_range.1 hq),
    seg_stacked (hs''.wf h) i (by rw [hnum]; exact hi) hc' q (by rw [hs''.order]; exact mem_range.1 hq)]
  have hD : 0 < D := by
    rcases Nat.eq_zero_or_pos D with h0 | h0
    · subst h0; simp at hq
    · exact h0
  have hj : q / D < v.spline.order := Nat.div_lt_of_lt_mul (by rw [Nat.mul_comm]; exact mem_range.1 hq)
  have hl : i + q / D < v.spline.coeffs.length := by
    have a1 := h.coeffs_len
    have a2 := h.enough
    unfold numValidTimeSegments numValidTimeSegmentsOf at hi
    omega
  have e : i * D + q = (i + q / D) * D + ((⟨q % D, Nat.mod_lt _ hD⟩ : Fin D) : ℕ) := by
    rw [add_mul, add_assoc, Nat.div_add_mod']
  rw [e, stacked_at _ _ hl, stacked_at _ _ (by rw [hs'.length]; exact hl), stacked_at _ _ (by rw [hs''.length]; exact hl), hcol _ hl]
  ring

/-- **C64** (same as the motion error term): for derivative orders below the spline order the costs add up to the value of
`BSplineMotionError` with the same arguments.  Not for higher orders, see `C64_order_violated`. -/
theorem C64_same_as_motion_error_partial (svd : SvdSolver) (hsvd : SvdSound svd) (v : SplineVars ℝ D) (hm : Mirror v) (h : v.spline.WF)
    (hw : v.spline.WideLast) (W : Mat ℝ) (hW : GoodWeight D W) (o : ℕ) (ho : o < 2 ^ 31) (hos : o < v.spline.order) (lo hi : ℝ)
    (hlo : v.spline.tMin = .ok lo) (hhi : v.spline.tMax = .ok hi) :
    ∃ ts m, addMotionErrorTerms svd v W o = .ok ts ∧ MotionError.create v.spline W o = .ok m ∧ ∀ s', SameShape v.spline s' →
      m.evaluate s' = .ok ((ts.zipIdx).map fun p => p.1.costPlus v.spline s' p.2).sum := by
  obtain ⟨ts, h1, h2⟩ := C64_total svd hsvd v hm h hw W hW o ho lo hi hlo hhi
  obtain ⟨m, h3, h4⟩ := C46_error v.spline h hw W hW.accepted o ho lo hi hlo hhi
  refine ⟨ts, m, h1, h3, fun s' hs' => ?_⟩
  rw [h4 s' hs'.order hs'.knots hs'.basis hs'.length, h2 s' hs', min_eq_left (by omega)]
  rfl

/-- **C64** (rejected weights): a weight that is not symmetric up to the tolerance is rejected before any term is added. -/
theorem C64_rejects (svd : SvdSolver) (v : SplineVars ℝ D) (h : v.spline.WF) (W : Mat ℝ) (hW : ¬ AcceptedWeight D W) (o : ℕ) :
    addMotionErrorTerms svd v W o = .throws := by
  have hk := h.order_pos
  have hen := h.enough
  have hpos : 0 < v.spline.numValidTimeSegments := by
    unfold numValidTimeSegments numValidTimeSegmentsOf; omega
  have h0 : motionTerm svd v W o 0 = .throws := by
    unfold motionTerm BSpline.segmentIntegral
    rw [segment_rejects h W hW _ 0 hpos]
    rfl
  have : ∀ n, motionTerms svd v W o (n + 1) = .throws := by
    intro n
    induction n with
    | zero =>
      unfold motionTerms motionTerms
      simp only [Outcome.bind_ok]
      rw [h0]; rfl
    | succ n ih =>
      rw [motionTerms, ih]; rfl
  unfold addMotionErrorTerms
  obtain ⟨m, hmm⟩ := Nat.exists_eq_succ_of_ne_zero hpos.ne'
  rw [hmm]
  exact this m

/-- The curve of `exReal` with all coefficients one. -/
noncomputable def exOnes : BSpline ℝ 1 := withCoeffs exReal [![1], ![1], ![1], ![1], ![1], ![1]]

theorem exOnes_wf : exOnes.WF := WF.withCoeffs exReal_wf _ rfl

theorem exOnes_wide : exOnes.WideLast := exReal_wide

theorem exOnes_eval (t : ℝ) (h1 : 2 ≤ t) (h2 : t ≤ 3) : exOnes.evalD t ((0 : ℕ) : ℤ) = .ok ![1] := by
  have hkn : exOnes.kn (exOnes.order - 1) = 2 ∧ exOnes.kn (exOnes.knots.length - exOnes.order) = 4 := ⟨rfl, rfl⟩
  have ha : exOnes.Admissible t := by
    refine ⟨by rw [hkn.1]; exact h1, by rw [hkn.2]; linarith, .inl ?_⟩
    rw [hkn.2]
    have : (snapTol : ℝ) ≤ 1 := by unfold snapTol; norm_num
    linarith
  obtain ⟨w, cols, v, -, hcols, hv, -, -, -, -, hb⟩ := C02_convex_combination exOnes exOnes_wf t ha
  have hmem : ∀ c ∈ cols, (1 : ℝ) ≤ c 0 ∧ c 0 ≤ 1 := by
    intro c hc
    unfold localCoefficientMatrix at hcols
    obtain ⟨x, -, hcols⟩ := Outcome.bind_eq_ok.1 hcols
    obtain ⟨b, -, hcols⟩ := Outcome.bind_eq_ok.1 hcols
    split_ifs at hcols with hle
    obtain rfl := Outcome.ok.inj hcols
    obtain ⟨i, hi, rfl⟩ := List.mem_map.1 hc
    have hi' := List.mem_range.1 hi
    have hlen : exOnes.coeffs.length = 6 := rfl
    have : ∀ j < 6, exOnes.col j 0 = 1 := by
      intro j hj
      interval_cases j <;> rfl
    rw [this (b + i) (by omega)]
    exact ⟨le_rfl, le_rfl⟩
  have := hb 0 1 1 hmem
  have hv1 : v = ![1] := by
    funext d
    obtain rfl : d = 0 := Subsingleton.elim _ _
    exact le_antisymm this.2 this.1
  rw [hv1] at hv
  exact hv

/-- **C64, indefinite weights** (outside the claim): the weight `-1` is accepted (it is symmetric), but whatever singular value decomposition is
used, the squared length of `R` times the coefficients is not the weighted integral; `BSplineMotionError` with the same
arguments is. -/
theorem C64_indefinite_differs (svd : SvdSolver) :
    AcceptedWeight 1 (fun _ _ => -1) ∧ energy exOnes (fun _ _ => -1) 0 2 3 = -1 ∧
    ∃ R c, exOnes.segmentIntegral svd 0 (fun _ _ => -1) 0 = .ok R ∧ exOnes.segmentCoefficientVector 0 = .ok c ∧
      ∑ r ∈ range (exOnes.order * 1), (∑ q ∈ range (exOnes.order * 1), R r q * c.getD q 0) ^ 2 ≠ energy exOnes (fun _ _ => -1) 0 2 3 := by
  have hacc : AcceptedWeight 1 (fun _ _ => (-1 : ℝ)) := by
    intro r _ c _
    norm_num
  have hen : energy exOnes (fun _ _ => -1) 0 2 3 = -1 := by
    unfold energy
    rw [intervalIntegral.integral_congr (g := fun _ => (-1 : ℝ)) fun t ht => ?_]
    · rw [intervalIntegral.integral_const]; norm_num
    · rw [Set.uIcc_of_le (by norm_num)] at ht
      beta_reduce
      rw [exOnes_eval t ht.1 ht.2]
      simp [Outcome.getD]
  obtain ⟨Q, hQ, -⟩ := segment_energy exOnes_wf exOnes_wide (fun _ _ => -1) hacc 0 0 (by decide)
  obtain ⟨c, -, -, hc, -⟩ := C10_segment_views exOnes exOnes_wf 0 (by decide)
  refine ⟨hacc, hen, fun r c => (svd (exOnes.order * 1) Q).1 c r * √((svd (exOnes.order * 1) Q).2 r), c, ?_, hc, ?_⟩
  · unfold BSpline.segmentIntegral
    have : exOnes.segmentQuadraticIntegral (fun _ _ => -1) 0 0 = .ok Q := hQ
    rw [this]
    rfl
  · rw [hen]
    intro he
    have := sum_nonneg (s := range (exOnes.order * 1)) fun r _ =>
      sq_nonneg (∑ q ∈ range (exOnes.order * 1), (svd (exOnes.order * 1) Q).1 q r * √((svd (exOnes.order * 1) Q).2 r) * c.getD q 0)
    rw [he] at this
    norm_num at this

/-- A sound singular value decomposition exists. -/
theorem exists_sound_svd : ∃ svd, SvdSound svd :=
  ⟨fun n Q => ((exists_svd n Q).choose, (exists_svd n Q).choose_spec.choose), fun n Q => (exists_svd n Q).choose_spec.choose_spec⟩

/-- The hypotheses hold for a spline with a double knot, the weight three, and design variables made from the spline. -/
example : ∃ svd, SvdSound svd ∧ Mirror (SplineVars.create exReal) ∧ (SplineVars.create exReal).spline.WF ∧
    (SplineVars.create exReal).spline.WideLast ∧ GoodWeight 1 (fun _ _ => 3) ∧ (2 : ℕ) < (SplineVars.create exReal).spline.order ∧
    (SplineVars.create exReal).spline.tMin = .ok 2 ∧ (SplineVars.create exReal).spline.tMax = .ok 4 ∧
    (SplineVars.create exReal).spline.numValidTimeSegments = 3 ∧ SameShape exReal exOnes ∧ ¬ AcceptedWeight 2 (fun r _ => r) := by
  obtain ⟨svd, h⟩ := exists_sound_svd
  refine ⟨svd, h, mirror_create (sized_of_wf exReal_wf), exReal_wf, exReal_wide, ⟨fun _ _ _ _ => rfl, fun y => ?_⟩, by decide, rfl, rfl,
    rfl, ⟨rfl, rfl, rfl, rfl⟩, fun hc => ?_⟩
  · simp only [sum_range_one]
    nlinarith [sq_nonneg (y 0)]
  · have := hc 1 (by norm_num) 0 (by norm_num)
    norm_num at this

end Verif
