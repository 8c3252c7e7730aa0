import Verif.Props.Eval
import Mathlib.Analysis.Calculus.Deriv.Prod
import Mathlib.Topology.Algebra.Polynomial

/-!
# Properties C04 and C05: derivative queries and smoothness at knots (over ℝ)
-/

set_option linter.unusedSectionVars false

namespace Verif

open Finset Polynomial BSpline Filter Topology

variable {D : ℕ}

/-- The last segment is at least as wide as the tolerance `1e-10` of the lookup. -/
def BSpline.WideLast (s : BSpline ℝ D) : Prop :=
  ∀ a b : ℝ, s.timeIntervalOf ((s.numValidTimeSegments : ℤ) - 1) = .ok (a, b) → 1 / 10 ^ 10 ≤ b - a

theorem timeIntervalOf_eq {s : BSpline ℝ D} (h : s.WF) {seg : ℤ} {a b : ℝ}
    (hab : s.timeIntervalOf seg = .ok (a, b)) :
    ∃ i, s.order - 1 ≤ i ∧ i + 1 ≤ s.knots.length - s.order ∧ a = s.kn i ∧ b = s.kn (i + 1) ∧
      (i : ℤ) = s.order + seg - 1 := by
  have hk := h.order_pos
  have hn := h.enough
  unfold timeIntervalOf at hab
  split_ifs at hab with h1 h2
  have := Outcome.ok.inj hab
  unfold numValidTimeSegments numValidTimeSegmentsOf at h2
  push Not at h2
  refine ⟨s.order + seg.toNat - 1, by omega, by omega, ?_, ?_, by omega⟩
  · exact (congrArg Prod.fst this).symm
  · rw [show s.order + seg.toNat - 1 + 1 = s.order + seg.toNat by omega]
    exact (congrArg Prod.snd this).symm

theorem WideLast.wide {s : BSpline ℝ D} (h : s.WF) (hw : s.WideLast) :
    snapTol ≤ s.kn (s.knots.length - s.order) - s.kn (s.knots.length - s.order - 1) := by
  have hk := h.order_pos
  have hn := h.enough
  apply hw
  unfold timeIntervalOf numValidTimeSegments numValidTimeSegmentsOf minimumKnotsRequired
    numKnotsRequired numCoefficientsRequired
  rw [if_neg (by omega), if_neg (by push Not; constructor <;> omega)]
  congr 3 <;> omega

/-! ## A concrete real spline used as witness -/

/-- Order 4, a double knot at 3, eight knots after it; one component. -/
noncomputable def exReal : BSpline ℝ 1 :=
  initializeBasisMatrices ⟨4, [0, 1, 1, 2, 3, 3, 4, 6, 7, 8], [![1], ![5], ![-2], ![0], ![3], ![1]], []⟩

theorem exReal_wf : exReal.WF :=
  initializeBasisMatrices_wf _ (by decide) (by norm_num) (by decide) (by decide)

theorem exReal_wide : exReal.WideLast := by
  intro a b hab
  have : exReal.timeIntervalOf ((exReal.numValidTimeSegments : ℤ) - 1) = .ok (3, 4) := rfl
  rw [this] at hab
  have := Outcome.ok.inj hab
  obtain ⟨rfl, rfl⟩ := Prod.mk.inj this
  norm_num

/-- On a whole segment the derivative queries follow one polynomial per component. -/
theorem evalD_on_segment {s : BSpline ℝ D} (h : s.WF) (hw : s.WideLast) {i : ℕ}
    (h1 : s.order - 1 ≤ i) (h2 : i + 1 ≤ s.knots.length - s.order) (der : ℕ) (x : ℝ)
    (hx1 : s.kn i ≤ x) (hx2 : x < s.kn (i + 1) ∨ (x = s.kn (i + 1) ∧ i + 1 = s.knots.length - s.order
      ∧ s.kn i < s.kn (i + 1))) :
    s.evalD x der = .ok (fun d => (derivative^[der] (s.segPoly i d)).eval x) := by
  have hk := h.order_pos
  have hn := h.enough
  have hm := h.mono
  have hlt : s.kn i < s.kn (i + 1) := by
    rcases hx2 with h' | h'
    · linarith
    · exact h'.2.2
  have hle : x ≤ s.kn (i + 1) := by
    rcases hx2 with h' | h'
    · exact h'.le
    · exact h'.1.le
  have ha : s.Admissible x := admissible_of_wide x (WideLast.wide h hw)
    (le_trans (hm _ _ h1 (by omega)) hx1) (le_trans hle (hm _ _ h2 (by omega)))
  obtain ⟨i', hi, -, he⟩ := evalDNat_admissible h x ha
  have hii : i' = i := by
    have hl' := hi.lower
    have hu' := hi.upper
    by_contra hne
    rcases Nat.lt_or_gt_of_ne hne with hlt' | hlt'
    · have := hm (i' + 1) i (by omega) (by omega)
      rcases hi.right with h' | h'
      · linarith
      · omega
    · have := hm (i + 1) i' (by omega) (by omega)
      rcases hx2 with h' | h'
      · linarith [hi.left]
      · omega
  subst hii
  unfold evalD
  rw [if_neg (by omega)]
  simpa using he der

/-- **C04**: inside a segment the `(d+1)`-st derivative query is the derivative of the `d`-th
derivative query as a function of time; at the left end of a segment it is the derivative from the
right, and at the end of the valid interval the derivative from the left. -/
theorem C04_derivative (s : BSpline ℝ D) (h : s.WF) (hw : s.WideLast) (der : ℕ) (seg : ℤ) (a b t : ℝ)
    (hseg : s.timeIntervalOf seg = .ok (a, b)) :
    (a < t → t < b → ∃ v, s.evalD t (der + 1) = .ok v ∧
      HasDerivAt (fun x => (s.evalD x der).getD 0) v t) ∧
    (t = a → a < b → ∃ v, s.evalD t (der + 1) = .ok v ∧
      HasDerivWithinAt (fun x => (s.evalD x der).getD 0) v (Set.Ici t) t) ∧
    (t = b → a < b → s.tMax = .ok b → ∃ v, s.evalD t (der + 1) = .ok v ∧
      HasDerivWithinAt (fun x => (s.evalD x der).getD 0) v (Set.Iic t) t) := by
  obtain ⟨i, h1, h2, rfl, rfl, hi⟩ := timeIntervalOf_eq h hseg
  have hpoly : HasDerivAt (fun x => fun d => (derivative^[der] (s.segPoly i d)).eval x)
      (fun d => (derivative^[der + 1] (s.segPoly i d)).eval t) t := by
    rw [hasDerivAt_pi]
    intro d
    rw [Function.iterate_succ_apply']
    exact (derivative^[der] (s.segPoly i d)).hasDerivAt t
  have hon : ∀ x, s.kn i ≤ x → x < s.kn (i + 1) → (s.evalD x der).getD 0
      = fun d => (derivative^[der] (s.segPoly i d)).eval x := by
    intro x hx1 hx2
    rw [evalD_on_segment h hw h1 h2 der x hx1 (Or.inl hx2)]
    rfl
  refine ⟨?_, ?_, ?_⟩
  · intro ht1 ht2
    refine ⟨_, by exact_mod_cast evalD_on_segment h hw h1 h2 (der + 1) t ht1.le (Or.inl ht2), ?_⟩
    apply hpoly.congr_of_eventuallyEq
    filter_upwards [Ioo_mem_nhds ht1 ht2] with x hx
    exact hon x hx.1.le hx.2
  · rintro rfl hlt
    refine ⟨_, by exact_mod_cast evalD_on_segment h hw h1 h2 (der + 1) _ le_rfl (Or.inl hlt), ?_⟩
    apply hpoly.hasDerivWithinAt.congr_of_eventuallyEq
    · filter_upwards [Ico_mem_nhdsGE hlt] with x hx
      exact hon x hx.1 hx.2
    · exact hon _ le_rfl hlt
  · rintro rfl hlt htm
    have hk := h.order_pos
    have hn := h.enough
    rw [tMax_eq h] at htm
    have htm := Outcome.ok.inj htm
    have hwl := WideLast.wide h hw
    have hpos : s.kn (s.knots.length - s.order - 1) < s.kn (s.knots.length - s.order) := by
      have : (0 : ℝ) < snapTol := by unfold snapTol; positivity
      linarith
    have hlast : i + 1 = s.knots.length - s.order := by
      by_contra hne
      have := h.mono (i + 1) (s.knots.length - s.order - 1) (by omega) (by omega)
      linarith
    have hend : ∀ e : ℕ, s.evalD (s.kn (i + 1)) e
        = .ok (fun d => (derivative^[e] (s.segPoly i d)).eval (s.kn (i + 1))) := fun e =>
      evalD_on_segment h hw h1 h2 e _ hlt.le (Or.inr ⟨rfl, hlast, hlt⟩)
    refine ⟨_, by exact_mod_cast hend (der + 1), ?_⟩
    apply hpoly.hasDerivWithinAt.congr_of_eventuallyEq
    · filter_upwards [Ioc_mem_nhdsLE hlt] with x hx
      rcases hx.2.eq_or_lt with rfl | hx2
      · rw [hend der]; rfl
      · exact hon x hx.1.le hx2
    · rw [hend der]; rfl

example : exReal.WF ∧ exReal.WideLast ∧ exReal.timeIntervalOf 0 = .ok (2, 3) ∧ (2 : ℝ) < 5/2 ∧
    (5/2 : ℝ) < 3 ∧ exReal.timeIntervalOf 2 = .ok (3, 4) ∧ exReal.tMax = .ok 4 :=
  ⟨exReal_wf, exReal_wide, rfl, by norm_num, by norm_num, rfl, rfl⟩

/-- **C04**: the `d`-th derivative query is the `d`-th iterated derivative of the value query. -/
theorem C04_iterated_derivative (s : BSpline ℝ D) (h : s.WF) (hw : s.WideLast) (der : ℕ) (seg : ℤ)
    (a b t : ℝ) (hseg : s.timeIntervalOf seg = .ok (a, b)) (ht1 : a < t) (ht2 : t < b) (c : Fin D) :
    ∃ v, s.evalD t der = .ok v ∧ iteratedDeriv der (fun x => (s.eval x).getD 0 c) t = v c := by
  have key : ∀ (der : ℕ) (x : ℝ), a < x → x < b →
      iteratedDeriv der (fun x => (s.eval x).getD 0 c) x = (s.evalD x der).getD 0 c := by
    intro der
    induction der with
    | zero => intro x _ _; simp [iteratedDeriv_zero, BSpline.eval]
    | succ n ih =>
      intro x hx1 hx2
      rw [iteratedDeriv_succ]
      have hev : iteratedDeriv n (fun x => (s.eval x).getD 0 c)
          =ᶠ[𝓝 x] fun x => (s.evalD x n).getD 0 c := by
        filter_upwards [Ioo_mem_nhds hx1 hx2] with y hy
        exact ih y hy.1 hy.2
      rw [hev.deriv_eq]
      obtain ⟨v, hv, hd⟩ := (C04_derivative s h hw n seg a b x hseg).1 hx1 hx2
      have := (hasDerivAt_pi.1 hd) c
      rw [this.deriv]
      push_cast
      rw [hv]
      rfl
  obtain ⟨i, h1, h2, rfl, rfl, hi⟩ := timeIntervalOf_eq h hseg
  have := evalD_on_segment h hw h1 h2 der t ht1.le (Or.inl ht2)
  refine ⟨_, this, ?_⟩
  rw [key der t ht1 ht2, this]
  rfl

/-- **C04**: derivative queries of order `≥ order` return the zero vector (at every time the lookup
accepts), and negative orders are rejected. -/
theorem C04_high_and_negative_orders (s : BSpline ℝ D) (h : s.WF) (t : ℝ) (der : ℤ) :
    (der < 0 → s.evalD t der = .throws) ∧
    ((s.order : ℤ) ≤ der → (∃ x, s.computeTIndex t = .ok x) → s.evalD t der = .ok 0) := by
  constructor
  · intro hd; unfold evalD; rw [if_pos hd]
  · rintro hd ⟨x, hx⟩
    have hne : s.computeTIndex t ≠ .throws := by rw [hx]; exact fun h => nomatch h
    rw [Ne, C06_throws_iff_partial s h t _ _ (tMin_eq h) (tMax_eq h)] at hne
    push Not at hne
    obtain ⟨i, hT, h1, h2⟩ := lookup_valid h t hne.1 hne.2
    obtain ⟨B, hB, -, -⟩ := blockAt_ok h i h1 h2
    unfold evalD
    rw [if_neg (by omega)]
    have hz : ∀ u, transposeMul s.order B (computeU s.kn s.order u i der.toNat) = 0 := by
      intro u
      funext c
      unfold transposeMul computeU
      apply sum_eq_zero
      intro r hr
      rw [if_neg (by have := mem_range.1 hr; omega)]
      simp
    unfold evalDNat computeUAndTIndex
    rw [hT]
    simp only [Outcome.bind_ok]
    split_ifs <;>
    · simp only [Outcome.bind_ok, hB, hz]
      congr 1
      funext d
      simp [blockMul]

/-- **C05**: at an interior knot `τ` of multiplicity `μ` all derivative queries of order at most
`order - 1 - μ` (so `order - 2` at a simple knot, `μ = 1`) have the same limit from the left as the
query at `τ`.  Times just before `τ` must be at least `1e-10` before the end (`hend`), which is
the case for every interior knot when the last segment is at least that wide. -/
theorem C05_smooth_at_knots (s : BSpline ℝ D) (h : s.WF) (m μ der : ℕ) (τ tmax : ℝ)
    (hm1 : s.order ≤ m) (hmu : 1 ≤ μ) (hm2 : m + μ ≤ s.knots.length - s.order)
    (hleft : s.kn (m - 1) < τ) (hright : τ < s.kn (m + μ))
    (heq : ∀ l, m ≤ l → l < m + μ → s.kn l = τ)
    (hmax : s.tMax = .ok tmax) (hend : τ + 1 / 10 ^ 10 ≤ tmax) (hd : der + μ + 1 ≤ s.order) :
    ∃ v, s.evalD τ der = .ok v ∧
      Tendsto (fun x => (s.evalD x der).getD 0) (𝓝[<] τ) (𝓝 v) ∧
      ∀ᶠ x in 𝓝[<] τ, ∃ w, s.evalD x der = .ok w := by
  have hk := h.order_pos
  have hn := h.enough
  have hm := h.mono
  have hc := h.coeffs_len
  rw [tMax_eq h] at hmax
  have hmax := Outcome.ok.inj hmax
  obtain ⟨a, rfl⟩ : ∃ a, m = a + 1 := ⟨m - 1, by omega⟩
  simp only [Nat.add_sub_cancel] at hleft
  rw [show a + 1 + μ = a + μ + 1 by omega] at *
  have heq' : ∀ l, a + 1 ≤ l → l ≤ a + μ → s.kn l = τ := fun l h1 h2 => heq l h1 (by omega)
  have eτ1 : s.kn (a + 1) = τ := heq' _ le_rfl (by omega)
  have eτ2 : s.kn (a + μ) = τ := heq' _ (by omega) le_rfl
  have hpos : (0 : ℝ) < 1 / 10 ^ 10 := by positivity
  -- evaluation at a time strictly before the end, in a known interval
  have hev : ∀ (x : ℝ) (i : ℕ), s.order - 1 ≤ i → i + 1 ≤ s.knots.length - s.order →
      s.kn i ≤ x → x < s.kn (i + 1) → x + 1 / 10 ^ 10 ≤ tmax →
      s.evalD x der = .ok (fun d => (derivative^[der] (s.segPoly i d)).eval x) := by
    intro x i h1 h2 h3 h4 h5
    have ha : s.Admissible x := ⟨le_trans (hm _ _ h1 (by omega)) h3, by rw [hmax]; linarith,
      Or.inl (by rw [hmax]; exact h5)⟩
    obtain ⟨i', hi, -, he⟩ := evalDNat_admissible h x ha
    have hii : i' = i := by
      have hl' := hi.lower
      have hu' := hi.upper
      by_contra hne
      rcases Nat.lt_or_gt_of_ne hne with hlt' | hlt'
      · have := hm (i' + 1) i (by omega) (by omega)
        rcases hi.right with h' | h'
        · linarith
        · omega
      · have := hm (i + 1) i' (by omega) (by omega)
        linarith [hi.left]
    subst hii
    unfold evalD
    rw [if_neg (by omega)]
    simpa using he der
  have hval := hev τ (a + μ) (by omega) (by omega) eτ2.le hright hend
  have hlt1 : s.kn a < s.kn (a + 1) := by rw [eτ1]; exact hleft
  have hlt2 : s.kn (a + μ) < s.kn (a + μ + 1) := by rw [eτ2]; exact hright
  have hbefore : ∀ᶠ x in 𝓝[<] τ, s.evalD x der
      = .ok (fun d => (derivative^[der] (s.segPoly a d)).eval x) := by
    filter_upwards [Ioo_mem_nhdsLT hleft] with x hx
    exact hev x a (by omega) (by omega) hx.1.le (by rw [eτ1]; exact hx.2) (by linarith [hx.2])
  have hjoin : ∀ d, (derivative^[der] (s.segPoly a d)).eval τ
      = (derivative^[der] (s.segPoly (a + μ) d)).eval τ := by
    intro d
    unfold segPoly
    simp only [iterate_derivative_sum, eval_finsetSum, iterate_derivative_C_mul, eval_mul, eval_C]
    refine sum_congr rfl fun j hj => ?_
    rw [piece_join_derivative s.kn s.knots.length a μ hm τ hleft hright hmu heq' der (s.order - 1) j
      (by omega) (by have := mem_range.1 hj; omega)]
  refine ⟨_, hval, ?_, hbefore.mono fun x hx => ⟨_, hx⟩⟩
  have hcont : Tendsto (fun x => fun d => (derivative^[der] (s.segPoly a d)).eval x) (𝓝[<] τ)
      (𝓝 (fun d => (derivative^[der] (s.segPoly (a + μ) d)).eval τ)) := by
    rw [tendsto_pi_nhds]
    intro d
    rw [← hjoin d]
    exact ((derivative^[der] (s.segPoly a d)).continuous.tendsto τ).mono_left nhdsWithin_le_nhds
  refine hcont.congr' ?_
  filter_upwards [hbefore] with x hx
  rw [hx]
  rfl

/-- The double knot `3` of the witness (`μ = 2`, order 4): value and first derivative join. -/
example : exReal.WF ∧ exReal.order ≤ 4 ∧ 4 + 2 ≤ exReal.knots.length - exReal.order ∧
    exReal.kn (4 - 1) < 3 ∧ 3 < exReal.kn (4 + 2) ∧ (∀ l, 4 ≤ l → l < 4 + 2 → exReal.kn l = 3) ∧
    exReal.tMax = .ok 4 ∧ (3 : ℝ) + 1 / 10 ^ 10 ≤ 4 ∧ 1 + 2 + 1 ≤ exReal.order := by
  refine ⟨exReal_wf, le_rfl, by decide, ?_, ?_, ?_, rfl, by norm_num, le_rfl⟩
  · change (2 : ℝ) < 3; norm_num
  · change (3 : ℝ) < 4; norm_num
  · intro l h1 h2
    obtain rfl | rfl : l = 4 ∨ l = 5 := by omega
    · rfl
    · rfl

end Verif
