import Verif.Props.FitInterpolates
import Mathlib.LinearAlgebra.Dual.Lemmas

/-!
# Property C119

With growing weight a fit with a regularisation approaches the best line, with falling weight the fit without.  The distance of a curve from the line
through its ends is bounded by its bending: the fit of a single point off the line is the representer of this distance.
-/

set_option linter.unusedSectionVars false

namespace Verif

open Finset Polynomial BSpline MeasureTheory

variable {D : ℕ}

/-! ### The distance from the chord -/

/-- A fit of one component over the knots of a given spline. -/
theorem exists_fit {s : BSpline ℝ D} (h : s.WF) (hw : s.WideLast) (data : List (ℝ × (Fin 1 → ℝ))) (hlen : 2 ≤ data.length)
    (hs : (data.map Prod.fst).Pairwise (· ≤ ·)) (hin : ∀ o ∈ data, s.kn (s.order - 1) ≤ o.1 ∧ o.1 ≤ s.kn (s.knots.length - s.order)) :
    ∃ p : BSpline ℝ 1, FitResult data 1 p ∧ SharedKnots s p := by
  have hw' := WideLast.wide h hw
  unfold snapTol at hw'
  have hg : GivenKnots (⟨s.order, [], [], []⟩ : BSpline ℝ 1) data s.knots :=
    ⟨h.order_pos, le_rfl, hlen, hs, h.sorted, h.enough, by simp, hw', hin⟩
  obtain ⟨p, a1, a2, a3, a4, -⟩ := C19_given_knots_optimal choiceSolver choiceSolver_semidefinite _ hg.order hg.dim data hg.two hg.sorted s.knots
    hg.knots_sorted hg.enough hg.old hg.wide hg.within 1 zero_le_one
  exact ⟨p, ⟨choiceSolver, _, choiceSolver_semidefinite, .inr ⟨s.knots, hg, a1⟩⟩, a2, a3, a4⟩

/-- The residuals of a fit see a spline at most as much as its bending. -/
theorem residual_bound {data : List (ℝ × (Fin 1 → ℝ))} {p q : BSpline ℝ 1} (h : FitResult data 1 p) (hq : SharedKnots p q) :
    (data.map fun o => ∑ d, (val p o.1 0 d - o.2 d) * val q o.1 0 d).sum ^ 2 ≤
      Spec.bending p (p.kn (p.order - 1)) (p.kn (p.knots.length - p.order)) * Spec.bending q (p.kn (p.order - 1)) (p.kn (p.knots.length - p.order)) := by
  have f := h.fitted zero_le_one
  have m := (minimal_iff f.wf f.wide data f.within 1 zero_le_one _).1 f.minimal q hq
  unfold slope at m
  set lo := p.kn (p.order - 1)
  set hi := p.kn (p.knots.length - p.order)
  have hwq := hq.wide f.wide
  have i11 := val_mul_integrable f.wf f.wide (⟨f.wf, rfl, rfl⟩ : SharedKnots p p) (penalty p.order)
  have i12 := val_mul_integrable f.wf f.wide hq (penalty p.order)
  have i22 := val_mul_integrable hq.wf hwq (⟨hq.wf, rfl, rfl⟩ : SharedKnots q q) (penalty p.order)
  rw [hq.kn_eq, hq.order, hq.knots] at i22
  have b1 : (∫ t in lo..hi, ∑ d, val p t (penalty p.order) d * val p t (penalty p.order) d) = Spec.bending p lo hi := by
    unfold Spec.bending
    refine intervalIntegral.integral_congr fun t _ => sum_congr rfl fun d _ => ?_
    rw [sq]
    rfl
  have b2 : (∫ t in lo..hi, ∑ d, val q t (penalty p.order) d * val q t (penalty p.order) d) = Spec.bending q lo hi := by
    unfold Spec.bending
    rw [hq.order]
    refine intervalIntegral.integral_congr fun t _ => sum_congr rfl fun d _ => ?_
    rw [sq]
    rfl
  set B := ∫ t in lo..hi, ∑ d, val p t (penalty p.order) d * val q t (penalty p.order) d
  have key : ∀ x, 2 * x * B ≤ x ^ 2 * Spec.bending p lo hi + Spec.bending q lo hi := by
    intro x
    rw [← b1, ← b2, ← intervalIntegral.integral_const_mul, ← intervalIntegral.integral_const_mul,
      ← intervalIntegral.integral_add (i11.const_mul (x ^ 2)) i22]
    refine intervalIntegral.integral_mono_on f.le (i12.const_mul (2 * x)) ((i11.const_mul (x ^ 2)).add i22) fun t _ => ?_
    rw [mul_sum, mul_sum, ← sum_add_distrib]
    exact sum_le_sum fun d _ => by nlinarith [sq_nonneg (x * val p t (penalty p.order) d - val q t (penalty p.order) d)]
  have hb1 := bending_nonneg p f.le
  have hb2 := bending_nonneg q f.le
  have e : (data.map fun o => ∑ d, (val p o.1 0 d - o.2 d) * val q o.1 0 d).sum = -B := by linarith
  rw [e, neg_sq]
  rcases eq_or_lt_of_le hb1 with h0 | h0
  · rw [← h0] at key ⊢
    have hB : B = 0 := by
      by_contra hne
      have := key ((Spec.bending q lo hi + 1) / (2 * B))
      rw [show 2 * ((Spec.bending q lo hi + 1) / (2 * B)) * B = Spec.bending q lo hi + 1 by field_simp] at this
      linarith
    rw [hB]
    simp
  · have := key (B / Spec.bending p lo hi)
    have e1 : 2 * (B / Spec.bending p lo hi) * B - (B / Spec.bending p lo hi) ^ 2 * Spec.bending p lo hi = B ^ 2 / Spec.bending p lo hi := by
      field_simp
      ring
    have e2 : B ^ 2 / Spec.bending p lo hi ≤ Spec.bending q lo hi := by linarith
    rw [div_le_iff₀ h0] at e2
    linarith

/-- One component of a spline. -/
noncomputable def component (d : Fin D) (q : BSpline ℝ D) : BSpline ℝ 1 := mapped (Matrix.of fun (_ : Fin 1) j => if j = d then (1 : ℝ) else 0) q

theorem component_val {s q : BSpline ℝ D} (hw : s.WideLast) (hq : SharedKnots s q) (d : Fin D) (t : ℝ) (h1 : s.kn (s.order - 1) ≤ t)
    (h2 : t ≤ s.kn (s.knots.length - s.order)) (der : ℕ) (e : Fin 1) : val (component d q) t der e = val q t der d := by
  unfold component
  rw [val_mapped hq.wf (hq.wide hw) (Matrix.of fun (_ : Fin 1) j => if j = d then (1 : ℝ) else 0) t (by rw [hq.kn_eq, hq.order]; exact h1) (by rw [hq.kn_eq, hq.order, hq.knots]; exact h2)]
  unfold Matrix.mulVec dotProduct
  simp

theorem component_bending {s q : BSpline ℝ D} (h : s.WF) (hw : s.WideLast) (hq : SharedKnots s q) (d : Fin D) :
    Spec.bending (component d q) (s.kn (s.order - 1)) (s.kn (s.knots.length - s.order)) ≤
      Spec.bending q (s.kn (s.order - 1)) (s.kn (s.knots.length - s.order)) := by
  have hk := h.order_pos
  have hn := h.enough
  have hle : s.kn (s.order - 1) ≤ s.kn (s.knots.length - s.order) := h.mono _ _ (by omega) (by omega)
  have hc : SharedKnots q (component d q) := mapped_same hq.wf _
  have i1 := val_mul_integrable hc.wf (hc.wide (hq.wide hw)) (⟨hc.wf, rfl, rfl⟩ : SharedKnots (component d q) (component d q)) (if q.order = 2 then 1 else 2)
  have i2 := val_mul_integrable hq.wf (hq.wide hw) (⟨hq.wf, rfl, rfl⟩ : SharedKnots q q) (if q.order = 2 then 1 else 2)
  rw [hc.kn_eq, hc.order, hc.knots, hq.kn_eq, hq.order, hq.knots] at i1
  rw [hq.kn_eq, hq.order, hq.knots] at i2
  unfold Spec.bending
  rw [hc.order, hq.order]
  refine intervalIntegral.integral_mono_on hle (i1.congr ?_) (i2.congr ?_) fun t ht => ?_
  · exact fun t _ => sum_congr rfl fun d _ => by rw [sq]; rfl
  · exact fun t _ => sum_congr rfl fun d _ => by rw [sq]; rfl
  · have e := component_val hw hq d t ht.1 ht.2 (if s.order = 2 then 1 else 2) 0
    rw [univ_unique, sum_singleton]
    change (val (component d q) t (if s.order = 2 then 1 else 2) 0) ^ 2 ≤ ∑ d, (val q t (if s.order = 2 then 1 else 2) d) ^ 2
    rw [e]
    exact single_le_sum (f := fun d => (val q t (if s.order = 2 then 1 else 2) d) ^ 2) (fun _ _ => sq_nonneg _) (mem_univ d)

/-- The line through the ends of a curve, for order two the value at the beginning. -/
noncomputable def Spec.chord (s : BSpline ℝ D) (lo hi t : ℝ) (d : Fin D) : ℝ :=
  if s.order = 2 then (s.eval lo).getD 0 d
  else (s.eval lo).getD 0 d + ((s.eval hi).getD 0 d - (s.eval lo).getD 0 d) / (hi - lo) * (t - lo)

/-- The distance from the chord is bounded by the bending. -/
theorem chord_bound {s : BSpline ℝ D} (h : s.WF) (hw : s.WideLast) (hd : DistinctKnots s) (t : ℝ) (h1 : s.kn (s.order - 1) ≤ t)
    (h2 : t ≤ s.kn (s.knots.length - s.order)) :
    ∃ C : ℝ, 0 ≤ C ∧ ∀ q : BSpline ℝ D, SharedKnots s q → ∀ d,
      (val q t 0 d - Spec.chord q (s.kn (s.order - 1)) (s.kn (s.knots.length - s.order)) t d) ^ 2 ≤
        C * Spec.bending q (s.kn (s.order - 1)) (s.kn (s.knots.length - s.order)) := by
  have hk := h.order_pos
  have hn := h.enough
  have hlt : s.kn (s.order - 1) < s.kn (s.knots.length - s.order) :=
    lt_of_lt_of_le (hd (s.order - 1) le_rfl (by omega)) (h.mono _ _ (by omega) (by omega))
  set lo := s.kn (s.order - 1) with hlo
  set hi := s.kn (s.knots.length - s.order) with hhi
  have hdp : ∀ p : BSpline ℝ 1, SharedKnots s p → DistinctKnots p := fun p hp => by
    unfold DistinctKnots
    rw [hp.kn_eq, hp.order, hp.knots]
    exact hd
  -- what a representer gives
  have main : ∀ (data : List (ℝ × (Fin 1 → ℝ))) (p : BSpline ℝ 1) (κ : ℝ), FitResult data 1 p → SharedKnots s p → κ ≠ 0 →
      (∀ q : BSpline ℝ D, SharedKnots s q → ∀ d, (data.map fun o => ∑ e, (val p o.1 0 e - o.2 e) * val (component d q) o.1 0 e).sum =
        κ * (val q t 0 d - Spec.chord q lo hi t d)) →
      ∃ C : ℝ, 0 ≤ C ∧ ∀ q : BSpline ℝ D, SharedKnots s q → ∀ d, (val q t 0 d - Spec.chord q lo hi t d) ^ 2 ≤ C * Spec.bending q lo hi := by
    intro data p κ hp hsp hκ hsum
    have f := hp.fitted zero_le_one
    refine ⟨Spec.bending p lo hi / κ ^ 2, div_nonneg (bending_nonneg p hlt.le) (sq_nonneg κ), fun q hq d => ?_⟩
    have hqc := mapped_same hq.wf (Matrix.of fun (_ : Fin 1) j => if j = d then (1 : ℝ) else 0)
    have hpq : SharedKnots p (component d q) :=
      ⟨hqc.wf, hqc.order.trans (hq.order.trans hsp.order.symm), hqc.knots.trans (hq.knots.trans hsp.knots.symm)⟩
    have r := residual_bound hp hpq
    rw [hsum q hq d, hsp.kn_eq, hsp.order, hsp.knots, mul_pow] at r
    have r2 := r.trans (mul_le_mul_of_nonneg_left (component_bending h hw hq d) (bending_nonneg p hlt.le))
    have hκ2 : 0 < κ ^ 2 := by positivity
    rw [div_mul_eq_mul_div, le_div_iff₀ hκ2]
    linarith
  by_cases h0 : t = lo
  · refine ⟨0, le_rfl, fun q hq d => ?_⟩
    have : val q t 0 d = (q.eval lo).getD 0 d := by rw [h0]; rfl
    unfold Spec.chord
    rw [this, h0]
    split_ifs <;> simp
  have hlt0 : lo < t := lt_of_le_of_ne h1 (Ne.symm h0)
  by_cases ho : s.order = 2
  · obtain ⟨p, hp, hsp⟩ := exists_fit h hw [(lo, ![0]), (t, ![1])] (by simp) (by simpa using h1) (by
      intro o hod
      simp only [List.mem_cons, List.not_mem_nil, or_false] at hod
      rcases hod with rfl | rfl
      · exact ⟨le_rfl, hlt.le⟩
      · exact ⟨h1, h2⟩)
    have hm := C110_moments _ 1 zero_le_one p hp (fun _ => 1) (fun _ => by rw [hsp.order]; simp; omega) (.inr fun _ => by
      rw [hsp.order, if_pos ho]; simp)
    simp only [List.map_cons, List.map_nil, List.sum_cons, List.sum_nil, univ_unique, sum_singleton, Fin.default_eq_zero, eval_one, mul_one,
      Matrix.cons_val_fin_one, add_zero, sub_zero] at hm
    change val p lo 0 0 + (val p t 0 0 - 1) = 0 at hm
    refine main _ p (val p t 0 0 - 1) hp hsp (fun hz => ?_) fun q hq d => ?_
    · have hmet := (C118_iff _ 1 one_pos p hp (hdp p hsp)).1 (by
        have f := hp.fitted zero_le_one
        have g := evalD_val f.wf f.wide
        rw [hsp.kn_eq, hsp.order, hsp.knots] at g
        intro o hod
        simp only [List.mem_cons, List.not_mem_nil, or_false] at hod
        rcases hod with rfl | rfl
        · refine (g lo le_rfl hlt.le 0).trans (congrArg Outcome.ok (funext fun e => ?_))
          fin_cases e
          change val p lo 0 0 = 0
          linarith
        · refine (g t h1 h2 0).trans (congrArg Outcome.ok (funext fun e => ?_))
          fin_cases e
          change val p t 0 0 = 1
          linarith)
      obtain ⟨c, v, hv, hon⟩ := hmet
      have e0 := hon (lo, ![0]) (by simp) 0
      have e1 := hon (t, ![1]) (by simp) 0
      rw [hv (hsp.order.trans ho)] at e0 e1
      norm_num at e0 e1
      linarith
    · simp only [List.map_cons, List.map_nil, List.sum_cons, List.sum_nil, univ_unique, sum_singleton, Fin.default_eq_zero,
        Matrix.cons_val_fin_one, add_zero, sub_zero]
      rw [component_val hw hq d lo le_rfl hlt.le, component_val hw hq d t h1 h2]
      unfold Spec.chord
      rw [if_pos (hq.order.trans ho)]
      change _ = _ * (val q t 0 d - val q lo 0 d)
      rw [show val p lo 0 0 = -(val p t 0 0 - 1) by linarith]
      ring
  · by_cases h3 : t = hi
    · refine ⟨0, le_rfl, fun q hq d => ?_⟩
      have : val q t 0 d = (q.eval hi).getD 0 d := by rw [h3]; rfl
      unfold Spec.chord
      rw [this, h3, if_neg (by rw [hq.order]; exact ho), div_mul_cancel₀ _ (sub_pos.2 hlt).ne']
      simp
    have hlt1 : t < hi := lt_of_le_of_ne h2 h3
    obtain ⟨p, hp, hsp⟩ := exists_fit h hw [(lo, ![0]), (t, ![1]), (hi, ![0])] (by simp) (by simp [h1, h2, hlt.le]) (by
      intro o hod
      simp only [List.mem_cons, List.not_mem_nil, or_false] at hod
      rcases hod with rfl | rfl | rfl
      · exact ⟨le_rfl, hlt.le⟩
      · exact ⟨h1, h2⟩
      · exact ⟨hlt.le, le_rfl⟩)
    have hm := C110_moments _ 1 zero_le_one p hp (fun _ => 1) (fun _ => by rw [hsp.order]; simp; omega) (.inr fun _ => by
      rw [hsp.order, if_neg ho]; simp)
    have hm' := C110_moments _ 1 zero_le_one p hp (fun _ => X) (fun _ => by rw [hsp.order, natDegree_X]; omega) (.inr fun _ => by
      rw [hsp.order, if_neg ho, natDegree_X]; norm_num)
    simp only [List.map_cons, List.map_nil, List.sum_cons, List.sum_nil, univ_unique, sum_singleton, Fin.default_eq_zero, eval_one, eval_X, mul_one,
      Matrix.cons_val_fin_one, add_zero, sub_zero] at hm hm'
    change val p lo 0 0 + (val p t 0 0 - 1 + val p hi 0 0) = 0 at hm
    change val p lo 0 0 * lo + ((val p t 0 0 - 1) * t + val p hi 0 0 * hi) = 0 at hm'
    have hden : hi - lo ≠ 0 := (sub_pos.2 hlt).ne'
    have ehi : val p hi 0 0 = -(val p t 0 0 - 1) * (t - lo) / (hi - lo) := by
      rw [eq_div_iff hden]
      have e : val p lo 0 0 = -(val p t 0 0 - 1) - val p hi 0 0 := by linarith
      rw [e] at hm'
      linarith
    have elo : val p lo 0 0 = -(val p t 0 0 - 1) - val p hi 0 0 := by linarith
    refine main _ p (val p t 0 0 - 1) hp hsp (fun hz => ?_) fun q hq d => ?_
    · rw [hz] at ehi elo
      simp only [neg_zero, zero_mul, zero_div] at ehi
      have hmet := (C118_iff _ 1 one_pos p hp (hdp p hsp)).1 (by
        have f := hp.fitted zero_le_one
        have g := evalD_val f.wf f.wide
        rw [hsp.kn_eq, hsp.order, hsp.knots] at g
        intro o hod
        simp only [List.mem_cons, List.not_mem_nil, or_false] at hod
        rcases hod with rfl | rfl | rfl
        · refine (g lo le_rfl hlt.le 0).trans (congrArg Outcome.ok (funext fun e => ?_))
          fin_cases e
          change val p lo 0 0 = 0
          linarith
        · refine (g t h1 h2 0).trans (congrArg Outcome.ok (funext fun e => ?_))
          fin_cases e
          change val p t 0 0 = 1
          linarith
        · refine (g hi hlt.le le_rfl 0).trans (congrArg Outcome.ok (funext fun e => ?_))
          fin_cases e
          change val p hi 0 0 = 0
          exact ehi)
      obtain ⟨c, v, -, hon⟩ := hmet
      have e0 := hon (lo, ![0]) (by simp) 0
      have e1 := hon (t, ![1]) (by simp) 0
      have e2 := hon (hi, ![0]) (by simp) 0
      change (0 : ℝ) = c 0 + v 0 * lo at e0
      change (1 : ℝ) = c 0 + v 0 * t at e1
      change (0 : ℝ) = c 0 + v 0 * hi at e2
      have : v 0 * (hi - lo) = 0 := by linarith
      rcases mul_eq_zero.1 this with h | h
      · rw [h] at e0 e1
        linarith
      · exact hden h
    · simp only [List.map_cons, List.map_nil, List.sum_cons, List.sum_nil, univ_unique, sum_singleton, Fin.default_eq_zero,
        Matrix.cons_val_fin_one, add_zero, sub_zero]
      rw [component_val hw hq d lo le_rfl hlt.le, component_val hw hq d t h1 h2, component_val hw hq d hi hlt.le le_rfl]
      unfold Spec.chord
      rw [if_neg (by rw [hq.order]; exact ho)]
      change _ = _ * (val q t 0 d - (val q lo 0 d + (val q hi 0 d - val q lo 0 d) / (hi - lo) * (t - lo)))
      rw [elo, ehi]
      field_simp
      ring

/-! ### Large weights -/

/-- **C119**, the chord: at every time the distance of the curve from the line through its ends (order two: from the value at its beginning)
is at most a constant over the square root of the weight. -/
theorem C119_chord (data : List (ℝ × (Fin D → ℝ))) (s₀ : BSpline ℝ D) (h : s₀.WF) (hw : s₀.WideLast) (hd : DistinctKnots s₀) (lo hi : ℝ)
    (hlo : s₀.tMin = .ok lo) (hhi : s₀.tMax = .ok hi) (t : ℝ) (h1 : lo ≤ t) (h2 : t ≤ hi) :
    ∃ C : ℝ, 0 ≤ C ∧ ∀ (lambda : ℝ) (s : BSpline ℝ D), 0 < lambda → FitResult data lambda s → s.order = s₀.order → s.knots = s₀.knots → ∀ d,
      |(s.eval t).getD 0 d - Spec.chord s lo hi t d| ≤ C / √lambda := by
  rw [tMin_eq h, Outcome.ok.injEq] at hlo
  rw [tMax_eq h, Outcome.ok.injEq] at hhi
  subst hlo hhi
  obtain ⟨C, hC, hb⟩ := chord_bound h hw hd t h1 h2
  set E := (data.map fun o => ∑ d, (0 - o.2 d) ^ 2).sum with hE
  have hE0 : 0 ≤ E := List.sum_nonneg fun x hx => by
    obtain ⟨o, -, rfl⟩ := List.mem_map.1 hx
    exact sum_nonneg fun d _ => sq_nonneg _
  refine ⟨√(C * E), Real.sqrt_nonneg _, fun lambda s hl hs ho hk d => ?_⟩
  have f := hs.fitted hl.le
  have hsh : SharedKnots s₀ s := ⟨f.wf, ho, hk⟩
  have hp := C110_polynomial data lambda hl.le s hs _ _ (tMin_eq f.wf) (tMax_eq f.wf) (fun _ => 0)
    (fun d => by have := f.order; simp; omega) (fun d => by split_ifs <;> simp)
  simp only [eval_zero] at hp
  rw [hsh.kn_eq, ho, hk] at hp
  have hm := misfit_nonneg s data
  have hle : Spec.bending s (s₀.kn (s₀.order - 1)) (s₀.kn (s₀.knots.length - s₀.order)) ≤ E / lambda := by
    rw [le_div_iff₀ hl]
    linarith
  rw [← Real.sqrt_div' _ hl.le, ← Real.sqrt_sq_eq_abs]
  refine Real.sqrt_le_sqrt ((hb s hsh d).trans ?_)
  rw [mul_div_assoc]
  exact mul_le_mul_of_nonneg_left hle hC

/-- The best line through the data, a constant one if `flat`. -/
def Spec.BestLine (flat : Prop) (data : List (ℝ × (Fin D → ℝ))) (c v : Fin D → ℝ) : Prop :=
  (flat → v = 0) ∧ ∀ c' v' : Fin D → ℝ, (flat → v' = 0) →
    (data.map fun o => ∑ d, (c d + v d * o.1 - o.2 d) ^ 2).sum ≤ (data.map fun o => ∑ d, (c' d + v' d * o.1 - o.2 d) ^ 2).sum

theorem list_sum_add (data : List (ℝ × (Fin D → ℝ))) (f g : ℝ × (Fin D → ℝ) → Fin D → ℝ) :
    (data.map fun o => ∑ d, (f o d + g o d)).sum = (data.map fun o => ∑ d, f o d).sum + (data.map fun o => ∑ d, g o d).sum := by
  induction data with
  | nil => simp
  | cons a l ih =>
    rw [List.map_cons, List.sum_cons, ih, sum_add_distrib, List.map_cons, List.sum_cons, List.map_cons, List.sum_cons]
    ring

theorem list_sum_mul (data : List (ℝ × (Fin D → ℝ))) (x : ℝ) (f : ℝ × (Fin D → ℝ) → Fin D → ℝ) :
    (data.map fun o => ∑ d, x * f o d).sum = x * (data.map fun o => ∑ d, f o d).sum := by
  induction data with
  | nil => simp
  | cons a l ih =>
    rw [List.map_cons, List.sum_cons, ih, ← mul_sum, List.map_cons, List.sum_cons]
    ring

/-- The residuals of the best line are orthogonal to every line. -/
theorem Spec.BestLine.orthogonal {flat : Prop} {data : List (ℝ × (Fin D → ℝ))} {c v : Fin D → ℝ} (h : Spec.BestLine flat data c v) (c' v' : Fin D → ℝ)
    (hv : flat → v' = 0) : (data.map fun o => ∑ d, (c d + v d * o.1 - o.2 d) * (c' d + v' d * o.1)).sum = 0 := by
  set A := (data.map fun o => ∑ d, (c d + v d * o.1 - o.2 d) * (c' d + v' d * o.1)).sum with hA
  set Q := (data.map fun o => ∑ d, (c' d + v' d * o.1) ^ 2).sum with hQ
  have key : ∀ x : ℝ, 0 ≤ 2 * x * A + x ^ 2 * Q := by
    intro x
    have := h.2 (fun d => c d + x * c' d) (fun d => v d + x * v' d) (fun hf => by
      funext d
      rw [congrFun (h.1 hf) d, congrFun (hv hf) d]
      simp)
    have e : (data.map fun o => ∑ d, (c d + x * c' d + (v d + x * v' d) * o.1 - o.2 d) ^ 2).sum =
        (data.map fun o => ∑ d, (c d + v d * o.1 - o.2 d) ^ 2).sum + (2 * x * A + x ^ 2 * Q) := by
      rw [hA, hQ, ← list_sum_mul, ← list_sum_mul, ← list_sum_add, ← list_sum_add]
      refine congrArg List.sum (List.map_congr_left fun o _ => sum_congr rfl fun d _ => ?_)
      ring
    rw [e] at this
    linarith
  have hQ0 : 0 ≤ Q := List.sum_nonneg fun x hx => by
    obtain ⟨o, -, rfl⟩ := List.mem_map.1 hx
    exact sum_nonneg fun d _ => sq_nonneg _
  have := key (-A / (Q + 1))
  have hq : 0 < Q + 1 := by linarith
  have e : 2 * (-A / (Q + 1)) * A + (-A / (Q + 1)) ^ 2 * Q = -(A ^ 2 * (Q + 2)) / (Q + 1) ^ 2 := by
    field_simp
    ring
  rw [e, le_div_iff₀ (by positivity), zero_mul] at this
  have h2 : A ^ 2 * (Q + 2) ≤ 0 := by linarith
  have h3 : A ^ 2 ≤ 0 := by nlinarith [sq_nonneg A]
  exact pow_eq_zero_iff (two_ne_zero) |>.1 (le_antisymm h3 (sq_nonneg A))

theorem list_sum_comm (data : List (ℝ × (Fin D → ℝ))) (f : ℝ × (Fin D → ℝ) → Fin D → ℝ) :
    (data.map fun o => ∑ d, f o d).sum = ∑ d, (data.map fun o => f o d).sum := by
  induction data with
  | nil => simp
  | cons a l ih => rw [List.map_cons, List.sum_cons, ih, ← sum_add_distrib]; simp

/-- **C119**, the best line exists and is the only one if the data have two different times. -/
theorem C119_best_exists (flat : Prop) (data : List (ℝ × (Fin D → ℝ))) (o₁ o₂ : ℝ × (Fin D → ℝ)) (ho₁ : o₁ ∈ data) (ho₂ : o₂ ∈ data)
    (hne : o₁.1 ≠ o₂.1) : ∃ c v : Fin D → ℝ, Spec.BestLine flat data c v ∧ ∀ c' v', Spec.BestLine flat data c' v' → c' = c ∧ v' = v := by
  have hn : (0 : ℝ) < data.length := by exact_mod_cast List.length_pos_of_mem ho₁
  set n : ℝ := (data.length : ℝ) with hnd
  have hone : (data.map fun _ => (1 : ℝ)).sum = n := by simp [hnd]
  set S := (data.map fun o => o.1).sum with hS
  have hdet : 0 < (data.map fun o => (o.1 - S / n) ^ 2).sum := by
    have h0 : ∀ x ∈ data.map fun o => (o.1 - S / n) ^ 2, 0 ≤ x := fun x hx => by
      obtain ⟨o, -, rfl⟩ := List.mem_map.1 hx
      exact sq_nonneg _
    refine lt_of_le_of_ne (List.sum_nonneg h0) fun hz => hne ?_
    have hall : ∀ o ∈ data, o.1 = S / n := fun o ho => by
      have := List.single_le_sum h0 _ (List.mem_map.2 ⟨o, ho, rfl⟩)
      rw [← hz] at this
      have := pow_eq_zero_iff (two_ne_zero) |>.1 (le_antisymm this (sq_nonneg _))
      linarith
    rw [hall o₁ ho₁, hall o₂ ho₂]
  set V := (data.map fun o => (o.1 - S / n) ^ 2).sum with hV
  have hsum0 : (data.map fun o => (o.1 - S / n)).sum = 0 := by
    have e : (data.map fun o => (o.1 - S / n)).sum = (data.map fun o => o.1).sum + (data.map fun _ => (-(S / n)) * 1).sum := by
      rw [← List.sum_map_add]
      refine congrArg List.sum (List.map_congr_left fun o _ => ?_)
      ring
    rw [e, List.sum_map_mul_left, hone, ← hS]
    field_simp
    ring
  -- the slope and the mean
  obtain ⟨v, hv0, hv1⟩ : ∃ v : Fin D → ℝ, (flat → v = 0) ∧ (¬ flat → ∀ d, v d * V = (data.map fun o => o.2 d * (o.1 - S / n)).sum) := by
    by_cases hf : flat
    · exact ⟨0, fun _ => rfl, fun h => absurd hf h⟩
    · exact ⟨fun d => (data.map fun o => o.2 d * (o.1 - S / n)).sum / V, fun h => absurd h hf, fun _ d => div_mul_cancel₀ _ hdet.ne'⟩
  set m : Fin D → ℝ := fun d => (data.map fun o => o.2 d).sum / n with hm
  have hres : ∀ d, (data.map fun o => (m d - v d * (S / n)) + v d * o.1 - o.2 d).sum = 0 := by
    intro d
    have e : (data.map fun o => (m d - v d * (S / n)) + v d * o.1 - o.2 d).sum =
        (data.map fun _ => m d * 1).sum + ((data.map fun o => v d * (o.1 - S / n)).sum + (data.map fun o => -1 * o.2 d).sum) := by
      rw [← List.sum_map_add, ← List.sum_map_add]
      refine congrArg List.sum (List.map_congr_left fun o _ => ?_)
      ring
    rw [e, List.sum_map_mul_left, List.sum_map_mul_left, List.sum_map_mul_left, hone, hsum0, hm]
    field_simp
    ring
  have hres1 : ¬ flat → ∀ d, (data.map fun o => ((m d - v d * (S / n)) + v d * o.1 - o.2 d) * (o.1 - S / n)).sum = 0 := by
    intro hf d
    have e : (data.map fun o => ((m d - v d * (S / n)) + v d * o.1 - o.2 d) * (o.1 - S / n)).sum =
        (data.map fun o => m d * (o.1 - S / n)).sum + ((data.map fun o => v d * (o.1 - S / n) ^ 2).sum +
          (data.map fun o => -1 * (o.2 d * (o.1 - S / n))).sum) := by
      rw [← List.sum_map_add, ← List.sum_map_add]
      refine congrArg List.sum (List.map_congr_left fun o _ => ?_)
      ring
    rw [e, List.sum_map_mul_left, List.sum_map_mul_left, List.sum_map_mul_left, hsum0, ← hV, hv1 hf d]
    ring
  set c : Fin D → ℝ := fun d => m d - v d * (S / n) with hc
  have horth : ∀ c' v' : Fin D → ℝ, (flat → v' = 0) →
      (data.map fun o => ∑ d, (c d + v d * o.1 - o.2 d) * (c' d + v' d * o.1)).sum = 0 := by
    intro c' v' hv'
    rw [list_sum_comm]
    refine sum_eq_zero fun d _ => ?_
    have e : (data.map fun o => (c d + v d * o.1 - o.2 d) * (c' d + v' d * o.1)).sum =
        (data.map fun o => (c' d + v' d * (S / n)) * (c d + v d * o.1 - o.2 d)).sum +
          (data.map fun o => v' d * ((c d + v d * o.1 - o.2 d) * (o.1 - S / n))).sum := by
      rw [← List.sum_map_add]
      refine congrArg List.sum (List.map_congr_left fun o _ => ?_)
      ring
    rw [e, List.sum_map_mul_left, List.sum_map_mul_left, hres d, mul_zero, zero_add]
    by_cases hf : flat
    · rw [hv' hf]
      simp
    · rw [hres1 hf d, mul_zero]
  have hgap : ∀ c' v' : Fin D → ℝ, (flat → v' = 0) → (data.map fun o => ∑ d, (c' d + v' d * o.1 - o.2 d) ^ 2).sum =
      (data.map fun o => ∑ d, (c d + v d * o.1 - o.2 d) ^ 2).sum + (data.map fun o => ∑ d, ((c' d - c d) + (v' d - v d) * o.1) ^ 2).sum := by
    intro c' v' hv'
    have h0 := horth (fun d => c' d - c d) (fun d => v' d - v d) (fun hf => by
      rw [hv' hf, hv0 hf]
      simp
      rfl)
    have e : (data.map fun o => ∑ d, (c' d + v' d * o.1 - o.2 d) ^ 2).sum =
        (data.map fun o => ∑ d, (c d + v d * o.1 - o.2 d) ^ 2).sum + (data.map fun o => ∑ d, ((c' d - c d) + (v' d - v d) * o.1) ^ 2).sum +
          2 * (data.map fun o => ∑ d, (c d + v d * o.1 - o.2 d) * ((c' d - c d) + (v' d - v d) * o.1)).sum := by
      rw [← list_sum_mul, ← list_sum_add, ← list_sum_add]
      refine congrArg List.sum (List.map_congr_left fun o _ => sum_congr rfl fun d _ => ?_)
      ring
    rw [e, h0, mul_zero, add_zero]
  have hsq : ∀ c' v' : Fin D → ℝ, ∀ x ∈ data.map fun o => ∑ d, ((c' d - c d) + (v' d - v d) * o.1) ^ 2, 0 ≤ x := fun c' v' x hx => by
    obtain ⟨o, -, rfl⟩ := List.mem_map.1 hx
    exact sum_nonneg fun d _ => sq_nonneg _
  refine ⟨c, v, ⟨hv0, fun c' v' hv' => ?_⟩, fun c' v' hb => ?_⟩
  · rw [hgap c' v' hv']
    exact le_add_of_nonneg_right (List.sum_nonneg (hsq c' v'))
  · have h1 := hb.2 c v hv0
    rw [hgap c' v' hb.1] at h1
    have hz : ∀ o ∈ data, ∀ d, (c' d - c d) + (v' d - v d) * o.1 = 0 := fun o ho d => by
      have a1 := List.single_le_sum (hsq c' v') _ (List.mem_map.2 ⟨o, ho, rfl⟩)
      have a2 : ((c' d - c d) + (v' d - v d) * o.1) ^ 2 ≤ ∑ d, ((c' d - c d) + (v' d - v d) * o.1) ^ 2 :=
        single_le_sum (f := fun d => ((c' d - c d) + (v' d - v d) * o.1) ^ 2) (fun _ _ => sq_nonneg _) (mem_univ d)
      exact pow_eq_zero_iff (two_ne_zero) |>.1 (le_antisymm (by linarith) (sq_nonneg _))
    have hvd : ∀ d, v' d = v d := fun d => by
      have e1 := hz o₁ ho₁ d
      have e2 := hz o₂ ho₂ d
      have e3 : (v' d - v d) * (o₁.1 - o₂.1) = 0 := by linarith
      rcases mul_eq_zero.1 e3 with h | h
      · linarith
      · exact absurd (sub_eq_zero.1 h) hne
    refine ⟨funext fun d => ?_, funext hvd⟩
    have e1 := hz o₁ ho₁ d
    rw [hvd d] at e1
    linarith

/-- **C119**: with growing weight the curve approaches the best line through the data (order two: the best constant), at every time at
least as fast as the inverse square root of the weight. -/
theorem C119_best_line (data : List (ℝ × (Fin D → ℝ))) (s₀ : BSpline ℝ D) (h : s₀.WF) (hw : s₀.WideLast) (hd : DistinctKnots s₀) (lo hi : ℝ)
    (hlo : s₀.tMin = .ok lo) (hhi : s₀.tMax = .ok hi) (hin : ∀ o ∈ data, lo ≤ o.1 ∧ o.1 ≤ hi) (o₁ o₂ : ℝ × (Fin D → ℝ)) (ho₁ : o₁ ∈ data)
    (ho₂ : o₂ ∈ data) (hne : o₁.1 ≠ o₂.1) (c v : Fin D → ℝ) (hb : Spec.BestLine (s₀.order = 2) data c v) (t : ℝ) (h1 : lo ≤ t) (h2 : t ≤ hi) :
    ∃ C : ℝ, 0 ≤ C ∧ ∀ (lambda : ℝ) (s : BSpline ℝ D), 0 < lambda → FitResult data lambda s → s.order = s₀.order → s.knots = s₀.knots → ∀ d,
      |(s.eval t).getD 0 d - (c d + v d * t)| ≤ C / √lambda := by
  have hlim := fun t h1 h2 => C119_chord data s₀ h hw hd lo hi hlo hhi t h1 h2
  choose! R hR0 hR using hlim
  set K := (data.map fun o => ∑ _d : Fin D, R o.1 ^ 2).sum with hK
  have hK0 : 0 ≤ K := List.sum_nonneg fun x hx => by
    obtain ⟨o, -, rfl⟩ := List.mem_map.1 hx
    exact sum_nonneg fun d _ => sq_nonneg _
  set G := 1 + 2 * |t - o₁.1| / |o₂.1 - o₁.1| with hG
  refine ⟨R t + G * √K, by have := hR0 t h1 h2; positivity, fun lambda s hl hs ho hk d => ?_⟩
  have f := hs.fitted hl.le
  obtain ⟨c₁, v₁, hv₁, hch⟩ : ∃ c₁ v₁ : Fin D → ℝ, (s₀.order = 2 → v₁ = 0) ∧ ∀ t d, Spec.chord s lo hi t d = c₁ d + v₁ d * t := by
    by_cases h2 : s₀.order = 2
    · refine ⟨fun d => (s.eval lo).getD 0 d, 0, fun _ => rfl, fun t d => ?_⟩
      unfold Spec.chord
      rw [if_pos (ho.trans h2)]
      simp
    · refine ⟨fun d => (s.eval lo).getD 0 d - ((s.eval hi).getD 0 d - (s.eval lo).getD 0 d) / (hi - lo) * lo,
        fun d => ((s.eval hi).getD 0 d - (s.eval lo).getD 0 d) / (hi - lo), fun h => absurd h h2, fun t d => ?_⟩
      unfold Spec.chord
      rw [if_neg (by rw [ho]; exact h2)]
      ring
  set e : ℝ → Fin D → ℝ := fun t d => (s.eval t).getD 0 d - (c₁ d + v₁ d * t) with he
  set w : ℝ → Fin D → ℝ := fun t d => (c₁ d - c d) + (v₁ d - v d) * t with hwd
  have hsplit : ∀ t d, (s.eval t).getD 0 d - (c d + v d * t) = e t d + w t d := fun t d => by
    simp only [he, hwd]
    ring
  have hsq : 0 < √lambda := Real.sqrt_pos.2 hl
  have hebound : ∀ t, lo ≤ t → t ≤ hi → ∀ d, |e t d| ≤ R t / √lambda := fun t h1 h2 d => by
    have := hR t h1 h2 lambda s hl hs ho hk d
    rw [hch] at this
    exact this
  have hm1 := C110_moments data lambda hl.le s hs (fun d => C (v₁ d - v d) * X + C (c₁ d - c d))
    (fun d => by
      have h3 := f.order
      refine lt_of_lt_of_le (line_degree _ _ 2 (.inr rfl) (by norm_num)) h3)
    (.inr fun d => line_degree _ _ _ (by split_ifs <;> simp) (fun hif => by
      have : s.order = 2 := by
        by_contra hn
        rw [if_neg hn] at hif
        omega
      rw [hv₁ (ho ▸ this), hb.1 (ho ▸ this)]
      simp))
  have hm2 := hb.orthogonal (fun d => c₁ d - c d) (fun d => v₁ d - v d) (fun h2 => by
    rw [hv₁ h2, hb.1 h2]
    simp
    rfl)
  have hew : (data.map fun o => ∑ d, (e o.1 d * w o.1 d + w o.1 d ^ 2)).sum = 0 := by
    have : (data.map fun o => ∑ d, ((e o.1 d * w o.1 d + w o.1 d ^ 2) + (c d + v d * o.1 - o.2 d) * (c₁ d - c d + (v₁ d - v d) * o.1))).sum = 0 := by
      refine Eq.trans ?_ hm1
      refine congrArg List.sum (List.map_congr_left fun o _ => sum_congr rfl fun d _ => ?_)
      simp only [he, hwd, eval_add, eval_mul, eval_C, eval_X]
      ring
    rw [list_sum_add, hm2, add_zero] at this
    exact this
  have hww : (data.map fun o => ∑ d, w o.1 d ^ 2).sum ≤ (data.map fun o => ∑ d, e o.1 d ^ 2).sum := by
    have h0 : 0 ≤ (data.map fun o => ∑ d, (e o.1 d + w o.1 d) ^ 2).sum := List.sum_nonneg fun x hx => by
      obtain ⟨o, -, rfl⟩ := List.mem_map.1 hx
      exact sum_nonneg fun d _ => sq_nonneg _
    have e1 : (data.map fun o => ∑ d, (e o.1 d + w o.1 d) ^ 2).sum + (data.map fun o => ∑ d, w o.1 d ^ 2).sum =
        (data.map fun o => ∑ d, e o.1 d ^ 2).sum + 2 * (data.map fun o => ∑ d, (e o.1 d * w o.1 d + w o.1 d ^ 2)).sum := by
      rw [← list_sum_mul, ← list_sum_add, ← list_sum_add]
      refine congrArg List.sum (List.map_congr_left fun o _ => sum_congr rfl fun d _ => ?_)
      ring
    rw [hew] at e1
    linarith
  have hee : (data.map fun o => ∑ d, e o.1 d ^ 2).sum ≤ lambda⁻¹ * K := by
    rw [hK, ← list_sum_mul]
    refine List.sum_le_sum fun o hod => sum_le_sum fun d _ => ?_
    have := hebound o.1 (hin o hod).1 (hin o hod).2 d
    rw [← sq_abs]
    calc |e o.1 d| ^ 2 ≤ (R o.1 / √lambda) ^ 2 := pow_le_pow_left₀ (abs_nonneg _) this 2
      _ = lambda⁻¹ * R o.1 ^ 2 := by
        rw [div_pow, Real.sq_sqrt hl.le]
        ring
  have hpt : ∀ o ∈ data, |w o.1 d| ≤ √K / √lambda := by
    intro o hod
    rw [← Real.sqrt_div' _ hl.le, ← Real.sqrt_sq_eq_abs]
    refine Real.sqrt_le_sqrt ?_
    have a1 : w o.1 d ^ 2 ≤ ∑ d, w o.1 d ^ 2 := single_le_sum (f := fun d => w o.1 d ^ 2) (fun _ _ => sq_nonneg _) (mem_univ d)
    have a2 : (∑ d, w o.1 d ^ 2) ≤ (data.map fun o => ∑ d, w o.1 d ^ 2).sum :=
      List.single_le_sum (fun x hx => by
        obtain ⟨o, -, rfl⟩ := List.mem_map.1 hx
        exact sum_nonneg fun d _ => sq_nonneg _) _ (List.mem_map.2 ⟨o, hod, rfl⟩)
    calc w o.1 d ^ 2 ≤ lambda⁻¹ * K := a1.trans (a2.trans (hww.trans hee))
      _ = K / lambda := by ring
  have hwt : |w t d| ≤ G * (√K / √lambda) := by
    have hden : o₂.1 - o₁.1 ≠ 0 := sub_ne_zero.2 (Ne.symm hne)
    have e1 : w t d = w o₁.1 d + (w o₂.1 d - w o₁.1 d) * ((t - o₁.1) / (o₂.1 - o₁.1)) := by
      simp only [hwd]
      field_simp
      ring
    have a1 := hpt o₁ ho₁
    have a2 := hpt o₂ ho₂
    set M := √K / √lambda
    have a3 : |w o₂.1 d - w o₁.1 d| ≤ 2 * M := (abs_sub _ _).trans (by linarith)
    rw [e1]
    refine (abs_add_le _ _).trans ?_
    rw [abs_mul, abs_div]
    have a4 := mul_le_mul_of_nonneg_right a3 (show 0 ≤ |t - o₁.1| / |o₂.1 - o₁.1| by positivity)
    calc |w o₁.1 d| + |w o₂.1 d - w o₁.1 d| * (|t - o₁.1| / |o₂.1 - o₁.1|) ≤ M + 2 * M * (|t - o₁.1| / |o₂.1 - o₁.1|) := add_le_add a1 a4
      _ = G * M := by
        rw [hG]
        ring
  rw [hsplit]
  refine (abs_add_le _ _).trans ?_
  calc |e t d| + |w t d| ≤ R t / √lambda + G * (√K / √lambda) := add_le_add (hebound t h1 h2 d) hwt
    _ = (R t + G * √K) / √lambda := by ring

/-! ### Small weights -/

/-- **C119**, small weights: the misfit exceeds the least one by at most the weight times the bending of the fit without a penalty, and the sum of
the squared distances of the two curves at the data times is at most this. -/
theorem C119_small_data (data : List (ℝ × (Fin D → ℝ))) (lambda : ℝ) (hl : 0 ≤ lambda) (s₀ s : BSpline ℝ D) (h₀ : FitResult data 0 s₀)
    (h : FitResult data lambda s) (ho : s.order = s₀.order) (hk : s.knots = s₀.knots) (lo hi : ℝ) (hlo : s₀.tMin = .ok lo) (hhi : s₀.tMax = .ok hi) :
    Spec.misfit s data ≤ Spec.misfit s₀ data + lambda * Spec.bending s₀ lo hi ∧
      (data.map fun o => ∑ d, ((s.eval o.1).getD 0 d - (s₀.eval o.1).getD 0 d) ^ 2).sum ≤ lambda * Spec.bending s₀ lo hi := by
  have he := (C118_exchange data 0 lambda le_rfl hl s₀ s h₀ h ho hk lo hi hlo hhi).2
  have f₀ := h₀.fitted le_rfl
  have f := h.fitted hl
  rw [tMin_eq f₀.wf, Outcome.ok.injEq] at hlo
  rw [tMax_eq f₀.wf, Outcome.ok.injEq] at hhi
  subst hlo hhi
  have hb := mul_nonneg hl (bending_nonneg s f₀.le)
  have h1 : Spec.misfit s data - Spec.misfit s₀ data ≤ lambda * Spec.bending s₀ (s₀.kn (s₀.order - 1)) (s₀.kn (s₀.knots.length - s₀.order)) := by
    linarith
  refine ⟨by linarith, ?_⟩
  have hm := minimal_iff f₀.wf f₀.wide data f₀.within 0 le_rfl (penalty s₀.order)
  have g1 := hm.1 f₀.minimal s ⟨f.wf, ho, hk⟩
  have g2 := hm.1 f₀.minimal s₀ ⟨f₀.wf, rfl, rfl⟩
  unfold slope at g1 g2
  rw [zero_mul, add_zero] at g1 g2
  have e : Spec.misfit s data + 2 * (data.map fun o => ∑ d, (val s₀ o.1 0 d - o.2 d) * val s₀ o.1 0 d).sum =
      (data.map fun o => ∑ d, (val s o.1 0 d - val s₀ o.1 0 d) ^ 2).sum + Spec.misfit s₀ data +
        2 * (data.map fun o => ∑ d, (val s₀ o.1 0 d - o.2 d) * val s o.1 0 d).sum := by
    unfold Spec.misfit
    rw [← list_sum_mul, ← list_sum_mul, ← list_sum_add, ← list_sum_add, ← list_sum_add]
    refine congrArg List.sum (List.map_congr_left fun o _ => sum_congr rfl fun d _ => ?_)
    change (val s o.1 0 d - o.2 d) ^ 2 + _ = _ + (val s₀ o.1 0 d - o.2 d) ^ 2 + _
    ring
  rw [g1, g2] at e
  change (data.map fun o => ∑ d, (val s o.1 0 d - val s₀ o.1 0 d) ^ 2).sum ≤ _
  linarith

theorem le_list_sum (data : List (ℝ × (Fin D → ℝ))) (f : ℝ × (Fin D → ℝ) → Fin D → ℝ) (o : ℝ × (Fin D → ℝ)) (ho : o ∈ data) (d : Fin D) :
    f o d ^ 2 ≤ (data.map fun o => ∑ d, f o d ^ 2).sum := by
  have a1 : f o d ^ 2 ≤ ∑ d, f o d ^ 2 := single_le_sum (f := fun d => f o d ^ 2) (fun _ _ => sq_nonneg _) (mem_univ d)
  refine a1.trans (List.single_le_sum (fun x hx => ?_) _ (List.mem_map.2 ⟨o, ho, rfl⟩))
  obtain ⟨o, -, rfl⟩ := List.mem_map.1 hx
  exact sum_nonneg fun d _ => sq_nonneg _

/-- A linear form. -/
noncomputable def formOf {n : ℕ} (w : Fin n → ℝ) : (Fin n → ℝ) →ₗ[ℝ] ℝ where
  toFun x := ∑ j, x j * w j
  map_add' x y := by simp only [Pi.add_apply, add_mul, sum_add_distrib]
  map_smul' a x := by simp only [Pi.smul_apply, smul_eq_mul, mul_assoc, mul_sum, RingHom.id_apply]

/-- If the data times determine the curve, its values and derivatives are combinations of the values there. -/
theorem combination_of_interlaced {s : BSpline ℝ D} (h : s.WF) (hw : s.WideLast) (hs : StrictKnots s) (hD : 0 < D) (times : List ℝ)
    (hin : ∀ t ∈ times, s.kn (s.order - 1) ≤ t ∧ t ≤ s.kn (s.knots.length - s.order))
    (hi : Verif.Spec.Interlaced s.order s.kn s.coeffs.length times) (t : ℝ) (h1 : s.kn (s.order - 1) ≤ t) (h2 : t ≤ s.kn (s.knots.length - s.order))
    (der : ℕ) : ∃ c : Fin times.length → ℝ, ∀ q : BSpline ℝ D, SharedKnots s q → ∀ d, val q t der d = ∑ i, c i * val q times[i] 0 d := by
  have hwt : ∀ i : Fin times.length, ∃ w : ℕ → ℕ → ℝ, ∀ (E : ℕ) (r : BSpline ℝ E), SharedKnots s r → ∀ der d,
      val r times[i] der d = ∑ j ∈ range s.coeffs.length, r.col j d * w der j :=
    fun i => val_weights h hw _ (hin _ (List.getElem_mem _)).1 (hin _ (List.getElem_mem _)).2
  choose W hW using hwt
  obtain ⟨w, hwv⟩ := val_weights h hw t h1 h2
  set n := s.coeffs.length with hn
  have hmem : formOf (n := n) (fun j => w der j) ∈ Submodule.span ℝ (Set.range fun i => formOf (n := n) fun j => W i 0 j) := by
    refine mem_span_of_iInf_ker_le_ker fun x hx => ?_
    rw [Submodule.mem_iInf] at hx
    set q : BSpline ℝ D := { s with coeffs := List.ofFn fun j _ => x j } with hq
    have hsh : SharedKnots s q := ⟨h.withCoeffs _ (by simp [hn]), rfl, rfl⟩
    have hcol : ∀ j : Fin n, ∀ d, q.col j d = x j := fun j d => by
      unfold col
      rw [hq]
      dsimp only
      rw [List.getD_eq_getElem?_getD, List.getElem?_eq_getElem (by simp)]
      simp
    have hz := zero_of_interlaced h hw hs hsh times hin hi ⟨0, hD⟩ (fun t ht => by
      obtain ⟨i, hi, rfl⟩ := List.mem_iff_getElem.1 ht
      have := LinearMap.mem_ker.1 (hx ⟨i, hi⟩)
      refine (hW ⟨i, hi⟩ D q hsh 0 _).trans ?_
      rw [← Fin.sum_univ_eq_sum_range (fun j => q.col j ⟨0, hD⟩ * W ⟨i, hi⟩ 0 j)]
      refine Eq.trans (sum_congr rfl fun j _ => ?_) this
      rw [hcol])
    have hx0 : x = 0 := funext fun j => by
      rw [← hcol j ⟨0, hD⟩]
      exact hz j j.2
    rw [hx0]
    exact Submodule.zero_mem _
  obtain ⟨c, hc⟩ := (Submodule.mem_span_range_iff_exists_fun ℝ).1 hmem
  refine ⟨c, fun q hq d => ?_⟩
  have := LinearMap.congr_fun hc fun j => q.col j d
  rw [LinearMap.sum_apply] at this
  rw [hwv D q hq der d, ← Fin.sum_univ_eq_sum_range (fun j => q.col j d * w der j)]
  refine Eq.trans this.symm (sum_congr rfl fun i _ => ?_)
  rw [hW i D q hq 0 d, ← Fin.sum_univ_eq_sum_range (fun j => q.col j d * W i 0 j)]
  rfl

/-- **C119**, small weights: if the data determine the curve without a penalty, with falling weight the value and each derivative at each time approach
those of this curve, at least as fast as the square root of the weight. -/
theorem C119_small (data : List (ℝ × (Fin D → ℝ))) (s₀ : BSpline ℝ D) (h₀ : FitResult data 0 s₀) (hs : StrictKnots s₀)
    (hint : Verif.Spec.Interlaced s₀.order s₀.kn s₀.coeffs.length (data.map Prod.fst)) (lo hi : ℝ) (hlo : s₀.tMin = .ok lo) (hhi : s₀.tMax = .ok hi)
    (t : ℝ) (h1 : lo ≤ t) (h2 : t ≤ hi) (der : ℕ) :
    ∃ C : ℝ, 0 ≤ C ∧ ∀ (lambda : ℝ) (s : BSpline ℝ D), 0 ≤ lambda → FitResult data lambda s → s.order = s₀.order → s.knots = s₀.knots → ∀ d,
      |(s.evalD t der).getD 0 d - (s₀.evalD t der).getD 0 d| ≤ C * √lambda := by
  have f₀ := h₀.fitted le_rfl
  have hsm : ∀ (lambda : ℝ) (s : BSpline ℝ D), 0 ≤ lambda → FitResult data lambda s → s.order = s₀.order → s.knots = s₀.knots →
      (data.map fun o => ∑ d, (val s o.1 0 d - val s₀ o.1 0 d) ^ 2).sum ≤ lambda * Spec.bending s₀ lo hi :=
    fun lambda s hl h ho hk => (C119_small_data data lambda hl s₀ s h₀ h ho hk lo hi hlo hhi).2
  rw [tMin_eq f₀.wf, Outcome.ok.injEq] at hlo
  rw [tMax_eq f₀.wf, Outcome.ok.injEq] at hhi
  subst hlo hhi
  rcases Nat.eq_zero_or_pos D with h0 | hD
  · subst h0
    exact ⟨0, le_rfl, fun _ _ _ _ _ _ d => d.elim0⟩
  obtain ⟨c, hc⟩ := combination_of_interlaced f₀.wf f₀.wide hs hD (data.map Prod.fst) (fun t ht => by
    obtain ⟨o, ho, rfl⟩ := List.mem_map.1 ht
    exact f₀.within o ho) hint t h1 h2 der
  set B := Spec.bending s₀ (s₀.kn (s₀.order - 1)) (s₀.kn (s₀.knots.length - s₀.order)) with hB
  refine ⟨(∑ i, |c i|) * √B, mul_nonneg (sum_nonneg fun i _ => abs_nonneg _) (Real.sqrt_nonneg _), fun lambda s hl h ho hk d => ?_⟩
  have f := h.fitted hl
  have hsh : SharedKnots s₀ s := ⟨f.wf, ho, hk⟩
  have hpt : ∀ t ∈ data.map Prod.fst, |val s t 0 d - val s₀ t 0 d| ≤ √B * √lambda := by
    intro t ht
    obtain ⟨o, hod, rfl⟩ := List.mem_map.1 ht
    rw [mul_comm, ← Real.sqrt_mul hl, ← Real.sqrt_sq_eq_abs]
    refine Real.sqrt_le_sqrt (le_trans ?_ (hsm lambda s hl h ho hk))
    exact le_list_sum data (fun o d => val s o.1 0 d - val s₀ o.1 0 d) o hod d
  change |val s t der d - val s₀ t der d| ≤ _
  rw [hc s hsh d, hc s₀ ⟨f₀.wf, rfl, rfl⟩ d, ← sum_sub_distrib, mul_assoc, sum_mul]
  refine (abs_sum_le_sum_abs _ _).trans (sum_le_sum fun i _ => ?_)
  rw [← mul_sub, abs_mul]
  exact mul_le_mul_of_nonneg_left (hpt _ (List.getElem_mem _)) (abs_nonneg _)

/-! ### Examples -/

/-- The best line through four points. -/
theorem example_best : Spec.BestLine (3 = 2) [((0 : ℝ), (![1] : Fin 1 → ℝ)), (1, ![3]), (2, ![-2]), (4, ![5])] ![2 / 5] ![27 / 35] := by
  refine ⟨fun h => absurd h (by norm_num), fun c' v' _ => ?_⟩
  simp only [List.map_cons, List.map_nil, List.sum_cons, List.sum_nil, univ_unique, sum_singleton, Fin.default_eq_zero, Matrix.cons_val_fin_one]
  nlinarith [sq_nonneg (c' 0 - 2 / 5), sq_nonneg (c' 0 - 2 / 5 + (v' 0 - 27 / 35)), sq_nonneg (c' 0 - 2 / 5 + (v' 0 - 27 / 35) * 2),
    sq_nonneg (c' 0 - 2 / 5 + (v' 0 - 27 / 35) * 4)]

/-- The value at the time 2 approaches that of the best line. -/
example : ∃ C : ℝ, 0 ≤ C ∧ ∀ lambda : ℝ, 0 < lambda → ∃ s : BSpline ℝ 1,
    FitResult [(0, ![1]), (1, ![3]), (2, ![-2]), (4, ![5])] lambda s ∧ |(s.eval 2).getD 0 0 - 68 / 35| ≤ C / √lambda := by
  obtain ⟨s₀, a1, a2, a3, a4, a5, a6⟩ := example_fit 1 (by norm_num) [(0, ![1]), (1, ![3]), (2, ![-2]), (4, ![5])] rfl
  have f := a1.fitted (by norm_num)
  obtain ⟨C, h0, hC⟩ := C119_best_line [(0, ![1]), (1, ![3]), (2, ![-2]), (4, ![5])] s₀ f.wf f.wide (example_distinct a2 a3 a4) 0 4 a5 a6
    (by simp; norm_num) (0, ![1]) (1, ![3]) (by simp) (by simp) (by norm_num) ![2 / 5] ![27 / 35] (by rw [a2]; exact example_best) 2 (by norm_num)
    (by norm_num)
  refine ⟨C, h0, fun lambda hl => ?_⟩
  obtain ⟨s, b1, b2, b3, b4, b5, b6⟩ := example_fit lambda hl.le [(0, ![1]), (1, ![3]), (2, ![-2]), (4, ![5])] rfl
  refine ⟨s, b1, ?_⟩
  have := hC lambda s hl b1 (b2.trans a2.symm) (example_same a3 b3 a4 b4) 0
  norm_num at this
  exact this

/-- The value and the slope at the time 3 approach those of the fit without a penalty. -/
example : ∃ s₀ : BSpline ℝ 1, FitResult [(0, ![1]), (1, ![3]), (2, ![-2]), (4, ![5])] 0 s₀ ∧ ∀ der : ℕ, ∃ C : ℝ, 0 ≤ C ∧ ∀ lambda : ℝ, 0 ≤ lambda →
    ∃ s : BSpline ℝ 1, FitResult [(0, ![1]), (1, ![3]), (2, ![-2]), (4, ![5])] lambda s ∧
      |(s.evalD 3 der).getD 0 0 - (s₀.evalD 3 der).getD 0 0| ≤ C * √lambda := by
  obtain ⟨s₀, z1, z2, z3, z4, z5, z6⟩ := example_fit 0 le_rfl [(0, ![1]), (1, ![3]), (2, ![-2]), (4, ![5])] rfl
  have f₀ := z1.fitted le_rfl
  have hc : s₀.coeffs.length = 4 := by have := f₀.wf.coeffs_len; omega
  have hst : StrictKnots s₀ := fun i j hij hj => by
    rw [z3] at hj
    rw [z4 i (by omega), z4 j hj]
    have : (i : ℝ) < j := by exact_mod_cast hij
    linarith
  have hint : Verif.Spec.Interlaced s₀.order s₀.kn s₀.coeffs.length [0, 1, 2, 4] := by
    rw [hc, z2]
    refine (interlaced_congr fun j hj => ?_).2 example_interlaced
    rw [z4 j hj]
    unfold Spec.evenKnot
    push_cast
    ring
  refine ⟨s₀, z1, fun der => ?_⟩
  obtain ⟨C, h0, hC⟩ := C119_small _ s₀ z1 hst hint 0 4 z5 z6 3 (by norm_num) (by norm_num) der
  refine ⟨C, h0, fun lambda hl => ?_⟩
  obtain ⟨s, b1, b2, b3, b4, b5, b6⟩ := example_fit lambda hl [(0, ![1]), (1, ![3]), (2, ![-2]), (4, ![5])] rfl
  exact ⟨s, b1, hC lambda s hl b1 (b2.trans z2.symm) (example_same z3 b3 z4 b4) 0⟩

end Verif
