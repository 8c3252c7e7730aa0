import Verif.Model.NumericalIntegral
import Verif.Props.Integrator
import Verif.Props.ManifoldSmooth
import Verif.Props.Euclidean
import Mathlib.Analysis.Calculus.MeanValue
import Mathlib.MeasureTheory.Integral.IntervalIntegral.FundThmCalculus
import Mathlib.Topology.UniformSpace.HeineCantor

/-!
# Property C104: how accurate numerical integration is

The rules converge to the integral for every continuous integrand.  For smooth ones the error goes down with the second power of the number of
points (trapezoidal rule) or the fourth (Simpson's rule).
-/

set_option linter.unusedSectionVars false

namespace Verif

open Finset MeasureTheory

section Panels

variable {V : Type*} [NormedAddCommGroup V] [NormedSpace ℝ V]

/-- A function that starts at zero and whose derivative is bounded by a power. -/
theorem fence {E E' : ℝ → V} {H C : ℝ} (k : ℕ) (h0 : E 0 = 0) (hc : ContinuousOn E (Set.Icc 0 H))
    (hd : ∀ h ∈ Set.Ico 0 H, HasDerivAt E (E' h) h) (hb : ∀ h ∈ Set.Ico 0 H, ‖E' h‖ ≤ C * ((k + 1 : ℕ) * h ^ k)) (hH : 0 ≤ H) :
    ‖E H‖ ≤ C * H ^ (k + 1) := by
  refine image_norm_le_of_norm_deriv_right_le_deriv_boundary hc (fun h hh => (hd h hh).hasDerivWithinAt) (B := fun x => C * x ^ (k + 1))
    (B' := fun x => C * ((k + 1 : ℕ) * x ^ k)) ?_ (fun x => ?_) hb ⟨hH, le_rfl⟩
  · rw [h0, norm_zero]
    simp
  · simpa using (hasDerivAt_pow (k + 1) x).const_mul C

/-- The same for every earlier point; continuity is that of the differentiable function. -/
theorem fence_open {E E' : ℝ → V} {H C : ℝ} (k : ℕ) (h0 : E 0 = 0)
    (hd : ∀ h ∈ Set.Ico 0 H, HasDerivAt E (E' h) h) (hb : ∀ h ∈ Set.Ico 0 H, ‖E' h‖ ≤ C * ((k + 1 : ℕ) * h ^ k)) :
    ∀ h ∈ Set.Ico 0 H, ‖E h‖ ≤ C * h ^ (k + 1) := by
  intro h hh
  exact fence k h0 (fun x hx => (hd x ⟨hx.1, hx.2.trans_lt hh.2⟩).continuousAt.continuousWithinAt)
    (fun x hx => hd x ⟨hx.1, hx.2.trans hh.2⟩) (fun x hx => hb x ⟨hx.1, hx.2.trans hh.2⟩) hh.1

variable [CompleteSpace V]

/-- The integral over a growing panel. -/
theorem panel_integral {f : ℝ → V} {c H : ℝ} (hH : 0 ≤ H) (hf : ContinuousOn f (Set.Icc (c - H) (c + H))) :
    ContinuousOn (fun h => ∫ x in (c - h)..(c + h), f x) (Set.Icc 0 H) ∧
    ∀ h ∈ Set.Ico 0 H, HasDerivAt (fun h => ∫ x in (c - h)..(c + h), f x) (f (c + h) + f (c - h)) h := by
  have hu : Set.uIcc (c - H) (c + H) = Set.Icc (c - H) (c + H) := Set.uIcc_of_le (by linarith)
  have hI : ∀ y ∈ Set.Icc (c - H) (c + H), IntervalIntegrable f volume c y := by
    intro y hy
    refine (hf.mono ?_).intervalIntegrable
    rw [← hu]
    exact Set.uIcc_subset_uIcc (by rw [hu]; exact ⟨by linarith, by linarith⟩) (by rw [hu]; exact hy)
  have hsplit : ∀ h ∈ Set.Icc 0 H, ∫ x in (c - h)..(c + h), f x = (∫ x in c..(c + h), f x) - ∫ x in c..(c - h), f x := by
    intro h hh
    exact (intervalIntegral.integral_interval_sub_left (hI _ ⟨by linarith [hh.1], by linarith [hh.2]⟩)
      (hI _ ⟨by linarith [hh.2], by linarith [hh.1]⟩)).symm
  have hcont : ContinuousOn (fun y => ∫ x in c..y, f x) (Set.Icc (c - H) (c + H)) := by
    rw [← hu]
    exact intervalIntegral.continuousOn_primitive_interval' (hf.intervalIntegrable_of_Icc (by linarith))
      (by rw [hu]; exact ⟨by linarith, by linarith⟩)
  have hder : ∀ y ∈ Set.Ioo (c - H) (c + H), HasDerivAt (fun y => ∫ x in c..y, f x) (f y) y := by
    intro y hy
    refine intervalIntegral.integral_hasDerivAt_right (hI y ⟨hy.1.le, hy.2.le⟩) ?_ (hf.continuousAt (Icc_mem_nhds hy.1 hy.2))
    exact (hf.mono Set.Ioo_subset_Icc_self).stronglyMeasurableAtFilter isOpen_Ioo y hy
  constructor
  · have h1 : ContinuousOn (fun h => ∫ x in c..(c + h), f x) (Set.Icc 0 H) :=
      hcont.comp (continuous_const.add continuous_id).continuousOn fun h hh => ⟨by simp; linarith [hh.1], by simp; linarith [hh.2]⟩
    have h2 : ContinuousOn (fun h => ∫ x in c..(c - h), f x) (Set.Icc 0 H) :=
      hcont.comp (continuous_const.sub continuous_id).continuousOn fun h hh => ⟨by simp; linarith [hh.2], by simp; linarith [hh.1]⟩
    exact (h1.sub h2).congr hsplit
  · intro h hh
    have hh0 := hh.1
    have hh1 := hh.2
    have d1 := (hder (c + h) ⟨by linarith, by linarith⟩).comp_const_add c h
    have d2 := (hder (c - h) ⟨by linarith, by linarith⟩).comp_const_sub c h
    have := d1.fun_sub d2
    rw [sub_neg_eq_add] at this
    refine this.congr_of_eventuallyEq ?_
    have hH' : 0 < H := hh0.trans_lt hh1
    have hn : Set.Ioo (-H) H ∈ nhds h := Ioo_mem_nhds (by linarith) hh1
    filter_upwards [hn] with y hy
    exact (intervalIntegral.integral_interval_sub_left (hI _ ⟨by linarith [hy.1], by linarith [hy.2]⟩)
      (hI _ ⟨by linarith [hy.2], by linarith [hy.1]⟩)).symm

/-- One panel of the trapezoidal rule. -/
theorem trapezoidal_panel {f f1 : ℝ → V} {c H M : ℝ} (hH : 0 ≤ H) (hf : ContinuousOn f (Set.Icc (c - H) (c + H)))
    (hd : ∀ x ∈ Set.Ioo (c - H) (c + H), HasDerivAt f (f1 x) x)
    (hM : ∀ x ∈ Set.Ioo (c - H) (c + H), ∀ y ∈ Set.Ioo (c - H) (c + H), ‖f1 x - f1 y‖ ≤ M * |x - y|) :
    ‖(∫ x in (c - H)..(c + H), f x) - H • (f (c - H) + f (c + H))‖ ≤ 2 / 3 * M * H ^ 3 := by
  obtain ⟨g1, g2⟩ := panel_integral hH hf
  have hplus : ContinuousOn (fun h => f (c + h)) (Set.Icc 0 H) :=
    hf.comp (continuous_const.add continuous_id).continuousOn fun h hh => ⟨by simp; linarith [hh.1], by simp; linarith [hh.2]⟩
  have hminus : ContinuousOn (fun h => f (c - h)) (Set.Icc 0 H) :=
    hf.comp (continuous_const.sub continuous_id).continuousOn fun h hh => ⟨by simp; linarith [hh.2], by simp; linarith [hh.1]⟩
  refine fence (E := fun h => (∫ x in (c - h)..(c + h), f x) - h • (f (c - h) + f (c + h)))
    (E' := fun h => -(h • (f1 (c + h) - f1 (c - h)))) 2 (by simp) (g1.sub (continuousOn_id.smul (hminus.add hplus))) ?_ ?_ hH
  · intro h hh
    have m1 : c + h ∈ Set.Ioo (c - H) (c + H) := ⟨by linarith [hh.1, hh.2], by linarith [hh.2]⟩
    have m2 : c - h ∈ Set.Ioo (c - H) (c + H) := ⟨by linarith [hh.2], by linarith [hh.1, hh.2]⟩
    have d1 := (hd _ m1).comp_const_add c h
    have d2 := (hd _ m2).comp_const_sub c h
    refine ((g2 h hh).fun_sub ((hasDerivAt_id h).fun_smul (d2.fun_add d1))).congr_deriv ?_
    simp only [id]
    module
  · intro h hh
    have m1 : c + h ∈ Set.Ioo (c - H) (c + H) := ⟨by linarith [hh.1, hh.2], by linarith [hh.2]⟩
    have m2 : c - h ∈ Set.Ioo (c - H) (c + H) := ⟨by linarith [hh.2], by linarith [hh.1, hh.2]⟩
    have := hM _ m1 _ m2
    rw [show c + h - (c - h) = 2 * h by ring, abs_of_nonneg (by linarith [hh.1])] at this
    rw [norm_neg, norm_smul, Real.norm_eq_abs, abs_of_nonneg hh.1]
    refine (mul_le_mul_of_nonneg_left this hh.1).trans (le_of_eq ?_)
    push_cast
    ring

/-- One panel of Simpson's rule. -/
theorem simpson_panel {f f1 f2 f3 : ℝ → V} {c H M : ℝ} (hH : 0 ≤ H) (hf : ContinuousOn f (Set.Icc (c - H) (c + H)))
    (hd : ∀ x ∈ Set.Ioo (c - H) (c + H), HasDerivAt f (f1 x) x ∧ HasDerivAt f1 (f2 x) x ∧ HasDerivAt f2 (f3 x) x)
    (hM : ∀ x ∈ Set.Ioo (c - H) (c + H), ∀ y ∈ Set.Ioo (c - H) (c + H), ‖f3 x - f3 y‖ ≤ M * |x - y|) :
    ‖(∫ x in (c - H)..(c + H), f x) - (H / 3) • (f (c - H) + (4 : ℝ) • f c + f (c + H))‖ ≤ M / 90 * H ^ 5 := by
  obtain ⟨g1, g2⟩ := panel_integral hH hf
  have hplus : ContinuousOn (fun h => f (c + h)) (Set.Icc 0 H) :=
    hf.comp (continuous_const.add continuous_id).continuousOn fun h hh => ⟨by simp; linarith [hh.1], by simp; linarith [hh.2]⟩
  have hminus : ContinuousOn (fun h => f (c - h)) (Set.Icc 0 H) :=
    hf.comp (continuous_const.sub continuous_id).continuousOn fun h hh => ⟨by simp; linarith [hh.2], by simp; linarith [hh.1]⟩
  have mp : ∀ h ∈ Set.Ico 0 H, c + h ∈ Set.Ioo (c - H) (c + H) := fun h hh => ⟨by linarith [hh.1, hh.2], by linarith [hh.2]⟩
  have mm : ∀ h ∈ Set.Ico 0 H, c - h ∈ Set.Ioo (c - H) (c + H) := fun h hh => ⟨by linarith [hh.2], by linarith [hh.1, hh.2]⟩
  have b2 := fence_open (E := fun h => (1 / 3 : ℝ) • (f1 (c + h) - f1 (c - h)) - (h / 3) • (f2 (c + h) + f2 (c - h)))
    (E' := fun h => -((h / 3) • (f3 (c + h) - f3 (c - h)))) (H := H) (C := 2 / 9 * M) 2 (by simp) (fun h hh => by
      have p1 := (hd _ (mp h hh)).2.1.comp_const_add c h
      have p2 := (hd _ (mm h hh)).2.1.comp_const_sub c h
      have p3 := (hd _ (mp h hh)).2.2.comp_const_add c h
      have p4 := (hd _ (mm h hh)).2.2.comp_const_sub c h
      refine (((p1.fun_sub p2).const_smul (1 / 3 : ℝ)).fun_sub (((hasDerivAt_id h).div_const 3).fun_smul (p3.fun_add p4))).congr_deriv ?_
      simp only [id]
      module) (fun h hh => by
      have := hM _ (mp h hh) _ (mm h hh)
      rw [show c + h - (c - h) = 2 * h by ring, abs_of_nonneg (by linarith [hh.1])] at this
      have h3 : 0 ≤ h / 3 := by linarith [hh.1]
      rw [norm_neg, norm_smul, Real.norm_eq_abs, abs_of_nonneg h3]
      refine (mul_le_mul_of_nonneg_left this h3).trans (le_of_eq ?_)
      push_cast
      ring)
  have b1 := fence_open (E := fun h => (2 / 3 : ℝ) • (f (c + h) + f (c - h)) - (4 / 3 : ℝ) • f c - (h / 3) • (f1 (c + h) - f1 (c - h)))
    (E' := fun h => (1 / 3 : ℝ) • (f1 (c + h) - f1 (c - h)) - (h / 3) • (f2 (c + h) + f2 (c - h))) (H := H) (C := M / 18) 3
    (by simp; module) (fun h hh => by
      have p1 := (hd _ (mp h hh)).1.comp_const_add c h
      have p2 := (hd _ (mm h hh)).1.comp_const_sub c h
      have p3 := (hd _ (mp h hh)).2.1.comp_const_add c h
      have p4 := (hd _ (mm h hh)).2.1.comp_const_sub c h
      refine ((((p1.fun_add p2).const_smul (2 / 3 : ℝ)).sub_const ((4 / 3 : ℝ) • f c)).fun_sub
        (((hasDerivAt_id h).div_const 3).fun_smul (p3.fun_sub p4))).congr_deriv ?_
      simp only [id]
      module) (fun h hh => (b2 h hh).trans (le_of_eq (by push_cast; ring)))
  have hcont : ContinuousOn (fun h => (∫ x in (c - h)..(c + h), f x) - (h / 3) • (f (c - h) + (4 : ℝ) • f c + f (c + h))) (Set.Icc 0 H) :=
    g1.sub ((continuousOn_id.div_const 3).smul ((hminus.add continuousOn_const).add hplus))
  refine fence (E := fun h => (∫ x in (c - h)..(c + h), f x) - (h / 3) • (f (c - h) + (4 : ℝ) • f c + f (c + h)))
    (E' := fun h => (2 / 3 : ℝ) • (f (c + h) + f (c - h)) - (4 / 3 : ℝ) • f c - (h / 3) • (f1 (c + h) - f1 (c - h))) 4 (by simp) hcont
    (fun h hh => ?_) (fun h hh => (b1 h hh).trans (le_of_eq (by push_cast; ring))) hH
  have p1 := (hd _ (mp h hh)).1.comp_const_add c h
  have p2 := (hd _ (mm h hh)).1.comp_const_sub c h
  refine ((g2 h hh).fun_sub (((hasDerivAt_id h).div_const 3).fun_smul ((p2.fun_add (hasDerivAt_const h ((4 : ℝ) • f c))).fun_add p1))).congr_deriv ?_
  simp only [id]
  module

/-- One panel of Simpson's rule when only the second derivative has a Lipschitz constant. -/
theorem simpson_panel_second {f f1 f2 : ℝ → V} {c H M : ℝ} (hH : 0 ≤ H) (hf : ContinuousOn f (Set.Icc (c - H) (c + H)))
    (hd : ∀ x ∈ Set.Ioo (c - H) (c + H), HasDerivAt f (f1 x) x ∧ HasDerivAt f1 (f2 x) x)
    (hM : ∀ x ∈ Set.Ioo (c - H) (c + H), ∀ y ∈ Set.Ioo (c - H) (c + H), ‖f2 x - f2 y‖ ≤ M * |x - y|) :
    ‖(∫ x in (c - H)..(c + H), f x) - (H / 3) • (f (c - H) + (4 : ℝ) • f c + f (c + H))‖ ≤ M / 36 * H ^ 4 := by
  obtain ⟨g1, g2⟩ := panel_integral hH hf
  have hplus : ContinuousOn (fun h => f (c + h)) (Set.Icc 0 H) :=
    hf.comp (continuous_const.add continuous_id).continuousOn fun h hh => ⟨by simp; linarith [hh.1], by simp; linarith [hh.2]⟩
  have hminus : ContinuousOn (fun h => f (c - h)) (Set.Icc 0 H) :=
    hf.comp (continuous_const.sub continuous_id).continuousOn fun h hh => ⟨by simp; linarith [hh.2], by simp; linarith [hh.1]⟩
  have mp : ∀ h ∈ Set.Ico 0 H, c + h ∈ Set.Ioo (c - H) (c + H) := fun h hh => ⟨by linarith [hh.1, hh.2], by linarith [hh.2]⟩
  have mm : ∀ h ∈ Set.Ico 0 H, c - h ∈ Set.Ioo (c - H) (c + H) := fun h hh => ⟨by linarith [hh.2], by linarith [hh.1, hh.2]⟩
  have half : ∀ h ∈ Set.Ico 0 H, ‖f1 (c + h) - f1 c - h • f2 (c + h)‖ ≤ M / 2 * h ^ 2 ∧
      ‖f1 (c - h) - f1 c + h • f2 (c - h)‖ ≤ M / 2 * h ^ 2 := by
    intro h hh
    constructor
    · have := fence (E := fun x => f1 (c + h) - f1 (c + h - x) - x • f2 (c + h)) (E' := fun x => f2 (c + h - x) - f2 (c + h)) (H := h)
        (C := M / 2) 1 (by simp) (fun x hx => ?_) (fun x hx => ?_) (fun x hx => ?_) hh.1
      · simpa using this
      · have m := (hd (c + h - x) ⟨by linarith [hx.2, hh.1, hh.2], by linarith [hx.1, hh.2]⟩).2.comp_const_sub (c + h) x
        exact ((m.const_sub (f1 (c + h))).fun_sub ((hasDerivAt_id x).smul_const (f2 (c + h)))).continuousAt.continuousWithinAt
      · have m := (hd (c + h - x) ⟨by linarith [hx.2, hh.1, hh.2], by linarith [hx.1, hh.2]⟩).2.comp_const_sub (c + h) x
        refine ((m.const_sub (f1 (c + h))).fun_sub ((hasDerivAt_id x).smul_const (f2 (c + h)))).congr_deriv ?_
        module
      · refine (hM (c + h - x) ⟨by linarith [hx.2, hh.1, hh.2], by linarith [hx.1, hh.2]⟩ _ (mp h hh)).trans (le_of_eq ?_)
        rw [show c + h - x - (c + h) = -x by ring, abs_neg, abs_of_nonneg hx.1]
        push_cast
        ring
    · have := fence (E := fun x => f1 (c - h) - f1 (c - h + x) + x • f2 (c - h)) (E' := fun x => f2 (c - h) - f2 (c - h + x)) (H := h)
        (C := M / 2) 1 (by simp) (fun x hx => ?_) (fun x hx => ?_) (fun x hx => ?_) hh.1
      · simpa using this
      · have m := (hd (c - h + x) ⟨by linarith [hx.1, hh.2], by linarith [hx.2, hh.1, hh.2]⟩).2.comp_const_add (c - h) x
        exact ((m.const_sub (f1 (c - h))).fun_add ((hasDerivAt_id x).smul_const (f2 (c - h)))).continuousAt.continuousWithinAt
      · have m := (hd (c - h + x) ⟨by linarith [hx.1, hh.2], by linarith [hx.2, hh.1, hh.2]⟩).2.comp_const_add (c - h) x
        refine ((m.const_sub (f1 (c - h))).fun_add ((hasDerivAt_id x).smul_const (f2 (c - h)))).congr_deriv ?_
        module
      · refine (hM _ (mm h hh) (c - h + x) ⟨by linarith [hx.1, hh.2], by linarith [hx.2, hh.1, hh.2]⟩).trans (le_of_eq ?_)
        rw [show c - h - (c - h + x) = -x by ring, abs_neg, abs_of_nonneg hx.1]
        push_cast
        ring
  have b2 : ∀ h ∈ Set.Ico 0 H, ‖(1 / 3 : ℝ) • (f1 (c + h) - f1 (c - h)) - (h / 3) • (f2 (c + h) + f2 (c - h))‖ ≤ M / 3 * h ^ 2 := by
    intro h hh
    obtain ⟨q1, q2⟩ := half h hh
    have e : (1 / 3 : ℝ) • (f1 (c + h) - f1 (c - h)) - (h / 3) • (f2 (c + h) + f2 (c - h)) =
        (1 / 3 : ℝ) • ((f1 (c + h) - f1 c - h • f2 (c + h)) - (f1 (c - h) - f1 c + h • f2 (c - h))) := by module
    rw [e, norm_smul, Real.norm_eq_abs, abs_of_nonneg (by norm_num)]
    have := norm_sub_le (f1 (c + h) - f1 c - h • f2 (c + h)) (f1 (c - h) - f1 c + h • f2 (c - h))
    linarith
  have b1 := fence_open (E := fun h => (2 / 3 : ℝ) • (f (c + h) + f (c - h)) - (4 / 3 : ℝ) • f c - (h / 3) • (f1 (c + h) - f1 (c - h)))
    (E' := fun h => (1 / 3 : ℝ) • (f1 (c + h) - f1 (c - h)) - (h / 3) • (f2 (c + h) + f2 (c - h))) (H := H) (C := M / 9) 2
    (by simp; module) (fun h hh => by
      have p1 := (hd _ (mp h hh)).1.comp_const_add c h
      have p2 := (hd _ (mm h hh)).1.comp_const_sub c h
      have p3 := (hd _ (mp h hh)).2.comp_const_add c h
      have p4 := (hd _ (mm h hh)).2.comp_const_sub c h
      refine ((((p1.fun_add p2).const_smul (2 / 3 : ℝ)).sub_const ((4 / 3 : ℝ) • f c)).fun_sub
        (((hasDerivAt_id h).div_const 3).fun_smul (p3.fun_sub p4))).congr_deriv ?_
      simp only [id]
      module) (fun h hh => (b2 h hh).trans (le_of_eq (by push_cast; ring)))
  have hcont : ContinuousOn (fun h => (∫ x in (c - h)..(c + h), f x) - (h / 3) • (f (c - h) + (4 : ℝ) • f c + f (c + h))) (Set.Icc 0 H) :=
    g1.sub ((continuousOn_id.div_const 3).smul ((hminus.add continuousOn_const).add hplus))
  refine fence (E := fun h => (∫ x in (c - h)..(c + h), f x) - (h / 3) • (f (c - h) + (4 : ℝ) • f c + f (c + h)))
    (E' := fun h => (2 / 3 : ℝ) • (f (c + h) + f (c - h)) - (4 / 3 : ℝ) • f c - (h / 3) • (f1 (c + h) - f1 (c - h))) 3 (by simp) hcont
    (fun h hh => ?_) (fun h hh => (b1 h hh).trans (le_of_eq (by push_cast; ring))) hH
  have p1 := (hd _ (mp h hh)).1.comp_const_add c h
  have p2 := (hd _ (mm h hh)).1.comp_const_sub c h
  refine ((g2 h hh).fun_sub (((hasDerivAt_id h).div_const 3).fun_smul ((p2.fun_add (hasDerivAt_const h ((4 : ℝ) • f c))).fun_add p1))).congr_deriv ?_
  simp only [id]
  module

/-- A value in place of the integrand. -/
theorem piece_error {f : ℝ → V} {p q x ω : ℝ} (hpq : p ≤ q) (hf : IntervalIntegrable f volume p q)
    (hω : ∀ y ∈ Set.Icc p q, ‖f y - f x‖ ≤ ω) : ‖(∫ y in p..q, f y) - (q - p) • f x‖ ≤ ω * (q - p) := by
  have e : (∫ y in p..q, f y) - (q - p) • f x = ∫ y in p..q, (f y - f x) := by
    rw [intervalIntegral.integral_sub hf intervalIntegrable_const, intervalIntegral.integral_const]
  rw [e]
  have := intervalIntegral.norm_integral_le_of_norm_le_const (a := p) (b := q) (f := fun y => f y - f x) (C := ω) fun y hy => by
    rw [Set.uIoc_of_le hpq] at hy
    exact hω y ⟨hy.1.le, hy.2⟩
  rwa [abs_of_nonneg (by linarith)] at this

/-- A rule made of panels with equal errors. -/
theorem composite {f : ℝ → V} {a b δ e : ℝ} {N : ℕ} (hN : 1 ≤ N) (hab : a ≤ b) (hδ : δ = (b - a) / N)
    (hf : ContinuousOn f (Set.Icc a b)) (g : ℕ → V)
    (hg : ∀ i, i < N → ‖(∫ x in (a + δ * i)..(a + δ * (i + 1)), f x) - g i‖ ≤ e) :
    ‖(∑ i ∈ range N, g i) - ∫ x in a..b, f x‖ ≤ N * e := by
  have hN' : (0 : ℝ) < N := by exact_mod_cast hN
  have hδ0 : 0 ≤ δ := by rw [hδ]; exact div_nonneg (by linarith) hN'.le
  have hδN : δ * N = b - a := by rw [hδ]; field_simp
  have hmem : ∀ i : ℕ, i ≤ N → a + δ * i ∈ Set.Icc a b := by
    intro i hi
    have h1 : (i : ℝ) ≤ N := by exact_mod_cast hi
    have h2 := mul_le_mul_of_nonneg_left h1 hδ0
    have h3 := mul_nonneg hδ0 (Nat.cast_nonneg (α := ℝ) i)
    exact ⟨by linarith, by linarith⟩
  have hsum := intervalIntegral.sum_integral_adjacent_intervals (f := f) (μ := volume) (a := fun i : ℕ => a + δ * i) (n := N) fun k hk => by
    refine (hf.mono ?_).intervalIntegrable
    rw [← Set.uIcc_of_le hab]
    exact Set.uIcc_subset_uIcc (by rw [Set.uIcc_of_le hab]; exact hmem k hk.le) (by rw [Set.uIcc_of_le hab]; exact hmem (k + 1) hk)
  simp only [Nat.cast_zero, mul_zero, add_zero, hδN, add_sub_cancel] at hsum
  rw [← hsum, ← sum_sub_distrib]
  refine (norm_sum_le _ _).trans ?_
  calc _ ≤ ∑ _i ∈ range N, e := sum_le_sum fun i hi => by
        rw [norm_sub_rev]
        have := hg i (mem_range.1 hi)
        push_cast
        exact this
    _ = N * e := by rw [sum_const, card_range, nsmul_eq_mul]

end Panels

/-! ### The rules -/

section Rules

variable {V : Type*} [NormedAddCommGroup V] [NormedSpace ℝ V] [CompleteSpace V]

/-- Points of a panel are points of the interval. -/
theorem panel_subset {a b δ : ℝ} {N : ℕ} (hN : 1 ≤ N) (hab : a ≤ b) (hδ : δ = (b - a) / N) {i : ℕ} (hi : i < N) :
    0 ≤ δ ∧ a ≤ a + δ * i ∧ a + δ * (i + 1) ≤ b := by
  have hN' : (0 : ℝ) < N := by exact_mod_cast hN
  have hδ0 : 0 ≤ δ := by rw [hδ]; exact div_nonneg (by linarith) hN'.le
  have hδN : δ * N = b - a := by rw [hδ]; field_simp
  have h1 : (i : ℝ) + 1 ≤ N := by exact_mod_cast hi
  have h2 := mul_le_mul_of_nonneg_left h1 hδ0
  have h3 := mul_nonneg hδ0 (Nat.cast_nonneg (α := ℝ) i)
  exact ⟨hδ0, by linarith, by linarith⟩

/-- **C104**: the error of the trapezoidal rule with `n` points, for every integrand whose derivative has the Lipschitz constant `M`. -/
theorem C104_trapezoidal_error {f f1 : ℝ → V} {a b M : ℝ} (hab : a ≤ b) (n : ℤ) (hn : 2 ≤ n) (hf : ContinuousOn f (Set.Icc a b))
    (hd : ∀ x ∈ Set.Ioo a b, HasDerivAt f (f1 x) x)
    (hM : ∀ x ∈ Set.Ioo a b, ∀ y ∈ Set.Ioo a b, ‖f1 x - f1 y‖ ≤ M * |x - y|) :
    ‖integrateFunctor .trapezoidal a b f n 0 - ∫ x in a..b, f x‖ ≤ M * (b - a) ^ 3 / (12 * ((n : ℝ) - 1) ^ 2) := by
  rcases hab.eq_or_lt with rfl | hlt
  · simp [integrateFunctor]
  rw [trapezoidal_panels a b hlt.ne f n hn]
  obtain ⟨N, hN⟩ : ∃ N : ℕ, n - 1 = N := ⟨(n - 1).toNat, by omega⟩
  have hN1 : 1 ≤ N := by omega
  have hnN : (n : ℝ) - 1 = N := by exact_mod_cast congrArg (Int.cast (R := ℝ)) hN
  rw [hN, hnN, Int.toNat_natCast, Int.cast_natCast]
  obtain ⟨δ, hδ⟩ : ∃ δ, δ = (b - a) / (N : ℝ) := ⟨_, rfl⟩
  rw [← hδ]
  have hN' : (0 : ℝ) < N := by exact_mod_cast hN1
  refine (composite (e := 2 / 3 * M * (δ / 2) ^ 3) hN1 hab hδ hf _ fun i hi => ?_).trans (le_of_eq ?_)
  · obtain ⟨d0, d1, d2⟩ := panel_subset hN1 hab hδ hi
    have key := trapezoidal_panel (f := f) (f1 := f1) (c := a + δ * i + δ / 2) (H := δ / 2) (M := M) (by linarith)
      (hf.mono (Set.Icc_subset_Icc (by linarith) (by linarith))) (fun x hx => hd x ⟨by linarith [hx.1], by linarith [hx.2]⟩)
      (fun x hx y hy => hM x ⟨by linarith [hx.1], by linarith [hx.2]⟩ y ⟨by linarith [hy.1], by linarith [hy.2]⟩)
    rw [show a + δ * i + δ / 2 - δ / 2 = a + δ * i by ring, show a + δ * i + δ / 2 + δ / 2 = a + δ * (i + 1) by ring] at key
    exact key
  · rw [hδ]
    field_simp
    ring

/-- Simpson's rule from the error of its panels. -/
theorem simpson_composite {f : ℝ → V} {a b C : ℝ} (hab : a ≤ b) (n : ℤ) (hn : 2 ≤ n) (hf : ContinuousOn f (Set.Icc a b)) (k : ℕ) (hC : 0 ≤ C)
    (hp : ∀ c H, 0 ≤ H → a ≤ c - H → c + H ≤ b →
      ‖(∫ x in (c - H)..(c + H), f x) - (H / 3) • (f (c - H) + (4 : ℝ) • f c + f (c + H))‖ ≤ C * H ^ (k + 1)) :
    ‖integrateFunctor .simpson a b f n 0 - ∫ x in a..b, f x‖ ≤ C * (b - a) ^ (k + 1) / (2 * ((n : ℝ) - 1) ^ k) := by
  rcases hab.eq_or_lt with rfl | hlt
  · simp [integrateFunctor]
  obtain ⟨N, hN1, hN, he⟩ := simpson_panels a b hlt.ne f n hn 0
  rw [he]
  have hN' : (0 : ℝ) < N := by exact_mod_cast hN1
  obtain ⟨δ, hδ⟩ : ∃ δ, δ = (b - a) / (N : ℝ) := ⟨_, rfl⟩
  have hδ' : (b - a) / (2 * (N : ℝ)) = δ / 2 := by rw [hδ]; field_simp
  rw [hδ']
  refine (composite (e := C * (δ / 2) ^ (k + 1)) hN1 hab hδ hf _ fun i hi => ?_).trans ?_
  · obtain ⟨d0, d1, d2⟩ := panel_subset hN1 hab hδ hi
    have key := hp (a + δ * i + δ / 2) (δ / 2) (by linarith) (by linarith) (by linarith)
    rw [show a + δ * i + δ / 2 - δ / 2 = a + δ * i by ring, show a + δ * i + δ / 2 + δ / 2 = a + δ * (i + 1) by ring] at key
    rw [show a + δ / 2 * (2 * (i : ℝ)) = a + δ * i by ring, show a + δ / 2 * (2 * (i : ℝ) + 1) = a + δ * i + δ / 2 by ring,
      show a + δ / 2 * (2 * (i : ℝ) + 2) = a + δ * (i + 1) by ring]
    exact key
  · have e : (N : ℝ) * (C * (δ / 2) ^ (k + 1)) = C * (b - a) ^ (k + 1) / (2 * (2 * N) ^ k) := by
      rw [← hδ', div_pow, pow_succ (2 * (N : ℝ))]
      field_simp
    rw [e]
    have h1 : (n : ℝ) - 1 ≤ 2 * N := by
      have : n - 1 ≤ 2 * (N : ℤ) := by omega
      exact_mod_cast this
    have h2 : (1 : ℝ) ≤ n - 1 := by
      have : (2 : ℝ) ≤ n := by exact_mod_cast hn
      linarith
    have h3 : 0 ≤ b - a := by linarith
    refine div_le_div_of_nonneg_left (by positivity) (by positivity) ?_
    have := pow_le_pow_left₀ (by linarith) h1 k
    linarith

/-- Lipschitz constants of a proper interval are not negative. -/
theorem lipschitz_nonneg {g : ℝ → V} {a b M : ℝ} (hlt : a < b)
    (hM : ∀ x ∈ Set.Ioo a b, ∀ y ∈ Set.Ioo a b, ‖g x - g y‖ ≤ M * |x - y|) : 0 ≤ M := by
  have m1 : a + (b - a) / 3 ∈ Set.Ioo a b := ⟨by linarith, by linarith⟩
  have m2 : a + (b - a) / 3 * 2 ∈ Set.Ioo a b := ⟨by linarith, by linarith⟩
  have h1 := (norm_nonneg _).trans (hM _ m1 _ m2)
  have h2 : 0 < |a + (b - a) / 3 - (a + (b - a) / 3 * 2)| := abs_pos.2 (by
    intro h
    linarith)
  exact nonneg_of_mul_nonneg_left h1 h2

/-- **C104**: the error of Simpson's rule with `n` points, for every integrand whose third derivative has the Lipschitz constant `M`. -/
theorem C104_simpson_error {f f1 f2 f3 : ℝ → V} {a b M : ℝ} (hab : a ≤ b) (n : ℤ) (hn : 2 ≤ n) (hf : ContinuousOn f (Set.Icc a b))
    (hd : ∀ x ∈ Set.Ioo a b, HasDerivAt f (f1 x) x ∧ HasDerivAt f1 (f2 x) x ∧ HasDerivAt f2 (f3 x) x)
    (hM : ∀ x ∈ Set.Ioo a b, ∀ y ∈ Set.Ioo a b, ‖f3 x - f3 y‖ ≤ M * |x - y|) :
    ‖integrateFunctor .simpson a b f n 0 - ∫ x in a..b, f x‖ ≤ M * (b - a) ^ 5 / (180 * ((n : ℝ) - 1) ^ 4) := by
  rcases hab.eq_or_lt with rfl | hlt
  · simp [integrateFunctor]
  have hM0 := lipschitz_nonneg hlt hM
  refine (simpson_composite (C := M / 90) hab n hn hf 4 (by positivity) fun c H hH h1 h2 => ?_).trans (le_of_eq ?_)
  · exact simpson_panel (f := f) (f1 := f1) (f2 := f2) (f3 := f3) hH (hf.mono (Set.Icc_subset_Icc h1 h2))
      (fun x hx => hd x ⟨by linarith [hx.1], by linarith [hx.2]⟩)
      (fun x hx y hy => hM x ⟨by linarith [hx.1], by linarith [hx.2]⟩ y ⟨by linarith [hy.1], by linarith [hy.2]⟩)
  · field_simp
    ring

/-- **C104**: the error of Simpson's rule with `n` points, for every integrand whose second derivative has the Lipschitz constant `M`, as for
cubic splines. -/
theorem C104_simpson_error_second {f f1 f2 : ℝ → V} {a b M : ℝ} (hab : a ≤ b) (n : ℤ) (hn : 2 ≤ n) (hf : ContinuousOn f (Set.Icc a b))
    (hd : ∀ x ∈ Set.Ioo a b, HasDerivAt f (f1 x) x ∧ HasDerivAt f1 (f2 x) x)
    (hM : ∀ x ∈ Set.Ioo a b, ∀ y ∈ Set.Ioo a b, ‖f2 x - f2 y‖ ≤ M * |x - y|) :
    ‖integrateFunctor .simpson a b f n 0 - ∫ x in a..b, f x‖ ≤ M * (b - a) ^ 4 / (72 * ((n : ℝ) - 1) ^ 3) := by
  rcases hab.eq_or_lt with rfl | hlt
  · simp [integrateFunctor]
  have hM0 := lipschitz_nonneg hlt hM
  refine (simpson_composite (C := M / 36) hab n hn hf 3 (by positivity) fun c H hH h1 h2 => ?_).trans (le_of_eq ?_)
  · exact simpson_panel_second (f := f) (f1 := f1) (f2 := f2) hH (hf.mono (Set.Icc_subset_Icc h1 h2))
      (fun x hx => hd x ⟨by linarith [hx.1], by linarith [hx.2]⟩)
      (fun x hx y hy => hM x ⟨by linarith [hx.1], by linarith [hx.2]⟩ y ⟨by linarith [hy.1], by linarith [hy.2]⟩)
  · field_simp
    ring

/-- **C104**: for every continuous integrand the error of both rules is at most the length of the interval times the greatest difference of
values at points no further apart than two neighbouring points of the rule. -/
theorem C104_modulus {f : ℝ → V} {a b ω : ℝ} (hab : a ≤ b) (r : Rule) (n : ℤ) (hn : 2 ≤ n) (hf : ContinuousOn f (Set.Icc a b))
    (hω : ∀ x ∈ Set.Icc a b, ∀ y ∈ Set.Icc a b, |x - y| ≤ (b - a) / ((n : ℝ) - 1) → ‖f x - f y‖ ≤ ω) :
    ‖integrateFunctor r a b f n 0 - ∫ x in a..b, f x‖ ≤ ω * (b - a) := by
  rcases hab.eq_or_lt with rfl | hlt
  · simp [integrateFunctor]
  have hint : ∀ p q, a ≤ p → p ≤ q → q ≤ b → IntervalIntegrable f volume p q := fun p q h1 h2 h3 =>
    (hf.mono (Set.Icc_subset_Icc h1 h3)).intervalIntegrable_of_Icc h2
  cases r with
  | trapezoidal =>
    rw [trapezoidal_panels a b hlt.ne f n hn]
    obtain ⟨N, hN⟩ : ∃ N : ℕ, n - 1 = N := ⟨(n - 1).toNat, by omega⟩
    have hN1 : 1 ≤ N := by omega
    have hnN : (n : ℝ) - 1 = N := by exact_mod_cast congrArg (Int.cast (R := ℝ)) hN
    rw [hnN] at hω
    rw [hN, Int.toNat_natCast, Int.cast_natCast]
    obtain ⟨δ, hδ⟩ : ∃ δ, δ = (b - a) / (N : ℝ) := ⟨_, rfl⟩
    rw [← hδ]
    rw [← hδ] at hω
    have hN' : (0 : ℝ) < N := by exact_mod_cast hN1
    refine (composite (e := ω * δ) hN1 hab hδ hf _ fun i hi => ?_).trans (le_of_eq ?_)
    · obtain ⟨d0, d1, d2⟩ := panel_subset hN1 hab hδ hi
      obtain ⟨l, hl⟩ : ∃ l, l = a + δ * (i : ℝ) := ⟨_, rfl⟩
      have hr : a + δ * ((i : ℝ) + 1) = l + δ := by rw [hl]; ring
      rw [hr] at d2 ⊢
      rw [← hl] at d1 ⊢
      have p1 := piece_error (f := f) (x := l) (ω := ω) (p := l) (q := l + δ / 2) (by linarith) (hint _ _ d1 (by linarith) (by linarith))
        fun y hy => hω y ⟨by linarith [hy.1], by linarith [hy.2]⟩ l ⟨d1, by linarith⟩ (abs_le.2 ⟨by linarith [hy.1], by linarith [hy.2]⟩)
      have p2 := piece_error (f := f) (x := l + δ) (ω := ω) (p := l + δ / 2) (q := l + δ) (by linarith)
        (hint _ _ (by linarith) (by linarith) (by linarith)) fun y hy => hω y ⟨by linarith [hy.1], by linarith [hy.2]⟩ (l + δ)
          ⟨by linarith, by linarith⟩ (abs_le.2 ⟨by linarith [hy.1], by linarith [hy.2]⟩)
      rw [← intervalIntegral.integral_add_adjacent_intervals (hint l (l + δ / 2) d1 (by linarith) (by linarith))
        (hint (l + δ / 2) (l + δ) (by linarith) (by linarith) (by linarith))]
      refine le_trans (le_of_eq ?_) ((norm_add_le _ _).trans ((add_le_add p1 p2).trans (le_of_eq ?_)))
      · congr 1
        module
      · ring
    · rw [hδ]
      field_simp
  | simpson =>
    obtain ⟨N, hN1, hN, he⟩ := simpson_panels a b hlt.ne f n hn 0
    rw [he]
    have hN' : (0 : ℝ) < N := by exact_mod_cast hN1
    obtain ⟨δ, hδ⟩ : ∃ δ, δ = (b - a) / (N : ℝ) := ⟨_, rfl⟩
    have hδ' : (b - a) / (2 * (N : ℝ)) = δ / 2 := by rw [hδ]; field_simp
    rw [hδ']
    have hstep : δ / 2 ≤ (b - a) / ((n : ℝ) - 1) := by
      rw [← hδ']
      have h2 : (1 : ℝ) ≤ n - 1 := by
        have : (2 : ℝ) ≤ n := by exact_mod_cast hn
        linarith
      refine div_le_div_of_nonneg_left (by linarith) (by linarith) ?_
      have : n - 1 ≤ 2 * (N : ℤ) := by omega
      exact_mod_cast this
    refine (composite (e := ω * δ) hN1 hab hδ hf _ fun i hi => ?_).trans (le_of_eq ?_)
    · obtain ⟨d0, d1, d2⟩ := panel_subset hN1 hab hδ hi
      obtain ⟨l, hl⟩ : ∃ l, l = a + δ * (i : ℝ) := ⟨_, rfl⟩
      rw [show a + δ / 2 * (2 * (i : ℝ)) = a + δ * i by ring, show a + δ / 2 * (2 * (i : ℝ) + 1) = a + δ * i + δ / 2 by ring,
        show a + δ / 2 * (2 * (i : ℝ) + 2) = a + δ * (i + 1) by ring]
      have hr : a + δ * ((i : ℝ) + 1) = l + δ := by rw [hl]; ring
      rw [hr] at d2 ⊢
      rw [← hl] at d1 ⊢
      have p1 := piece_error (f := f) (x := l) (ω := ω) (p := l) (q := l + δ / 6) (by linarith) (hint _ _ d1 (by linarith) (by linarith))
        fun y hy => hω y ⟨by linarith [hy.1], by linarith [hy.2]⟩ l ⟨d1, by linarith⟩
          (abs_le.2 ⟨by linarith [hy.1], by linarith [hy.2]⟩)
      have p2 := piece_error (f := f) (x := l + δ / 2) (ω := ω) (p := l + δ / 6) (q := l + δ * 5 / 6) (by linarith)
        (hint _ _ (by linarith) (by linarith) (by linarith)) fun y hy => hω y ⟨by linarith [hy.1], by linarith [hy.2]⟩ (l + δ / 2)
          ⟨by linarith, by linarith⟩ (abs_le.2 ⟨by linarith [hy.1], by linarith [hy.2]⟩)
      have p3 := piece_error (f := f) (x := l + δ) (ω := ω) (p := l + δ * 5 / 6) (q := l + δ) (by linarith)
        (hint _ _ (by linarith) (by linarith) (by linarith)) fun y hy => hω y ⟨by linarith [hy.1], by linarith [hy.2]⟩ (l + δ)
          ⟨by linarith, by linarith⟩ (abs_le.2 ⟨by linarith [hy.1], by linarith [hy.2]⟩)
      rw [← intervalIntegral.integral_add_adjacent_intervals (hint l (l + δ / 6) d1 (by linarith) (by linarith))
        (hint (l + δ / 6) (l + δ) (by linarith) (by linarith) (by linarith)),
        ← intervalIntegral.integral_add_adjacent_intervals (hint (l + δ / 6) (l + δ * 5 / 6) (by linarith) (by linarith) (by linarith))
        (hint (l + δ * 5 / 6) (l + δ) (by linarith) (by linarith) (by linarith))]
      refine le_trans (le_of_eq ?_) ((norm_add₃_le).trans ((add_le_add (add_le_add p1 p2) p3).trans (le_of_eq ?_)))
      · congr 1
        module
      · ring
    · rw [hδ]
      field_simp

open Filter Topology in
/-- **C104**: for every continuous integrand both rules converge to the integral when the number of points grows. -/
theorem C104_converges {f : ℝ → V} {a b : ℝ} (r : Rule) (hf : ContinuousOn f (Set.uIcc a b)) :
    Tendsto (fun n : ℕ => integrateFunctor r a b f n 0) atTop (𝓝 (∫ x in a..b, f x)) := by
  have key : ∀ {a b : ℝ}, a ≤ b → ContinuousOn f (Set.Icc a b) →
      Tendsto (fun n : ℕ => integrateFunctor r a b f n 0) atTop (𝓝 (∫ x in a..b, f x)) := by
    intro a b hab hf
    rw [Metric.tendsto_atTop]
    intro ε hε
    have huc := isCompact_Icc.uniformContinuousOn_of_continuous hf
    rw [Metric.uniformContinuousOn_iff] at huc
    have hpos : 0 < ε / (b - a + 1) := div_pos hε (by linarith)
    obtain ⟨δ, hδ, hu⟩ := huc _ hpos
    obtain ⟨m, hm⟩ := exists_nat_gt ((b - a) / δ)
    refine ⟨m + 2, fun n hn => ?_⟩
    have hn2 : (m : ℝ) + 2 ≤ n := by exact_mod_cast hn
    have hm0 : (0 : ℝ) ≤ m := Nat.cast_nonneg m
    rw [dist_eq_norm]
    refine (C104_modulus (ω := ε / (b - a + 1)) hab r n (by exact_mod_cast (show 2 ≤ n by omega)) hf fun x hx y hy hxy => ?_).trans_lt ?_
    · rw [← dist_eq_norm]
      refine (hu x hx y hy ?_).le
      rw [Real.dist_eq]
      refine hxy.trans_lt ?_
      rw [Int.cast_natCast, div_lt_iff₀ (by linarith)]
      rw [div_lt_iff₀ hδ] at hm
      nlinarith
    · rw [div_mul_eq_mul_div, div_lt_iff₀ (by linarith)]
      nlinarith
  rcases le_total a b with h | h
  · exact key h (by rwa [Set.uIcc_of_le h] at hf)
  · have := (key h (by rwa [Set.uIcc_of_ge h] at hf)).neg
    rw [← intervalIntegral.integral_symm] at this
    refine this.congr' ?_
    filter_upwards [eventually_ge_atTop 2] with n hn
    exact (C36_swap r b a n (by exact_mod_cast hn) f).symm

end Rules

/-! ### Integrands that may throw -/

section Throwing

variable {K : Type*} [Field K] [LinearOrder K] [IsStrictOrderedRing K] {V : Type*} [AddCommGroup V] [Module K V]

/-- The loop over integrand values that all exist. -/
theorem loop_ok {f : ℕ → Outcome V} {g : ℕ → V} {w : ℕ → V → V} (l : List ℕ) (h : ∀ i ∈ l, f i = .ok (g i)) (s : V) :
    l.foldl (fun (acc : Outcome V) i => acc.bind fun s => (f i).map fun v => s + w i v) (.ok s) = .ok (l.foldl (fun s i => s + w i (g i)) s) := by
  induction l generalizing s with
  | nil => rfl
  | cons i l ih =>
    rw [List.foldl_cons, List.foldl_cons, Outcome.bind_ok, h i (by simp), Outcome.map_ok]
    exact ih (fun j hj => h j (by simp [hj])) _

/-- An exception ends the loop. -/
theorem loop_throws {f : ℕ → Outcome V} {w : ℕ → V → V} (l : List ℕ) (hub : ∀ i ∈ l, f i ≠ .ub) (o : Outcome V) (ho : o ≠ .ub)
    (h : o = .throws ∨ ∃ i ∈ l, f i = .throws) :
    l.foldl (fun (acc : Outcome V) i => acc.bind fun s => (f i).map fun v => s + w i v) o = .throws := by
  induction l generalizing o with
  | nil => exact h.resolve_right (by simp)
  | cons i l ih =>
    rw [List.foldl_cons]
    have hi := hub i (by simp)
    refine ih (fun j hj => hub j (by simp [hj])) _ ?_ ?_
    · cases o with
      | ub => exact absurd rfl ho
      | throws => simp
      | ok s =>
        cases hf : f i with
        | ub => exact absurd hf hi
        | throws => simp
        | ok v => simp
    · rcases h with rfl | ⟨j, hj, hf⟩
      · exact Or.inl rfl
      · rcases List.mem_cons.1 hj with rfl | hj
        · left
          cases o with
          | ub => exact absurd rfl ho
          | throws => rfl
          | ok s => rw [Outcome.bind_ok, hf]; rfl
        · exact Or.inr ⟨j, hj, hf⟩

theorem integrateThrowing_ok (r : Rule) (a b : K) (f : K → Outcome V) (g : K → V) (n : ℤ) (zero : V)
    (h : ∀ i : ℕ, i ≤ (r.maxIndex n).toNat → f (r.point a b n i) = .ok (g (r.point a b n i))) :
    integrateThrowing r a b f n zero = .ok (integrateFunctor r a b g n zero) := by
  unfold integrateThrowing integrateFunctor
  by_cases hab : a = b
  · rw [if_pos hab, if_pos hab]
  · rw [if_neg hab, if_neg hab]
    have h0 := h 0 (Nat.zero_le _)
    rw [Nat.cast_zero] at h0
    rw [h0, Outcome.map_ok, loop_ok (f := fun i => f (r.point a b n ((i : ℤ) + 1))) (g := fun i => g (r.point a b n ((i : ℤ) + 1)))
      (w := fun i v => if (r.valueFactor n ((i : ℤ) + 1) : K) = 1 then v else (r.valueFactor n ((i : ℤ) + 1) : K) • v)]
    · rfl
    · intro i hi
      have := h (i + 1) (List.mem_range.1 hi)
      rwa [Nat.cast_succ] at this

theorem integrateThrowing_throws (r : Rule) (a b : K) (hab : a ≠ b) (f : K → Outcome V) (n : ℤ) (zero : V) (hub : ∀ x, f x ≠ .ub)
    (h : ∃ i : ℕ, i ≤ (r.maxIndex n).toNat ∧ f (r.point a b n i) = .throws) : integrateThrowing r a b f n zero = .throws := by
  unfold integrateThrowing
  rw [if_neg hab, loop_throws (f := fun i => f (r.point a b n ((i : ℤ) + 1)))
      (w := fun i v => if (r.valueFactor n ((i : ℤ) + 1) : K) = 1 then v else (r.valueFactor n ((i : ℤ) + 1) : K) • v)]
  · rfl
  · exact fun i _ => hub _
  · have := hub (r.point a b n 0)
    cases hf : f (r.point a b n 0) with
    | ub => exact absurd hf this
    | throws => simp
    | ok v => simp
  · obtain ⟨i, hi, hf⟩ := h
    rcases Nat.eq_zero_or_pos i with rfl | hpos
    · left
      rw [Nat.cast_zero] at hf
      rw [hf]
      rfl
    · refine Or.inr ⟨i - 1, List.mem_range.2 (by omega), ?_⟩
      have e : ((i - 1 : ℕ) : ℤ) + 1 = i := by omega
      show f (r.point a b n (((i - 1 : ℕ) : ℤ) + 1)) = .throws
      rw [e, hf]

/-- The points of a rule lie between the bounds; the bounds are points. -/
theorem points_between (r : Rule) (a b : K) (hab : a ≤ b) (n : ℤ) (hn : 2 ≤ n) :
    (∀ i : ℕ, i ≤ (r.maxIndex n).toNat → a ≤ r.point a b n i ∧ r.point a b n i ≤ b) ∧ r.point a b n (0 : ℕ) = a ∧
      r.point a b n (r.maxIndex n).toNat = b := by
  have hm := maxIndex_pos r n hn
  have hstep := step_mul_max r a b n hn
  have hpos : (0 : K) < ((r.maxIndex n : ℤ) : K) := by exact_mod_cast hm
  have h0 : 0 ≤ r.stepSize a b n := by
    unfold Rule.stepSize
    exact div_nonneg (sub_nonneg.2 hab) hpos.le
  refine ⟨fun i hi => ?_, ?_, ?_⟩
  · rw [point_eq r a b n hn]
    have h1 : (((i : ℕ) : ℤ) : K) ≤ ((r.maxIndex n : ℤ) : K) := by
      have : (i : ℤ) ≤ r.maxIndex n := by omega
      exact_mod_cast this
    have h2 := mul_le_mul_of_nonneg_left h1 h0
    have h3 : (0 : K) ≤ (((i : ℕ) : ℤ) : K) := by simp
    have h4 := mul_nonneg h0 h3
    exact ⟨by linarith, by linarith⟩
  · rw [point_eq r a b n hn]
    simp
  · rw [show (((r.maxIndex n).toNat : ℕ) : ℤ) = r.maxIndex n by omega]
    unfold Rule.point
    rw [if_pos rfl]

end Throwing

/-! ### Splines -/

namespace MSpline

section Field

variable {K : Type*} [Field K] [LinearOrder K] [IsStrictOrderedRing K] {P : Type*} [AddCommGroup P] [Module K P]

/-- What an evaluation does, by time. -/
theorem euclideanEval_cases {s : MSpline K P} (hw : s.MWF) (t : K) :
    s.euclideanEval t ≠ .ub ∧ (s.euclideanEval t = .throws ↔
      s.state = .constructing ∨ t < s.kn (s.order - 1) ∨ s.kn (s.keys.length - s.order) < t) := by
  by_cases hc : s.state = .constructing ∨ t < s.kn (s.order - 1) ∨ s.kn (s.keys.length - s.order) < t
  · have : s.euclideanEval t = .throws := by
      unfold euclideanEval euclideanEvalD
      rw [evaluatorAt_throws hw t hc]
      rfl
    exact ⟨by rw [this]; simp, fun _ => hc, fun _ => this⟩
  · have he : s.state = .evaluable := by
      cases hs : s.state with
      | constructing => exact absurd (Or.inl hs) hc
      | evaluable => rfl
    rcases evaluable_total hw he t with ⟨i, hi⟩ | h
    · have := euclideanEvalD_eq hw he hi none 0 (by simp)
      have e : s.euclideanEval t = .ok _ := this
      exact ⟨by rw [e]; simp, fun hx => (by rw [e] at hx; cases hx), fun hx => absurd hx hc⟩
    · exact absurd (Or.inr h) hc

/-- **C104**: when numerical integration along a spline returns.  Equal bounds give zero without any check.  Other bounds have to be valid
times of an evaluable spline, otherwise an exception is raised; the result is then the one of Simpson's rule. -/
theorem C104_spline_total (order : ℕ) (ho : 1 ≤ order) (s : MSpline K P) (h : RegularReach (euclidean K P) order s) (t1 t2 : K) (n : ℤ)
    (hn : 2 ≤ n) :
    (t1 = t2 → s.integralNumerically t1 t2 n = .ok 0) ∧
    (t1 ≠ t2 → s.state = .constructing → s.integralNumerically t1 t2 n = .throws) ∧
    (s.state = .evaluable → ∀ tmin tmax, s.getMinTime = .ok tmin → s.getMaxTime = .ok tmax →
      (t1 ≠ t2 → (t1 < tmin ∨ tmax < t1 ∨ t2 < tmin ∨ tmax < t2) → s.integralNumerically t1 t2 n = .throws) ∧
      (tmin ≤ t1 → t1 ≤ tmax → tmin ≤ t2 → t2 ≤ tmax →
        s.integralNumerically t1 t2 n = .ok (integrateFunctor .simpson t1 t2 (fun x => (s.euclideanEval x).getD 0) n 0))) := by
  obtain ⟨hw, rfl⟩ := h.mwf ho
  have hbad : ∀ a b : K, a < b → (s.euclideanEval a = .throws ∨ s.euclideanEval b = .throws) →
      integrateThrowing .simpson a b s.euclideanEval n 0 = .throws := by
    intro a b hab hx
    obtain ⟨-, p0, p1⟩ := points_between .simpson a b hab.le n hn
    refine integrateThrowing_throws _ a b hab.ne _ n 0 (fun x => (euclideanEval_cases hw x).1) ?_
    rcases hx with hx | hx
    · exact ⟨0, Nat.zero_le _, by rw [p0, hx]⟩
    · exact ⟨_, le_rfl, by rw [p1, hx]⟩
  have hbad' : t1 ≠ t2 → (s.euclideanEval t1 = .throws ∨ s.euclideanEval t2 = .throws) → s.integralNumerically t1 t2 n = .throws := by
    intro hne hx
    unfold integralNumerically functorIntegralNumerically
    rcases lt_or_gt_of_ne hne with hlt | hgt
    · rw [if_neg (not_lt.2 hlt.le)]
      exact hbad _ _ hlt hx
    · rw [if_pos hgt, hbad _ _ hgt hx.symm]
      rfl
  refine ⟨?_, fun hne hc => hbad' hne (Or.inl ((euclideanEval_cases hw t1).2.2 (Or.inl hc))), ?_⟩
  · rintro rfl
    simp [integralNumerically, functorIntegralNumerically, integrateThrowing]
  · intro he tmin tmax hmin hmax
    rw [getMinTime_eq hw he, Outcome.ok.injEq] at hmin
    rw [getMaxTime_eq hw he, Outcome.ok.injEq] at hmax
    subst hmin hmax
    constructor
    · intro hne hx
      refine hbad' hne ?_
      rcases hx with hx | hx | hx | hx
      · exact Or.inl ((euclideanEval_cases hw t1).2.2 (Or.inr (Or.inl hx)))
      · exact Or.inl ((euclideanEval_cases hw t1).2.2 (Or.inr (Or.inr hx)))
      · exact Or.inr ((euclideanEval_cases hw t2).2.2 (Or.inr (Or.inl hx)))
      · exact Or.inr ((euclideanEval_cases hw t2).2.2 (Or.inr (Or.inr hx)))
    · intro h1 h2 h3 h4
      have hgood : ∀ a b : K, a ≤ b → s.kn (s.order - 1) ≤ a → b ≤ s.kn (s.keys.length - s.order) →
          integrateThrowing .simpson a b s.euclideanEval n 0 =
            .ok (integrateFunctor .simpson a b (fun x => (s.euclideanEval x).getD 0) n 0) := by
        intro a b hab ha hb
        obtain ⟨p, -, -⟩ := points_between .simpson a b hab n hn
        refine integrateThrowing_ok _ a b _ _ n 0 fun i hi => ?_
        obtain ⟨q1, q2⟩ := p i hi
        obtain ⟨j, hj, -⟩ := getSegmentIterator_ok hw he (Rule.simpson.point a b n i) (ha.trans q1) (q2.trans hb)
        have := euclideanEvalD_eq hw he hj none 0 (by simp)
        have e : s.euclideanEval (Rule.simpson.point a b n i) = .ok _ := this
        rw [e]
        rfl
      unfold integralNumerically functorIntegralNumerically
      by_cases hgt : t1 > t2
      · rw [if_pos hgt, hgood t2 t1 hgt.le h3 h2, C36_swap .simpson t2 t1 n hn]
        rfl
      · rw [if_neg hgt]
        exact hgood t1 t2 (not_lt.1 hgt) h1 h4

end Field

section Real

variable {P : Type*} [NormedAddCommGroup P] [NormedSpace ℝ P]

/-- The derivative of the order `d` has the bound of the next one as a Lipschitz constant. -/
theorem euclideanEvalD_lipschitz {order : ℕ} {s : MSpline ℝ P} (h : RegularReach (euclidean ℝ P) order s) (he : s.state = .evaluable)
    {tmin tmax : ℝ} (hmin : s.getMinTime = .ok tmin) (hmax : s.getMaxTime = .ok tmax) (d : ℕ) (hd : d + 2 ≤ order) {M : ℝ}
    (hM : ∀ t v, tmin ≤ t → t < tmax → s.euclideanEvalD none t (d + 1) = .ok v → ‖v‖ ≤ M) :
    ∀ x ∈ Set.Icc tmin tmax, ∀ y ∈ Set.Icc tmin tmax,
      ‖(s.euclideanEvalD none x d).getD 0 - (s.euclideanEvalD none y d).getD 0‖ ≤ M * |x - y| := by
  have hcont := (C70_euclidean_continuous order s h he tmin tmax hmin hmax d hd).2
  obtain ⟨hw, rfl⟩ := h.mwf (by omega)
  rw [getMinTime_eq hw he, Outcome.ok.injEq] at hmin
  rw [getMaxTime_eq hw he, Outcome.ok.injEq] at hmax
  subst hmin hmax
  have key : ∀ x ∈ Set.Icc (s.kn (s.order - 1)) (s.kn (s.keys.length - s.order)),
      ∀ y ∈ Set.Icc (s.kn (s.order - 1)) (s.kn (s.keys.length - s.order)), y ≤ x →
      ‖(s.euclideanEvalD none x d).getD 0 - (s.euclideanEvalD none y d).getD 0‖ ≤ M * |x - y| := by
    intro x hx y hy hyx
    rw [abs_of_nonneg (by linarith)]
    have hmono : Set.Icc y x ⊆ Set.Icc (s.kn (s.order - 1)) (s.kn (s.keys.length - s.order)) := Set.Icc_subset_Icc hy.1 hx.2
    have hev : ∀ z j, s.InSeg z j → ∀ d : ℕ, (s.euclideanEvalD none z d).getD 0 = s.segSum j d z := by
      intro z j hj d
      rw [euclideanEvalD_eq hw he hj none d (by simp)]
      rfl
    refine norm_image_sub_le_of_norm_deriv_right_le_segment (a := y) (b := x)
      (f := fun z => (s.euclideanEvalD none z d).getD 0) (f' := fun z => (s.euclideanEvalD none z ((d + 1 : ℕ) : ℤ)).getD 0) (C := M)
      (hcont.mono hmono) (fun z hz => ?_) (fun z hz => ?_) x ⟨hyx, le_rfl⟩
    · have hz' := hmono ⟨hz.1, hz.2.le⟩
      have hzlt : z < s.kn (s.keys.length - s.order) := hz.2.trans_le hx.2
      obtain ⟨i, hi, -⟩ := getSegmentIterator_ok hw he z hz'.1 hz'.2
      have hr : z < s.kn (i + 1) := by
        rcases hi.right with h3 | ⟨h3, h4⟩
        · exact h3
        · rw [show s.keys.length - s.order = i + 1 by omega, ← h3] at hzlt
          exact absurd hzlt (lt_irrefl z)
      rw [hev z i hi (d + 1)]
      refine (s.segSum_deriv i d z).hasDerivWithinAt.congr_of_eventuallyEq ?_ (hev z i hi d)
      filter_upwards [Ico_mem_nhdsGE hr] with w hw'
      exact hev w i ⟨hi.lower, hi.upper, hi.left.trans hw'.1, Or.inl hw'.2⟩ d
    · have hz' := hmono ⟨hz.1, hz.2.le⟩
      obtain ⟨i, hi, -⟩ := getSegmentIterator_ok hw he z hz'.1 hz'.2
      have e := euclideanEvalD_eq hw he hi none (d + 1) (by simp)
      push_cast at e ⊢
      rw [e]
      exact hM z _ hz'.1 (hz.2.trans_le hx.2) e
  intro x hx y hy
  rcases le_total y x with hyx | hyx
  · exact key x hx y hy hyx
  · rw [norm_sub_rev, abs_sub_comm]
    exact key y hy x hx hyx

variable [CompleteSpace P]

open Filter Topology in
/-- **C104**: numerical integration along a Euclidean spline of order two or more converges to the integral of the curve, and to the result
of the exact integration if no bound is close to a knot in the sense of its tolerance. -/
theorem C104_spline_converges (order : ℕ) (ho : 2 ≤ order) (s : MSpline ℝ P) (h : RegularReach (euclidean ℝ P) order s)
    (he : s.state = .evaluable) (tmin tmax : ℝ) (hmin : s.getMinTime = .ok tmin) (hmax : s.getMaxTime = .ok tmax)
    (t1 t2 : ℝ) (h1 : tmin ≤ t1 ∧ t1 ≤ tmax) (h2 : tmin ≤ t2 ∧ t2 ≤ tmax) :
    (∀ n : ℤ, 2 ≤ n → ∃ v, s.integralNumerically t1 t2 n = .ok v) ∧
    Tendsto (fun n : ℕ => (s.integralNumerically t1 t2 n).getD 0) atTop (𝓝 (∫ x in t1..t2, (s.euclideanEval x).getD 0)) ∧
    (s.Clear t1 → s.Clear t2 → ∃ v, s.euclideanIntegral t1 t2 = .ok v ∧
      Tendsto (fun n : ℕ => (s.integralNumerically t1 t2 n).getD 0) atTop (𝓝 v)) := by
  have hval : ∀ n : ℤ, 2 ≤ n → s.integralNumerically t1 t2 n =
      .ok (integrateFunctor .simpson t1 t2 (fun x => (s.euclideanEval x).getD 0) n 0) := fun n hn =>
    ((C104_spline_total order (by omega) s h t1 t2 n hn).2.2 he tmin tmax hmin hmax).2 h1.1 h1.2 h2.1 h2.2
  have hcont : ContinuousOn (fun x => (s.euclideanEval x).getD 0) (Set.uIcc t1 t2) := by
    have := (C70_euclidean_continuous order s h he tmin tmax hmin hmax 0 (by omega)).2
    refine this.mono ?_
    rw [← Set.uIcc_of_le (h1.1.trans h1.2)]
    exact Set.uIcc_subset_uIcc (by rw [Set.uIcc_of_le (h1.1.trans h1.2)]; exact h1) (by rw [Set.uIcc_of_le (h1.1.trans h1.2)]; exact h2)
  have hlim : Tendsto (fun n : ℕ => (s.integralNumerically t1 t2 n).getD 0) atTop (𝓝 (∫ x in t1..t2, (s.euclideanEval x).getD 0)) := by
    refine (C104_converges .simpson hcont).congr' ?_
    filter_upwards [eventually_ge_atTop 2] with n hn
    rw [hval n (by exact_mod_cast hn)]
    rfl
  refine ⟨fun n hn => ⟨_, hval n hn⟩, hlim, fun c1 c2 => ?_⟩
  obtain ⟨v, g1, -, g3, -⟩ := C54_integral order (by omega) s h he tmin tmax hmin hmax t1 t2 h1 h2
  exact ⟨v, g1, by rw [g3 c1 c2]; exact hlim⟩

/-- **C104**: the error of numerical integration along a Euclidean spline with `n` points: of cubic splines, from a bound of the third
derivative, and of splines of order five or more, from a bound of the fourth. -/
theorem C104_spline_error (order : ℕ) (s : MSpline ℝ P) (h : RegularReach (euclidean ℝ P) order s)
    (he : s.state = .evaluable) (tmin tmax : ℝ) (hmin : s.getMinTime = .ok tmin) (hmax : s.getMaxTime = .ok tmax)
    (t1 t2 : ℝ) (h1 : tmin ≤ t1 ∧ t1 ≤ tmax) (h2 : tmin ≤ t2 ∧ t2 ≤ tmax) (n : ℤ) (hn : 2 ≤ n) (M : ℝ) :
    (4 ≤ order → (∀ t v, tmin ≤ t → t < tmax → s.euclideanEvalD none t 3 = .ok v → ‖v‖ ≤ M) →
      ∃ v, s.integralNumerically t1 t2 n = .ok v ∧
        ‖v - ∫ x in t1..t2, (s.euclideanEval x).getD 0‖ ≤ M * |t2 - t1| ^ 4 / (72 * ((n : ℝ) - 1) ^ 3)) ∧
    (5 ≤ order → (∀ t v, tmin ≤ t → t < tmax → s.euclideanEvalD none t 4 = .ok v → ‖v‖ ≤ M) →
      ∃ v, s.integralNumerically t1 t2 n = .ok v ∧
        ‖v - ∫ x in t1..t2, (s.euclideanEval x).getD 0‖ ≤ M * |t2 - t1| ^ 5 / (180 * ((n : ℝ) - 1) ^ 4)) := by
  have hval : 1 ≤ order → s.integralNumerically t1 t2 n =
      .ok (integrateFunctor .simpson t1 t2 (fun x => (s.euclideanEval x).getD 0) n 0) := fun ho =>
    ((C104_spline_total order ho s h t1 t2 n hn).2.2 he tmin tmax hmin hmax).2 h1.1 h1.2 h2.1 h2.2
  have hder : ∀ d : ℕ, d + 3 ≤ order → ∀ t, tmin < t → t < tmax →
      HasDerivAt (fun x => (s.euclideanEvalD none x d).getD 0) ((s.euclideanEvalD none t ((d : ℤ) + 1)).getD 0) t := by
    intro d hd t g1 g2
    obtain ⟨v, e, hv⟩ := C70_euclidean_derivative order (by omega) s h he tmin tmax hmin hmax t g1 g2 d (Or.inl hd)
    rw [e]
    exact hv
  have sym : ∀ B : ℝ → ℝ, (∀ a b, tmin ≤ a → a ≤ b → b ≤ tmax →
      ‖integrateFunctor .simpson a b (fun x => (s.euclideanEval x).getD 0) n 0 - ∫ x in a..b, (s.euclideanEval x).getD 0‖ ≤ B (b - a)) →
      ‖integrateFunctor .simpson t1 t2 (fun x => (s.euclideanEval x).getD 0) n 0 - ∫ x in t1..t2, (s.euclideanEval x).getD 0‖ ≤
        B |t2 - t1| := by
    intro B hB
    rcases le_total t1 t2 with hle | hle
    · rw [abs_of_nonneg (by linarith)]
      exact hB t1 t2 h1.1 hle h2.2
    · rw [abs_of_nonpos (by linarith), neg_sub, C36_swap .simpson t2 t1 n hn, intervalIntegral.integral_symm, ← neg_sub', norm_neg]
      exact hB t2 t1 h2.1 hle h1.2
  constructor
  · intro ho hM
    refine ⟨_, hval (by omega), sym (fun L => M * L ^ 4 / (72 * ((n : ℝ) - 1) ^ 3)) fun a b ha hab hb => ?_⟩
    have lip := euclideanEvalD_lipschitz h he hmin hmax 2 (by omega) (M := M) hM
    have c0 := (C70_euclidean_continuous order s h he tmin tmax hmin hmax 0 (by omega)).2
    exact C104_simpson_error_second (f1 := fun x => (s.euclideanEvalD none x 1).getD 0) (f2 := fun x => (s.euclideanEvalD none x 2).getD 0)
      hab n hn (c0.mono (Set.Icc_subset_Icc ha hb))
      (fun x hx => ⟨hder 0 (by omega) x (by linarith [hx.1]) (by linarith [hx.2]), hder 1 (by omega) x (by linarith [hx.1]) (by linarith [hx.2])⟩)
      (fun x hx y hy => lip x ⟨by linarith [hx.1], by linarith [hx.2]⟩ y ⟨by linarith [hy.1], by linarith [hy.2]⟩)
  · intro ho hM
    refine ⟨_, hval (by omega), sym (fun L => M * L ^ 5 / (180 * ((n : ℝ) - 1) ^ 4)) fun a b ha hab hb => ?_⟩
    have lip := euclideanEvalD_lipschitz h he hmin hmax 3 (by omega) (M := M) hM
    have c0 := (C70_euclidean_continuous order s h he tmin tmax hmin hmax 0 (by omega)).2
    exact C104_simpson_error (f1 := fun x => (s.euclideanEvalD none x 1).getD 0) (f2 := fun x => (s.euclideanEvalD none x 2).getD 0)
      (f3 := fun x => (s.euclideanEvalD none x 3).getD 0) hab n hn (c0.mono (Set.Icc_subset_Icc ha hb))
      (fun x hx => ⟨hder 0 (by omega) x (by linarith [hx.1]) (by linarith [hx.2]), hder 1 (by omega) x (by linarith [hx.1]) (by linarith [hx.2]),
        hder 2 (by omega) x (by linarith [hx.1]) (by linarith [hx.2])⟩)
      (fun x hx y hy => lip x ⟨by linarith [hx.1], by linarith [hx.2]⟩ y ⟨by linarith [hy.1], by linarith [hy.2]⟩)

/-- Every derivative of a spline is bounded. -/
theorem euclideanEvalD_bounded {order : ℕ} (ho : 1 ≤ order) {s : MSpline ℝ P} (h : RegularReach (euclidean ℝ P) order s)
    (he : s.state = .evaluable) (d : ℕ) : ∃ M, 0 ≤ M ∧ ∀ t v, s.euclideanEvalD none t d = .ok v → ‖v‖ ≤ M := by
  obtain ⟨hw, rfl⟩ := h.mwf ho
  have hb : ∀ i : ℕ, ∃ M, 0 ≤ M ∧ ∀ t ∈ Set.Icc (s.kn i) (s.kn (i + 1)), ‖s.segSum i d t‖ ≤ M := by
    intro i
    have hc : Continuous (s.segSum i d) := continuous_iff_continuousAt.2 fun x => (s.segSum_deriv i d x).continuousAt
    obtain ⟨M, hM⟩ := (isCompact_Icc (a := s.kn i) (b := s.kn (i + 1))).exists_bound_of_continuousOn hc.continuousOn
    exact ⟨max M 0, le_max_right _ _, fun t ht => (hM t ht).trans (le_max_left _ _)⟩
  choose M h0 hM using hb
  refine ⟨∑ i ∈ range s.keys.length, M i, sum_nonneg fun i _ => h0 i, fun t v hv => ?_⟩
  rcases evaluable_total hw he t with ⟨i, hi⟩ | ht
  · rw [euclideanEvalD_eq hw he hi none d (by simp), Outcome.ok.injEq] at hv
    subst hv
    refine (hM i t ⟨hi.left, hi.right_le⟩).trans ?_
    have hu := hi.upper
    exact single_le_sum (f := M) (fun j _ => h0 j) (mem_range.2 (by omega))
  · unfold euclideanEvalD at hv
    rw [evaluatorAt_throws hw t (Or.inr ht)] at hv
    cases hv

/-- **C104**: along every spline the error of numerical integration goes down with the third power of the number of points at least, and
with the fourth power if the order is five or more; one constant serves for all bounds and all numbers of points. -/
theorem C104_spline_rate (order : ℕ) (ho : 4 ≤ order) (s : MSpline ℝ P) (h : RegularReach (euclidean ℝ P) order s)
    (he : s.state = .evaluable) (tmin tmax : ℝ) (hmin : s.getMinTime = .ok tmin) (hmax : s.getMaxTime = .ok tmax) :
    ∃ C : ℝ, ∀ t1 t2, tmin ≤ t1 → t1 ≤ tmax → tmin ≤ t2 → t2 ≤ tmax → ∀ n : ℤ, 2 ≤ n → ∃ v, s.integralNumerically t1 t2 n = .ok v ∧
      ‖v - ∫ x in t1..t2, (s.euclideanEval x).getD 0‖ ≤ C / ((n : ℝ) - 1) ^ (if 5 ≤ order then 4 else 3) := by
  have hfrac : ∀ (M L T c x : ℝ) (k : ℕ), 0 ≤ M → 0 ≤ L → L ≤ T → 1 ≤ c → 1 ≤ x →
      M * L ^ (k + 1) / (c * x ^ k) ≤ M * T ^ (k + 1) / x ^ k := by
    intro M L T c x k hM hL hT hc hx
    have hx' : 0 < x ^ k := by positivity
    have h1 := pow_le_pow_left₀ hL hT (k + 1)
    have h2 := mul_le_mul_of_nonneg_left h1 hM
    rw [div_le_div_iff₀ (by positivity) hx']
    have h3 : 0 ≤ M * T ^ (k + 1) := le_trans (by positivity) h2
    nlinarith [mul_le_mul_of_nonneg_right h2 hx'.le, mul_nonneg (mul_nonneg h3 hx'.le) (sub_nonneg.2 hc)]
  have hlen : ∀ t1 t2, tmin ≤ t1 → t1 ≤ tmax → tmin ≤ t2 → t2 ≤ tmax → |t2 - t1| ≤ tmax - tmin := fun t1 t2 a b c d =>
    abs_le.2 ⟨by linarith, by linarith⟩
  have hx : ∀ n : ℤ, 2 ≤ n → (1 : ℝ) ≤ (n : ℝ) - 1 := by
    intro n hn
    have : (2 : ℝ) ≤ n := by exact_mod_cast hn
    linarith
  by_cases h5 : 5 ≤ order
  · obtain ⟨M, hM0, hM⟩ := euclideanEvalD_bounded (by omega) h he 4
    refine ⟨M * (tmax - tmin) ^ 5, fun t1 t2 a1 a2 a3 a4 n hn => ?_⟩
    obtain ⟨v, e, hv⟩ := (C104_spline_error order s h he tmin tmax hmin hmax t1 t2 ⟨a1, a2⟩ ⟨a3, a4⟩ n hn M).2 h5
      (fun t v _ _ hv => hM t v hv)
    refine ⟨v, e, hv.trans ?_⟩
    rw [if_pos h5]
    exact hfrac M _ _ 180 _ 4 hM0 (abs_nonneg _) (hlen t1 t2 a1 a2 a3 a4) (by norm_num) (hx n hn)
  · obtain ⟨M, hM0, hM⟩ := euclideanEvalD_bounded (by omega) h he 3
    refine ⟨M * (tmax - tmin) ^ 4, fun t1 t2 a1 a2 a3 a4 n hn => ?_⟩
    obtain ⟨v, e, hv⟩ := (C104_spline_error order s h he tmin tmax hmin hmax t1 t2 ⟨a1, a2⟩ ⟨a3, a4⟩ n hn M).1 ho
      (fun t v _ _ hv => hM t v hv)
    refine ⟨v, e, hv.trans ?_⟩
    rw [if_neg h5]
    exact hfrac M _ _ 72 _ 3 hM0 (abs_nonneg _) (hlen t1 t2 a1 a2 a3 a4) (by norm_num) (hx n hn)

end Real

/-! ### Examples -/

/-- C104 applies to a cubic spline: it converges from a bound to another, backwards too; outside the range it throws. -/
example : ∃ s : MSpline ℝ ℝ, s.verts.take 5 = [1, -2, 5, 7, 0] ∧
    (∃ C : ℝ, ∀ n : ℤ, 2 ≤ n → ∃ v, s.integralNumerically 5 3 n = .ok v ∧
      ‖v - ∫ x in (5 : ℝ)..3, (s.euclideanEval x).getD 0‖ ≤ C / ((n : ℝ) - 1) ^ 3) ∧
    Filter.Tendsto (fun n : ℕ => (s.integralNumerically (7 / 2) (9 / 2) n).getD 0) Filter.atTop
      (nhds (∫ x in (7 / 2 : ℝ)..(9 / 2), (s.euclideanEval x).getD 0)) ∧
    s.integralNumerically 3 6 9 = .throws ∧ s.integralNumerically 6 6 9 = .ok 0 := by
  obtain ⟨s, -, g1, g2, g3, g4, g5, g6, g7⟩ := C55_init_with_vertices (euclidean ℝ ℝ) 4 (by norm_num) [0, 1, 2, 3, 4, 5, 6, 7, 8]
    [1, -2, 5, 7, 0] (by simp [List.pairwise_cons]; norm_num) rfl (by decide) (fun _ _ => rfl)
  have g6' : s.getMinTime = .ok 3 := g6
  have g7' : s.getMaxTime = .ok 5 := g7
  refine ⟨s, g5, ?_, ?_, ?_, ?_⟩
  · obtain ⟨C, hC⟩ := C104_spline_rate 4 le_rfl s g1 g2 3 5 g6' g7'
    exact ⟨C, hC 5 3 (by norm_num) (by norm_num) (by norm_num) (by norm_num)⟩
  · exact (C104_spline_converges 4 (by norm_num) s g1 g2 3 5 g6' g7' (7 / 2) (9 / 2) (by norm_num) (by norm_num)).2.1
  · exact ((C104_spline_total 4 (by norm_num) s g1 3 6 9 (by norm_num)).2.2 g2 3 5 g6' g7').1 (by norm_num) (by norm_num)
  · exact (C104_spline_total 4 (by norm_num) s g1 6 6 9 (by norm_num)).1 rfl

/-- The bounds for splines hold for the third and the fourth derivative of a spline of order five. -/
example : ∃ (s : MSpline ℝ ℝ) (M : ℝ), s.verts.take 5 = [1, -2, 5, 7, 0] ∧
    ∀ n : ℤ, 2 ≤ n → ∃ v, s.integralNumerically 4 5 n = .ok v ∧
      ‖v - ∫ x in (4 : ℝ)..5, (s.euclideanEval x).getD 0‖ ≤ M * |5 - 4| ^ 5 / (180 * ((n : ℝ) - 1) ^ 4) := by
  obtain ⟨s, -, g1, g2, g3, g4, g5, g6, g7⟩ := C55_init_with_vertices (euclidean ℝ ℝ) 5 (by norm_num) [0, 1, 2, 3, 4, 5, 6, 7, 8, 9]
    [1, -2, 5, 7, 0] (by simp [List.pairwise_cons]; norm_num) rfl (by decide) (fun _ _ => rfl)
  obtain ⟨M, -, hM⟩ := euclideanEvalD_bounded (by norm_num) g1 g2 4
  exact ⟨s, M, g5, fun n hn => (C104_spline_error 5 s g1 g2 4 5 g6 g7 4 5 (by norm_num) (by norm_num) n hn M).2 le_rfl
    fun t v _ _ hv => hM t v hv⟩

end MSpline

/-- The bound of the trapezoidal rule is attained by a parabola. -/
example : ‖integrateFunctor .trapezoidal (0 : ℝ) 1 (fun x => x ^ 2) 2 0 - ∫ x in (0 : ℝ)..1, x ^ 2‖ = 2 * (1 - 0) ^ 3 / (12 * (((2 : ℤ) : ℝ) - 1) ^ 2) ∧
    ‖integrateFunctor .trapezoidal (0 : ℝ) 1 (fun x => x ^ 2) 2 0 - ∫ x in (0 : ℝ)..1, x ^ 2‖ ≤ 2 * (1 - 0) ^ 3 / (12 * (((2 : ℤ) : ℝ) - 1) ^ 2) := by
  constructor
  · norm_num [integrateFunctor, Rule.maxIndex, Rule.numPoints, Rule.point, Rule.valueFactor, Rule.commonFactor, Rule.stepSize, List.range_succ,
      integral_pow]
  · refine C104_trapezoidal_error (f1 := fun x => 2 * x) (by norm_num) 2 le_rfl (by fun_prop) (fun x _ => ?_) (fun x _ y _ => ?_)
    · simpa using hasDerivAt_pow 2 x
    · rw [← mul_sub, norm_mul]
      simp

/-- The bound of Simpson's rule is attained by a polynomial of degree four. -/
example : ‖integrateFunctor .simpson (0 : ℝ) 1 (fun x => x ^ 4) 3 0 - ∫ x in (0 : ℝ)..1, x ^ 4‖ = 24 * (1 - 0) ^ 5 / (180 * (((3 : ℤ) : ℝ) - 1) ^ 4) ∧
    ‖integrateFunctor .simpson (0 : ℝ) 1 (fun x => x ^ 4) 3 0 - ∫ x in (0 : ℝ)..1, x ^ 4‖ ≤ 24 * (1 - 0) ^ 5 / (180 * (((3 : ℤ) : ℝ) - 1) ^ 4) := by
  constructor
  · obtain ⟨N, h1, h2, h3⟩ := simpson_panels (0 : ℝ) 1 (by norm_num) (fun x : ℝ => x ^ 4) 3 (by norm_num) 0
    obtain rfl : N = 1 := by omega
    rw [h3]
    norm_num [integral_pow]
  · refine C104_simpson_error (f1 := fun x => 4 * x ^ 3) (f2 := fun x => 12 * x ^ 2) (f3 := fun x => 24 * x) (by norm_num) 3 (by norm_num)
      (by fun_prop) (fun x _ => ⟨?_, ?_, ?_⟩) (fun x _ y _ => ?_)
    · simpa using hasDerivAt_pow 4 x
    · exact ((hasDerivAt_pow 3 x).const_mul 4).congr_deriv (by norm_num; ring)
    · exact ((hasDerivAt_pow 2 x).const_mul 12).congr_deriv (by norm_num; ring)
    · rw [← mul_sub, norm_mul]
      simp

/-- The bound from the modulus of continuity holds for an integrand without derivative in the middle. -/
example : ‖integrateFunctor .simpson (0 : ℝ) 2 (fun x => |x - 1|) 5 0 - ∫ x in (0 : ℝ)..2, |x - 1|‖ ≤ 1 / 2 * (2 - 0) := by
  refine C104_modulus (by norm_num) .simpson 5 (by norm_num) (by fun_prop) fun x _ y _ hxy => ?_
  rw [Real.norm_eq_abs]
  refine (abs_abs_sub_abs_le_abs_sub _ _).trans ?_
  rw [show x - 1 - (y - 1) = x - y by ring]
  exact hxy.trans (by norm_num)

end Verif
