import Verif.Props.Calculus
import Mathlib.Analysis.Calculus.FDeriv.Extend

/-!
# Derivatives at the knots (C04)

`C04_derivative` covers the inside of the segments and the one sided derivatives.  Here: at every interior knot of low enough
multiplicity the evaluated derivative is a two sided derivative as well.
-/

set_option linter.unusedSectionVars false

namespace Verif

open Finset Polynomial Filter Topology BSpline

variable {D : ℕ}

/-- Specification: `t` lies inside a segment of `s`, or it is an interior knot that is repeated at most `order - 2 - der` times, so that the
curve has `der + 1` derivatives there. -/
def BSpline.Regular (s : BSpline ℝ D) (der : ℕ) (t : ℝ) : Prop :=
  (∃ seg a b, s.timeIntervalOf seg = .ok (a, b) ∧ a < t ∧ t < b) ∨
  (∃ m μ, s.order ≤ m ∧ 1 ≤ μ ∧ m + μ ≤ s.knots.length - s.order ∧ s.kn (m - 1) < t ∧ t < s.kn (m + μ) ∧
    (∀ l, m ≤ l → l < m + μ → s.kn l = t) ∧ der + μ + 2 ≤ s.order)

theorem timeIntervalOf_knot {s : BSpline ℝ D} (h : s.WF) {i : ℕ} (h1 : s.order - 1 ≤ i) (h2 : i + 1 ≤ s.knots.length - s.order) :
    s.timeIntervalOf ((i + 1 - s.order : ℕ) : ℤ) = .ok (s.kn i, s.kn (i + 1)) := by
  have hk := h.order_pos
  have hn := h.enough
  unfold timeIntervalOf numValidTimeSegments numValidTimeSegmentsOf minimumKnotsRequired numKnotsRequired numCoefficientsRequired
  rw [if_neg (by omega), if_neg (by push Not; constructor <;> omega), Int.toNat_natCast,
    show s.order + (i + 1 - s.order) - 1 = i by omega, show s.order + (i + 1 - s.order) = i + 1 by omega]

/-- **C04**, everywhere: inside the segments and at every interior knot of low enough multiplicity the spline is defined around `t`
and the derivative query of order `der + 1` is the (two sided) derivative of the query of order `der`. -/
theorem C04_regular (s : BSpline ℝ D) (h : s.WF) (hw : s.WideLast) (der : ℕ) (t : ℝ) (ht : s.Regular der t) :
    (∀ᶠ x in 𝓝 t, ∃ v, s.evalD x der = .ok v) ∧
    ∃ v, s.evalD t (der + 1) = .ok v ∧ HasDerivAt (fun x => (s.evalD x der).getD 0) v t := by
  have hk := h.order_pos
  have hn := h.enough
  have hmono := h.mono
  rcases ht with ⟨seg, a, b, hseg, h1, h2⟩ | ⟨m, μ, hm1, hmu, hm2, hl, hr, heq, hd⟩
  · refine ⟨?_, (C04_derivative s h hw der seg a b t hseg).1 h1 h2⟩
    filter_upwards [Ioo_mem_nhds h1 h2] with x hx
    obtain ⟨i, j1, j2, rfl, rfl, -⟩ := timeIntervalOf_eq h hseg
    exact ⟨_, evalD_on_segment h hw j1 j2 der x hx.1.le (Or.inl hx.2)⟩
  · have hwide := WideLast.wide h hw
    have hend : t + 1 / 10 ^ 10 ≤ s.kn (s.knots.length - s.order) := by
      have h1 : s.kn (m + μ - 1) = t := heq _ (by omega) (by omega)
      have h2 : s.kn (m + μ - 1) ≤ s.kn (s.knots.length - s.order - 1) := hmono _ _ (by omega) (by omega)
      have : (snapTol : ℝ) = 1 / 10 ^ 10 := rfl
      rw [this] at hwide
      linarith
    -- the segments on the left and on the right
    have hsegL := timeIntervalOf_knot h (i := m - 1) (by omega) (by omega)
    have hsegR := timeIntervalOf_knot h (i := m + μ - 1) (by omega) (by omega)
    rw [show m - 1 + 1 = m by omega, heq m le_rfl (by omega)] at hsegL
    rw [show m + μ - 1 + 1 = m + μ by omega, heq (m + μ - 1) (by omega) (by omega)] at hsegR
    obtain ⟨v, hv, hright⟩ := (C04_derivative s h hw der _ _ _ t hsegR).2.1 rfl hr
    obtain ⟨v0, hv0, hlim0, hdef0⟩ := C05_smooth_at_knots s h m μ der t _ hm1 hmu hm2 hl hr heq (tMax_eq h) hend (by omega)
    obtain ⟨v1, hv1, hlim1, -⟩ := C05_smooth_at_knots s h m μ (der + 1) t _ hm1 hmu hm2 hl hr heq (tMax_eq h) hend (by omega)
    have hcast : s.evalD t ((der + 1 : ℕ) : ℤ) = s.evalD t ((der : ℤ) + 1) := by push_cast; rfl
    obtain rfl : v1 = v := by
      rw [hcast, hv] at hv1
      exact (Outcome.ok.inj hv1).symm
    refine ⟨?_, v1, hv, ?_⟩
    · have hR : ∀ᶠ x in 𝓝[≥] t, ∃ v, s.evalD x der = .ok v := by
        filter_upwards [Ico_mem_nhdsGE hr] with x hx
        obtain ⟨i, j1, j2, e1, e2, -⟩ := timeIntervalOf_eq h hsegR
        exact ⟨_, evalD_on_segment h hw j1 j2 der x (e1 ▸ hx.1) (Or.inl (e2 ▸ hx.2))⟩
      rw [← nhdsLT_sup_nhdsGE t]
      exact eventually_sup.2 ⟨hdef0, hR⟩
    · have hleft : HasDerivWithinAt (fun x => (s.evalD x der).getD 0) v1 (Set.Iic t) t := by
        refine hasDerivWithinAt_Iic_of_tendsto_deriv (s := Set.Ioo (s.kn (m - 1)) t) ?_ ?_ (Ioo_mem_nhdsLT hl) ?_
        · intro x hx
          obtain ⟨w, -, hw'⟩ := (C04_derivative s h hw der _ _ _ x hsegL).1 hx.1 hx.2
          exact hw'.differentiableAt.differentiableWithinAt
        · unfold ContinuousWithinAt
          beta_reduce
          rw [hv0, Outcome.getD_ok]
          exact hlim0.mono_left (nhdsWithin_mono _ fun x hx => hx.2)
        · refine hlim1.congr' ?_
          filter_upwards [Ioo_mem_nhdsLT hl] with x hx
          obtain ⟨w, hw1, hw2⟩ := (C04_derivative s h hw der _ _ _ x hsegL).1 hx.1 hx.2
          rw [hw2.deriv]
          have : s.evalD x ((der + 1 : ℕ) : ℤ) = .ok w := by push_cast; exact hw1
          rw [this, Outcome.getD_ok]
      have := hleft.union hright
      rwa [Set.Iic_union_Ici, hasDerivWithinAt_univ] at this

/-- The double knot 3 of the example spline of order four. -/
example : exReal.WF ∧ exReal.WideLast ∧ exReal.Regular 0 3 := by
  refine ⟨exReal_wf, exReal_wide, Or.inr ⟨4, 2, by decide, by decide, by decide, ?_, ?_, ?_, by decide⟩⟩
  · show (2 : ℝ) < 3; norm_num
  · show (3 : ℝ) < 4; norm_num
  · intro l h1 h2
    obtain rfl | rfl : l = 4 ∨ l = 5 := by omega
    · rfl
    · rfl

end Verif
