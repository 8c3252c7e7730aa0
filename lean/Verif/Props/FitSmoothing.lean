import Verif.Props.FitDetermined

/-!
# Property C110: how a fit depends on the weight of the regularisation and on its data
-/

set_option linter.unusedSectionVars false

namespace Verif

open Finset Polynomial BSpline MeasureTheory

variable {D : ℕ}

/-- The sum of the squared distances of the curve from the data. -/
noncomputable def Spec.misfit (s : BSpline ℝ D) (data : List (ℝ × (Fin D → ℝ))) : ℝ :=
  (data.map fun o => ∑ d, ((s.eval o.1).getD 0 d - o.2 d) ^ 2).sum

/-- The integral of the squared derivative that the fits penalise: the second, for order two the first. -/
noncomputable def Spec.bending (s : BSpline ℝ D) (lo hi : ℝ) : ℝ :=
  ∫ t in lo..hi, ∑ d, ((s.evalD t (if s.order = 2 then 1 else 2 : ℕ)).getD 0 d) ^ 2

/-- What a caller must provide for a fit over given knots. -/
structure GivenKnots (s : BSpline ℝ D) (data : List (ℝ × (Fin D → ℝ))) (knots : List ℝ) : Prop where
  order : 2 ≤ s.order
  dim : 1 ≤ D
  two : 2 ≤ data.length
  sorted : (data.map Prod.fst).Pairwise (· ≤ ·)
  knots_sorted : knots.Pairwise (· ≤ ·)
  enough : 2 * s.order ≤ knots.length
  old : s.knots.length ≤ knots.length
  wide : 1 / 10 ^ 10 ≤ knots.getD (knots.length - s.order) 0 - knots.getD (knots.length - s.order - 1) 0
  within : ∀ o ∈ data, knots.getD (s.order - 1) 0 ≤ o.1 ∧ o.1 ≤ knots.getD (knots.length - s.order) 0

/-- The spline is the result of one of the three regularised fits, with some solver and some spline before. -/
def FitResult (data : List (ℝ × (Fin D → ℝ))) (lambda : ℝ) (s' : BSpline ℝ D) : Prop :=
  ∃ (solve : Solver ℝ) (s : BSpline ℝ D), SolvesSemidefinite solve ∧
    ((∃ n : ℕ, FitInput s data n ∧ (s.initSpline3 solve data n lambda = .ok s' ∨ s.initSplineSparse solve data n lambda = .ok s')) ∨
      ∃ knots, GivenKnots s data knots ∧ s.initSplineSparseKnots solve data knots lambda = .ok s')

/-- What all of them have in common. -/
structure Fitted (data : List (ℝ × (Fin D → ℝ))) (lambda : ℝ) (s : BSpline ℝ D) : Prop where
  wf : s.WF
  wide : s.WideLast
  order : 2 ≤ s.order
  within : ∀ o ∈ data, s.kn (s.order - 1) ≤ o.1 ∧ o.1 ≤ s.kn (s.knots.length - s.order)
  minimal : Minimal data lambda (penalty s.order) (s.kn (s.order - 1)) (s.kn (s.knots.length - s.order)) s

theorem FitResult.fitted {data : List (ℝ × (Fin D → ℝ))} {lambda : ℝ} (hl : 0 ≤ lambda) {s' : BSpline ℝ D} (h : FitResult data lambda s') :
    Fitted data lambda s' := by
  obtain ⟨solve, s, hsolve, ⟨n, hin, h⟩ | ⟨knots, hin, h⟩⟩ := h
  · obtain ⟨b, b1, b2, b3, b4, b5⟩ := fit_minimal solve hsolve s data n hin lambda hl
    obtain rfl : b = s' := by
      rcases h with h | h
      · exact Outcome.ok.inj (b1.symm.trans h)
      · exact Outcome.ok.inj (b2.symm.trans h)
    obtain ⟨g1, g2, g3, g4⟩ := b4.facts b3 hin.segments hin.wide
    refine ⟨b3, g3, by rw [b4.order_eq]; exact hin.order, fun o ho => ?_, b5⟩
    rw [g1, g2]
    exact times_between data hin.sorted o ho
  · obtain ⟨b, a1, a2, a3, a4, a5⟩ := C19_given_knots_optimal solve hsolve s hin.order hin.dim data hin.two hin.sorted knots hin.knots_sorted
      hin.enough hin.old hin.wide hin.within lambda hl
    obtain rfl : b = s' := Outcome.ok.inj (a1.symm.trans h)
    have h2 := hin.enough
    have h3 := hin.order
    have hkn : ∀ i, b.kn i = knots.getD i 0 := fun i => by unfold kn; rw [a4]
    have hw : b.WideLast := by
      intro x y hxy
      obtain ⟨i, i1, i2, rfl, rfl, i3⟩ := timeIntervalOf_eq a2 hxy
      unfold numValidTimeSegments numValidTimeSegmentsOf at i3
      rw [a3, a4] at i3
      have e : i = knots.length - s.order - 1 := by omega
      subst e
      rw [hkn, hkn, show knots.length - s.order - 1 + 1 = knots.length - s.order by omega]
      exact hin.wide
    have hdata : ∀ o ∈ data, b.kn (b.order - 1) ≤ o.1 ∧ o.1 ≤ b.kn (b.knots.length - b.order) := by
      rw [hkn, hkn, a3, a4]; exact hin.within
    refine ⟨a2, hw, by rw [a3]; exact hin.order, hdata, minimal_of_lists a2 hw hdata fun cs hcs => ?_⟩
    rw [hkn, hkn]
    have := a5 cs hcs
    rw [← a3] at this
    rw [show knots.length = b.knots.length by rw [a4]] at this
    exact this

theorem fitCost_spec (s : BSpline ℝ D) (data : List (ℝ × (Fin D → ℝ))) (lambda lo hi : ℝ) :
    fitCost s data lambda (penalty s.order) lo hi = Spec.misfit s data + lambda * Spec.bending s lo hi := rfl

/-- **C110**: a larger weight gives a smoother curve that is farther away from the data. -/
theorem C110_weight (data : List (ℝ × (Fin D → ℝ))) (l₁ l₂ : ℝ) (h0 : 0 ≤ l₁) (h12 : l₁ < l₂) (s₁ s₂ : BSpline ℝ D)
    (h₁ : FitResult data l₁ s₁) (h₂ : FitResult data l₂ s₂) (ho : s₂.order = s₁.order) (hk : s₂.knots = s₁.knots) (lo hi : ℝ)
    (hlo : s₁.tMin = .ok lo) (hhi : s₁.tMax = .ok hi) :
    Spec.misfit s₁ data ≤ Spec.misfit s₂ data ∧ Spec.bending s₂ lo hi ≤ Spec.bending s₁ lo hi := by
  have f₁ := h₁.fitted h0
  have f₂ := h₂.fitted (h0.trans h12.le)
  rw [tMin_eq f₁.wf, Outcome.ok.injEq] at hlo
  rw [tMax_eq f₁.wf, Outcome.ok.injEq] at hhi
  subst hlo hhi
  have hsh : SharedKnots s₁ s₂ := ⟨f₂.wf, ho, hk⟩
  have m₁ := f₁.minimal s₂ hsh
  have m₂ := f₂.minimal s₁ ⟨f₁.wf, ho.symm, hk.symm⟩
  rw [hsh.kn_eq, ho, hk] at m₂
  rw [fitCost_spec] at m₁
  rw [← ho, fitCost_spec, ho] at m₁
  rw [fitCost_spec] at m₂
  rw [← ho, fitCost_spec, ho] at m₂
  set R₁ := Spec.bending s₁ (s₁.kn (s₁.order - 1)) (s₁.kn (s₁.knots.length - s₁.order))
  set R₂ := Spec.bending s₂ (s₁.kn (s₁.order - 1)) (s₁.kn (s₁.knots.length - s₁.order))
  have hR : R₂ ≤ R₁ := by
    by_contra hcon
    nlinarith
  exact ⟨by nlinarith, hR⟩

theorem sum_expand {α : Type*} (l : List α) (f g h : α → ℝ) (c : ℝ) (e : ∀ o ∈ l, f o = g o + c * h o) :
    (l.map f).sum = (l.map g).sum + c * (l.map h).sum := by
  rw [← List.sum_map_mul_left, ← List.sum_map_add, List.map_congr_left e]

/-- **C110**: what is left of the data: the squares of the data are those of the values of the curve, of the residuals, and twice the penalty.
In particular the values of the curve at the data times are not larger than the data. -/
theorem C110_energy (data : List (ℝ × (Fin D → ℝ))) (lambda : ℝ) (hl : 0 ≤ lambda) (s : BSpline ℝ D) (h : FitResult data lambda s) (lo hi : ℝ)
    (hlo : s.tMin = .ok lo) (hhi : s.tMax = .ok hi) :
    (data.map fun o => ∑ d, o.2 d ^ 2).sum =
      (data.map fun o => ∑ d, ((s.eval o.1).getD 0 d) ^ 2).sum + Spec.misfit s data + 2 * (lambda * Spec.bending s lo hi) := by
  have f := h.fitted hl
  rw [tMin_eq f.wf, Outcome.ok.injEq] at hlo
  rw [tMax_eq f.wf, Outcome.ok.injEq] at hhi
  subst hlo hhi
  have m := (minimal_iff f.wf f.wide data f.within lambda hl _).1 f.minimal s ⟨f.wf, rfl, rfl⟩
  unfold slope at m
  have hb : (∫ t in (s.kn (s.order - 1))..(s.kn (s.knots.length - s.order)), ∑ d, val s t (penalty s.order) d * val s t (penalty s.order) d) =
      Spec.bending s (s.kn (s.order - 1)) (s.kn (s.knots.length - s.order)) := by
    unfold Spec.bending
    refine intervalIntegral.integral_congr fun t _ => sum_congr rfl fun d _ => ?_
    rw [sq]
    rfl
  rw [hb] at m
  have e : (data.map fun o => ∑ d, ((s.eval o.1).getD 0 d) ^ 2).sum + Spec.misfit s data =
      (data.map fun o => ∑ d, o.2 d ^ 2).sum + 2 * (data.map fun o => ∑ d, (val s o.1 0 d - o.2 d) * val s o.1 0 d).sum := by
    unfold Spec.misfit
    rw [← List.sum_map_add]
    refine sum_expand data _ _ _ 2 fun o _ => ?_
    rw [mul_sum, ← sum_add_distrib, ← sum_add_distrib]
    refine sum_congr rfl fun d _ => ?_
    have : val s o.1 0 d = (s.eval o.1).getD 0 d := rfl
    rw [this]
    ring
  linarith

/-- **C110**: fits to other values at the same times do not differ more than the values. -/
theorem C110_stable (data : List (ℝ × (Fin D → ℝ) × (Fin D → ℝ))) (lambda : ℝ) (hl : 0 ≤ lambda) (s r : BSpline ℝ D)
    (h : FitResult (data.map fun o => (o.1, o.2.1)) lambda s) (h' : FitResult (data.map fun o => (o.1, o.2.2)) lambda r)
    (ho : r.order = s.order) (hk : r.knots = s.knots) :
    (data.map fun o => ∑ d, ((s.eval o.1).getD 0 d - (r.eval o.1).getD 0 d) ^ 2).sum ≤ (data.map fun o => ∑ d, (o.2.1 d - o.2.2 d) ^ 2).sum := by
  have f := h.fitted hl
  have f' := h'.fitted hl
  have hsh : SharedKnots s r := ⟨f'.wf, ho, hk⟩
  have hmul := f.wf.mono
  have hn := f.wf.enough
  have ho2 := f.order
  have hle : s.kn (s.order - 1) ≤ s.kn (s.knots.length - s.order) := hmul _ _ (by omega) (by omega)
  set q := comb s r 1 (-1) with hq
  have hsq : SharedKnots s q := comb_same f.wf hsh 1 (-1)
  have hrq : SharedKnots r q := ⟨hsq.wf, ho.symm, hk.symm⟩
  have m := (minimal_iff f.wf f.wide _ f.within lambda hl _).1 f.minimal q hsq
  have m' := (minimal_iff f'.wf f'.wide _ f'.within lambda hl _).1 f'.minimal q hrq
  rw [hsh.kn_eq, ho, hk] at m'
  have hin : ∀ o ∈ data, s.kn (s.order - 1) ≤ o.1 ∧ o.1 ≤ s.kn (s.knots.length - s.order) := fun o ho =>
    f.within (o.1, o.2.1) (List.mem_map.2 ⟨o, ho, rfl⟩)
  have hv : ∀ t, s.kn (s.order - 1) ≤ t → t ≤ s.kn (s.knots.length - s.order) → ∀ (der : ℕ) d, val q t der d = val s t der d - val r t der d := by
    intro t t1 t2 der d
    rw [hq, val_comb f.wf f.wide hsh 1 (-1) t t1 t2 der]
    simp
    ring
  unfold slope at m m'
  rw [List.map_map] at m m'
  change (data.map fun o => ∑ d, (val s o.1 0 d - o.2.1 d) * val q o.1 0 d).sum + _ = 0 at m
  change (data.map fun o => ∑ d, (val r o.1 0 d - o.2.2 d) * val q o.1 0 d).sum + _ = 0 at m'
  -- the difference of the two conditions
  have hint : (∫ t in (s.kn (s.order - 1))..(s.kn (s.knots.length - s.order)), ∑ d, val s t (penalty s.order) d * val q t (penalty s.order) d) -
      (∫ t in (s.kn (s.order - 1))..(s.kn (s.knots.length - s.order)), ∑ d, val r t (penalty s.order) d * val q t (penalty s.order) d) =
      ∫ t in (s.kn (s.order - 1))..(s.kn (s.knots.length - s.order)), ∑ d, val q t (penalty s.order) d ^ 2 := by
    have i1 := val_mul_integrable f.wf f.wide hsq (penalty s.order)
    have i2 := val_mul_integrable f'.wf f'.wide hrq (penalty s.order)
    rw [hsh.kn_eq, ho, hk] at i2
    rw [← intervalIntegral.integral_sub i1 i2]
    refine intervalIntegral.integral_congr fun t ht => ?_
    rw [Set.uIcc_of_le hle] at ht
    rw [← sum_sub_distrib]
    refine sum_congr rfl fun d _ => ?_
    rw [hv t ht.1 ht.2]
    ring
  have hpos : 0 ≤ ∫ t in (s.kn (s.order - 1))..(s.kn (s.knots.length - s.order)), ∑ d, val q t (penalty s.order) d ^ 2 :=
    intervalIntegral.integral_nonneg hle fun t _ => sum_nonneg fun d _ => sq_nonneg _
  have hsum : (data.map fun o => ∑ d, ((s.eval o.1).getD 0 d - (r.eval o.1).getD 0 d) ^ 2).sum +
      (data.map fun o => ∑ d, ((s.eval o.1).getD 0 d - (r.eval o.1).getD 0 d - (o.2.1 d - o.2.2 d)) ^ 2).sum =
      (data.map fun o => ∑ d, (o.2.1 d - o.2.2 d) ^ 2).sum + 2 *
        ((data.map fun o => ∑ d, (val s o.1 0 d - o.2.1 d) * val q o.1 0 d).sum +
          (-1) * (data.map fun o => ∑ d, (val r o.1 0 d - o.2.2 d) * val q o.1 0 d).sum) := by
    rw [← List.sum_map_add, ← sum_expand data _ _ _ (-1) fun o _ => rfl]
    refine sum_expand data _ _ _ 2 fun o ho => ?_
    rw [mul_add, mul_sum, mul_sum, mul_sum, ← sum_add_distrib, ← sum_add_distrib, ← sum_add_distrib]
    refine sum_congr rfl fun d _ => ?_
    rw [hv o.1 (hin o ho).1 (hin o ho).2]
    have e1 : val s o.1 0 d = (s.eval o.1).getD 0 d := rfl
    have e2 : val r o.1 0 d = (r.eval o.1).getD 0 d := rfl
    rw [e1, e2]
    ring
  have hnn : 0 ≤ (data.map fun o => ∑ d, ((s.eval o.1).getD 0 d - (r.eval o.1).getD 0 d - (o.2.1 d - o.2.2 d)) ^ 2).sum := by
    refine List.sum_nonneg fun x hx => ?_
    obtain ⟨o, -, rfl⟩ := List.mem_map.1 hx
    exact sum_nonneg fun d _ => sq_nonneg _
  have := mul_nonneg hl hpos
  rw [← hint] at this
  linarith

/-- A spline over the same knots that is a given polynomial. -/
theorem exists_polynomial {s : BSpline ℝ D} (h : s.WF) (hw : s.WideLast) (P : Fin D → ℝ[X]) (hP : ∀ d, (P d).natDegree < s.order) :
    ∃ q : BSpline ℝ D, SharedKnots s q ∧ ∀ t, s.kn (s.order - 1) ≤ t → t ≤ s.kn (s.knots.length - s.order) → ∀ (der : ℕ) d,
      val q t der d = (derivative^[der] (P d)).eval t := by
  obtain ⟨cs, hcs, hev⟩ := C76_reproduces s h P hP
  refine ⟨BSpline.mk (K := ℝ) s.order s.knots cs s.basis, ⟨WF.withCoeffs h cs hcs, rfl, rfl⟩, fun t t1 t2 der d => ?_⟩
  unfold val
  rw [hev t (admissible_of_wide t (WideLast.wide h hw) t1 t2) der]
  rfl

/-- **C110**: the residuals are orthogonal to all polynomials that the penalty does not see.  So with penalty the residuals have sum zero, and
from order three on the sum of the residuals times their times is zero, too. -/
theorem C110_moments (data : List (ℝ × (Fin D → ℝ))) (lambda : ℝ) (hl : 0 ≤ lambda) (s : BSpline ℝ D) (h : FitResult data lambda s)
    (P : Fin D → ℝ[X]) (hP : ∀ d, (P d).natDegree < s.order) (hder : lambda = 0 ∨ ∀ d, (P d).natDegree < if s.order = 2 then 1 else 2) :
    (data.map fun o => ∑ d, ((s.eval o.1).getD 0 d - o.2 d) * (P d).eval o.1).sum = 0 := by
  have f := h.fitted hl
  obtain ⟨q, hq, hv⟩ := exists_polynomial f.wf f.wide P hP
  have m := (minimal_iff f.wf f.wide data f.within lambda hl _).1 f.minimal q hq
  have hn := f.wf.enough
  have hle : s.kn (s.order - 1) ≤ s.kn (s.knots.length - s.order) := f.wf.mono _ _ (by omega) (by have := f.order; omega)
  unfold slope at m
  have hz : lambda * ∫ t in (s.kn (s.order - 1))..(s.kn (s.knots.length - s.order)), ∑ d, val s t (penalty s.order) d * val q t (penalty s.order) d = 0 := by
    rcases hder with rfl | hd
    · exact zero_mul _
    · refine mul_eq_zero_of_right _ ?_
      rw [intervalIntegral.integral_congr (g := fun _ => 0)]
      · simp
      · intro t ht
        rw [Set.uIcc_of_le hle] at ht
        refine sum_eq_zero fun d _ => ?_
        rw [hv t ht.1 ht.2, iterate_derivative_eq_zero (show (P d).natDegree < penalty s.order from hd d), eval_zero, mul_zero]
  rw [hz, add_zero] at m
  rw [← m]
  congr 1
  refine List.map_congr_left fun o ho => sum_congr rfl fun d _ => ?_
  rw [hv o.1 (f.within o ho).1 (f.within o ho).2]
  rfl

/-- **C110**: the misfit together with the penalty is at most the misfit of any polynomial that the penalty does not see, so with growing
weight the penalised derivative goes to zero while the misfit stays below that of the best such polynomial. -/
theorem C110_polynomial (data : List (ℝ × (Fin D → ℝ))) (lambda : ℝ) (hl : 0 ≤ lambda) (s : BSpline ℝ D) (h : FitResult data lambda s) (lo hi : ℝ)
    (hlo : s.tMin = .ok lo) (hhi : s.tMax = .ok hi) (P : Fin D → ℝ[X]) (hP : ∀ d, (P d).natDegree < s.order)
    (hder : ∀ d, (P d).natDegree < if s.order = 2 then 1 else 2) :
    Spec.misfit s data + lambda * Spec.bending s lo hi ≤ (data.map fun o => ∑ d, ((P d).eval o.1 - o.2 d) ^ 2).sum := by
  have f := h.fitted hl
  rw [tMin_eq f.wf, Outcome.ok.injEq] at hlo
  rw [tMax_eq f.wf, Outcome.ok.injEq] at hhi
  subst hlo hhi
  have hn := f.wf.enough
  have hle : s.kn (s.order - 1) ≤ s.kn (s.knots.length - s.order) := f.wf.mono _ _ (by omega) (by have := f.order; omega)
  obtain ⟨q, hq, hv⟩ := exists_polynomial f.wf f.wide P hP
  have m := f.minimal q hq
  rw [fitCost_spec] at m
  refine m.trans (le_of_eq ?_)
  rw [fitCost_val]
  have hz : (∫ t in (s.kn (s.order - 1))..(s.kn (s.knots.length - s.order)), ∑ d, val q t (penalty s.order) d ^ 2) = 0 := by
    rw [intervalIntegral.integral_congr (g := fun _ => 0)]
    · simp
    · intro t ht
      rw [Set.uIcc_of_le hle] at ht
      refine sum_eq_zero fun d _ => ?_
      rw [hv t ht.1 ht.2, iterate_derivative_eq_zero (show (P d).natDegree < penalty s.order from hder d), eval_zero, sq, mul_zero]
  rw [hz, mul_zero, add_zero]
  congr 1
  refine List.map_congr_left fun o ho => sum_congr rfl fun d _ => ?_
  rw [hv o.1 (f.within o ho).1 (f.within o ho).2]
  rfl

/-! ### Examples -/

/-- Data and weights for which the results exist. -/
theorem example_fit (lambda : ℝ) (hl : 0 ≤ lambda) (data : List (ℝ × (Fin 1 → ℝ))) (ht : data.map Prod.fst = [0, 1, 2, 4]) :
    ∃ s : BSpline ℝ 1, FitResult data lambda s ∧ s.order = 3 ∧ s.knots.length = 7 ∧ (∀ i < 7, s.kn i = 2 * (i - 2)) ∧
      s.tMin = .ok 0 ∧ s.tMax = .ok 4 := by
  have hlen : data.length = 4 := by rw [← List.length_map (f := Prod.fst), ht]; rfl
  have hf : firstTime data = 0 := by unfold firstTime; rw [ht]; rfl
  have hla : lastTime data = 4 := by unfold lastTime; rw [ht, hlen]; rfl
  have hin : FitInput (⟨3, [], [], []⟩ : BSpline ℝ 1) data 2 :=
    ⟨by norm_num, by norm_num, by omega, by rw [ht]; norm_num, by norm_num, by simp, by rw [hf, hla]; norm_num⟩
  obtain ⟨s, h1, -, h3, h4, -⟩ := fit_minimal choiceSolver choiceSolver_semidefinite _ data 2 hin lambda hl
  obtain ⟨g1, g2, -, -⟩ := h4.facts h3 (by norm_num) hin.wide
  refine ⟨s, ⟨choiceSolver, _, choiceSolver_semidefinite, .inl ⟨2, hin, .inl h1⟩⟩, h4.order_eq, h4.length_eq, fun i hi => ?_, ?_, ?_⟩
  · rw [h4.kn_eq i hi, hf, hla]
    push_cast
    ring
  · rw [tMin_eq h3, g1, hf]
  · rw [tMax_eq h3, g2, hla]

theorem example_same {s r : BSpline ℝ 1} (h1 : s.knots.length = 7) (h2 : r.knots.length = 7) (h3 : ∀ i < 7, s.kn i = 2 * (i - 2))
    (h4 : ∀ i < 7, r.kn i = 2 * (i - 2)) : r.knots = s.knots := by
  refine List.ext_getElem (h2.trans h1.symm) fun i i1 i2 => ?_
  have e1 := h3 i (by omega)
  have e2 := h4 i (by omega)
  unfold kn at e1 e2
  rw [List.getD_eq_getElem?_getD, List.getElem?_eq_getElem i2, Option.getD_some] at e1
  rw [List.getD_eq_getElem?_getD, List.getElem?_eq_getElem i1, Option.getD_some] at e2
  rw [e1, e2]

example : ∃ s₁ s₂ : BSpline ℝ 1, FitResult [(0, ![1]), (1, ![3]), (2, ![-2]), (4, ![5])] 0 s₁ ∧
    FitResult [(0, ![1]), (1, ![3]), (2, ![-2]), (4, ![5])] 10 s₂ ∧
    Spec.misfit s₁ [(0, ![1]), (1, ![3]), (2, ![-2]), (4, ![5])] ≤ Spec.misfit s₂ [(0, ![1]), (1, ![3]), (2, ![-2]), (4, ![5])] ∧
    Spec.bending s₂ 0 4 ≤ Spec.bending s₁ 0 4 ∧ Spec.misfit s₂ [(0, ![1]), (1, ![3]), (2, ![-2]), (4, ![5])] + 10 * Spec.bending s₂ 0 4 ≤ 39 := by
  obtain ⟨s₁, a1, a2, a3, a4, a5, a6⟩ := example_fit 0 le_rfl [(0, ![1]), (1, ![3]), (2, ![-2]), (4, ![5])] rfl
  obtain ⟨s₂, b1, b2, b3, b4, b5, b6⟩ := example_fit 10 (by norm_num) [(0, ![1]), (1, ![3]), (2, ![-2]), (4, ![5])] rfl
  obtain ⟨h1, h2⟩ := C110_weight _ 0 10 le_rfl (by norm_num) s₁ s₂ a1 b1 (b2.trans a2.symm) (example_same a3 b3 a4 b4) 0 4 a5 a6
  have h3 := C110_polynomial _ 10 (by norm_num) s₂ b1 0 4 b5 b6 (fun _ => 0) (fun _ => by rw [b2]; simp) (fun _ => by rw [b2]; simp)
  refine ⟨s₁, s₂, a1, b1, h1, h2, h3.trans ?_⟩
  simp
  norm_num

/-- The residuals have sum zero, and moment zero. -/
example : ∃ s : BSpline ℝ 1, FitResult [(0, ![1]), (1, ![3]), (2, ![-2]), (4, ![5])] 10 s ∧
    (([(0, ![1]), (1, ![3]), (2, ![-2]), (4, ![5])] : List (ℝ × (Fin 1 → ℝ))).map fun o => ((s.eval o.1).getD 0 0 - o.2 0) * (o.1 - 1)).sum = 0 := by
  obtain ⟨s, b1, b2, b3, b4, b5, b6⟩ := example_fit 10 (by norm_num) [(0, ![1]), (1, ![3]), (2, ![-2]), (4, ![5])] rfl
  have h := C110_moments _ 10 (by norm_num) s b1 (fun _ => X - C 1) (fun _ => by rw [b2, natDegree_X_sub_C]; norm_num)
    (.inr fun _ => by rw [b2, natDegree_X_sub_C]; norm_num)
  refine ⟨s, b1, Eq.trans ?_ h⟩
  simp

/-- Data that differ by 1/10 once. -/
example : ∃ s r : BSpline ℝ 1, FitResult [(0, ![1]), (1, ![3]), (2, ![-2]), (4, ![5])] 1 s ∧
    FitResult [(0, ![1]), (1, ![31 / 10]), (2, ![-2]), (4, ![5])] 1 r ∧ |(s.eval 2).getD 0 0 - (r.eval 2).getD 0 0| ≤ 1 / 10 := by
  obtain ⟨s, a1, a2, a3, a4, -, -⟩ := example_fit 1 (by norm_num) [(0, ![1]), (1, ![3]), (2, ![-2]), (4, ![5])] rfl
  obtain ⟨r, b1, b2, b3, b4, -, -⟩ := example_fit 1 (by norm_num) [(0, ![1]), (1, ![31 / 10]), (2, ![-2]), (4, ![5])] rfl
  have h := C110_stable [(0, ![1], ![1]), (1, ![3], ![31 / 10]), (2, ![-2], ![-2]), (4, ![5], ![5])] 1 (by norm_num) s r a1 b1 (b2.trans a2.symm)
    (example_same a3 b3 a4 b4)
  refine ⟨s, r, a1, b1, abs_le_of_sq_le_sq ?_ (by norm_num)⟩
  simp only [List.map_cons, List.map_nil, List.sum_cons, List.sum_nil, univ_unique, sum_singleton, Fin.default_eq_zero, Matrix.cons_val_fin_one] at h
  nlinarith [sq_nonneg ((s.eval 0).getD 0 0 - (r.eval 0).getD 0 0), sq_nonneg ((s.eval 1).getD 0 0 - (r.eval 1).getD 0 0),
    sq_nonneg ((s.eval 4).getD 0 0 - (r.eval 4).getD 0 0)]

example : ∃ s : BSpline ℝ 1, FitResult [(0, ![1]), (1, ![3]), (2, ![-2]), (4, ![5])] 1 s ∧
    39 = (([(0, ![1]), (1, ![3]), (2, ![-2]), (4, ![5])] : List (ℝ × (Fin 1 → ℝ))).map fun o => ∑ d, ((s.eval o.1).getD 0 d) ^ 2).sum +
      Spec.misfit s [(0, ![1]), (1, ![3]), (2, ![-2]), (4, ![5])] + 2 * (1 * Spec.bending s 0 4) := by
  obtain ⟨s, a1, a2, a3, a4, a5, a6⟩ := example_fit 1 (by norm_num) [(0, ![1]), (1, ![3]), (2, ![-2]), (4, ![5])] rfl
  refine ⟨s, a1, ?_⟩
  rw [← C110_energy _ 1 (by norm_num) s a1 0 4 a5 a6]
  simp
  norm_num

/-! ### The second fit, which penalises the second derivative at the knots -/

/-- The sum of the squared second derivatives at the knots of the valid interval of a spline with `n` segments. -/
noncomputable def Spec.knotBending (s : BSpline ℝ D) (n : ℕ) : ℝ :=
  ∑ i ∈ range (n + 1), ∑ d, ((s.evalD (s.kn (s.order - 1 + i)) 2).getD 0 d) ^ 2

/-- The weight changes only coefficients. -/
theorem initSpline2_shape (solve₁ solve₂ : Solver ℝ) (s s₁ s₂ : BSpline ℝ D) (data : List (ℝ × (Fin D → ℝ))) (n : ℤ) (l₁ l₂ : ℝ)
    (h₁ : s.initSpline2 solve₁ data n l₁ = .ok s₁) (h₂ : s.initSpline2 solve₂ data n l₂ = .ok s₂) :
    s₂.coeffs.length = s₁.coeffs.length ∧ s₂ = BSpline.mk (K := ℝ) s₁.order s₁.knots s₂.coeffs s₁.basis := by
  have key : ∀ (solve : Solver ℝ) (l : ℝ) (r : BSpline ℝ D), s.initSpline2 solve data n l = .ok r →
      ∃ b, s.prepareUniform data n = .ok b ∧ r.coeffs.length = b.coeffs.length ∧ r = BSpline.mk (K := ℝ) b.order b.knots r.coeffs b.basis := by
    intro solve l r hr
    unfold initSpline2 at hr
    rcases hp : s.prepareUniform data n with b | _ | _
    · rw [hp] at hr
      simp only [Outcome.bind_ok] at hr
      obtain ⟨rows, -, h2⟩ := Outcome.bind_eq_ok.1 hr
      unfold setSolved setCoefficientVector at h2
      split_ifs at h2
      rw [← Outcome.ok.inj h2]
      exact ⟨b, rfl, writeCols_length _ _ _ _, rfl⟩
    · rw [hp] at hr; exact absurd hr (by simp [Outcome.bind])
    · rw [hp] at hr; exact absurd hr (by simp [Outcome.bind])
  obtain ⟨b, b1, b2, b3⟩ := key _ _ _ h₁
  obtain ⟨c, c1, c2, c3⟩ := key _ _ _ h₂
  obtain rfl : b = c := Outcome.ok.inj (b1.symm.trans c1)
  refine ⟨c2.trans b2.symm, c3.trans ?_⟩
  rw [b3]

/-- C110: also for `initSpline2`, whose weight enters squared: with a larger weight the second derivatives at the knots become smaller and
the result is further away from the data.  The solvers may differ. -/
theorem C110_second (solve₁ solve₂ : Solver ℝ) (hs₁ : SolvesSemidefinite solve₁) (hs₂ : SolvesSemidefinite solve₂) (s : BSpline ℝ D)
    (data : List (ℝ × (Fin D → ℝ))) (n : ℕ) (h : FitInput s data n) (l₁ l₂ : ℝ) (hl : |l₁| < |l₂|) :
    ∃ s₁ s₂ : BSpline ℝ D, s.initSpline2 solve₁ data n l₁ = .ok s₁ ∧ s.initSpline2 solve₂ data n l₂ = .ok s₂ ∧
      s₂.order = s₁.order ∧ s₂.knots = s₁.knots ∧ Spec.misfit s₁ data ≤ Spec.misfit s₂ data ∧
      Spec.knotBending s₂ n ≤ Spec.knotBending s₁ n := by
  obtain ⟨s₁, a1, -, a3, -, -, a6⟩ := C53_optimal solve₁ hs₁ s h.order h.dim data h.two h.sorted n h.segments h.old h.wide l₁
  obtain ⟨s₂, b1, -, b3, -, -, b6⟩ := C53_optimal solve₂ hs₂ s h.order h.dim data h.two h.sorted n h.segments h.old h.wide l₂
  obtain ⟨c1, c2⟩ := initSpline2_shape solve₁ solve₂ s s₁ s₂ data n l₁ l₂ a1 b1
  obtain ⟨-, d2⟩ := initSpline2_shape solve₂ solve₁ s s₂ s₁ data n l₂ l₁ b1 a1
  have hk : s₂.knots = s₁.knots := by rw [c2]
  have hkn : s₂.kn = s₁.kn := by unfold BSpline.kn; rw [hk]
  have e1 := a6 s₂.coeffs c1
  have e2 := b6 s₁.coeffs c1.symm
  rw [← c2] at e1
  rw [← d2] at e2
  dsimp only at e1 e2
  rw [← a3] at e1
  rw [← b3] at e2
  have k1 : ∑ i ∈ range (n + 1), ∑ d, ((s₂.evalD (s₁.kn (s₁.order - 1 + i)) 2).getD 0 d) ^ 2 = Spec.knotBending s₂ n := by
    unfold Spec.knotBending
    rw [hkn, b3, a3]
  have k2 : ∑ i ∈ range (n + 1), ∑ d, ((s₁.evalD (s₂.kn (s₂.order - 1 + i)) 2).getD 0 d) ^ 2 = Spec.knotBending s₁ n := by
    unfold Spec.knotBending
    rw [hkn, b3, a3]
  rw [k1] at e1
  rw [k2] at e2
  change Spec.misfit s₁ data + l₁ ^ 2 * Spec.knotBending s₁ n ≤ Spec.misfit s₂ data + l₁ ^ 2 * Spec.knotBending s₂ n at e1
  change Spec.misfit s₂ data + l₂ ^ 2 * Spec.knotBending s₂ n ≤ Spec.misfit s₁ data + l₂ ^ 2 * Spec.knotBending s₁ n at e2
  have hsq := sq_lt_sq.2 hl
  have f1 : Spec.knotBending s₂ n ≤ Spec.knotBending s₁ n := by
    by_contra hc
    rw [not_le] at hc
    have := mul_pos (sub_pos.2 hsq) (sub_pos.2 hc)
    nlinarith
  refine ⟨s₁, s₂, a1, b1, b3.trans a3.symm, hk, ?_, f1⟩
  have := mul_le_mul_of_nonneg_left f1 (sq_nonneg l₁)
  linarith

example : ∃ s₁ s₂ : BSpline ℝ 1, (⟨4, [], [], []⟩ : BSpline ℝ 1).initSpline2 choiceSolver [(0, ![1]), (1, ![3]), (2, ![-2]), (4, ![5])] 2 1 = .ok s₁ ∧
    (⟨4, [], [], []⟩ : BSpline ℝ 1).initSpline2 choiceSolver [(0, ![1]), (1, ![3]), (2, ![-2]), (4, ![5])] 2 (-2) = .ok s₂ ∧
    Spec.knotBending s₂ 2 ≤ Spec.knotBending s₁ 2 := by
  obtain ⟨s₁, s₂, a, b, -, -, -, c⟩ := C110_second choiceSolver choiceSolver choiceSolver_semidefinite choiceSolver_semidefinite
    (⟨4, [], [], []⟩ : BSpline ℝ 1) [(0, ![1]), (1, ![3]), (2, ![-2]), (4, ![5])] 2
    ⟨by decide, le_rfl, by decide, by norm_num, by norm_num, by decide, by norm_num [firstTime, lastTime]⟩ 1 (-2) (by norm_num)
  exact ⟨s₁, s₂, a, b, c⟩

end Verif
