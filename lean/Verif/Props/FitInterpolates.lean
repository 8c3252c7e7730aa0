import Verif.Props.FitKnotPenalty
import Verif.Props.NullSpace

/-!
# Property C118: when a fit with a regularisation meets its data

The fits of `Model/BSplineFit` with a positive weight minimise the sum of the squared residuals plus the weighted integral of a squared
derivative (`Spec.misfit`, `Spec.bending`).
-/

set_option linter.unusedSectionVars false

namespace Verif

open Finset Polynomial BSpline MeasureTheory

variable {D : ℕ}

/-- The data lie on one line, a constant one if `flat`. -/
def Spec.OnLine (flat : Prop) (data : List (ℝ × (Fin D → ℝ))) : Prop :=
  ∃ c v : Fin D → ℝ, (flat → v = 0) ∧ ∀ o ∈ data, ∀ d, o.2 d = c d + v d * o.1

/-- The curve is one line between two times, a constant one if `flat`. -/
def Spec.Straight (flat : Prop) (s : BSpline ℝ D) (lo hi : ℝ) : Prop :=
  ∃ c v : Fin D → ℝ, (flat → v = 0) ∧ ∀ t, lo ≤ t → t ≤ hi → s.eval t = .ok fun d => c d + v d * t

/-! ### Lemmas -/

theorem eval_line {P : ℝ[X]} (h : P.natDegree < 2) (t : ℝ) : P.eval t = P.coeff 0 + P.coeff 1 * t := by
  conv_lhs => rw [eq_X_add_C_of_natDegree_le_one (show P.natDegree ≤ 1 by omega)]
  simp
  ring

theorem line_degree (c v : ℝ) (m : ℕ) (hm : m = 1 ∨ m = 2) (hv : m = 1 → v = 0) : (C v * X + C c).natDegree < m := by
  rcases hm with rfl | rfl
  · rw [hv rfl]
    simp
  · exact lt_of_le_of_lt (natDegree_linear_le) (by norm_num)

/-- A curve whose pieces have no first or no second derivative. -/
theorem straight_of_pieces {s : BSpline ℝ D} (h : s.WF) (hw : s.WideLast) (hd : DistinctKnots s) (m : ℕ) (h1 : m ≤ 1) (h2 : m + 2 ≤ s.order)
    (hz : ∀ i, s.order - 1 ≤ i → i + 1 ≤ s.knots.length - s.order → ∀ d, derivative^[m + 1] (s.segPoly i d) = 0) :
    Spec.Straight (m = 0) s (s.kn (s.order - 1)) (s.kn (s.knots.length - s.order)) := by
  have hk := h.order_pos
  have hn := h.enough
  have hdeg : ∀ d, (s.segPoly (s.order - 1) d).degree < (m + 1 : ℕ) := fun d => degree_lt_of_derivative (hz _ le_rfl (by omega) d)
  refine ⟨fun d => (s.segPoly (s.order - 1) d).coeff 0, fun d => (s.segPoly (s.order - 1) d).coeff 1, fun h0 => funext fun d => ?_,
    fun t t1 t2 => ?_⟩
  · subst h0
    exact coeff_eq_zero_of_degree_lt (hdeg d)
  · obtain ⟨-, i, hi, hev⟩ := evalD_repro h hw 0 t t1 t2
    rw [show s.eval t = s.evalD t (0 : ℕ) from rfl, hev]
    refine congrArg Outcome.ok (funext fun d => ?_)
    rw [segPoly_one h m h2 hd d (fun i i1 i2 => hz i i1 i2 d) i hi.lower hi.upper]
    refine eval_line ?_ t
    by_cases h0 : s.segPoly (s.order - 1) d = 0
    · rw [h0]; simp
    · exact lt_of_lt_of_le ((natDegree_lt_iff_degree_lt h0).2 (hdeg d)) (by omega)

theorem identity_positive : PositiveWeight D (fun i j => if i = j then (1 : ℝ) else 0) := by
  intro y hy
  have e : ∀ d : Fin D, (∑ e : Fin D, (if (d : ℕ) = e then (1 : ℝ) else 0) * (y d * y e)) = y d ^ 2 := by
    intro d
    rw [sum_eq_single d]
    · simp [sq]
    · intro b _ hb
      rw [if_neg (fun h => hb (Fin.ext h.symm)), zero_mul]
    · simp
  simp only [e]
  obtain ⟨d, hd⟩ := Function.ne_iff.1 hy
  exact sum_pos' (fun _ _ => sq_nonneg _) ⟨d, mem_univ d, by have : y d ≠ 0 := hd; positivity⟩

theorem bending_nonneg (s : BSpline ℝ D) {lo hi : ℝ} (h : lo ≤ hi) : 0 ≤ Spec.bending s lo hi :=
  intervalIntegral.integral_nonneg h fun _ _ => sum_nonneg fun _ _ => sq_nonneg _

theorem misfit_nonneg (s : BSpline ℝ D) (data : List (ℝ × (Fin D → ℝ))) : 0 ≤ Spec.misfit s data := by
  refine List.sum_nonneg fun x hx => ?_
  obtain ⟨o, -, rfl⟩ := List.mem_map.1 hx
  exact sum_nonneg fun d _ => sq_nonneg _

theorem Fitted.le {data : List (ℝ × (Fin D → ℝ))} {lambda : ℝ} {s : BSpline ℝ D} (f : Fitted data lambda s) :
    s.kn (s.order - 1) ≤ s.kn (s.knots.length - s.order) := by
  have hn := f.wf.enough
  have ho := f.order
  exact f.wf.mono _ _ (by omega) (by omega)

theorem sum_list_zero {α : Type*} {l : List α} {f : α → ℝ} (h0 : ∀ x ∈ l, 0 ≤ f x) (h : (l.map f).sum = 0) : ∀ x ∈ l, f x = 0 := by
  intro x hx
  refine le_antisymm ?_ (h0 x hx)
  rw [← h]
  exact List.single_le_sum (fun y hy => by
    obtain ⟨z, hz, rfl⟩ := List.mem_map.1 hy
    exact h0 z hz) _ (List.mem_map.2 ⟨x, hx, rfl⟩)

/-- No misfit means that all data are met. -/
theorem misfit_zero_iff {s : BSpline ℝ D} (h : s.WF) (hw : s.WideLast) (data : List (ℝ × (Fin D → ℝ)))
    (hin : ∀ o ∈ data, s.kn (s.order - 1) ≤ o.1 ∧ o.1 ≤ s.kn (s.knots.length - s.order)) :
    Spec.misfit s data = 0 ↔ ∀ o ∈ data, s.eval o.1 = .ok o.2 := by
  constructor
  · intro hz o ho
    have h1 := sum_list_zero (fun o _ => sum_nonneg fun d _ => sq_nonneg _) hz o ho
    have e := evalD_val h hw o.1 (hin o ho).1 (hin o ho).2 0
    rw [show s.evalD o.1 (0 : ℕ) = s.eval o.1 from rfl] at e
    rw [e] at h1 ⊢
    refine congrArg Outcome.ok (funext fun d => ?_)
    have h2 := (sum_eq_zero_iff_of_nonneg fun d _ => sq_nonneg _).1 h1 d (mem_univ d)
    exact sub_eq_zero.1 (pow_eq_zero_iff two_ne_zero |>.1 h2)
  · intro hm
    unfold Spec.misfit
    refine List.sum_eq_zero fun x hx => ?_
    obtain ⟨o, ho, rfl⟩ := List.mem_map.1 hx
    refine sum_eq_zero fun d _ => ?_
    rw [hm o ho]
    simp [Outcome.getD]

/-! ### When a fit is straight -/

/-- **C118**: the penalty of a result is zero exactly if it is one line (for order two: a constant) on the whole valid interval. -/
theorem C118_straight_iff (data : List (ℝ × (Fin D → ℝ))) (lambda : ℝ) (hl : 0 ≤ lambda) (s : BSpline ℝ D) (h : FitResult data lambda s)
    (hd : DistinctKnots s) (lo hi : ℝ) (hlo : s.tMin = .ok lo) (hhi : s.tMax = .ok hi) :
    Spec.bending s lo hi = 0 ↔ Spec.Straight (s.order = 2) s lo hi := by
  have f := h.fitted hl
  have ho := f.order
  have hn := f.wf.enough
  rw [tMin_eq f.wf, Outcome.ok.injEq] at hlo
  rw [tMax_eq f.wf, Outcome.ok.injEq] at hhi
  subst hlo hhi
  constructor
  · intro hb
    have hz := integral_zero_pieces f.wf f.wide (identity_positive (D := D)) (if s.order = 2 then 1 else 2) (by
      refine Eq.trans ?_ hb
      refine intervalIntegral.integral_congr fun t _ => sum_congr rfl fun d _ => ?_
      rw [sum_eq_single d]
      · simp [sq]
      · intro b _ hb
        rw [if_neg (fun h => hb (Fin.ext h.symm)), zero_mul]
      · simp)
    by_cases h2 : s.order = 2
    · rw [if_pos h2] at hz
      obtain ⟨c, v, hv, hev⟩ := straight_of_pieces f.wf f.wide hd 0 (by omega) (by omega) fun i i1 i2 d => hz i i1 i2 (hd i i1 i2) d
      exact ⟨c, v, fun _ => hv rfl, hev⟩
    · rw [if_neg h2] at hz
      obtain ⟨c, v, -, hev⟩ := straight_of_pieces f.wf f.wide hd 1 (by omega) (by omega) fun i i1 i2 d => hz i i1 i2 (hd i i1 i2) d
      exact ⟨c, v, fun h => absurd h h2, hev⟩
  · rintro ⟨c, v, hv, hev⟩
    unfold Spec.bending
    rw [intervalIntegral.integral_congr (g := fun _ => 0)]
    · simp
    · intro t ht
      rw [Set.uIcc_of_le f.le] at ht
      obtain ⟨-, i, hi, e⟩ := evalD_repro f.wf f.wide (if s.order = 2 then 1 else 2) t ht.1 ht.2
      refine sum_eq_zero fun d _ => ?_
      rw [e]
      have hp := segPoly_of_eval f.wf f.wide (fun d => C (v d) * X + C (c d)) (fun x hx => by
        rw [hev x hx.1 hx.2]
        refine congrArg Outcome.ok (funext fun d => ?_)
        simp
        ring) i hi.lower hi.upper hi.pos d
      have hdeg := line_degree (c d) (v d) (if s.order = 2 then 1 else 2) (by split_ifs <;> simp) (fun h1 => by
        rw [hv (by by_contra h2; rw [if_neg h2] at h1; omega)]; rfl)
      change ((derivative^[_] (s.segPoly i d)).eval t) ^ 2 = 0
      rw [hp, iterate_derivative_eq_zero hdeg]
      simp

/-- **C118**: with a positive weight the curve goes through all its data only if they lie on a line (for order two: are all the same), and it
does so then. -/
theorem C118_iff (data : List (ℝ × (Fin D → ℝ))) (lambda : ℝ) (hl : 0 < lambda) (s : BSpline ℝ D) (h : FitResult data lambda s)
    (hd : DistinctKnots s) : (∀ o ∈ data, s.eval o.1 = .ok o.2) ↔ Spec.OnLine (s.order = 2) data := by
  have f := h.fitted hl.le
  have ho := f.order
  rw [← misfit_zero_iff f.wf f.wide data f.within]
  constructor
  · intro hz
    have hm := (misfit_zero_iff f.wf f.wide data f.within).1 hz
    have he := C110_energy data lambda hl.le s h _ _ (tMin_eq f.wf) (tMax_eq f.wf)
    have hs : (data.map fun o => ∑ d, ((s.eval o.1).getD 0 d) ^ 2).sum = (data.map fun o => ∑ d, o.2 d ^ 2).sum := by
      congr 1
      refine List.map_congr_left fun o ho => ?_
      rw [hm o ho]
      rfl
    rw [hs, hz] at he
    have hb : Spec.bending s (s.kn (s.order - 1)) (s.kn (s.knots.length - s.order)) = 0 := by
      have : lambda * Spec.bending s (s.kn (s.order - 1)) (s.kn (s.knots.length - s.order)) = 0 := by linarith
      exact (mul_eq_zero.1 this).resolve_left hl.ne'
    obtain ⟨c, v, hv, hev⟩ := (C118_straight_iff data lambda hl.le s h hd _ _ (tMin_eq f.wf) (tMax_eq f.wf)).1 hb
    refine ⟨c, v, hv, fun o ho d => ?_⟩
    have e := (hm o ho).symm.trans (hev o.1 (f.within o ho).1 (f.within o ho).2)
    exact congrFun (Outcome.ok.inj e) d
  · rintro ⟨c, v, hv, hon⟩
    have hdeg : ∀ d, (C (v d) * X + C (c d)).natDegree < if s.order = 2 then 1 else 2 := fun d =>
      line_degree (c d) (v d) _ (by split_ifs <;> simp) fun h1 => by
        rw [hv (by by_contra h2; rw [if_neg h2] at h1; omega)]; rfl
    have hp := C110_polynomial data lambda hl.le s h _ _ (tMin_eq f.wf) (tMax_eq f.wf) (fun d => C (v d) * X + C (c d))
      (fun d => lt_of_lt_of_le (hdeg d) (by split_ifs <;> omega)) hdeg
    have hz : (data.map fun o => ∑ d, ((C (v d) * X + C (c d)).eval o.1 - o.2 d) ^ 2).sum = 0 := by
      refine List.sum_eq_zero fun x hx => ?_
      obtain ⟨o, ho, rfl⟩ := List.mem_map.1 hx
      refine sum_eq_zero fun d _ => ?_
      rw [hon o ho d]
      simp
      ring
    rw [hz] at hp
    have := mul_nonneg hl.le (bending_nonneg s f.le)
    exact le_antisymm (by linarith) (misfit_nonneg s data)

/-- **C118**, order two: with a positive weight data that are not all the same are never met, also not on a line. -/
theorem C118_order_two (data : List (ℝ × (Fin D → ℝ))) (lambda : ℝ) (hl : 0 < lambda) (s : BSpline ℝ D) (h : FitResult data lambda s)
    (hd : DistinctKnots s) (h2 : s.order = 2) (o o' : ℝ × (Fin D → ℝ)) (ho : o ∈ data) (ho' : o' ∈ data) (hne : o.2 ≠ o'.2) :
    ∃ x ∈ data, s.eval x.1 ≠ .ok x.2 := by
  by_contra hcon
  push Not at hcon
  obtain ⟨c, v, hv, hon⟩ := (C118_iff data lambda hl s h hd).1 hcon
  refine hne (funext fun d => ?_)
  rw [hon o ho d, hon o' ho' d, hv h2]
  simp

/-! ### What a larger weight changes -/

/-- The products that occur in the conditions of minimality of two fits. -/
theorem two_fits {data : List (ℝ × (Fin D → ℝ))} {l₁ l₂ : ℝ} (h1 : 0 ≤ l₁) (h2 : 0 ≤ l₂) {s₁ s₂ : BSpline ℝ D} (f₁ : Fitted data l₁ s₁)
    (f₂ : Fitted data l₂ s₂) (ho : s₂.order = s₁.order) (hk : s₂.knots = s₁.knots) :
    ∃ B N A₁₁ A₂₁ A₁₂ A₂₂ : ℝ, (∀ x, 2 * x * B ≤ x ^ 2 * Spec.bending s₁ (s₁.kn (s₁.order - 1)) (s₁.kn (s₁.knots.length - s₁.order)) +
        Spec.bending s₂ (s₁.kn (s₁.order - 1)) (s₁.kn (s₁.knots.length - s₁.order))) ∧ 0 ≤ N ∧ (N = 0 → A₁₁ = A₂₁ ∧ A₁₂ = A₂₂) ∧
      A₁₁ - A₁₂ - A₂₁ + A₂₂ = N ∧ Spec.misfit s₂ data = Spec.misfit s₁ data + N + 2 * (A₁₂ - A₁₁) ∧
      A₁₁ + l₁ * Spec.bending s₁ (s₁.kn (s₁.order - 1)) (s₁.kn (s₁.knots.length - s₁.order)) = 0 ∧ A₁₂ + l₁ * B = 0 ∧ A₂₁ + l₂ * B = 0 ∧
      A₂₂ + l₂ * Spec.bending s₂ (s₁.kn (s₁.order - 1)) (s₁.kn (s₁.knots.length - s₁.order)) = 0 := by
  have hsh : SharedKnots s₁ s₂ := ⟨f₂.wf, ho, hk⟩
  have hsh' : SharedKnots s₂ s₁ := ⟨f₁.wf, ho.symm, hk.symm⟩
  have m₁ := (minimal_iff f₁.wf f₁.wide data f₁.within l₁ h1 _).1 f₁.minimal
  have m₂ := (minimal_iff f₂.wf f₂.wide data f₂.within l₂ h2 _).1 f₂.minimal
  rw [hsh.kn_eq, ho, hk] at m₂
  have m11 := m₁ s₁ ⟨f₁.wf, rfl, rfl⟩
  have m12 := m₁ s₂ hsh
  have m21 := m₂ s₁ hsh'
  have m22 := m₂ s₂ ⟨f₂.wf, rfl, rfl⟩
  unfold slope at m11 m12 m21 m22
  set lo := s₁.kn (s₁.order - 1)
  set hi := s₁.kn (s₁.knots.length - s₁.order)
  have i11 := val_mul_integrable f₁.wf f₁.wide (⟨f₁.wf, rfl, rfl⟩ : SharedKnots s₁ s₁) (penalty s₁.order)
  have i12 := val_mul_integrable f₁.wf f₁.wide hsh (penalty s₁.order)
  have i22 := val_mul_integrable f₂.wf f₂.wide (⟨f₂.wf, rfl, rfl⟩ : SharedKnots s₂ s₂) (penalty s₁.order)
  rw [hsh.kn_eq, ho, hk] at i22
  have b1 : (∫ t in lo..hi, ∑ d, val s₁ t (penalty s₁.order) d * val s₁ t (penalty s₁.order) d) = Spec.bending s₁ lo hi := by
    unfold Spec.bending
    refine intervalIntegral.integral_congr fun t _ => sum_congr rfl fun d _ => ?_
    rw [sq]
    rfl
  have b2 : (∫ t in lo..hi, ∑ d, val s₂ t (penalty s₁.order) d * val s₂ t (penalty s₁.order) d) = Spec.bending s₂ lo hi := by
    unfold Spec.bending
    rw [ho]
    refine intervalIntegral.integral_congr fun t _ => sum_congr rfl fun d _ => ?_
    rw [sq]
    rfl
  have b21 : (∫ t in lo..hi, ∑ d, val s₂ t (penalty s₁.order) d * val s₁ t (penalty s₁.order) d) =
      ∫ t in lo..hi, ∑ d, val s₁ t (penalty s₁.order) d * val s₂ t (penalty s₁.order) d :=
    intervalIntegral.integral_congr fun t _ => sum_congr rfl fun d _ => mul_comm _ _
  rw [b1] at m11
  rw [b21] at m21
  rw [b2] at m22
  refine ⟨∫ t in lo..hi, ∑ d, val s₁ t (penalty s₁.order) d * val s₂ t (penalty s₁.order) d,
    (data.map fun o => ∑ d, (val s₁ o.1 0 d - val s₂ o.1 0 d) ^ 2).sum, _, _, _, _, ?_, ?_, ?_, ?_, ?_, m11, m12, m21, m22⟩
  · intro x
    rw [← b1, ← b2, ← intervalIntegral.integral_const_mul, ← intervalIntegral.integral_const_mul,
      ← intervalIntegral.integral_add (i11.const_mul (x ^ 2)) i22]
    refine intervalIntegral.integral_mono_on f₁.le (i12.const_mul (2 * x)) ((i11.const_mul (x ^ 2)).add i22) fun t _ => ?_
    rw [mul_sum, mul_sum, ← sum_add_distrib]
    exact sum_le_sum fun d _ => by nlinarith [sq_nonneg (x * val s₁ t (penalty s₁.order) d - val s₂ t (penalty s₁.order) d)]
  · refine List.sum_nonneg fun x hx => ?_
    obtain ⟨o, -, rfl⟩ := List.mem_map.1 hx
    exact sum_nonneg fun d _ => sq_nonneg _
  · intro hz
    have he : ∀ o ∈ data, ∀ d, val s₁ o.1 0 d = val s₂ o.1 0 d := by
      intro o ho d
      have h1 := sum_list_zero (fun o _ => sum_nonneg fun d _ => sq_nonneg _) hz o ho
      have h2 := (sum_eq_zero_iff_of_nonneg fun d _ => sq_nonneg _).1 h1 d (mem_univ d)
      exact sub_eq_zero.1 (pow_eq_zero_iff two_ne_zero |>.1 h2)
    constructor <;> congr 1 <;> refine List.map_congr_left fun o ho => sum_congr rfl fun d _ => ?_ <;> rw [he o ho d]
  · have e : (data.map fun o => ∑ d, (val s₁ o.1 0 d - val s₂ o.1 0 d) ^ 2).sum =
        ((data.map fun o => ∑ d, (val s₁ o.1 0 d - o.2 d) * val s₁ o.1 0 d).sum +
          (-1) * (data.map fun o => ∑ d, (val s₁ o.1 0 d - o.2 d) * val s₂ o.1 0 d).sum) + (-1) *
        ((data.map fun o => ∑ d, (val s₂ o.1 0 d - o.2 d) * val s₁ o.1 0 d).sum +
          (-1) * (data.map fun o => ∑ d, (val s₂ o.1 0 d - o.2 d) * val s₂ o.1 0 d).sum) := by
      rw [← sum_expand data _ _ _ (-1) fun o _ => rfl, ← sum_expand data _ _ _ (-1) fun o _ => rfl]
      refine sum_expand data _ _ _ (-1) fun o _ => ?_
      rw [mul_add, mul_sum, mul_sum, mul_sum, mul_sum, ← sum_add_distrib, ← sum_add_distrib, ← sum_add_distrib]
      exact sum_congr rfl fun d _ => by ring
    rw [e]
    ring
  · have e : Spec.misfit s₂ data = ((data.map fun o => ∑ d, (val s₁ o.1 0 d - o.2 d) ^ 2).sum +
        1 * (data.map fun o => ∑ d, (val s₁ o.1 0 d - val s₂ o.1 0 d) ^ 2).sum) + 2 *
        ((data.map fun o => ∑ d, (val s₁ o.1 0 d - o.2 d) * val s₂ o.1 0 d).sum +
          (-1) * (data.map fun o => ∑ d, (val s₁ o.1 0 d - o.2 d) * val s₁ o.1 0 d).sum) := by
      rw [← sum_expand data _ _ _ 1 fun o _ => rfl, ← sum_expand data _ _ _ (-1) fun o _ => rfl]
      refine sum_expand data _ _ _ 2 fun o _ => ?_
      rw [mul_add, mul_sum, mul_sum, mul_sum, mul_sum, ← sum_add_distrib, ← sum_add_distrib, ← sum_add_distrib]
      refine sum_congr rfl fun d _ => ?_
      have : val s₂ o.1 0 d = (s₂.eval o.1).getD 0 d := rfl
      rw [this]
      ring
    rw [e]
    have : Spec.misfit s₁ data = (data.map fun o => ∑ d, (val s₁ o.1 0 d - o.2 d) ^ 2).sum := rfl
    rw [this]
    ring

/-- **C118**: a larger weight exchanges misfit for penalty at a rate between the two weights.  In particular the misfit with a weight exceeds the
smallest possible one by at most the weight times the penalty of any fit without weight. -/
theorem C118_exchange (data : List (ℝ × (Fin D → ℝ))) (l₁ l₂ : ℝ) (h0 : 0 ≤ l₁) (h12 : l₁ ≤ l₂) (s₁ s₂ : BSpline ℝ D)
    (h₁ : FitResult data l₁ s₁) (h₂ : FitResult data l₂ s₂) (ho : s₂.order = s₁.order) (hk : s₂.knots = s₁.knots) (lo hi : ℝ)
    (hlo : s₁.tMin = .ok lo) (hhi : s₁.tMax = .ok hi) :
    l₁ * (Spec.bending s₁ lo hi - Spec.bending s₂ lo hi) ≤ Spec.misfit s₂ data - Spec.misfit s₁ data ∧
      Spec.misfit s₂ data - Spec.misfit s₁ data ≤ l₂ * (Spec.bending s₁ lo hi - Spec.bending s₂ lo hi) := by
  have f₁ := h₁.fitted h0
  have f₂ := h₂.fitted (h0.trans h12)
  rw [tMin_eq f₁.wf, Outcome.ok.injEq] at hlo
  rw [tMax_eq f₁.wf, Outcome.ok.injEq] at hhi
  subst hlo hhi
  have hsh : SharedKnots s₁ s₂ := ⟨f₂.wf, ho, hk⟩
  have m₁ := f₁.minimal s₂ hsh
  have m₂ := f₂.minimal s₁ ⟨f₁.wf, ho.symm, hk.symm⟩
  rw [hsh.kn_eq, ho, hk] at m₂
  rw [fitCost_spec] at m₁
  rw [← ho, fitCost_spec, ho] at m₁
  rw [fitCost_spec] at m₂
  rw [← ho, fitCost_spec, ho] at m₂
  constructor <;> linarith

/-- **C118**: unless the smoother curve is straight already, a larger weight gives a curve that bends strictly less and is strictly farther from the
data. -/
theorem C118_strict (data : List (ℝ × (Fin D → ℝ))) (l₁ l₂ : ℝ) (h0 : 0 ≤ l₁) (h12 : l₁ < l₂) (s₁ s₂ : BSpline ℝ D)
    (h₁ : FitResult data l₁ s₁) (h₂ : FitResult data l₂ s₂) (ho : s₂.order = s₁.order) (hk : s₂.knots = s₁.knots) (lo hi : ℝ)
    (hlo : s₁.tMin = .ok lo) (hhi : s₁.tMax = .ok hi) (hb : Spec.bending s₂ lo hi ≠ 0) :
    Spec.misfit s₁ data < Spec.misfit s₂ data ∧ Spec.bending s₂ lo hi < Spec.bending s₁ lo hi := by
  obtain ⟨w1, w2⟩ := C110_weight data l₁ l₂ h0 h12 s₁ s₂ h₁ h₂ ho hk lo hi hlo hhi
  have f₁ := h₁.fitted h0
  have f₂ := h₂.fitted (h0.trans h12.le)
  rw [tMin_eq f₁.wf, Outcome.ok.injEq] at hlo
  rw [tMax_eq f₁.wf, Outcome.ok.injEq] at hhi
  subst hlo hhi
  obtain ⟨B, N, A₁₁, A₂₁, A₁₂, A₂₂, c1, c2, c3, c4, c5, c6, c7, c8, c9⟩ := two_fits h0 (h0.trans h12.le) f₁ f₂ ho hk
  have c1 := c1 1
  set b₁ := Spec.bending s₁ (s₁.kn (s₁.order - 1)) (s₁.kn (s₁.knots.length - s₁.order))
  set b₂ := Spec.bending s₂ (s₁.kn (s₁.order - 1)) (s₁.kn (s₁.knots.length - s₁.order))
  have hl2 : 0 < l₂ := lt_of_le_of_lt h0 h12
  have key : N = 0 → B = b₂ → b₁ = b₂ ∨ l₁ = 0 → False := by
    intro hN hB hor
    obtain ⟨d1, d2⟩ := c3 hN
    have e2 : l₁ * B = l₂ * b₂ := by linarith
    rw [hB] at e2
    have : (l₂ - l₁) * b₂ = 0 := by linarith
    rcases mul_eq_zero.1 this with h | h
    · linarith
    · exact hb h
  constructor
  · refine lt_of_le_of_ne w1 fun he => ?_
    have e1 : N = 2 * (l₁ * (B - b₁)) := by linarith
    have e2 : N = 2 * (l₂ * (B - b₂)) := by linarith
    have g2 : b₂ ≤ B := by
      by_contra hc
      have := mul_pos hl2 (sub_pos.2 (not_le.1 hc))
      linarith
    have g3 : B ≤ b₁ := by linarith
    have hN : N = 0 := by
      have := mul_nonneg h0 (sub_nonneg.2 g3)
      linarith
    have hB : B = b₂ := by
      rw [hN] at e2
      have : l₂ * (B - b₂) = 0 := by linarith
      exact sub_eq_zero.1 ((mul_eq_zero.1 this).resolve_left hl2.ne')
    rcases eq_or_lt_of_le h0 with hz | hp
    · exact key hN hB (.inr hz.symm)
    · refine key hN hB (.inl ?_)
      rw [hN] at e1
      have : l₁ * (B - b₁) = 0 := by linarith
      have := sub_eq_zero.1 ((mul_eq_zero.1 this).resolve_left hp.ne')
      linarith
  · refine lt_of_le_of_ne w2 fun he => ?_
    have e1 : N + (l₁ + l₂) * (b₂ - B) = 0 := by
      rw [← he] at c6
      linarith
    have g1 : 0 ≤ b₂ - B := by linarith
    have g2 := mul_nonneg (show (0 : ℝ) ≤ l₁ + l₂ by linarith) g1
    have hN : N = 0 := by linarith
    have hB : B = b₂ := by
      have : (l₁ + l₂) * (b₂ - B) = 0 := by linarith
      have := (mul_eq_zero.1 this).resolve_left (by linarith)
      linarith
    exact key hN hB (.inl he.symm)

/-- **C118**: a result that is straight for one positive weight has the smallest misfit of all splines over these knots, and the results for all
other positive weights are straight, too. -/
theorem C118_straight_all (data : List (ℝ × (Fin D → ℝ))) (l₁ l₂ : ℝ) (h1 : 0 ≤ l₁) (h2 : 0 < l₂) (s₁ s₂ : BSpline ℝ D)
    (h₁ : FitResult data l₁ s₁) (h₂ : FitResult data l₂ s₂) (ho : s₂.order = s₁.order) (hk : s₂.knots = s₁.knots) (lo hi : ℝ)
    (hlo : s₁.tMin = .ok lo) (hhi : s₁.tMax = .ok hi) (hb : Spec.bending s₂ lo hi = 0) :
    Spec.misfit s₁ data = Spec.misfit s₂ data ∧ (0 < l₁ → Spec.bending s₁ lo hi = 0) := by
  have f₁ := h₁.fitted h1
  have f₂ := h₂.fitted h2.le
  rw [tMin_eq f₁.wf, Outcome.ok.injEq] at hlo
  rw [tMax_eq f₁.wf, Outcome.ok.injEq] at hhi
  subst hlo hhi
  obtain ⟨B, N, A₁₁, A₂₁, A₁₂, A₂₂, c1, c2, c3, c4, c5, c6, c7, c8, c9⟩ := two_fits h1 h2.le f₁ f₂ ho hk
  have hb1 := bending_nonneg s₁ f₁.le
  rw [hb] at c1 c9
  set b₁ := Spec.bending s₁ (s₁.kn (s₁.order - 1)) (s₁.kn (s₁.knots.length - s₁.order))
  have hB : B = 0 := by
    have c := c1 (B / (b₁ + 1))
    have e : (B / (b₁ + 1)) ^ 2 * b₁ + 0 - 2 * (B / (b₁ + 1)) * B = - (B ^ 2 * (b₁ + 2) / (b₁ + 1) ^ 2) := by
      field_simp
      ring
    by_contra hne
    have : 0 < B ^ 2 * (b₁ + 2) / (b₁ + 1) ^ 2 := by positivity
    linarith
  rw [hB] at c7 c8
  have h3 := mul_nonneg h1 hb1
  have h4 : l₁ * b₁ = 0 := by linarith
  exact ⟨by linarith, fun hp => (mul_eq_zero.1 h4).resolve_left hp.ne'⟩

/-! ### The penalty at the knots -/

/-- **C118**, `initSpline2`, orders three and four: with a weight that is not zero the data are met exactly if they lie on a line. -/
theorem C118_knots_iff (solve : Solver ℝ) (hsolve : SolvesSemidefinite solve) (s : BSpline ℝ D) (h34 : s.order = 3 ∨ s.order = 4)
    (data : List (ℝ × (Fin D → ℝ))) (n : ℕ) (hin : FitInput s data n) (lambda : ℝ) (hl : lambda ≠ 0) :
    ∃ s', s.initSpline2 solve data n lambda = .ok s' ∧ ((∀ o ∈ data, s'.eval o.1 = .ok o.2) ↔ Spec.OnLine False data) := by
  obtain ⟨s', a1, a2, a3, a4⟩ := fit2_optimal solve hsolve s data n hin lambda
  refine ⟨s', a1, ?_⟩
  constructor
  · intro hm
    have hopt := (row_minimal_iff a3.wf a3.wide _ (a3.rowsIn lambda)).1 ((knotOptimal_iff _ _ _ _).1 a4) s' ⟨a3.wf, rfl, rfl⟩
    have hc : rowCost (knotRows s' data n lambda) s' = 0 := by
      rw [← hopt]
      unfold rowCost rowSlope
      congr 1
      refine List.map_congr_left fun r hr => sum_congr rfl fun d _ => ?_
      rcases mem_knotRows.1 hr with ⟨o, ho, rfl⟩ | ⟨i, hi, rfl⟩
      · have : val s' o.1 0 d = o.2 d := by
          change (s'.eval o.1).getD 0 d = _
          rw [hm o ho]
          rfl
        unfold DerRow.res
        rw [this]
        ring
      · unfold DerRow.res
        simp only [Pi.zero_apply, sub_zero]
        ring
    rw [rowCost_knotRows] at hc
    unfold Spec.knotCost at hc
    have h1 := misfit_nonneg s' data
    have h2 : 0 ≤ Spec.knotBending s' n := sum_nonneg fun i _ => sum_nonneg fun d _ => sq_nonneg _
    have h3 := mul_nonneg (sq_nonneg lambda) h2
    have h4 : Spec.knotBending s' n = 0 := by
      have : lambda ^ 2 * Spec.knotBending s' n = 0 := by linarith
      exact (mul_eq_zero.1 this).resolve_left (pow_ne_zero 2 hl)
    have ho := a2.order_eq
    have hz := second_zero a3.wf a3.wide a3.segments a3.strict (by rw [ho]; exact h34) fun i hi => by
      funext d
      have w1 := (sum_eq_zero_iff_of_nonneg fun i _ => sum_nonneg fun d _ => sq_nonneg _).1 h4 i (mem_range.2 (by omega))
      have w2 := (sum_eq_zero_iff_of_nonneg fun d _ => sq_nonneg _).1 w1 d (mem_univ _)
      exact pow_eq_zero_iff two_ne_zero |>.1 w2
    obtain ⟨c, v, -, hev⟩ := straight_of_pieces a3.wf a3.wide a3.strict 1 le_rfl (by omega) hz
    refine ⟨c, v, fun h => h.elim, fun o ho d => ?_⟩
    have e := (hm o ho).symm.trans (hev o.1 (a3.within o ho).1 (a3.within o ho).2)
    exact congrFun (Outcome.ok.inj e) d
  · rintro ⟨c, v, -, hon⟩
    obtain ⟨b, b1, -, -, b3, -⟩ := C76_fit_at_knots solve hsolve s data n hin lambda (fun d => C (v d) * X + C (c d))
      (fun d => lt_of_lt_of_le (line_degree (c d) (v d) 2 (.inr rfl) (by omega)) (by omega))
      (Or.inr fun d => line_degree (c d) (v d) 2 (.inr rfl) (by omega)) (fun o ho d => by
        rw [hon o ho d]
        simp
        ring)
    obtain rfl : b = s' := Outcome.ok.inj (b1.symm.trans a1)
    exact b3

/-! ### Examples -/

theorem example_distinct {s : BSpline ℝ 1} (h0 : s.order = 3) (h1 : s.knots.length = 7) (h2 : ∀ i < 7, s.kn i = 2 * (i - 2)) : DistinctKnots s := by
  intro i h3 h4
  rw [h2 i (by omega), h2 (i + 1) (by omega)]
  push_cast
  linarith

/-- Data on a line are met, with any weight. -/
example : ∃ s : BSpline ℝ 1, FitResult [(0, ![1]), (1, ![3]), (2, ![5]), (4, ![9])] 10 s ∧ s.eval 1 = .ok ![3] := by
  obtain ⟨s, b1, b2, b3, b4, b5, b6⟩ := example_fit 10 (by norm_num) [(0, ![1]), (1, ![3]), (2, ![5]), (4, ![9])] rfl
  refine ⟨s, b1, (C118_iff _ 10 (by norm_num) s b1 (example_distinct b2 b3 b4)).2 ⟨![1], ![2], by rw [b2]; norm_num, ?_⟩ (1, ![3]) (by simp)⟩
  intro o ho d
  fin_cases d
  simp only [List.mem_cons, List.not_mem_nil, or_false] at ho
  rcases ho with rfl | rfl | rfl | rfl <;> norm_num

/-- Other data are not, however small the weight is. -/
example (lambda : ℝ) (hl : 0 < lambda) : ∃ s : BSpline ℝ 1, FitResult [(0, ![1]), (1, ![3]), (2, ![-2]), (4, ![5])] lambda s ∧
    ¬ ∀ o ∈ ([(0, ![1]), (1, ![3]), (2, ![-2]), (4, ![5])] : List (ℝ × (Fin 1 → ℝ))), s.eval o.1 = .ok o.2 := by
  obtain ⟨s, b1, b2, b3, b4, b5, b6⟩ := example_fit lambda hl.le [(0, ![1]), (1, ![3]), (2, ![-2]), (4, ![5])] rfl
  refine ⟨s, b1, fun hm => ?_⟩
  obtain ⟨c, v, -, hon⟩ := (C118_iff _ lambda hl s b1 (example_distinct b2 b3 b4)).1 hm
  have e0 := hon (0, ![1]) (by simp) 0
  have e1 := hon (1, ![3]) (by simp) 0
  have e2 := hon (2, ![-2]) (by simp) 0
  norm_num at e0 e1 e2
  linarith

/-- Order two, two points on a line. -/
example (lambda : ℝ) (hl : 0 < lambda) : ∃ s' : BSpline ℝ 1,
    (⟨2, [], [], []⟩ : BSpline ℝ 1).initSpline3 choiceSolver [(0, ![0]), (1, ![1])] 1 lambda = .ok s' ∧
      ¬ (s'.eval 0 = .ok ![0] ∧ s'.eval 1 = .ok ![1]) := by
  have hf : firstTime ([(0, ![0]), (1, ![1])] : List (ℝ × (Fin 1 → ℝ))) = 0 := by simp [firstTime]
  have hla : lastTime ([(0, ![0]), (1, ![1])] : List (ℝ × (Fin 1 → ℝ))) = 1 := by simp [lastTime]
  have hin : FitInput (⟨2, [], [], []⟩ : BSpline ℝ 1) [(0, ![0]), (1, ![1])] 1 :=
    ⟨by norm_num, by norm_num, by simp, by norm_num, by norm_num, by simp, by rw [hf, hla]; norm_num⟩
  obtain ⟨s, h1, -, h3, h4, -⟩ := fit_minimal choiceSolver choiceSolver_semidefinite _ _ 1 hin lambda hl.le
  refine ⟨s, h1, fun hm => ?_⟩
  obtain ⟨-, -, -, g4⟩ := h4.facts h3 (by norm_num) hin.wide
  obtain ⟨x, hx, hne⟩ := C118_order_two _ lambda hl s ⟨choiceSolver, _, choiceSolver_semidefinite, .inl ⟨1, hin, .inl h1⟩⟩ g4 h4.order_eq
    (0, ![0]) (1, ![1]) (by simp) (by simp) (fun h => by have := congrFun h 0; norm_num at this)
  simp only [List.mem_cons, List.not_mem_nil, or_false] at hx
  rcases hx with rfl | rfl
  · exact hne hm.1
  · exact hne hm.2

/-- The penalty at the knots. -/
example (lambda : ℝ) (hl : lambda ≠ 0) : ∃ s' : BSpline ℝ 1,
    (⟨3, [], [], []⟩ : BSpline ℝ 1).initSpline2 choiceSolver [(0, ![1]), (1, ![3]), (4, ![9])] 2 lambda = .ok s' ∧ s'.eval 1 = .ok ![3] := by
  have hf : firstTime ([(0, ![1]), (1, ![3]), (4, ![9])] : List (ℝ × (Fin 1 → ℝ))) = 0 := by simp [firstTime]
  have hla : lastTime ([(0, ![1]), (1, ![3]), (4, ![9])] : List (ℝ × (Fin 1 → ℝ))) = 4 := by simp [lastTime]
  have hin : FitInput (⟨3, [], [], []⟩ : BSpline ℝ 1) [(0, ![1]), (1, ![3]), (4, ![9])] 2 :=
    ⟨by norm_num, by norm_num, by simp, by norm_num, by norm_num, by simp, by rw [hf, hla]; norm_num⟩
  obtain ⟨s', h1, h2⟩ := C118_knots_iff choiceSolver choiceSolver_semidefinite _ (.inl rfl) _ 2 hin lambda hl
  refine ⟨s', h1, h2.2 ⟨![1], ![2], fun h => h.elim, fun o ho d => ?_⟩ (1, ![3]) (by simp)⟩
  fin_cases d
  simp only [List.mem_cons, List.not_mem_nil, or_false] at ho
  rcases ho with rfl | rfl | rfl <;> norm_num

/-- The weights 1 and 10. -/
example : ∃ s₁ s₂ : BSpline ℝ 1, FitResult [(0, ![1]), (1, ![3]), (2, ![-2]), (4, ![5])] 1 s₁ ∧
    FitResult [(0, ![1]), (1, ![3]), (2, ![-2]), (4, ![5])] 10 s₂ ∧
    Spec.misfit s₁ [(0, ![1]), (1, ![3]), (2, ![-2]), (4, ![5])] < Spec.misfit s₂ [(0, ![1]), (1, ![3]), (2, ![-2]), (4, ![5])] ∧
    Spec.bending s₂ 0 4 < Spec.bending s₁ 0 4 := by
  obtain ⟨s₀, z1, z2, z3, z4, z5, z6⟩ := example_fit 0 le_rfl [(0, ![1]), (1, ![3]), (2, ![-2]), (4, ![5])] rfl
  obtain ⟨s₁, a1, a2, a3, a4, a5, a6⟩ := example_fit 1 (by norm_num) [(0, ![1]), (1, ![3]), (2, ![-2]), (4, ![5])] rfl
  obtain ⟨s₂, b1, b2, b3, b4, b5, b6⟩ := example_fit 10 (by norm_num) [(0, ![1]), (1, ![3]), (2, ![-2]), (4, ![5])] rfl
  refine ⟨s₁, s₂, a1, b1, C118_strict _ 1 10 (by norm_num) (by norm_num) s₁ s₂ a1 b1 (b2.trans a2.symm) (example_same a3 b3 a4 b4) 0 4 a5 a6
    fun hz => ?_⟩
  have hm := (C118_straight_all _ 0 10 le_rfl (by norm_num) s₀ s₂ z1 b1 (b2.trans z2.symm) (example_same z3 b3 z4 b4) 0 4 z5 z6 hz).1
  have f₀ := z1.fitted le_rfl
  have f₂ := b1.fitted (by norm_num)
  have hc : s₀.coeffs.length = 4 := by have := f₀.wf.coeffs_len; omega
  have hst : StrictKnots s₀ := fun i j hij hj => by
    rw [z3] at hj
    rw [z4 i (by omega), z4 j hj]
    have : (i : ℝ) < j := by exact_mod_cast hij
    linarith
  have hint : Verif.Spec.Interlaced s₀.order s₀.kn s₀.coeffs.length [0, 1, 2, 4] := by
    rw [hc, z2]
    refine (interlaced_congr fun j hj => ?_).2 example_interlaced
    rw [z4 j hj]
    unfold Spec.evenKnot
    push_cast
    ring
  rw [(misfit_zero_iff f₀.wf f₀.wide _ f₀.within).2 (C108_interpolates s₀ f₀.wf f₀.wide hst _ f₀.within (by rw [hc]; rfl) hint _ f₀.minimal)] at hm
  obtain ⟨c, v, -, hon⟩ := (C118_iff _ 10 (by norm_num) s₂ b1 (example_distinct b2 b3 b4)).1
    ((misfit_zero_iff f₂.wf f₂.wide _ f₂.within).1 hm.symm)
  have e0 := hon (0, ![1]) (by simp) 0
  have e1 := hon (1, ![3]) (by simp) 0
  have e2 := hon (2, ![-2]) (by simp) 0
  norm_num at e0 e1 e2
  linarith

end Verif
