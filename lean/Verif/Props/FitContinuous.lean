import Verif.Props.FitLimit
import Verif.Props.Influence

/-!
# Property C120: the whole curve depends continuously on the data

C110 bounds the change of a fit at the data times; here are all valid times and all derivatives, with one bound for all data values and all weights
from a given one on, or all weights if the data determine the curve.
-/

set_option linter.unusedSectionVars false

namespace Verif

open Finset Polynomial BSpline

variable {D : ℕ}

/-- The squared distance of two sets of values. -/
noncomputable def Spec.change (data : List (ℝ × (Fin D → ℝ) × (Fin D → ℝ))) : ℝ := (data.map fun o => ∑ d, (o.2.1 d - o.2.2 d) ^ 2).sum

theorem change_nonneg (data : List (ℝ × (Fin D → ℝ) × (Fin D → ℝ))) : 0 ≤ Spec.change data := List.sum_nonneg fun x hx => by
  obtain ⟨o, -, rfl⟩ := List.mem_map.1 hx
  exact sum_nonneg fun d _ => sq_nonneg _

/-- The difference of two fits: its values at the data times and its bending. -/
theorem difference_bound (data : List (ℝ × (Fin D → ℝ) × (Fin D → ℝ))) (lambda : ℝ) (hl : 0 ≤ lambda) (s r : BSpline ℝ D)
    (h : FitResult (data.map fun o => (o.1, o.2.1)) lambda s) (h' : FitResult (data.map fun o => (o.1, o.2.2)) lambda r)
    (ho : r.order = s.order) (hk : r.knots = s.knots) :
    ∃ q : BSpline ℝ D, SharedKnots s q ∧ (∀ t, s.kn (s.order - 1) ≤ t → t ≤ s.kn (s.knots.length - s.order) → ∀ (der : ℕ) d,
      val q t der d = val s t der d - val r t der d) ∧ (∀ o ∈ data, ∀ d, val q o.1 0 d ^ 2 ≤ Spec.change data) ∧
      lambda * Spec.bending q (s.kn (s.order - 1)) (s.kn (s.knots.length - s.order)) ≤ Spec.change data := by
  have f := h.fitted hl
  have f' := h'.fitted hl
  have hsh : SharedKnots s r := ⟨f'.wf, ho, hk⟩
  have hle := f.le
  set q := comb s r 1 (-1) with hq
  have hsq : SharedKnots s q := comb_same f.wf hsh 1 (-1)
  have hrq : SharedKnots r q := ⟨hsq.wf, ho.symm, hk.symm⟩
  have m := (minimal_iff f.wf f.wide _ f.within lambda hl _).1 f.minimal q hsq
  have m' := (minimal_iff f'.wf f'.wide _ f'.within lambda hl _).1 f'.minimal q hrq
  rw [hsh.kn_eq, ho, hk] at m'
  have hin : ∀ o ∈ data, s.kn (s.order - 1) ≤ o.1 ∧ o.1 ≤ s.kn (s.knots.length - s.order) := fun o ho =>
    f.within (o.1, o.2.1) (List.mem_map.2 ⟨o, ho, rfl⟩)
  have hv : ∀ t, s.kn (s.order - 1) ≤ t → t ≤ s.kn (s.knots.length - s.order) → ∀ (der : ℕ) d, val q t der d = val s t der d - val r t der d := by
    intro t t1 t2 der d
    rw [hq, val_comb f.wf f.wide hsh 1 (-1) t t1 t2 der]
    simp
    ring
  unfold slope at m m'
  rw [List.map_map] at m m'
  change (data.map fun o => ∑ d, (val s o.1 0 d - o.2.1 d) * val q o.1 0 d).sum + _ = 0 at m
  change (data.map fun o => ∑ d, (val r o.1 0 d - o.2.2 d) * val q o.1 0 d).sum + _ = 0 at m'
  have hint : (∫ t in (s.kn (s.order - 1))..(s.kn (s.knots.length - s.order)), ∑ d, val s t (penalty s.order) d * val q t (penalty s.order) d) -
      (∫ t in (s.kn (s.order - 1))..(s.kn (s.knots.length - s.order)), ∑ d, val r t (penalty s.order) d * val q t (penalty s.order) d) =
      Spec.bending q (s.kn (s.order - 1)) (s.kn (s.knots.length - s.order)) := by
    have i1 := val_mul_integrable f.wf f.wide hsq (penalty s.order)
    have i2 := val_mul_integrable f'.wf f'.wide hrq (penalty s.order)
    rw [hsh.kn_eq, ho, hk] at i2
    rw [← intervalIntegral.integral_sub i1 i2]
    unfold Spec.bending
    rw [hsq.order]
    refine intervalIntegral.integral_congr fun t ht => ?_
    rw [Set.uIcc_of_le hle] at ht
    rw [← sum_sub_distrib]
    refine sum_congr rfl fun d _ => ?_
    change _ = val q t (penalty s.order) d ^ 2
    rw [hv t ht.1 ht.2]
    ring
  have hpos := bending_nonneg q hle
  have hsum : (data.map fun o => ∑ d, val q o.1 0 d ^ 2).sum + (data.map fun o => ∑ d, (val q o.1 0 d - (o.2.1 d - o.2.2 d)) ^ 2).sum =
      Spec.change data + 2 *
        ((data.map fun o => ∑ d, (val s o.1 0 d - o.2.1 d) * val q o.1 0 d).sum +
          (-1) * (data.map fun o => ∑ d, (val r o.1 0 d - o.2.2 d) * val q o.1 0 d).sum) := by
    unfold Spec.change
    rw [← List.sum_map_add, ← sum_expand data _ _ _ (-1) fun o _ => rfl]
    refine sum_expand data _ _ _ 2 fun o ho => ?_
    rw [mul_add, mul_sum, mul_sum, mul_sum, ← sum_add_distrib, ← sum_add_distrib, ← sum_add_distrib]
    refine sum_congr rfl fun d _ => ?_
    rw [hv o.1 (hin o ho).1 (hin o ho).2]
    ring
  have hnn : 0 ≤ (data.map fun o => ∑ d, (val q o.1 0 d - (o.2.1 d - o.2.2 d)) ^ 2).sum := by
    refine List.sum_nonneg fun x hx => ?_
    obtain ⟨o, -, rfl⟩ := List.mem_map.1 hx
    exact sum_nonneg fun d _ => sq_nonneg _
  have hqn : ∀ x ∈ data.map fun o => ∑ d, val q o.1 0 d ^ 2, 0 ≤ x := fun x hx => by
    obtain ⟨o, -, rfl⟩ := List.mem_map.1 hx
    exact sum_nonneg fun d _ => sq_nonneg _
  have hlb := mul_nonneg hl hpos
  have hq0 := List.sum_nonneg hqn
  have hmm : (data.map fun o => ∑ d, (val s o.1 0 d - o.2.1 d) * val q o.1 0 d).sum +
      (-1) * (data.map fun o => ∑ d, (val r o.1 0 d - o.2.2 d) * val q o.1 0 d).sum =
      -(lambda * Spec.bending q (s.kn (s.order - 1)) (s.kn (s.knots.length - s.order))) := by
    rw [← hint, mul_sub]
    linarith
  rw [hmm] at hsum
  refine ⟨q, hsq, hv, fun o hod d => ?_, by linarith⟩
  have a1 : val q o.1 0 d ^ 2 ≤ ∑ d, val q o.1 0 d ^ 2 := single_le_sum (f := fun d => val q o.1 0 d ^ 2) (fun _ _ => sq_nonneg _) (mem_univ d)
  have a2 := List.single_le_sum hqn _ (List.mem_map.2 ⟨o, hod, rfl⟩)
  linarith

/-- Each derivative is a combination of values at finitely many times. -/
theorem combination_of_values {s : BSpline ℝ D} (h : s.WF) (hw : s.WideLast) (hd : DistinctKnots s) (hD : 0 < D) (t : ℝ)
    (h1 : s.kn (s.order - 1) ≤ t) (h2 : t ≤ s.kn (s.knots.length - s.order)) (der : ℕ) :
    ∃ c : {x : ℝ // s.kn (s.order - 1) ≤ x ∧ x ≤ s.kn (s.knots.length - s.order)} →₀ ℝ, ∀ q : BSpline ℝ D, SharedKnots s q → ∀ d,
      val q t der d = ∑ x ∈ c.support, c x * val q x.1 0 d := by
  have hwt : ∀ x : {x : ℝ // s.kn (s.order - 1) ≤ x ∧ x ≤ s.kn (s.knots.length - s.order)}, ∃ w : ℕ → ℕ → ℝ, ∀ (E : ℕ) (r : BSpline ℝ E),
      SharedKnots s r → ∀ der d, val r x.1 der d = ∑ j ∈ range s.coeffs.length, r.col j d * w der j := fun x => val_weights h hw _ x.2.1 x.2.2
  choose W hW using hwt
  obtain ⟨w, hwv⟩ := val_weights h hw t h1 h2
  set n := s.coeffs.length with hn
  have hmem : formOf (n := n) (fun j => w der j) ∈ Submodule.span ℝ (Set.range fun x => formOf (n := n) fun j => W x 0 j) := by
    refine FiniteDimensional.mem_span_of_iInf_ker_le_ker fun x hx => ?_
    rw [Submodule.mem_iInf] at hx
    set q : BSpline ℝ D := { s with coeffs := List.ofFn fun j _ => x j } with hq
    set z : BSpline ℝ D := { s with coeffs := List.ofFn fun (_ : Fin n) _ => 0 } with hz
    have hsh : SharedKnots s q := ⟨h.withCoeffs _ (by simp [hn]), rfl, rfl⟩
    have hsz : SharedKnots s z := ⟨h.withCoeffs _ (by simp [hn]), rfl, rfl⟩
    have hcol : ∀ j : Fin n, ∀ d, q.col j d = x j := fun j d => by
      unfold col
      rw [hq]
      dsimp only
      rw [List.getD_eq_getElem?_getD, List.getElem?_eq_getElem (by simp)]
      simp
    have hcolz : ∀ j : Fin n, ∀ d, z.col j d = 0 := fun j d => by
      unfold col
      rw [hz]
      dsimp only
      rw [List.getD_eq_getElem?_getD, List.getElem?_eq_getElem (by simp)]
      simp
    have hco := C109_curve z q hsz.wf (hsz.wide hw) ⟨hsh.wf, rfl, rfl⟩ (fun seg a b hab => by
      obtain ⟨i, i1, i2, rfl, rfl, i3⟩ := timeIntervalOf_eq hsz.wf hab
      rw [hsz.kn_eq]
      exact hd i (by simpa [hz] using i1) (by have := h.enough; have := h.order_pos; simp [hz] at i2 i3; omega)) (fun t lo hi e1 e2 t1 t2 => by
      rw [tMin_eq hsz.wf, Outcome.ok.injEq] at e1
      rw [tMax_eq hsz.wf, Outcome.ok.injEq] at e2
      rw [hsz.kn_eq, hsz.order] at e1
      rw [hsz.kn_eq, hsz.order, hsz.knots] at e2
      subst e1 e2
      have a1 := evalD_val hsh.wf (hsh.wide hw) t (by rw [hsh.kn_eq, hsh.order]; exact t1) (by rw [hsh.kn_eq, hsh.order, hsh.knots]; exact t2) 0
      have a2 := evalD_val hsz.wf (hsz.wide hw) t (by rw [hsz.kn_eq, hsz.order]; exact t1) (by rw [hsz.kn_eq, hsz.order, hsz.knots]; exact t2) 0
      refine a1.trans (Eq.trans (congrArg Outcome.ok (funext fun d => ?_)) a2.symm)
      rw [hW ⟨t, t1, t2⟩ D q hsh 0 d, hW ⟨t, t1, t2⟩ D z hsz 0 d, ← Fin.sum_univ_eq_sum_range (fun j => q.col j d * W ⟨t, t1, t2⟩ 0 j),
        ← Fin.sum_univ_eq_sum_range (fun j => z.col j d * W ⟨t, t1, t2⟩ 0 j)]
      have := LinearMap.mem_ker.1 (hx ⟨t, t1, t2⟩)
      have e1 : ∑ j : Fin n, q.col j d * W ⟨t, t1, t2⟩ 0 j = 0 := by
        refine Eq.trans (sum_congr rfl fun j _ => ?_) this
        rw [hcol]
      rw [e1]
      exact (sum_eq_zero fun j _ => by rw [hcolz, zero_mul]).symm)
    have hx0 : x = 0 := funext fun j => by
      rw [← hcol j ⟨0, hD⟩]
      refine Eq.trans ?_ (hcolz j ⟨0, hD⟩)
      unfold col
      rw [hco]
    rw [hx0]
    exact Submodule.zero_mem _
  obtain ⟨c, hc⟩ := Finsupp.mem_span_range_iff_exists_finsupp.1 hmem
  refine ⟨c, fun q hq d => ?_⟩
  have := LinearMap.congr_fun hc fun j => q.col j d
  unfold Finsupp.sum at this
  rw [LinearMap.sum_apply] at this
  rw [hwv D q hq der d, ← Fin.sum_univ_eq_sum_range (fun j => q.col j d * w der j)]
  refine Eq.trans this.symm (sum_congr rfl fun x _ => ?_)
  rw [hW x D q hq 0 d, ← Fin.sum_univ_eq_sum_range (fun j => q.col j d * W x 0 j)]
  rfl

/-- **C120**: for weights from a positive one on the value and each derivative of the fitted curve at each valid time are Lipschitz in the data values,
if there are two different times, with one constant for all these weights and all data values. -/
theorem C120_regularised (s₀ : BSpline ℝ D) (h : s₀.WF) (hw : s₀.WideLast) (hd : DistinctKnots s₀) (lo hi : ℝ) (hlo : s₀.tMin = .ok lo)
    (hhi : s₀.tMax = .ok hi) (t₁ t₂ : ℝ) (hne : t₁ ≠ t₂) (hin₁ : lo ≤ t₁ ∧ t₁ ≤ hi) (hin₂ : lo ≤ t₂ ∧ t₂ ≤ hi) (l₀ : ℝ) (hl₀ : 0 < l₀) (t : ℝ)
    (h1 : lo ≤ t) (h2 : t ≤ hi) (der : ℕ) :
    ∃ C : ℝ, 0 ≤ C ∧ ∀ (data : List (ℝ × (Fin D → ℝ) × (Fin D → ℝ))) (lambda : ℝ) (s r : BSpline ℝ D), t₁ ∈ data.map Prod.fst →
      t₂ ∈ data.map Prod.fst → l₀ ≤ lambda → FitResult (data.map fun o => (o.1, o.2.1)) lambda s →
      FitResult (data.map fun o => (o.1, o.2.2)) lambda r → s.order = s₀.order → s.knots = s₀.knots → r.order = s₀.order → r.knots = s₀.knots →
      ∀ d, |(s.evalD t der).getD 0 d - (r.evalD t der).getD 0 d| ≤ C * √(Spec.change data) := by
  rw [tMin_eq h, Outcome.ok.injEq] at hlo
  rw [tMax_eq h, Outcome.ok.injEq] at hhi
  subst hlo hhi
  rcases Nat.eq_zero_or_pos D with h0 | hD
  · subst h0
    exact ⟨0, le_rfl, fun _ _ _ _ _ _ _ _ _ _ _ _ _ d => d.elim0⟩
  set lo := s₀.kn (s₀.order - 1) with hlo
  set hi := s₀.kn (s₀.knots.length - s₀.order) with hhi
  have hch := fun t h1 h2 => chord_bound h hw hd t h1 h2
  choose! B hB0 hB using hch
  set R : ℝ → ℝ := fun t => √(B t / l₀) with hR
  -- the values
  set M : ℝ → ℝ := fun t => R t + ((1 + R t₁) + ((1 + R t₁) + (1 + R t₂)) * (|t - t₁| / |t₂ - t₁|)) with hM
  have hM0 : ∀ t, 0 ≤ M t := fun t => by
    have a := Real.sqrt_nonneg (B t / l₀)
    have b := Real.sqrt_nonneg (B t₁ / l₀)
    have c := Real.sqrt_nonneg (B t₂ / l₀)
    simp only [hM, hR]
    positivity
  have hval : ∀ (q : BSpline ℝ D) (N : ℝ), SharedKnots s₀ q → 0 ≤ N → l₀ * Spec.bending q lo hi ≤ N ^ 2 → ∀ d, |val q t₁ 0 d| ≤ N → |val q t₂ 0 d| ≤ N →
      ∀ t, lo ≤ t → t ≤ hi → |val q t 0 d| ≤ M t * N := by
    intro q N hq hN hb d hq1 hq2 t h1 h2
    have hdist : ∀ t, lo ≤ t → t ≤ hi → |val q t 0 d - Spec.chord q lo hi t d| ≤ R t * N := fun t h1 h2 => by
      refine abs_le_of_sq_le_sq ?_ (mul_nonneg (Real.sqrt_nonneg _) hN)
      refine (hB t h1 h2 q hq d).trans ?_
      rw [mul_pow, hR, Real.sq_sqrt (div_nonneg (hB0 t h1 h2) hl₀.le), div_mul_eq_mul_div, le_div_iff₀ hl₀, mul_assoc]
      exact mul_le_mul_of_nonneg_left (by linarith) (hB0 t h1 h2)
    obtain ⟨c₁, v₁, hline⟩ : ∃ c₁ v₁ : ℝ, ∀ t, Spec.chord q lo hi t d = c₁ + v₁ * t := by
      by_cases h2 : q.order = 2
      · refine ⟨(q.eval lo).getD 0 d, 0, fun t => ?_⟩
        unfold Spec.chord
        rw [if_pos h2]
        simp
      · refine ⟨(q.eval lo).getD 0 d - ((q.eval hi).getD 0 d - (q.eval lo).getD 0 d) / (hi - lo) * lo,
          ((q.eval hi).getD 0 d - (q.eval lo).getD 0 d) / (hi - lo), fun t => ?_⟩
        unfold Spec.chord
        rw [if_neg h2]
        ring
    simp only [hline] at hdist
    have a1 : |c₁ + v₁ * t₁| ≤ (1 + R t₁) * N := by
      have := hdist t₁ hin₁.1 hin₁.2
      rw [abs_le] at this hq1 ⊢
      constructor <;> linarith [this.1, this.2, hq1.1, hq1.2]
    have a2 : |c₁ + v₁ * t₂| ≤ (1 + R t₂) * N := by
      have := hdist t₂ hin₂.1 hin₂.2
      rw [abs_le] at this hq2 ⊢
      constructor <;> linarith [this.1, this.2, hq2.1, hq2.2]
    have hden : t₂ - t₁ ≠ 0 := sub_ne_zero.2 (Ne.symm hne)
    have e1 : c₁ + v₁ * t = (c₁ + v₁ * t₁) + ((c₁ + v₁ * t₂) - (c₁ + v₁ * t₁)) * ((t - t₁) / (t₂ - t₁)) := by
      field_simp
      ring
    have a3 : |(c₁ + v₁ * t₂) - (c₁ + v₁ * t₁)| ≤ ((1 + R t₁) + (1 + R t₂)) * N := (abs_sub _ _).trans (by linarith)
    have a4 := mul_le_mul_of_nonneg_right a3 (show 0 ≤ |t - t₁| / |t₂ - t₁| by positivity)
    have a5 : |c₁ + v₁ * t| ≤ (1 + R t₁) * N + ((1 + R t₁) + (1 + R t₂)) * N * (|t - t₁| / |t₂ - t₁|) := by
      rw [e1]
      refine (abs_add_le _ _).trans ?_
      rw [abs_mul, abs_div]
      exact add_le_add a1 a4
    have a6 := hdist t h1 h2
    have e2 : val q t 0 d = (val q t 0 d - (c₁ + v₁ * t)) + (c₁ + v₁ * t) := by ring
    rw [e2]
    refine (abs_add_le _ _).trans ((add_le_add a6 a5).trans (le_of_eq ?_))
    simp only [hM]
    ring
  -- the derivatives
  obtain ⟨c, hc⟩ := combination_of_values h hw hd hD t h1 h2 der
  refine ⟨∑ x ∈ c.support, |c x| * M x.1, sum_nonneg fun x _ => mul_nonneg (abs_nonneg _) (hM0 _), ?_⟩
  intro data lambda s r ht₁ ht₂ hl hs hr os ks or kr d
  have f := hs.fitted (hl₀.le.trans hl)
  have hss : SharedKnots s₀ s := ⟨f.wf, os, ks⟩
  obtain ⟨q, hq, hv, hq0, hqb⟩ := difference_bound data lambda (hl₀.le.trans hl) s r hs hr (or.trans os.symm) (kr.trans ks.symm)
  rw [hss.kn_eq, os, ks] at hv hqb
  have hsq : SharedKnots s₀ q := ⟨hq.wf, hq.order.trans os, hq.knots.trans ks⟩
  have hN := change_nonneg data
  have hle : lo ≤ hi := h1.trans h2
  have hb : l₀ * Spec.bending q lo hi ≤ √(Spec.change data) ^ 2 := by
    rw [Real.sq_sqrt hN]
    exact (mul_le_mul_of_nonneg_right hl (bending_nonneg q hle)).trans hqb
  have hpt : ∀ x ∈ data.map Prod.fst, |val q x 0 d| ≤ √(Spec.change data) := fun x hx => by
    obtain ⟨o, hod, rfl⟩ := List.mem_map.1 hx
    refine abs_le_of_sq_le_sq ?_ (Real.sqrt_nonneg _)
    rw [Real.sq_sqrt hN]
    exact hq0 o hod d
  change |val s t der d - val r t der d| ≤ _
  rw [← hv t h1 h2 der d, hc q hsq d, sum_mul]
  refine (abs_sum_le_sum_abs _ _).trans (sum_le_sum fun x _ => ?_)
  rw [abs_mul, mul_assoc]
  exact mul_le_mul_of_nonneg_left (hval q _ hsq (Real.sqrt_nonneg _) hb d (hpt _ ht₁) (hpt _ ht₂) x.1 x.2.1 x.2.2) (abs_nonneg _)

/-- **C120**: if the data times determine the curve, for all weights, zero included. -/
theorem C120_interlaced (s₀ : BSpline ℝ D) (h : s₀.WF) (hw : s₀.WideLast) (hs : StrictKnots s₀) (times : List ℝ) (lo hi : ℝ)
    (hlo : s₀.tMin = .ok lo) (hhi : s₀.tMax = .ok hi) (hin : ∀ x ∈ times, lo ≤ x ∧ x ≤ hi)
    (hint : Verif.Spec.Interlaced s₀.order s₀.kn s₀.coeffs.length times) (t : ℝ) (h1 : lo ≤ t) (h2 : t ≤ hi) (der : ℕ) :
    ∃ C : ℝ, 0 ≤ C ∧ ∀ (data : List (ℝ × (Fin D → ℝ) × (Fin D → ℝ))) (lambda : ℝ) (s r : BSpline ℝ D), data.map Prod.fst = times →
      0 ≤ lambda → FitResult (data.map fun o => (o.1, o.2.1)) lambda s →
      FitResult (data.map fun o => (o.1, o.2.2)) lambda r → s.order = s₀.order → s.knots = s₀.knots → r.order = s₀.order → r.knots = s₀.knots →
      ∀ d, |(s.evalD t der).getD 0 d - (r.evalD t der).getD 0 d| ≤ C * √(Spec.change data) := by
  rw [tMin_eq h, Outcome.ok.injEq] at hlo
  rw [tMax_eq h, Outcome.ok.injEq] at hhi
  subst hlo hhi
  rcases Nat.eq_zero_or_pos D with h0 | hD
  · subst h0
    exact ⟨0, le_rfl, fun _ _ _ _ _ _ _ _ _ _ _ _ d => d.elim0⟩
  obtain ⟨c, hc⟩ := combination_of_interlaced h hw hs hD times hin hint t h1 h2 der
  refine ⟨∑ i, |c i|, sum_nonneg fun i _ => abs_nonneg _, ?_⟩
  intro data lambda s r htimes hl hs hr os ks or kr d
  have f := hs.fitted hl
  have hss : SharedKnots s₀ s := ⟨f.wf, os, ks⟩
  obtain ⟨q, hq, hv, hq0, -⟩ := difference_bound data lambda hl s r hs hr (or.trans os.symm) (kr.trans ks.symm)
  rw [hss.kn_eq, os, ks] at hv
  have hsq : SharedKnots s₀ q := ⟨hq.wf, hq.order.trans os, hq.knots.trans ks⟩
  have hN := change_nonneg data
  change |val s t der d - val r t der d| ≤ _
  rw [← hv t h1 h2 der d, hc q hsq d, sum_mul]
  refine (abs_sum_le_sum_abs _ _).trans (sum_le_sum fun i _ => ?_)
  rw [abs_mul]
  refine mul_le_mul_of_nonneg_left ?_ (abs_nonneg _)
  have hx : times[i] ∈ data.map Prod.fst := by
    rw [htimes]
    exact List.getElem_mem _
  obtain ⟨o, hod, e⟩ := List.mem_map.1 hx
  refine abs_le_of_sq_le_sq ?_ (Real.sqrt_nonneg _)
  rw [Real.sq_sqrt hN, ← e]
  exact hq0 o hod d

/-! ### Examples -/

/-- The slope at the time 3, weights from 1 on. -/
example : ∃ C : ℝ, 0 ≤ C ∧ ∀ (lambda a b : ℝ), 1 ≤ lambda → ∃ s r : BSpline ℝ 1,
    FitResult [(0, ![1]), (1, ![a]), (2, ![-2]), (4, ![5])] lambda s ∧ FitResult [(0, ![1]), (1, ![b]), (2, ![-2]), (4, ![5])] lambda r ∧
      |(s.evalD 3 (1 : ℕ)).getD 0 0 - (r.evalD 3 (1 : ℕ)).getD 0 0| ≤ C * |a - b| := by
  obtain ⟨s₀, a1, a2, a3, a4, a5, a6⟩ := example_fit 1 (by norm_num) [(0, ![1]), (1, ![3]), (2, ![-2]), (4, ![5])] rfl
  have f := a1.fitted (by norm_num)
  obtain ⟨C, h0, hC⟩ := C120_regularised s₀ f.wf f.wide (example_distinct a2 a3 a4) 0 4 a5 a6 0 1 (by norm_num) (by norm_num) (by norm_num) 1 one_pos 3
    (by norm_num) (by norm_num) 1
  refine ⟨C, h0, fun lambda a b hl => ?_⟩
  obtain ⟨s, b1, b2, b3, b4, -, -⟩ := example_fit lambda (by linarith) [(0, ![1]), (1, ![a]), (2, ![-2]), (4, ![5])] rfl
  obtain ⟨r, c1, c2, c3, c4, -, -⟩ := example_fit lambda (by linarith) [(0, ![1]), (1, ![b]), (2, ![-2]), (4, ![5])] rfl
  refine ⟨s, r, b1, c1, ?_⟩
  have := hC [(0, ![1], ![1]), (1, ![a], ![b]), (2, ![-2], ![-2]), (4, ![5], ![5])] lambda s r (by simp) (by simp) hl b1 c1 (b2.trans a2.symm)
    (example_same a3 b3 a4 b4) (c2.trans a2.symm) (example_same a3 c3 a4 c4) 0
  unfold Spec.change at this
  simp only [List.map_cons, List.map_nil, List.sum_cons, List.sum_nil, univ_unique, sum_singleton, Fin.default_eq_zero, Matrix.cons_val_fin_one, sub_self,
    add_zero, zero_add, ne_eq, OfNat.ofNat_ne_zero, not_false_eq_true, zero_pow, Real.sqrt_sq_eq_abs] at this
  exact this

/-- The slope at the time 3, all weights. -/
example : ∃ C : ℝ, 0 ≤ C ∧ ∀ (lambda a b : ℝ), 0 ≤ lambda → ∃ s r : BSpline ℝ 1,
    FitResult [(0, ![1]), (1, ![a]), (2, ![-2]), (4, ![5])] lambda s ∧ FitResult [(0, ![1]), (1, ![b]), (2, ![-2]), (4, ![5])] lambda r ∧
      |(s.evalD 3 (1 : ℕ)).getD 0 0 - (r.evalD 3 (1 : ℕ)).getD 0 0| ≤ C * |a - b| := by
  obtain ⟨s₀, a1, a2, a3, a4, a5, a6⟩ := example_fit 1 (by norm_num) [(0, ![1]), (1, ![3]), (2, ![-2]), (4, ![5])] rfl
  have f := a1.fitted (by norm_num)
  have hc : s₀.coeffs.length = 4 := by have := f.wf.coeffs_len; omega
  have hst : StrictKnots s₀ := fun i j hij hj => by
    rw [a3] at hj
    rw [a4 i (by omega), a4 j hj]
    have : (i : ℝ) < j := by exact_mod_cast hij
    linarith
  have hint : Verif.Spec.Interlaced s₀.order s₀.kn s₀.coeffs.length [0, 1, 2, 4] := by
    rw [hc, a2]
    refine (interlaced_congr fun j hj => ?_).2 example_interlaced
    rw [a4 j hj]
    unfold Spec.evenKnot
    push_cast
    ring
  obtain ⟨C, h0, hC⟩ := C120_interlaced s₀ f.wf f.wide hst [0, 1, 2, 4] 0 4 a5 a6 (by norm_num) hint 3 (by norm_num) (by norm_num) 1
  refine ⟨C, h0, fun lambda a b hl => ?_⟩
  obtain ⟨s, b1, b2, b3, b4, -, -⟩ := example_fit lambda hl [(0, ![1]), (1, ![a]), (2, ![-2]), (4, ![5])] rfl
  obtain ⟨r, c1, c2, c3, c4, -, -⟩ := example_fit lambda hl [(0, ![1]), (1, ![b]), (2, ![-2]), (4, ![5])] rfl
  refine ⟨s, r, b1, c1, ?_⟩
  have := hC [(0, ![1], ![1]), (1, ![a], ![b]), (2, ![-2], ![-2]), (4, ![5], ![5])] lambda s r rfl hl b1 c1 (b2.trans a2.symm)
    (example_same a3 b3 a4 b4) (c2.trans a2.symm) (example_same a3 c3 a4 c4) 0
  unfold Spec.change at this
  simp only [List.map_cons, List.map_nil, List.sum_cons, List.sum_nil, univ_unique, sum_singleton, Fin.default_eq_zero, Matrix.cons_val_fin_one, sub_self,
    add_zero, zero_add, ne_eq, OfNat.ofNat_ne_zero, not_false_eq_true, zero_pow, Real.sqrt_sq_eq_abs] at this
  exact this

end Verif
