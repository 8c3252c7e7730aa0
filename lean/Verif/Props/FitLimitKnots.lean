import Verif.Props.FitLimit

/-!
# Property C119, the penalty at the knots

The results of `initSpline2` for orders three and four: with growing weight they approach the best line, too.
-/

set_option linter.unusedSectionVars false

namespace Verif

open Finset Polynomial BSpline

variable {D : ℕ}

/-- A linear form of the coefficients that vanishes where some others vanish is a combination of these. -/
theorem combination {s : BSpline ℝ D} (h : s.WF) (hD : 0 < D) (m : ℕ) (W : Fin m → ℕ → ℝ) (w : ℕ → ℝ)
    (hker : ∀ q : BSpline ℝ D, SharedKnots s q → (∀ i d, ∑ j ∈ range s.coeffs.length, q.col j d * W i j = 0) →
      ∀ d, ∑ j ∈ range s.coeffs.length, q.col j d * w j = 0) :
    ∃ c : Fin m → ℝ, ∀ q : BSpline ℝ D, SharedKnots s q → ∀ d,
      ∑ j ∈ range s.coeffs.length, q.col j d * w j = ∑ i, c i * ∑ j ∈ range s.coeffs.length, q.col j d * W i j := by
  set n := s.coeffs.length with hn
  have hmem : formOf (n := n) (fun j => w j) ∈ Submodule.span ℝ (Set.range fun i => formOf (n := n) fun j => W i j) := by
    refine mem_span_of_iInf_ker_le_ker fun x hx => ?_
    rw [Submodule.mem_iInf] at hx
    set q : BSpline ℝ D := { s with coeffs := List.ofFn fun j _ => x j } with hq
    have hsh : SharedKnots s q := ⟨h.withCoeffs _ (by simp [hn]), rfl, rfl⟩
    have hcol : ∀ j : Fin n, ∀ d, q.col j d = x j := fun j d => by
      unfold col
      rw [hq]
      dsimp only
      rw [List.getD_eq_getElem?_getD, List.getElem?_eq_getElem (by simp)]
      simp
    have hz := hker q hsh (fun i d => by
      rw [← Fin.sum_univ_eq_sum_range (fun j => q.col j d * W i j)]
      refine Eq.trans (sum_congr rfl fun j _ => ?_) (LinearMap.mem_ker.1 (hx i))
      rw [hcol]) ⟨0, hD⟩
    rw [← Fin.sum_univ_eq_sum_range (fun j => q.col j ⟨0, hD⟩ * w j)] at hz
    refine LinearMap.mem_ker.2 ?_
    change ∑ j : Fin n, x j * w j = 0
    refine Eq.trans (sum_congr rfl fun j _ => ?_) hz
    rw [hcol]
  obtain ⟨c, hc⟩ := (Submodule.mem_span_range_iff_exists_fun ℝ).1 hmem
  refine ⟨c, fun q hq d => ?_⟩
  have := LinearMap.congr_fun hc fun j => q.col j d
  rw [LinearMap.sum_apply] at this
  rw [← Fin.sum_univ_eq_sum_range (fun j => q.col j d * w j)]
  refine Eq.trans this.symm (sum_congr rfl fun i _ => ?_)
  rw [← Fin.sum_univ_eq_sum_range (fun j => q.col j d * W i j)]
  rfl

/-- For orders three and four the distance from the chord is bounded by the second derivatives at the knots. -/
theorem chord_bound_knots {s : BSpline ℝ D} {data : List (ℝ × (Fin D → ℝ))} {n : ℕ} (h : KnotFit s data n) (h34 : s.order = 3 ∨ s.order = 4) (t : ℝ)
    (h1 : s.kn (s.order - 1) ≤ t) (h2 : t ≤ s.kn (s.knots.length - s.order)) :
    ∃ C : ℝ, 0 ≤ C ∧ ∀ q : BSpline ℝ D, SharedKnots s q → ∀ d,
      |val q t 0 d - Spec.chord q (s.kn (s.order - 1)) (s.kn (s.knots.length - s.order)) t d| ≤ C * √(Spec.knotBending q n) := by
  rcases Nat.eq_zero_or_pos D with h0 | hD
  · subst h0
    exact ⟨0, le_rfl, fun _ _ d => d.elim0⟩
  have hk := h.wf.order_pos
  have hen := h.wf.enough
  have hseg := h.segments
  have hlt : s.kn (s.order - 1) < s.kn (s.knots.length - s.order) :=
    lt_of_lt_of_le (h.strict (s.order - 1) le_rfl (by omega)) (h.wf.mono _ _ (by omega) (by omega))
  set lo := s.kn (s.order - 1) with hlo
  set hi := s.kn (s.knots.length - s.order) with hhi
  have hkn : ∀ i : Fin (n + 1), lo ≤ s.kn (s.order - 1 + i) ∧ s.kn (s.order - 1 + i) ≤ hi := fun i => by
    have := i.2
    constructor <;> exact h.wf.mono _ _ (by omega) (by omega)
  choose W hW using fun i : Fin (n + 1) => val_weights h.wf h.wide _ (hkn i).1 (hkn i).2
  obtain ⟨w, hw⟩ := val_weights h.wf h.wide t h1 h2
  obtain ⟨a, ha⟩ := val_weights h.wf h.wide lo le_rfl hlt.le
  obtain ⟨b, hb⟩ := val_weights h.wf h.wide hi hlt.le le_rfl
  have hform : ∀ q : BSpline ℝ D, SharedKnots s q → ∀ d, val q t 0 d - Spec.chord q lo hi t d =
      ∑ j ∈ range s.coeffs.length, q.col j d * (w 0 j - (a 0 j + (b 0 j - a 0 j) / (hi - lo) * (t - lo))) := by
    intro q hq d
    unfold Spec.chord
    rw [if_neg (by rw [hq.order]; omega)]
    change val q t 0 d - (val q lo 0 d + (val q hi 0 d - val q lo 0 d) / (hi - lo) * (t - lo)) = _
    rw [hw D q hq, ha D q hq, hb D q hq, ← sum_sub_distrib, sum_div, sum_mul, ← sum_add_distrib, ← sum_sub_distrib]
    refine sum_congr rfl fun j _ => ?_
    ring
  obtain ⟨c, hc⟩ := combination h.wf hD (n + 1) (fun i => W i 2) (fun j => w 0 j - (a 0 j + (b 0 j - a 0 j) / (hi - lo) * (t - lo)))
    (fun q hq hz d => by
      rw [← hform q hq d]
      have hq' := h.shared hq
      have hz2 := second_zero hq'.wf hq'.wide hq'.segments hq'.strict (by rw [hq.order]; exact h34) fun i hin => by
        funext d
        rw [hq.kn_eq, hq.order]
        exact (hW ⟨i, by omega⟩ D q hq 2 d).trans (hz ⟨i, by omega⟩ d)
      obtain ⟨c, v, -, hev⟩ := straight_of_pieces hq'.wf hq'.wide hq'.strict 1 le_rfl (by rw [hq.order]; omega) hz2
      rw [hq.kn_eq, hq.order, hq.knots] at hev
      have e : ∀ x, lo ≤ x → x ≤ hi → (q.eval x).getD 0 d = c d + v d * x := fun x x1 x2 => by
        rw [hev x x1 x2]
        rfl
      change (q.eval t).getD 0 d - _ = 0
      unfold Spec.chord
      rw [if_neg (by rw [hq.order]; omega), e t h1 h2, e lo le_rfl hlt.le, e hi hlt.le le_rfl]
      have : hi - lo ≠ 0 := (sub_pos.2 hlt).ne'
      field_simp
      ring)
  refine ⟨∑ i, |c i|, sum_nonneg fun i _ => abs_nonneg _, fun q hq d => ?_⟩
  rw [hform q hq d, hc q hq d, sum_mul]
  refine (abs_sum_le_sum_abs _ _).trans (sum_le_sum fun i _ => ?_)
  rw [abs_mul]
  refine mul_le_mul_of_nonneg_left ?_ (abs_nonneg _)
  rw [← hW i D q hq 2 d, ← Real.sqrt_sq_eq_abs]
  refine Real.sqrt_le_sqrt ?_
  unfold Spec.knotBending
  have a1 : (val q (s.kn (s.order - 1 + i)) 2 d) ^ 2 ≤ ∑ d, (val q (s.kn (s.order - 1 + i)) 2 d) ^ 2 :=
    single_le_sum (f := fun d => (val q (s.kn (s.order - 1 + i)) 2 d) ^ 2) (fun _ _ => sq_nonneg _) (mem_univ d)
  refine a1.trans ?_
  rw [hq.kn_eq, hq.order]
  exact single_le_sum (f := fun i => ∑ d, (val q (s.kn (s.order - 1 + i)) 2 d) ^ 2) (fun _ _ => sum_nonneg fun _ _ => sq_nonneg _)
    (mem_range.2 i.2)

/-- A function near a line whose residuals are orthogonal to all lines is near the best line. -/
theorem best_line_bound {data : List (ℝ × (Fin D → ℝ))} {F : ℝ → Fin D → ℝ} (c₁ v₁ c v : Fin D → ℝ) (hb : Spec.BestLine False data c v)
    (hm : ∀ c' v' : Fin D → ℝ, (data.map fun o => ∑ d, (F o.1 d - o.2 d) * (c' d + v' d * o.1)).sum = 0) (R : ℝ → ℝ) (m : ℝ) (hm0 : 0 ≤ m)
    (hnear : ∀ o ∈ data, ∀ d, |F o.1 d - (c₁ d + v₁ d * o.1)| ≤ R o.1 * m) (o₁ o₂ : ℝ × (Fin D → ℝ)) (ho₁ : o₁ ∈ data) (ho₂ : o₂ ∈ data)
    (hne : o₁.1 ≠ o₂.1) (t : ℝ) (d : Fin D) (ht : |F t d - (c₁ d + v₁ d * t)| ≤ R t * m) :
    |F t d - (c d + v d * t)| ≤ (R t + (1 + 2 * |t - o₁.1| / |o₂.1 - o₁.1|) * √(data.map fun o => ∑ _d : Fin D, R o.1 ^ 2).sum) * m := by
  set K := (data.map fun o => ∑ _d : Fin D, R o.1 ^ 2).sum with hK
  have hK0 : 0 ≤ K := List.sum_nonneg fun x hx => by
    obtain ⟨o, -, rfl⟩ := List.mem_map.1 hx
    exact sum_nonneg fun d _ => sq_nonneg _
  set G := 1 + 2 * |t - o₁.1| / |o₂.1 - o₁.1| with hG
  set e : ℝ → Fin D → ℝ := fun t d => F t d - (c₁ d + v₁ d * t) with he
  set w : ℝ → Fin D → ℝ := fun t d => (c₁ d - c d) + (v₁ d - v d) * t with hwd
  have hm1 := hm (fun d => c₁ d - c d) (fun d => v₁ d - v d)
  have hm2 := hb.orthogonal (fun d => c₁ d - c d) (fun d => v₁ d - v d) (fun h => h.elim)
  have hww : (data.map fun o => ∑ d, w o.1 d ^ 2).sum ≤ (data.map fun o => ∑ d, e o.1 d ^ 2).sum := by
    have h0 : 0 ≤ (data.map fun o => ∑ d, (e o.1 d + w o.1 d) ^ 2).sum := List.sum_nonneg fun x hx => by
      obtain ⟨o, -, rfl⟩ := List.mem_map.1 hx
      exact sum_nonneg fun d _ => sq_nonneg _
    have e1 : (data.map fun o => ∑ d, (e o.1 d + w o.1 d) ^ 2).sum + (data.map fun o => ∑ d, w o.1 d ^ 2).sum +
        2 * (data.map fun o => ∑ d, (c d + v d * o.1 - o.2 d) * (c₁ d - c d + (v₁ d - v d) * o.1)).sum =
        (data.map fun o => ∑ d, e o.1 d ^ 2).sum + 2 * (data.map fun o => ∑ d, (F o.1 d - o.2 d) * (c₁ d - c d + (v₁ d - v d) * o.1)).sum := by
      rw [← list_sum_mul, ← list_sum_mul, ← list_sum_add, ← list_sum_add, ← list_sum_add]
      refine congrArg List.sum (List.map_congr_left fun o _ => sum_congr rfl fun d _ => ?_)
      simp only [he, hwd]
      ring
    rw [hm1, hm2] at e1
    linarith
  have hee : (data.map fun o => ∑ d, e o.1 d ^ 2).sum ≤ m ^ 2 * K := by
    rw [hK, ← list_sum_mul]
    refine List.sum_le_sum fun o hod => sum_le_sum fun d _ => ?_
    rw [← sq_abs, mul_comm, ← mul_pow]
    exact pow_le_pow_left₀ (abs_nonneg _) (hnear o hod d) 2
  have hpt : ∀ o ∈ data, |w o.1 d| ≤ √K * m := by
    intro o hod
    refine abs_le_of_sq_le_sq ?_ (mul_nonneg (Real.sqrt_nonneg _) hm0)
    rw [mul_pow, Real.sq_sqrt hK0]
    have := (le_list_sum data (fun o d => w o.1 d) o hod d).trans (hww.trans hee)
    linarith
  have hwt : |w t d| ≤ G * (√K * m) := by
    have hden : o₂.1 - o₁.1 ≠ 0 := sub_ne_zero.2 (Ne.symm hne)
    have e1 : w t d = w o₁.1 d + (w o₂.1 d - w o₁.1 d) * ((t - o₁.1) / (o₂.1 - o₁.1)) := by
      simp only [hwd]
      field_simp
      ring
    have a1 := hpt o₁ ho₁
    have a2 := hpt o₂ ho₂
    have a3 : |w o₂.1 d - w o₁.1 d| ≤ 2 * (√K * m) := (abs_sub _ _).trans (by linarith)
    rw [e1]
    refine (abs_add_le _ _).trans ?_
    rw [abs_mul, abs_div]
    have a4 := mul_le_mul_of_nonneg_right a3 (show 0 ≤ |t - o₁.1| / |o₂.1 - o₁.1| by positivity)
    refine (add_le_add a1 a4).trans (le_of_eq ?_)
    rw [hG]
    ring
  have hsplit : F t d - (c d + v d * t) = e t d + w t d := by
    simp only [he, hwd]
    ring
  rw [hsplit]
  refine (abs_add_le _ _).trans ((add_le_add ht hwt).trans (le_of_eq ?_))
  ring

/-- The residuals of `initSpline2` are orthogonal to every line. -/
theorem knot_moments {s : BSpline ℝ D} {data : List (ℝ × (Fin D → ℝ))} {n : ℕ} {lambda : ℝ} (h : KnotFit s data n) (ho : 2 ≤ s.order)
    (hopt : Spec.KnotOptimal s data n lambda) (c v : Fin D → ℝ) :
    (data.map fun o => ∑ d, (val s o.1 0 d - o.2 d) * (c d + v d * o.1)).sum = 0 := by
  obtain ⟨q, hq, hv⟩ := exists_polynomial h.wf h.wide (fun d => C (v d) * X + C (c d))
    (fun d => lt_of_lt_of_le (line_degree (c d) (v d) 2 (.inr rfl) (by omega)) ho)
  have m := (row_minimal_iff h.wf h.wide _ (h.rowsIn lambda)).1 ((knotOptimal_iff _ _ _ _).1 hopt) q hq
  have hin := h.rowsIn lambda
  unfold rowSlope knotRows at m
  rw [List.map_append, List.sum_append, List.map_map, List.map_map] at m
  have hz : (List.map ((fun r : DerRow D => ∑ d, r.res s d * (r.weight * val q r.time r.der d)) ∘
      fun i => (⟨s.kn (s.order - 1 + i), 2, lambda, 0⟩ : DerRow D)) (List.range (n + 1))).sum = 0 := by
    refine List.sum_eq_zero fun x hx => ?_
    obtain ⟨i, hi, rfl⟩ := List.mem_map.1 hx
    refine sum_eq_zero fun d _ => ?_
    obtain ⟨t1, t2⟩ := hin ⟨s.kn (s.order - 1 + i), 2, lambda, 0⟩ (mem_knotRows.2 (.inr ⟨i, by have := List.mem_range.1 hi; omega, rfl⟩))
    have := hv _ t1 t2 2 d
    rw [iterate_derivative_eq_zero (line_degree (c d) (v d) 2 (.inr rfl) (by omega)), eval_zero] at this
    change _ * (lambda * val q (s.kn (s.order - 1 + i)) 2 d) = 0
    rw [this, mul_zero, mul_zero]
  rw [hz, add_zero] at m
  refine Eq.trans (congrArg List.sum (List.map_congr_left fun o ho => sum_congr rfl fun d _ => ?_)) m
  change _ = (1 * val s o.1 0 d - o.2 d) * (1 * val q o.1 0 d)
  rw [hv o.1 (h.within o ho).1 (h.within o ho).2]
  simp
  ring_nf
  simp

/-- **C119**, the penalty at the knots: for orders three and four the results of `initSpline2` approach the best line, at every time at least as fast
as the inverse of the weight, which is squared there. -/
theorem C119_knots (s : BSpline ℝ D) (h34 : s.order = 3 ∨ s.order = 4) (data : List (ℝ × (Fin D → ℝ))) (n : ℕ) (hin : FitInput s data n)
    (c v : Fin D → ℝ) (hb : Spec.BestLine False data c v) (t : ℝ) (h1 : firstTime data ≤ t) (h2 : t ≤ lastTime data) :
    ∃ C : ℝ, 0 ≤ C ∧ ∀ (solve : Solver ℝ) (lambda : ℝ), SolvesSemidefinite solve → lambda ≠ 0 →
      ∃ s', s.initSpline2 solve data n lambda = .ok s' ∧ ∀ d, |(s'.eval t).getD 0 d - (c d + v d * t)| ≤ C / |lambda| := by
  obtain ⟨s₀, -, u₀, k₀, -⟩ := fit2_optimal choiceSolver choiceSolver_semidefinite s data n hin 1
  obtain ⟨g1, g2, -, -⟩ := u₀.facts k₀.wf hin.segments hin.wide
  have ho₀ := u₀.order_eq
  have hch := fun t h1 h2 => chord_bound_knots k₀ (by rw [ho₀]; exact h34) t h1 h2
  rw [g1, g2] at hch
  choose! B hB0 hB using hch
  obtain ⟨o₁, ho₁, o₂, ho₂, hne⟩ := k₀.distinct
  set E := (data.map fun o => ∑ d, (0 - o.2 d) ^ 2).sum with hE
  have hE0 : 0 ≤ E := List.sum_nonneg fun x hx => by
    obtain ⟨o, -, rfl⟩ := List.mem_map.1 hx
    exact sum_nonneg fun d _ => sq_nonneg _
  set R : ℝ → ℝ := fun t => B t * √E with hR
  have hRt : 0 ≤ R t := mul_nonneg (hB0 t h1 h2) (Real.sqrt_nonneg _)
  refine ⟨R t + (1 + 2 * |t - o₁.1| / |o₂.1 - o₁.1|) * √(data.map fun o => ∑ _d : Fin D, R o.1 ^ 2).sum, by positivity,
    fun solve lambda hsolve hl => ?_⟩
  obtain ⟨s', a1, a2, a3, a4⟩ := fit2_optimal solve hsolve s data n hin lambda
  have hsh : SharedKnots s₀ s' := u₀.same a3.wf a2
  refine ⟨s', a1, fun d => ?_⟩
  have hl0 : 0 < |lambda| := abs_pos.2 hl
  -- the cost of the zero curve
  have hbend : √(Spec.knotBending s' n) ≤ √E * (1 / |lambda|) := by
    obtain ⟨q, hq, hv⟩ := exists_polynomial a3.wf a3.wide (fun _ => 0) (fun d => by have := a3.wf.order_pos; simp; omega)
    have hc := a4 q hq
    have e1 : Spec.misfit q data = E := by
      rw [hE]
      refine congrArg List.sum (List.map_congr_left fun o ho => sum_congr rfl fun d _ => ?_)
      change (val q o.1 0 d - o.2 d) ^ 2 = _
      rw [hv o.1 (a3.within o ho).1 (a3.within o ho).2]
      simp
    have e2 : Spec.knotBending q n = 0 := by
      refine sum_eq_zero fun i hi => sum_eq_zero fun d _ => ?_
      obtain ⟨t1, t2⟩ := a3.rowsIn lambda ⟨s'.kn (s'.order - 1 + i), 2, lambda, 0⟩ (mem_knotRows.2 (.inr ⟨i, by have := mem_range.1 hi; omega, rfl⟩))
      have := hv _ t1 t2 2 d
      simp only [iterate_derivative_zero, eval_zero] at this
      change val q (q.kn (q.order - 1 + i)) 2 d ^ 2 = 0
      rw [hq.kn_eq, hq.order, this]
      simp
    unfold Spec.knotCost at hc
    rw [e1, e2, mul_zero, add_zero] at hc
    have hm := misfit_nonneg s' data
    rw [mul_one_div, ← Real.sqrt_sq hl0.le, ← Real.sqrt_div' _ (sq_nonneg _), sq_abs]
    refine Real.sqrt_le_sqrt ?_
    rw [le_div_iff₀ (by positivity)]
    linarith
  have hnear : ∀ t, firstTime data ≤ t → t ≤ lastTime data → ∀ d,
      |val s' t 0 d - Spec.chord s' (firstTime data) (lastTime data) t d| ≤ R t * (1 / |lambda|) := by
    intro t h1 h2 d
    refine (hB t h1 h2 s' hsh d).trans ?_
    rw [hR]
    dsimp only
    rw [mul_assoc]
    exact mul_le_mul_of_nonneg_left hbend (hB0 t h1 h2)
  have hline : ∀ t d, Spec.chord s' (firstTime data) (lastTime data) t d =
      ((s'.eval (firstTime data)).getD 0 d - ((s'.eval (lastTime data)).getD 0 d - (s'.eval (firstTime data)).getD 0 d) /
        (lastTime data - firstTime data) * firstTime data) +
      ((s'.eval (lastTime data)).getD 0 d - (s'.eval (firstTime data)).getD 0 d) / (lastTime data - firstTime data) * t := by
    intro t d
    unfold Spec.chord
    rw [if_neg (by rw [a2.order_eq]; omega)]
    ring
  simp only [hline] at hnear
  have hwithin : ∀ o ∈ data, firstTime data ≤ o.1 ∧ o.1 ≤ lastTime data := fun o ho => by
    have := k₀.within o ho
    rwa [g1, g2] at this
  have := best_line_bound (F := fun t d => val s' t 0 d) _ _ c v hb (knot_moments a3 (by rw [a2.order_eq]; omega) a4) R (1 / |lambda|)
    (by positivity) (fun o ho d => hnear o.1 (hwithin o ho).1 (hwithin o ho).2 d) o₁ o₂ ho₁ ho₂ hne t d (hnear t h1 h2 d)
  rw [mul_one_div] at this
  exact this

/-- **C119**, the penalty at the knots, small weights: the misfit of the result of `initSpline2` exceeds the least one by at most the squared weight
times the squared second derivatives at the knots of the result without a penalty; if the data determine this, the value and each derivative at each
time approach its ones, at least as fast as the weight. -/
theorem C119_knots_small (solve₀ : Solver ℝ) (hsolve₀ : SolvesSemidefinite solve₀) (s : BSpline ℝ D) (data : List (ℝ × (Fin D → ℝ))) (n : ℕ)
    (hin : FitInput s data n) (t : ℝ) (h1 : firstTime data ≤ t) (h2 : t ≤ lastTime data) (der : ℕ) :
    ∃ s₀, s.initSpline2 solve₀ data n 0 = .ok s₀ ∧ ∃ C : ℝ, 0 ≤ C ∧ ∀ (solve : Solver ℝ) (lambda : ℝ), SolvesSemidefinite solve →
      ∃ s', s.initSpline2 solve data n lambda = .ok s' ∧ Spec.misfit s' data ≤ Spec.misfit s₀ data + lambda ^ 2 * Spec.knotBending s₀ n ∧
        (Verif.Spec.Interlaced s.order (Spec.evenKnot s.order n (firstTime data) (lastTime data)) (n + s.order - 1) (data.map Prod.fst) →
          ∀ d, |(s'.evalD t der).getD 0 d - (s₀.evalD t der).getD 0 d| ≤ C * |lambda|) := by
  obtain ⟨s₀, a1, u₀, k₀, opt₀⟩ := fit2_optimal solve₀ hsolve₀ s data n hin 0
  obtain ⟨g1, g2, -, -⟩ := u₀.facts k₀.wf hin.segments hin.wide
  refine ⟨s₀, a1, ?_⟩
  -- the misfits
  have hkey : ∀ (solve : Solver ℝ) (lambda : ℝ), SolvesSemidefinite solve → ∃ s', s.initSpline2 solve data n lambda = .ok s' ∧ SharedKnots s₀ s' ∧
      Spec.misfit s' data ≤ Spec.misfit s₀ data + lambda ^ 2 * Spec.knotBending s₀ n ∧
      (data.map fun o => ∑ d, (val s' o.1 0 d - val s₀ o.1 0 d) ^ 2).sum ≤ lambda ^ 2 * Spec.knotBending s₀ n := by
    intro solve lambda hsolve
    obtain ⟨s', b1, b2, b3, b4⟩ := fit2_optimal solve hsolve s data n hin lambda
    have hsh : SharedKnots s₀ s' := u₀.same b3.wf b2
    have hc := b4 s₀ ⟨k₀.wf, hsh.order.symm, hsh.knots.symm⟩
    unfold Spec.knotCost at hc
    have hb : 0 ≤ lambda ^ 2 * Spec.knotBending s' n :=
      mul_nonneg (sq_nonneg _) (sum_nonneg fun i _ => sum_nonneg fun d _ => sq_nonneg _)
    refine ⟨s', b1, hsh, by linarith, ?_⟩
    have hs : ∀ q : BSpline ℝ D, SharedKnots s₀ q → (data.map fun o => ∑ d, (val s₀ o.1 0 d - o.2 d) * val q o.1 0 d).sum = 0 := by
      intro q hq
      have m := (row_minimal_iff k₀.wf k₀.wide _ (k₀.rowsIn 0)).1 ((knotOptimal_iff _ _ _ _).1 opt₀) q hq
      unfold rowSlope knotRows at m
      rw [List.map_append, List.sum_append, List.map_map, List.map_map] at m
      have hz : (List.map ((fun r : DerRow D => ∑ d, r.res s₀ d * (r.weight * val q r.time r.der d)) ∘
          fun i => (⟨s₀.kn (s₀.order - 1 + i), 2, 0, 0⟩ : DerRow D)) (List.range (n + 1))).sum = 0 := by
        refine List.sum_eq_zero fun x hx => ?_
        obtain ⟨i, hi, rfl⟩ := List.mem_map.1 hx
        refine sum_eq_zero fun d _ => ?_
        change _ * ((0 : ℝ) * _) = 0
        rw [zero_mul, mul_zero]
      rw [hz, add_zero] at m
      refine Eq.trans (congrArg List.sum (List.map_congr_left fun o ho => sum_congr rfl fun d _ => ?_)) m
      change _ = (1 * val s₀ o.1 0 d - o.2 d) * (1 * val q o.1 0 d)
      rw [one_mul, one_mul]
    have e : Spec.misfit s' data + 2 * (data.map fun o => ∑ d, (val s₀ o.1 0 d - o.2 d) * val s₀ o.1 0 d).sum =
        (data.map fun o => ∑ d, (val s' o.1 0 d - val s₀ o.1 0 d) ^ 2).sum + Spec.misfit s₀ data +
          2 * (data.map fun o => ∑ d, (val s₀ o.1 0 d - o.2 d) * val s' o.1 0 d).sum := by
      unfold Spec.misfit
      rw [← list_sum_mul, ← list_sum_mul, ← list_sum_add, ← list_sum_add, ← list_sum_add]
      refine congrArg List.sum (List.map_congr_left fun o _ => sum_congr rfl fun d _ => ?_)
      change (val s' o.1 0 d - o.2 d) ^ 2 + _ = _ + (val s₀ o.1 0 d - o.2 d) ^ 2 + _
      ring
    rw [hs s' hsh, hs s₀ ⟨k₀.wf, rfl, rfl⟩] at e
    linarith
  by_cases hint : Verif.Spec.Interlaced s.order (Spec.evenKnot s.order n (firstTime data) (lastTime data)) (n + s.order - 1) (data.map Prod.fst)
  · have hn0 : (0 : ℝ) < n := by exact_mod_cast hin.segments
    have hst : StrictKnots s₀ := u₀.strict (div_pos (sub_pos.2 hin.lt) hn0)
    obtain ⟨c, hc⟩ := combination_of_interlaced k₀.wf k₀.wide hst hin.dim (data.map Prod.fst) (fun t ht => by
      obtain ⟨o, ho, rfl⟩ := List.mem_map.1 ht
      exact k₀.within o ho) ((u₀.interlaced k₀.wf _).2 hint) t (by rw [g1]; exact h1) (by rw [g2]; exact h2) der
    refine ⟨(∑ i, |c i|) * √(Spec.knotBending s₀ n), mul_nonneg (sum_nonneg fun i _ => abs_nonneg _) (Real.sqrt_nonneg _), fun solve lambda hsolve => ?_⟩
    obtain ⟨s', b1, hsh, b2, b3⟩ := hkey solve lambda hsolve
    refine ⟨s', b1, b2, fun _ d => ?_⟩
    have hpt : ∀ t ∈ data.map Prod.fst, |val s' t 0 d - val s₀ t 0 d| ≤ √(Spec.knotBending s₀ n) * |lambda| := by
      intro t ht
      obtain ⟨o, hod, rfl⟩ := List.mem_map.1 ht
      rw [mul_comm, ← Real.sqrt_sq_eq_abs lambda, ← Real.sqrt_mul (sq_nonneg lambda), ← Real.sqrt_sq_eq_abs]
      exact Real.sqrt_le_sqrt (le_trans (le_list_sum data (fun o d => val s' o.1 0 d - val s₀ o.1 0 d) o hod d) b3)
    change |val s' t der d - val s₀ t der d| ≤ _
    rw [hc s' hsh d, hc s₀ ⟨k₀.wf, rfl, rfl⟩ d, ← sum_sub_distrib, mul_assoc, sum_mul]
    refine (abs_sum_le_sum_abs _ _).trans (sum_le_sum fun i _ => ?_)
    rw [← mul_sub, abs_mul]
    exact mul_le_mul_of_nonneg_left (hpt _ (List.getElem_mem _)) (abs_nonneg _)
  · refine ⟨0, le_rfl, fun solve lambda hsolve => ?_⟩
    obtain ⟨s', b1, -, b2, -⟩ := hkey solve lambda hsolve
    exact ⟨s', b1, b2, fun h => absurd h hint⟩

/-! ### Examples -/

/-- Order four, four points that are not on a line. -/
example : ∃ C : ℝ, 0 ≤ C ∧ ∀ lambda : ℝ, lambda ≠ 0 → ∃ s' : BSpline ℝ 1,
    (⟨4, [], [], []⟩ : BSpline ℝ 1).initSpline2 choiceSolver [(0, ![1]), (1, ![3]), (2, ![-2]), (4, ![5])] 2 lambda = .ok s' ∧
      |(s'.eval 2).getD 0 0 - 68 / 35| ≤ C / |lambda| := by
  have hf : firstTime ([(0, ![1]), (1, ![3]), (2, ![-2]), (4, ![5])] : List (ℝ × (Fin 1 → ℝ))) = 0 := by simp [firstTime]
  have hla : lastTime ([(0, ![1]), (1, ![3]), (2, ![-2]), (4, ![5])] : List (ℝ × (Fin 1 → ℝ))) = 4 := by simp [lastTime]
  have hin : FitInput (⟨4, [], [], []⟩ : BSpline ℝ 1) [(0, ![1]), (1, ![3]), (2, ![-2]), (4, ![5])] 2 :=
    ⟨by norm_num, by norm_num, by simp, by norm_num, by norm_num, by simp, by rw [hf, hla]; norm_num⟩
  obtain ⟨C, h0, hC⟩ := C119_knots _ (.inr rfl) _ 2 hin ![2 / 5] ![27 / 35] ⟨fun h => h.elim, fun c' v' _ => example_best.2 c' v' (by norm_num)⟩ 2
    (by rw [hf]; norm_num) (by rw [hla]; norm_num)
  refine ⟨C, h0, fun lambda hl => ?_⟩
  obtain ⟨s', a1, a2⟩ := hC choiceSolver lambda choiceSolver_semidefinite hl
  refine ⟨s', a1, ?_⟩
  have := a2 0
  norm_num at this
  exact this

/-- Order three, the slope at the time 3 for falling weight. -/
example : ∃ s₀ : BSpline ℝ 1, (⟨3, [], [], []⟩ : BSpline ℝ 1).initSpline2 choiceSolver [(0, ![1]), (1, ![3]), (2, ![-2]), (4, ![5])] 2 0 = .ok s₀ ∧
    ∃ C : ℝ, 0 ≤ C ∧ ∀ lambda : ℝ, ∃ s' : BSpline ℝ 1,
      (⟨3, [], [], []⟩ : BSpline ℝ 1).initSpline2 choiceSolver [(0, ![1]), (1, ![3]), (2, ![-2]), (4, ![5])] 2 lambda = .ok s' ∧
        |(s'.evalD 3 1).getD 0 0 - (s₀.evalD 3 1).getD 0 0| ≤ C * |lambda| := by
  have hf : firstTime ([(0, ![1]), (1, ![3]), (2, ![-2]), (4, ![5])] : List (ℝ × (Fin 1 → ℝ))) = 0 := by simp [firstTime]
  have hla : lastTime ([(0, ![1]), (1, ![3]), (2, ![-2]), (4, ![5])] : List (ℝ × (Fin 1 → ℝ))) = 4 := by simp [lastTime]
  have hin : FitInput (⟨3, [], [], []⟩ : BSpline ℝ 1) [(0, ![1]), (1, ![3]), (2, ![-2]), (4, ![5])] 2 :=
    ⟨by norm_num, by norm_num, by simp, by norm_num, by norm_num, by simp, by rw [hf, hla]; norm_num⟩
  obtain ⟨s₀, a1, C, h0, hC⟩ := C119_knots_small choiceSolver choiceSolver_semidefinite _ _ 2 hin 3 (by rw [hf]; norm_num) (by rw [hla]; norm_num) 1
  refine ⟨s₀, a1, C, h0, fun lambda => ?_⟩
  obtain ⟨s', b1, -, b2⟩ := hC choiceSolver lambda choiceSolver_semidefinite
  exact ⟨s', b1, b2 (by rw [hf, hla]; exact example_interlaced) 0⟩

end Verif
