import Verif.Props.FitContinuous
import Verif.Props.FitLimitKnots

/-!
# Property C120, the penalty at the knots

The results of `initSpline2` depend continuously on the data, too.
-/

set_option linter.unusedSectionVars false

namespace Verif

open Finset Polynomial BSpline

variable {D : ℕ}

/-- What `initSpline2` needs of the data are the times. -/
theorem fitInput_congr {s : BSpline ℝ D} {data data' : List (ℝ × (Fin D → ℝ))} {n : ℕ} (h : FitInput s data n)
    (e : data'.map Prod.fst = data.map Prod.fst) : FitInput s data' n ∧ firstTime data' = firstTime data ∧ lastTime data' = lastTime data := by
  have hlen : data'.length = data.length := by
    have := congrArg List.length e
    simpa using this
  have e1 : firstTime data' = firstTime data := by
    unfold firstTime
    rw [e]
  have e2 : lastTime data' = lastTime data := by
    unfold lastTime
    rw [e, hlen]
  exact ⟨⟨h.order, h.dim, by rw [hlen]; exact h.two, by rw [e]; exact h.sorted, h.segments, h.old, by rw [e1, e2]; exact h.wide⟩, e1, e2⟩

/-- The normal equations of `initSpline2`. -/
theorem knot_slope {s : BSpline ℝ D} {data : List (ℝ × (Fin D → ℝ))} {n : ℕ} {lambda : ℝ} (h : KnotFit s data n)
    (hopt : Spec.KnotOptimal s data n lambda) (q : BSpline ℝ D) (hq : SharedKnots s q) :
    (data.map fun o => ∑ d, (val s o.1 0 d - o.2 d) * val q o.1 0 d).sum +
      lambda ^ 2 * ∑ i ∈ range (n + 1), ∑ d, val s (s.kn (s.order - 1 + i)) 2 d * val q (s.kn (s.order - 1 + i)) 2 d = 0 := by
  have m := (row_minimal_iff h.wf h.wide _ (h.rowsIn lambda)).1 ((knotOptimal_iff _ _ _ _).1 hopt) q hq
  unfold rowSlope knotRows at m
  rw [List.map_append, List.sum_append, List.map_map, List.map_map] at m
  refine Eq.trans (congrArg₂ (· + ·) ?_ ?_) m
  · refine congrArg List.sum (List.map_congr_left fun o _ => sum_congr rfl fun d _ => ?_)
    change _ = (1 * val s o.1 0 d - o.2 d) * (1 * val q o.1 0 d)
    rw [one_mul, one_mul]
  · rw [mul_sum, ← List.sum_toFinset _ List.nodup_range, List.toFinset_range]
    refine sum_congr rfl fun i _ => ?_
    rw [mul_sum]
    refine sum_congr rfl fun d _ => ?_
    change _ = (lambda * val s (s.kn (s.order - 1 + i)) 2 d - 0) * (lambda * val q (s.kn (s.order - 1 + i)) 2 d)
    ring

/-- The difference of two results: its values at the data times and its second derivatives at the knots. -/
theorem knot_difference (data : List (ℝ × (Fin D → ℝ) × (Fin D → ℝ))) (n : ℕ) (lambda : ℝ) (s r : BSpline ℝ D)
    (h : KnotFit s (data.map fun o => (o.1, o.2.1)) n) (h' : KnotFit r (data.map fun o => (o.1, o.2.2)) n)
    (hopt : Spec.KnotOptimal s (data.map fun o => (o.1, o.2.1)) n lambda) (hopt' : Spec.KnotOptimal r (data.map fun o => (o.1, o.2.2)) n lambda)
    (hsh : SharedKnots s r) :
    ∃ q : BSpline ℝ D, SharedKnots s q ∧ (∀ t, s.kn (s.order - 1) ≤ t → t ≤ s.kn (s.knots.length - s.order) → ∀ (der : ℕ) d,
      val q t der d = val s t der d - val r t der d) ∧ (∀ o ∈ data, ∀ d, val q o.1 0 d ^ 2 ≤ Spec.change data) ∧
      lambda ^ 2 * Spec.knotBending q n ≤ Spec.change data := by
  set q := comb s r 1 (-1) with hq
  have hsq : SharedKnots s q := comb_same h.wf hsh 1 (-1)
  have hrq : SharedKnots r q := ⟨hsq.wf, hsq.order.trans hsh.order.symm, hsq.knots.trans hsh.knots.symm⟩
  have m := knot_slope h hopt q hsq
  have m' := knot_slope h' hopt' q hrq
  rw [hsh.kn_eq, hsh.order] at m'
  have hin : ∀ o ∈ data, s.kn (s.order - 1) ≤ o.1 ∧ o.1 ≤ s.kn (s.knots.length - s.order) := fun o ho =>
    h.within (o.1, o.2.1) (List.mem_map.2 ⟨o, ho, rfl⟩)
  have hv : ∀ t, s.kn (s.order - 1) ≤ t → t ≤ s.kn (s.knots.length - s.order) → ∀ (der : ℕ) d, val q t der d = val s t der d - val r t der d := by
    intro t t1 t2 der d
    rw [hq, val_comb h.wf h.wide hsh 1 (-1) t t1 t2 der]
    simp
    ring
  rw [List.map_map] at m m'
  change (data.map fun o => ∑ d, (val s o.1 0 d - o.2.1 d) * val q o.1 0 d).sum + _ = 0 at m
  change (data.map fun o => ∑ d, (val r o.1 0 d - o.2.2 d) * val q o.1 0 d).sum + _ = 0 at m'
  have hkn : (∑ i ∈ range (n + 1), ∑ d, val s (s.kn (s.order - 1 + i)) 2 d * val q (s.kn (s.order - 1 + i)) 2 d) -
      (∑ i ∈ range (n + 1), ∑ d, val r (s.kn (s.order - 1 + i)) 2 d * val q (s.kn (s.order - 1 + i)) 2 d) = Spec.knotBending q n := by
    unfold Spec.knotBending
    rw [← sum_sub_distrib]
    refine sum_congr rfl fun i hi => ?_
    rw [← sum_sub_distrib]
    refine sum_congr rfl fun d _ => ?_
    obtain ⟨t1, t2⟩ := h.rowsIn lambda ⟨s.kn (s.order - 1 + i), 2, lambda, 0⟩ (mem_knotRows.2 (.inr ⟨i, by have := mem_range.1 hi; omega, rfl⟩))
    change _ = val q (q.kn (q.order - 1 + i)) 2 d ^ 2
    rw [hsq.kn_eq, hsq.order, hv _ t1 t2]
    ring
  have hpos : 0 ≤ Spec.knotBending q n := sum_nonneg fun i _ => sum_nonneg fun d _ => sq_nonneg _
  have hsum : (data.map fun o => ∑ d, val q o.1 0 d ^ 2).sum + (data.map fun o => ∑ d, (val q o.1 0 d - (o.2.1 d - o.2.2 d)) ^ 2).sum =
      Spec.change data + 2 *
        ((data.map fun o => ∑ d, (val s o.1 0 d - o.2.1 d) * val q o.1 0 d).sum +
          (-1) * (data.map fun o => ∑ d, (val r o.1 0 d - o.2.2 d) * val q o.1 0 d).sum) := by
    unfold Spec.change
    rw [← List.sum_map_add, ← sum_expand data _ _ _ (-1) fun o _ => rfl]
    refine sum_expand data _ _ _ 2 fun o ho => ?_
    rw [mul_add, mul_sum, mul_sum, mul_sum, ← sum_add_distrib, ← sum_add_distrib, ← sum_add_distrib]
    refine sum_congr rfl fun d _ => ?_
    rw [hv o.1 (hin o ho).1 (hin o ho).2]
    ring
  have hnn : 0 ≤ (data.map fun o => ∑ d, (val q o.1 0 d - (o.2.1 d - o.2.2 d)) ^ 2).sum := by
    refine List.sum_nonneg fun x hx => ?_
    obtain ⟨o, -, rfl⟩ := List.mem_map.1 hx
    exact sum_nonneg fun d _ => sq_nonneg _
  have hqn : ∀ x ∈ data.map fun o => ∑ d, val q o.1 0 d ^ 2, 0 ≤ x := fun x hx => by
    obtain ⟨o, -, rfl⟩ := List.mem_map.1 hx
    exact sum_nonneg fun d _ => sq_nonneg _
  have hlb := mul_nonneg (sq_nonneg lambda) hpos
  have hq0 := List.sum_nonneg hqn
  have hmm : (data.map fun o => ∑ d, (val s o.1 0 d - o.2.1 d) * val q o.1 0 d).sum +
      (-1) * (data.map fun o => ∑ d, (val r o.1 0 d - o.2.2 d) * val q o.1 0 d).sum = -(lambda ^ 2 * Spec.knotBending q n) := by
    rw [← hkn, mul_sub]
    linarith
  rw [hmm] at hsum
  refine ⟨q, hsq, hv, fun o hod d => ?_, by linarith⟩
  have a1 : val q o.1 0 d ^ 2 ≤ ∑ d, val q o.1 0 d ^ 2 := single_le_sum (f := fun d => val q o.1 0 d ^ 2) (fun _ _ => sq_nonneg _) (mem_univ d)
  have a2 := List.single_le_sum hqn _ (List.mem_map.2 ⟨o, hod, rfl⟩)
  linarith

/-- A function near a line that is small at two times is small. -/
theorem near_line_bound (F : ℝ → ℝ) (c v N : ℝ) (R : ℝ → ℝ) (t₁ t₂ t : ℝ) (hne : t₁ ≠ t₂) (h1 : |F t₁ - (c + v * t₁)| ≤ R t₁ * N)
    (h2 : |F t₂ - (c + v * t₂)| ≤ R t₂ * N) (h : |F t - (c + v * t)| ≤ R t * N) (hF1 : |F t₁| ≤ N) (hF2 : |F t₂| ≤ N) :
    |F t| ≤ (R t + ((1 + R t₁) + ((1 + R t₁) + (1 + R t₂)) * (|t - t₁| / |t₂ - t₁|))) * N := by
  have a1 : |c + v * t₁| ≤ (1 + R t₁) * N := by
    rw [abs_le] at h1 hF1 ⊢
    constructor <;> linarith [h1.1, h1.2, hF1.1, hF1.2]
  have a2 : |c + v * t₂| ≤ (1 + R t₂) * N := by
    rw [abs_le] at h2 hF2 ⊢
    constructor <;> linarith [h2.1, h2.2, hF2.1, hF2.2]
  have hden : t₂ - t₁ ≠ 0 := sub_ne_zero.2 (Ne.symm hne)
  have e1 : c + v * t = (c + v * t₁) + ((c + v * t₂) - (c + v * t₁)) * ((t - t₁) / (t₂ - t₁)) := by
    field_simp
    ring
  have a3 : |(c + v * t₂) - (c + v * t₁)| ≤ ((1 + R t₁) + (1 + R t₂)) * N := (abs_sub _ _).trans (by linarith)
  have a4 := mul_le_mul_of_nonneg_right a3 (show 0 ≤ |t - t₁| / |t₂ - t₁| by positivity)
  have a5 : |c + v * t| ≤ (1 + R t₁) * N + ((1 + R t₁) + (1 + R t₂)) * N * (|t - t₁| / |t₂ - t₁|) := by
    rw [e1]
    refine (abs_add_le _ _).trans ?_
    rw [abs_mul, abs_div]
    exact add_le_add a1 a4
  have e2 : F t = (F t - (c + v * t)) + (c + v * t) := by ring
  rw [e2]
  refine (abs_add_le _ _).trans ((add_le_add h a5).trans (le_of_eq ?_))
  ring

/-- **C120**, the penalty at the knots: for orders three and four and weights of at least a positive size the value and each derivative of the result of
`initSpline2` at each valid time are Lipschitz in the data values, with one constant for all these weights and all data values. -/
theorem C120_knots (s : BSpline ℝ D) (h34 : s.order = 3 ∨ s.order = 4) (data₀ : List (ℝ × (Fin D → ℝ))) (n : ℕ) (hin : FitInput s data₀ n) (l₀ : ℝ)
    (hl₀ : 0 < l₀) (t : ℝ) (h1 : firstTime data₀ ≤ t) (h2 : t ≤ lastTime data₀) (der : ℕ) :
    ∃ C : ℝ, 0 ≤ C ∧ ∀ (solve : Solver ℝ) (data : List (ℝ × (Fin D → ℝ) × (Fin D → ℝ))) (lambda : ℝ), SolvesSemidefinite solve →
      data.map Prod.fst = data₀.map Prod.fst → l₀ ≤ |lambda| →
      ∃ s' r', s.initSpline2 solve (data.map fun o => (o.1, o.2.1)) n lambda = .ok s' ∧
        s.initSpline2 solve (data.map fun o => (o.1, o.2.2)) n lambda = .ok r' ∧
        ∀ d, |(s'.evalD t der).getD 0 d - (r'.evalD t der).getD 0 d| ≤ C * √(Spec.change data) := by
  obtain ⟨s₀, -, u₀, k₀, -⟩ := fit2_optimal choiceSolver choiceSolver_semidefinite s data₀ n hin 1
  obtain ⟨g1, g2, -, -⟩ := u₀.facts k₀.wf hin.segments hin.wide
  have ho₀ := u₀.order_eq
  have hch := fun t h1 h2 => chord_bound_knots k₀ (by rw [ho₀]; exact h34) t h1 h2
  choose! B hB0 hB using hch
  obtain ⟨o₁, ho₁, o₂, ho₂, hne⟩ := k₀.distinct
  set R : ℝ → ℝ := fun t => |B t| / l₀ with hR
  have hR0 : ∀ t, 0 ≤ R t := fun t => by simp only [hR]; positivity
  set M : ℝ → ℝ := fun t => R t + ((1 + R o₁.1) + ((1 + R o₁.1) + (1 + R o₂.1)) * (|t - o₁.1| / |o₂.1 - o₁.1|)) with hM
  have hM0 : ∀ t, 0 ≤ M t := fun t => by
    have a := hR0 t
    have b := hR0 o₁.1
    have c := hR0 o₂.1
    simp only [hM]
    positivity
  obtain ⟨c, hc⟩ := combination_of_values k₀.wf k₀.wide k₀.strict hin.dim t (by rw [g1]; exact h1) (by rw [g2]; exact h2) der
  refine ⟨∑ x ∈ c.support, |c x| * M x.1, sum_nonneg fun x _ => mul_nonneg (abs_nonneg _) (hM0 _), ?_⟩
  intro solve data lambda hsolve htimes hl
  obtain ⟨i1, f1, l1⟩ := fitInput_congr (data' := data.map fun o => (o.1, o.2.1)) hin (by rw [← htimes, List.map_map]; rfl)
  obtain ⟨i2, f2, l2⟩ := fitInput_congr (data' := data.map fun o => (o.1, o.2.2)) hin (by rw [← htimes, List.map_map]; rfl)
  obtain ⟨s', a1, a2, a3, a4⟩ := fit2_optimal solve hsolve s _ n i1 lambda
  obtain ⟨r', b1, b2, b3, b4⟩ := fit2_optimal solve hsolve s _ n i2 lambda
  rw [f1, l1] at a2
  rw [f2, l2] at b2
  have hss : SharedKnots s₀ s' := u₀.same a3.wf a2
  refine ⟨s', r', a1, b1, fun d => ?_⟩
  obtain ⟨q, hq, hv, hq0, hqb⟩ := knot_difference data n lambda s' r' a3 b3 a4 b4 (a2.same b3.wf b2)
  rw [hss.kn_eq, hss.order, hss.knots] at hv
  have hsq : SharedKnots s₀ q := ⟨hq.wf, hq.order.trans hss.order, hq.knots.trans hss.knots⟩
  have hN := change_nonneg data
  have hb : √(Spec.knotBending q n) ≤ √(Spec.change data) / l₀ := by
    rw [← Real.sqrt_sq hl₀.le, ← Real.sqrt_div' _ (sq_nonneg _)]
    refine Real.sqrt_le_sqrt ?_
    rw [le_div_iff₀ (by positivity), mul_comm]
    refine le_trans (mul_le_mul_of_nonneg_right ?_ (sum_nonneg fun i _ => sum_nonneg fun d _ => sq_nonneg _)) hqb
    rw [← sq_abs lambda]
    exact pow_le_pow_left₀ hl₀.le hl 2
  have hnear : ∀ x, s₀.kn (s₀.order - 1) ≤ x → x ≤ s₀.kn (s₀.knots.length - s₀.order) →
      |val q x 0 d - Spec.chord q (s₀.kn (s₀.order - 1)) (s₀.kn (s₀.knots.length - s₀.order)) x d| ≤ R x * √(Spec.change data) := by
    intro x x1 x2
    refine (hB x x1 x2 q hsq d).trans ((mul_le_mul_of_nonneg_left hb (hB0 x x1 x2)).trans (le_of_eq ?_))
    simp only [hR]
    rw [abs_of_nonneg (hB0 x x1 x2)]
    ring
  obtain ⟨c₁, v₁, hline⟩ : ∃ c₁ v₁ : ℝ, ∀ x, Spec.chord q (s₀.kn (s₀.order - 1)) (s₀.kn (s₀.knots.length - s₀.order)) x d = c₁ + v₁ * x := by
    rw [g1, g2]
    refine ⟨(q.eval (firstTime data₀)).getD 0 d - ((q.eval (lastTime data₀)).getD 0 d - (q.eval (firstTime data₀)).getD 0 d) /
        (lastTime data₀ - firstTime data₀) * firstTime data₀,
      ((q.eval (lastTime data₀)).getD 0 d - (q.eval (firstTime data₀)).getD 0 d) / (lastTime data₀ - firstTime data₀), fun x => ?_⟩
    unfold Spec.chord
    rw [if_neg (by rw [hsq.order, ho₀]; omega)]
    ring
  simp only [hline] at hnear
  have hpt : ∀ o ∈ data₀, |val q o.1 0 d| ≤ √(Spec.change data) := fun o₀ hx => by
    have hx' : o₀.1 ∈ data.map Prod.fst := by
      rw [htimes]
      exact List.mem_map.2 ⟨o₀, hx, rfl⟩
    obtain ⟨o, hod, e⟩ := List.mem_map.1 hx'
    refine abs_le_of_sq_le_sq ?_ (Real.sqrt_nonneg _)
    rw [Real.sq_sqrt hN, ← e]
    exact hq0 o hod d
  change |val s' t der d - val r' t der d| ≤ _
  rw [← hv t (by rw [g1]; exact h1) (by rw [g2]; exact h2) der d, hc q hsq d, sum_mul]
  refine (abs_sum_le_sum_abs _ _).trans (sum_le_sum fun x _ => ?_)
  rw [abs_mul, mul_assoc]
  refine mul_le_mul_of_nonneg_left ?_ (abs_nonneg _)
  exact near_line_bound (fun x => val q x 0 d) c₁ v₁ _ R o₁.1 o₂.1 x.1 hne (hnear _ (k₀.within o₁ ho₁).1 (k₀.within o₁ ho₁).2)
    (hnear _ (k₀.within o₂ ho₂).1 (k₀.within o₂ ho₂).2) (hnear _ x.2.1 x.2.2) (hpt o₁ ho₁) (hpt o₂ ho₂)

/-- **C120**, the penalty at the knots: if the data times determine the curve, for all orders and all weights. -/
theorem C120_knots_interlaced (s : BSpline ℝ D) (data₀ : List (ℝ × (Fin D → ℝ))) (n : ℕ) (hin : FitInput s data₀ n)
    (hint : Verif.Spec.Interlaced s.order (Spec.evenKnot s.order n (firstTime data₀) (lastTime data₀)) (n + s.order - 1) (data₀.map Prod.fst)) (t : ℝ)
    (h1 : firstTime data₀ ≤ t) (h2 : t ≤ lastTime data₀) (der : ℕ) :
    ∃ C : ℝ, 0 ≤ C ∧ ∀ (solve : Solver ℝ) (data : List (ℝ × (Fin D → ℝ) × (Fin D → ℝ))) (lambda : ℝ), SolvesSemidefinite solve →
      data.map Prod.fst = data₀.map Prod.fst →
      ∃ s' r', s.initSpline2 solve (data.map fun o => (o.1, o.2.1)) n lambda = .ok s' ∧
        s.initSpline2 solve (data.map fun o => (o.1, o.2.2)) n lambda = .ok r' ∧
        ∀ d, |(s'.evalD t der).getD 0 d - (r'.evalD t der).getD 0 d| ≤ C * √(Spec.change data) := by
  obtain ⟨s₀, -, u₀, k₀, -⟩ := fit2_optimal choiceSolver choiceSolver_semidefinite s data₀ n hin 1
  obtain ⟨g1, g2, -, -⟩ := u₀.facts k₀.wf hin.segments hin.wide
  have hn0 : (0 : ℝ) < n := by exact_mod_cast hin.segments
  have hst : StrictKnots s₀ := u₀.strict (div_pos (sub_pos.2 hin.lt) hn0)
  obtain ⟨c, hc⟩ := combination_of_interlaced k₀.wf k₀.wide hst hin.dim (data₀.map Prod.fst) (fun t ht => by
    obtain ⟨o, ho, rfl⟩ := List.mem_map.1 ht
    exact k₀.within o ho) ((u₀.interlaced k₀.wf _).2 hint) t (by rw [g1]; exact h1) (by rw [g2]; exact h2) der
  refine ⟨∑ i, |c i|, sum_nonneg fun i _ => abs_nonneg _, ?_⟩
  intro solve data lambda hsolve htimes
  obtain ⟨i1, f1, l1⟩ := fitInput_congr (data' := data.map fun o => (o.1, o.2.1)) hin (by rw [← htimes, List.map_map]; rfl)
  obtain ⟨i2, f2, l2⟩ := fitInput_congr (data' := data.map fun o => (o.1, o.2.2)) hin (by rw [← htimes, List.map_map]; rfl)
  obtain ⟨s', a1, a2, a3, a4⟩ := fit2_optimal solve hsolve s _ n i1 lambda
  obtain ⟨r', b1, b2, b3, b4⟩ := fit2_optimal solve hsolve s _ n i2 lambda
  rw [f1, l1] at a2
  rw [f2, l2] at b2
  have hss : SharedKnots s₀ s' := u₀.same a3.wf a2
  refine ⟨s', r', a1, b1, fun d => ?_⟩
  obtain ⟨q, hq, hv, hq0, -⟩ := knot_difference data n lambda s' r' a3 b3 a4 b4 (a2.same b3.wf b2)
  rw [hss.kn_eq, hss.order, hss.knots] at hv
  have hsq : SharedKnots s₀ q := ⟨hq.wf, hq.order.trans hss.order, hq.knots.trans hss.knots⟩
  have hN := change_nonneg data
  change |val s' t der d - val r' t der d| ≤ _
  rw [← hv t (by rw [g1]; exact h1) (by rw [g2]; exact h2) der d, hc q hsq d, sum_mul]
  refine (abs_sum_le_sum_abs _ _).trans (sum_le_sum fun i _ => ?_)
  rw [abs_mul]
  refine mul_le_mul_of_nonneg_left ?_ (abs_nonneg _)
  have hx : (data₀.map Prod.fst)[i] ∈ data.map Prod.fst := by
    rw [htimes]
    exact List.getElem_mem _
  obtain ⟨o, hod, e⟩ := List.mem_map.1 hx
  refine abs_le_of_sq_le_sq ?_ (Real.sqrt_nonneg _)
  rw [Real.sq_sqrt hN, ← e]
  exact hq0 o hod d

/-! ### Examples -/

/-- Order four, the slope at the time 3, weights from 1 on. -/
example : ∃ C : ℝ, 0 ≤ C ∧ ∀ (lambda a b : ℝ), 1 ≤ |lambda| → ∃ s' r' : BSpline ℝ 1,
    (⟨4, [], [], []⟩ : BSpline ℝ 1).initSpline2 choiceSolver [(0, ![1]), (1, ![a]), (2, ![-2]), (4, ![5])] 2 lambda = .ok s' ∧
    (⟨4, [], [], []⟩ : BSpline ℝ 1).initSpline2 choiceSolver [(0, ![1]), (1, ![b]), (2, ![-2]), (4, ![5])] 2 lambda = .ok r' ∧
      |(s'.evalD 3 (1 : ℕ)).getD 0 0 - (r'.evalD 3 (1 : ℕ)).getD 0 0| ≤ C * |a - b| := by
  have hf : firstTime ([(0, ![1]), (1, ![3]), (2, ![-2]), (4, ![5])] : List (ℝ × (Fin 1 → ℝ))) = 0 := by simp [firstTime]
  have hla : lastTime ([(0, ![1]), (1, ![3]), (2, ![-2]), (4, ![5])] : List (ℝ × (Fin 1 → ℝ))) = 4 := by simp [lastTime]
  have hin : FitInput (⟨4, [], [], []⟩ : BSpline ℝ 1) [(0, ![1]), (1, ![3]), (2, ![-2]), (4, ![5])] 2 :=
    ⟨by norm_num, by norm_num, by simp, by norm_num, by norm_num, by simp, by rw [hf, hla]; norm_num⟩
  obtain ⟨C, h0, hC⟩ := C120_knots _ (.inr rfl) _ 2 hin 1 one_pos 3 (by rw [hf]; norm_num) (by rw [hla]; norm_num) 1
  refine ⟨C, h0, fun lambda a b hl => ?_⟩
  obtain ⟨s', r', a1, a2, a3⟩ := hC choiceSolver [(0, ![1], ![1]), (1, ![a], ![b]), (2, ![-2], ![-2]), (4, ![5], ![5])] lambda
    choiceSolver_semidefinite rfl hl
  refine ⟨s', r', a1, a2, ?_⟩
  have := a3 0
  unfold Spec.change at this
  simp only [List.map_cons, List.map_nil, List.sum_cons, List.sum_nil, univ_unique, sum_singleton, Fin.default_eq_zero, Matrix.cons_val_fin_one, sub_self,
    add_zero, zero_add, ne_eq, OfNat.ofNat_ne_zero, not_false_eq_true, zero_pow, Real.sqrt_sq_eq_abs] at this
  exact this

/-- Order three, the slope at the time 3, all weights. -/
example : ∃ C : ℝ, 0 ≤ C ∧ ∀ (lambda a b : ℝ), ∃ s' r' : BSpline ℝ 1,
    (⟨3, [], [], []⟩ : BSpline ℝ 1).initSpline2 choiceSolver [(0, ![1]), (1, ![a]), (2, ![-2]), (4, ![5])] 2 lambda = .ok s' ∧
    (⟨3, [], [], []⟩ : BSpline ℝ 1).initSpline2 choiceSolver [(0, ![1]), (1, ![b]), (2, ![-2]), (4, ![5])] 2 lambda = .ok r' ∧
      |(s'.evalD 3 (1 : ℕ)).getD 0 0 - (r'.evalD 3 (1 : ℕ)).getD 0 0| ≤ C * |a - b| := by
  have hf : firstTime ([(0, ![1]), (1, ![3]), (2, ![-2]), (4, ![5])] : List (ℝ × (Fin 1 → ℝ))) = 0 := by simp [firstTime]
  have hla : lastTime ([(0, ![1]), (1, ![3]), (2, ![-2]), (4, ![5])] : List (ℝ × (Fin 1 → ℝ))) = 4 := by simp [lastTime]
  have hin : FitInput (⟨3, [], [], []⟩ : BSpline ℝ 1) [(0, ![1]), (1, ![3]), (2, ![-2]), (4, ![5])] 2 :=
    ⟨by norm_num, by norm_num, by simp, by norm_num, by norm_num, by simp, by rw [hf, hla]; norm_num⟩
  obtain ⟨C, h0, hC⟩ := C120_knots_interlaced _ _ 2 hin (by rw [hf, hla]; exact example_interlaced) 3 (by rw [hf]; norm_num) (by rw [hla]; norm_num) 1
  refine ⟨C, h0, fun lambda a b => ?_⟩
  obtain ⟨s', r', a1, a2, a3⟩ := hC choiceSolver [(0, ![1], ![1]), (1, ![a], ![b]), (2, ![-2], ![-2]), (4, ![5], ![5])] lambda
    choiceSolver_semidefinite rfl
  refine ⟨s', r', a1, a2, ?_⟩
  have := a3 0
  unfold Spec.change at this
  simp only [List.map_cons, List.map_nil, List.sum_cons, List.sum_nil, univ_unique, sum_singleton, Fin.default_eq_zero, Matrix.cons_val_fin_one, sub_self,
    add_zero, zero_add, ne_eq, OfNat.ofNat_ne_zero, not_false_eq_true, zero_pow, Real.sqrt_sq_eq_abs] at this
  exact this

end Verif
