import Verif.Model.UniformFit
import Verif.Props.Fitter
import Verif.Props.Fit
import Verif.Props.Knots
import Verif.Props.ManifoldConstant

/-!
# Property C74: initialising a manifold spline with uniform knots from points
-/

set_option linter.unusedSectionVars false

namespace Verif.MSpline

open Finset Polynomial

variable {D : ℕ}

/-! ## The knots -/

/-- The knots of the interval generator. -/
def uniformGrid {K : Type*} [Field K] (order n : ℕ) (a b : K) : List K :=
  (List.range (n + 2 * order - 1)).map fun j : ℕ => a + ((j : K) - ((order : K) - 1)) * ((b - a) / n)

section grid
variable {K : Type*} [Field K] [LinearOrder K] [IsStrictOrderedRing K] [FloorRing K]

theorem intervalGen_knots (order : ℕ) (ho : 1 ≤ order) (a b : K) (hab : a < b) (n : ℕ) (hn : 1 ≤ n) :
    IntervalGen.create (order : ℤ) a b (n : ℤ) = .ok ⟨⟨a, b, n, order⟩, 0, numKnotsRequiredInt n order⟩ ∧
      IntervalGen.knots (fieldPolicy K) ⟨⟨a, b, n, order⟩, 0, numKnotsRequiredInt n order⟩ = uniformGrid order n a b := by
  constructor
  · unfold IntervalGen.create
    rw [if_neg (by omega), if_neg (by simpa using hab)]
  · unfold IntervalGen.knots uniformGrid
    have hnum : (numKnotsRequiredInt (n : ℤ) (order : ℤ) - 0).toNat = n + 2 * order - 1 := by
      simp only [numKnotsRequiredInt, numControlVerticesRequired]
      omega
    dsimp only
    rw [hnum]
    refine List.map_congr_left fun j _ => ?_
    simp only [UniformTimeCalculator.getTimeByKnotIndex, preambleKnots]
    rw [linearlyInterpolate_field a b n hn]
    push_cast
    ring

theorem uniformGrid_length (order n : ℕ) (a b : K) : (uniformGrid order n a b).length = n + 2 * order - 1 := by
  unfold uniformGrid
  simp

theorem uniformGrid_get (order n : ℕ) (a b : K) (j : ℕ) (hj : j < n + 2 * order - 1) :
    (uniformGrid order n a b)[j]? = some (a + ((j : K) - ((order : K) - 1)) * ((b - a) / n)) := by
  unfold uniformGrid
  rw [List.getElem?_map, List.getElem?_range hj]
  rfl

theorem uniformGrid_sorted (order n : ℕ) (hn : 1 ≤ n) (a b : K) (hab : a < b) : (uniformGrid order n a b).Pairwise (· < ·) := by
  have hn' : (0 : K) < n := by exact_mod_cast hn
  have hstep : 0 < (b - a) / (n : K) := div_pos (sub_pos.2 hab) hn'
  unfold uniformGrid
  rw [List.pairwise_map]
  refine List.Pairwise.imp ?_ List.pairwise_lt_range
  intro i j hij
  have : (i : K) < j := by exact_mod_cast hij
  nlinarith

theorem uniformGrid_min (order : ℕ) (ho : 1 ≤ order) (n : ℕ) (hn : 1 ≤ n) (a b : K) : (uniformGrid order n a b)[order - 1]? = some a := by
  rw [uniformGrid_get order n a b _ (by omega), Nat.cast_sub ho]
  refine congrArg some ?_
  push_cast
  ring

theorem uniformGrid_max (order : ℕ) (ho : 1 ≤ order) (n : ℕ) (hn : 1 ≤ n) (a b : K) :
    (uniformGrid order n a b)[(uniformGrid order n a b).length - order]? = some b := by
  have hn' : (0 : K) < n := by exact_mod_cast hn
  rw [uniformGrid_length, uniformGrid_get order n a b _ (by omega), show n + 2 * order - 1 - order = n + (order - 1) by omega, Nat.cast_add,
    Nat.cast_sub ho]
  refine congrArg some ?_
  push_cast
  field_simp
  ring

/-- The index resolver of the generator gives the last knot not after a time of the interval. -/
theorem uniformGrid_resolver (order : ℕ) (ho : 1 ≤ order) (n : ℕ) (hn : 1 ≤ n) (a b : K) (hab : a < b) (t : K) (h1 : a ≤ t) (h2 : t ≤ b)
    (j : ℕ) (hj : LastKnot (uniformGrid order n a b) t j) :
    UniformTimeCalculator.getKnotIndexAtTime (fieldPolicy K) ⟨a, b, n, order⟩ t = j := by
  have hn' : (0 : K) < n := by exact_mod_cast hn
  have hstep : 0 < (b - a) / (n : K) := div_pos (sub_pos.2 hab) hn'
  obtain ⟨⟨x, hx, hxt⟩, hy⟩ := hj
  have hlen : j < n + 2 * order - 1 := by
    have := (List.getElem?_eq_some_iff.1 hx).1
    rwa [uniformGrid_length] at this
  rw [uniformGrid_get order n a b j hlen, Option.some.injEq] at hx
  have hy' : t < a + (((j + 1 : ℕ) : K) - ((order : K) - 1)) * ((b - a) / n) := by
    by_cases hc : j + 1 < n + 2 * order - 1
    · exact hy _ (uniformGrid_get order n a b (j + 1) hc)
    · have : ((n + order - 1 : ℕ) : K) + 1 ≤ ((j + 1 : ℕ) : K) := by
        have : n + order - 1 + 1 ≤ j + 1 := by omega
        exact_mod_cast this
      rw [Nat.cast_sub (by omega), Nat.cast_add, Nat.cast_one] at this
      have hb : b = a + (n : K) * ((b - a) / n) := by field_simp; ring
      have : (n : K) * ((b - a) / n) < (((j + 1 : ℕ) : K) - ((order : K) - 1)) * ((b - a) / n) := by
        apply mul_lt_mul_of_pos_right _ hstep
        linarith
      linarith
  obtain ⟨c1, c2⟩ := C34_bracket order n hn a b hab t h1
  set i := UniformTimeCalculator.getKnotIndexAtTime (fieldPolicy K) ⟨a, b, n, order⟩ t
  have e : ∀ m : ℤ, UniformTimeCalculator.getTimeByKnotIndex (fieldPolicy K) ⟨a, b, n, order⟩ m
      = a + ((m : K) - ((order : K) - 1)) * ((b - a) / n) := by
    intro m
    simp only [UniformTimeCalculator.getTimeByKnotIndex, preambleKnots]
    rw [linearlyInterpolate_field a b n hn]
    push_cast
    ring
  rw [e] at c1 c2
  rw [← hx] at hxt
  have l1 : (i : K) < ((j + 1 : ℕ) : K) := by
    by_contra hc
    push Not at hc
    have := mul_le_mul_of_nonneg_right (sub_le_sub_right hc ((order : K) - 1)) hstep.le
    linarith
  have l2 : (j : K) < ((i + 1 : ℤ) : K) := by
    by_contra hc
    push Not at hc
    have := mul_le_mul_of_nonneg_right (sub_le_sub_right hc ((order : K) - 1)) hstep.le
    linarith
  have l1' : i < ((j + 1 : ℕ) : ℤ) := by exact_mod_cast l1
  have l2' : (j : ℤ) < i + 1 := by exact_mod_cast l2
  omega

end grid

/-! ## The fit is optimal -/

/-- **C74**: initialising with a number of segments succeeds for every order, non-empty interval and positive number of segments if the times
lie in the interval and are bounded by the first and the last one.  The knots divide the interval evenly, the valid interval is the one
given, and among all splines with these knots that differ in the vertices relevant for the times the result has minimal cost. -/
theorem C74_uniform (dense : Bool) (solve : Solver ℝ) (hsolve : SolvesSemidefinite solve) (order : ℕ) (ho : 1 ≤ order) (hD : 1 ≤ D)
    (a b : ℝ) (hab : a < b) (n : ℕ) (hn : 1 ≤ n) (times : List ℝ) (points : List (Fin D → ℝ)) (t0 tl : ℝ)
    (hlen : times.length = points.length) (hnum : 2 ≤ points.length) (ht0 : times.head? = some t0) (htl : times.getLast? = some tl)
    (hb : ∀ t ∈ times, t0 ≤ t ∧ t ≤ tl) (h0 : a ≤ t0) (hl : tl ≤ b) (lambda : ℝ) (hlam : 0 ≤ lambda) :
    ∃ (s : MSpline ℝ (Fin D → ℝ)) (v : ℕ → Fin D → ℝ) (i0 il : ℕ),
      (create order).initUniformFit dense solve id (euclidean ℝ (Fin D → ℝ)) (fieldPolicy ℝ) a b times points n lambda
        = (.ok (), s.withVerts v) ∧
      s.order = order ∧ s.state = .evaluable ∧ s.keys.length = n + 2 * order - 1 ∧
      (∀ j : ℕ, j < n + 2 * order - 1 → s.keys[j]? = some (a + ((j : ℝ) - ((order : ℝ) - 1)) * ((b - a) / n))) ∧
      RegularReach (euclidean ℝ (Fin D → ℝ)) order s ∧
      s.InSeg t0 i0 ∧ s.InSeg tl il ∧
      ∀ v' : ℕ → Fin D → ℝ, (∀ j, ¬ (i0 + 1 - order ≤ j ∧ j ≤ il) → v' j = v j) →
        (s.withVerts v).fitterCost (times.zip points) none lambda a b ≤ (s.withVerts v').fitterCost (times.zip points) none lambda a b := by
  obtain ⟨g1, g2⟩ := intervalGen_knots order ho a b hab n hn
  obtain ⟨s, v, i0, il, r1, r2, r3, rr, r4, r5, r6, r7, -⟩ := C38_init_optimal dense solve hsolve order ho hD (uniformGrid order n a b)
    (uniformGrid_sorted order n hn a b hab) (by rw [uniformGrid_length]; omega) a b (uniformGrid_min order ho n hn a b)
    (uniformGrid_max order ho n hn a b)
    (some fun t => .ok (UniformTimeCalculator.getKnotIndexAtTime (fieldPolicy ℝ) ⟨a, b, n, order⟩ t)) times points t0 tl hlen hnum
    (by
      rintro rs hrs
      rw [Option.some.injEq] at hrs
      subst hrs
      refine ⟨0, fun t ht j hj => ?_⟩
      dsimp only
      rw [uniformGrid_resolver order ho n hn a b hab t (le_trans h0 (hb t ht).1) (le_trans (hb t ht).2 hl) j hj, zero_add])
    ht0 htl hb h0 hl lambda hlam
  refine ⟨s, v, i0, il, ?_, r2, r3, by rw [r1, uniformGrid_length], fun j hj => by rw [r1]; exact uniformGrid_get order n a b j hj, rr, r4, r5, r7⟩
  unfold initUniformFit
  have hc : (create order : MSpline ℝ (Fin D → ℝ)).state = .constructing := rfl
  have hcr : (create order : MSpline ℝ (Fin D → ℝ)).order = order := rfl
  rw [hc, ht0, htl, hcr, g1]
  dsimp only
  rw [if_neg (not_lt.2 h0), if_neg (not_lt.2 hl), g2]
  exact r6

/-! ## Straight lines -/

/-- The curve on interval `i` as a polynomial. -/
noncomputable def curvePoly (s : MSpline ℝ (Fin D → ℝ)) (w : ℕ → ℕ → ℝ) (i d : ℕ) : ℝ[X] :=
  ∑ j ∈ range (s.keys.length - s.order), C (w j d) * piece s.kn i (s.order - 1) j

theorem curvePoly_local {s : MSpline ℝ (Fin D → ℝ)} (h : s.MWF) (w : ℕ → ℕ → ℝ) (i d : ℕ) (h1 : s.order ≤ i + 1)
    (h2 : i + s.order < s.keys.length) :
    s.curvePoly w i d = ∑ j ∈ Ico (i - (s.order - 1)) (i + 1), C (w j d) * piece s.kn i (s.order - 1) j := by
  have hk := h.order_pos
  unfold curvePoly
  symm
  apply sum_subset
  · intro j hj
    have := mem_Ico.1 hj
    exact mem_range.2 (by omega)
  · intro j _ hj
    have hj' : j < i - (s.order - 1) ∨ i < j := by
      by_contra hcon
      exact hj (mem_Ico.2 (by omega))
    rcases hj' with hj' | hj'
    · rw [piece_zero_of_gt _ _ _ _ (by omega), mul_zero]
    · rw [piece_zero_of_lt _ _ _ _ hj', mul_zero]

theorem curveVal_poly {s : MSpline ℝ (Fin D → ℝ)} (h : s.MWF) (w : ℕ → ℕ → ℝ) (i d der : ℕ) (t : ℝ) (h1 : s.order ≤ i + 1)
    (h2 : i + s.order < s.keys.length) : s.curveVal w i der t d = (derivative^[der] (s.curvePoly w i d)).eval t := by
  have hk := h.order_pos
  rw [curvePoly_local h w i d h1 h2, iterate_derivative_sum, eval_finsetSum, sum_Ico_eq_sum_range,
    show i + 1 - (i - (s.order - 1)) = s.order by omega]
  unfold curveVal
  refine sum_congr rfl fun c _ => ?_
  rw [iterate_derivative_C_mul, eval_mul, eval_C, show i + 1 - s.order = i - (s.order - 1) by omega, mul_comm]

/-- The vertices of a straight line. -/
noncomputable def lineVerts (s : MSpline ℝ (Fin D → ℝ)) (p q : Fin D → ℝ) (j : ℕ) (d : Fin D) : ℝ :=
  p d + q d * ((∑ l ∈ range (s.order - 1), s.kn (j + 1 + l)) / ((s.order - 1 : ℕ) : ℝ))

theorem curvePoly_line {s : MSpline ℝ (Fin D → ℝ)} (h : s.MWF) (ho : 2 ≤ s.order) (p q : Fin D → ℝ) (w : ℕ → ℕ → ℝ)
    (hw : ∀ j (d : Fin D), j < s.keys.length - s.order → w j d = s.lineVerts p q j d) (i : ℕ) (h1 : s.order ≤ i + 1) (h2 : i + s.order < s.keys.length) (d : Fin D) :
    s.curvePoly w i d = C (p d) + C (q d) * X := by
  have hk0 : ((s.order - 1 : ℕ) : ℝ) ≠ 0 := by exact_mod_cast (by omega : s.order - 1 ≠ 0)
  have hlt : s.kn i < s.kn (i + 1) := h.strict (by omega) (by omega)
  rw [curvePoly_local h w i d h1 h2]
  have e : ∀ j ∈ Ico (i - (s.order - 1)) (i + 1), C (w j d) * piece s.kn i (s.order - 1) j
      = C (p d) * piece s.kn i (s.order - 1) j
        + C (q d * (1 / ((s.order - 1 : ℕ) : ℝ)))
          * (C (knotSum s.kn (s.order - 1) j) * piece s.kn i (s.order - 1) j) := by
    intro j hj
    have := mem_Ico.1 hj
    rw [hw j d (by omega)]
    unfold lineVerts knotSum
    rw [← mul_assoc, ← C_mul, ← add_mul, ← C_add]
    congr 3
    ring
  rw [sum_congr rfl e, sum_add_distrib, ← mul_sum, ← mul_sum,
    piece_sum_one s.kn s.keys.length i h.mono hlt _ (by omega) (by omega),
    piece_linear s.kn s.keys.length i h.mono hlt _ (by omega) (by omega), ← mul_assoc, ← C_mul]
  have : q d * (1 / ((s.order - 1 : ℕ) : ℝ)) * ((s.order - 1 : ℕ) : ℝ) = q d := by
    field_simp
  rw [this, mul_one]

theorem curvePoly_join {s : MSpline ℝ (Fin D → ℝ)} (h : s.MWF) (w : ℕ → ℕ → ℝ) (i d der : ℕ) (h1 : s.order ≤ i + 1)
    (h2 : i + 1 + s.order < s.keys.length) (hder : der + 2 ≤ s.order) :
    (derivative^[der] (s.curvePoly w i d)).eval (s.kn (i + 1)) = (derivative^[der] (s.curvePoly w (i + 1) d)).eval (s.kn (i + 1)) := by
  unfold curvePoly
  rw [iterate_derivative_sum, iterate_derivative_sum, eval_finsetSum, eval_finsetSum]
  refine sum_congr rfl fun j hj => ?_
  have hj := mem_range.1 hj
  rw [iterate_derivative_C_mul, iterate_derivative_C_mul, eval_mul, eval_mul]
  congr 1
  exact piece_join_derivative s.kn s.keys.length i 1 h.mono (s.kn (i + 1)) (h.strict (by omega) (by omega)) (h.strict (by omega) (by omega))
    le_rfl (fun l l1 l2 => by rw [show l = i + 1 by omega]) der (s.order - 1) j (by omega) (by omega)

/-- A polynomial without second derivative. -/
theorem affine_of_second (e : ℝ[X]) (h : derivative^[2] e = 0) : ∃ c0 c1 : ℝ, e = C c0 + C c1 * X := by
  have h1 : derivative (derivative e) = 0 := h
  have h2 := eq_C_of_natDegree_eq_zero (natDegree_eq_zero_of_derivative_eq_zero h1)
  set c1 := (derivative e).coeff 0
  have h3 : derivative (e - C c1 * X) = 0 := by rw [derivative_sub, h2]; simp
  have h4 := eq_C_of_natDegree_eq_zero (natDegree_eq_zero_of_derivative_eq_zero h3)
  exact ⟨_, c1, by rw [← h4]; ring⟩

/-- Vertices without cost for points on a straight line. -/
theorem zero_cost {s : MSpline ℝ (Fin D → ℝ)} (h : s.MWF) (he : s.state = .evaluable) (w : ℕ → ℕ → ℝ) (p q : Fin D → ℝ)
    (data : List (ℝ × (Fin D → ℝ))) (idx : ℝ → ℕ) (hidx : ∀ x ∈ data, s.InSeg x.1 (idx x.1))
    (hline : ∀ x ∈ data, ∀ d, x.2 d = p d + q d * x.1) (lambda : ℝ) (hlam : 0 ≤ lambda)
    (hz : ∑ m : Fin data.length, ∑ d : Fin D, (weightOf none m * (s.curveVal w (idx data[m].1) 0 data[m].1 d - data[m].2 d)) ^ 2
        + ∑ i ∈ Ico (s.order - 1) (s.keys.length - s.order), s.segEnergy lambda i w ≤ 0) :
    (∀ x ∈ data, ∀ d : Fin D, s.curveVal w (idx x.1) 0 x.1 d = p d + q d * x.1) ∧
      (0 < lambda → ∀ i, s.order ≤ i + 1 → i + s.order < s.keys.length → ∀ d : Fin D, derivative^[2] (s.curvePoly w i d) = 0) := by
  have hk := h.order_pos
  have hn := h.enough he
  have hint : ∀ i d, s.order ≤ i + 1 → i + s.order < s.keys.length → 0 ≤ ∫ t in s.kn i..s.kn (i + 1), s.curveVal w i 2 t d ^ 2 := by
    intro i d _ _
    exact intervalIntegral.integral_nonneg (h.mono i (i + 1) (by omega) (by omega)) fun t _ => sq_nonneg _
  have he0 : ∀ i ∈ Ico (s.order - 1) (s.keys.length - s.order), 0 ≤ s.segEnergy lambda i w := by
    intro i hi
    have := mem_Ico.1 hi
    unfold segEnergy
    exact sum_nonneg fun d _ => mul_nonneg hlam (hint i d (by omega) (by omega))
  have hr0 : ∀ m : Fin data.length, 0 ≤ ∑ d : Fin D, (weightOf (K := ℝ) none m * (s.curveVal w (idx data[m].1) 0 data[m].1 d - data[m].2 d)) ^ 2 :=
    fun m => sum_nonneg fun d _ => sq_nonneg _
  have z1 : ∑ m : Fin data.length, ∑ d : Fin D,
      (weightOf (K := ℝ) none m * (s.curveVal w (idx data[m].1) 0 data[m].1 d - data[m].2 d)) ^ 2 = 0 :=
    le_antisymm (by have := sum_nonneg he0; linarith) (sum_nonneg fun m _ => hr0 m)
  have z2 : ∑ i ∈ Ico (s.order - 1) (s.keys.length - s.order), s.segEnergy lambda i w = 0 :=
    le_antisymm (by rw [z1] at hz; linarith) (sum_nonneg he0)
  refine ⟨fun x hx d => ?_, fun hl i h1 h2 d => ?_⟩
  · obtain ⟨m, hm, rfl⟩ := List.getElem_of_mem hx
    have y1 := (sum_eq_zero_iff_of_nonneg fun m _ => hr0 m).1 z1 ⟨m, hm⟩ (mem_univ _)
    have y2 := (sum_eq_zero_iff_of_nonneg fun d _ => sq_nonneg _).1 y1 d (mem_univ _)
    have y3 := pow_eq_zero_iff (two_ne_zero) |>.1 y2
    unfold weightOf at y3
    dsimp only at y3
    rw [one_mul] at y3
    rw [← hline _ hx d]
    exact sub_eq_zero.1 y3
  · have y1 := (sum_eq_zero_iff_of_nonneg he0).1 z2 i (mem_Ico.2 (by omega))
    unfold segEnergy at y1
    have y2 := (sum_eq_zero_iff_of_nonneg fun d _ => mul_nonneg hlam (hint i d h1 h2)).1 y1 d (mem_range.2 d.2)
    have y3 := (mul_eq_zero.1 y2).resolve_left hl.ne'
    have hlt : s.kn i < s.kn (i + 1) := h.strict (by omega) (by omega)
    refine eq_zero_of_infinite_isRoot _ ((Set.Icc_infinite hlt).mono fun t ht => ?_)
    by_contra hne
    have hpos : 0 < ∫ t in s.kn i..s.kn (i + 1), s.curveVal w i 2 t d ^ 2 := intervalIntegral.integral_pos hlt ((curveVal_continuous s w i 2 d).pow 2).continuousOn (fun x _ => sq_nonneg _)
      ⟨t, ht, (by
        rw [curveVal_poly h w i d 2 t h1 h2]
        exact lt_of_le_of_ne (sq_nonneg _) (Ne.symm (pow_ne_zero 2 hne)) : 0 < s.curveVal w i 2 t d ^ 2)⟩
    rw [y3] at hpos
    exact lt_irrefl _ hpos

/-- A curve of order at least three without second derivative is a straight line. -/
theorem line_of_second {s : MSpline ℝ (Fin D → ℝ)} (h : s.MWF) (ho : 3 ≤ s.order) (w : ℕ → ℕ → ℝ) (d : ℕ)
    (hz : ∀ i, s.order ≤ i + 1 → i + s.order < s.keys.length → derivative^[2] (s.curvePoly w i d) = 0) :
    ∀ i, s.order ≤ i + 1 → i + s.order < s.keys.length → s.curvePoly w i d = s.curvePoly w (s.order - 1) d := by
  intro i h1
  obtain ⟨m, rfl⟩ := Nat.exists_eq_add_of_le (show s.order - 1 ≤ i by omega)
  clear h1
  induction m with
  | zero => intro _; rfl
  | succ m ih =>
    intro h2
    rw [← ih (by omega)]
    obtain ⟨a0, a1, ha⟩ := affine_of_second _ (hz (s.order - 1 + m) (by omega) (by omega))
    obtain ⟨b0, b1, hb⟩ := affine_of_second _ (hz (s.order - 1 + (m + 1)) (by omega) (by omega))
    have j0 := curvePoly_join h w (s.order - 1 + m) d 0 (by omega) (by omega) (by omega)
    have j1 := curvePoly_join h w (s.order - 1 + m) d 1 (by omega) (by omega) (by omega)
    rw [show s.order - 1 + m + 1 = s.order - 1 + (m + 1) by omega] at j0 j1
    rw [ha, hb] at j0 j1 ⊢
    simp at j0 j1
    rw [j1] at j0 ⊢
    rw [add_left_inj] at j0
    rw [j0]

/-- Vertices of minimal cost for points on a straight line. -/
theorem line_fit {s : MSpline ℝ (Fin D → ℝ)} (h : s.MWF) (he : s.state = .evaluable) (ho : 2 ≤ s.order) (v : ℕ → Fin D → ℝ)
    (p q : Fin D → ℝ) (data : List (ℝ × (Fin D → ℝ))) (hin : ∀ x ∈ data, ∃ i, s.InSeg x.1 i)
    (hline : ∀ x ∈ data, ∀ d, x.2 d = p d + q d * x.1) (lambda : ℝ) (hlam : 0 ≤ lambda)
    (hopt : ∀ v' : ℕ → Fin D → ℝ, (∀ j, s.keys.length - s.order ≤ j → v' j = v j) →
      (s.withVerts v).fitterCost data none lambda (s.kn (s.order - 1)) (s.kn (s.keys.length - s.order))
        ≤ (s.withVerts v').fitterCost data none lambda (s.kn (s.order - 1)) (s.kn (s.keys.length - s.order))) :
    (∀ x ∈ data, (s.withVerts v).euclideanEval x.1 = .ok x.2) ∧
      (3 ≤ s.order → 0 < lambda → (∃ x ∈ data, ∃ y ∈ data, x.1 ≠ y.1) → ∀ t i, s.InSeg t i →
        (s.withVerts v).euclideanEval t = .ok fun d => p d + q d * t) := by
  have hk := h.order_pos
  have hn := h.enough he
  have hidx : ∀ x ∈ data, s.InSeg x.1 (s.intervalOf x.1) := fun x hx => by
    obtain ⟨i, hi⟩ := hin x hx
    exact intervalOf_spec hi
  set v' : ℕ → Fin D → ℝ := fun j => if j < s.keys.length - s.order then s.lineVerts p q j else v j with hv'
  set w : ℕ → ℕ → ℝ := fun j d => if hd : d < D then v j ⟨d, hd⟩ else 0 with hw
  set w' : ℕ → ℕ → ℝ := fun j d => if hd : d < D then v' j ⟨d, hd⟩ else 0 with hw'
  have hvw : ∀ j d, j < s.keys.length → w j (d : Fin D) = v j d := fun j d _ => by simp [hw]
  have hvw' : ∀ j d, j < s.keys.length → w' j (d : Fin D) = v' j d := fun j d _ => by simp [hw']
  have hpoly : ∀ i, s.order ≤ i + 1 → i + s.order < s.keys.length → ∀ d : Fin D, s.curvePoly w' i d = C (p d) + C (q d) * X := by
    intro i h1 h2 d
    refine curvePoly_line h ho p q w' (fun j d hj => ?_) i h1 h2 d
    rw [hvw' j d (by omega), hv']
    dsimp only
    rw [if_pos hj]
  have hle := hopt v' fun j hj => by rw [hv']; dsimp only; rw [if_neg (by omega)]
  rw [cost_eq h he v w hvw data s.intervalOf hidx none lambda, cost_eq h he v' w' hvw' data s.intervalOf hidx none lambda] at hle
  have hzero : ∑ m : Fin data.length, ∑ d : Fin D,
          (weightOf none m * (s.curveVal w' (s.intervalOf data[m].1) 0 data[m].1 d - data[m].2 d)) ^ 2
        + ∑ i ∈ Ico (s.order - 1) (s.keys.length - s.order), s.segEnergy lambda i w' = 0 := by
    rw [sum_eq_zero, sum_eq_zero, add_zero]
    · intro i hi
      have := mem_Ico.1 hi
      unfold segEnergy
      refine sum_eq_zero fun d hd => ?_
      have hd := mem_range.1 hd
      have : ∀ t, s.curveVal w' i 2 t d = 0 := by
        intro t
        rw [curveVal_poly h w' i d 2 t (by omega) (by omega), hpoly i (by omega) (by omega) ⟨d, hd⟩, line_derivs]
        simp
      simp [this]
    · intro m _
      refine sum_eq_zero fun d _ => ?_
      have hx := hidx data[m] (List.getElem_mem _)
      rw [curveVal_poly h w' _ d 0 _ hx.lower hx.upper, hpoly _ hx.lower hx.upper d, hline data[m] (List.getElem_mem _) d]
      simp
  rw [hzero] at hle
  obtain ⟨y1, y2⟩ := zero_cost h he w p q data s.intervalOf hidx hline lambda hlam hle
  constructor
  · intro x hx
    obtain ⟨r, hr, hr'⟩ := withVerts_eval h he v w hvw (hidx x hx) 0
    have hr2 : (s.withVerts v).euclideanEval x.1 = .ok r := hr
    rw [hr2]
    refine congrArg Outcome.ok (funext fun d => ?_)
    rw [hr' d, y1 x hx d, hline x hx d]
  · rintro h3 hl ⟨x, hx, y, hy, hxy⟩ t i hi
    obtain ⟨r, hr, hr'⟩ := withVerts_eval h he v w hvw hi 0
    have hr2 : (s.withVerts v).euclideanEval t = .ok r := hr
    rw [hr2]
    refine congrArg Outcome.ok (funext fun d => ?_)
    have hall := line_of_second h h3 w d fun i h1 h2 => y2 hl i h1 h2 d
    obtain ⟨c0, c1, hc⟩ := affine_of_second _ (y2 hl (s.order - 1) (by omega) (by omega) d)
    have val : ∀ t i, s.InSeg t i → s.curveVal w i 0 t d = c0 + c1 * t := by
      intro t i hi
      rw [curveVal_poly h w i d 0 t hi.lower hi.upper, hall i hi.lower hi.upper, hc]
      simp
    have ex := y1 x hx d
    have ey := y1 y hy d
    rw [val _ _ (hidx x hx)] at ex
    rw [val _ _ (hidx y hy)] at ey
    have e1 : (c1 - q d) * (x.1 - y.1) = 0 := by linarith
    have e2 : c1 = q d := by
      rcases mul_eq_zero.1 e1 with e | e
      · linarith
      · exact absurd (sub_eq_zero.1 e) hxy
    rw [hr' d, val t i hi, e2]
    rw [e2] at ex
    linarith

theorem line_zip (times : List ℝ) (p q : Fin D → ℝ) : ∀ x ∈ times.zip (times.map fun t d => p d + q d * t),
    x.1 ∈ times ∧ x.2 = fun d => p d + q d * x.1 := by
  intro x hx
  rw [List.zip_map_right, List.mem_map] at hx
  obtain ⟨y, hy, rfl⟩ := hx
  obtain ⟨i, hi, e⟩ := List.getElem_of_mem hy
  rw [List.getElem_zip] at e
  subst e
  exact ⟨List.getElem_mem _, rfl⟩

theorem line_zip' (times : List ℝ) (p q : Fin D → ℝ) : ∀ t ∈ times,
    (t, fun d => p d + q d * t) ∈ times.zip (times.map fun t d => p d + q d * t) := by
  intro t ht
  rw [List.zip_map_right, List.mem_map]
  obtain ⟨i, hi, rfl⟩ := List.getElem_of_mem ht
  refine ⟨(times[i], times[i]), ?_, rfl⟩
  rw [List.mem_iff_getElem]
  exact ⟨i, by simpa using hi, by simp⟩

/-- **C74**: points on a straight line.  For orders from two on the initialised spline passes through all points; for orders from three on
and with a regularisation it is that line everywhere. -/
theorem C74_line (dense : Bool) (solve : Solver ℝ) (hsolve : SolvesSemidefinite solve) (order : ℕ) (ho : 2 ≤ order) (hD : 1 ≤ D)
    (n : ℕ) (hn : 1 ≤ n) (times : List ℝ) (p q : Fin D → ℝ) (t0 tl : ℝ) (hnum : 2 ≤ times.length)
    (ht0 : times.head? = some t0) (htl : times.getLast? = some tl) (hlt : t0 < tl) (hb : ∀ t ∈ times, t0 ≤ t ∧ t ≤ tl)
    (lambda : ℝ) (hlam : 0 ≤ lambda) :
    ∃ s, (create order).initUniformFitTimes dense solve id (euclidean ℝ (Fin D → ℝ)) (fieldPolicy ℝ) times
        (times.map fun t d => p d + q d * t) n lambda = (.ok (), s) ∧ s.getMinTime = .ok t0 ∧ s.getMaxTime = .ok tl ∧
      (∀ t ∈ times, s.euclideanEval t = .ok fun d => p d + q d * t) ∧
      (3 ≤ order → 0 < lambda → ∀ t, t0 ≤ t → t ≤ tl → s.euclideanEval t = .ok fun d => p d + q d * t) := by
  obtain ⟨s, v, i0, il, r1, rfl, r3, r4, r5, r6, r7, r8, r9⟩ := C74_uniform dense solve hsolve order (by omega) hD t0 tl hlt n hn times
    (times.map fun t d => p d + q d * t) t0 tl (by simp) (by simpa using hnum) ht0 htl hb le_rfl le_rfl lambda hlam
  obtain ⟨h, -⟩ := r6.mwf (by omega)
  have hk := h.order_pos
  have hne := h.enough r3
  have k1 : s.kn (s.order - 1) = t0 := by
    have := r5 (s.order - 1) (by omega)
    rw [kn_getElem s (by omega), Option.some.injEq] at this
    rw [this, Nat.cast_sub (by omega)]
    push_cast
    ring
  have hn' : (0 : ℝ) < n := by exact_mod_cast hn
  have k2 : s.kn (s.keys.length - s.order) = tl := by
    have := r5 (s.keys.length - s.order) (by omega)
    rw [kn_getElem s (by omega), Option.some.injEq] at this
    rw [this, show s.keys.length - s.order = n + (s.order - 1) by omega, Nat.cast_add, Nat.cast_sub (by omega)]
    push_cast
    field_simp
    ring
  have hseg : ∀ t, t0 ≤ t → t ≤ tl → ∃ i, s.InSeg t i := by
    intro t h1 h2
    rcases evaluable_total h r3 t with hi | hc
    · exact hi
    · exfalso
      rw [k1, k2] at hc
      rcases hc with hc | hc
      · exact absurd hc (not_lt.2 h1)
      · exact absurd hc (not_lt.2 h2)
  have e0 : i0 = s.order - 1 := r7.unique h ⟨by omega, by omega, k1.le, Or.inl (by rw [← k1]; exact h.strict (by omega) (by omega))⟩
  have el : il + 1 = s.keys.length - s.order := by
    have e := r8.unique h (⟨by omega, by omega, by rw [← k2]; exact h.mono _ _ (by omega) (by omega),
      Or.inr ⟨by rw [← k2, show s.keys.length - s.order - 1 + 1 = s.keys.length - s.order by omega], by omega⟩⟩ :
        s.InSeg tl (s.keys.length - s.order - 1))
    omega
  have hzip := line_zip times p q
  have hzip' := line_zip' times p q
  obtain ⟨f1, f2⟩ := line_fit h r3 ho v p q _ (fun x hx => hseg _ (hb _ (hzip x hx).1).1 (hb _ (hzip x hx).1).2)
    (fun x hx d => by rw [(hzip x hx).2]) lambda hlam (by
      rw [k1, k2]
      exact fun v' hv' => r9 v' fun j hj => hv' j (by omega))
  refine ⟨s.withVerts v, ?_, ?_, ?_, fun t ht => f1 _ (hzip' t ht), fun h3 hl t h1 h2 => ?_⟩
  · unfold initUniformFitTimes
    rw [if_neg (by omega), ht0, htl]
    exact r1
  · rw [getMinTime_eq (withVerts_mwf h v) r3, withVerts_kn]
    exact congrArg Outcome.ok k1
  · rw [getMaxTime_eq (withVerts_mwf h v) r3, withVerts_kn, withVerts_keys]
    exact congrArg Outcome.ok k2
  · obtain ⟨i, hi⟩ := hseg t h1 h2
    exact f2 h3 hl ⟨_, hzip' t0 (List.mem_of_mem_head? ht0), _, hzip' tl (List.mem_of_mem_getLast? htl), hlt.ne⟩ t i hi

/-- **C74**: two points at different times are interpolated, whatever the order from two on, the number of segments and the
regularisation. -/
theorem C74_two_points (dense : Bool) (solve : Solver ℝ) (hsolve : SolvesSemidefinite solve) (order : ℕ) (ho : 2 ≤ order) (hD : 1 ≤ D)
    (n : ℕ) (hn : 1 ≤ n) (t0 t1 : ℝ) (hlt : t0 < t1) (p0 p1 : Fin D → ℝ) (lambda : ℝ) (hlam : 0 ≤ lambda) :
    ∃ s, (create order).initUniformFitTimes dense solve id (euclidean ℝ (Fin D → ℝ)) (fieldPolicy ℝ) [t0, t1] [p0, p1] n lambda
        = (.ok (), s) ∧ s.euclideanEval t0 = .ok p0 ∧ s.euclideanEval t1 = .ok p1 := by
  have hd : t1 - t0 ≠ 0 := (sub_pos.2 hlt).ne'
  obtain ⟨s, r1, -, -, r4, -⟩ := C74_line dense solve hsolve order ho hD n hn [t0, t1]
    (fun d => p0 d - (p1 d - p0 d) / (t1 - t0) * t0) (fun d => (p1 d - p0 d) / (t1 - t0)) t0 t1 (by simp) rfl rfl hlt
    (by simp [hlt.le]) lambda hlam
  have e0 : (fun d : Fin D => p0 d - (p1 d - p0 d) / (t1 - t0) * t0 + (p1 d - p0 d) / (t1 - t0) * t0) = p0 := by
    funext d; ring
  have e1 : (fun d : Fin D => p0 d - (p1 d - p0 d) / (t1 - t0) * t0 + (p1 d - p0 d) / (t1 - t0) * t1) = p1 := by
    funext d; field_simp; ring
  refine ⟨s, ?_, ?_, ?_⟩
  · rw [← r1]
    simp only [List.map_cons, List.map_nil, e0, e1]
  · rw [r4 t0 (by simp), e0]
  · rw [r4 t1 (by simp), e1]

/-- Not vacuous: four points on a line, cubic splines, two segments; and two points in the plane. -/
example : (∃ s, (create 4).initUniformFitTimes true choiceSolver id (euclidean ℝ (Fin 1 → ℝ)) (fieldPolicy ℝ) [0, 1, 1 / 2, 3]
      ([0, 1, 1 / 2, 3].map fun t d => ![1] d + ![2] d * t) (2 : ℕ) (1 / 10) = (.ok (), s) ∧ s.getMinTime = .ok 0 ∧ s.getMaxTime = .ok 3 ∧
      (∀ t ∈ ([0, 1, 1 / 2, 3] : List ℝ), s.euclideanEval t = .ok fun d => ![1] d + ![2] d * t) ∧
      (3 ≤ 4 → (0 : ℝ) < 1 / 10 → ∀ t : ℝ, 0 ≤ t → t ≤ 3 → s.euclideanEval t = .ok fun d => ![1] d + ![2] d * t)) ∧
    ∃ s, (create 2).initUniformFitTimes true choiceSolver id (euclidean ℝ (Fin 2 → ℝ)) (fieldPolicy ℝ) [0, 1] [![1, 2], ![3, 5]] (4 : ℕ) 0
      = (.ok (), s) ∧ s.euclideanEval 0 = .ok ![1, 2] ∧ s.euclideanEval 1 = .ok ![3, 5] :=
  ⟨C74_line true choiceSolver choiceSolver_semidefinite 4 (by omega) (by omega) 2 (by omega) _ _ _ 0 3 (by simp) rfl rfl (by norm_num)
    (by simp; norm_num) (1 / 10) (by norm_num),
   C74_two_points true choiceSolver choiceSolver_semidefinite 2 (by omega) (by omega) 4 (by omega) 0 1 (by norm_num) _ _ 0 le_rfl⟩

/-! ## With a knot distance -/

/-- A list with constant differences. -/
theorem grid_of_steps {K : Type*} [Field K] (ks : List K) (δ a : K) (m : ℕ) (hm : ks[m]? = some a)
    (hstep : ∀ j x y, ks[j]? = some x → ks[j + 1]? = some y → y - x = δ) (j : ℕ) (hj : j < ks.length) :
    ks[j]? = some (a + ((j : K) - (m : K)) * δ) := by
  have hm' := (List.getElem?_eq_some_iff.1 hm).1
  have key : ∀ j (hj : j < ks.length), ks[j] = ks[0]'(by omega) + (j : K) * δ := by
    intro j
    induction j with
    | zero => intro _; simp
    | succ j ih =>
      intro hj
      have e := hstep j _ _ (List.getElem?_eq_getElem (by omega)) (List.getElem?_eq_getElem hj)
      rw [ih (by omega)] at e
      push_cast
      rw [sub_eq_iff_eq_add.1 e]
      ring
  have e1 := key m hm'
  rw [List.getElem?_eq_getElem hm', Option.some.injEq] at hm
  rw [hm] at e1
  rw [List.getElem?_eq_getElem hj, key j hj]
  refine congrArg some ?_
  rw [e1]
  ring

/-- **C74**: initialising with a knot distance succeeds for every order, positive distance and times bounded by the first and the last
one.  The knots have that distance, the valid interval starts at the first time and ends at the first knot that is not before the last
time, and the cost is minimal.  The generator returned goes on exactly behind the last knot. -/
theorem C74_delta (dense : Bool) (solve : Solver ℝ) (hsolve : SolvesSemidefinite solve) (order : ℕ) (ho : 1 ≤ order) (hD : 1 ≤ D)
    (δ : ℝ) (hδ : 0 < δ) (times : List ℝ) (points : List (Fin D → ℝ)) (t0 tl : ℝ)
    (hlen : times.length = points.length) (hnum : 2 ≤ points.length) (ht0 : times.head? = some t0) (htl : times.getLast? = some tl)
    (hlt : t0 < tl) (hb : ∀ t ∈ times, t0 ≤ t ∧ t ≤ tl) (lambda : ℝ) (hlam : 0 ≤ lambda) :
    ∃ (s : MSpline ℝ (Fin D → ℝ)) (v : ℕ → Fin D → ℝ) (g' : DeltaGen ℝ) (e : ℝ),
      (∀ r, (create order).InitDeltaFit dense solve id (euclidean ℝ (Fin D → ℝ)) times points δ lambda r ↔ r = (.ok g', s.withVerts v)) ∧
      s.order = order ∧ s.state = .evaluable ∧ RegularReach (euclidean ℝ (Fin D → ℝ)) order s ∧
      (∀ j : ℕ, j < s.keys.length → s.keys[j]? = some (t0 + ((j : ℝ) - ((order : ℝ) - 1)) * δ)) ∧
      s.getMinTime = .ok t0 ∧ s.getMaxTime = .ok e ∧ tl ≤ e ∧ e - δ < tl ∧
      (∀ v' : ℕ → Fin D → ℝ, (∀ j, s.keys.length - order ≤ j → v' j = v j) →
        (s.withVerts v).fitterCost (times.zip points) none lambda t0 e ≤ (s.withVerts v').fitterCost (times.zip points) none lambda t0 e) ∧
      ∀ beyond ks₂ g₂, Drain DeltaGen.hasNext DeltaGen.next (g'.extendBeyond beyond) ks₂ g₂ →
        ∃ g₃, Drain DeltaGen.hasNext DeltaGen.next (DeltaGen.create (order : ℤ) t0 (max tl beyond) δ false) (s.keys ++ ks₂) g₃ := by
  obtain ⟨g', ks, d1, d2, d3, d4, d5, ⟨e, d6, d7⟩, ⟨e', d8, d9⟩⟩ := C33_delta_generator order ho t0 tl δ hδ hlt
  have hprev := d3 (ks.length - order - 1) e' e d8 (by rw [show ks.length - order - 1 + 1 = ks.length - order by omega]; exact d6)
  obtain ⟨s, v, i0, il, r1, rfl, r3, rr, r4, r5, r6, r7, -⟩ := C38_init_optimal dense solve hsolve order ho hD ks d2 d4 t0 e d5 d6 none
    times points t0 tl hlen hnum (by simp) ht0 htl hb le_rfl d7 lambda hlam
  obtain ⟨h, -⟩ := rr.mwf ho
  have hk := h.order_pos
  have hne := h.enough r3
  subst r1
  have k1 : s.kn (s.order - 1) = t0 := by
    rw [kn_getElem s (by omega), Option.some.injEq] at d5; exact d5
  have k2 : s.kn (s.keys.length - s.order) = e := by
    rw [kn_getElem s (by omega), Option.some.injEq] at d6; exact d6
  have k3 : s.kn (s.keys.length - s.order - 1) = e' := by
    rw [kn_getElem s (by omega), Option.some.injEq] at d8; exact d8
  have e0 : i0 = s.order - 1 := r4.unique h ⟨by omega, by omega, k1.le, Or.inl (by rw [← k1]; exact h.strict (by omega) (by omega))⟩
  have hm1 : s.keys.length - s.order - 1 + 1 = s.keys.length - s.order := by omega
  have el : il = s.keys.length - s.order - 1 := by
    refine r5.unique h ⟨by omega, by omega, by rw [k3]; exact d9.le, ?_⟩
    rcases d7.lt_or_eq with d7 | d7
    · exact Or.inl (by rw [hm1, k2]; exact d7)
    · exact Or.inr ⟨by rw [hm1, k2]; exact d7, by omega⟩
  refine ⟨s, v, g', e, fun r => ?_, rfl, r3, rr, ?_, ?_, ?_, d7, by linarith, ?_, fun beyond ks₂ g₂ h2 => ?_⟩
  · unfold InitDeltaFit
    have hc : (create s.order : MSpline ℝ (Fin D → ℝ)).state = .constructing := rfl
    have hcr : (create s.order : MSpline ℝ (Fin D → ℝ)).order = s.order := rfl
    rw [hc, ht0, htl, hcr]
    dsimp only
    rw [if_neg (by omega), if_neg (by rw [timesBounded_of ht0 htl hb]; simp [hlen])]
    constructor
    · rintro ⟨ks₁, g₁, h1, rfl⟩
      obtain ⟨rfl, rfl⟩ := h1.unique d1
      rw [r6]
      rfl
    · rintro rfl
      exact ⟨_, _, d1, by rw [r6]; rfl⟩
  · intro j hj
    rw [grid_of_steps _ δ t0 (s.order - 1) d5 d3 j hj, Nat.cast_sub hk]
    push_cast
    rfl
  · rw [getMinTime_eq h r3, k1]
  · rw [getMaxTime_eq h r3, k2]
  · exact fun v' hv' => r7 v' fun j hj => hv' j (by omega)
  · exact C33_extend s.order t0 tl beyond δ hδ _ _ _ _ d1 h2

/-- Not vacuous: three points, distance 3/4; the valid interval ends behind the last time. -/
example : ∃ (s : MSpline ℝ (Fin 1 → ℝ)) (v : ℕ → Fin 1 → ℝ) (g' : DeltaGen ℝ) (e : ℝ),
    (create 3).InitDeltaFit true choiceSolver id (euclidean ℝ (Fin 1 → ℝ)) [0, 1, 2] [![1], ![5], ![2]] (3 / 4) 1 (.ok g', s.withVerts v) ∧
      s.getMaxTime = .ok e ∧ 2 ≤ e ∧ e - 3 / 4 < 2 := by
  obtain ⟨s, v, g', e, h1, -, -, -, -, -, h7, h8, h9, -⟩ := C74_delta true choiceSolver choiceSolver_semidefinite 3 (by omega) (by omega) (3 / 4)
    (by norm_num) [0, 1, 2] [![1], ![5], ![2]] 0 2 rfl (by simp) rfl rfl (by norm_num) (by simp) 1 (by norm_num)
  exact ⟨s, v, g', e, (h1 _).2 rfl, h7, h8, h9⟩

/-- **C74**: the same for a knot distance: points on a straight line. -/
theorem C74_delta_line (dense : Bool) (solve : Solver ℝ) (hsolve : SolvesSemidefinite solve) (order : ℕ) (ho : 2 ≤ order) (hD : 1 ≤ D)
    (δ : ℝ) (hδ : 0 < δ) (times : List ℝ) (p q : Fin D → ℝ) (t0 tl : ℝ) (hnum : 2 ≤ times.length)
    (ht0 : times.head? = some t0) (htl : times.getLast? = some tl) (hlt : t0 < tl) (hb : ∀ t ∈ times, t0 ≤ t ∧ t ≤ tl)
    (lambda : ℝ) (hlam : 0 ≤ lambda) :
    ∃ s g' e, (create order).InitDeltaFit dense solve id (euclidean ℝ (Fin D → ℝ)) times (times.map fun t d => p d + q d * t) δ lambda
        (.ok g', s) ∧ s.getMinTime = .ok t0 ∧ s.getMaxTime = .ok e ∧ tl ≤ e ∧
      (∀ t ∈ times, s.euclideanEval t = .ok fun d => p d + q d * t) ∧
      (3 ≤ order → 0 < lambda → ∀ t, t0 ≤ t → t ≤ e → s.euclideanEval t = .ok fun d => p d + q d * t) := by
  obtain ⟨s, v, g', e, r1, rfl, r3, rr, -, r6, r7, r8, -, r9, -⟩ := C74_delta dense solve hsolve order (by omega) hD δ hδ times
    (times.map fun t d => p d + q d * t) t0 tl (by simp) (by simpa using hnum) ht0 htl hlt hb lambda hlam
  obtain ⟨h, -⟩ := rr.mwf (by omega)
  have k1 := r6
  have k2 := r7
  rw [getMinTime_eq h r3, Outcome.ok.injEq] at k1
  rw [getMaxTime_eq h r3, Outcome.ok.injEq] at k2
  have hseg : ∀ t, t0 ≤ t → t ≤ e → ∃ i, s.InSeg t i := by
    intro t h1 h2
    rcases evaluable_total h r3 t with hi | hc
    · exact hi
    · exfalso
      rw [k1, k2] at hc
      rcases hc with hc | hc
      · exact absurd hc (not_lt.2 h1)
      · exact absurd hc (not_lt.2 h2)
  obtain ⟨f1, f2⟩ := line_fit h r3 ho v p q _
    (fun x hx => hseg _ (hb _ (line_zip times p q x hx).1).1 ((hb _ (line_zip times p q x hx).1).2.trans r8))
    (fun x hx d => by rw [(line_zip times p q x hx).2]) lambda hlam (by rw [k1, k2]; exact r9)
  refine ⟨s.withVerts v, g', e, (r1 _).2 rfl, ?_, ?_, r8, fun t ht => f1 _ (line_zip' times p q t ht), fun h3 hl t h1 h2 => ?_⟩
  · rw [getMinTime_eq (withVerts_mwf h v) r3, withVerts_kn]
    exact congrArg Outcome.ok k1
  · rw [getMaxTime_eq (withVerts_mwf h v) r3, withVerts_kn, withVerts_keys]
    exact congrArg Outcome.ok k2
  · obtain ⟨i, hi⟩ := hseg t h1 h2
    exact f2 h3 hl ⟨_, line_zip' times p q t0 (List.mem_of_mem_head? ht0), _, line_zip' times p q tl (List.mem_of_mem_getLast? htl),
      hlt.ne⟩ t i hi

/-! ## What is rejected -/

section rejects
variable {K : Type*} [Field K] [LinearOrder K] [IsStrictOrderedRing K]

/-- **C74**: whatever is wrong with the arguments, the call throws and the spline is as before: a spline already initialised, times outside
the interval, no segments, an empty interval, numbers of times and points that differ, fewer than two points, times not bounded by the
first and the last one. -/
theorem C74_rejects (dense : Bool) (solve : Solver K) (project : (Fin D → K) → Fin D → K) (M : Mfd K (Fin D → K) (Fin D → K))
    (T : TimePolicy K) (minT maxT : K) (times : List K) (points : List (Fin D → K)) (n : ℤ) (lambda : K) (s : MSpline K (Fin D → K))
    (t0 tl : K) (ht0 : times.head? = some t0) (htl : times.getLast? = some tl)
    (hbad : s.state = .evaluable ∨ t0 < minT ∨ maxT < tl ∨ n ≤ 0 ∨ maxT ≤ minT ∨ times.length ≠ points.length ∨ points.length < 2 ∨
      ∃ t ∈ times, t < t0 ∨ tl < t) :
    s.initUniformFit dense solve project M T minT maxT times points n lambda = (.throws, s) := by
  unfold initUniformFit
  rcases hs : s.state with _ | _
  · rw [ht0, htl]
    dsimp only
    by_cases h1 : t0 < minT
    · rw [if_pos h1]
    rw [if_neg h1]
    by_cases h2 : maxT < tl
    · rw [if_pos h2]
    rw [if_neg h2]
    by_cases h3 : n ≤ 0 ∨ maxT ≤ minT
    · rw [C32_rejects _ _ _ _ h3]
    unfold IntervalGen.create
    push Not at h3
    rw [if_neg (by omega), if_neg (by simpa using h3.2)]
    dsimp only
    unfold fitInit
    rw [hs]
    dsimp only
    by_cases h4 : times.length ≠ points.length
    · rw [if_pos h4]
    rw [if_neg h4]
    by_cases h5 : points.length < 2
    · rw [if_pos h5]
    rw [if_neg h5, if_pos]
    have hex : ∃ t ∈ times, t < t0 ∨ tl < t := by
      rcases hbad with h | h | h | h | h | h | h | h
      · rw [hs] at h; cases h
      · exact absurd h h1
      · exact absurd h h2
      · omega
      · exact absurd h (not_le.2 h3.2)
      · exact absurd h h4
      · exact absurd h h5
      · exact h
    obtain ⟨t, ht, hc⟩ := hex
    unfold timesBounded
    rw [ht0, htl]
    dsimp only
    rw [Bool.or_eq_false_iff]
    refine ⟨decide_eq_false (by omega), ?_⟩
    rw [← Bool.not_eq_true, List.all_eq_true]
    intro hall
    have := hall t ht
    rw [Bool.and_eq_true, decide_eq_true_eq, decide_eq_true_eq] at this
    rcases hc with hc | hc
    · exact absurd this.1 (not_le.2 hc)
    · exact absurd this.2 (not_le.2 hc)
  · rfl

end rejects

/-- **C74**: on a fresh Euclidean spline the call that takes the interval from the times either throws and leaves it fresh or makes it
evaluable; there is no third outcome, whatever the arguments. -/
theorem C74_total (dense : Bool) (solve : Solver ℝ) (hsolve : SolvesSemidefinite solve) (order : ℕ) (ho : 1 ≤ order) (hD : 1 ≤ D)
    (times : List ℝ) (points : List (Fin D → ℝ)) (n : ℤ) (lambda : ℝ) (hlam : 0 ≤ lambda) :
    let r := (create order).initUniformFitTimes dense solve id (euclidean ℝ (Fin D → ℝ)) (fieldPolicy ℝ) times points n lambda
    r = (.throws, create order) ∨ (r.1 = .ok () ∧ r.2.state = .evaluable) := by
  intro r
  by_cases h2 : times.length < 2
  · left
    show initUniformFitTimes _ _ _ _ _ _ _ _ _ _ = _
    unfold initUniformFitTimes
    rw [if_pos h2]
  have hne : times ≠ [] := by rintro rfl; simp at h2
  have ht0 := List.head?_eq_some_head hne
  have htl := List.getLast?_eq_some_getLast hne
  have hr : r = (create order).initUniformFit dense solve id (euclidean ℝ (Fin D → ℝ)) (fieldPolicy ℝ) (times.head hne) (times.getLast hne)
      times points n lambda := by
    show initUniformFitTimes _ _ _ _ _ _ _ _ _ _ = _
    unfold initUniformFitTimes
    rw [if_neg h2, ht0, htl]
  by_cases hbad : n ≤ 0 ∨ times.getLast hne ≤ times.head hne ∨ times.length ≠ points.length ∨ points.length < 2 ∨
      ∃ t ∈ times, t < times.head hne ∨ times.getLast hne < t
  · left
    rw [hr]
    exact C74_rejects dense solve id _ _ _ _ times points n lambda _ _ _ ht0 htl (by
      rcases hbad with b | b | b | b | b <;> simp [b])
  · right
    push Not at hbad
    obtain ⟨b1, b2, b3, b4, b5⟩ := hbad
    obtain ⟨m, rfl⟩ := Int.eq_ofNat_of_zero_le b1.le
    obtain ⟨s, v, i0, il, r1, -, r3, -⟩ := C74_uniform dense solve hsolve order ho hD _ _ b2 m (by omega) times points _ _ b3 b4 ht0 htl
      (fun t ht => b5 t ht) le_rfl le_rfl lambda hlam
    rw [hr, r1]
    exact ⟨rfl, r3⟩

/-! ## Violations -/

/-- **C74** is violated by the call with a given interval: without any times it reads the first one of none. -/
theorem C74_empty_violated {K : Type*} [Field K] [LinearOrder K] (dense : Bool) (solve : Solver K) (project : (Fin D → K) → Fin D → K)
    (M : Mfd K (Fin D → K) (Fin D → K)) (T : TimePolicy K) (minT maxT : K) (points : List (Fin D → K)) (n : ℤ) (lambda : K) (order : ℕ) :
    (create order).initUniformFit dense solve project M T minT maxT [] points n lambda = (.ub, create order) := rfl

/-- **C74** is violated for a knot distance that is not positive: it is not rejected; unless it is so negative that there is no knot at
all the call never ends. -/
theorem C74_distance_violated {K : Type*} [Field K] [LinearOrder K] [IsStrictOrderedRing K] (dense : Bool) (solve : Solver K)
    (project : (Fin D → K) → Fin D → K) (M : Mfd K (Fin D → K) (Fin D → K)) (order : ℕ) (δ : K) (hδ : δ ≤ 0) (times : List K)
    (points : List (Fin D → K)) (t0 tl lambda : K) (hlen : times.length = points.length) (hnum : 2 ≤ points.length)
    (ht0 : times.head? = some t0) (htl : times.getLast? = some tl) (hb : timesBounded times = true)
    (hlt : t0 - tl < (2 * (order : K) - 1) * δ) :
    ¬ ∃ r, (create order).InitDeltaFit dense solve project M times points δ lambda r := by
  rintro ⟨r, hr⟩
  unfold InitDeltaFit at hr
  have hc : (create order : MSpline K (Fin D → K)).state = .constructing := rfl
  have hcr : (create order : MSpline K (Fin D → K)).order = order := rfl
  rw [hc, ht0, htl, hcr] at hr
  dsimp only at hr
  rw [if_neg (by omega), if_neg (by simp [hlen, hb])] at hr
  obtain ⟨ks, g', h1, -⟩ := hr
  refine C33_diverges _ ?_ ?_ ⟨ks, g', h1⟩
  · exact hδ
  · simp only [DeltaGen.hasNext, DeltaGen.create, firstLastKnot, addScaledDuration, preambleKnots, Bool.false_eq_true, if_false]
    push_cast
    linarith

/-- Not vacuous: distance zero, and a small negative one. -/
example : (0 : ℚ) - 2 < (2 * ((3 : ℕ) : ℚ) - 1) * 0 ∧ (0 : ℚ) - 2 < (2 * ((3 : ℕ) : ℚ) - 1) * (-1 / 10) ∧
    timesBounded [(0 : ℚ), 1, 2] = true := by decide +kernel

/-- The fresh spline after a rejected call: two equal times and distance one give too few knots. -/
def retryDemo : MSpline ℚ (Fin 1 → ℚ) := ((create 2).addKnots (euclidean ℚ (Fin 1 → ℚ)) [-1, 0, 1]).2

/-- Cramer's rule for two unknowns. -/
def retrySolver : Solver ℚ := fun _ A b q =>
  if q = 0 then (b 0 * A 1 1 - A 0 1 * b 1) / (A 0 0 * A 1 1 - A 0 1 * A 1 0)
  else (A 0 0 * b 1 - b 0 * A 1 0) / (A 0 0 * A 1 1 - A 0 1 * A 1 0)

/-- **C74** is violated by a rejected call with a knot distance: two points with the same time.  The call throws but leaves its knots in the
spline.  Initialising the spline afterwards with good arguments does not throw and makes a spline that has another valid interval and
misses the second point, while the same call on a fresh spline passes through them. -/
theorem C74_retry_violated (dense : Bool) :
    (∀ solve r, (create 2).InitDeltaFit dense solve id (euclidean ℚ (Fin 1 → ℚ)) [0, 0] [![1], ![1]] 1 0 r ↔ r = (.throws, retryDemo)) ∧
      retryDemo.keys = [-1, 0, 1] ∧
      (let r := retryDemo.initUniformFit dense retrySolver id (euclidean ℚ (Fin 1 → ℚ)) (fieldPolicy ℚ) 0 2 [0, 2] [![1], ![5]] 1 0
       r.1 = .ok () ∧ r.2.getMinTime = .ok (-1) ∧ r.2.euclideanEval 2 = .ok ![0]) ∧
      (let r := (create 2).initUniformFit dense retrySolver id (euclidean ℚ (Fin 1 → ℚ)) (fieldPolicy ℚ) 0 2 [0, 2] [![1], ![5]] 1 0
       r.1 = .ok () ∧ r.2.getMinTime = .ok 0 ∧ r.2.euclideanEval 0 = .ok ![1] ∧ r.2.euclideanEval 2 = .ok ![5]) := by
  have hd : Drain DeltaGen.hasNext DeltaGen.next (DeltaGen.create ((2 : ℕ) : ℤ) (0 : ℚ) 0 1 false) [-1, 0, 1] ⟨2, 1, 1, 1⟩ := by
    have e : DeltaGen.create ((2 : ℕ) : ℤ) (0 : ℚ) 0 1 false = ⟨2, 1, -2, 1⟩ := by
      simp only [DeltaGen.create, firstLastKnot, addScaledDuration, preambleKnots, DeltaGen.mk.injEq]
      norm_num
    have hr : List.range 3 = [0, 1, 2] := rfl
    have := deltaGen_drain 2 (1 : ℚ) 1 3 (-2) (fun j hj => by interval_cases j <;> norm_num) (by norm_num)
    rw [e]
    rw [hr] at this
    norm_num at this
    exact this
  have hk : retryDemo.keys = [-1, 0, 1] := by decide +kernel
  have hf : ∀ solve : Solver ℚ, (create 2).fitInit dense solve id (euclidean ℚ (Fin 1 → ℚ)) [-1, 0, 1] none [0, 0] [![1], ![1]] 0
      = (.throws, retryDemo) := by
    intro solve
    have e1 : (create 2).addKnots (euclidean ℚ (Fin 1 → ℚ)) [-1, 0, 1] = (.ok (), retryDemo) := rfl
    have e2 : retryDemo.init = (.throws, retryDemo) := init_few rfl (by rw [hk]; decide)
    unfold fitInit
    have hc : (create 2 : MSpline ℚ (Fin 1 → ℚ)).state = .constructing := rfl
    rw [hc]
    dsimp only
    rw [if_neg (by simp), if_neg (by simp), if_neg (by decide +kernel)]
    unfold andThen
    rw [e1]
    dsimp only
    rw [e2]
  refine ⟨fun solve r => ?_, hk, ?_, ?_⟩
  · unfold InitDeltaFit
    have hc : (create 2 : MSpline ℚ (Fin 1 → ℚ)).state = .constructing := rfl
    rw [hc]
    dsimp only [List.head?_cons]
    rw [if_neg (by simp), show ([0, 0] : List ℚ).getLast? = some 0 from rfl]
    dsimp only
    rw [if_neg (by decide +kernel)]
    constructor
    · rintro ⟨ks, g', h1, rfl⟩
      obtain ⟨rfl, rfl⟩ := h1.unique hd
      rw [hf]
      rfl
    · rintro rfl
      exact ⟨_, _, hd, by rw [hf]; rfl⟩
  · cases dense <;> decide +kernel
  · cases dense <;> decide +kernel

/-! ## From Python -/

section python
variable {K : Type} [Field K] [LinearOrder K]

/-- **C74**: with as many rows as the points have components the Python calls are those of the fitter on the columns; more points than
times are rejected. -/
theorem C74_python (dense : Bool) (solve : Solver K) (project : (Fin D → K) → Fin D → K) (M : Mfd K (Fin D → K) (Fin D → K))
    (T : TimePolicy K) (times : List K) (rows cols : ℕ) (A : ℕ → ℕ → K) (n : ℤ) (delta lambda : K) (s : MSpline K (Fin D → K)) :
    (times.length < cols →
      s.pyInitUniform dense solve project M T times rows cols A n lambda = (.throws, s) ∧
      ∀ r, s.PyInitDelta dense solve project M times rows cols A delta lambda r ↔ r = (.throws, s)) ∧
    (cols ≤ times.length → rows = D → ∀ points : List (Fin D → K), points.length = cols →
      (∀ (i : ℕ) (h : i < points.length) (d : Fin D), points[i] d = A d i) →
      s.pyInitUniform dense solve project M T times rows cols A n lambda
        = s.initUniformFitTimes dense solve project M T times points n lambda ∧
      ∀ r, s.PyInitDelta dense solve project M times rows cols A delta lambda r ↔
        s.InitDeltaFit dense solve project M times points delta lambda r) := by
  refine ⟨fun h => ⟨?_, fun r => ?_⟩, fun h1 h2 points h3 h4 => ?_⟩
  · unfold pyInitUniform
    rw [if_pos h]
  · unfold PyInitDelta
    rw [if_pos h]
  · have e : pyColumns D cols A = points := by
      unfold pyColumns
      apply List.ext_getElem
      · simp [h3]
      · intro i _ hi
        funext d
        rw [h4 i hi d]
        simp
    unfold pyInitUniform PyInitDelta
    rw [if_neg (by omega), if_neg (by tauto), e]
    refine ⟨rfl, fun r => ?_⟩
    rw [if_neg (by omega), if_neg (by tauto)]

/-- **C74** is violated from Python if the matrix has another number of rows than the points have components: unlike in `fitSpline` and
`extendAndFitSpline` (C73) that is not checked. -/
theorem C74_rows_violated (dense : Bool) (solve : Solver K) (project : (Fin D → K) → Fin D → K) (M : Mfd K (Fin D → K) (Fin D → K))
    (T : TimePolicy K) (times : List K) (rows : ℕ) (A : ℕ → ℕ → K) (n : ℤ) (lambda : K) (s : MSpline K (Fin D → K)) (h : times ≠ [])
    (hr : rows ≠ D) : s.pyInitUniform dense solve project M T times rows times.length A n lambda = (.ub, s) := by
  unfold pyInitUniform
  rw [if_neg (by omega), if_pos ⟨List.length_pos_of_ne_nil h, hr⟩]

/-- Not vacuous: a 2×2 matrix for points with two components; its transposed layout for points with three. -/
example : (create 2 : MSpline ℚ (Fin 2 → ℚ)).pyInitUniform true retrySolver id (euclidean ℚ (Fin 2 → ℚ)) (fieldPolicy ℚ) [0, 2] 2 2
        (fun r c => (r + 2 * c : ℕ)) 1 0
      = (create 2).initUniformFitTimes true retrySolver id (euclidean ℚ (Fin 2 → ℚ)) (fieldPolicy ℚ) [0, 2] [![0, 1], ![2, 3]] 1 0 ∧
    (create 2 : MSpline ℚ (Fin 3 → ℚ)).pyInitUniform true retrySolver id (euclidean ℚ (Fin 3 → ℚ)) (fieldPolicy ℚ) [0, 2] 2 2
        (fun r c => (r + 2 * c : ℕ)) 1 0 = (.ub, create 2) := by
  refine ⟨((C74_python true retrySolver id (euclidean ℚ (Fin 2 → ℚ)) (fieldPolicy ℚ) [0, 2] 2 2 (fun r c => ((r + 2 * c : ℕ) : ℚ)) 1 1 0
    (create 2)).2 (by simp) rfl [![0, 1], ![2, 3]] rfl ?_).1,
    C74_rows_violated true retrySolver id _ _ [0, 2] 2 (fun r c => ((r + 2 * c : ℕ) : ℚ)) 1 0 _ (by simp) (by omega)⟩
  intro i hi d
  have hi' : i < 2 := hi
  interval_cases i <;> fin_cases d <;> rfl

end python

end Verif.MSpline
