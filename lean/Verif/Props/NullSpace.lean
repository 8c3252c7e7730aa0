import Verif.Props.FitUnique
import Verif.Props.MotionErrorFactory

/-!
# Property C98: which motions the motion error does not see

`BSplineMotionError` (`Model/MotionError`) is the integral of a weighted square of a derivative of the curve.  With a positive definite
weight it vanishes exactly on the polynomials that this derivative maps to zero, so that estimation needs as many observation times as the
order of the derivative, and no more.
-/

set_option linter.unusedSectionVars false

namespace Verif

open Finset Polynomial BSpline MeasureTheory MotionError

variable {D : ℕ}

/-- A positive definite weight. -/
def PositiveWeight (D : ℕ) (W : Mat ℝ) : Prop :=
  ∀ y : Fin D → ℝ, y ≠ 0 → 0 < ∑ d : Fin D, ∑ e : Fin D, W d e * (y d * y e)

/-- The knots of the valid interval are distinct. -/
def DistinctKnots (s : BSpline ℝ D) : Prop :=
  ∀ i, s.order - 1 ≤ i → i + 1 ≤ s.knots.length - s.order → s.kn i < s.kn (i + 1)

/-- `t` lies in the valid interval of the spline. -/
def Valid (s : BSpline ℝ D) (t : ℝ) : Prop := s.kn (s.order - 1) ≤ t ∧ t ≤ s.kn (s.knots.length - s.order)

/-! ### Lemmas -/

theorem SameShape.kn {s s' : BSpline ℝ D} (h : SameShape s s') : s'.kn = s.kn := by
  unfold BSpline.kn
  rw [h.knots]

theorem SameShape.valid {s s' : BSpline ℝ D} (h : SameShape s s') (t : ℝ) : Valid s' t ↔ Valid s t := by
  unfold Valid
  rw [h.kn, h.order, h.knots]

theorem SameShape.distinct {s s' : BSpline ℝ D} (h : SameShape s s') (hs : DistinctKnots s) : DistinctKnots s' := by
  unfold DistinctKnots
  rw [h.kn, h.order, h.knots]
  exact hs

theorem degree_lt_of_derivative {P : ℝ[X]} {e : ℕ} (h : derivative^[e] P = 0) : P.degree < e := by
  rw [degree_lt_iff_coeff_zero]
  intro m hm
  have := congrArg (fun q : ℝ[X] => q.coeff (m - e)) h
  simp only [coeff_iterate_derivative, coeff_zero, Nat.sub_add_cancel hm, nsmul_eq_mul] at this
  rcases mul_eq_zero.1 this with h0 | h0
  · exact absurd h0 (by exact_mod_cast (Nat.descFactorial_pos.2 hm).ne')
  · exact h0

theorem derivative_of_degree_lt {P : ℝ[X]} {e : ℕ} (h : P.degree < e) : derivative^[e] P = 0 := by
  by_cases h0 : P = 0
  · rw [h0, iterate_derivative_zero]
  · exact iterate_derivative_eq_zero ((natDegree_lt_iff_degree_lt h0).2 h)

/-- Nothing is integrated: the derivative of every piece is zero. -/
theorem integral_zero_pieces {s : BSpline ℝ D} (h : s.WF) (hw : s.WideLast) {W : Mat ℝ} (hW : PositiveWeight D W) (der : ℕ)
    (hz : ∫ t in s.kn (s.order - 1)..s.kn (s.knots.length - s.order), ∑ d : Fin D, ∑ e : Fin D,
      W d e * ((s.evalD t der).getD 0 d * (s.evalD t der).getD 0 e) = 0) (i : ℕ) (h1 : s.order - 1 ≤ i)
    (h2 : i + 1 ≤ s.knots.length - s.order) (hlt : s.kn i < s.kn (i + 1)) (d : Fin D) : derivative^[der] (s.segPoly i d) = 0 := by
  have hk := h.order_pos
  have hn := h.enough
  set y : ℕ → ℝ → Fin D → ℝ := fun i t d => (derivative^[der] (s.segPoly i d)).eval t with hy
  set Q : ℕ → ℝ → ℝ := fun i t => ∑ d : Fin D, ∑ e : Fin D, W d e * (y i t d * y i t e) with hQ
  have hQc : ∀ i, Continuous (Q i) := fun i => by
    rw [hQ, hy]
    exact continuous_finsetSum _ fun d _ => continuous_finsetSum _ fun e _ =>
      continuous_const.mul ((Polynomial.continuous _).mul (Polynomial.continuous _))
  have hpos : ∀ i t, y i t ≠ 0 → 0 < Q i t := fun i t hne => hW _ hne
  have hQ0 : ∀ i t, 0 ≤ Q i t := fun i t => by
    by_cases hy0 : y i t = 0
    · rw [hQ]
      simp [hy0]
    · exact (hpos i t hy0).le
  obtain ⟨-, hsplit⟩ := pieces_integral (kn := s.kn) (lo := s.order - 1) (hi := s.knots.length - s.order) (P := Q)
    (g := fun t => ∑ d : Fin D, ∑ e : Fin D, W d e * ((s.evalD t der).getD 0 d * (s.evalD t der).getD 0 e)) hQc
    (fun i a b => h.mono _ _ (by omega) (by omega))
    (fun i a b x x1 x2 => by
      rw [evalD_on_segment h hw a b der x x1.le (Or.inl x2)]
      rfl) (s.knots.length - s.order) (by omega) le_rfl
  rw [hz] at hsplit
  have z3 : ∫ x in s.kn i..s.kn (i + 1), Q i x = 0 :=
    (sum_eq_zero_iff_of_nonneg fun i hi => intervalIntegral.integral_nonneg
      (h.mono _ _ (by have := mem_Ico.1 hi; omega) (by have := mem_Ico.1 hi; omega)) fun t _ => hQ0 i t).1 hsplit.symm i (mem_Ico.2 (by omega))
  refine eq_zero_of_infinite_isRoot _ ((Set.Icc_infinite hlt).mono fun t ht => ?_)
  by_contra hne
  have hp : 0 < ∫ x in s.kn i..s.kn (i + 1), Q i x :=
    intervalIntegral.integral_pos hlt (hQc i).continuousOn (fun x _ => hQ0 i x) ⟨t, ht, hpos i t fun h0 => hne (congrFun h0 d)⟩
  rw [z3] at hp
  exact lt_irrefl _ hp

/-- Curves that agree with polynomials have these as pieces. -/
theorem segPoly_of_eval {s : BSpline ℝ D} (h : s.WF) (hw : s.WideLast) (P : Fin D → ℝ[X])
    (hP : ∀ t, Valid s t → s.eval t = .ok (fun d => (P d).eval t)) (i : ℕ) (h1 : s.order - 1 ≤ i)
    (h2 : i + 1 ≤ s.knots.length - s.order) (hlt : s.kn i < s.kn (i + 1)) (d : Fin D) : s.segPoly i d = P d := by
  have hk := h.order_pos
  have hn := h.enough
  refine eq_of_infinite_eval_eq _ _ ((Set.Ioo_infinite hlt).mono fun t ht => ?_)
  have e := hP t ⟨(h.mono _ _ h1 (by omega)).trans ht.1.le, ht.2.le.trans (h.mono _ _ h2 (by omega))⟩
  have e' := evalD_on_segment h hw h1 h2 0 t ht.1.le (Or.inl ht.2)
  rw [show s.evalD t (0 : ℕ) = s.eval t from rfl, e] at e'
  exact (congrFun (Outcome.ok.inj e') d).symm

/-! ### The property -/

/-- **C98, no cost.** With a positive definite weight the motion error of a spline, constructed from any spline of the same shape, is zero
exactly if the derivative of the curve vanishes on the whole valid interval. -/
theorem C98_zero_iff (s : BSpline ℝ D) (h : s.WF) (hw : s.WideLast) (W : Mat ℝ) (hW : AcceptedWeight D W) (hp : PositiveWeight D W) (o : ℕ)
    (ho : o < 2 ^ 31) :
    ∃ m, create s W o = .ok m ∧ ∀ s' : BSpline ℝ D, SameShape s s' →
      (m.evaluate s' = .ok 0 ↔ ∀ t, Valid s t → s'.evalD t (min o (s.order - 1) : ℕ) = .ok 0) := by
  have hk := h.order_pos
  have hn := h.enough
  obtain ⟨m, hm, hval⟩ := C46_error s h hw W hW o ho _ _ (tMin_eq h) (tMax_eq h)
  refine ⟨m, hm, fun s' hs => ?_⟩
  rw [hval s' hs.order hs.knots hs.basis hs.length]
  have hwf := hs.wf h
  have hwide := hs.wide hw
  constructor
  · intro hz t ht
    obtain ⟨-, i, hi, hev⟩ := evalD_repro hwf hwide (min o (s.order - 1)) t ((hs.valid t).2 ht).1 ((hs.valid t).2 ht).2
    have hz' := Outcome.ok.inj hz
    rw [← hs.kn, ← hs.order, ← hs.knots] at hz'
    rw [hev]
    refine congrArg Outcome.ok (funext fun d => ?_)
    have := integral_zero_pieces hwf hwide hp _ hz' i hi.lower hi.upper hi.pos d
    rw [hs.order] at this
    rw [this]
    exact eval_zero
  · intro hz
    refine congrArg Outcome.ok ?_
    rw [intervalIntegral.integral_congr (g := fun _ => (0 : ℝ)) fun t ht => ?_]
    · exact intervalIntegral.integral_zero
    · rw [Set.uIcc_of_le (h.mono _ _ (by omega) (by omega))] at ht
      beta_reduce
      rw [hz t ht]
      simp [Outcome.getD]

/-- **C98, polynomials.** If the knots of the valid interval are distinct, the motion error is zero exactly for the splines that are
polynomials of a degree below the order of the derivative (only zero if this order is zero). -/
theorem C98_polynomial (s : BSpline ℝ D) (h : s.WF) (hw : s.WideLast) (hd : DistinctKnots s) (W : Mat ℝ) (hW : AcceptedWeight D W)
    (hp : PositiveWeight D W) (o : ℕ) (ho : o < 2 ^ 31) :
    ∃ m, create s W o = .ok m ∧ ∀ s' : BSpline ℝ D, SameShape s s' →
      (m.evaluate s' = .ok 0 ↔ ∃ P : Fin D → ℝ[X], (∀ d, (P d).degree < (min o (s.order - 1) : ℕ)) ∧
        ∀ t, Valid s t → s'.eval t = .ok (fun d => (P d).eval t)) := by
  have hk := h.order_pos
  have hn := h.enough
  obtain ⟨m, hm, hval⟩ := C98_zero_iff s h hw W hW hp o ho
  refine ⟨m, hm, fun s' hs => ?_⟩
  rw [hval s' hs]
  have hwf := hs.wf h
  have hwide := hs.wide hw
  have hdis := hs.distinct hd
  have hn' := hwf.enough
  have hk' := hwf.order_pos
  constructor
  · intro hz
    have hpz : ∀ i, s'.order - 1 ≤ i → i + 1 ≤ s'.knots.length - s'.order → ∀ d, derivative^[min o (s.order - 1)] (s'.segPoly i d) = 0 := by
      intro i h1 h2 d
      refine eq_zero_of_infinite_isRoot _ ((Set.Ioo_infinite (hdis i h1 h2)).mono fun t ht => ?_)
      have e := hz t ((hs.valid t).1 ⟨(hwf.mono _ _ h1 (by omega)).trans ht.1.le, ht.2.le.trans (hwf.mono _ _ h2 (by omega))⟩)
      rw [evalD_on_segment hwf hwide h1 h2 _ t ht.1.le (Or.inl ht.2)] at e
      exact congrFun (Outcome.ok.inj e) d
    have hone : ∀ d i, s'.order - 1 ≤ i → i + 1 ≤ s'.knots.length - s'.order → s'.segPoly i d = s'.segPoly (s'.order - 1) d := by
      intro d i h1 h2
      rcases Nat.eq_zero_or_pos (min o (s.order - 1)) with h0 | h0
      · have a := hpz i h1 h2 d
        have b := hpz (s'.order - 1) le_rfl (by omega) d
        rw [h0] at a b
        exact a.trans b.symm
      · obtain ⟨e, he⟩ := Nat.exists_eq_add_of_lt h0
        rw [Nat.zero_add] at he
        have ho' := hs.order
        refine segPoly_one hwf e (by omega) hdis d (fun i i1 i2 => ?_) i h1 h2
        rw [← he]
        exact hpz i i1 i2 d
    refine ⟨fun d => s'.segPoly (s'.order - 1) d, fun d => degree_lt_of_derivative (hpz _ le_rfl (by omega) d), fun t ht => ?_⟩
    obtain ⟨-, i, hi, hev⟩ := evalD_repro hwf hwide 0 t ((hs.valid t).2 ht).1 ((hs.valid t).2 ht).2
    rw [show s'.eval t = s'.evalD t (0 : ℕ) from rfl, hev]
    refine congrArg Outcome.ok (funext fun d => ?_)
    rw [hone d i hi.lower hi.upper]
    rfl
  · rintro ⟨P, hP, hev⟩ t ht
    obtain ⟨-, i, hi, e⟩ := evalD_repro hwf hwide (min o (s.order - 1)) t ((hs.valid t).2 ht).1 ((hs.valid t).2 ht).2
    rw [e]
    refine congrArg Outcome.ok (funext fun d => ?_)
    rw [segPoly_of_eval hwf hwide P (fun x hx => hev x ((hs.valid x).1 hx)) i hi.lower hi.upper hi.pos d, derivative_of_degree_lt (hP d)]
    exact eval_zero

/-- **C98, all of them.** For every choice of polynomials of a degree below the order of the derivative there is exactly one list of
coefficients for which the spline is these polynomials, and its motion error is zero. -/
theorem C98_each (s : BSpline ℝ D) (h : s.WF) (hw : s.WideLast) (hd : DistinctKnots s) (W : Mat ℝ) (hW : AcceptedWeight D W)
    (hp : PositiveWeight D W) (o : ℕ) (ho : o < 2 ^ 31) :
    ∃ m, create s W o = .ok m ∧ ∀ P : Fin D → ℝ[X], (∀ d, (P d).degree < (min o (s.order - 1) : ℕ)) →
      ∃ cs, cs.length = s.coeffs.length ∧ m.evaluate (withCoeffs s cs) = .ok 0 ∧
        (∀ t, Valid s t → (withCoeffs s cs).eval t = .ok (fun d => (P d).eval t)) ∧
        ∀ cs', cs'.length = s.coeffs.length → (∀ t, Valid s t → (withCoeffs s cs').eval t = .ok (fun d => (P d).eval t)) → cs' = cs := by
  have hk := h.order_pos
  obtain ⟨m, hm, hval⟩ := C98_polynomial s h hw hd W hW hp o ho
  refine ⟨m, hm, fun P hP => ?_⟩
  obtain ⟨cs, hl, hev⟩ := C76_reproduces s h P fun d => by
    by_cases h0 : P d = 0
    · rw [h0, natDegree_zero]; omega
    · exact (natDegree_lt_iff_degree_lt h0).2 ((hP d).trans_le (by exact_mod_cast (by omega : min o (s.order - 1) ≤ s.order)))
  have hv : ∀ t, Valid s t → (withCoeffs s cs).eval t = .ok (fun d => (P d).eval t) := fun t ht =>
    hev t (admissible_of_wide t (WideLast.wide h hw) ht.1 ht.2) 0
  refine ⟨cs, hl, (hval (withCoeffs s cs) ⟨rfl, rfl, rfl, hl⟩).2 ⟨P, hP, hv⟩, hv, fun cs' hl' hv' => ?_⟩
  exact C76_unique (withCoeffs s cs') (withCoeffs s cs) (WF.withCoeffs h _ hl') (WF.withCoeffs h _ hl) rfl rfl hd
    (WideLast.wide (s := s) h hw) fun t t1 t2 => (hv' t ⟨t1, t2⟩).trans (hv t ⟨t1, t2⟩).symm

/-- **C98, observability.** Values of the curve at finitely many different times determine the spline together with the motion error --
only the zero spline has no motion error and is zero at these times -- exactly if there are at least as many times as the order of the
derivative. -/
theorem C98_observable_iff (s : BSpline ℝ D) (h : s.WF) (hw : s.WideLast) (hd : DistinctKnots s) (hD : 1 ≤ D) (W : Mat ℝ)
    (hW : AcceptedWeight D W) (hp : PositiveWeight D W) (o : ℕ) (ho : o < 2 ^ 31) (T : Finset ℝ) (hT : ∀ t ∈ T, Valid s t) :
    ∃ m, create s W o = .ok m ∧
      ((∀ s' : BSpline ℝ D, SameShape s s' → m.evaluate s' = .ok 0 → (∀ t ∈ T, s'.eval t = .ok 0) → ∀ c ∈ s'.coeffs, c = 0) ↔
        min o (s.order - 1) ≤ T.card) := by
  have hk := h.order_pos
  obtain ⟨m, hm, hval⟩ := C98_polynomial s h hw hd W hW hp o ho
  obtain ⟨m', hm', hall⟩ := C98_each s h hw hd W hW hp o ho
  obtain rfl : m' = m := Outcome.ok.inj (hm'.symm.trans hm)
  have hzero : ∀ t, Valid s t → (withCoeffs s (List.replicate s.coeffs.length 0)).eval t = .ok (0 : Fin D → ℝ) := by
    intro t ht
    have e := evalD_repro (WF.withCoeffs h (List.replicate s.coeffs.length 0) (by simp)) hw 0 t ht.1 ht.2
    obtain ⟨-, i, -, e⟩ := e
    refine Eq.trans e (congrArg Outcome.ok (funext fun d => ?_))
    have : ∀ j, (BSpline.mk (K := ℝ) s.order s.knots (List.replicate s.coeffs.length (0 : Fin D → ℝ)) s.basis).col j = 0 := by
      intro j
      unfold col
      rw [List.getD_eq_getElem?_getD]
      by_cases hj : j < s.coeffs.length
      · simp [hj]
      · simp [hj]
    unfold segPoly
    simp [this]
  refine ⟨m', hm, ⟨fun hdet => ?_, fun hcard s' hs hz hT0 => ?_⟩⟩
  · by_contra hlt
    push Not at hlt
    have hdeg : (∏ t ∈ T, (X - C t) : ℝ[X]).degree = T.card := by
      rw [degree_prod]
      simp
    obtain ⟨cs, hl, hz, hv, -⟩ := hall (fun _ => ∏ t ∈ T, (X - C t)) fun d => by
      rw [hdeg]
      exact_mod_cast hlt
    have h0 := hdet (withCoeffs s cs) ⟨rfl, rfl, rfl, hl⟩ hz fun t ht => by
      rw [hv t (hT t ht)]
      refine congrArg Outcome.ok (funext fun d => ?_)
      rw [eval_prod]
      exact prod_eq_zero ht (by simp)
    have hcs : cs = List.replicate s.coeffs.length 0 := List.eq_replicate_iff.2 ⟨hl, h0⟩
    have hpoly : (∏ t ∈ T, (X - C t) : ℝ[X]) = 0 := by
      have hsm := segPoly_of_eval (WF.withCoeffs h cs hl) hw _ hv
      have hn := h.enough
      rw [hcs] at hv
      have hinf := Set.Icc_infinite (hd (s.order - 1) le_rfl (by omega))
      refine eq_zero_of_infinite_isRoot _ (hinf.mono fun t ht => ?_)
      have hvt : Valid s t := ⟨ht.1, ht.2.trans (h.mono _ _ (by omega) (by omega))⟩
      have := hv t hvt
      rw [hzero t hvt] at this
      exact (congrFun (Outcome.ok.inj this) ⟨0, hD⟩).symm
    rw [hpoly, degree_zero] at hdeg
    exact absurd hdeg (by simp)
  · obtain ⟨P, hP, hv⟩ := (hval s' hs).1 hz
    have hP0 : ∀ d, P d = 0 := by
      intro d
      by_contra hne
      have hroots : T ⊆ (P d).roots.toFinset := by
        intro t ht
        rw [Multiset.mem_toFinset, mem_roots hne]
        have := hv t (hT t ht)
        rw [hT0 t ht] at this
        exact (congrFun (Outcome.ok.inj this) d).symm
      have h1 := card_le_card hroots
      have h2 := (Multiset.toFinset_card_le (P d).roots).trans (card_roots' (P d))
      have h3 := (natDegree_lt_iff_degree_lt hne).2 (hP d)
      omega
    have e := C76_unique s' (withCoeffs s (List.replicate s.coeffs.length 0)) (hs.wf h) (WF.withCoeffs h _ (by simp)) hs.order.symm hs.knots.symm
      (hs.distinct hd) (WideLast.wide (hs.wf h) (hs.wide hw)) fun t t1 t2 => by
        have ht := (hs.valid t).1 ⟨t1, t2⟩
        rw [hv t ht, hzero t ht]
        exact congrArg Outcome.ok (funext fun d => by rw [hP0 d]; exact eval_zero)
    intro c hc
    rw [e] at hc
    exact List.eq_of_mem_replicate hc

/-! ### Why the knots must be distinct -/

/-- A spline with the double knot of `exReal` whose pieces are zero before it and `(t - 3)^2` after it. -/
noncomputable def exBend : BSpline ℝ 1 := withCoeffs exReal [![0], ![0], ![0], ![0], ![1], ![19 / 3]]

theorem exBend_pieces : exBend.segPoly 3 0 = 0 ∧ exBend.segPoly 5 0 = (X - C 3) ^ 2 := by
  have hk : exBend.kn 0 = 0 ∧ exBend.kn 1 = 1 ∧ exBend.kn 2 = 1 ∧ exBend.kn 3 = 2 ∧ exBend.kn 4 = 3 ∧ exBend.kn 5 = 3 ∧ exBend.kn 6 = 4 ∧
      exBend.kn 7 = 6 ∧ exBend.kn 8 = 7 ∧ exBend.kn 9 = 8 := ⟨rfl, rfl, rfl, rfl, rfl, rfl, rfl, rfl, rfl, rfl⟩
  obtain ⟨k0, k1, k2, k3, k4, k5, k6, k7, k8, k9⟩ := hk
  have hc : exBend.col 0 0 = 0 ∧ exBend.col 1 0 = 0 ∧ exBend.col 2 0 = 0 ∧ exBend.col 3 0 = 0 ∧ exBend.col 4 0 = 1 ∧
      exBend.col 5 0 = 19 / 3 := ⟨rfl, rfl, rfl, rfl, rfl, rfl⟩
  obtain ⟨c0, c1, c2, c3, c4, c5⟩ := hc
  have hl : exBend.coeffs.length = 6 := rfl
  have ho : exBend.order = 4 := rfl
  constructor
  · unfold segPoly
    rw [hl, ho]
    simp only [sum_range_succ, range_zero, sum_empty, c0, c1, c2, c3, c4, c5]
    rw [piece_zero_of_lt _ 3 _ 4 (by norm_num), piece_zero_of_lt _ 3 _ 5 (by norm_num)]
    simp
  · refine Polynomial.funext fun x => ?_
    unfold segPoly
    rw [hl, ho]
    simp only [sum_range_succ, range_zero, sum_empty, c0, c1, c2, c3, c4, c5]
    simp [piece, k4, k5, k6, k7, k8, k9]
    ring

/-- **C98, multiple knots.** The knots must be distinct: with a double knot there is a spline without motion error for the third derivative
that is not a polynomial, though the weight is positive definite. -/
theorem C98_multiple_knots :
    ∃ m, create exReal (fun _ _ => 3) 3 = .ok m ∧ SameShape exReal exBend ∧ m.evaluate exBend = .ok 0 ∧
      ¬ ∃ P : Fin 1 → ℝ[X], ∀ t, Valid exReal t → exBend.eval t = .ok (fun d => (P d).eval t) := by
  have hs : SameShape exReal exBend := ⟨rfl, rfl, rfl, rfl⟩
  have hwf := hs.wf exReal_wf
  have hwide := hs.wide exReal_wide
  have hseg : ∀ i, exBend.order - 1 ≤ i → i + 1 ≤ exBend.knots.length - exBend.order → exBend.kn i < exBend.kn (i + 1) → i = 3 ∨ i = 5 := by
    intro i h1 h2 h3
    change 3 ≤ i at h1
    change i + 1 ≤ 6 at h2
    rcases (by omega : i = 3 ∨ i = 4 ∨ i = 5) with rfl | rfl | rfl
    · exact Or.inl rfl
    · exact absurd h3 (lt_irrefl (3 : ℝ))
    · exact Or.inr rfl
  obtain ⟨m, hm, hval⟩ := C98_zero_iff exReal exReal_wf exReal_wide (fun _ _ => 3) (by intro r _ c _; norm_num)
    (fun y hy => by
      have h0 : y 0 ≠ 0 := fun h => hy (funext fun d => by rw [Subsingleton.elim d 0]; exact h)
      simp only [univ_unique, Fin.default_eq_zero, Fin.isValue, sum_singleton]
      have := mul_self_pos.2 h0
      linarith) 3 (by norm_num)
  refine ⟨m, hm, hs, (hval exBend hs).2 fun t ht => ?_, ?_⟩
  · obtain ⟨-, i, hi, hev⟩ := evalD_repro hwf hwide 3 t ((hs.valid t).2 ht).1 ((hs.valid t).2 ht).2
    refine Eq.trans hev (congrArg Outcome.ok (funext fun d => ?_))
    rw [Subsingleton.elim d 0]
    rcases hseg i hi.lower hi.upper hi.pos with rfl | rfl
    · rw [exBend_pieces.1, iterate_derivative_zero]
      exact eval_zero
    · rw [exBend_pieces.2, derivative_of_degree_lt (by rw [degree_pow, degree_X_sub_C]; norm_num)]
      exact eval_zero
  · rintro ⟨P, hP⟩
    have a := segPoly_of_eval hwf hwide P (fun t ht => hP t ((hs.valid t).1 ht)) 3 le_rfl (by decide) (by change (2 : ℝ) < 3; norm_num) 0
    have b := segPoly_of_eval hwf hwide P (fun t ht => hP t ((hs.valid t).1 ht)) 5 (by decide) (by decide) (by change (3 : ℝ) < 4; norm_num) 0
    rw [exBend_pieces.1] at a
    rw [exBend_pieces.2, ← a] at b
    exact pow_ne_zero 2 (X_sub_C_ne_zero (3 : ℝ)) b

/-! ### Examples -/

/-- Order 4, four segments of different lengths, two components. -/
noncomputable def exMotion : BSpline ℝ 2 :=
  initializeBasisMatrices ⟨4, [0, 1, 1, 2, 3, 5, 6, 7, 7, 7, 8], List.replicate 7 ![1, 2], []⟩

theorem exMotion_wf : exMotion.WF :=
  initializeBasisMatrices_wf _ (by decide) (by norm_num) (by decide) (by decide)

theorem exMotion_wide : exMotion.WideLast := by
  intro a b hab
  have : exMotion.timeIntervalOf ((exMotion.numValidTimeSegments : ℤ) - 1) = .ok (6, 7) := rfl
  rw [this] at hab
  have := Outcome.ok.inj hab
  obtain ⟨rfl, rfl⟩ := Prod.mk.inj this
  norm_num

theorem exMotion_distinct : DistinctKnots exMotion := by
  intro i h1 h2
  change 3 ≤ i at h1
  change i + 1 ≤ 7 at h2
  rcases (by omega : i = 3 ∨ i = 4 ∨ i = 5 ∨ i = 6) with rfl | rfl | rfl | rfl
  · change (2 : ℝ) < 3; norm_num
  · change (3 : ℝ) < 5; norm_num
  · change (5 : ℝ) < 6; norm_num
  · change (6 : ℝ) < 7; norm_num

/-- A weight that couples the components. -/
def exWeight : Mat ℝ := fun r c => if r = c then 2 else 1

theorem exWeight_ok : AcceptedWeight 2 exWeight ∧ PositiveWeight 2 exWeight := by
  constructor
  · intro r _ c _
    unfold exWeight
    simp [eq_comm]
  · intro y hy
    have e : ∑ d : Fin 2, ∑ e : Fin 2, exWeight d e * (y d * y e) = y 0 ^ 2 + y 1 ^ 2 + (y 0 + y 1) ^ 2 := by
      simp only [Fin.sum_univ_two, exWeight]
      norm_num
      ring
    rw [e]
    by_cases h0 : y 0 = 0
    · have h1 : y 1 ≠ 0 := fun h1 => hy (funext fun d => by fin_cases d <;> assumption)
      have := sq_pos_of_ne_zero h1
      nlinarith [sq_nonneg (y 0), sq_nonneg (y 0 + y 1)]
    · have := sq_pos_of_ne_zero h0
      nlinarith [sq_nonneg (y 1), sq_nonneg (y 0 + y 1)]

/-- Two times determine a motion of small acceleration, one does not. -/
example : ∃ m, create exMotion exWeight 2 = .ok m ∧
    (∀ s', SameShape exMotion s' → m.evaluate s' = .ok 0 → (∀ t ∈ ({2, 4} : Finset ℝ), s'.eval t = .ok 0) → ∀ c ∈ s'.coeffs, c = 0) ∧
    ¬ ∀ s', SameShape exMotion s' → m.evaluate s' = .ok 0 → (∀ t ∈ ({4} : Finset ℝ), s'.eval t = .ok 0) → ∀ c ∈ s'.coeffs, c = 0 := by
  have hv : ∀ t : ℝ, 2 ≤ t → t ≤ 7 → Valid exMotion t := fun t a b => ⟨a, b⟩
  obtain ⟨m, hm, h2⟩ := C98_observable_iff exMotion exMotion_wf exMotion_wide exMotion_distinct (by norm_num) exWeight exWeight_ok.1
    exWeight_ok.2 2 (by norm_num) {2, 4} (by
      intro t ht
      simp only [mem_insert, mem_singleton] at ht
      rcases ht with rfl | rfl <;> exact hv _ (by norm_num) (by norm_num))
  obtain ⟨m', hm', h1⟩ := C98_observable_iff exMotion exMotion_wf exMotion_wide exMotion_distinct (by norm_num) exWeight exWeight_ok.1
    exWeight_ok.2 2 (by norm_num) {4} (by
      intro t ht
      obtain rfl := mem_singleton.1 ht
      exact hv _ (by norm_num) (by norm_num))
  obtain rfl : m' = m := Outcome.ok.inj (hm'.symm.trans hm)
  have ho : min 2 (exMotion.order - 1) = 2 := rfl
  refine ⟨m', hm, h2.2 ?_, fun hc => ?_⟩
  · rw [ho, card_pair (by norm_num)]
  · have := h1.1 hc
    rw [ho, card_singleton] at this
    omega

end Verif
