import Verif.Lemmas.Marsden
import Verif.Props.LeastSquares
import Verif.Props.Fit
import Verif.Props.State

/-!
# Property C76: reproduction of polynomials, by the curve and by the fits
-/

set_option linter.unusedSectionVars false

namespace Verif

open Finset Polynomial BSpline MeasureTheory

section Field

variable {K : Type*} [Field K] [LinearOrder K] [IsStrictOrderedRing K] {D : ℕ}

theorem segPoly_repro {s : BSpline K D} (h : s.WF) (P : Fin D → K[X]) (hP : ∀ d, (P d).natDegree < s.order)
    (hc : ∀ j < s.coeffs.length, ∀ d, s.col j d = reproCoeff s.kn (s.order - 1) (P d) j)
    (i : ℕ) (h1 : s.order - 1 ≤ i) (h2 : i + 1 ≤ s.knots.length - s.order) (hlt : s.kn i < s.kn (i + 1))
    (d : Fin D) : s.segPoly i d = P d := by
  have hk := h.order_pos
  have hn := h.enough
  have hc' := h.coeffs_len
  unfold segPoly
  rw [segPoly_local h i h1 h2 (fun j => s.col j d)]
  have e : ∀ j ∈ Ico (i - (s.order - 1)) (i + 1), C (s.col j d) * piece s.kn i (s.order - 1) j
      = C (reproCoeff s.kn (s.order - 1) (P d) j) * piece s.kn i (s.order - 1) j := by
    intro j hj
    have := mem_Ico.1 hj
    rw [hc j (by omega) d]
  rw [sum_congr rfl e]
  exact piece_reproduces s.kn s.knots.length i h.mono hlt (s.order - 1) (by omega) (by omega) (P d) (by have := hP d; omega)

/-- **C76**, polynomials: for all polynomials of degree below the order there are coefficients for which the curve and all its
derivatives are those of the polynomials, at every time, for any knots. -/
theorem C76_reproduces (s : BSpline K D) (h : s.WF) (P : Fin D → K[X]) (hP : ∀ d, (P d).natDegree < s.order) :
    ∃ cs, cs.length = s.coeffs.length ∧ ∀ t, s.Admissible t → ∀ der : ℕ,
      (BSpline.mk (K := K) s.order s.knots cs s.basis).evalD t der = .ok (fun d => (derivative^[der] (P d)).eval t) := by
  set cs := (List.range s.coeffs.length).map fun j (d : Fin D) => reproCoeff s.kn (s.order - 1) (P d) j with hcs
  have hl : cs.length = s.coeffs.length := by simp [hcs]
  refine ⟨cs, hl, fun t ha der => ?_⟩
  have hwf : (BSpline.mk (K := K) s.order s.knots cs s.basis).WF := WF.withCoeffs h cs hl
  obtain ⟨i, hi, -, hev⟩ := evalDNat_admissible hwf t ha
  unfold evalD
  rw [if_neg (by omega), Int.toNat_natCast, hev]
  refine congrArg Outcome.ok (funext fun d => ?_)
  rw [segPoly_repro hwf P hP ?_ i hi.lower hi.upper hi.pos d]
  intro j hj d
  change (cs.getD j 0) d = _
  change j < cs.length at hj
  rw [List.getD_eq_getElem?_getD, List.getElem?_eq_getElem hj, Option.getD_some]
  have e : cs[j] = fun d => reproCoeff s.kn (s.order - 1) (P d) j := by simp [hcs]
  rw [e]
  rfl

/-- **C76**, uniqueness: if no segment is empty, the coefficients are determined by the values of the curve; in particular the
coefficients that reproduce a polynomial are the only ones. -/
theorem C76_unique (s s' : BSpline K D) (h : s.WF) (h' : s'.WF) (ho : s'.order = s.order) (hkn : s'.knots = s.knots)
    (hstrict : ∀ i, s.order - 1 ≤ i → i + 1 ≤ s.knots.length - s.order → s.kn i < s.kn (i + 1))
    (hw : snapTol ≤ s.kn (s.knots.length - s.order) - s.kn (s.knots.length - s.order - 1))
    (heq : ∀ t, s.kn (s.order - 1) ≤ t → t ≤ s.kn (s.knots.length - s.order) → s.eval t = s'.eval t) :
    s.coeffs = s'.coeffs := by
  have hk := h.order_pos
  have hn := h.enough
  have hc := h.coeffs_len
  have hc' := h'.coeffs_len
  have hkn' : s'.kn = s.kn := by unfold kn; rw [hkn]
  rw [ho, hkn] at hc'
  have key : ∀ i, s.order - 1 ≤ i → i + 1 ≤ s.knots.length - s.order → ∀ d, s.segPoly i d = s'.segPoly i d := by
    intro i h1 h2 d
    refine eq_of_infinite_eval_eq _ _ ((Set.Ioo_infinite (hstrict i h1 h2)).mono fun t ht => ?_)
    have hlo : s.kn (s.order - 1) ≤ t := (h.mono _ _ h1 (by omega)).trans ht.1.le
    have hhi : t ≤ s.kn (s.knots.length - s.order) := ht.2.le.trans (h.mono _ _ h2 (by omega))
    have ha : s.Admissible t := admissible_of_wide t hw hlo hhi
    have hi : s.InSegment t i := ⟨h1, h2, hstrict i h1 h2, ht.1.le, Or.inl ht.2⟩
    have ha' : s'.Admissible t := by
      unfold Admissible
      rw [ho, hkn, hkn']
      exact ha
    have hi' : s'.InSegment t i := by
      refine ⟨?_, ?_, ?_, ?_, ?_⟩
      · rw [ho]; exact hi.lower
      · rw [ho, hkn]; exact hi.upper
      · rw [hkn']; exact hi.pos
      · rw [hkn']; exact hi.left
      · rw [ho, hkn, hkn']; exact hi.right
    have e := heq t hlo hhi
    unfold BSpline.eval evalD at e
    simp only [lt_irrefl, if_false, Int.toNat_zero] at e
    rw [evalDNat_of_inSegment h ha hi, evalDNat_of_inSegment h' ha' hi'] at e
    have e2 := congrFun (Outcome.ok.inj e) d
    simp only [Function.iterate_zero, id_eq] at e2
    change (s.segPoly i d).eval t = (s'.segPoly i d).eval t
    unfold segPoly
    rw [eval_finsetSum, eval_finsetSum]
    simp only [eval_mul, eval_C]
    exact e2
  apply List.ext_getElem (by omega)
  intro j hj hj'
  funext d
  -- a segment on which basis function `j` lives
  set i := max j (s.order - 1) with hi
  have h1 : s.order - 1 ≤ i := le_max_right _ _
  have h2 : i + 1 ≤ s.knots.length - s.order := by omega
  have e := key i h1 h2 d
  unfold segPoly at e
  rw [segPoly_local h i h1 h2 (fun j => s.col j d), segPoly_local h' i (by rw [ho]; exact h1) (by rw [ho, hkn]; exact h2) (fun j => s'.col j d), ho, hkn',
    ← sub_eq_zero, ← sum_sub_distrib] at e
  have e2 : ∑ j ∈ Ico (i - (s.order - 1)) (i + 1), C (s.col j d - s'.col j d) * piece s.kn i (s.order - 1) j = 0 := by
    rw [← e]
    exact sum_congr rfl fun j _ => by rw [C_sub, sub_mul]
  have e3 := piece_independent s.kn s.knots.length i h.mono (hstrict i h1 h2) (s.order - 1) (by omega) (by omega)
    (fun j => s.col j d - s'.col j d) e2 j (by omega) (by omega)
  have e4 := sub_eq_zero.1 e3
  unfold col at e4
  rw [List.getD_eq_getElem?_getD, List.getElem?_eq_getElem hj, Option.getD_some, List.getD_eq_getElem?_getD, List.getElem?_eq_getElem hj', Option.getD_some] at e4
  exact e4

/-- The knots of the initialisations from data are evenly spaced. -/
theorem prepareUniform_knots {s s1 : BSpline K D} (ho : 2 ≤ s.order) {data : List (K × (Fin D → K))} {n : ℕ}
    (h : s.prepareUniform data n = .ok s1) (i : ℕ) (hi : i < s1.knots.length) :
    s1.kn i = firstTime data + ((i : K) - (s.order : K) + 1) * ((lastTime data - firstTime data) / n) := by
  unfold prepareUniform at h
  split_ifs at h
  simp only [Int.toNat_natCast] at h
  obtain ⟨rfl, -, -⟩ := set_inv (by omega) h
  have hi' : i < numKnotsRequired s.order n := by
    change i < (uniformKnots _ _ _ _).length at hi
    simpa [uniformKnots] using hi
  exact uniformKnots_getD _ _ _ _ _ hi'

end Field

variable {D : ℕ}

theorem evalD_repro {s : BSpline ℝ D} (h : s.WF) (hw : s.WideLast) (der : ℕ) (t : ℝ) (h1 : s.kn (s.order - 1) ≤ t)
    (h2 : t ≤ s.kn (s.knots.length - s.order)) : s.Admissible t ∧ ∃ i, s.InSegment t i ∧
      s.evalD t der = .ok (fun d => (derivative^[der] (s.segPoly i d)).eval t) := by
  have ha : s.Admissible t := admissible_of_wide t (WideLast.wide h hw) h1 h2
  obtain ⟨i, hi, -, hev⟩ := evalDNat_admissible h t ha
  refine ⟨ha, i, hi, ?_⟩
  unfold evalD
  rw [if_neg (by omega), Int.toNat_natCast, hev]

/-- A spline of minimal cost for data on polynomials that are not penalised has no cost. -/
theorem optimal_zero {s : BSpline ℝ D} (h : s.WF) (hw : s.WideLast) (data : List (ℝ × (Fin D → ℝ)))
    (hdata : ∀ o ∈ data, s.kn (s.order - 1) ≤ o.1 ∧ o.1 ≤ s.kn (s.knots.length - s.order)) (lambda : ℝ) (der : ℕ)
    (P : Fin D → ℝ[X]) (hP : ∀ d, (P d).natDegree < s.order) (hder : lambda = 0 ∨ ∀ d, (P d).natDegree < der)
    (hon : ∀ o ∈ data, ∀ d, o.2 d = (P d).eval o.1)
    (hopt : ∀ cs, cs.length = s.coeffs.length →
      fitCost s data lambda der (s.kn (s.order - 1)) (s.kn (s.knots.length - s.order))
        ≤ fitCost (BSpline.mk (K := ℝ) s.order s.knots cs s.basis) data lambda der (s.kn (s.order - 1)) (s.kn (s.knots.length - s.order))) :
    fitCost s data lambda der (s.kn (s.order - 1)) (s.kn (s.knots.length - s.order)) ≤ 0 := by
  have hk := h.order_pos
  have hn := h.enough
  obtain ⟨cs, hl, hcs⟩ := C76_reproduces s h P hP
  refine (hopt cs hl).trans (le_of_eq ?_)
  have hlohi : s.kn (s.order - 1) ≤ s.kn (s.knots.length - s.order) := h.mono _ _ (by omega) (by omega)
  have hadm : ∀ t, s.kn (s.order - 1) ≤ t → t ≤ s.kn (s.knots.length - s.order) → s.Admissible t :=
    fun t h1 h2 => (evalD_repro h hw 0 t h1 h2).1
  unfold fitCost
  have z1 : (data.map fun o => ∑ d, (((BSpline.mk (K := ℝ) s.order s.knots cs s.basis).eval o.1).getD 0 d - o.2 d) ^ 2).sum = 0 := by
    apply List.sum_eq_zero
    intro x hx
    obtain ⟨o, ho, rfl⟩ := List.mem_map.1 hx
    refine sum_eq_zero fun d _ => ?_
    have := hcs o.1 (hadm _ (hdata o ho).1 (hdata o ho).2) 0
    unfold BSpline.eval
    rw [show ((0 : ℕ) : ℤ) = 0 from rfl] at this
    rw [this, hon o ho d]
    simp [Outcome.getD]
  rw [z1, zero_add]
  rcases hder with rfl | hder
  · rw [zero_mul]
  · have : (∫ t in s.kn (s.order - 1)..s.kn (s.knots.length - s.order),
        ∑ d, (((BSpline.mk (K := ℝ) s.order s.knots cs s.basis).evalD t der).getD 0 d) ^ 2)
        = ∫ _t in s.kn (s.order - 1)..s.kn (s.knots.length - s.order), (0 : ℝ) := by
      apply intervalIntegral.integral_congr
      intro t ht
      rw [Set.uIcc_of_le hlohi] at ht
      dsimp only
      rw [hcs t (hadm t ht.1 ht.2) der]
      refine sum_eq_zero fun d _ => ?_
      simp [Outcome.getD, iterate_derivative_eq_zero (hder d)]
    rw [this]
    simp

/-- No cost means that the data is met and that the penalised derivative vanishes. -/
theorem zero_cost_meets {s : BSpline ℝ D} (h : s.WF) (hw : s.WideLast) (data : List (ℝ × (Fin D → ℝ)))
    (hdata : ∀ o ∈ data, s.kn (s.order - 1) ≤ o.1 ∧ o.1 ≤ s.kn (s.knots.length - s.order)) (lambda : ℝ) (hlam : 0 ≤ lambda) (der : ℕ)
    (hz : fitCost s data lambda der (s.kn (s.order - 1)) (s.kn (s.knots.length - s.order)) ≤ 0) :
    (∀ o ∈ data, s.eval o.1 = .ok o.2) ∧
      (0 < lambda → ∀ i, s.order - 1 ≤ i → i + 1 ≤ s.knots.length - s.order → s.kn i < s.kn (i + 1) → ∀ d,
        derivative^[der] (s.segPoly i d) = 0) := by
  have hk := h.order_pos
  have hn := h.enough
  have hlohi : s.kn (s.order - 1) ≤ s.kn (s.knots.length - s.order) := h.mono _ _ (by omega) (by omega)
  have r0 : ∀ x ∈ data.map fun o => ∑ d, ((s.eval o.1).getD 0 d - o.2 d) ^ 2, 0 ≤ x := by
    intro x hx
    obtain ⟨o, -, rfl⟩ := List.mem_map.1 hx
    exact sum_nonneg fun d _ => sq_nonneg _
  have i0 : 0 ≤ ∫ t in s.kn (s.order - 1)..s.kn (s.knots.length - s.order), ∑ d, ((s.evalD t der).getD 0 d) ^ 2 :=
    intervalIntegral.integral_nonneg hlohi fun t _ => sum_nonneg fun d _ => sq_nonneg _
  unfold fitCost at hz
  have li0 := mul_nonneg hlam i0
  have rs0 := List.sum_nonneg r0
  have z1 : (data.map fun o => ∑ d, ((s.eval o.1).getD 0 d - o.2 d) ^ 2).sum = 0 := le_antisymm (by linarith) rs0
  refine ⟨fun o ho => ?_, fun hpos i h1 h2 hlt d => ?_⟩
  · have y1 : ∑ d, ((s.eval o.1).getD 0 d - o.2 d) ^ 2 = 0 := by
      refine le_antisymm ?_ (sum_nonneg fun d _ => sq_nonneg _)
      rw [← z1]
      exact List.single_le_sum r0 _ (List.mem_map.2 ⟨o, ho, rfl⟩)
    obtain ⟨-, i, hi, hev⟩ := evalD_repro h hw 0 o.1 (hdata o ho).1 (hdata o ho).2
    unfold BSpline.eval at y1 ⊢
    rw [show ((0 : ℕ) : ℤ) = 0 from rfl] at hev
    rw [hev] at y1 ⊢
    refine congrArg Outcome.ok (funext fun d => ?_)
    have y2 := (sum_eq_zero_iff_of_nonneg fun d _ => sq_nonneg _).1 y1 d (mem_univ _)
    exact sub_eq_zero.1 (pow_eq_zero_iff two_ne_zero |>.1 y2)
  · have z2 : ∫ t in s.kn (s.order - 1)..s.kn (s.knots.length - s.order), ∑ d, ((s.evalD t der).getD 0 d) ^ 2 = 0 := by
      refine le_antisymm ?_ i0
      by_contra hcon
      have := mul_pos hpos (not_le.1 hcon)
      linarith
    set Q : ℕ → ℝ → ℝ := fun i t => ∑ d, ((derivative^[der] (s.segPoly i d)).eval t) ^ 2 with hQ
    have hQc : ∀ i, Continuous (Q i) := fun i => by
      rw [hQ]
      exact continuous_finsetSum _ fun d _ => (Polynomial.continuous _).pow 2
    have hQ0 : ∀ i t, 0 ≤ Q i t := fun i t => sum_nonneg fun d _ => sq_nonneg _
    obtain ⟨-, hsplit⟩ := pieces_integral (kn := s.kn) (lo := s.order - 1) (hi := s.knots.length - s.order) (P := Q)
      (g := fun t => ∑ d, ((s.evalD t der).getD 0 d) ^ 2) hQc (fun i a b => h.mono _ _ (by omega) (by omega))
      (fun i a b x x1 x2 => by
        rw [evalD_on_segment h hw a b der x x1.le (Or.inl x2)]
        rfl) (s.knots.length - s.order) (by omega) le_rfl
    rw [z2] at hsplit
    have z3 : ∫ x in s.kn i..s.kn (i + 1), Q i x = 0 :=
      (sum_eq_zero_iff_of_nonneg fun i hi => intervalIntegral.integral_nonneg
        (h.mono _ _ (by have := mem_Ico.1 hi; omega) (by have := mem_Ico.1 hi; omega)) fun t _ => hQ0 i t).1 hsplit.symm i (mem_Ico.2 (by omega))
    refine eq_zero_of_infinite_isRoot _ ((Set.Icc_infinite hlt).mono fun t ht => ?_)
    by_contra hne
    have hp : 0 < ∫ x in s.kn i..s.kn (i + 1), Q i x :=
      intervalIntegral.integral_pos hlt (hQc i).continuousOn (fun x _ => hQ0 i x) ⟨t, ht, by
        refine lt_of_lt_of_le (lt_of_le_of_ne (sq_nonneg _) (Ne.symm (pow_ne_zero 2 hne))) (single_le_sum (f := fun d => ((derivative^[der] (s.segPoly i d)).eval t) ^ 2)
          (fun d _ => sq_nonneg _) (mem_univ d))⟩
    rw [z3] at hp
    exact lt_irrefl _ hp

/-- A polynomial is determined by its derivatives at one point up to its degree. -/
theorem poly_eq_of_derivatives (Q : ℝ[X]) (m : ℕ) (a : ℝ) (hdeg : derivative^[m + 1] Q = 0)
    (ha : ∀ r, r ≤ m → (derivative^[r] Q).eval a = 0) : Q = 0 := by
  by_contra hQ
  have h1 : Q.rootMultiplicity a < Q.rootMultiplicity a := by
    refine (lt_rootMultiplicity_iff_isRoot_iterate_derivative hQ).2 fun r _ => ?_
    rcases Nat.lt_or_ge m r with hr | hr
    · obtain ⟨k, rfl⟩ := Nat.exists_eq_add_of_lt hr
      rw [show m + k + 1 = k + (m + 1) by omega, Function.iterate_add_apply, hdeg, iterate_derivative_zero]
      exact eval_zero
    · exact ha r hr
  exact lt_irrefl _ h1

/-- If the penalised derivative vanishes on all segments and the pieces fit together, they are one polynomial. -/
theorem segPoly_one {s : BSpline ℝ D} (h : s.WF) (m : ℕ) (hm : m + 2 ≤ s.order)
    (hstrict : ∀ i, s.order - 1 ≤ i → i + 1 ≤ s.knots.length - s.order → s.kn i < s.kn (i + 1)) (d : Fin D)
    (hz : ∀ i, s.order - 1 ≤ i → i + 1 ≤ s.knots.length - s.order → derivative^[m + 1] (s.segPoly i d) = 0) :
    ∀ i, s.order - 1 ≤ i → i + 1 ≤ s.knots.length - s.order → s.segPoly i d = s.segPoly (s.order - 1) d := by
  have hk := h.order_pos
  have hn := h.enough
  have hc := h.coeffs_len
  intro i h1
  obtain ⟨l, rfl⟩ := Nat.exists_eq_add_of_le h1
  clear h1
  induction l with
  | zero => intro _; rfl
  | succ l ih =>
    intro h2
    rw [← ih (by omega)]
    refine sub_eq_zero.1 (poly_eq_of_derivatives _ m (s.kn (s.order - 1 + l + 1)) ?_ fun r hr => ?_)
    · rw [iterate_derivative_sub, hz _ (by omega) h2, hz _ (by omega) (by omega), sub_zero]
    · rw [iterate_derivative_sub, eval_sub, sub_eq_zero]
      unfold segPoly
      rw [iterate_derivative_sum, iterate_derivative_sum, eval_finsetSum, eval_finsetSum]
      refine sum_congr rfl fun j hj => ?_
      have hj := mem_range.1 hj
      rw [iterate_derivative_C_mul, iterate_derivative_C_mul, eval_mul, eval_mul]
      congr 1
      have := piece_join_derivative s.kn s.knots.length (s.order - 1 + l) 1 h.mono (s.kn (s.order - 1 + l + 1))
        (hstrict _ (by omega) (by omega)) (hstrict (s.order - 1 + l + 1) (by omega) (by omega)) le_rfl
        (fun l' a b => by rw [show l' = s.order - 1 + l + 1 by omega]) r (s.order - 1) j (by omega) (by omega)
      exact this.symm

/-- A curve whose pieces have a vanishing derivative and that meets data on a line is this line. -/
theorem optimal_line {s : BSpline ℝ D} (h : s.WF) (hw : s.WideLast) (data : List (ℝ × (Fin D → ℝ)))
    (hdata : ∀ o ∈ data, s.kn (s.order - 1) ≤ o.1 ∧ o.1 ≤ s.kn (s.knots.length - s.order)) (m : ℕ) (hm2 : m ≤ 1) (hm3 : m + 2 ≤ s.order)
    (P : Fin D → ℝ[X]) (hPd : ∀ d, (P d).natDegree < 2)
    (hon : ∀ o ∈ data, ∀ d, o.2 d = (P d).eval o.1) (a1 : ∀ o ∈ data, s.eval o.1 = .ok o.2)
    (hstrict : ∀ i, s.order - 1 ≤ i → i + 1 ≤ s.knots.length - s.order → s.kn i < s.kn (i + 1))
    (hdis : ∃ o ∈ data, ∃ o' ∈ data, o.1 ≠ o'.1)
    (hz : ∀ i, s.order - 1 ≤ i → i + 1 ≤ s.knots.length - s.order → ∀ d, derivative^[m + 1] (s.segPoly i d) = 0)
    (t : ℝ) (t1 : s.kn (s.order - 1) ≤ t) (t2 : t ≤ s.kn (s.knots.length - s.order)) (der : ℕ) :
    s.evalD t der = .ok (fun d => (derivative^[der] (P d)).eval t) := by
  have hk := h.order_pos
  have hn := h.enough
  obtain ⟨o, ho, o', ho', hne⟩ := hdis
  have hone : ∀ d i, s.order - 1 ≤ i → i + 1 ≤ s.knots.length - s.order → s.segPoly i d = s.segPoly (s.order - 1) d :=
    fun d => segPoly_one h m hm3 hstrict d fun i i1 i2 => hz i i1 i2 d
  have hval : ∀ x, s.kn (s.order - 1) ≤ x → x ≤ s.kn (s.knots.length - s.order) → ∀ der : ℕ,
      s.evalD x der = .ok (fun d => (derivative^[der] (s.segPoly (s.order - 1) d)).eval x) := by
    intro x x1 x2 der
    obtain ⟨-, i, hi, hev⟩ := evalD_repro h hw der x x1 x2
    rw [hev]
    refine congrArg Outcome.ok (funext fun d => ?_)
    rw [hone d i hi.lower hi.upper]
  have hG : ∀ d, s.segPoly (s.order - 1) d = P d := by
    intro d
    refine sub_eq_zero.1 (hermite_unique _ 1 o.1 o'.1 hne ?_ ?_ ?_)
    · have z := hz (s.order - 1) le_rfl (by omega) d
      have : (s.segPoly (s.order - 1) d).natDegree ≤ m := by
        by_contra hcon
        push Not at hcon
        have hne0 : (derivative^[m + 1] (s.segPoly (s.order - 1) d)).coeff ((s.segPoly (s.order - 1) d).natDegree - (m + 1)) ≠ 0 := by
          rw [coeff_iterate_derivative, Nat.sub_add_cancel hcon, nsmul_eq_mul]
          refine mul_ne_zero (by exact_mod_cast (Nat.descFactorial_pos.2 hcon).ne') ?_
          rw [coeff_natDegree, Ne, leadingCoeff_eq_zero]
          intro h0
          rw [h0] at hcon
          simp at hcon
        rw [z, coeff_zero] at hne0
        exact hne0 rfl
      have := hPd d
      refine lt_of_le_of_lt (natDegree_sub_le _ _) ?_
      rw [max_lt_iff]
      omega
    all_goals
      intro r hr
      obtain rfl : r = 0 := by omega
      rw [Function.iterate_zero, id_eq, eval_sub, sub_eq_zero]
    · have e := hval o.1 (hdata o ho).1 (hdata o ho).2 0
      rw [show s.evalD o.1 (0 : ℕ) = s.eval o.1 from rfl, a1 o ho] at e
      rw [← hon o ho d, Outcome.ok.inj e]
      rfl
    · have e := hval o'.1 (hdata o' ho').1 (hdata o' ho').2 0
      rw [show s.evalD o'.1 (0 : ℕ) = s.eval o'.1 from rfl, a1 o' ho'] at e
      rw [← hon o' ho' d, Outcome.ok.inj e]
      rfl
  rw [hval t t1 t2 der]
  exact congrArg Outcome.ok (funext fun d => by rw [hG d])

/-- Splines of minimal cost for data on polynomials that are not penalised. -/
theorem optimal_reproduces {s : BSpline ℝ D} (h : s.WF) (hw : s.WideLast) (data : List (ℝ × (Fin D → ℝ)))
    (hdata : ∀ o ∈ data, s.kn (s.order - 1) ≤ o.1 ∧ o.1 ≤ s.kn (s.knots.length - s.order)) (lambda : ℝ) (hlam : 0 ≤ lambda)
    (P : Fin D → ℝ[X]) (hP : ∀ d, (P d).natDegree < s.order)
    (hder : lambda = 0 ∨ ∀ d, (P d).natDegree < if s.order = 2 then 1 else 2)
    (hon : ∀ o ∈ data, ∀ d, o.2 d = (P d).eval o.1)
    (hopt : ∀ cs, cs.length = s.coeffs.length →
      fitCost s data lambda (if s.order = 2 then 1 else 2) (s.kn (s.order - 1)) (s.kn (s.knots.length - s.order))
        ≤ fitCost (BSpline.mk (K := ℝ) s.order s.knots cs s.basis) data lambda (if s.order = 2 then 1 else 2) (s.kn (s.order - 1))
          (s.kn (s.knots.length - s.order))) :
    (∀ o ∈ data, s.eval o.1 = .ok o.2) ∧
      (0 < lambda → (∀ i, s.order - 1 ≤ i → i + 1 ≤ s.knots.length - s.order → s.kn i < s.kn (i + 1)) →
        (∃ o ∈ data, ∃ o' ∈ data, o.1 ≠ o'.1) → ∀ t, s.kn (s.order - 1) ≤ t → t ≤ s.kn (s.knots.length - s.order) →
          ∀ der : ℕ, s.evalD t der = .ok (fun d => (derivative^[der] (P d)).eval t)) := by
  have hk := h.order_pos
  have hn := h.enough
  obtain ⟨a1, a2⟩ := zero_cost_meets h hw data hdata lambda hlam _ (optimal_zero h hw data hdata lambda _ P hP hder hon hopt)
  refine ⟨a1, ?_⟩
  rintro hpos hstrict ⟨o, ho, o', ho', hne⟩ t t1 t2 der
  set m := if s.order = 2 then 0 else 1 with hm
  have hm1 : (if s.order = 2 then 1 else 2) = m + 1 := by rw [hm]; split_ifs <;> rfl
  have hm2 : m ≤ 1 := by rw [hm]; split_ifs <;> omega
  have hm3 : m + 2 ≤ s.order := by rw [hm]; split_ifs <;> omega
  rw [hm1] at a2 hder
  refine optimal_line h hw data hdata m hm2 hm3 P (fun d => ?_) hon a1 hstrict ⟨o, ho, o', ho', hne⟩
    (fun i i1 i2 d => a2 hpos i i1 i2 (hstrict i i1 i2) d) t t1 t2 der
  have := hder.resolve_left hpos.ne' d
  omega

theorem setSolved_knots {s s' : BSpline ℝ D} {solve : Solver ℝ} {n : ℕ} {A : Mat ℝ} {b : ℕ → ℝ} (h : s.setSolved solve n A b = .ok s') :
    s'.order = s.order ∧ s'.knots = s.knots := by
  unfold setSolved setCoefficientVector at h
  split_ifs at h
  obtain rfl := Outcome.ok.inj h
  exact ⟨rfl, rfl⟩

/-- What the theorems on the initialisations from data assume of the data and of the spline before. -/
structure FitInput (s : BSpline ℝ D) (data : List (ℝ × (Fin D → ℝ))) (n : ℕ) : Prop where
  order : 2 ≤ s.order
  dim : 1 ≤ D
  two : 2 ≤ data.length
  sorted : (data.map Prod.fst).Pairwise (· ≤ ·)
  segments : 1 ≤ n
  old : s.knots.length ≤ n + 2 * s.order - 1
  wide : 1 / 10 ^ 10 ≤ (lastTime data - firstTime data) / n

/-- The knots of a spline initialised from data: evenly spaced, `n` segments of positive length from the first to the last time. -/
structure UniformOn (s : BSpline ℝ D) (order n : ℕ) (a b : ℝ) : Prop where
  order_eq : s.order = order
  length_eq : s.knots.length = n + 2 * order - 1
  kn_eq : ∀ i : ℕ, i < n + 2 * order - 1 → s.kn i = a + ((i : ℝ) - (order : ℝ) + 1) * ((b - a) / n)

theorem FitInput.lt {s : BSpline ℝ D} {data : List (ℝ × (Fin D → ℝ))} {n : ℕ} (h : FitInput s data n) : firstTime data < lastTime data := by
  have hn0 : (0 : ℝ) < n := by exact_mod_cast h.segments
  have h1 : 0 < (lastTime data - firstTime data) / (n : ℝ) := lt_of_lt_of_le (by norm_num) h.wide
  have := mul_pos h1 hn0
  rw [div_mul_cancel₀ _ hn0.ne'] at this
  linarith

theorem FitInput.distinct {s : BSpline ℝ D} {data : List (ℝ × (Fin D → ℝ))} {n : ℕ} (h : FitInput s data n) :
    ∃ o ∈ data, ∃ o' ∈ data, o.1 ≠ o'.1 := by
  have h2 := h.two
  refine ⟨data[0], List.getElem_mem _, data[data.length - 1], List.getElem_mem _, ?_⟩
  have := h.lt
  unfold firstTime lastTime at this
  rw [List.getD_eq_getElem?_getD, List.getElem?_eq_getElem (by simp; omega), Option.getD_some, List.getD_eq_getElem?_getD,
    List.getElem?_eq_getElem (by simp; omega), Option.getD_some, List.getElem_map, List.getElem_map] at this
  exact this.ne

theorem UniformOn.facts {s : BSpline ℝ D} {order n : ℕ} {a b : ℝ} (h : s.WF) (hu : UniformOn s order n a b) (hn : 1 ≤ n)
    (hw : 1 / 10 ^ 10 ≤ (b - a) / n) :
    s.kn (s.order - 1) = a ∧ s.kn (s.knots.length - s.order) = b ∧ s.WideLast ∧
      ∀ i, s.order - 1 ≤ i → i + 1 ≤ s.knots.length - s.order → s.kn i < s.kn (i + 1) := by
  obtain ⟨u1, u2, u3⟩ := hu
  have hk := h.order_pos
  have hen := h.enough
  have hn0 : (0 : ℝ) < n := by exact_mod_cast hn
  have hpos : 0 < (b - a) / (n : ℝ) := lt_of_lt_of_le (by norm_num) hw
  have hstep : ∀ i, i + 1 < n + 2 * order - 1 → s.kn (i + 1) - s.kn i = (b - a) / n := by
    intro i hi
    rw [u3 _ hi, u3 _ (by omega)]
    push_cast
    ring
  refine ⟨?_, ?_, ?_, ?_⟩
  · rw [u3 _ (by omega), u1, Nat.cast_sub (by omega)]
    push_cast
    ring
  · rw [u3 _ (by omega), u1, u2, show n + 2 * order - 1 - order = n + (order - 1) by omega, Nat.cast_add, Nat.cast_sub (by omega)]
    push_cast
    field_simp
    ring
  · intro x y hxy
    obtain ⟨i, i1, i2, rfl, rfl, i3⟩ := timeIntervalOf_eq h hxy
    rw [hstep i (by omega)]
    exact hw
  · intro i h1 h2
    have := hstep i (by omega)
    linarith

/-- **C76**, fits: the initialisations from data by least squares with a penalty integral, dense and sparse, give the same spline, with
evenly spaced knots.  If the data lies on polynomials of degree below the order and nothing is penalised, all data is met.  The same holds
with a penalty if the polynomials are not penalised: lines for orders from three on, constants for order two; then the curve with all its
derivatives is the line on the whole interval. -/
theorem C76_fit (solve : Solver ℝ) (hsolve : SolvesSemidefinite solve) (s : BSpline ℝ D) (data : List (ℝ × (Fin D → ℝ))) (n : ℕ)
    (hin : FitInput s data n) (lambda : ℝ) (hl : 0 ≤ lambda) (P : Fin D → ℝ[X]) (hP : ∀ d, (P d).natDegree < s.order)
    (hder : lambda = 0 ∨ ∀ d, (P d).natDegree < if s.order = 2 then 1 else 2) (hon : ∀ o ∈ data, ∀ d, o.2 d = (P d).eval o.1) :
    ∃ s', s.initSpline3 solve data n lambda = .ok s' ∧ s.initSplineSparse solve data n lambda = .ok s' ∧ s'.WF ∧
      UniformOn s' s.order n (firstTime data) (lastTime data) ∧ (∀ o ∈ data, s'.eval o.1 = .ok o.2) ∧
      (0 < lambda → ∀ t, firstTime data ≤ t → t ≤ lastTime data → ∀ der : ℕ,
        s'.evalD t der = .ok (fun d => (derivative^[der] (P d)).eval t)) := by
  have hn := hin.segments
  obtain ⟨s1, hp, hwf, h1, h2, h3, h4, h5, h6, h7⟩ := prepareUniform_ok s hin.order data hin.two hin.sorted n hn hin.old hin.lt.le
  have hu1 : UniformOn s1 s.order n (firstTime data) (lastTime data) :=
    ⟨h1, h2, fun i hi => prepareUniform_knots hin.order hp i (by omega)⟩
  obtain ⟨f1, f2, f3, f4⟩ := hu1.facts hwf hn hin.wide
  obtain ⟨s', e1, ⟨x, e2⟩, e3⟩ := fitRegularised_optimal solve hsolve hwf f3 hin.dim _ _ h5 h6 data
    (times_between data hin.sorted) lambda hl
  have hwf' : s'.WF := by rw [e2]; exact withVec_wf hwf x
  have hu : UniformOn s' s.order n (firstTime data) (lastTime data) := by rw [e2]; exact ⟨hu1.order_eq, hu1.length_eq, hu1.kn_eq⟩
  obtain ⟨g1, g2, g3, g4⟩ := hu.facts hwf' hn hin.wide
  have hi3 : s.initSpline3 solve data n lambda = .ok s' := by
    unfold initSpline3
    rw [hp]
    exact e1
  obtain ⟨r1, r2⟩ := optimal_reproduces hwf' g3 data (by rw [g1, g2]; exact times_between data hin.sorted) lambda hl P
    (by rw [hu.order_eq]; exact hP) (by rw [hu.order_eq]; exact hder) hon (by
      rw [g1, g2]
      have : s1.order = s'.order := by rw [e2]; rfl
      rw [← this]
      rw [this] at e3 ⊢
      exact e3)
  refine ⟨s', hi3, ?_, hwf', hu, r1, fun hpos t t1 t2 der => ?_⟩
  · rw [C19_sparse_optimal solve s hin.order hin.dim data hin.two hin.sorted n hn hin.old lambda]
    exact hi3
  · exact r2 hpos g4 hin.distinct t (by rw [g1]; exact t1) (by rw [g2]; exact t2) der

/-- **C76** for knots given by the caller; for the statement on the whole interval no segment may be empty and two times must differ. -/
theorem C76_fit_knots (solve : Solver ℝ) (hsolve : SolvesSemidefinite solve) (s : BSpline ℝ D) (ho : 2 ≤ s.order)
    (hD : 1 ≤ D) (data : List (ℝ × (Fin D → ℝ))) (hlen : 2 ≤ data.length)
    (hs : (data.map Prod.fst).Pairwise (· ≤ ·)) (knots : List ℝ) (hks : knots.Pairwise (· ≤ ·))
    (hkl : 2 * s.order ≤ knots.length) (hold : s.knots.length ≤ knots.length)
    (hwide : 1 / 10 ^ 10 ≤ knots.getD (knots.length - s.order) 0 - knots.getD (knots.length - s.order - 1) 0)
    (hin : ∀ o ∈ data, knots.getD (s.order - 1) 0 ≤ o.1 ∧ o.1 ≤ knots.getD (knots.length - s.order) 0)
    (lambda : ℝ) (hl : 0 ≤ lambda) (P : Fin D → ℝ[X]) (hP : ∀ d, (P d).natDegree < s.order)
    (hder : lambda = 0 ∨ ∀ d, (P d).natDegree < if s.order = 2 then 1 else 2) (hon : ∀ o ∈ data, ∀ d, o.2 d = (P d).eval o.1) :
    ∃ s', s.initSplineSparseKnots solve data knots lambda = .ok s' ∧ s'.WF ∧ s'.order = s.order ∧ s'.knots = knots ∧
      (∀ o ∈ data, s'.eval o.1 = .ok o.2) ∧
      (0 < lambda → (∀ i, s.order - 1 ≤ i → i + 1 ≤ knots.length - s.order → knots.getD i 0 < knots.getD (i + 1) 0) →
        (∃ o ∈ data, ∃ o' ∈ data, o.1 ≠ o'.1) → ∀ t, knots.getD (s.order - 1) 0 ≤ t → t ≤ knots.getD (knots.length - s.order) 0 →
          ∀ der : ℕ, s'.evalD t der = .ok (fun d => (derivative^[der] (P d)).eval t)) := by
  obtain ⟨s', e1, hwf, e2, e3, e4⟩ := C19_given_knots_optimal solve hsolve s ho hD data hlen hs knots hks hkl hold hwide hin lambda hl
  have hkn : ∀ i, s'.kn i = knots.getD i 0 := fun i => by unfold kn; rw [e3]
  have g3 : s'.WideLast := by
    intro a b hab
    obtain ⟨i, i1, i2, rfl, rfl, i3⟩ := timeIntervalOf_eq hwf hab
    unfold numValidTimeSegments numValidTimeSegmentsOf at i3
    rw [e2, e3] at i3
    have e : i = knots.length - s.order - 1 := by omega
    subst e
    rw [hkn, hkn, show knots.length - s.order - 1 + 1 = knots.length - s.order by omega]
    exact hwide
  obtain ⟨r1, r2⟩ := optimal_reproduces hwf g3 data (by rw [hkn, hkn, e2, e3]; exact hin) lambda hl P
    (by rw [e2]; exact hP) (by rw [e2]; exact hder) hon (by
      rw [hkn, hkn]
      intro cs hcs
      have := e4 cs hcs
      rw [← e2] at this
      rw [show knots.length = s'.knots.length by rw [e3]] at this
      exact this)
  refine ⟨s', e1, hwf, e2, e3, r1, fun hpos hst hdis t t1 t2 der => ?_⟩
  refine r2 hpos (fun i i1 i2 => ?_) hdis t (by rw [hkn, e2]; exact t1) (by rw [hkn, e2, e3]; exact t2) der
  rw [hkn, hkn]
  exact hst i (by rw [← e2]; exact i1) (by rw [← e2, ← e3]; exact i2)

/-- **C76** for `initSpline2`, which penalises second derivatives at the knots: data on polynomials of degree below the order is met if
nothing is penalised, data on a line is met with any penalty; for orders three and four the curve is then the line on the whole
interval. -/
theorem C76_fit_at_knots (solve : Solver ℝ) (hsolve : SolvesSemidefinite solve) (s : BSpline ℝ D) (data : List (ℝ × (Fin D → ℝ))) (n : ℕ)
    (hin : FitInput s data n) (lambda : ℝ) (P : Fin D → ℝ[X]) (hP : ∀ d, (P d).natDegree < s.order)
    (hder : lambda = 0 ∨ ∀ d, (P d).natDegree < 2) (hon : ∀ o ∈ data, ∀ d, o.2 d = (P d).eval o.1) :
    ∃ s', s.initSpline2 solve data n lambda = .ok s' ∧ s'.WF ∧
      UniformOn s' s.order n (firstTime data) (lastTime data) ∧ (∀ o ∈ data, s'.eval o.1 = .ok o.2) ∧
      (lambda ≠ 0 → s.order = 3 ∨ s.order = 4 → ∀ t, firstTime data ≤ t → t ≤ lastTime data → ∀ der : ℕ,
        s'.evalD t der = .ok (fun d => (derivative^[der] (P d)).eval t)) := by
  have hn := hin.segments
  obtain ⟨s', e1, hwf, e2, e3, e4, hopt⟩ := C53_optimal solve hsolve s hin.order hin.dim data hin.two hin.sorted n hn hin.old hin.wide lambda
  have hu : UniformOn s' s.order n (firstTime data) (lastTime data) := by
    have h := e1
    unfold initSpline2 at h
    obtain ⟨s1, hp, h⟩ := Outcome.bind_eq_ok.1 h
    obtain ⟨rows, -, h⟩ := Outcome.bind_eq_ok.1 h
    obtain ⟨k1, k2⟩ := setSolved_knots h
    obtain ⟨s1', hp', -, q1, q2, -⟩ := prepareUniform_ok s hin.order data hin.two hin.sorted n hn hin.old hin.lt.le
    rw [hp] at hp'
    obtain rfl := Outcome.ok.inj hp'
    refine ⟨e2, by rw [k2]; exact q2, fun i hi => ?_⟩
    unfold kn
    rw [k2]
    exact prepareUniform_knots hin.order hp i (by omega)
  obtain ⟨g1, g2, g3, g4⟩ := hu.facts hwf hn hin.wide
  have hk := hwf.order_pos
  have hen := hwf.enough
  have hlen : s'.knots.length = n + 2 * s.order - 1 := hu.length_eq
  have hadm : ∀ t, s'.kn (s'.order - 1) ≤ t → t ≤ s'.kn (s'.knots.length - s'.order) → s'.Admissible t :=
    fun t h1 h2 => (evalD_repro hwf g3 0 t h1 h2).1
  have hdata : ∀ o ∈ data, s'.kn (s'.order - 1) ≤ o.1 ∧ o.1 ≤ s'.kn (s'.knots.length - s'.order) := by
    rw [g1, g2]; exact times_between data hin.sorted
  have hkr : ∀ i ∈ range (n + 1), s'.kn (s'.order - 1) ≤ s'.kn (s.order - 1 + i) ∧ s'.kn (s.order - 1 + i) ≤ s'.kn (s'.knots.length - s'.order) := by
    intro i hi
    have := mem_range.1 hi
    constructor <;> exact hwf.mono _ _ (by omega) (by omega)
  obtain ⟨cs, hl, hcs⟩ := C76_reproduces s' hwf P (by rw [e2]; exact hP)
  have hle := hopt cs hl
  dsimp only at hle
  have z1 : (data.map fun o => ∑ d, (((BSpline.mk (K := ℝ) s'.order s'.knots cs s'.basis).eval o.1).getD 0 d - o.2 d) ^ 2).sum = 0 := by
    apply List.sum_eq_zero
    intro x hx
    obtain ⟨o, ho, rfl⟩ := List.mem_map.1 hx
    refine sum_eq_zero fun d _ => ?_
    have := hcs o.1 (hadm _ (hdata o ho).1 (hdata o ho).2) 0
    unfold BSpline.eval
    rw [show ((0 : ℕ) : ℤ) = 0 from rfl] at this
    rw [this, hon o ho d]
    simp [Outcome.getD]
  have z2 : lambda ^ 2 * ∑ i ∈ range (n + 1), ∑ d,
      (((BSpline.mk (K := ℝ) s'.order s'.knots cs s'.basis).evalD (s'.kn (s.order - 1 + i)) 2).getD 0 d) ^ 2 = 0 := by
    rcases hder with rfl | hder
    · simp
    · rw [sum_eq_zero, mul_zero]
      intro i hi
      refine sum_eq_zero fun d _ => ?_
      have := hcs _ (hadm _ (hkr i hi).1 (hkr i hi).2) 2
      rw [show ((2 : ℕ) : ℤ) = 2 from rfl] at this
      rw [this, show (Outcome.ok fun d => (derivative^[2] (P d)).eval (s'.kn (s.order - 1 + i))).getD 0 d = (derivative^[2] (P d)).eval (s'.kn (s.order - 1 + i)) from rfl,
        iterate_derivative_eq_zero (hder d), eval_zero]
      norm_num
  rw [z1, z2, add_zero] at hle
  have r0 : ∀ x ∈ data.map fun o => ∑ d, ((s'.eval o.1).getD 0 d - o.2 d) ^ 2, 0 ≤ x := by
    intro x hx
    obtain ⟨o, -, rfl⟩ := List.mem_map.1 hx
    exact sum_nonneg fun d _ => sq_nonneg _
  have q0 : 0 ≤ ∑ i ∈ range (n + 1), ∑ d, ((s'.evalD (s'.kn (s.order - 1 + i)) 2).getD 0 d) ^ 2 :=
    sum_nonneg fun i _ => sum_nonneg fun d _ => sq_nonneg _
  have lq0 := mul_nonneg (sq_nonneg lambda) q0
  have rs0 := List.sum_nonneg r0
  have y1 : (data.map fun o => ∑ d, ((s'.eval o.1).getD 0 d - o.2 d) ^ 2).sum = 0 := le_antisymm (by linarith) rs0
  have hmeet : ∀ o ∈ data, s'.eval o.1 = .ok o.2 := by
    intro o ho
    have w1 : ∑ d, ((s'.eval o.1).getD 0 d - o.2 d) ^ 2 = 0 := by
      refine le_antisymm ?_ (sum_nonneg fun d _ => sq_nonneg _)
      rw [← y1]
      exact List.single_le_sum r0 _ (List.mem_map.2 ⟨o, ho, rfl⟩)
    obtain ⟨-, i, hi, hev⟩ := evalD_repro hwf g3 0 o.1 (hdata o ho).1 (hdata o ho).2
    unfold BSpline.eval at w1 ⊢
    rw [show ((0 : ℕ) : ℤ) = 0 from rfl] at hev
    rw [hev] at w1 ⊢
    refine congrArg Outcome.ok (funext fun d => ?_)
    have w2 := (sum_eq_zero_iff_of_nonneg fun d _ => sq_nonneg _).1 w1 d (mem_univ _)
    exact sub_eq_zero.1 (pow_eq_zero_iff two_ne_zero |>.1 w2)
  refine ⟨s', e1, hwf, hu, hmeet, fun hlam horder t t1 t2 der => ?_⟩
  have hPd := hder.resolve_left hlam
  -- the second derivatives vanish at all knots
  have y2 : ∑ i ∈ range (n + 1), ∑ d, ((s'.evalD (s'.kn (s.order - 1 + i)) 2).getD 0 d) ^ 2 = 0 := by
    refine le_antisymm ?_ q0
    by_contra hcon
    have := mul_pos (pow_pos (abs_pos.2 hlam) 2) (not_le.1 hcon)
    rw [sq_abs] at this
    linarith
  have hknot : ∀ i, i ≤ n → ∀ d, (s'.evalD (s'.kn (s.order - 1 + i)) 2).getD 0 d = 0 := by
    intro i hi d
    have w1 := (sum_eq_zero_iff_of_nonneg fun i _ => sum_nonneg fun d _ => sq_nonneg _).1 y2 i (mem_range.2 (by omega))
    have w2 := (sum_eq_zero_iff_of_nonneg fun d _ => sq_nonneg _).1 w1 d (mem_univ _)
    exact pow_eq_zero_iff two_ne_zero |>.1 w2
  have hleft : ∀ i, s'.order - 1 ≤ i → i + 1 ≤ s'.knots.length - s'.order → ∀ d, (derivative^[2] (s'.segPoly i d)).eval (s'.kn i) = 0 := by
    intro i i1 i2 d
    have := hknot (i - (s.order - 1)) (by omega) d
    rw [show s.order - 1 + (i - (s.order - 1)) = i by omega] at this
    have h2 := evalD_on_segment hwf g3 i1 i2 2 (s'.kn i) le_rfl (Or.inl (g4 i i1 i2))
    rw [show ((2 : ℕ) : ℤ) = 2 from rfl] at h2
    rw [h2] at this
    exact this
  have hdeg : ∀ i d, (derivative^[2] (s'.segPoly i d)).natDegree ≤ s'.order - 1 - 2 := by
    intro i d
    have : (s'.segPoly i d).natDegree ≤ s'.order - 1 := by
      unfold segPoly
      exact natDegree_sum_le_of_forall_le _ _ fun j _ => (natDegree_C_mul_le _ _).trans (piece_natDegree _ _ _ _)
    exact (natDegree_iterate_derivative _ _).trans (by omega)
  have hright : s.order = 4 → ∀ i, s'.order - 1 ≤ i → i + 1 ≤ s'.knots.length - s'.order → ∀ d,
      (derivative^[2] (s'.segPoly i d)).eval (s'.kn (i + 1)) = 0 := by
    intro h4 i i1 i2 d
    rcases (show i + 2 ≤ s'.knots.length - s'.order ∨ i + 1 = s'.knots.length - s'.order by omega) with h | h
    · rw [← hleft (i + 1) (by omega) (by omega) d]
      unfold segPoly
      rw [iterate_derivative_sum, iterate_derivative_sum, eval_finsetSum, eval_finsetSum]
      refine sum_congr rfl fun j hj => ?_
      have hj := mem_range.1 hj
      have hc := hwf.coeffs_len
      rw [iterate_derivative_C_mul, iterate_derivative_C_mul, eval_mul, eval_mul]
      congr 1
      exact piece_join_derivative s'.kn s'.knots.length i 1 hwf.mono (s'.kn (i + 1)) (g4 _ (by omega) (by omega))
        (g4 (i + 1) (by omega) (by omega)) le_rfl (fun l' a b => by rw [show l' = i + 1 by omega]) 2 (s'.order - 1) j (by omega) (by omega)
    · have := hknot (i + 1 - (s.order - 1)) (by omega) d
      rw [show s.order - 1 + (i + 1 - (s.order - 1)) = i + 1 by omega] at this
      have h2 := evalD_on_segment hwf g3 i1 i2 2 (s'.kn (i + 1)) (g4 i i1 i2).le (Or.inr ⟨rfl, h, g4 i i1 i2⟩)
      rw [show ((2 : ℕ) : ℤ) = 2 from rfl] at h2
      rw [h2] at this
      exact this
  have hzero : ∀ i, s'.order - 1 ≤ i → i + 1 ≤ s'.knots.length - s'.order → ∀ d, derivative^[2] (s'.segPoly i d) = 0 := by
    intro i i1 i2 d
    rcases horder with h3 | h4
    · have h0 := hdeg i d
      rw [e2, h3] at h0
      have h1 := eq_C_of_natDegree_eq_zero (Nat.le_zero.1 h0)
      have h2 := hleft i i1 i2 d
      rw [h1, eval_C] at h2
      rw [h1, h2, C_0]
    · refine hermite_unique _ 1 (s'.kn i) (s'.kn (i + 1)) (g4 i i1 i2).ne ?_ ?_ ?_
      · have := hdeg i d
        rw [e2, h4] at this
        omega
      all_goals
        intro r hr
        obtain rfl : r = 0 := by omega
      · exact hleft i i1 i2 d
      · exact hright h4 i i1 i2 d
  have hfit := optimal_line hwf g3 data hdata 1 le_rfl (by rw [e2]; omega) P hPd hon hmeet g4 hin.distinct hzero
  exact hfit t (by rw [g1]; exact t1) (by rw [g2]; exact t2) der

/-- The full property (data on a straight line is met with any penalty) is false for order two, where the first derivative is penalised:
for two points with different values the fit misses one of them, whatever the solver. -/
theorem C76_order_two_violated (solve : Solver ℝ) (hsolve : SolvesSemidefinite solve) :
    ∃ s', (⟨2, [], [], []⟩ : BSpline ℝ 1).initSpline3 solve [(0, ![0]), (1, ![1])] 1 1 = .ok s' ∧
      ¬ (s'.eval 0 = .ok ![0] ∧ s'.eval 1 = .ok ![1]) := by
  obtain ⟨s', h1, hwf, h2, h3, h4, hopt⟩ := C19_optimal solve hsolve (⟨2, [], [], []⟩ : BSpline ℝ 1) le_rfl le_rfl
    [(0, ![0]), (1, ![1])] le_rfl (by norm_num) 1 le_rfl (by decide) (by norm_num [firstTime, lastTime]) 1 (by norm_num)
  refine ⟨s', h1, ?_⟩
  rintro ⟨v0, v1⟩
  change s'.order = 2 at h2
  have hk := hwf.order_pos
  have hen := hwf.enough
  unfold timeInterval at h4
  rw [tMin_eq hwf, tMax_eq hwf] at h4
  obtain ⟨t0, t1⟩ := Prod.mk.inj (Outcome.ok.inj h4)
  have f0 : firstTime [((0 : ℝ), (![0] : Fin 1 → ℝ)), (1, ![1])] = 0 := by simp [firstTime]
  have f1 : lastTime [((0 : ℝ), (![0] : Fin 1 → ℝ)), (1, ![1])] = 1 := by simp [lastTime]
  rw [f0] at t0
  rw [f1] at t1
  have hlen : s'.knots.length = 4 := by
    unfold numValidTimeSegments numValidTimeSegmentsOf at h3
    omega
  rw [h2] at t0 t1
  rw [hlen] at t1
  norm_num at t0 t1
  have hadm : ∀ t : ℝ, 0 ≤ t → t ≤ 1 → s'.Admissible t := by
    intro t a b
    refine admissible_of_wide t ?_ ?_ ?_
    · rw [hlen, h2]; norm_num; rw [t0, t1]; unfold snapTol; norm_num
    · rw [h2]; norm_num; rw [t0]; exact a
    · rw [hlen, h2]; norm_num; rw [t1]; exact b
  have hev : ∀ t : ℝ, 0 ≤ t → t ≤ 1 → ∀ der : ℕ, s'.evalD t der = .ok (fun d => (derivative^[der] (s'.segPoly 1 d)).eval t) := by
    intro t a b der
    obtain ⟨i, hi, -, he⟩ := evalDNat_admissible hwf t (hadm t a b)
    have := hi.lower
    have := hi.upper
    obtain rfl : i = 1 := by omega
    unfold evalD
    rw [if_neg (by omega), Int.toNat_natCast, he]
  have hX : s'.segPoly 1 0 = X := by
    refine sub_eq_zero.1 (hermite_unique _ 1 0 1 (by norm_num) ?_ ?_ ?_)
    · have : (s'.segPoly 1 0).natDegree ≤ s'.order - 1 := by
        unfold segPoly
        exact natDegree_sum_le_of_forall_le _ _ fun j _ => (natDegree_C_mul_le _ _).trans (piece_natDegree _ _ _ _)
      refine lt_of_le_of_lt (natDegree_sub_le _ _) ?_
      rw [natDegree_X, max_lt_iff]
      omega
    all_goals
      intro r hr
      obtain rfl : r = 0 := by omega
      rw [Function.iterate_zero, id_eq, eval_sub, eval_X, sub_eq_zero]
    · have e := hev 0 le_rfl zero_le_one 0
      rw [show s'.evalD 0 (0 : ℕ) = s'.eval 0 from rfl, v0] at e
      exact (congrFun (Outcome.ok.inj e) 0).symm
    · have e := hev 1 zero_le_one le_rfl 0
      rw [show s'.evalD 1 (0 : ℕ) = s'.eval 1 from rfl, v1] at e
      exact (congrFun (Outcome.ok.inj e) 0).symm
  obtain ⟨cs, hl, hcs⟩ := C76_reproduces s' hwf (fun _ => C (1 / 2)) (by intro d; rw [natDegree_C]; omega)
  have hle := hopt cs hl
  rw [f0, f1, if_pos rfl] at hle
  unfold fitCost at hle
  have c1 : ∫ t in (0 : ℝ)..1, ∑ d, ((s'.evalD t (1 : ℕ)).getD 0 d) ^ 2 = 1 := by
    have : ∫ t in (0 : ℝ)..1, ∑ d, ((s'.evalD t (1 : ℕ)).getD 0 d) ^ 2 = ∫ _t in (0 : ℝ)..1, (1 : ℝ) := by
      apply intervalIntegral.integral_congr
      intro t ht
      rw [Set.uIcc_of_le zero_le_one] at ht
      dsimp only
      rw [hev t ht.1 ht.2 1, Fin.sum_univ_one]
      change (derivative^[1] (s'.segPoly 1 0)).eval t ^ 2 = 1
      rw [hX]
      simp
    rw [this]
    simp
  have c2 : ∫ t in (0 : ℝ)..1, ∑ d, (((BSpline.mk (K := ℝ) s'.order s'.knots cs s'.basis).evalD t (1 : ℕ)).getD 0 d) ^ 2 = 0 := by
    have : ∫ t in (0 : ℝ)..1, ∑ d, (((BSpline.mk (K := ℝ) s'.order s'.knots cs s'.basis).evalD t (1 : ℕ)).getD 0 d) ^ 2
        = ∫ _t in (0 : ℝ)..1, (0 : ℝ) := by
      apply intervalIntegral.integral_congr
      intro t ht
      rw [Set.uIcc_of_le zero_le_one] at ht
      dsimp only
      rw [hcs t (hadm t ht.1 ht.2) 1, Fin.sum_univ_one]
      change (derivative^[1] (C (1 / 2 : ℝ))).eval t ^ 2 = 0
      simp
    rw [this]
    simp
  rw [c1, c2] at hle
  have d0 := hcs 0 (hadm 0 le_rfl zero_le_one) 0
  have d1 := hcs 1 (hadm 1 zero_le_one le_rfl) 0
  rw [show ((0 : ℕ) : ℤ) = 0 from rfl] at d0 d1
  have g0 : (BSpline.mk (K := ℝ) s'.order s'.knots cs s'.basis).eval 0 = .ok fun _ => 1 / 2 := by
    unfold BSpline.eval; rw [d0]; simp
  have g1 : (BSpline.mk (K := ℝ) s'.order s'.knots cs s'.basis).eval 1 = .ok fun _ => 1 / 2 := by
    unfold BSpline.eval; rw [d1]; simp
  simp only [List.map_cons, List.map_nil, List.sum_cons, List.sum_nil, Fin.sum_univ_one, v0, v1, g0, g1] at hle
  norm_num [Outcome.getD] at hle

/-- Data on a parabola, met by a spline of order three with two segments. -/
example : ∃ s', (⟨3, [], [], []⟩ : BSpline ℝ 1).initSplineSparse choiceSolver [(0, ![0]), (1, ![1]), (4, ![16])] 2 0 = .ok s' ∧
    s'.eval 1 = .ok ![1] := by
  obtain ⟨s', -, h1, -, -, h2, -⟩ := C76_fit choiceSolver choiceSolver_semidefinite (⟨3, [], [], []⟩ : BSpline ℝ 1)
    [(0, ![0]), (1, ![1]), (4, ![16])] 2 ⟨by norm_num, by norm_num, by norm_num, by norm_num, by norm_num, by norm_num,
      by norm_num [firstTime, lastTime]⟩ 0 le_rfl (fun _ => X ^ 2) (by intro d; rw [natDegree_X_pow]; norm_num) (Or.inl rfl)
    (by simp only [List.mem_cons, List.not_mem_nil, or_false]; rintro o (rfl | rfl | rfl) d <;> fin_cases d <;> norm_num)
  exact ⟨s', h1, h2 (1, ![1]) (by simp)⟩

/-- Data on a line, reproduced everywhere in spite of the penalty. -/
example : ∃ s', (⟨4, [], [], []⟩ : BSpline ℝ 1).initSpline3 choiceSolver [(0, ![1]), (1, ![3]), (4, ![9])] 2 7 = .ok s' ∧
    s'.evalD 2 0 = .ok (fun _ => 5) ∧ s'.evalD 3 1 = .ok (fun _ => 2) := by
  obtain ⟨s', h1, -, -, -, -, h2⟩ := C76_fit choiceSolver choiceSolver_semidefinite (⟨4, [], [], []⟩ : BSpline ℝ 1)
    [(0, ![1]), (1, ![3]), (4, ![9])] 2 ⟨by norm_num, by norm_num, by norm_num, by norm_num, by norm_num, by norm_num,
      by norm_num [firstTime, lastTime]⟩ 7 (by norm_num) (fun _ => C 2 * X + C 1)
    (fun d => lt_of_le_of_lt natDegree_linear_le (by norm_num)) (Or.inr fun d => lt_of_le_of_lt natDegree_linear_le (by norm_num))
    (by simp only [List.mem_cons, List.not_mem_nil, or_false]; rintro o (rfl | rfl | rfl) d <;> fin_cases d <;> norm_num)
  have f0 : firstTime [((0 : ℝ), (![1] : Fin 1 → ℝ)), (1, ![3]), (4, ![9])] = 0 := by simp [firstTime]
  have f1 : lastTime [((0 : ℝ), (![1] : Fin 1 → ℝ)), (1, ![3]), (4, ![9])] = 4 := by simp [lastTime]
  refine ⟨s', h1, ?_, ?_⟩
  · have := h2 (by norm_num) 2 (by rw [f0]; norm_num) (by rw [f1]; norm_num) 0
    rw [show ((0 : ℕ) : ℤ) = 0 from rfl] at this
    rw [this]
    norm_num
  · have := h2 (by norm_num) 3 (by rw [f0]; norm_num) (by rw [f1]; norm_num) 1
    rw [show ((1 : ℕ) : ℤ) = 1 from rfl] at this
    rw [this]
    norm_num

/-- Uneven knots, one of them double. -/
example : ∃ s', (⟨3, [], [], []⟩ : BSpline ℝ 1).initSplineSparseKnots choiceSolver
      [(1, ![1]), (2, ![2]), (4, ![4])] [-1, 0, 1, 2, 2, 5, 7, 8] 3 = .ok s' ∧ s'.eval 4 = .ok ![4] := by
  obtain ⟨s', h1, -, -, -, h2, -⟩ := C76_fit_knots choiceSolver choiceSolver_semidefinite
    (⟨3, [], [], []⟩ : BSpline ℝ 1) (by decide) le_rfl [(1, ![1]), (2, ![2]), (4, ![4])] (by decide)
    (by norm_num) [-1, 0, 1, 2, 2, 5, 7, 8] (by norm_num) (by decide) (by decide) (by norm_num)
    (by simp only [List.mem_cons, List.not_mem_nil, or_false]; rintro o (rfl | rfl | rfl) <;> norm_num) 3 (by norm_num)
    (fun _ => X) (by intro d; rw [natDegree_X]; norm_num) (Or.inr (by intro d; rw [natDegree_X]; norm_num))
    (by simp only [List.mem_cons, List.not_mem_nil, or_false]; rintro o (rfl | rfl | rfl) d <;> fin_cases d <;> norm_num)
  exact ⟨s', h1, h2 (4, ![4]) (by simp)⟩

example : ∃ s', (⟨4, [], [], []⟩ : BSpline ℝ 1).initSpline2 choiceSolver [(0, ![1]), (1, ![3]), (4, ![9])] 2 7 = .ok s' ∧
    s'.evalD 3 1 = .ok (fun _ => 2) := by
  obtain ⟨s', h1, -, -, -, h2⟩ := C76_fit_at_knots choiceSolver choiceSolver_semidefinite (⟨4, [], [], []⟩ : BSpline ℝ 1)
    [(0, ![1]), (1, ![3]), (4, ![9])] 2 ⟨by norm_num, by norm_num, by norm_num, by norm_num, by norm_num, by norm_num,
      by norm_num [firstTime, lastTime]⟩ 7 (fun _ => C 2 * X + C 1)
    (fun d => lt_of_le_of_lt natDegree_linear_le (by norm_num)) (Or.inr fun d => lt_of_le_of_lt natDegree_linear_le (by norm_num))
    (by simp only [List.mem_cons, List.not_mem_nil, or_false]; rintro o (rfl | rfl | rfl) d <;> fin_cases d <;> norm_num)
  have f0 : firstTime [((0 : ℝ), (![1] : Fin 1 → ℝ)), (1, ![3]), (4, ![9])] = 0 := by simp [firstTime]
  have f1 : lastTime [((0 : ℝ), (![1] : Fin 1 → ℝ)), (1, ![3]), (4, ![9])] = 4 := by simp [lastTime]
  refine ⟨s', h1, ?_⟩
  have := h2 (by norm_num) (Or.inr rfl) 3 (by rw [f0]; norm_num) (by rw [f1]; norm_num) 1
  rw [show ((1 : ℕ) : ℤ) = 1 from rfl] at this
  rw [this]
  norm_num

/-- The knots of `exUniform` have no empty segment. -/
example : exUniform.WF ∧ (∀ i, exUniform.order - 1 ≤ i → i + 1 ≤ exUniform.knots.length - exUniform.order →
      exUniform.kn i < exUniform.kn (i + 1)) ∧
    snapTol ≤ exUniform.kn (exUniform.knots.length - exUniform.order) - exUniform.kn (exUniform.knots.length - exUniform.order - 1) := by
  refine ⟨initializeBasisMatrices_wf _ (by decide) (by decide +kernel) (by decide) (by decide), ?_, by decide +kernel⟩
  intro i h1 h2
  change 2 ≤ i at h1
  change i + 1 ≤ 5 at h2
  obtain rfl | rfl | rfl : i = 2 ∨ i = 3 ∨ i = 4 := by omega
  all_goals decide +kernel

end Verif
