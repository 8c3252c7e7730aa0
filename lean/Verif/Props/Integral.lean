import Verif.Lemmas.Integral
import Verif.Lemmas.State

/-!
# Properties C08 and C09: the integral query and the quadratic integrals
-/

set_option linter.unusedSectionVars false

namespace Verif

open Finset Polynomial BSpline MeasureTheory

/-! ## C08: algebra of the integral query, over any ordered field -/

section Laws
variable {K : Type*} [Field K] [LinearOrder K] [IsStrictOrderedRing K] {D : ℕ}

/-- Where the lookup lands, in all cases. -/
theorem lookup_cases {s : BSpline K D} (h : s.WF) (t : K) (h1 : s.kn (s.order - 1) ≤ t)
    (h2 : t ≤ s.kn (s.knots.length - s.order)) :
    ∃ i, s.computeTIndex t = .ok (s.kn (i + 1) - s.kn i, i) ∧ s.order - 1 ≤ i ∧
      i + 1 ≤ s.knots.length - s.order ∧
      ((t + snapTol ≤ s.kn (s.knots.length - s.order) ∧ s.kn i ≤ t ∧ t < s.kn (i + 1)) ∨
        (s.kn (s.knots.length - s.order) < t + snapTol ∧ i + 1 = s.knots.length - s.order)) := by
  have hk := h.order_pos
  have hn := h.enough
  by_cases hs : t + snapTol ≤ s.kn (s.knots.length - s.order)
  · obtain ⟨i, a, b, c, d, e⟩ := lookup_interior h t h1 hs
    exact ⟨i, a, b, c, .inl ⟨hs, d, e⟩⟩
  · push Not at hs
    refine ⟨s.knots.length - s.order - 1, ?_, by omega, by omega, .inr ⟨hs, by omega⟩⟩
    have := lookup_end h t h1 (by rw [abs_lt]; constructor <;> linarith)
    rwa [show s.knots.length - s.order - 1 + 1 = s.knots.length - s.order by omega]

/-- The value of one segment contribution. -/
def contrib (s : BSpline K D) (i : ℕ) (w : K) (v : ℕ → K) : Fin D → K :=
  (s.segmentContribution i w v).getD 0

theorem contrib_ok {s : BSpline K D} (h : s.WF) (i : ℕ) (h1 : s.order - 1 ≤ i)
    (h2 : i + 1 ≤ s.knots.length - s.order) (w : K) (v : ℕ → K) :
    s.segmentContribution i w v = .ok (contrib s i w v) := by
  obtain ⟨B, hB, -⟩ := blockAt_ok h i h1 h2
  unfold contrib segmentContribution
  rw [hB]; simp

/-- Contribution of a whole segment. -/
def whole (s : BSpline K D) (i : ℕ) : Fin D → K :=
  contrib s i (s.kn (i + 1) - s.kn i) (powerIntegrals 1)

/-- The remainder of the segment `i` up to `t`. -/
def rest (s : BSpline K D) (t : K) (i : ℕ) : Fin D → K :=
  (s.remainderIntegral t (s.kn (i + 1) - s.kn i) i).getD 0

theorem rest_ok {s : BSpline K D} (h : s.WF) (i : ℕ) (h1 : s.order - 1 ≤ i)
    (h2 : i + 1 ≤ s.knots.length - s.order) (t : K) :
    s.remainderIntegral t (s.kn (i + 1) - s.kn i) i = .ok (rest s t i) := by
  unfold rest remainderIntegral
  split_ifs with hc
  · rw [contrib_ok h i h1 h2]; simp
  · simp

theorem central_eq {s : BSpline K D} (h : s.WF) (a : ℕ) (h1 : s.order - 1 ≤ a) :
    ∀ n, a + n ≤ s.knots.length - s.order →
      s.centralIntegral a n = .ok (∑ i ∈ Ico a (a + n), whole s i)
  | 0, _ => by simp [centralIntegral]
  | (n + 1), hn => by
    unfold centralIntegral
    rw [central_eq h a h1 n (by omega)]
    simp only [Outcome.bind_ok]
    rw [contrib_ok h (a + n) (by omega) (by omega)]
    simp only [Outcome.bind_ok]
    rw [← add_assoc, sum_Ico_succ_top (by omega)]
    rfl

/-- The integral of the model as a difference of one function. -/
theorem evalIntegral_diff {s : BSpline K D} (h : s.WF) :
    ∃ G : K → Fin D → K,
      (∀ t, s.kn (s.order - 1) ≤ t → t ≤ s.kn (s.knots.length - s.order) →
        ∃ i, s.computeTIndex t = .ok (s.kn (i + 1) - s.kn i, i) ∧
          G t = ∑ l ∈ Ico (s.order - 1) i, whole s l + rest s t i) ∧
      ∀ t1 t2, s.kn (s.order - 1) ≤ t1 → t1 ≤ s.kn (s.knots.length - s.order) →
        s.kn (s.order - 1) ≤ t2 → t2 ≤ s.kn (s.knots.length - s.order) →
        s.evalIntegral t1 t2 = .ok (G t2 - G t1) := by
  have hk := h.order_pos
  have hn := h.enough
  refine ⟨fun t => ∑ l ∈ Ico (s.order - 1) ((s.computeTIndex t).getD (0, 0)).2, whole s l
    + rest s t ((s.computeTIndex t).getD (0, 0)).2, ?_, ?_⟩
  · intro t h1 h2
    obtain ⟨i, hi, -⟩ := lookup_cases h t h1 h2
    exact ⟨i, hi, by simp [hi]⟩
  have key : ∀ t1 t2, s.kn (s.order - 1) ≤ t1 → t2 ≤ s.kn (s.knots.length - s.order) → t1 ≤ t2 →
      s.evalIntegralOrdered t1 t2
        = .ok ((∑ l ∈ Ico (s.order - 1) ((s.computeTIndex t2).getD (0, 0)).2, whole s l
            + rest s t2 ((s.computeTIndex t2).getD (0, 0)).2)
          - (∑ l ∈ Ico (s.order - 1) ((s.computeTIndex t1).getD (0, 0)).2, whole s l
            + rest s t1 ((s.computeTIndex t1).getD (0, 0)).2)) := by
    intro t1 t2 h1 h2 h12
    obtain ⟨i1, e1, a1, b1, c1⟩ := lookup_cases h t1 h1 (by linarith)
    obtain ⟨i2, e2, a2, b2, c2⟩ := lookup_cases h t2 (by linarith) h2
    have hle : i1 ≤ i2 := by
      rcases c2 with c2 | c2
      · rcases c1 with c1 | c1
        · by_contra hlt
          have := h.mono (i2 + 1) i1 (by omega) (by omega)
          linarith [c1.2.1, c2.2.2]
        · linarith [c1.1, c2.1]
      · omega
    unfold evalIntegralOrdered
    rw [e1, e2]
    simp only [Outcome.bind_ok, Outcome.getD_ok]
    rw [rest_ok h i1 a1 b1, rest_ok h i2 a2 b2, central_eq h i1 a1 (i2 - i1) (by omega)]
    simp only [Outcome.bind_ok]
    congr 1
    rw [show i1 + (i2 - i1) = i2 by omega, ← sum_Ico_consecutive _ a1 hle]
    abel
  intro t1 t2 h1 h1' h2 h2'
  unfold evalIntegral
  split_ifs with hlt
  · rw [key t2 t1 h2 h1' hlt.le]
    simp
  · exact key t1 t2 h1 h2' (not_lt.1 hlt)

/-- **C08** (laws): for every valid spline and all valid times the integral query is answered, is zero for
equal bounds, changes sign when the bounds are exchanged and is additive over adjacent intervals (in any
order of the three times). -/
theorem C08_integral_laws (s : BSpline K D) (h : s.WF) (lo hi : K) (hlo : s.tMin = .ok lo)
    (hhi : s.tMax = .ok hi) (t1 t2 t3 : K) (h1 : lo ≤ t1 ∧ t1 ≤ hi) (h2 : lo ≤ t2 ∧ t2 ≤ hi)
    (h3 : lo ≤ t3 ∧ t3 ≤ hi) :
    s.evalIntegral t1 t1 = .ok 0 ∧
    ∃ a b : Fin D → K, s.evalIntegral t1 t2 = .ok a ∧ s.evalIntegral t2 t1 = .ok (-a) ∧
      s.evalIntegral t2 t3 = .ok b ∧ s.evalIntegral t1 t3 = .ok (a + b) := by
  rw [tMin_eq h] at hlo
  rw [tMax_eq h] at hhi
  obtain rfl := Outcome.ok.inj hlo
  obtain rfl := Outcome.ok.inj hhi
  obtain ⟨G, -, hG⟩ := evalIntegral_diff h
  refine ⟨?_, G t2 - G t1, G t3 - G t2, hG _ _ h1.1 h1.2 h2.1 h2.2, ?_, hG _ _ h2.1 h2.2 h3.1 h3.2, ?_⟩
  · rw [hG _ _ h1.1 h1.2 h1.1 h1.2]; simp
  · rw [hG _ _ h2.1 h2.2 h1.1 h1.2]; simp
  · rw [hG _ _ h1.1 h1.2 h3.1 h3.2]; simp

end Laws

/-! ## C08: the integral query is the integral of the curve -/

section Real
variable {D : ℕ}

/-- Component `d` of the curve as a function of time (0 outside the valid interval). -/
noncomputable def curveFun (s : BSpline ℝ D) (der : ℕ) (d : Fin D) (x : ℝ) : ℝ :=
  (s.evalD x der).getD 0 d

theorem contrib_eq {s : BSpline ℝ D} (h : s.WF) (i : ℕ) (h1 : s.order - 1 ≤ i)
    (h2 : i + 1 ≤ s.knots.length - s.order) (hlt : s.kn i < s.kn (i + 1)) (t : ℝ) (d : Fin D) :
    contrib s i (s.kn (i + 1) - s.kn i) (powerIntegrals ((t - s.kn i) / (s.kn (i + 1) - s.kn i))) d
      = ∫ x in s.kn i..t, (s.segPoly i d).eval x := by
  have hw : s.kn (i + 1) - s.kn i ≠ 0 := by linarith
  obtain ⟨B, hB, -, hBe⟩ := blockAt_ok h i h1 h2
  have e : ∀ x, (s.segPoly i d).eval x = (polyOf s.order (powerCoeffs s B i d)).eval
      ((x - s.kn i) / (s.kn (i + 1) - s.kn i)) := fun x =>
    segPoly_derivative_eval h i h1 h2 hlt B hBe d 0 x
  simp only [e]
  rw [integral_polyOf _ _ _ _ _ hw]
  unfold contrib segmentContribution
  rw [hB]
  simp only [Outcome.bind_ok, Outcome.getD_ok]
  unfold blockMul transposeMul powerCoeffs
  congr 1
  simp only [mul_sum, sum_mul]
  rw [sum_comm]
  refine sum_congr rfl fun r _ => sum_congr rfl fun c _ => ?_
  ring

theorem whole_eq {s : BSpline ℝ D} (h : s.WF) (i : ℕ) (h1 : s.order - 1 ≤ i)
    (h2 : i + 1 ≤ s.knots.length - s.order) (d : Fin D) :
    whole s i d = ∫ x in s.kn i..s.kn (i + 1), (s.segPoly i d).eval x := by
  have hk := h.order_pos
  have hn := h.enough
  rcases (h.mono i (i + 1) (by omega) (by omega)).eq_or_lt with he | hlt
  · rw [← he]
    obtain ⟨B, hB, -⟩ := blockAt_ok h i h1 h2
    unfold whole contrib segmentContribution
    rw [hB, ← he]
    simp
  · rw [← contrib_eq h i h1 h2 hlt (s.kn (i + 1)) d, div_self (by linarith)]
    rfl

/-- On a segment the curve stays within the bound of the coefficients. -/
theorem segPoly_bound {s : BSpline ℝ D} (h : s.WF) (i : ℕ) (h1 : s.order - 1 ≤ i)
    (h2 : i + 1 ≤ s.knots.length - s.order) (hlt : s.kn i < s.kn (i + 1)) (d : Fin D) (M : ℝ)
    (hM : ∀ j, j < s.coeffs.length → |s.col j d| ≤ M) (x : ℝ) (hx1 : s.kn i ≤ x) (hx2 : x ≤ s.kn (i + 1)) :
    |(s.segPoly i d).eval x| ≤ M := by
  have hk := h.order_pos
  have hc := h.coeffs_len
  unfold segPoly
  rw [eval_finsetSum]
  have hnn : ∀ j ∈ range s.coeffs.length, 0 ≤ (piece s.kn i (s.order - 1) j).eval x := by
    intro j hj
    have := mem_range.1 hj
    exact piece_nonneg s.kn s.knots.length i h.mono x hx1 hx2 _ _ (by omega)
  calc |∑ j ∈ range s.coeffs.length, (C (s.col j d) * piece s.kn i (s.order - 1) j).eval x|
      ≤ ∑ j ∈ range s.coeffs.length, |(C (s.col j d) * piece s.kn i (s.order - 1) j).eval x| :=
        abs_sum_le_sum_abs _ _
    _ ≤ ∑ j ∈ range s.coeffs.length, M * (piece s.kn i (s.order - 1) j).eval x := by
        refine sum_le_sum fun j hj => ?_
        rw [eval_mul, eval_C, abs_mul, abs_of_nonneg (hnn j hj)]
        exact mul_le_mul_of_nonneg_right (hM j (mem_range.1 hj)) (hnn j hj)
    _ = M := by
        rw [← mul_sum, ← eval_finsetSum, sum_range_pieces h i h1 h2 hlt]
        simp

/-- The remainder is the integral over the beginning of the segment, exactly or up to `1e-16`. -/
theorem rest_eq {s : BSpline ℝ D} (h : s.WF) (i : ℕ) (t : ℝ) (hi : s.InSegment t i) (d : Fin D) :
    ((t = s.kn i ∨ (1 / 10 ^ 16 < t - s.kn i ∧ 1 / 10 ^ 16 < s.kn (i + 1) - s.kn i)) →
      rest s t i d = ∫ x in s.kn i..t, (s.segPoly i d).eval x) ∧
    ∀ M, (∀ j, j < s.coeffs.length → |s.col j d| ≤ M) →
      |rest s t i d - ∫ x in s.kn i..t, (s.segPoly i d).eval x| ≤ 1 / 10 ^ 16 * M := by
  have hM0 : ∀ M, (∀ j, j < s.coeffs.length → |s.col j d| ≤ M) → 0 ≤ M := by
    intro M hM
    have h1 := h.enough
    have h2 := h.coeffs_len
    have h3 := h.order_pos
    exact le_trans (abs_nonneg _) (hM 0 (by omega))
  unfold rest remainderIntegral
  have htt : (tinyTol : ℝ) = 1 / 10 ^ 16 := rfl
  rw [htt]
  split_ifs with hc
  · have e : ((s.segmentContribution i (s.kn (i + 1) - s.kn i)
        (powerIntegrals ((t - s.kn i) / (s.kn (i + 1) - s.kn i)))).getD 0) d
        = ∫ x in s.kn i..t, (s.segPoly i d).eval x :=
      contrib_eq h i hi.lower hi.upper hi.pos t d
    refine ⟨fun _ => e, fun M hM => ?_⟩
    rw [e, sub_self, abs_zero]
    exact mul_nonneg (by norm_num) (hM0 M hM)
  · refine ⟨?_, fun M hM => ?_⟩
    · rintro (rfl | h')
      · simp
      · exact absurd h' hc
    · simp only [Outcome.getD_ok, Pi.zero_apply, zero_sub, abs_neg]
      have hb := intervalIntegral.norm_integral_le_of_norm_le_const (a := s.kn i) (b := t) (C := M)
        (f := fun x => (s.segPoly i d).eval x) (by
          intro x hx
          rw [Set.uIoc_of_le hi.left] at hx
          rw [Real.norm_eq_abs]
          exact segPoly_bound h i hi.lower hi.upper hi.pos d M hM x hx.1.le (hx.2.trans hi.le))
      rw [Real.norm_eq_abs] at hb
      refine hb.trans ?_
      rw [abs_of_nonneg (by linarith [hi.left]), mul_comm]
      refine mul_le_mul_of_nonneg_right ?_ (hM0 M hM)
      by_contra hcon
      push Not at hcon
      exact hc ⟨hcon, by linarith [hi.le]⟩

theorem curve_integral {s : BSpline ℝ D} (h : s.WF) (hw : s.WideLast) (der : ℕ) (d : Fin D) (t : ℝ) (i : ℕ)
    (hi : s.InSegment t i) :
    IntervalIntegrable (curveFun s der d) volume (s.kn (s.order - 1)) t ∧
      ∫ x in s.kn (s.order - 1)..t, curveFun s der d x
        = ∑ l ∈ Ico (s.order - 1) i,
            (∫ x in s.kn l..s.kn (l + 1), (derivative^[der] (s.segPoly l d)).eval x)
          + ∫ x in s.kn i..t, (derivative^[der] (s.segPoly i d)).eval x := by
  have hk := h.order_pos
  have hn := h.enough
  refine pieces_integral_to (hi := s.knots.length - s.order)
    (P := fun l x => (derivative^[der] (s.segPoly l d)).eval x)
    (fun l => Polynomial.continuous _)
    (fun l _ h2 => h.mono l (l + 1) (by omega) (by omega)) ?_ i hi.lower hi.upper t hi.left hi.le
  intro l h1 h2 x hx1 hx2
  unfold curveFun
  rw [evalD_on_segment h hw h1 h2 der x hx1.le (.inl hx2)]
  rfl

/-- A time that is a knot, or lies more than `1e-16` after the start of its segment (which is then longer
than `1e-16`): the integral query does not drop anything for it. -/
def NotTiny (s : BSpline ℝ D) (t : ℝ) : Prop :=
  ∀ seg a b, s.timeIntervalOf seg = .ok (a, b) → a ≤ t → t < b →
    t = a ∨ (1 / 10 ^ 16 < t - a ∧ 1 / 10 ^ 16 < b - a)

theorem NotTiny.at {s : BSpline ℝ D} (h : s.WF) (hw : s.WideLast) {t : ℝ} (ht : NotTiny s t) {i : ℕ}
    (hi : s.InSegment t i) :
    t = s.kn i ∨ (1 / 10 ^ 16 < t - s.kn i ∧ 1 / 10 ^ 16 < s.kn (i + 1) - s.kn i) := by
  have hk := h.order_pos
  have hn := h.enough
  have h1 := hi.lower
  have h2 := hi.upper
  rcases hi.right with hr | hr
  · refine ht ((i : ℤ) + 1 - s.order) _ _ ?_ hi.left hr
    unfold timeIntervalOf numValidTimeSegments numValidTimeSegmentsOf minimumKnotsRequired
      numKnotsRequired numCoefficientsRequired
    rw [if_neg (by omega), if_neg (by push Not; constructor <;> omega)]
    congr 3 <;> omega
  · right
    have := WideLast.wide h hw
    rw [← hr.2, Nat.add_sub_cancel] at this
    have e : (snapTol : ℝ) = 1 / 10 ^ 10 := rfl
    rw [e] at this
    have : (1 : ℝ) / 10 ^ 16 < 1 / 10 ^ 10 := by norm_num
    rw [hr.1]
    constructor <;> linarith

/-- **C08**: for every valid spline and every two valid times, the curve is integrable between them and the
integral query equals its integral: exactly when each bound is a knot or more than `1e-16` past one, and
always up to `1e-16` times the largest coefficient for each bound. -/
theorem C08_integral (s : BSpline ℝ D) (h : s.WF) (hw : s.WideLast) (lo hi : ℝ) (hlo : s.tMin = .ok lo)
    (hhi : s.tMax = .ok hi) (t1 t2 : ℝ) (h1 : lo ≤ t1 ∧ t1 ≤ hi) (h2 : lo ≤ t2 ∧ t2 ≤ hi) :
    ∃ v, s.evalIntegral t1 t2 = .ok v ∧ ∀ d : Fin D,
      IntervalIntegrable (fun x => (s.eval x).getD 0 d) volume t1 t2 ∧
      (NotTiny s t1 → NotTiny s t2 → v d = ∫ x in t1..t2, (s.eval x).getD 0 d) ∧
      ∀ M, (∀ c ∈ s.coeffs, |c d| ≤ M) →
        |v d - ∫ x in t1..t2, (s.eval x).getD 0 d| ≤ 2 / 10 ^ 16 * M := by
  rw [tMin_eq h] at hlo
  rw [tMax_eq h] at hhi
  obtain rfl := Outcome.ok.inj hlo
  obtain rfl := Outcome.ok.inj hhi
  obtain ⟨G, hG1, hG⟩ := evalIntegral_diff h
  refine ⟨G t2 - G t1, hG _ _ h1.1 h1.2 h2.1 h2.2, fun d => ?_⟩
  have step : ∀ t, s.kn (s.order - 1) ≤ t → t ≤ s.kn (s.knots.length - s.order) →
      IntervalIntegrable (fun x => (s.eval x).getD 0 d) volume (s.kn (s.order - 1)) t ∧
      (NotTiny s t → G t d = ∫ x in s.kn (s.order - 1)..t, (s.eval x).getD 0 d) ∧
      ∀ M, (∀ c ∈ s.coeffs, |c d| ≤ M) →
        |G t d - ∫ x in s.kn (s.order - 1)..t, (s.eval x).getD 0 d| ≤ 1 / 10 ^ 16 * M := by
    intro t ht1 ht2
    obtain ⟨i, hT, hi⟩ := lookup h t (admissible_of_wide t (WideLast.wide h hw) ht1 ht2)
    obtain ⟨i', hT', hGt⟩ := hG1 t ht1 ht2
    have hii : i' = i := by
      rw [hT] at hT'
      exact (Prod.mk.inj (Outcome.ok.inj hT')).2.symm
    subst hii
    obtain ⟨c1, c2⟩ := curve_integral h hw 0 d t i' hi
    obtain ⟨r1, r2⟩ := rest_eq h i' t hi d
    have hfun : curveFun s 0 d = fun x => (s.eval x).getD 0 d := rfl
    rw [hfun] at c1 c2
    have hGd : G t d = ∑ l ∈ Ico (s.order - 1) i', (∫ x in s.kn l..s.kn (l + 1), (s.segPoly l d).eval x)
        + rest s t i' d := by
      rw [hGt, Pi.add_apply, Finset.sum_apply]
      congr 1
      refine sum_congr rfl fun l hl => ?_
      have := mem_Ico.1 hl
      have := hi.upper
      exact whole_eq h l (by omega) (by omega) d
    refine ⟨c1, ?_, ?_⟩
    · intro hnt
      have := r1 (hnt.at h hw hi)
      rw [hGd, this]
      exact c2.symm
    · intro M hM
      have := r2 M (by
        intro j hj
        apply hM
        unfold col
        rw [List.getD_eq_getElem?_getD, List.getElem?_eq_getElem hj]
        exact List.getElem_mem hj)
      have e := c2
      simp only [Function.iterate_zero, id_eq] at e
      rw [hGd, e, add_sub_add_left_eq_sub]
      exact this
  obtain ⟨a1, a2, a3⟩ := step t1 h1.1 h1.2
  obtain ⟨b1, b2, b3⟩ := step t2 h2.1 h2.2
  have hsub := intervalIntegral.integral_interval_sub_left b1 a1
  refine ⟨a1.symm.trans b1, ?_, ?_⟩
  · intro n1 n2
    rw [Pi.sub_apply, a2 n1, b2 n2, hsub]
  · intro M hM
    rw [← hsub, Pi.sub_apply]
    have := a3 M hM
    have := b3 M hM
    rw [abs_le] at *
    constructor <;> linarith

/-- The hypotheses hold for a spline with a double knot, on an interval across it. -/
example : ∃ v, exReal.evalIntegral (5 / 2) (7 / 2) = .ok v ∧
    v 0 = ∫ x in (5 / 2)..(7 / 2), (exReal.eval x).getD 0 0 := by
  have hlo : exReal.tMin = .ok 2 := rfl
  have hhi : exReal.tMax = .ok 4 := rfl
  obtain ⟨v, hv, hd⟩ := C08_integral exReal exReal_wf exReal_wide _ _ hlo hhi (5 / 2) (7 / 2)
    (by norm_num) (by norm_num)
  have segs : ∀ seg a b, exReal.timeIntervalOf seg = .ok (a, b) →
      (a = 2 ∧ b = 3) ∨ (a = 3 ∧ b = 3) ∨ (a = 3 ∧ b = 4) := by
    intro seg a b hab
    obtain ⟨i, h1, h2, rfl, rfl, -⟩ := timeIntervalOf_eq exReal_wf hab
    have h1' : 3 ≤ i := h1
    have h2' : i + 1 ≤ 6 := h2
    have : i = 3 ∨ i = 4 ∨ i = 5 := by omega
    rcases this with rfl | rfl | rfl
    · exact .inl ⟨rfl, rfl⟩
    · exact .inr (.inl ⟨rfl, rfl⟩)
    · exact .inr (.inr ⟨rfl, rfl⟩)
  refine ⟨v, hv, (hd 0).2.1 ?_ ?_⟩ <;> intro seg a b hab h1 h2 <;>
    rcases segs seg a b hab with ⟨rfl, rfl⟩ | ⟨rfl, rfl⟩ | ⟨rfl, rfl⟩ <;>
    first | (exfalso; linarith) | norm_num

/-- Also the laws apply to it. -/
example := C08_integral_laws exReal exReal_wf 2 4 rfl rfl 2 (7 / 2) 3 (by norm_num) (by norm_num) (by norm_num)

end Real
end Verif
