import Verif.Lemmas.Euclidean
import Verif.Lemmas.Integral
import Verif.Props.ManifoldUpdate
import Verif.Props.Eval

/-!
# C26, C54: the Euclidean manifold spline is the B-spline curve, and its integral
-/

set_option linter.unusedSectionVars false

namespace Verif.MSpline

open Finset Polynomial

section Field
variable {K : Type*} [Field K] [LinearOrder K] [IsStrictOrderedRing K] {P : Type*} [AddCommGroup P] [Module K P]

/-- C26: the cumulative (group style) evaluation returns the same as the evaluation by the weighted sum, for every time, valid or
not, and every state of the spline. -/
theorem C26_cumulative (order : ℕ) (ho : 1 ≤ order) (s : MSpline K P) (h : RegularReach (euclidean K P) order s) (t : K) :
    s.evalGeneric (euclidean K P) t = s.euclideanEval t := by
  obtain ⟨hw, rfl⟩ := h.mwf ho
  rcases hst : s.state with _ | _
  · unfold evalGeneric euclideanEval euclideanEvalD
    rw [evaluatorAt_throws hw t (Or.inl hst)]
    rfl
  · rcases evaluable_total hw hst t with ⟨i, hi⟩ | ht
    · rw [evalGeneric_euclidean hw hst hi]
      have := euclideanEvalD_eq hw hst hi none 0 (by simp)
      exact this.symm
    · unfold evalGeneric euclideanEval euclideanEvalD
      rw [evaluatorAt_throws hw t (Or.inr ht)]
      rfl

/-- C26: the evaluation returns the sum of the control vertices weighted with the Cox–de Boor functions of the knots; at the maximum
time, with their limits from the left. -/
theorem C26_weighted_sum (order : ℕ) (ho : 1 ≤ order) (s : MSpline K P) (h : RegularReach (euclidean K P) order s)
    (he : s.state = .evaluable) (nv : ℕ) (hnv : s.numControlVertices = .ok nv) (tmin tmax : K) (hmin : s.getMinTime = .ok tmin)
    (hmax : s.getMaxTime = .ok tmax) :
    (∀ t, tmin ≤ t → t < tmax → s.euclideanEval t =
      .ok (∑ j ∈ range nv, Spec.N (fun i => s.keys.getD i 0) (order - 1) j t • s.verts.getD j 0)) ∧
    s.euclideanEval tmax = .ok (∑ j ∈ range nv, Spec.NLeft (fun i => s.keys.getD i 0) (order - 1) j tmax • s.verts.getD j 0) := by
  obtain ⟨hw, rfl⟩ := h.mwf ho
  have hn := hw.enough he
  rw [numControlVertices_eq hw he, Outcome.ok.injEq] at hnv
  rw [getMinTime_eq hw he, Outcome.ok.injEq] at hmin
  rw [getMaxTime_eq hw he, Outcome.ok.injEq] at hmax
  subst hnv hmin hmax
  have hkn : (fun i => s.keys.getD i 0) = s.kn := rfl
  rw [hkn]
  constructor
  · intro t h1 h2
    obtain ⟨i, hi, -⟩ := getSegmentIterator_ok hw he t h1 h2.le
    have l1 := hi.lower
    have l2 := hi.upper
    have hr : t < s.kn (i + 1) := by
      rcases hi.right with h3 | ⟨h3, h4⟩
      · exact h3
      · rw [h3, show i + 1 = s.keys.length - s.order by omega] at h2
        exact absurd h2 (lt_irrefl _)
    have := euclideanEvalD_eq hw he hi none 0 (by simp)
    rw [euclideanEval, show (0 : ℤ) = ((0 : ℕ) : ℤ) from rfl, this]
    congr 1
    refine sum_congr rfl fun j hj => ?_
    have hj := mem_range.1 hj
    rw [N_eq_piece s.kn i t (s.keys.length - 1) ?_ _ _ (by omega)]
    · rfl
    · intro j' hj'
      constructor
      · rintro ⟨g1, g2⟩
        by_contra hc
        rcases Nat.lt_or_ge j' i with h5 | h5
        · exact absurd (g2.trans_le ((hw.mono _ _ (by omega) (by omega)).trans hi.left)) (lt_irrefl _)
        · exact absurd (hr.trans_le ((hw.mono _ _ (by omega) (by omega)).trans g1)) (lt_irrefl _)
      · intro h5; rw [h5]; exact ⟨hi.left, hr⟩
  · obtain ⟨i, hi, -⟩ := getSegmentIterator_ok hw he (s.kn (s.keys.length - s.order)) (hw.mono _ _ (by omega) (by omega)) le_rfl
    have l1 := hi.lower
    have l2 := hi.upper
    have ei : i + 1 = s.keys.length - s.order := by
      rcases hi.right with h1 | h1
      · exact absurd h1 (not_lt.2 (hw.mono _ _ (by omega) (by omega)))
      · omega
    have := euclideanEvalD_eq hw he hi none 0 (by simp)
    rw [euclideanEval, show (0 : ℤ) = ((0 : ℕ) : ℤ) from rfl, this]
    congr 1
    refine sum_congr rfl fun j hj => ?_
    have hj := mem_range.1 hj
    rw [NLeft_eq_piece s.kn i _ (s.keys.length - 1) ?_ _ _ (by omega)]
    · rfl
    · intro j' hj'
      rw [← ei]
      constructor
      · rintro ⟨g1, g2⟩
        by_contra hc
        rcases Nat.lt_or_ge j' i with h5 | h5
        · exact absurd (g2.trans (hw.mono (j' + 1) i (by omega) (by omega))) (not_le.2 (hi.lt hw))
        · exact absurd (g1.trans_le (hw.mono (i + 1) j' (by omega) (by omega))) (lt_irrefl _)
      · intro h5; rw [h5]; exact ⟨hi.lt hw, le_rfl⟩

/-- C26: the plain spline class with the same order, knots and coefficients returns the same values and the same derivatives. -/
theorem C26_plain_class {D : ℕ} (order : ℕ) (ho : 2 ≤ order) (s : MSpline K (Fin D → K))
    (h : RegularReach (euclidean K (Fin D → K)) order s) (he : s.state = .evaluable) (nv : ℕ) (hnv : s.numControlVertices = .ok nv)
    (b₀ b : BSpline K D) (hb₀ : b₀.order = order) (hb : b₀.setKnotsAndCoefficients s.keys (s.verts.take nv) = .ok b)
    (t : K) (ha : b.Admissible t) (der : ℕ) :
    b.evalD t der = s.euclideanEvalD none t der := by
  obtain ⟨hw, hord⟩ := h.mwf (by omega)
  have hn := hw.enough he
  rw [numControlVertices_eq hw he, Outcome.ok.injEq] at hnv
  subst hnv
  have hwf : b.WF := BSpline.set_wf (by omega) (hw.sorted.imp fun h => h.le) hb
  obtain ⟨hbe, -, -⟩ := BSpline.set_inv (by omega) hb
  obtain ⟨i, hi, -, hev⟩ := BSpline.evalDNat_admissible hwf t ha
  have e1 : b.order = s.order := by rw [hbe]; simp only [BSpline.initializeBasisMatrices]; omega
  have e2 : b.knots = s.keys := by rw [hbe]; rfl
  have e3 : b.coeffs = s.verts.take (s.keys.length - s.order) := by rw [hbe]; rfl
  have ekn : b.kn = s.kn := by funext j; unfold BSpline.kn kn; rw [e2]
  have hi' : s.InSeg t i := by
    have g1 := hi.lower
    have g2 := hi.upper
    have g3 := hi.right
    rw [e1] at g1
    rw [e1, e2] at g2 g3
    rw [ekn] at g3
    refine ⟨by omega, by omega, by rw [← ekn]; exact hi.left, ?_⟩
    rcases g3 with g3 | ⟨g3, g4⟩
    · exact Or.inl g3
    · exact Or.inr ⟨g3, by omega⟩
  rw [euclideanEvalD_eq hw he hi' none der (by simp)]
  unfold BSpline.evalD
  rw [if_neg (by omega), Int.toNat_natCast, hev der]
  congr 1
  funext d
  unfold BSpline.segPoly segSum
  have hlen : b.coeffs.length = s.keys.length - s.order := by
    have := hwf.coeffs_len
    rw [e1, e2] at this
    omega
  rw [hlen, iterate_derivative_sum, eval_finsetSum, Finset.sum_apply]
  refine sum_congr rfl fun j hj => ?_
  have hj := mem_range.1 hj
  rw [iterate_derivative_C_mul, eval_mul, eval_C, e1, ekn, mul_comm, Pi.smul_apply, smul_eq_mul]
  congr 1
  unfold BSpline.col vert
  rw [e3, List.getD_eq_getElem?_getD, List.getD_eq_getElem?_getD, List.getElem?_take, if_pos hj]

/-- Not vacuous: a spline of order 3 in the plane and the plain spline with the same data. -/
def demoE : MSpline ℚ (Fin 2 → ℚ) :=
  ((Call.initWithKnotsAndControlVertices [0, 1, 2, 4, 5, 6, 7] [![1, 2], ![3, 5], ![-1, 0], ![2, 2]]).run
    (euclidean ℚ (Fin 2 → ℚ)) (create 3)).2

theorem demoE_reach : RegularReach (euclidean ℚ (Fin 2 → ℚ)) 3 demoE := .call _ .create trivial

example : demoE.state = .evaluable ∧ demoE.numControlVertices = .ok 4 ∧ demoE.getMinTime = .ok 2 ∧ demoE.getMaxTime = .ok 5 ∧
    (demoE.evalGeneric (euclidean ℚ (Fin 2 → ℚ)) 3).map (fun p => (p 0, p 1)) = .ok (2, 11 / 3) ∧
    (demoE.euclideanEvalD none 3 1).map (fun p => (p 0, p 1)) = .ok (-2 / 3, -2 / 3) := by
  decide +kernel

/-! ### C54: the integral -/

/-- The integral over interval `i` up to time `t`, as the program computes it. -/
def segInt (s : MSpline K P) (i : ℕ) (t : K) : P :=
  ∑ c ∈ range s.order, ((s.kn (i + 1) - s.kn i) * BSpline.transposeMul s.order (basisM s.kn i s.order)
    (BSpline.powerIntegrals ((t - s.kn i) / (s.kn (i + 1) - s.kn i))) c) • s.vert (i + 1 - s.order + c)

theorem transposeMul_congr (k : ℕ) (B : Mat K) (u v : ℕ → K) (h : ∀ r, r < k → u r = v r) :
    BSpline.transposeMul k B u = BSpline.transposeMul k B v := by
  funext c
  unfold BSpline.transposeMul
  exact sum_congr rfl fun r hr => by rw [h r (mem_range.1 hr)]

theorem localVi_eq {s : MSpline K P} (h : s.MWF) (he : s.state = .evaluable) {i : ℕ} (h1 : s.order ≤ i + 1)
    (h2 : i + s.order < s.keys.length) (v : ℕ → K) :
    s.localVi v s.keys[i]? = .ok (BSpline.transposeMul s.order (basisM s.kn i s.order) v) := by
  have hlt : i < s.segs.length := by rw [keys_length] at h2; omega
  have hg := List.getElem?_eq_getElem hlt
  unfold localVi
  rw [segAt_eq h hg, Outcome.bind_ok, h.basis_eq he i _ h1 h2 hg]

/-- Is the remainder of a time in interval `i` added? -/
def Counts (s : MSpline K P) (i : ℕ) (t : K) : Prop :=
  eulerTol < s.kn (i + 1) - s.kn i ∧ eulerTol < (t - s.kn i) / (s.kn (i + 1) - s.kn i)

instance (s : MSpline K P) (i : ℕ) (t : K) : Decidable (s.Counts i t) := by unfold Counts; infer_instance

theorem integralRemainder_eq {s : MSpline K P} (h : s.MWF) (he : s.state = .evaluable) {t : K} {i : ℕ} (hi : s.InSeg t i)
    (sign : K) (acc : P) :
    s.integralRemainder sign (s.evaluatorOf t i) acc = .ok (acc + if s.Counts i t then sign • s.segInt i t else 0) := by
  have h1 := hi.lower
  have h2 := hi.upper
  unfold integralRemainder
  by_cases hc : s.Counts i t
  · rw [if_pos (show eulerTol < (s.evaluatorOf t i).len ∧ eulerTol < (s.evaluatorOf t i).rel from hc), if_pos hc]
    simp only [evaluatorOf]
    rw [ localVi_eq h he h1 h2, Outcome.bind_ok, linCombFirst_eq h (by omega) h1]
    unfold segInt
    rw [smul_sum]
    congr 2
    refine sum_congr rfl fun c _ => ?_
    rw [smul_smul, ← mul_assoc]
    congr 2
    refine congrFun (transposeMul_congr _ _ _ _ fun r hr => ?_) c
    unfold evalV BSpline.powerIntegrals
    rw [if_pos ⟨by linarith [hi.lt h], hr⟩]
  · rw [if_neg (show ¬(eulerTol < (s.evaluatorOf t i).len ∧ eulerTol < (s.evaluatorOf t i).rel) from hc), if_neg hc, add_zero]

theorem integralCentral_eq {s : MSpline K P} (h : s.MWF) (he : s.state = .evaluable) (b : ℕ) (hb : b + s.order < s.keys.length) :
    ∀ (n a : ℕ) (acc : P), s.order ≤ a + 1 → a ≤ b → b - a < n →
      s.integralCentral s.keys[b]? n s.keys[a]? acc = .ok (acc + ∑ i ∈ Ico a b, s.segInt i (s.kn (i + 1)))
  | 0, a, acc, _, _, hn => by omega
  | (n + 1), a, acc, h1, h2, hn => by
    have h3 := h.order_pos
    unfold integralCentral
    rcases h2.eq_or_lt with h4 | h4
    · rw [if_pos (by rw [h4]), h4]; simp
    · rw [if_neg (by rw [at_inj h.nodup (by omega) (by omega)]; omega), localVi_eq h he h1 (by omega), Outcome.bind_ok,
        segmentLength_eq h (by omega), Outcome.bind_ok, linCombLast_eq h (by omega) h1, Outcome.bind_ok,
        itInc_at h.nodup (by omega), Outcome.bind_ok, integralCentral_eq h he b hb n (a + 1) _ (by omega) (by omega) (by omega),
        sum_eq_sum_Ico_succ_bot h4, ← add_assoc]
      congr 3
      unfold segInt
      refine sum_congr rfl fun c _ => ?_
      congr 2
      refine congrFun (transposeMul_congr _ _ _ _ fun r hr => ?_) c
      have : 0 < s.kn (a + 1) - s.kn a := by have := h.strict (show a < a + 1 by omega) (by omega); linarith
      unfold BSpline.powerIntegrals
      rw [div_self this.ne', one_pow]

/-- The primitive the program uses: whole intervals from the start of the valid interval, then the remainder if it counts. -/
def primitive (s : MSpline K P) (i : ℕ) (t : K) : P :=
  ∑ j ∈ Ico (s.order - 1) i, s.segInt j (s.kn (j + 1)) + if s.Counts i t then s.segInt i t else 0

theorem inSeg_le {s : MSpline K P} (h : s.MWF) {t1 t2 : K} {i1 i2 : ℕ} (hi1 : s.InSeg t1 i1) (hi2 : s.InSeg t2 i2) (ht : t1 ≤ t2) :
    i1 ≤ i2 := by
  by_contra hc
  have h1 : s.kn (i2 + 1) ≤ s.kn i1 := h.mono _ _ (by omega) (by have := hi1.upper; omega)
  rcases hi2.right with h2 | ⟨h2, h3⟩
  · exact absurd ((ht.trans_lt h2).trans_le (h1.trans hi1.left)) (lt_irrefl _)
  · have := hi1.upper; omega

theorem integral_eq {s : MSpline K P} (h : s.MWF) (he : s.state = .evaluable) {t1 t2 : K} {i1 i2 : ℕ} (hi1 : s.InSeg t1 i1)
    (hi2 : s.InSeg t2 i2) : s.euclideanIntegral t1 t2 = .ok (s.primitive i2 t2 - s.primitive i1 t1) := by
  have key : ∀ {t1 t2 : K} {i1 i2 : ℕ}, s.InSeg t1 i1 → s.InSeg t2 i2 → t1 ≤ t2 →
      s.euclideanIntegralOrdered t1 t2 = .ok (s.primitive i2 t2 - s.primitive i1 t1) := by
    intro t1 t2 i1 i2 hi1 hi2 ht
    have hle := inSeg_le h hi1 hi2 ht
    unfold euclideanIntegralOrdered
    split
    · rename_i heq
      subst heq
      rw [hi1.unique h hi2, sub_self]
    · have e1 : (s.evaluatorOf t1 i1).ti = s.keys[i1]? := rfl
      have e2 : (s.evaluatorOf t2 i2).ti = s.keys[i2]? := rfl
      have l1 := hi1.lower
      have l2 := hi2.upper
      have l3 := h.order_pos
      rw [evaluatorAt_eq h he hi1, Outcome.bind_ok, integralRemainder_eq h he hi1, Outcome.bind_ok, evaluatorAt_eq h he hi2,
        Outcome.bind_ok, e1, e2, integralCentral_eq h he i2 l2 _ _ _ l1 hle (by rw [← keys_length]; omega), Outcome.bind_ok,
        integralRemainder_eq h he hi2]
      congr 1
      unfold primitive
      rw [← sum_Ico_consecutive _ (show s.order - 1 ≤ i1 by omega) hle]
      simp only [zero_add, one_smul, neg_smul]
      split_ifs <;> abel
  unfold euclideanIntegral
  split
  · rename_i hlt
    rw [key hi2 hi1 hlt.le, Outcome.map_ok]
    congr 1; abel
  · rename_i hlt
    exact key hi1 hi2 (not_lt.1 hlt)

/-- C54: the integral query is exactly additive and changes sign with the bounds. -/
theorem C54_integral_laws (order : ℕ) (ho : 1 ≤ order) (s : MSpline K P) (h : RegularReach (euclidean K P) order s)
    (he : s.state = .evaluable) (tmin tmax : K) (hmin : s.getMinTime = .ok tmin) (hmax : s.getMaxTime = .ok tmax)
    (t1 t2 t3 : K) (h1 : tmin ≤ t1 ∧ t1 ≤ tmax) (h2 : tmin ≤ t2 ∧ t2 ≤ tmax) (h3 : tmin ≤ t3 ∧ t3 ≤ tmax) :
    s.euclideanIntegral t1 t1 = .ok 0 ∧ ∃ a b : P, s.euclideanIntegral t1 t2 = .ok a ∧ s.euclideanIntegral t2 t1 = .ok (-a) ∧
      s.euclideanIntegral t2 t3 = .ok b ∧ s.euclideanIntegral t1 t3 = .ok (a + b) := by
  obtain ⟨hw, rfl⟩ := h.mwf ho
  rw [getMinTime_eq hw he, Outcome.ok.injEq] at hmin
  rw [getMaxTime_eq hw he, Outcome.ok.injEq] at hmax
  subst hmin hmax
  obtain ⟨i1, hi1, -⟩ := getSegmentIterator_ok hw he t1 h1.1 h1.2
  obtain ⟨i2, hi2, -⟩ := getSegmentIterator_ok hw he t2 h2.1 h2.2
  obtain ⟨i3, hi3, -⟩ := getSegmentIterator_ok hw he t3 h3.1 h3.2
  refine ⟨by rw [integral_eq hw he hi1 hi1, sub_self], _, _, integral_eq hw he hi1 hi2, ?_, integral_eq hw he hi2 hi3, ?_⟩
  · rw [integral_eq hw he hi2 hi1]; congr 1; abel
  · rw [integral_eq hw he hi1 hi3]; congr 1; abel

end Field

section Real
variable {P : Type*} [NormedAddCommGroup P] [NormedSpace ℝ P] [CompleteSpace P]

open MeasureTheory

theorem integral_segSum {s : MSpline ℝ P} (h : s.MWF) {i : ℕ} (h1 : s.order ≤ i + 1) (h2 : i + s.order < s.keys.length) (t : ℝ) :
    ∫ x in s.kn i..t, s.segSum i 0 x = s.segInt i t := by
  have h3 := h.order_pos
  have hlt : s.kn i < s.kn (i + 1) := h.strict (by omega) (by omega)
  have hw : s.kn (i + 1) - s.kn i ≠ 0 := by linarith
  have e : s.order = s.order - 1 + 1 := by omega
  have hfun : (fun x => s.segSum i 0 x) = fun x => ∑ c ∈ range s.order,
      (BSpline.polyOf s.order (fun r => basisM s.kn i s.order r c)).eval ((x - s.kn i) / (s.kn (i + 1) - s.kn i)) •
        s.vert (i + 1 - s.order + c) := by
    funext x
    rw [← segSum_local h h1 h2 0 x]
    refine sum_congr rfl fun c hc => ?_
    have hc := mem_range.1 hc
    congr 1
    have := weight_eq_piece s.kn s.keys.length i (s.order - 1) 0 c h.mono hlt (by omega) (by omega) (by omega) x
    rw [← e] at this
    rw [show i + 1 - s.order = i - (s.order - 1) by omega, ← this, BSpline.polyOf_eval]
    unfold BSpline.transposeMul computeU
    refine sum_congr rfl fun r hr => ?_
    have hr := mem_range.1 hr
    rw [if_pos ⟨Nat.zero_le _, hr⟩]
    simp [hlt, dmul]
  rw [show (∫ x in s.kn i..t, s.segSum i 0 x) = ∫ x in s.kn i..t, (fun x => s.segSum i 0 x) x from rfl, hfun]
  rw [intervalIntegral.integral_finsetSum]
  · unfold segInt
    refine sum_congr rfl fun c _ => ?_
    rw [intervalIntegral.integral_smul_const, integral_polyOf _ _ _ _ _ hw]
    rfl
  · intro c _
    apply Continuous.intervalIntegrable
    exact ((Polynomial.continuous _).comp (by fun_prop)).smul continuous_const

theorem continuous_segSum (s : MSpline ℝ P) (i : ℕ) : Continuous (s.segSum i 0) := by
  unfold segSum
  exact continuous_finsetSum _ fun j _ => (Polynomial.continuous _).smul continuous_const

theorem integral_curve {s : MSpline ℝ P} (h : s.MWF) (he : s.state = .evaluable) {t : ℝ} {i : ℕ} (hi : s.InSeg t i) :
    IntervalIntegrable (fun x => (s.euclideanEval x).getD 0) volume (s.kn (s.order - 1)) t ∧
    ∫ x in s.kn (s.order - 1)..t, (s.euclideanEval x).getD 0 =
      ∑ j ∈ Ico (s.order - 1) i, s.segInt j (s.kn (j + 1)) + s.segInt i t := by
  have h1 := hi.lower
  have h2 := hi.upper
  have h3 := h.order_pos
  have := pieces_integral_to (E := P) (kn := s.kn) (g := fun x => (s.euclideanEval x).getD 0) (P := fun i => s.segSum i 0)
    (lo := s.order - 1) (hi := s.keys.length - s.order) (continuous_segSum s) (fun j _ hj => h.mono _ _ (by omega) (by omega))
    (fun j hj1 hj2 x hx1 hx2 => by
      have hj : s.InSeg x j := ⟨by omega, by omega, hx1.le, Or.inl hx2⟩
      have := euclideanEvalD_eq h he hj none 0 (by simp)
      simp only [euclideanEval]
      rw [show (0 : ℤ) = ((0 : ℕ) : ℤ) from rfl, this]
      rfl) i (by omega) (by omega) t hi.left hi.right_le
  refine ⟨this.1, ?_⟩
  rw [this.2, integral_segSum h h1 h2]
  congr 1
  refine sum_congr rfl fun j hj => ?_
  have := mem_Ico.1 hj
  rw [integral_segSum h (by omega) (by omega)]

/-- No tolerance matters at time `t`: the knot intervals around it are longer than `1e-16`, and it is a knot or further than `1e-16`
of the interval from its start. -/
def Clear (s : MSpline ℝ P) (t : ℝ) : Prop := ∀ i x y, s.keys[i]? = some x → s.keys[i + 1]? = some y → x ≤ t → t ≤ y →
  1 / 10 ^ 16 < y - x ∧ (t = x ∨ t = y ∨ 1 / 10 ^ 16 * (y - x) < t - x)

theorem norm_segInt_le {s : MSpline ℝ P} (h : s.MWF) {t : ℝ} {i : ℕ} (hi : s.InSeg t i) (M : ℝ) (hM : ∀ v ∈ s.verts, ‖v‖ ≤ M) :
    ‖s.segInt i t‖ ≤ M * (t - s.kn i) := by
  have h1 := hi.lower
  have h2 := hi.upper
  have h3 := h.order_pos
  rw [← integral_segSum h h1 h2]
  have := intervalIntegral.norm_integral_le_of_norm_le_const (a := s.kn i) (b := t) (C := M) (f := s.segSum i 0) ?_
  · rwa [abs_of_nonneg (by linarith [hi.left])] at this
  · intro x hx
    rw [Set.uIoc_of_le hi.left] at hx
    have hx2 : x ≤ s.kn (i + 1) := hx.2.trans hi.right_le
    rw [← segSum_local h h1 h2 0 x]
    have hsum : ∑ c ∈ range s.order, (piece s.kn i (s.order - 1) (i + 1 - s.order + c)).eval x = 1 := by
      have e1 := piece_sum_one s.kn s.keys.length i h.mono (hi.lt h) (s.order - 1) (by omega) (by omega)
      rw [sum_Ico_eq_sum_range, show i + 1 - (i - (s.order - 1)) = s.order by omega] at e1
      have e2 := congrArg (Polynomial.eval x) e1
      rw [eval_finsetSum, eval_one] at e2
      rw [← e2]
      exact sum_congr rfl fun j _ => by rw [show i + 1 - s.order = i - (s.order - 1) by omega]
    refine (norm_sum_le _ _).trans ?_
    calc ∑ c ∈ range s.order, ‖(derivative^[0] (piece s.kn i (s.order - 1) (i + 1 - s.order + c))).eval x •
          s.vert (i + 1 - s.order + c)‖
        ≤ ∑ c ∈ range s.order, (piece s.kn i (s.order - 1) (i + 1 - s.order + c)).eval x * M := by
          refine sum_le_sum fun c hc => ?_
          have hc := mem_range.1 hc
          have hnn := piece_nonneg s.kn s.keys.length i h.mono x hx.1.le hx2 (s.order - 1) (i + 1 - s.order + c) (by omega)
          rw [norm_smul, Real.norm_eq_abs]
          simp only [Function.iterate_zero, id_eq]
          rw [abs_of_nonneg hnn]
          refine mul_le_mul_of_nonneg_left ?_ hnn
          apply hM
          unfold vert
          have hlt : i + 1 - s.order + c < s.verts.length := by
            simp only [verts, List.length_map, ← keys_length]; omega
          rw [List.getD_eq_getElem?_getD, List.getElem?_eq_getElem hlt, Option.getD_some]
          exact List.getElem_mem hlt
      _ = M := by rw [← sum_mul, hsum, one_mul]

/-- C54: for all valid bounds the integral query returns the integral of the curve, exactly if the `1e-16` tolerances of the
program do not matter at the bounds, and in any case up to `2e-16` times the longest knot interval (or one) times the largest
control vertex. -/
theorem C54_integral (order : ℕ) (ho : 1 ≤ order) (s : MSpline ℝ P) (h : RegularReach (euclidean ℝ P) order s)
    (he : s.state = .evaluable) (tmin tmax : ℝ) (hmin : s.getMinTime = .ok tmin) (hmax : s.getMaxTime = .ok tmax)
    (t1 t2 : ℝ) (h1 : tmin ≤ t1 ∧ t1 ≤ tmax) (h2 : tmin ≤ t2 ∧ t2 ≤ tmax) :
    ∃ v, s.euclideanIntegral t1 t2 = .ok v ∧
      IntervalIntegrable (fun x => (s.euclideanEval x).getD 0) volume t1 t2 ∧
      (s.Clear t1 → s.Clear t2 → v = ∫ x in t1..t2, (s.euclideanEval x).getD 0) ∧
      ∀ M L, (∀ p ∈ s.verts, ‖p‖ ≤ M) → 1 ≤ L → (∀ i x y, s.keys[i]? = some x → s.keys[i + 1]? = some y → y - x ≤ L) →
        ‖v - ∫ x in t1..t2, (s.euclideanEval x).getD 0‖ ≤ 2 / 10 ^ 16 * L * M := by
  obtain ⟨hw, rfl⟩ := h.mwf ho
  rw [getMinTime_eq hw he, Outcome.ok.injEq] at hmin
  rw [getMaxTime_eq hw he, Outcome.ok.injEq] at hmax
  subst hmin hmax
  obtain ⟨i1, hi1, -⟩ := getSegmentIterator_ok hw he t1 h1.1 h1.2
  obtain ⟨i2, hi2, -⟩ := getSegmentIterator_ok hw he t2 h2.1 h2.2
  obtain ⟨a1, a2⟩ := integral_curve hw he hi1
  obtain ⟨b1, b2⟩ := integral_curve hw he hi2
  have hint : ∫ x in t1..t2, (s.euclideanEval x).getD 0 =
      (∑ j ∈ Ico (s.order - 1) i2, s.segInt j (s.kn (j + 1)) + s.segInt i2 t2) -
      (∑ j ∈ Ico (s.order - 1) i1, s.segInt j (s.kn (j + 1)) + s.segInt i1 t1) := by
    rw [← a2, ← b2, intervalIntegral.integral_interval_sub_left b1 a1]
  refine ⟨_, integral_eq hw he hi1 hi2, a1.symm.trans b1, fun c1 c2 => ?_, fun M L hM hL1 hL => ?_⟩
  · have key : ∀ {t : ℝ} {i : ℕ}, s.InSeg t i → s.Clear t →
        s.primitive i t = ∑ j ∈ Ico (s.order - 1) i, s.segInt j (s.kn (j + 1)) + s.segInt i t := by
      intro t i hi hc
      unfold primitive
      congr 1
      have l2 := hi.upper
      have l3 := hw.order_pos
      have hpos : 0 < s.kn (i + 1) - s.kn i := by linarith [hi.lt hw]
      obtain ⟨g1, g2⟩ := hc i _ _ (kn_getElem s (by omega)) (kn_getElem s (by omega)) hi.left hi.right_le
      split
      · rfl
      · rename_i hcnt
        rcases g2 with g2 | g2 | g2
        · unfold segInt
          symm
          refine sum_eq_zero fun c _ => ?_
          have : BSpline.transposeMul s.order (basisM s.kn i s.order) (BSpline.powerIntegrals ((t - s.kn i) / (s.kn (i + 1) - s.kn i))) c = 0 := by
            unfold BSpline.transposeMul BSpline.powerIntegrals
            refine sum_eq_zero fun r _ => ?_
            rw [g2]; simp
          rw [this, mul_zero, zero_smul]
        · exfalso
          apply hcnt
          refine ⟨g1, ?_⟩
          rw [g2, div_self hpos.ne']
          unfold eulerTol
          norm_num
        · exfalso
          apply hcnt
          refine ⟨g1, ?_⟩
          rw [lt_div_iff₀ hpos]
          exact g2
    rw [hint, key hi1 c1, key hi2 c2]
  · have key : ∀ {t : ℝ} {i : ℕ}, s.InSeg t i →
        ‖(if s.Counts i t then s.segInt i t else 0) - s.segInt i t‖ ≤ 1 / 10 ^ 16 * L * M := by
      intro t i hi
      have l1 := hi.lower
      have l2 := hi.upper
      have l3 := hw.order_pos
      have hpos : 0 < s.kn (i + 1) - s.kn i := by linarith [hi.lt hw]
      have hM0 : 0 ≤ M := by
        have hlt : i < s.verts.length := by simp only [verts, List.length_map, ← keys_length]; omega
        exact (norm_nonneg _).trans (hM _ (List.getElem_mem hlt))
      split
      · rw [sub_self, norm_zero]; positivity
      · rename_i hc
        rw [zero_sub, norm_neg]
        refine (norm_segInt_le hw hi M hM).trans ?_
        have hgap := hL i _ _ (kn_getElem s (by omega)) (kn_getElem s (by omega))
        have : t - s.kn i ≤ 1 / 10 ^ 16 * L := by
          unfold Counts at hc
          rw [not_and_or, not_lt, not_lt] at hc
          unfold eulerTol at hc
          rcases hc with hc | hc
          · have := hi.right_le
            nlinarith
          · rw [div_le_iff₀ hpos] at hc
            refine hc.trans ?_
            have : (0 : ℝ) < 1 / 10 ^ 16 := by positivity
            nlinarith
        nlinarith
    rw [hint]
    unfold primitive
    have e : ∀ a b c d e f : P, (a + b - (c + d)) - (a + e - (c + f)) = (b - e) - (d - f) := by intros; abel
    rw [e]
    refine (norm_sub_le _ _).trans ?_
    have := key hi1
    have := key hi2
    linarith

end Real

/-- Not vacuous: the integral over part of the example. -/
example : (demoE.euclideanIntegral 2 4).map (fun p => (p 0, p 1)) = .ok (10 / 3, 58 / 9) := by
  decide +kernel

end Verif.MSpline
