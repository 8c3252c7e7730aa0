import Verif.Model.PlotPose
import Verif.Props.Pose
import Mathlib.Algebra.Order.Floor.Semiring
import Mathlib.Data.Rat.Floor

/-!
# Plotting a pose spline (C112)
-/

set_option linter.unusedSectionVars false

namespace Verif.Pose

open BSpline Matrix

section

variable {K : Type*} [Field K] [LinearOrder K] [IsStrictOrderedRing K] [FloorRing K]

/-- A list that climbs in steps of at most `d`. -/
def Spec.Climbs (d : K) : List K → Prop
  | [] => True
  | [_] => True
  | x :: y :: l => x < y ∧ y - x ≤ d ∧ Spec.Climbs d (y :: l)

theorem climbs_range (a b d : K) (hd : 0 < d) (n i : ℕ) (h1 : n = 0 ∨ a + ((i : K) + n - 1) * d < b) (h2 : b ≤ a + ((i : K) + n) * d)
    (h3 : n = 0 → a + (i : K) * d - d < b) :
    Spec.Climbs d ((List.range' i n).map (fun j : ℕ => a + (j : K) * d) ++ [b]) := by
  induction n generalizing i with
  | zero => simp [Spec.Climbs]
  | succ n ih =>
    rw [List.range'_succ]
    have h1' : a + ((i : K) + (n + 1 : ℕ) - 1) * d < b := h1.resolve_left (by omega)
    push_cast at h1' h2
    cases n with
    | zero =>
      simp only [List.range'_zero, List.map_cons, List.map_nil, List.cons_append, List.nil_append, Spec.Climbs, and_true]
      simp only [Nat.cast_zero] at h1' h2
      constructor <;> linarith
    | succ n =>
      have := ih (i + 1) (.inr (by push_cast at h1' ⊢; linarith)) (by push_cast at h2 ⊢; linarith) (by simp)
      rw [List.range'_succ] at this ⊢
      simp only [List.map_cons, List.cons_append] at this ⊢
      refine ⟨by push_cast; linarith, by push_cast; linarith, this⟩

/-- The number of times before the end. -/
theorem ceil_bounds (a b d : K) (hab : a < b) (hd : 0 < d) :
    0 < ⌈(b - a) / d⌉.toNat ∧ a + ((⌈(b - a) / d⌉.toNat : K) - 1) * d < b ∧ b ≤ a + (⌈(b - a) / d⌉.toNat : K) * d := by
  have hpos : 0 < (b - a) / d := div_pos (by linarith) hd
  have hc : 0 < ⌈(b - a) / d⌉ := Int.ceil_pos.2 hpos
  have hcast : ((⌈(b - a) / d⌉.toNat : ℕ) : K) = ((⌈(b - a) / d⌉ : ℤ) : K) := by
    have : ((⌈(b - a) / d⌉.toNat : ℕ) : ℤ) = ⌈(b - a) / d⌉ := Int.toNat_of_nonneg hc.le
    exact_mod_cast congrArg (Int.cast (R := K)) this
  have e : (b - a) / d * d = b - a := div_mul_cancel₀ _ hd.ne'
  refine ⟨by omega, ?_, ?_⟩
  · rw [hcast]
    have := Int.ceil_lt_add_one ((b - a) / d)
    have := mul_lt_mul_of_pos_right (show ((⌈(b - a) / d⌉ : ℤ) : K) - 1 < (b - a) / d by linarith) hd
    linarith
  · rw [hcast]
    have := mul_le_mul_of_nonneg_right (Int.le_ceil ((b - a) / d)) hd.le
    linarith

theorem climbs_between (d : K) (l : List K) (h : Spec.Climbs d l) {a b : K} (ha : l.head? = some a) (hb : l.getLast? = some b) :
    (∀ t ∈ l, a ≤ t ∧ t ≤ b) ∧ ∀ x, a ≤ x → x ≤ b → 0 ≤ d → ∃ t ∈ l, t ≤ x ∧ x - t ≤ d := by
  induction l generalizing a with
  | nil => simp at ha
  | cons x l ih =>
    obtain rfl : x = a := by simpa using ha
    cases l with
    | nil =>
      obtain rfl : x = b := by simpa using hb
      refine ⟨by simp, fun y h1 h2 hd => ⟨x, by simp, h1, by linarith⟩⟩
    | cons y l =>
      obtain ⟨h1, h2, h3⟩ := h
      obtain ⟨i1, i2⟩ := ih h3 (a := y) rfl (by rw [List.getLast?_cons_cons] at hb; exact hb)
      constructor
      · intro t ht
        rcases List.mem_cons.1 ht with rfl | ht
        · exact ⟨le_rfl, h1.le.trans (i1 y (by simp)).2⟩
        · exact ⟨h1.le.trans (i1 t ht).1, (i1 t ht).2⟩
      · intro z hz1 hz2 hd
        by_cases hzy : y ≤ z
        · obtain ⟨t, ht, h⟩ := i2 z hzy hz2 hd
          exact ⟨t, List.mem_cons_of_mem _ ht, h⟩
        · exact ⟨x, by simp, hz1, by linarith [not_le.1 hzy]⟩

/-- **C112, times.** For every pose spline over more than an instant and every positive distance the times of the plot begin with the first and end with the last
time of the spline and climb in steps of at most the distance; so they are times of the spline and none of its times is farther than the
distance from the plotted time before it. -/
theorem C112_times (s : Pose K) {a b : K} (ha : s.spline.tMin = .ok a) (hb : s.spline.tMax = .ok b) (hab : a < b) (dt : K) (hdt : 0 < dt) :
    ∃ ts, s.plotTimes dt = .ok ts ∧ ts.head? = some a ∧ ts.getLast? = some b ∧ Spec.Climbs dt ts ∧ (∀ t ∈ ts, a ≤ t ∧ t ≤ b) ∧
      ∀ x, a ≤ x → x ≤ b → ∃ t ∈ ts, t ≤ x ∧ x - t ≤ dt := by
  obtain ⟨h0, h1, h2⟩ := ceil_bounds a b dt hab hdt
  have hcl : Spec.Climbs dt ((List.range ⌈(b - a) / dt⌉.toNat).map (fun i : ℕ => a + (i : K) * dt) ++ [b]) := by
    rw [List.range_eq_range']
    exact climbs_range a b dt hdt _ 0 (.inr (by simpa using h1)) (by simpa using h2) (fun h => absurd h (by omega))
  have hhead : ((List.range ⌈(b - a) / dt⌉.toNat).map (fun i : ℕ => a + (i : K) * dt) ++ [b]).head? = some a := by
    obtain ⟨m, hm⟩ : ∃ m, ⌈(b - a) / dt⌉.toNat = m + 1 := ⟨_, (Nat.succ_pred_eq_of_pos h0).symm⟩
    rw [hm, List.range_eq_range', List.range'_succ]
    simp
  have hbt := climbs_between dt _ hcl hhead (b := b) (by simp)
  refine ⟨_, ?_, hhead, by simp, hcl, hbt.1, fun x h1 h2 => hbt.2 x h1 h2 hdt.le⟩
  unfold plotTimes arange
  rw [ha, hb, Outcome.bind_ok, Outcome.bind_ok, if_neg hdt.ne']
  rfl

theorem forAll_ok {α β : Type*} (f : α → Outcome β) (R : α → β → Prop) (l : List α) (h : ∀ x ∈ l, ∃ y, f x = .ok y ∧ R x y) :
    ∃ ys, forAll f l = .ok ys ∧ List.Forall₂ R l ys := by
  induction l with
  | nil => exact ⟨[], rfl, .nil⟩
  | cons x l ih =>
    obtain ⟨y, hy, hr⟩ := h x (by simp)
    obtain ⟨ys, hys, hrs⟩ := ih fun z hz => h z (List.mem_cons_of_mem _ hz)
    exact ⟨y :: ys, by simp only [forAll, hy, hys, Outcome.bind_ok, Outcome.map], .cons hr hrs⟩

/-- **C112, points.** The plot never fails.  It draws, for each of its times, the position, which is the last column of the transformation; or, inverted, the
point that the transformation takes to the origin. -/
theorem C112_points (s : Pose K) (h : s.spline.WF) (hrot : ∀ θ, Orthogonal (s.rotation.toMatrix θ)) {a b : K} (ha : s.spline.tMin = .ok a)
    (hb : s.spline.tMax = .ok b) (hab : a < b) (dt : K) (hdt : 0 < dt) :
    ∃ ts, s.plotTimes dt = .ok ts ∧
      (∃ ps, s.plotPoints dt false = .ok ps ∧
        List.Forall₂ (fun t p => s.position t = .ok p ∧ ∃ T, s.transformation t = .ok T ∧ ∀ i : Fin 3, T i.castSucc 3 = p i) ts ps) ∧
      ∃ ps, s.plotPoints dt true = .ok ps ∧
        List.Forall₂ (fun t p => ∃ T, s.transformation t = .ok T ∧
          T.mulVec ![p 0, p 1, p 2, 1] = ![0, 0, 0, 1]) ts ps := by
  obtain ⟨ts, hts, -, -, -, hin, -⟩ := C112_times s ha hb hab dt hdt
  have hval : ∀ t ∈ ts, ∃ c, s.spline.eval t = .ok c := by
    intro t ht
    have hne := (C06_no_out_of_range s.spline h t 0).2
    have htol : (0 : K) < 1 / 10 ^ 10 := by positivity
    have hth := (C06_throws_iff_partial s.spline h t a b ha hb).not.2 (by
      push Not
      exact ⟨(hin t ht).1, by linarith [(hin t ht).2]⟩)
    cases he : s.spline.eval t with
    | ok c => exact ⟨c, rfl⟩
    | ub => exact absurd he hne
    | throws =>
      exfalso
      rw [tMin_eq h] at ha
      rw [tMax_eq h] at hb
      obtain ⟨i, hT, h1, h2⟩ := lookup_valid h t (by rw [Outcome.ok.inj ha]; exact (hin t ht).1)
        (by rw [Outcome.ok.inj hb]; show t < b + 1 / 10 ^ 10; linarith [(hin t ht).2])
      obtain ⟨B, hB, -, -⟩ := blockAt_ok h i h1 h2
      revert he
      unfold BSpline.eval BSpline.evalD evalDNat computeUAndTIndex
      rw [hT]
      simp only [Outcome.bind_ok]
      split_ifs <;> simp_all [hB]
  refine ⟨ts, hts, ?_, ?_⟩
  · unfold plotPoints
    rw [hts, Outcome.bind_ok, if_neg (by simp)]
    refine forAll_ok _ _ ts fun t ht => ?_
    obtain ⟨c, hc⟩ := hval t ht
    refine ⟨head c, by unfold position; rw [hc]; rfl, by unfold position; rw [hc]; rfl, curveValueToTransformation s.rotation c, ?_, ?_⟩
    · unfold transformation; rw [hc]; rfl
    · intro i
      rw [((C40_round_trip s.rotation).1 c).2.1 i]
      rfl
  · unfold plotPoints
    rw [hts, Outcome.bind_ok, if_pos rfl]
    refine forAll_ok _ _ ts fun t ht => ?_
    obtain ⟨c, hc⟩ := hval t ht
    have hT : s.transformation t = .ok (curveValueToTransformation s.rotation c) := by unfold transformation; rw [hc]; rfl
    obtain ⟨T', hT', hmul, -⟩ := (C40_inverse s hrot t).2.2 _ hT
    have hlast : T' 3 3 = 1 := by
      have hT'' := hT'
      unfold inverseTransformation at hT''
      rw [hc] at hT''
      have e := congrFun (congrFun hmul 3) 3
      rw [Matrix.mul_apply, Fin.sum_univ_four] at e
      have z := ((C40_round_trip s.rotation).1 c).2.2.1
      have z0 : curveValueToTransformation s.rotation c 3 0 = 0 := z 0
      have z1 : curveValueToTransformation s.rotation c 3 1 = 0 := z 1
      have z2 : curveValueToTransformation s.rotation c 3 2 = 0 := z 2
      rw [z0, z1, z2, ((C40_round_trip s.rotation).1 c).2.2.2] at e
      simpa using e
    refine ⟨topRight T', by rw [hT']; rfl, _, hT, ?_⟩
    have hv : (![topRight T' 0, topRight T' 1, topRight T' 2, 1] : Fin 4 → K) = fun i => T' i 3 := by
      ext i
      fin_cases i
      · rfl
      · rfl
      · rfl
      · exact hlast.symm
    rw [hv]
    ext i
    have e := congrFun (congrFun hmul i) 3
    rw [Matrix.mul_apply] at e
    rw [Matrix.mulVec, dotProduct]
    rw [e]
    fin_cases i <;> first | rfl | simp

/-- **C112, distances that are not positive.** Full statement: they are refused.  Zero is. -/
theorem C112_zero (s : Pose K) {a b : K} (ha : s.spline.tMin = .ok a) (hb : s.spline.tMax = .ok b) (invert : Bool) :
    s.plotPoints 0 invert = .throws := by
  unfold plotPoints plotTimes arange
  rw [ha, hb, Outcome.bind_ok, Outcome.bind_ok, if_pos rfl]
  rfl

/-- **C112, negative distances (violation).** For every negative distance the last point of the spline is drawn alone, without an error. -/
theorem C112_negative_violated (s : Pose K) {a b : K} (ha : s.spline.tMin = .ok a) (hb : s.spline.tMax = .ok b) (hab : a ≤ b) (dt : K)
    (hdt : dt < 0) : s.plotTimes dt = .ok [b] := by
  unfold plotTimes arange
  rw [ha, hb, Outcome.bind_ok, Outcome.bind_ok, if_neg hdt.ne]
  have : ⌈(b - a) / dt⌉ ≤ 0 := Int.ceil_le.2 (by
    rw [Int.cast_zero]; exact div_nonpos_of_nonneg_of_nonpos (by linarith) hdt.le)
  rw [Int.toNat_of_nonpos this]
  rfl

end

/-- A pose spline of order two that moves along a line, turned by a quarter, with times from 1 to 3. -/
def exPlot : Pose ℚ :=
  ⟨initializeBasisMatrices (BSpline.mk (K := ℚ) 2 [0, 1, 2, 3, 4] [![0, 0, 0, 0, 0, 0], ![1, 0, 0, 0, 0, 0], ![3, 0, 5, 0, 0, 0]] []),
    { toMatrix := fun _ => !![0, -1, 0; 1, 0, 0; 0, 0, 1], ofMatrix := fun _ => 0, sMatrix := fun _ => 1,
      rate := fun _ _ => 0, rateJacobian := fun _ _ => 0 }⟩

/-- C112 at work: distance 3/4 on an interval of length 2. -/
example : exPlot.plotTimes (3 / 4) = .ok [1, 7 / 4, 5 / 2, 3] ∧
    exPlot.plotPoints (3 / 4) false = .ok [![0, 0, 0], ![3 / 4, 0, 0], ![2, 0, 5 / 2], ![3, 0, 5]] ∧
    exPlot.plotPoints (3 / 4) true = .ok [![0, 0, 0], ![0, 3 / 4, 0], ![0, 2, -5 / 2], ![0, 3, -5]] ∧
    exPlot.plotTimes (-1) = .ok [3] := by
  decide +kernel

/-- Its hypotheses hold. -/
example : exPlot.spline.WF ∧ exPlot.spline.tMin = .ok 1 ∧ exPlot.spline.tMax = .ok 3 ∧
    ∀ θ, Orthogonal (exPlot.rotation.toMatrix θ) :=
  ⟨initializeBasisMatrices_wf _ (by decide) (by decide +kernel) (by decide) (by decide), by decide +kernel, by decide +kernel, fun θ => by
    show Orthogonal !![0, -1, 0; 1, 0, 0; 0, 0, 1]
    unfold Orthogonal
    decide +kernel⟩

end Verif.Pose
