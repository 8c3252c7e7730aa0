import Verif.Props.Views
import Verif.Lemmas.Shift
import Mathlib.Tactic.IntervalCases
import Mathlib.Algebra.BigOperators.Field

/-!
# Properties C11, C12, C13, C16, C18, C20: sizes, setters and basis vectors of `bsplines::BSpline`
-/

set_option linter.unusedSectionVars false

namespace Verif

open Finset Polynomial BSpline

variable {K : Type*} [Field K] [LinearOrder K] [IsStrictOrderedRing K] {D : ℕ}

/-! ## C11 -/

/-- **C11**, arithmetic: the knots required for `n` segments give `n` segments; knots = coefficients +
order; one more segment needs one more coefficient; the minimum number of knots is twice the order. -/
theorem C11_counts (order n : ℕ) (ho : 2 ≤ order) (hn : 1 ≤ n) :
    numValidTimeSegmentsOf order (numKnotsRequired order n) = n ∧
    numKnotsRequired order n = numCoefficientsRequired order n + order ∧
    numCoefficientsRequired order (n + 1) = numCoefficientsRequired order n + 1 ∧
    minimumKnotsRequired order = 2 * order ∧
    (∀ m, m < minimumKnotsRequired order → numValidTimeSegmentsOf order m = 0) := by
  unfold minimumKnotsRequired numValidTimeSegmentsOf numKnotsRequired numCoefficientsRequired
  refine ⟨by omega, rfl, by omega, by omega, fun m hm => by omega⟩

example : numKnotsRequired 4 3 = 10 ∧ numCoefficientsRequired 4 3 = 6 ∧
    numValidTimeSegmentsOf 4 10 = 3 := by decide

/-- **C11**, accepted splines: the coefficient count is the one required for the number of valid
segments, the knot count the one required for it, and there is at least one segment. -/
theorem C11_accepted (s s' : BSpline K D) (ho : 2 ≤ s.order) (kns : List K) (cs : List (Fin D → K))
    (h : s.setKnotsAndCoefficients kns cs = .ok s') :
    s'.order = s.order ∧ s'.knots = kns ∧ s'.coeffs = cs ∧ 1 ≤ s'.numValidTimeSegments ∧
      s'.coeffs.length = numCoefficientsRequired s'.order s'.numValidTimeSegments ∧
      s'.knots.length = numKnotsRequired s'.order s'.numValidTimeSegments := by
  obtain ⟨rfl, h1, h2⟩ := set_inv (by omega) h
  refine ⟨rfl, rfl, rfl, ?_, ?_, ?_⟩ <;>
  · simp only [initializeBasisMatrices, numValidTimeSegments, numValidTimeSegmentsOf,
      numCoefficientsRequired, numKnotsRequired]
    omega

/-- **C11**, tiling: the segment intervals start at the minimum time, end at the maximum time, each one
starts where the previous one ends and none has negative width; segment numbers outside the range are
rejected. -/
theorem C11_tiling (s : BSpline K D) (h : s.WF) :
    ∃ τ : ℕ → K, s.timeInterval = .ok (τ 0, τ s.numValidTimeSegments) ∧
      (∀ i, i < s.numValidTimeSegments → s.timeIntervalOf i = .ok (τ i, τ (i + 1)) ∧ τ i ≤ τ (i + 1)) ∧
      (∀ i : ℤ, i < 0 ∨ (s.numValidTimeSegments : ℤ) ≤ i → s.timeIntervalOf i = .throws) := by
  have hk := h.order_pos
  have hn := h.enough
  refine ⟨fun i => s.kn (s.order - 1 + i), ?_, ?_, ?_⟩
  · unfold timeInterval
    rw [tMin_eq h, tMax_eq h]
    simp only [Outcome.bind_ok, Nat.add_zero]
    unfold numValidTimeSegments numValidTimeSegmentsOf
    rw [show s.order - 1 + (s.knots.length + 1 - 2 * s.order) = s.knots.length - s.order by omega]
  · intro i hi
    have hi' := hi
    unfold numValidTimeSegments numValidTimeSegmentsOf at hi'
    refine ⟨?_, h.mono _ _ (by omega) (by omega)⟩
    unfold timeIntervalOf
    rw [if_neg (by unfold minimumKnotsRequired numKnotsRequired numCoefficientsRequired; omega),
      if_neg (by omega)]
    simp only [Int.toNat_natCast]
    rw [show s.order + i - 1 = s.order - 1 + i by omega,
      show s.order + i = s.order - 1 + (i + 1) by omega]
  · intro i hi
    unfold timeIntervalOf
    rw [if_neg (by unfold minimumKnotsRequired numKnotsRequired numCoefficientsRequired; omega),
      if_pos hi]

example : exSpline.WF ∧ exSpline.numValidTimeSegments = 3 ∧ exSpline.timeInterval = .ok (1, 5) ∧
    exSpline.timeIntervalOf 0 = .ok (1, 2) ∧ exSpline.timeIntervalOf 1 = .ok (2, 4) ∧
    exSpline.timeIntervalOf 2 = .ok (4, 5) ∧ exSpline.timeIntervalOf 3 = .throws :=
  ⟨exSpline_wf, by decide +kernel⟩

/-! ## C12 -/

/-- What a valid pair of knots and coefficients is. -/
def ValidInput (order : ℕ) (kns : List K) (cs : List (Fin D → K)) : Prop :=
  kns.Pairwise (· ≤ ·) ∧ 2 * order ≤ kns.length ∧ cs.length + order = kns.length

/-- **C12**, partial: *if the spline already holds as many knots as the new sequence has*, the input is
accepted exactly when it is valid, and otherwise rejected with an exception.
(Missing: any other previous state. The loop of the check runs over the length of the old knot
vector; see `C12_unsorted_accepted` and `C12_shorter_reads_out_of_range`.) -/
theorem C12_rejects_invalid_partial (s : BSpline K D) (ho : 2 ≤ s.order) (kns : List K)
    (cs : List (Fin D → K)) (hold : s.knots.length = kns.length) :
    (ValidInput s.order kns cs → ∃ s', s.setKnotsAndCoefficients kns cs = .ok s' ∧
      s'.knots = kns ∧ s'.coeffs = cs ∧ s'.order = s.order) ∧
    (¬ ValidInput s.order kns cs → s.setKnotsAndCoefficients kns cs = .throws) := by
  constructor
  · rintro ⟨h1, h2, h3⟩
    exact ⟨_, set_ok ho hold.le h1 h2 h3, rfl, rfl, rfl⟩
  · intro hv
    unfold setKnotsAndCoefficients verifyKnotSequence
    unfold minimumKnotsRequired numKnotsRequired numCoefficientsRequired
    split_ifs with h1 h2 h2
    · rfl
    · rfl
    · by_cases hp : ∃ j, 1 ≤ j ∧ j < 1 + (s.knots.length - 1) ∧
          ¬ kns.getD (j - 1) 0 ≤ kns.getD j 0
      · rw [(verifyLoop_ok kns _ 1 le_rfl (by omega)).2 hp]
        rfl
      · push Not at hp
        exfalso
        apply hv
        refine ⟨pairwise_of_adjacent kns fun j a1 a2 => hp j a1 (by omega), by omega, ?_⟩
        unfold numValidTimeSegmentsOf at h2
        omega
    · by_cases hp : ∃ j, 1 ≤ j ∧ j < 1 + (s.knots.length - 1) ∧
          ¬ kns.getD (j - 1) 0 ≤ kns.getD j 0
      · rw [(verifyLoop_ok kns _ 1 le_rfl (by omega)).2 hp]
        rfl
      · push Not at hp
        rw [(verifyLoop_ok kns _ 1 le_rfl (by omega)).1 hp]
        rfl

/-- **C12**, partial: valid input is accepted from any state that holds at most as many knots (in particular by
a newly created spline); too short a sequence is rejected in every state; a length that does not match
the coefficient count is never accepted, whatever the state. -/
theorem C12_sizes_partial (s : BSpline K D) (ho : 2 ≤ s.order) (kns : List K)
    (cs : List (Fin D → K)) :
    (s.knots.length ≤ kns.length → ValidInput s.order kns cs →
      ∃ s', s.setKnotsAndCoefficients kns cs = .ok s') ∧
    (kns.length < 2 * s.order → s.setKnotsAndCoefficients kns cs = .throws) ∧
    (cs.length + s.order ≠ kns.length → ∀ s', s.setKnotsAndCoefficients kns cs ≠ .ok s') := by
  refine ⟨fun h1 h2 => ⟨_, set_ok ho h1 h2.1 h2.2.1 h2.2.2⟩, ?_, ?_⟩
  · intro h
    unfold setKnotsAndCoefficients verifyKnotSequence
    rw [if_pos (by unfold minimumKnotsRequired numKnotsRequired numCoefficientsRequired; omega)]
    rfl
  · intro h s' hs
    exact h (set_inv (by omega) hs).2.2

example : ∃ (s : BSpline ℚ 2) (kns : List ℚ), 2 ≤ s.order ∧ s.knots.length = kns.length ∧
    s.setKnotsAndCoefficients kns exCoeffs = .throws :=
  ⟨exSpline, [0, 0, 1, 2, 4, 3, 7, 7], by decide, by decide, rfl⟩

/-- The full property C12 is false: a newly created spline accepts a decreasing knot sequence. -/
theorem C12_unsorted_accepted :
    ∃ s s' : BSpline ℚ 1, BSpline.create 2 = .ok s ∧
      ¬ ValidInput 2 ([3, 2, 1, 0] : List ℚ) ([![0], ![1]] : List (Fin 1 → ℚ)) ∧
      s.setKnotsAndCoefficients [3, 2, 1, 0] [![0], ![1]] = .ok s' :=
  ⟨⟨2, [], [], []⟩, _, rfl, fun h => by have := h.1; revert this; decide +kernel, rfl⟩

/-- The full property C12 is false: replacing a longer knot sequence by a valid shorter one reads the new
sequence out of range. -/
theorem C12_shorter_reads_out_of_range :
    exSpline.WF ∧
      ValidInput 3 ([0, 1, 2, 3, 4, 5] : List ℚ) ([![0, 0], ![1, 1], ![2, 2]] : List (Fin 2 → ℚ)) ∧
      exSpline.setKnotsAndCoefficients [0, 1, 2, 3, 4, 5] [![0, 0], ![1, 1], ![2, 2]] = .ub :=
  ⟨exSpline_wf, ⟨by decide +kernel, by decide, by decide⟩, rfl⟩

/-! ## C13 -/

theorem remove_kn (s : BSpline K D) (hn : 0 < s.knots.length) (hc : 0 < s.coeffs.length) (i : ℕ) :
    s.removeCurveSegment.kn i = s.kn (i + 1) := by
  unfold removeCurveSegment kn
  rw [if_pos ⟨hn, hc⟩]
  simp [List.getD_eq_getElem?_getD]

theorem remove_col (s : BSpline K D) (hn : 0 < s.knots.length) (hc : 0 < s.coeffs.length) (i : ℕ) :
    s.removeCurveSegment.col i = s.col (i + 1) := by
  unfold removeCurveSegment col
  rw [if_pos ⟨hn, hc⟩]
  simp [List.getD_eq_getElem?_getD]

theorem remove_sizes (s : BSpline K D) (hn : 0 < s.knots.length) (hc : 0 < s.coeffs.length) :
    s.removeCurveSegment.order = s.order ∧
      s.removeCurveSegment.knots.length = s.knots.length - 1 ∧
      s.removeCurveSegment.coeffs.length = s.coeffs.length - 1 ∧
      s.removeCurveSegment.basis = s.basis := by
  unfold removeCurveSegment
  rw [if_pos ⟨hn, hc⟩]
  simp

/-- **C13**, interval: removing a segment of a spline with at least two segments moves the start of the
valid interval to the end of the first segment and keeps its end; one segment fewer is left. -/
theorem C13_interval (s : BSpline K D) (h : s.WF) (h2 : 2 ≤ s.numValidTimeSegments) (a b tmax : K)
    (h0 : s.timeIntervalOf 0 = .ok (a, b)) (hmax : s.tMax = .ok tmax) :
    s.removeCurveSegment.tMin = .ok b ∧ s.removeCurveSegment.tMax = .ok tmax ∧
      s.removeCurveSegment.numValidTimeSegments + 1 = s.numValidTimeSegments := by
  have hk := h.order_pos
  have hn := h.enough
  have hc := h.coeffs_len
  unfold numValidTimeSegments numValidTimeSegmentsOf at h2
  obtain ⟨e1, e2, e3, -⟩ := remove_sizes s (by omega) (by omega)
  rw [tMax_eq h] at hmax
  unfold timeIntervalOf at h0
  rw [if_neg (by unfold minimumKnotsRequired numKnotsRequired numCoefficientsRequired; omega),
    if_neg (by unfold numValidTimeSegments numValidTimeSegmentsOf; push Not; constructor <;> omega)] at h0
  have h0 := Prod.mk.inj (Outcome.ok.inj h0)
  simp only [Int.toNat_zero, Nat.add_zero] at h0
  refine ⟨?_, ?_, ?_⟩
  · unfold tMin minimumKnotsRequired numKnotsRequired numCoefficientsRequired
    rw [e1, e2, if_neg (by omega), remove_kn s (by omega) (by omega), ← h0.2]
    congr 2; omega
  · unfold tMax minimumKnotsRequired numKnotsRequired numCoefficientsRequired
    rw [e1, e2, if_neg (by omega), remove_kn s (by omega) (by omega), ← Outcome.ok.inj hmax]
    congr 2; omega
  · unfold numValidTimeSegments numValidTimeSegmentsOf
    rw [e1, e2]; omega

/-- Uniformly spaced knots. -/
def UniformKnots (s : BSpline K D) : Prop :=
  ∃ δ : K, 0 < δ ∧ ∀ i, i + 1 < s.knots.length → s.kn (i + 1) = s.kn i + δ

theorem uniform_diff {s : BSpline K D} {δ : K}
    (h : ∀ i, i + 1 < s.knots.length → s.kn (i + 1) = s.kn i + δ) :
    ∀ m, m < s.knots.length → s.kn m = s.kn 0 + m * δ := by
  intro m
  induction m with
  | zero => intro _; simp
  | succ m ih =>
    intro hm
    rw [h m hm, ih (by omega)]
    push_cast; ring

/-- One removal: the invariant and the values. -/
theorem remove_one (s : BSpline K D) (h : s.WF) (hu : UniformKnots s)
    (h2 : 2 ≤ s.numValidTimeSegments) :
    s.removeCurveSegment.WF ∧ UniformKnots s.removeCurveSegment ∧
      ∀ t, s.removeCurveSegment.Admissible t → s.Admissible t ∧
        ∀ der : ℤ, s.removeCurveSegment.evalD t der = s.evalD t der := by
  have hk := h.order_pos
  have hn := h.enough
  have hc := h.coeffs_len
  have hm := h.mono
  unfold numValidTimeSegments numValidTimeSegmentsOf at h2
  obtain ⟨e1, e2, e3, e4⟩ := remove_sizes s (by omega) (by omega)
  have ekn := remove_kn s (by omega) (by omega)
  have ecol := remove_col s (by omega) (by omega)
  obtain ⟨δ, hδ, hun⟩ := hu
  have hdiff := uniform_diff hun
  have hwf : s.removeCurveSegment.WF := by
    refine ⟨by rw [e1]; exact hk, ?_, by rw [e1, e2]; omega, by rw [e1, e2, e3]; omega, ?_, ?_⟩
    · unfold removeCurveSegment
      rw [if_pos (by omega)]
      exact h.sorted.tail
    · rw [e1, e2, e4]; have := h.basis_len; omega
    · intro b B hb hB r hr c hc'
      rw [e1, e2] at hb
      rw [e4] at hB
      rw [e1] at hr hc'
      rw [h.basis_eq b B (by omega) hB r hr c hc', e1]
      have : basisM s.kn (b + s.order - 1) s.order
          = basisM s.removeCurveSegment.kn (b + s.order - 1) s.order := by
        apply basisM_congr
        intro k' x hk1 hk2 hx
        have f : ∀ m, m + 1 < s.knots.length → s.removeCurveSegment.kn m = s.kn m + δ := by
          intro m hm; rw [ekn, hun m hm]
        unfold d0 d1
        simp only []
        rw [f (b + s.order - 1) (by omega), f (b + s.order - 1 + 1) (by omega),
          f (b + s.order - 1 + 2 + x - k') (by omega),
          f (b + s.order - 1 + 2 + x - k' + k' - 1) (by omega)]
        simp only [add_sub_add_right_eq_sub, and_self]
      rw [this]
  refine ⟨hwf, ⟨δ, hδ, ?_⟩, ?_⟩
  · intro i hi
    rw [e2] at hi
    rw [ekn, ekn, hun (i + 1) (by omega)]
  · intro t ha
    have ha' : s.Admissible t := by
      obtain ⟨a1, a2, a3⟩ := ha
      rw [e1, ekn] at a1
      rw [e1, e2, ekn] at a2
      rw [e1, e2, ekn, ekn] at a3
      rw [show s.order - 1 + 1 = s.order by omega] at a1
      have i1 : s.knots.length - 1 - s.order + 1 = s.knots.length - s.order := by omega
      have i2 : s.knots.length - 1 - s.order - 1 + 1 = s.knots.length - s.order - 1 := by omega
      rw [i1] at a2
      rw [i1, i2] at a3
      exact ⟨(hm (s.order - 1) s.order (by omega) (by omega)).trans a1, a2, a3⟩
    refine ⟨ha', ?_⟩
    intro der
    unfold evalD
    split_ifs with hd
    · rfl
    obtain ⟨i, -, hi⟩ := lookup hwf t ha
    have hlow := hi.lower
    have hup := hi.upper
    rw [e1] at hlow
    rw [e1, e2] at hup
    have hi' : s.InSegment t (i + 1) := by
      refine ⟨by omega, by omega, ?_, ?_, ?_⟩
      · have := hi.pos; rwa [ekn, ekn] at this
      · have := hi.left; rwa [ekn] at this
      · have := hi.right
        rw [ekn, e1, e2] at this
        rcases this with h' | ⟨h1, h2⟩
        · exact Or.inl h'
        · exact Or.inr ⟨h1, by omega⟩
    rw [evalDNat_of_inSegment hwf ha hi, evalDNat_of_inSegment h ha' hi']
    congr 1
    funext d
    rw [e1, e3]
    obtain ⟨C', hC'⟩ : ∃ C', s.coeffs.length = C' + 1 := ⟨s.coeffs.length - 1, by omega⟩
    rw [hC', Nat.add_sub_cancel, sum_range_succ']
    have hz : piece s.kn (i + 1) (s.order - 1) 0 = 0 := piece_zero_of_gt _ _ _ _ (by omega)
    rw [hz, iterate_derivative_zero, eval_zero, mul_zero, add_zero]
    refine sum_congr rfl fun j hj => ?_
    rw [ecol]
    have hkn : s.removeCurveSegment.kn = fun m => s.kn (m + 1) := funext ekn
    rw [hkn, piece_shift]

/-- Removing `m` segments. -/
def removeMany (s : BSpline K D) : ℕ → BSpline K D
  | 0 => s
  | (m + 1) => (removeMany s m).removeCurveSegment

/-- **C13**, partial: *for uniformly spaced knots*, after any number `m` of removals that leaves a segment the
curve and all its derivatives are unchanged on the remaining interval.  (Missing: non-uniform knots,
where the code keeps the basis matrices of the wrong segments; see
`C13_remove_changes_nonuniform_curve`.) -/
theorem C13_remove_keeps_curve_partial (s : BSpline K D) (h : s.WF) (hu : UniformKnots s) (m : ℕ)
    (hm : m < s.numValidTimeSegments) (t : K) (ha : (removeMany s m).Admissible t) (der : ℤ) :
    (removeMany s m).evalD t der = s.evalD t der := by
  have key : ∀ m, m < s.numValidTimeSegments →
      (removeMany s m).WF ∧ UniformKnots (removeMany s m) ∧
        (removeMany s m).numValidTimeSegments + m = s.numValidTimeSegments ∧
        ∀ t, (removeMany s m).Admissible t → s.Admissible t ∧
          ∀ der : ℤ, (removeMany s m).evalD t der = s.evalD t der := by
    intro m
    induction m with
    | zero => intro _; exact ⟨h, hu, rfl, fun t ht => ⟨ht, fun _ => rfl⟩⟩
    | succ m ih =>
      intro hm
      obtain ⟨i1, i2, i3, i4⟩ := ih (by omega)
      obtain ⟨j1, j2, j3⟩ := remove_one (removeMany s m) i1 i2 (by omega)
      refine ⟨j1, j2, ?_, ?_⟩
      · have hk := i1.order_pos
        have hn := i1.enough
        have hc := i1.coeffs_len
        obtain ⟨e1, e2, -, -⟩ := remove_sizes (removeMany s m) (by omega) (by omega)
        change (removeMany s m).removeCurveSegment.numValidTimeSegments + (m + 1) = _
        unfold numValidTimeSegments numValidTimeSegmentsOf at i3 hm ⊢
        rw [e1, e2]; omega
      · intro t ht
        obtain ⟨k1, k2⟩ := j3 t ht
        obtain ⟨l1, l2⟩ := i4 t k1
        exact ⟨l1, fun der => (k2 der).trans (l2 der)⟩
  exact ((key m hm).2.2.2 t ha).2 der

/-- A uniform spline of order 3 with three segments. -/
def exUniform : BSpline ℚ 1 :=
  initializeBasisMatrices ⟨3, [0, 1, 2, 3, 4, 5, 6, 7], [![1], ![4], ![-2], ![0], ![6]], []⟩

example : exUniform.WF ∧ UniformKnots exUniform ∧ 2 < exUniform.numValidTimeSegments ∧
    (removeMany exUniform 2).Admissible (9/2) ∧ exUniform.evalD (9/2) 1 = .ok ![4] := by
  refine ⟨initializeBasisMatrices_wf _ (by decide) (by decide +kernel) (by decide) (by decide),
    ⟨1, by norm_num, ?_⟩, by decide +kernel, admissible_of_wide _ (by decide +kernel) (by decide +kernel)
      (by decide +kernel), by decide +kernel⟩
  intro i hi
  have : i + 1 < 8 := hi
  have : i < 7 := by omega
  interval_cases i <;> decide +kernel

/-- The full property C13 is false: on a non-uniform spline, removing the first segment changes the curve
on the remaining interval. -/
theorem C13_remove_changes_nonuniform_curve :
    exSpline.WF ∧ exSpline.removeCurveSegment.tMin = .ok 2 ∧ exSpline.removeCurveSegment.tMax = .ok 5 ∧
      exSpline.removeCurveSegment.eval 3 = .ok ![-7/8, 25/6] ∧ exSpline.eval 3 = .ok ![-1/6, 23/6] :=
  ⟨exSpline_wf, by decide +kernel, by decide +kernel, by decide +kernel, by decide +kernel⟩

/-- Removing the only segment leaves a spline whose interval can no longer be queried. -/
theorem C13_removing_only_segment (s : BSpline K D) (h : s.WF) (h1 : s.numValidTimeSegments = 1) :
    s.removeCurveSegment.tMin = .throws := by
  have hk := h.order_pos
  have hn := h.enough
  have hc := h.coeffs_len
  unfold numValidTimeSegments numValidTimeSegmentsOf at h1
  obtain ⟨e1, e2, -, -⟩ := remove_sizes s (by omega) (by omega)
  unfold tMin minimumKnotsRequired numKnotsRequired numCoefficientsRequired
  rw [e1, e2, if_pos (by omega)]

/-! ## C16 -/

theorem linSpaced_getD (n : ℕ) (lo hi : K) (i : ℕ) (h : i < n) :
    (linSpaced n lo hi).getD i 0 = lo + i * ((hi - lo) / ((n : K) - 1)) := by
  unfold linSpaced
  rw [List.getD_eq_getElem?_getD, List.getElem?_map, List.getElem?_range h]
  rfl

/-- The knots written by the constant initialisation. -/
theorem const_knots (k n : ℕ) (hk : 2 ≤ k) (hn : 1 ≤ n) (tmin tmax : K) (i : ℕ)
    (hi : i < numKnotsRequired k n) :
    (linSpaced (numKnotsRequired k n) (tmin - ((k : K) - 1) * ((tmax - tmin) / (n : K)))
      (tmax + ((k : K) - 1) * ((tmax - tmin) / (n : K)))).getD i 0
      = tmin + ((i : K) - ((k : K) - 1)) * ((tmax - tmin) / (n : K)) := by
  rw [linSpaced_getD _ _ _ _ hi]
  have hn0 : (n : K) ≠ 0 := by exact_mod_cast (by omega : n ≠ 0)
  have e : ((numKnotsRequired k n : ℕ) : K) - 1 = (n : K) + 2 * ((k : K) - 1) := by
    unfold numKnotsRequired numCoefficientsRequired
    rw [show n + k - 1 + k = n + (k - 1) + k by omega]
    push_cast [Nat.cast_sub (show 1 ≤ k by omega)]
    ring
  have hpos : (0 : K) < (n : K) + 2 * ((k : K) - 1) := by
    have h1 : (1 : K) ≤ n := by exact_mod_cast hn
    have h2 : (2 : K) ≤ k := by exact_mod_cast hk
    linarith
  rw [e]
  have : (tmax + ((k : K) - 1) * ((tmax - tmin) / (n : K))
      - (tmin - ((k : K) - 1) * ((tmax - tmin) / (n : K)))) / ((n : K) + 2 * ((k : K) - 1))
      = (tmax - tmin) / n := by
    rw [div_eq_iff hpos.ne']
    field_simp
    ring
  rw [this]
  ring

/-- **C16**: the constant initialisation (of a spline that holds no more knots than it is going to hold, e.g. a
new one) is accepted and gives the requested interval and number of segments, uniformly spaced
knots, the constant at every valid time and zero for every derivative of positive order. Empty intervals
and non-positive segment counts are rejected. -/
theorem C16_constant_init (s : BSpline K D) (ho : 2 ≤ s.order) (tmin tmax : K) (n : ℤ)
    (c : Fin D → K) (hD : 1 ≤ D) (hold : s.knots.length ≤ n.toNat + 2 * s.order - 1) :
    (tmin < tmax → 1 ≤ n → ∃ s', s.initConstantSpline tmin tmax n c = .ok s' ∧ s'.WF ∧
      UniformKnots s' ∧ s'.timeInterval = .ok (tmin, tmax) ∧ (s'.numValidTimeSegments : ℤ) = n ∧
      ∀ t, s'.Admissible t → s'.eval t = .ok c ∧ ∀ der : ℤ, 1 ≤ der → s'.evalD t der = .ok 0) ∧
    (¬ (tmin < tmax ∧ 1 ≤ n) → s.initConstantSpline tmin tmax n c = .throws) := by
  constructor
  swap
  · intro hnot
    unfold initConstantSpline
    split_ifs with h1 h2 h3
    · rfl
    · rfl
    · rfl
    · exact absurd ⟨not_le.1 h1, by omega⟩ hnot
  intro htt hn
  obtain ⟨m, rfl⟩ : ∃ m : ℕ, n = m := ⟨n.toNat, by omega⟩
  have hm1 : 1 ≤ m := by omega
  simp only [Int.toNat_natCast] at hold
  set kns := linSpaced (numKnotsRequired s.order m)
    (tmin - ((s.order : K) - 1) * ((tmax - tmin) / (m : K)))
    (tmax + ((s.order : K) - 1) * ((tmax - tmin) / (m : K))) with hkns
  have hlen : kns.length = numKnotsRequired s.order m := by simp [hkns, linSpaced]
  have hlen' : kns.length = m + 2 * s.order - 1 := by
    rw [hlen]; unfold numKnotsRequired numCoefficientsRequired; omega
  have hδ : 0 < (tmax - tmin) / (m : K) := by
    apply div_pos (by linarith); exact_mod_cast (by omega : 0 < m)
  have hkn : ∀ i, i < kns.length → kns.getD i 0
      = tmin + ((i : K) - ((s.order : K) - 1)) * ((tmax - tmin) / (m : K)) := by
    intro i hi
    exact const_knots s.order m ho hm1 tmin tmax i (by rw [← hlen]; exact hi)
  have hsorted : kns.Pairwise (· ≤ ·) := by
    apply pairwise_of_adjacent
    intro j h1 h2
    rw [hkn _ (by omega), hkn _ h2]
    have : ((j - 1 : ℕ) : K) = (j : K) - 1 := by push_cast [Nat.cast_sub h1]; ring
    rw [this]
    nlinarith
  have hset := set_ok ho (kns := kns)
    (cs := List.replicate (numCoefficientsRequired s.order m) c) (by omega) hsorted (by omega)
    (by rw [List.length_replicate, hlen]; rfl)
  set s' := initializeBasisMatrices
    { s with knots := kns, coeffs := List.replicate (numCoefficientsRequired s.order m) c } with hs'
  have hwf : s'.WF := set_wf ho hsorted hset
  have hord : s'.order = s.order := rfl
  have hkk : s'.knots = kns := rfl
  have hkn' : ∀ i, s'.kn i = kns.getD i 0 := fun i => rfl
  refine ⟨s', ?_, hwf, ⟨(tmax - tmin) / m, hδ, ?_⟩, ?_, ?_, ?_⟩
  · unfold initConstantSpline
    rw [if_neg (not_le.2 htt), if_neg (by omega), if_neg (by omega)]
    exact hset
  · intro i hi
    rw [hkk] at hi
    rw [hkn', hkn', hkn _ hi, hkn _ (by omega)]
    push_cast; ring
  · unfold timeInterval
    rw [tMin_eq hwf, tMax_eq hwf, hkn', hkn', hkn _ (by rw [hord]; omega),
      hkn _ (by rw [hord, hkk]; omega)]
    simp only [Outcome.bind_ok]
    have hm0 : (m : K) ≠ 0 := by exact_mod_cast (by omega : m ≠ 0)
    have c1 : ((s'.order - 1 : ℕ) : K) = (s.order : K) - 1 := by
      rw [hord]; push_cast [Nat.cast_sub (show 1 ≤ s.order by omega)]; ring
    have c2 : ((s'.knots.length - s'.order : ℕ) : K) = (m : K) + ((s.order : K) - 1) := by
      rw [hord, hkk, hlen', show m + 2 * s.order - 1 - s.order = m + (s.order - 1) by omega]
      push_cast [Nat.cast_sub (show 1 ≤ s.order by omega)]; ring
    rw [c1, c2]
    congr 2
    · ring
    · field_simp; ring
  · unfold numValidTimeSegments numValidTimeSegmentsOf
    rw [hkk, hord, hlen']; omega
  · intro t ha
    obtain ⟨i, hT, hi⟩ := lookup hwf t ha
    have key : ∀ der, s'.evalDNat t der = .ok (fun d => c d * (if der = 0 then 1 else 0)) := by
      intro der
      rw [evalDNat_of_inSegment hwf ha hi, ← sum_range_derivative hwf i der hi.lower hi.upper hi.pos t]
      congr 1
      funext d
      rw [mul_sum]
      refine sum_congr rfl fun j hj => ?_
      have hj' := mem_range.1 hj
      have : s'.col j = c := by
        have hj2 : j < numCoefficientsRequired s.order m := by
          have : s'.coeffs.length = numCoefficientsRequired s.order m := by
            change (List.replicate (numCoefficientsRequired s.order m) c).length = _
            simp
          omega
        change (List.replicate (numCoefficientsRequired s.order m) c).getD j 0 = c
        simp [List.getD_eq_getElem?_getD, hj2]
      rw [this]
    constructor
    · unfold BSpline.eval evalD
      simp only [lt_irrefl, if_false, Int.toNat_zero]
      rw [key 0]
      simp
    · intro der hd
      unfold evalD
      rw [if_neg (by omega), key, if_neg (by omega)]
      simp only [mul_zero]
      rfl

example : ((⟨4, [], [], []⟩ : BSpline ℚ 2).initConstantSpline 1 3 5 ![7, -1]).bind
    (fun s => s.timeInterval) = .ok (1, 3) ∧
    ((⟨4, [], [], []⟩ : BSpline ℚ 2).initConstantSpline 1 3 5 ![7, -1]).bind
    (fun s => s.eval (5/2)) = .ok ![7, -1] ∧
    ((⟨4, [], [], []⟩ : BSpline ℚ 2).initConstantSpline 1 3 5 ![7, -1]).bind
    (fun s => s.eval 3) = .ok ![7, -1] := by decide +kernel

/-! ## Reachable splines -/

/-- The splines reachable by constructing a spline and calling setters (with nondecreasing knots), coefficient
writes and the constant initialisation, in any order and any number. -/
inductive Reachable : BSpline K D → Prop
  | create (order : ℕ) (s : BSpline K D) : BSpline.create order = .ok s → Reachable s
  | set (s s' : BSpline K D) (kns : List K) (cs : List (Fin D → K)) : Reachable s →
      kns.Pairwise (· ≤ ·) → s.setKnotsAndCoefficients kns cs = .ok s' → Reachable s'
  | write (s s' : BSpline K D) (w : Write K D) : Reachable s → w.run s = .ok s' → Reachable s'
  | const (s s' : BSpline K D) (tmin tmax : K) (n : ℤ) (c : Fin D → K) : Reachable s →
      s.initConstantSpline tmin tmax n c = .ok s' → Reachable s'

theorem const_sorted (k n : ℕ) (hk : 2 ≤ k) (hn : 1 ≤ n) (tmin tmax : K) (h : tmin < tmax) :
    (linSpaced (numKnotsRequired k n) (tmin - ((k : K) - 1) * ((tmax - tmin) / (n : K)))
      (tmax + ((k : K) - 1) * ((tmax - tmin) / (n : K)))).Pairwise (· ≤ ·) := by
  apply pairwise_of_adjacent
  intro j h1 h2
  have hl : ∀ lo hi : K, (linSpaced (numKnotsRequired k n) lo hi).length = numKnotsRequired k n := by
    intro lo hi; simp [linSpaced]
  rw [hl] at h2
  rw [const_knots k n hk hn tmin tmax _ (by omega), const_knots k n hk hn tmin tmax _ h2]
  have : ((j - 1 : ℕ) : K) = (j : K) - 1 := by push_cast [Nat.cast_sub h1]; ring
  rw [this]
  have hδ : 0 < (tmax - tmin) / (n : K) := by
    apply div_pos (by linarith); exact_mod_cast (by omega : 0 < n)
  nlinarith

/-- **C11** for all histories: every reachable spline is either still empty (then every time query raises an
exception) or consistent: enough nondecreasing knots, matching coefficient count, current basis
matrices. -/
theorem C11_reachable_consistent (s : BSpline K D) (h : Reachable s) :
    2 ≤ s.order ∧ ((s.knots = [] ∧ s.coeffs = [] ∧ ∀ t, s.computeTIndex t = .throws) ∨ s.WF) := by
  have hempty : ∀ s : BSpline K D, 2 ≤ s.order → s.knots = [] → ∀ t, s.computeTIndex t = .throws := by
    intro s ho hs t
    unfold computeTIndex tMin minimumKnotsRequired numKnotsRequired numCoefficientsRequired
    rw [hs, if_pos (by simp; omega)]
    rfl
  induction h with
  | create order s h =>
    unfold create at h
    split_ifs at h with ho
    have h := (Outcome.ok.inj h).symm
    subst h
    exact ⟨ho, Or.inl ⟨rfl, rfl, hempty _ ho rfl⟩⟩
  | set s s' kns cs _ hs h ih =>
    have hwf := set_wf ih.1 hs h
    exact ⟨hwf.order_pos, Or.inr hwf⟩
  | write s s' w _ h ih =>
    obtain ⟨e1, e2, e3, e4, -⟩ := write_one s s' w h
    refine ⟨by rw [e1]; exact ih.1, ?_⟩
    rcases ih.2 with ⟨h1, h2, h3⟩ | h
    · left
      refine ⟨by rw [e2]; exact h1, ?_, hempty _ (by rw [e1]; exact ih.1) (by rw [e2]; exact h1)⟩
      rw [h2] at e4
      exact List.eq_nil_of_length_eq_zero e4
    · right
      have := h.withCoeffs s'.coeffs e4
      have hs : s' = { s with coeffs := s'.coeffs } := by
        cases s'; simp only at e1 e2 e3; subst e1 e2 e3; rfl
      rw [hs]; exact this
  | const s s' tmin tmax n c _ h ih =>
    unfold initConstantSpline at h
    split_ifs at h with h1 h2 h3
    have hwf := set_wf ih.1 (const_sorted s.order n.toNat ih.1 (by omega) tmin tmax (not_le.1 h1)) h
    exact ⟨hwf.order_pos, Or.inr hwf⟩

example : Reachable exSpline :=
  .set ⟨3, [], [], []⟩ _ exKnots exCoeffs (.create 3 _ rfl) (by decide +kernel) rfl

/-! ## C18 -/

/-- **C18**: if `s'` holds the knots of `s` scaled by `a > 0` and shifted by `b`, and the same
coefficients, then its `der`-th derivative at `a t + b` is that of `s` at `t` divided by `a ^ der`.
(`Admissible`: the tolerance `1e-10` of the code is not scaled, so times closer than that to the end need a
last segment that wide.) -/
theorem C18_time_scaling (s s' : BSpline K D) (h : s.WF) (h' : s'.WF) (a b : K) (ha : 0 < a)
    (ho : s'.order = s.order) (hkn : s'.knots = s.knots.map (fun x => a * x + b))
    (hc : s'.coeffs = s.coeffs) (t : K) (ht : s.Admissible t) (ht' : s'.Admissible (a * t + b))
    (der : ℕ) :
    s'.evalD (a * t + b) der = (s.evalD t der).map (fun v d => v d / a ^ der) := by
  have hk := h.order_pos
  have hn := h.enough
  have hcl := h.coeffs_len
  have hlen : s'.knots.length = s.knots.length := by rw [hkn, List.length_map]
  have hkf : ∀ m, m < s.knots.length → s'.kn m = a * s.kn m + b := by
    intro m hm
    unfold kn
    rw [hkn]
    simp [List.getD_eq_getElem?_getD, hm]
  obtain ⟨i, -, hi⟩ := lookup h t ht
  have hu := hi.upper
  have hi' : s'.InSegment (a * t + b) i := by
    refine ⟨by rw [ho]; exact hi.lower, by rw [ho, hlen]; exact hi.upper, ?_, ?_, ?_⟩
    · rw [hkf _ (by omega), hkf _ (by omega)]
      have := mul_lt_mul_of_pos_left hi.pos ha; linarith
    · rw [hkf _ (by omega)]
      have := mul_le_mul_of_nonneg_left hi.left ha.le; linarith
    · rw [hkf _ (by omega), hlen, ho]
      rcases hi.right with h1 | ⟨h1, h2⟩
      · left; have := mul_lt_mul_of_pos_left h1 ha; linarith
      · right; exact ⟨by rw [h1], h2⟩
  unfold evalD
  rw [if_neg (by omega), if_neg (by omega)]
  simp only [Int.toNat_natCast]
  rw [evalDNat_of_inSegment h' ht' hi', evalDNat_of_inSegment h ht hi]
  simp only [Outcome.map_ok]
  congr 1
  funext d
  rw [hc, ho, sum_div]
  refine sum_congr rfl fun j hj => ?_
  have hj' := mem_range.1 hj
  have hcol : s'.col j = s.col j := by unfold col; rw [hc]
  rw [hcol, piece_scale s.kn s'.kn a b ha s.knots.length i hkf (s.order - 1) j (by omega),
    iterate_derivative_comp_linear]
  simp only [eval_mul, eval_C, eval_comp, eval_add, eval_X]
  have : a ^ der ≠ 0 := pow_ne_zero _ ha.ne'
  field_simp

/-- The witness spline with knots scaled by 3 and shifted by -2. -/
def exScaled : BSpline ℚ 2 :=
  initializeBasisMatrices ⟨3, exKnots.map (fun x => 3 * x + -2), exCoeffs, []⟩

example : exSpline.WF ∧ exScaled.WF ∧ exScaled.knots = exSpline.knots.map (fun x => 3 * x + -2) ∧
    exSpline.Admissible (9/2) ∧ exScaled.Admissible (3 * (9/2) + -2) ∧
    exSpline.evalD (9/2) 1 = .ok ![2/3, -4/3] ∧ exScaled.evalD (3 * (9/2) + -2) 1 = .ok ![2/9, -4/9] :=
  ⟨exSpline_wf, initializeBasisMatrices_wf _ (by decide) (by decide +kernel) (by decide) (by decide), rfl,
    exSpline_admissible _ (by norm_num) (by norm_num),
    admissible_of_wide _ (by decide +kernel) (by decide +kernel) (by decide +kernel),
    by decide +kernel, by decide +kernel⟩

/-! ## C20 -/

/-- Value of the basis function of coefficient `j` at `t` (continued from the left at the end of the valid
interval): the specification of the weights. -/
def Spec.weight (k : ℕ) (kn : ℕ → K) (tmax : K) (j : ℕ) (t : K) : K :=
  if t < tmax then Spec.N kn (k - 1) j t else Spec.NLeft kn (k - 1) j t

theorem weight_eq_piece' {s : BSpline K D} (h : s.WF) {t : K} (_ha : s.Admissible t) {i : ℕ}
    (hi : s.InSegment t i) (j : ℕ) (hj : j < s.coeffs.length) :
    Spec.weight s.order s.kn (s.kn (s.knots.length - s.order)) j t
      = (piece s.kn i (s.order - 1) j).eval t := by
  have hk := h.order_pos
  have hn := h.enough
  have hc := h.coeffs_len
  have hm := h.mono
  have hiu := hi.upper
  unfold Spec.weight
  split_ifs with ht
  · rw [N_eq_piece s.kn i t (s.knots.length - 1) ?_ _ _ (by omega)]
    intro j hj
    constructor
    · rintro ⟨h1, h2⟩
      by_contra hne
      rcases Nat.lt_or_gt_of_ne hne with hlt | hlt
      · have := hm (j + 1) i (by omega) (by omega); linarith [hi.left]
      · have := hm (i + 1) j (by omega) (by omega)
        have := hi.le
        rcases hi.right with h' | ⟨h3, h4⟩
        · linarith
        · rw [h4] at h3; rw [h3] at ht; exact lt_irrefl _ ht
    · rintro rfl
      refine ⟨hi.left, ?_⟩
      rcases hi.right with h' | ⟨h3, h4⟩
      · exact h'
      · rw [h4] at h3; rw [h3] at ht; exact absurd ht (lt_irrefl _)
  · have hti : t = s.kn (i + 1) := by
      rcases hi.right with h' | ⟨h1, h2⟩
      · have := hm (i + 1) _ hi.upper (by omega)
        exact absurd (h'.trans_le this) ht
      · exact h1
    rw [NLeft_eq_piece s.kn i t (s.knots.length - 1) ?_ _ _ (by omega)]
    intro j hj
    constructor
    · rintro ⟨h1, h2⟩
      by_contra hne
      rcases Nat.lt_or_gt_of_ne hne with hlt | hlt
      · have := hm (j + 1) i (by omega) (by omega); linarith [hi.pos]
      · have := hm (i + 1) j (by omega) (by omega); linarith
    · rintro rfl
      have := hi.pos
      exact ⟨by rw [hti]; exact this, hti.le⟩

/-- The lookup facts used for both vectors. -/
theorem biVector_facts {s : BSpline K D} (h : s.WF) {t : K} (ha : s.Admissible t) :
    ∃ i bi, s.InSegment t i ∧ s.segmentIndex t = .ok (i + 1 - s.order) ∧
      s.getLocalBiVector t = .ok bi ∧
      ∀ c, c < s.order → bi c
        = Spec.weight s.order s.kn (s.kn (s.knots.length - s.order)) (i + 1 - s.order + c) t := by
  have hk := h.order_pos
  have hn := h.enough
  have hcl := h.coeffs_len
  obtain ⟨i, hT, hi⟩ := lookup h t ha
  have hl := hi.lower
  have hu := hi.upper
  obtain ⟨bi, hb, hbe⟩ := localBi_eq h t i hl hu hi.pos hT
  refine ⟨i, bi, hi, ?_, hb, ?_⟩
  · unfold segmentIndex bidxOf
    rw [hT]
    simp only [Outcome.bind_ok]
    rw [if_neg (by omega)]
  · intro c hc
    rw [hbe c hc, weight_eq_piece' h ha hi _ (by omega)]

theorem weight_zero {s : BSpline K D} (h : s.WF) {t : K} (ha : s.Admissible t) {i : ℕ}
    (hi : s.InSegment t i) (j : ℕ) (hj : j < s.coeffs.length) (hz : j + s.order < i + 1 ∨ i < j) :
    Spec.weight s.order s.kn (s.kn (s.knots.length - s.order)) j t = 0 := by
  have hk := h.order_pos
  rw [weight_eq_piece' h ha hi j hj]
  rcases hz with hz | hz
  · rw [piece_zero_of_gt _ _ _ _ (by omega), eval_zero]
  · rw [piece_zero_of_lt _ _ _ _ hz, eval_zero]

/-- **C20**, partial: entry `j` of the returned vector is the basis function value of coefficient `j`, for every
`j` *below the number of valid segments*, and the weighted sum over *all* coefficients of these basis
function values is the curve value.  (Missing: the entries for the last `order - 1` coefficients:
the returned vector has one entry per segment instead of one per coefficient, see
`C20_vector_is_truncated`.) -/
theorem C20_basis_vector_partial (s : BSpline K D) (h : s.WF) (t tmax : K) (ha : s.Admissible t)
    (hmax : s.tMax = .ok tmax) :
    ∃ v, s.getBiVector t = .ok v ∧ v.length = s.numValidTimeSegments ∧
      (∀ j, j < s.numValidTimeSegments → v.getD j 0 = Spec.weight s.order s.kn tmax j t) ∧
      s.eval t = .ok (fun d => ∑ j ∈ range s.coeffs.length,
        s.col j d * Spec.weight s.order s.kn tmax j t) := by
  have hk := h.order_pos
  have hn := h.enough
  have hcl := h.coeffs_len
  rw [tMax_eq h] at hmax
  have hmax := (Outcome.ok.inj hmax).symm
  subst hmax
  obtain ⟨i, bi, hi, hs, hb, hbe⟩ := biVector_facts h ha
  have hl := hi.lower
  have hu := hi.upper
  refine ⟨(List.range s.numValidTimeSegments).map (biEntry (i + 1 - s.order) s.order bi 0), ?_,
    by simp, ?_, ?_⟩
  · unfold getBiVector
    rw [hs, hb]
    rfl
  · intro j hj
    rw [List.getD_eq_getElem?_getD, List.getElem?_map, List.getElem?_range hj]
    simp only [Option.map_some, Option.getD_some]
    unfold numValidTimeSegments numValidTimeSegmentsOf at hj
    unfold biEntry
    split_ifs with h1 h2
    · rw [weight_zero h ha hi j (by omega) (by omega)]
    · rw [weight_zero h ha hi j (by omega) (by omega)]
    · rw [hbe _ (by omega)]
      congr 1; omega
  · unfold BSpline.eval evalD
    simp only [lt_irrefl, if_false, Int.toNat_zero]
    rw [evalDNat_of_inSegment h ha hi]
    congr 1
    funext d
    refine sum_congr rfl fun j hj => ?_
    rw [weight_eq_piece' h ha hi j (mem_range.1 hj)]
    rfl

/-- **C20**, partial: entry `j` of the cumulative vector is the sum of the basis function values of the
coefficients from `j` on; it is 1 up to the first active coefficient, 0 after the last active
one, and never increases. (Missing: entries beyond the number of segments, as above.) -/
theorem C20_cumulative_vector_partial (s : BSpline K D) (h : s.WF) (t tmax : K) (ha : s.Admissible t)
    (hmax : s.tMax = .ok tmax) :
    ∃ v seg, s.getCumulativeBiVector t = .ok v ∧ v.length = s.numValidTimeSegments ∧
      s.segmentIndex t = .ok seg ∧
      (∀ j, j < s.numValidTimeSegments →
        v.getD j 0 = ∑ l ∈ Ico j s.coeffs.length, Spec.weight s.order s.kn tmax l t) ∧
      (∀ j, j < s.numValidTimeSegments → j ≤ seg → v.getD j 0 = 1) ∧
      (∀ j, j < s.numValidTimeSegments → seg + s.order ≤ j → v.getD j 0 = 0) ∧
      (∀ j, j + 1 < s.numValidTimeSegments → v.getD (j + 1) 0 ≤ v.getD j 0) := by
  have hk := h.order_pos
  have hn := h.enough
  have hcl := h.coeffs_len
  rw [tMax_eq h] at hmax
  have hmax := (Outcome.ok.inj hmax).symm
  subst hmax
  obtain ⟨i, bi, hi, hs, hb, hbe⟩ := biVector_facts h ha
  have hl := hi.lower
  have hu := hi.upper
  set W := fun l => Spec.weight s.order s.kn (s.kn (s.knots.length - s.order)) l t with hW
  have hWsum : ∑ l ∈ range s.coeffs.length, W l = 1 := by
    have := sum_range_derivative h i 0 hl hu hi.pos t
    rw [if_pos rfl] at this
    rw [← this]
    exact sum_congr rfl fun l hl => weight_eq_piece' h ha hi l (mem_range.1 hl)
  have hWnn : ∀ l, l < s.coeffs.length → 0 ≤ W l := by
    intro l hl
    have : W l = _ := weight_eq_piece' h ha hi l hl
    rw [this]
    exact piece_nonneg s.kn s.knots.length i h.mono t hi.left hi.le _ _ (by omega)
  have hhead : ∀ j, j ≤ i + 1 - s.order → ∑ l ∈ Ico j s.coeffs.length, W l = 1 := by
    intro j hj
    rw [← hWsum, Finset.range_eq_Ico]
    apply sum_subset
    · intro x hx; simp at hx ⊢; omega
    · intro x hx hx'
      simp at hx hx'
      exact weight_zero h ha hi x (by omega) (by omega)
  have hfull : ∀ j, j < s.numValidTimeSegments →
      biEntry (i + 1 - s.order) s.order (Function.update (cumulate (s.order - 1) bi) 0 1) 1 j
        = ∑ l ∈ Ico j s.coeffs.length, W l := by
    intro j hj
    unfold numValidTimeSegments numValidTimeSegmentsOf at hj
    unfold biEntry
    split_ifs with h1 h2
    · rw [hhead j (by omega)]
    · symm
      apply sum_eq_zero
      intro x hx
      have := mem_Ico.1 hx
      exact weight_zero h ha hi x (by omega) (by omega)
    · by_cases h0 : j - (i + 1 - s.order) = 0
      · rw [h0, Function.update_self, hhead j (by omega)]
      · rw [Function.update_of_ne h0, cumulate_eq _ _ _ (by omega) (by omega)]
        have : ∑ l ∈ Ico j s.coeffs.length, W l = ∑ l ∈ Icc j i, W l := by
          symm
          apply sum_subset
          · intro x hx; simp at hx ⊢; omega
          · intro x hx hx'
            simp at hx hx'
            exact weight_zero h ha hi x (by omega) (by omega)
        rw [this]
        apply sum_bij' (fun l _ => i + 1 - s.order + l) (fun l _ => l - (i + 1 - s.order))
        · intro l hl; simp at hl ⊢; omega
        · intro l hl; simp at hl ⊢; omega
        · intro l hl; simp at hl ⊢
        · intro l hl; simp at hl ⊢; omega
        · intro l hl
          simp at hl
          exact hbe l (by omega)
  have hget : ∀ j, j < s.numValidTimeSegments → ((List.range s.numValidTimeSegments).map
      (biEntry (i + 1 - s.order) s.order (Function.update (cumulate (s.order - 1) bi) 0 1) 1)).getD j 0
        = ∑ l ∈ Ico j s.coeffs.length, W l := by
    intro j hj
    rw [List.getD_eq_getElem?_getD, List.getElem?_map, List.getElem?_range hj]
    simp only [Option.map_some, Option.getD_some]
    exact hfull j hj
  refine ⟨(List.range s.numValidTimeSegments).map
    (biEntry (i + 1 - s.order) s.order (Function.update (cumulate (s.order - 1) bi) 0 1) 1),
    i + 1 - s.order, ?_, by simp, hs, hget, ?_, ?_, ?_⟩
  · unfold getCumulativeBiVector getLocalCumulativeBiVector
    rw [hs, hb]
    rfl
  · intro j hj h1; rw [hget j hj, hhead j h1]
  · intro j hj h1
    rw [hget j hj]
    unfold numValidTimeSegments numValidTimeSegmentsOf at hj
    apply sum_eq_zero
    intro x hx
    have := mem_Ico.1 hx
    exact weight_zero h ha hi x (by omega) (by omega)
  · intro j hj
    rw [hget j (by omega), hget (j + 1) hj]
    unfold numValidTimeSegments numValidTimeSegmentsOf at hj
    rw [Finset.sum_eq_sum_Ico_succ_bot (show j < s.coeffs.length by omega)]
    have := hWnn j (by omega)
    linarith

example : exUniform.getBiVector (5/2) = .ok [1/8, 3/4, 1/8] ∧
    exUniform.getCumulativeBiVector (7/2) = .ok [1, 1, 7/8] := by decide +kernel

/-- The full property C20 is false: the returned vectors have one entry per segment, not per coefficient, so the
weights of the last coefficients are missing and the weighted sum over the entries is not the curve value. -/
theorem C20_vector_is_truncated :
    ∃ (t : ℚ) (v : List ℚ), exUniform.Admissible t ∧ exUniform.getBiVector t = .ok v ∧
      exUniform.coeffs.length = 5 ∧ v.length = 3 ∧
      exUniform.eval t ≠ .ok (fun d => ∑ j ∈ range 5, v.getD j 0 * exUniform.col j d) :=
  ⟨9/2, [0, 0, 1/8], admissible_of_wide _ (by decide +kernel) (by decide +kernel) (by decide +kernel),
    by decide +kernel, rfl, rfl, by decide +kernel⟩

end Verif
