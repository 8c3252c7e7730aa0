import Verif.Lemmas.Weights
import Mathlib.Tactic.NormNum
import Mathlib.Data.Rat.Cast.Order
import Mathlib.Analysis.Calculus.Deriv.Polynomial
import Mathlib.Analysis.Calculus.Deriv.Pi
import Mathlib.Analysis.Calculus.IteratedDeriv.Defs

/-!
# Properties C01–C06, C17, C18: evaluation of `bsplines::BSpline`

`s.WF` says that the spline has been initialised consistently (see `Props/State.lean`: every accepted
spline with nondecreasing knots has this property and keeps it).
`s.Admissible t` says that `t` is in the valid interval and is not hit by the code's rounding of
times closer than `1e-10` to the end onto the end; see `admissible_of_wide`.
-/

set_option linter.unusedSectionVars false

namespace Verif

open Finset Polynomial BSpline

/-! ## A concrete spline used as witness -/

/-- Knots of the witness: order 3, repeated knot at the start, non-uniform. -/
def exKnots : List ℚ := [0, 0, 1, 2, 4, 5, 7, 7]

/-- Coefficients of the witness. -/
def exCoeffs : List (Fin 2 → ℚ) := [![1, 0], ![3, -1], ![-2, 5], ![4, 4], ![0, 1]]

/-- The witness spline, built with the modelled API from an empty spline of order 3. -/
def exSpline : BSpline ℚ 2 :=
  initializeBasisMatrices { order := 3, knots := exKnots, coeffs := exCoeffs, basis := [] }

theorem exSpline_wf : exSpline.WF :=
  initializeBasisMatrices_wf _ (by decide) (by decide +kernel) (by decide) (by decide)

theorem exSpline_admissible (t : ℚ) (h1 : 1 ≤ t) (h2 : t ≤ 5) : exSpline.Admissible t :=
  admissible_of_wide t (by decide +kernel) h1 h2

section
variable {K : Type*} [Field K] [LinearOrder K] [IsStrictOrderedRing K] {D : ℕ}

/-! ## C01 -/

theorem segPoly_eval (s : BSpline K D) (i : ℕ) (d : Fin D) (t : K) :
    (s.segPoly i d).eval t
      = ∑ j ∈ range s.coeffs.length, s.col j d * (piece s.kn i (s.order - 1) j).eval t := by
  simp [segPoly, eval_finsetSum]

theorem getD_map_coeffs (s : BSpline K D) (d : Fin D) (j : ℕ) :
    (s.coeffs.map (fun c => c d)).getD j 0 = s.col j d := by
  by_cases hj : j < s.coeffs.length
  · simp [col, List.getD_eq_getElem?_getD, hj]
  · simp [col, List.getD_eq_getElem?_getD, hj]

/-- **C01** (inside the valid interval): the value query returns the B-spline combination of all
coefficients, with the Cox–de Boor basis functions. -/
theorem C01_eval_eq_curve (s : BSpline K D) (h : s.WF) (t tmax : K) (ha : s.Admissible t)
    (htm : s.tMax = .ok tmax) (ht : t < tmax) :
    s.eval t = .ok (fun d => Spec.curve s.order s.kn (s.coeffs.map (fun c => c d)) t) := by
  obtain ⟨i, hi, -, he⟩ := evalDNat_admissible h t ha
  have hk := h.order_pos
  have hn := h.enough
  have hc := h.coeffs_len
  have hm := h.mono
  rw [tMax_eq h] at htm
  have htm' := Outcome.ok.inj htm
  unfold BSpline.eval evalD
  simp only [lt_irrefl, if_false, Int.toNat_zero, he 0, Function.iterate_zero, id_eq]
  congr 1
  funext d
  rw [segPoly_eval]
  unfold Spec.curve
  rw [List.length_map]
  refine sum_congr rfl fun j hj => ?_
  have hj' := mem_range.1 hj
  have hti : t < s.kn (i + 1) := by
    rcases hi.right with h' | ⟨h1, h2⟩
    · exact h'
    · rw [h1, h2] at ht; rw [htm'] at ht; exact absurd ht (lt_irrefl _)
  rw [getD_map_coeffs, N_eq_piece s.kn i t (s.knots.length - 1) ?_ _ _ (by omega), mul_comm]
  intro j hj
  have hiu := hi.upper
  constructor
  · rintro ⟨h1, h2⟩
    by_contra hne
    rcases Nat.lt_or_gt_of_ne hne with hlt | hlt
    · have := hm (j + 1) i (by omega) (by omega); linarith [hi.left]
    · have := hm (i + 1) j (by omega) (by omega); linarith
  · rintro rfl; exact ⟨hi.left, hti⟩

example : exSpline.WF ∧ exSpline.Admissible (5/2) ∧ exSpline.tMax = .ok 5 ∧ (5/2 : ℚ) < 5 ∧
    exSpline.eval (5/2) = .ok ![1/8, 65/24] :=
  ⟨exSpline_wf, exSpline_admissible _ (by norm_num) (by norm_num), by decide +kernel, by norm_num,
    by decide +kernel⟩

/-- **C01** (at the right end): the value query returns the B-spline combination with the basis
functions continued from the left. -/
theorem C01_eval_eq_curve_at_end (s : BSpline K D) (h : s.WF) (tmax : K) (ha : s.Admissible tmax)
    (htm : s.tMax = .ok tmax) :
    s.eval tmax = .ok (fun d => Spec.curveLeft s.order s.kn (s.coeffs.map (fun c => c d)) tmax) := by
  obtain ⟨i, hi, -, he⟩ := evalDNat_admissible h tmax ha
  have hk := h.order_pos
  have hn := h.enough
  have hc := h.coeffs_len
  have hm := h.mono
  have hiu := hi.upper
  rw [tMax_eq h] at htm
  have htm' := Outcome.ok.inj htm
  unfold BSpline.eval evalD
  simp only [lt_irrefl, if_false, Int.toNat_zero, he 0, Function.iterate_zero, id_eq]
  congr 1
  funext d
  rw [segPoly_eval]
  unfold Spec.curveLeft
  rw [List.length_map]
  refine sum_congr rfl fun j hj => ?_
  have hj' := mem_range.1 hj
  have hti : tmax = s.kn (i + 1) := by
    rcases hi.right with h' | ⟨h1, h2⟩
    · have := hm (i + 1) _ hi.upper (by omega)
      rw [htm'] at this
      exact absurd h' (not_lt.2 this)
    · exact h1
  rw [getD_map_coeffs, NLeft_eq_piece s.kn i tmax (s.knots.length - 1) ?_ _ _ (by omega), mul_comm]
  intro j hj
  constructor
  · rintro ⟨h1, h2⟩
    by_contra hne
    rcases Nat.lt_or_gt_of_ne hne with hlt | hlt
    · have := hm (j + 1) i (by omega) (by omega); linarith [hi.pos]
    · have := hm (i + 1) j (by omega) (by omega); linarith
  · rintro rfl
    have := hi.pos
    exact ⟨by rw [hti]; exact this, hti.le⟩

example : exSpline.WF ∧ exSpline.Admissible 5 ∧ exSpline.tMax = .ok 5 ∧
    exSpline.eval 5 = .ok ![8/3, 3] :=
  ⟨exSpline_wf, exSpline_admissible _ (by norm_num) (by norm_num), by decide +kernel,
    by decide +kernel⟩

/-- **C01**, in terms of API calls only: knots and coefficients accepted by
`setKnotsAndCoefficients` are evaluated as the B-spline curve of these knots and coefficients. -/
theorem C01_eval_after_set (s₀ s : BSpline K D) (kns : List K) (cs : List (Fin D → K))
    (hord : 2 ≤ s₀.order) (hsorted : kns.Pairwise (· ≤ ·))
    (hset : s₀.setKnotsAndCoefficients kns cs = .ok s)
    (t tmin tmax : K) (hmin : s.tMin = .ok tmin) (hmax : s.tMax = .ok tmax)
    (h1 : tmin ≤ t) (h2 : t + 1 / 10 ^ 10 ≤ tmax) :
    s.eval t = .ok (fun d =>
      Spec.curve s₀.order (fun i => kns.getD i 0) (cs.map (fun c => c d)) t) := by
  have hwf := set_wf hord hsorted hset
  have htol : (0 : K) < 1 / 10 ^ 10 := by positivity
  have hmin' := hmin
  have hmax' := hmax
  rw [tMin_eq hwf] at hmin'
  rw [tMax_eq hwf] at hmax'
  have e1 := Outcome.ok.inj hmin'
  have e2 := Outcome.ok.inj hmax'
  have ha : s.Admissible t := ⟨by rw [e1]; exact h1, by rw [e2]; linarith,
    Or.inl (by rw [e2]; exact h2)⟩
  rw [C01_eval_eq_curve s hwf t tmax ha hmax (by linarith)]
  obtain ⟨rfl, -, -⟩ := set_inv (by omega) hset
  rfl

example : (⟨3, [], [], []⟩ : BSpline ℚ 2).setKnotsAndCoefficients exKnots exCoeffs = .ok exSpline := by
  rfl

/-- Counterpart of C01 at a right end with a last segment of width zero: the code returns the zero
vector, whatever the coefficients are. (The property excludes this case.) -/
theorem C01_zero_width_end_returns_zero (s : BSpline K D) (h : s.WF) (tmax : K)
    (htm : s.tMax = .ok tmax)
    (hz : s.kn (s.knots.length - s.order) = s.kn (s.knots.length - s.order - 1)) :
    s.eval tmax = .ok 0 := by
  have hk := h.order_pos
  have hn := h.enough
  have hc := h.coeffs_len
  have htol : (0 : K) < snapTol := by unfold snapTol; positivity
  rw [tMax_eq h] at htm
  have e := (Outcome.ok.inj htm).symm
  have hT := lookup_end h tmax (by rw [e]; exact h.mono _ _ (by omega) (by omega))
    (by rw [e, sub_self, abs_zero]; exact htol)
  obtain ⟨B, hB, -, -⟩ := blockAt_ok h (s.knots.length - s.order - 1) (by omega) (by omega)
  unfold BSpline.eval evalD evalDNat computeUAndTIndex
  simp only [lt_irrefl, if_false, Int.toNat_zero]
  rw [hT]
  simp only [Outcome.bind_ok]
  rw [if_pos (by linarith)]
  simp only [Outcome.bind_ok, hB]
  congr 1
  funext d
  unfold blockMul transposeMul computeU
  rw [show s.knots.length - s.order - 1 + 1 = s.knots.length - s.order by omega]
  simp [hz]

example : (initializeBasisMatrices ⟨2, [0, 1, 2, 2, 3], [![5], ![5], ![5]], []⟩ : BSpline ℚ 1).eval 2
    = .ok ![0] := by decide +kernel

/-! ## C02 -/

/-- **C02**: the local weights are non-negative and sum to one, the value is their combination of the
locally active coefficients, and therefore lies between any component-wise bounds of these. -/
theorem C02_convex_combination (s : BSpline K D) (h : s.WF) (t : K) (ha : s.Admissible t) :
    ∃ (w : ℕ → K) (cols : List (Fin D → K)) (v : Fin D → K),
      s.getLocalBiVector t = .ok w ∧ s.localCoefficientMatrix t = .ok cols ∧ s.eval t = .ok v ∧
      cols.length = s.order ∧
      (∀ j, j < s.order → 0 ≤ w j) ∧
      ∑ j ∈ range s.order, w j = 1 ∧
      (∀ d, v d = ∑ j ∈ range s.order, w j * (cols.getD j 0) d) ∧
      (∀ d lo hi, (∀ c ∈ cols, lo ≤ c d ∧ c d ≤ hi) → lo ≤ v d ∧ v d ≤ hi) := by
  have hk := h.order_pos
  have hn := h.enough
  have hc := h.coeffs_len
  obtain ⟨i, hT, hi⟩ := lookup h t ha
  have hiu := hi.upper
  have hil := hi.lower
  obtain ⟨w, hw, hwe⟩ := localBi_eq h t i hi.lower hi.upper hi.pos hT
  have hcols := localCoefficientMatrix_eq h t i hi.lower hi.upper _ hT
  have hev := evalDNat_sum h t i 0 hi.lower hi.upper hi.pos hT
  have hnn : ∀ j, j < s.order → 0 ≤ w j := by
    intro j hj
    rw [hwe j hj]
    exact piece_nonneg s.kn s.knots.length i h.mono t hi.left hi.le _ _ (by omega)
  have hsum : ∑ j ∈ range s.order, w j = 1 := by
    have := sum_local_eq h i hi.lower hi.upper 0 t (fun _ => 1)
    simp only [one_mul] at this
    rw [sum_range_derivative h i 0 hi.lower hi.upper hi.pos t, if_pos rfl] at this
    rw [← this]
    exact sum_congr rfl fun c hc => hwe c (mem_range.1 hc)
  have hval : ∀ d, ∑ j ∈ range s.coeffs.length,
      s.col j d * (derivative^[0] (piece s.kn i (s.order - 1) j)).eval t
      = ∑ j ∈ range s.order, w j *
        (((List.range s.order).map (fun c => s.col (i + 1 - s.order + c))).getD j 0) d := by
    intro d
    rw [← sum_local_eq h i hi.lower hi.upper 0 t (fun j => s.col j d)]
    refine sum_congr rfl fun c hc => ?_
    have hc' := mem_range.1 hc
    rw [hwe c hc', List.getD_eq_getElem?_getD, List.getElem?_map, List.getElem?_range hc']
    simp [mul_comm]
  refine ⟨w, _, _, hw, hcols, ?_, by simp, hnn, hsum, hval, ?_⟩
  · unfold BSpline.eval evalD
    simp only [lt_irrefl, if_false, Int.toNat_zero]
    exact hev
  · intro d lo hi' hb
    have hb' : ∀ j, j < s.order → lo ≤
        (((List.range s.order).map (fun c => s.col (i + 1 - s.order + c))).getD j 0) d ∧
        (((List.range s.order).map (fun c => s.col (i + 1 - s.order + c))).getD j 0) d ≤ hi' := by
      intro j hj
      apply hb
      rw [List.getD_eq_getElem?_getD, List.getElem?_map, List.getElem?_range hj]
      simp only [Option.map_some, Option.getD_some]
      exact List.mem_map.2 ⟨j, List.mem_range.2 hj, rfl⟩
    change _ ≤ ∑ j ∈ range s.coeffs.length, _ ∧ ∑ j ∈ range s.coeffs.length, _ ≤ _
    rw [hval d]
    constructor
    · calc lo = ∑ j ∈ range s.order, w j * lo := by rw [← sum_mul, hsum, one_mul]
        _ ≤ _ := sum_le_sum fun j hj =>
          mul_le_mul_of_nonneg_left (hb' j (mem_range.1 hj)).1 (hnn j (mem_range.1 hj))
    · calc _ ≤ ∑ j ∈ range s.order, w j * hi' := sum_le_sum fun j hj =>
          mul_le_mul_of_nonneg_left (hb' j (mem_range.1 hj)).2 (hnn j (mem_range.1 hj))
        _ = hi' := by rw [← sum_mul, hsum, one_mul]

example : exSpline.WF ∧ exSpline.Admissible (9/2) ∧
    (exSpline.getLocalBiVector (9/2)).map (fun w => [w 0, w 1, w 2]) = .ok [1/12, 5/6, 1/12] ∧
    exSpline.localCoefficientMatrix (9/2) = .ok [![-2, 5], ![4, 4], ![0, 1]] :=
  ⟨exSpline_wf, exSpline_admissible _ (by norm_num) (by norm_num), by decide +kernel,
    by decide +kernel⟩

/-! ## C03 -/

/-- **C03**, dependence: two splines with the same knots (order, cached basis) and the same number of
coefficients that agree on the coefficients reported for `t` return the same value and derivatives
at `t`, for every `t` and every derivative order. -/
theorem C03_local_support (s s' : BSpline K D) (t : K) (der : ℤ) (idx : List ℕ)
    (ho : s'.order = s.order) (hkn : s'.knots = s.knots) (hb : s'.basis = s.basis)
    (hlen : s'.coeffs.length = s.coeffs.length)
    (hidx : s.localVvCoefficientVectorIndices t = .ok idx)
    (hag : ∀ j ∈ idx, s'.vvCoefficientVector j = s.vvCoefficientVector j) :
    s'.evalD t der = s.evalD t der := by
  have hknf : s'.kn = s.kn := by funext i; simp [kn, hkn]
  have hT : ∀ t, s'.computeTIndex t = s.computeTIndex t := by
    intro t; simp [computeTIndex, tMin, tMax, ho, hkn, hknf]
  have hU : s'.computeUAndTIndex t = s.computeUAndTIndex t := by
    simp [computeUAndTIndex, hT, hknf]
  unfold localVvCoefficientVectorIndices at hidx
  obtain ⟨⟨x, i⟩, hTi, hidx⟩ := Outcome.bind_eq_ok.1 hidx
  obtain ⟨b, hbi, hidx⟩ := Outcome.bind_eq_ok.1 hidx
  have hidx := Outcome.ok.inj hidx
  unfold evalD
  split_ifs with hd
  · rfl
  unfold evalDNat
  rw [hU]
  have hUi : ∃ u, s.computeUAndTIndex t = .ok (u, i) := by
    unfold computeUAndTIndex
    rw [hTi]
    simp only [Outcome.bind_ok]
    split_ifs <;> exact ⟨_, rfl⟩
  obtain ⟨u, hu⟩ := hUi
  rw [hu]
  simp only [Outcome.bind_ok]
  unfold blockAt
  rw [ho, hb, hlen]
  split_ifs with h1
  · rfl
  simp only []
  cases hB : s.basis[i + 1 - s.order]? with
  | none => rfl
  | some B =>
    simp only []
    split_ifs with h2
    · simp only [Outcome.bind_ok, hknf]
      congr 1
      funext d
      unfold blockMul
      rw [ho]
      refine sum_congr rfl fun c hc => ?_
      have hb' : b = i + 1 - s.order := by
        unfold bidxOf at hbi
        rw [if_neg h1] at hbi
        exact (Outcome.ok.inj hbi).symm
      have hmem : i + 1 - s.order + c ∈ idx := by
        rw [← hidx, ← hb']
        exact List.mem_map.2 ⟨c, List.mem_range.2 (mem_range.1 hc), rfl⟩
      have := hag _ hmem
      unfold vvCoefficientVector at this
      have hc' := mem_range.1 hc
      rw [if_neg (by rw [hlen]; push Not; constructor <;> omega),
        if_neg (by push Not; constructor <;> omega)] at this
      have := Outcome.ok.inj this
      simp only [Int.toNat_natCast] at this
      rw [this]
    · rfl

/-- **C03**, reported indices: for every time of the valid interval exactly `order` consecutive
indices are reported, and all of them exist. -/
theorem C03_reported_indices (s : BSpline K D) (h : s.WF) (t tmin tmax : K)
    (hmin : s.tMin = .ok tmin) (hmax : s.tMax = .ok tmax) (h1 : tmin ≤ t) (h2 : t ≤ tmax) :
    ∃ b, s.localVvCoefficientVectorIndices t = .ok ((List.range s.order).map (b + ·)) ∧
      b + s.order ≤ s.coeffs.length := by
  have hk := h.order_pos
  have hn := h.enough
  have hc := h.coeffs_len
  have htol : (0 : K) < snapTol := by unfold snapTol; positivity
  rw [tMin_eq h] at hmin
  rw [tMax_eq h] at hmax
  have e1 := Outcome.ok.inj hmin
  have e2 := Outcome.ok.inj hmax
  obtain ⟨i, hT, hi1, hi2⟩ := lookup_valid h t (by rw [e1]; exact h1) (by rw [e2]; linarith)
  exact ⟨i + 1 - s.order, localIndices_eq h t i hi1 _ hT, by omega⟩

example : exSpline.localVvCoefficientVectorIndices (3/2) = .ok [0, 1, 2] ∧
    exSpline.localVvCoefficientVectorIndices 5 = .ok [2, 3, 4] := by decide +kernel

/-! ## C06 -/

/-- **C06**, errors: the lookup raises an exception exactly for times before the valid interval and for
times `1e-10` or more past its end.  (Full property: *every* time past the end. The code accepts
times less than `1e-10` past the end, see `C06_accepts_just_past_end`.) -/
theorem C06_throws_iff_partial (s : BSpline K D) (h : s.WF) (t tmin tmax : K)
    (hmin : s.tMin = .ok tmin) (hmax : s.tMax = .ok tmax) :
    s.computeTIndex t = .throws ↔ t < tmin ∨ tmax + 1 / 10 ^ 10 ≤ t := by
  have hk := h.order_pos
  have hn := h.enough
  have htol : (0 : K) < snapTol := by unfold snapTol; positivity
  have hmin' := hmin
  have hmax' := hmax
  rw [tMin_eq h] at hmin
  rw [tMax_eq h] at hmax
  have e1 := Outcome.ok.inj hmin
  have e2 := Outcome.ok.inj hmax
  constructor
  · intro hth
    by_contra hcon
    push Not at hcon
    obtain ⟨i, hT, -, -⟩ := lookup_valid h t (by rw [e1]; exact hcon.1) (by rw [e2]; exact hcon.2)
    rw [hT] at hth
    exact nomatch hth
  · intro hor
    unfold computeTIndex
    rw [hmin', hmax']
    simp only [Outcome.bind_ok]
    rcases hor with hlt | hge
    · rw [if_pos hlt]
    · by_cases hlt : t < tmin
      · rw [if_pos hlt]
      rw [if_neg hlt]
      have : ¬ |tmax - t| < snapTol := by
        rw [abs_lt]; rintro ⟨h1, -⟩
        have : (snapTol : K) = 1 / 10 ^ 10 := rfl
        linarith
      simp only [this, if_false]
      rw [if_pos]
      have : (snapTol : K) = 1 / 10 ^ 10 := rfl
      linarith

/-- **C06**: no lookup and no evaluation reads outside the knot array, the coefficient matrix or the
list of basis matrices – for every time whatsoever and every derivative order. -/
theorem C06_no_out_of_range (s : BSpline K D) (h : s.WF) (t : K) (der : ℤ) :
    s.computeTIndex t ≠ .ub ∧ s.evalD t der ≠ .ub := by
  have hk := h.order_pos
  by_cases hth : s.computeTIndex t = .throws
  · refine ⟨by rw [hth]; exact (fun h => nomatch h), ?_⟩
    unfold evalD evalDNat computeUAndTIndex
    rw [hth]
    split_ifs <;> exact (fun h => nomatch h)
  · rw [C06_throws_iff_partial s h t _ _ (tMin_eq h) (tMax_eq h)] at hth
    push Not at hth
    obtain ⟨i, hT, h1, h2⟩ := lookup_valid h t hth.1 hth.2
    refine ⟨by rw [hT]; exact (fun h => nomatch h), ?_⟩
    obtain ⟨B, hB, -, -⟩ := blockAt_ok h i h1 h2
    unfold evalD
    split_ifs
    · exact (fun h => nomatch h)
    · unfold evalDNat computeUAndTIndex
      rw [hT]
      simp only [Outcome.bind_ok]
      split_ifs <;> simp only [Outcome.bind_ok, hB] <;> exact (fun h => nomatch h)

/-- **C06**: a time of the valid interval is attributed to a segment of positive width that contains
it (closed at the very end); the segment's time interval is the one the API reports.  Partial:
times closer than `1e-10` to the end are covered only if they lie in the last segment
(`Admissible`), because the code moves them to the end; see `C06_narrow_last_segment`. -/
theorem C06_containing_segment_partial (s : BSpline K D) (h : s.WF) (t : K) (ha : s.Admissible t) :
    ∃ (seg : ℕ) (a b : K), s.segmentIndex t = .ok seg ∧ s.timeIntervalOf seg = .ok (a, b) ∧
      a < b ∧ a ≤ t ∧ (t < b ∨ (t = b ∧ s.tMax = .ok b)) := by
  have hk := h.order_pos
  have hn := h.enough
  obtain ⟨i, hT, hi⟩ := lookup h t ha
  have hil := hi.lower
  have hiu := hi.upper
  refine ⟨i + 1 - s.order, s.kn i, s.kn (i + 1), ?_, ?_, hi.pos, hi.left, ?_⟩
  · unfold segmentIndex bidxOf
    rw [hT]
    simp only [Outcome.bind_ok]
    rw [if_neg (by omega)]
  · unfold timeIntervalOf numValidTimeSegments numValidTimeSegmentsOf minimumKnotsRequired
      numKnotsRequired numCoefficientsRequired
    rw [if_neg (by omega), if_neg (by push Not; constructor <;> omega)]
    simp only [Int.toNat_natCast]
    rw [show s.order + (i + 1 - s.order) - 1 = i by omega,
      show s.order + (i + 1 - s.order) = i + 1 by omega]
  · rcases hi.right with h' | ⟨h1, h2⟩
    · exact Or.inl h'
    · right; exact ⟨h1, by rw [tMax_eq h, h2]⟩

example : exSpline.segmentIndex (9/2) = .ok 2 ∧ exSpline.timeIntervalOf 2 = .ok (4, 5) ∧
    exSpline.segmentIndex 5 = .ok 2 ∧ exSpline.segmentIndex 4 = .ok 2 ∧
    exSpline.segmentIndex 1 = .ok 0 ∧ exSpline.segmentIndex (99/100) = .throws := by decide +kernel

/-- The full property C06 fails past the end: half of `1e-10` past the end is accepted. -/
theorem C06_accepts_just_past_end :
    ∃ (s : BSpline ℚ 2) (t : ℚ), s.WF ∧ s.tMax = .ok 5 ∧ 5 < t ∧ s.computeTIndex t = .ok (1, 4) :=
  ⟨exSpline, 5 + 1 / (2 * 10 ^ 10), exSpline_wf, by decide +kernel, by norm_num, by decide +kernel⟩

/-- A spline of order 2 whose last segment is narrower than the tolerance `1e-10`. -/
def exNarrow : BSpline ℚ 1 :=
  initializeBasisMatrices ⟨2, [0, 1, 2, 2 + 1 / 10 ^ 11, 3], [![0], ![1], ![7]], []⟩

/-- The full property C06 (and C01) fails when the last segment is narrower than the code's tolerance:
a time *before* the last segment is attributed to it and evaluated with the wrong polynomial. -/
theorem C06_narrow_last_segment :
    ∃ t : ℚ, exNarrow.WF ∧ exNarrow.tMin = .ok 1 ∧ 1 ≤ t ∧ t < 2 ∧
      exNarrow.segmentIndex t = .ok 1 ∧ exNarrow.timeIntervalOf 1 = .ok (2, 2 + 1 / 10 ^ 11) ∧
      exNarrow.eval t ≠
        .ok (fun d => Spec.curve 2 exNarrow.kn (exNarrow.coeffs.map (fun c => c d)) t) :=
  ⟨2 - 1 / 10 ^ 11,
    initializeBasisMatrices_wf _ (by decide) (by decide +kernel) (by decide) (by decide),
    by decide +kernel, by norm_num, by norm_num, by decide +kernel, by decide +kernel,
    by decide +kernel⟩

/-! ## C17 -/

/-- **C17**: applying an affine map `c ↦ L c + b` (between any two dimensions) to all coefficients
applies it to the curve value, and its linear part to every derivative. -/
theorem C17_affine_invariance {D' : ℕ} (s : BSpline K D) (s' : BSpline K D') (h : s.WF) (t : K)
    (ha : s.Admissible t) (L : (Fin D → K) →ₗ[K] (Fin D' → K)) (b : Fin D' → K)
    (ho : s'.order = s.order) (hkn : s'.knots = s.knots) (hb : s'.basis = s.basis)
    (hc : s'.coeffs = s.coeffs.map (fun c => L c + b)) :
    s'.eval t = (s.eval t).map (fun v => L v + b) ∧
      ∀ der : ℤ, 1 ≤ der → s'.evalD t der = (s.evalD t der).map L := by
  have hknf : s'.kn = s.kn := by funext i; simp [kn, hkn]
  have h' : s'.WF := ⟨by rw [ho]; exact h.order_pos, by rw [hkn]; exact h.sorted,
    by rw [hkn, ho]; exact h.enough, by rw [hc, ho, hkn, List.length_map]; exact h.coeffs_len,
    by rw [hkn, ho, hb]; exact h.basis_len, by
      rw [hkn, ho, hb, hknf]
      exact h.basis_eq⟩
  obtain ⟨i, hT, hi⟩ := lookup h t ha
  have hT' : s'.computeTIndex t = .ok (s'.kn (i + 1) - s'.kn i, i) := by
    rw [hknf, ← hT]; simp [computeTIndex, tMin, tMax, ho, hkn, hknf]
  have hcol : ∀ j, j < s.coeffs.length → s'.col j = L (s.col j) + b := by
    intro j hj
    unfold col
    rw [hc]
    simp [List.getD_eq_getElem?_getD, hj]
  have key : ∀ der : ℕ, s'.evalDNat t der
      = (s.evalDNat t der).map (fun v => L v + (if der = 0 then (1 : K) else 0) • b) := by
    intro der
    rw [evalDNat_sum h t i der hi.lower hi.upper hi.pos hT,
      evalDNat_sum h' t i der (by rw [ho]; exact hi.lower) (by rw [hkn, ho]; exact hi.upper)
        (by rw [hknf]; exact hi.pos) hT']
    simp only [Outcome.map_ok]
    congr 1
    have hlen : s'.coeffs.length = s.coeffs.length := by rw [hc, List.length_map]
    rw [hlen, hknf, ho]
    set W := fun j => (derivative^[der] (piece s.kn i (s.order - 1) j)).eval t with hW
    have e1 : (fun d => ∑ j ∈ range s.coeffs.length, s.col j d * W j)
        = ∑ j ∈ range s.coeffs.length, W j • s.col j := by
      funext d; simp [Finset.sum_apply, mul_comm]
    have e2 : (fun d => ∑ j ∈ range s.coeffs.length, s'.col j d * W j)
        = ∑ j ∈ range s.coeffs.length, W j • s'.col j := by
      funext d; simp [Finset.sum_apply, mul_comm]
    have hs := sum_range_derivative h i der hi.lower hi.upper hi.pos t
    change _ = L (fun d => ∑ j ∈ range s.coeffs.length, s.col j d * W j) + _
    change (fun d => ∑ j ∈ range s.coeffs.length, s'.col j d * W j) = _
    rw [e1, e2, map_sum, ← hs, sum_smul, ← sum_add_distrib]
    refine sum_congr rfl fun j hj => ?_
    rw [hcol j (mem_range.1 hj), smul_add, map_smul]
  constructor
  · unfold BSpline.eval evalD
    simp only [lt_irrefl, if_false, Int.toNat_zero]
    rw [key 0]
    simp
  · intro der hd
    unfold evalD
    rw [if_neg (by omega), if_neg (by omega), key]
    have : der.toNat ≠ 0 := by omega
    simp only [this, if_false, zero_smul, add_zero]

example : exSpline.WF ∧ exSpline.Admissible (5/2) ∧
    ({ exSpline with coeffs := exCoeffs.map (fun c => ![2 * c 0 - c 1 + 1, 3]) } : BSpline ℚ 2).eval (5/2)
      = .ok ![2 * (1/8) - 65/24 + 1, 3] :=
  ⟨exSpline_wf, exSpline_admissible _ (by norm_num) (by norm_num), by decide +kernel⟩

end
end Verif
