import Verif.Lemmas.Weights
import Verif.Props.BothSplines
import Verif.Props.FitDetermined

/-!
# Property C109: coefficients and curve determine each other, segment by segment
-/

set_option linter.unusedSectionVars false

namespace Verif

open Finset Polynomial BSpline

variable {K : Type*} [Field K] [LinearOrder K] [IsStrictOrderedRing K] {D : ℕ}

/-- Strictly inside of its interval a piece is positive. -/
theorem piece_pos (kn : ℕ → K) (n i : ℕ) (hm : MonoBelow kn n) (t : K) (h1 : kn i < t) (h2 : t < kn (i + 1)) :
    ∀ p j, j + p + 1 < n → j ≤ i → i ≤ j + p → 0 < (piece kn i p j).eval t
  | 0, j, _, a, b => by
    obtain rfl : j = i := by omega
    simp [piece]
  | (p + 1), j, hn, a, b => by
    rw [piece_eval_succ]
    have hA := piece_nonneg kn n i hm t h1.le h2.le p j (by omega)
    have hB := piece_nonneg kn n i hm t h1.le h2.le p (j + 1) (by omega)
    have hji := hm j i a (by omega)
    have hij := hm (i + 1) (j + p + 2) (by omega) (by omega)
    by_cases c : i ≤ j + p
    · have hpos := piece_pos kn n i hm t h1 h2 p j (by omega) a c
      have h3 := hm (i + 1) (j + p + 1) (by omega) (by omega)
      refine add_pos_of_pos_of_nonneg (mul_pos (div_pos (by linarith) (by linarith)) hpos) ?_
      by_cases c' : j + 1 ≤ i
      · have h4 := hm (j + 1) i c' (by omega)
        exact mul_nonneg (div_nonneg (by linarith) (by linarith)) hB
      · rw [piece_zero_of_lt kn i p (j + 1) (by omega), eval_zero, mul_zero]
    · have hpos := piece_pos kn n i hm t h1 h2 p (j + 1) (by omega) (by omega) (by omega)
      have h4 := hm (j + 1) i (by omega) (by omega)
      rw [piece_zero_of_gt kn i p j (by omega), eval_zero, mul_zero, zero_add]
      exact mul_pos (div_pos (by linarith) (by linarith)) hpos

/-- The spline with coefficient `j` replaced. -/
def replaced (s : BSpline K D) (j : ℕ) (c : Fin D → K) : BSpline K D := { s with coeffs := s.coeffs.set j c }

theorem replaced_wf {s : BSpline K D} (h : s.WF) (j : ℕ) (c : Fin D → K) : (replaced s j c).WF :=
  ⟨h.order_pos, h.sorted, h.enough, by simpa [replaced] using h.coeffs_len, h.basis_len, h.basis_eq⟩

theorem replaced_col (s : BSpline K D) (j l : ℕ) (c : Fin D → K) (hj : j < s.coeffs.length) :
    (replaced s j c).col l = if l = j then c else s.col l := by
  unfold BSpline.col replaced
  simp only [List.getD_eq_getElem?_getD, List.getElem?_set]
  by_cases h : j = l
  · subst h
    simp [hj]
  · rw [if_neg h, if_neg (Ne.symm h)]

/-- Replacing coefficient `j` adds a multiple of the change to the value. -/
theorem eval_replaced {s : BSpline K D} (h : s.WF) {t : K} (ha : s.Admissible t) {i : ℕ} (hi : s.InSegment t i) (j : ℕ) (hj : j < s.coeffs.length)
    (c : Fin D → K) : ∃ v, s.eval t = .ok v ∧
      (replaced s j c).eval t = .ok (fun d => v d + (c d - s.col j d) * (piece s.kn i (s.order - 1) j).eval t) := by
  have e1 := evalDNat_of_inSegment h ha hi 0
  have e2 := evalDNat_of_inSegment (s := replaced s j c) (replaced_wf h j c) ha ⟨hi.lower, hi.upper, hi.pos, hi.left, hi.right⟩ 0
  unfold BSpline.eval evalD
  rw [if_neg (by omega), if_neg (by omega), Int.toNat_zero]
  refine ⟨_, e1, e2.trans (congrArg Outcome.ok (funext fun d => ?_))⟩
  rw [show (replaced s j c).coeffs.length = s.coeffs.length by simp [replaced], ← sub_eq_iff_eq_add', ← sum_sub_distrib, sum_eq_single j]
  · rw [replaced_col s j j c hj, if_pos rfl, sub_mul]
    rfl
  · intro l _ hl
    rw [replaced_col s j l c hj, if_neg hl]
    exact sub_self _
  · intro hn
    exact absurd (mem_range.2 hj) hn

theorem setVv_eq (s : BSpline K D) (j : ℕ) (hj : j < s.coeffs.length) (c : Fin D → K) : s.setVvCoefficientVector j c = .ok (replaced s j c) := by
  unfold setVvCoefficientVector
  rw [if_neg (by omega)]
  rfl

theorem mem_linSpacedIdx (n lo j : ℕ) : j ∈ linSpacedIdx n lo ↔ lo ≤ j ∧ j < lo + n := by
  unfold linSpacedIdx
  simp only [List.mem_map, List.mem_range]
  constructor
  · rintro ⟨i, hi, rfl⟩
    omega
  · rintro ⟨h1, h2⟩
    exact ⟨j - lo, by omega, by omega⟩

/-- **C109**: at a time between two knots the coefficients the spline reports are exactly those on which its value depends, and a change of
one of them changes the value by a part of it that is neither nothing nor all. -/
theorem C109_reported (s : BSpline ℝ D) (h : s.WF) (hw : s.WideLast) (hD : 1 ≤ D) (t tmin tmax : ℝ) (hmin : s.tMin = .ok tmin)
    (hmax : s.tMax = .ok tmax) (h1 : tmin ≤ t) (h2 : t ≤ tmax) (hk : t ∉ s.knots) :
    ∃ idx, s.localVvCoefficientVectorIndices t = .ok idx ∧ ∀ j : ℕ, j < s.coeffs.length →
      (j ∈ idx ↔ ∃ c s', s.setVvCoefficientVector j c = .ok s' ∧ s'.eval t ≠ s.eval t) ∧
      (j ∈ idx → ∃ w, 0 < w ∧ w < 1 ∧ ∀ c s' old v, s.vvCoefficientVector j = .ok old → s.setVvCoefficientVector j c = .ok s' → s.eval t = .ok v →
        s'.eval t = .ok (fun d => v d + (c d - old d) * w)) := by
  have ho := h.order_pos
  have hn := h.enough
  have hc := h.coeffs_len
  rw [tMin_eq h, Outcome.ok.injEq] at hmin
  rw [tMax_eq h, Outcome.ok.injEq] at hmax
  subst hmin hmax
  have ha : s.Admissible t := admissible_of_wide t (WideLast.wide h hw) h1 h2
  obtain ⟨i, hT, hi⟩ := lookup h t ha
  have g1 := hi.lower
  have g2 := hi.upper
  have hmem : ∀ l < s.knots.length, s.kn l ∈ s.knots := fun l hl => by
    unfold BSpline.kn
    rw [List.getD_eq_getElem?_getD, List.getElem?_eq_getElem hl]
    exact List.getElem_mem hl
  have g3 : s.kn i < t := lt_of_le_of_ne hi.left fun e => hk (e ▸ hmem i (by omega))
  have g4 : t < s.kn (i + 1) := lt_of_le_of_ne hi.le fun e => hk (e.symm ▸ hmem (i + 1) (by omega))
  refine ⟨_, localIndices_eq h t i hi.lower _ hT, fun j hj => ?_⟩
  rw [mem_linSpacedIdx]
  have hpos : ∀ l, i + 1 - s.order ≤ l → l < i + 1 - s.order + s.order → 0 < (piece s.kn i (s.order - 1) l).eval t := fun l a b =>
    piece_pos s.kn s.knots.length i h.mono t g3 g4 _ _ (by omega) (by omega) (by omega)
  refine ⟨⟨fun hl => ⟨fun d => s.col j d + 1, _, setVv_eq s j hj _, ?_⟩, ?_⟩, fun hl => ⟨(piece s.kn i (s.order - 1) j).eval t, hpos j hl.1 hl.2, ?_, ?_⟩⟩
  · obtain ⟨v, e1, e2⟩ := eval_replaced h ha hi j hj fun d => s.col j d + 1
    rw [e1, e2]
    intro he
    have := congrFun (Outcome.ok.inj he) ⟨0, hD⟩
    have hp := hpos j hl.1 hl.2
    linarith
  · rintro ⟨c, s', hs, hne⟩
    rw [setVv_eq s j hj, Outcome.ok.injEq] at hs
    subst hs
    by_contra hl
    obtain ⟨v, e1, e2⟩ := eval_replaced h ha hi j hj c
    refine hne ?_
    have hz : piece s.kn i (s.order - 1) j = 0 := by
      by_cases hji : j ≤ i
      · exact piece_zero_of_gt _ _ _ _ (by omega)
      · exact piece_zero_of_lt _ _ _ _ (by omega)
    rw [e1, e2, hz]
    simp
  · have hone := congrArg (Polynomial.eval t) (piece_sum_one s.kn s.knots.length i h.mono hi.pos (s.order - 1) g1 (by omega))
    rw [eval_finsetSum, eval_one] at hone
    obtain ⟨l, l1, l2, l3⟩ : ∃ l, l ≠ j ∧ i + 1 - s.order ≤ l ∧ l < i + 1 - s.order + s.order := by
      by_cases e : j = i
      · exact ⟨i - 1, by omega, by omega, by omega⟩
      · exact ⟨i, by omega, by omega, by omega⟩
    have hjl : j ∈ Ico (i - (s.order - 1)) (i + 1) := mem_Ico.2 ⟨by omega, by omega⟩
    have hll : l ∈ (Ico (i - (s.order - 1)) (i + 1)).erase j := mem_erase.2 ⟨l1, mem_Ico.2 ⟨by omega, by omega⟩⟩
    rw [← add_sum_erase _ _ hjl] at hone
    have : (piece s.kn i (s.order - 1) l).eval t ≤ ∑ x ∈ (Ico (i - (s.order - 1)) (i + 1)).erase j, (piece s.kn i (s.order - 1) x).eval t :=
      single_le_sum (f := fun x => (piece s.kn i (s.order - 1) x).eval t) (fun x hx => (hpos x (by
        have := mem_Ico.1 (mem_of_mem_erase hx); omega) (by have := mem_Ico.1 (mem_of_mem_erase hx); omega)).le) hll
    have := hpos l l2 l3
    linarith
  · intro c s' old v hold hs hv
    unfold vvCoefficientVector at hold
    rw [if_neg (by omega), Int.toNat_natCast, Outcome.ok.injEq] at hold
    rw [setVv_eq s j hj, Outcome.ok.injEq] at hs
    subst hold hs
    obtain ⟨v', e1, e2⟩ := eval_replaced h ha hi j hj c
    obtain rfl : v' = v := Outcome.ok.inj (e1.symm.trans hv)
    exact e2

/-- **C109**: at a knot this is not so: the last coefficient reported has no influence on the value; at the end of the curve it is the first
one. -/
theorem C109_at_knot (s : BSpline ℝ D) (h : s.WF) (hw : s.WideLast) (seg : ℤ) (a b : ℝ) (hab : s.timeIntervalOf seg = .ok (a, b)) (hlt : a < b) :
    ∃ lo : ℕ, s.localVvCoefficientVectorIndices a = .ok ((List.range s.order).map (lo + ·)) ∧
      (∀ c s', s.setVvCoefficientVector (lo + (s.order - 1) : ℕ) c = .ok s' → s'.eval a = s.eval a) ∧
      (s.tMax = .ok b → s.localVvCoefficientVectorIndices b = .ok ((List.range s.order).map (lo + ·)) ∧
        ∀ c s', s.setVvCoefficientVector lo c = .ok s' → s'.eval b = s.eval b) := by
  have ho := h.order_pos
  have hn := h.enough
  have hc := h.coeffs_len
  obtain ⟨i, i1, i2, rfl, rfl, i3⟩ := timeIntervalOf_eq h hab
  have hwd := WideLast.wide h hw
  have hm := h.mono
  have ad : ∀ t, s.kn i ≤ t → t ≤ s.kn (i + 1) → s.Admissible t := fun t a b => admissible_of_wide t hwd
    (le_trans (hm _ _ i1 (by omega)) a) (le_trans b (hm _ _ i2 (by omega)))
  have hi : s.InSegment (s.kn i) i := ⟨i1, i2, hlt, le_rfl, .inl hlt⟩
  have idx : ∀ t, s.Admissible t → s.InSegment t i → s.localVvCoefficientVectorIndices t = .ok ((List.range s.order).map (i + 1 - s.order + ·)) := by
    intro t ha hi
    obtain ⟨i', hT, hi'⟩ := lookup h t ha
    obtain rfl := InSegment.unique h hi hi'
    exact localIndices_eq h t i hi.lower _ hT
  have none : ∀ t (j : ℕ), s.Admissible t → s.InSegment t i → (piece s.kn i (s.order - 1) j).eval t = 0 → ∀ c s',
      s.setVvCoefficientVector j c = .ok s' → s'.eval t = s.eval t := by
    intro t j ha hi hz c s' hs
    by_cases hj : j < s.coeffs.length
    · rw [setVv_eq s j hj, Outcome.ok.injEq] at hs
      subst hs
      obtain ⟨v, e1, e2⟩ := eval_replaced h ha hi j hj c
      rw [e1, e2, hz]
      simp
    · unfold setVvCoefficientVector at hs
      rw [if_pos (by omega)] at hs
      exact nomatch hs
  refine ⟨i + 1 - s.order, idx _ (ad _ le_rfl hlt.le) hi, none _ _ (ad _ le_rfl hlt.le) hi ?_, fun htm => ?_⟩
  · rw [show i + 1 - s.order + (s.order - 1) = i by omega]
    exact piece_last_left s.kn i _ (by omega)
  · rw [tMax_eq h, Outcome.ok.injEq] at htm
    have hlast : i + 1 = s.knots.length - s.order := by
      by_contra hne
      have e := hm (i + 1) (s.knots.length - s.order - 1) (by omega) (by omega)
      have htol : (0 : ℝ) < snapTol := by unfold snapTol; positivity
      linarith
    have hi2 : s.InSegment (s.kn (i + 1)) i := ⟨i1, i2, hlt, hlt.le, .inr ⟨rfl, hlast⟩⟩
    refine ⟨idx _ (ad _ hlt.le le_rfl) hi2, none _ _ (ad _ hlt.le le_rfl) hi2 ?_⟩
    obtain ⟨q, hq⟩ : ∃ q, s.order - 1 = q + 1 := ⟨s.order - 2, by omega⟩
    have := Zeros.piece_first_right s.kn (i + 1 - s.order) q
    rw [← hq, show i + 1 - s.order + (s.order - 1) = i by omega] at this
    exact this

theorem evalOf (r : BSpline ℝ D) (s : BSpline ℝ D) (hr : SharedKnots s r) (h : s.WF) {t : ℝ} (ha : s.Admissible t) {i : ℕ} (hi : s.InSegment t i) :
    r.eval t = .ok (fun d => (Zeros.seg s.kn (s.order - 1) (fun j => r.col j d) i).eval t) := by
  have hc := h.coeffs_len
  have g2 := hi.upper
  have ho := h.order_pos
  have ha' : r.Admissible t := by
    unfold Admissible
    rw [hr.order, hr.knots, hr.kn_eq]
    exact ha
  have hi' : r.InSegment t i := by
    refine ⟨?_, ?_, ?_, ?_, ?_⟩
    · rw [hr.order]; exact hi.lower
    · rw [hr.order, hr.knots]; exact hi.upper
    · rw [hr.kn_eq]; exact hi.pos
    · rw [hr.kn_eq]; exact hi.left
    · rw [hr.order, hr.knots, hr.kn_eq]; exact hi.right
  unfold BSpline.eval evalD
  rw [if_neg (by omega), Int.toNat_zero, evalDNat_of_inSegment hr.wf ha' hi' 0, hr.length_eq h, hr.order, hr.kn_eq]
  refine congrArg Outcome.ok (funext fun d => ?_)
  rw [Zeros.seg_eval (N := s.coeffs.length) _ (by omega), Fin.sum_univ_eq_sum_range (fun j => r.col j d * (piece s.kn i (s.order - 1) j).eval t)]
  rfl

theorem seg_natDegree (kn : ℕ → ℝ) (p : ℕ) (c : ℕ → ℝ) (i : ℕ) : (Zeros.seg kn p c i).natDegree ≤ p := by
  unfold Zeros.seg
  refine natDegree_sum_le_of_forall_le _ _ fun j _ => ?_
  exact (natDegree_C_mul_le _ _).trans (piece_natDegree kn i p j)

/-- The polynomial of a segment that is zero at as many times as the order has zero coefficients. -/
theorem seg_zero {s : BSpline ℝ D} (h : s.WF) {i : ℕ} (i1 : s.order - 1 ≤ i) (i2 : i + 1 ≤ s.knots.length - s.order) (hlt : s.kn i < s.kn (i + 1))
    (c : ℕ → ℝ) (T : Finset ℝ) (hT : s.order ≤ T.card) (hz : ∀ t ∈ T, (Zeros.seg s.kn (s.order - 1) c i).eval t = 0) :
    ∀ j, i + 1 - s.order ≤ j → j ≤ i → c j = 0 := by
  have ho := h.order_pos
  have hn := h.enough
  have h0 : Zeros.seg s.kn (s.order - 1) c i = 0 := by
    refine eq_zero_of_natDegree_lt_card_of_eval_eq_zero' _ T hz ?_
    have := seg_natDegree s.kn (s.order - 1) c i
    omega
  intro j j1 j2
  exact piece_independent s.kn s.knots.length i h.mono hlt (s.order - 1) i1 (by omega) c h0 j (by omega) j2

theorem seg_sub (kn : ℕ → ℝ) (p : ℕ) (c c' : ℕ → ℝ) (i : ℕ) : Zeros.seg kn p (fun j => c j - c' j) i = Zeros.seg kn p c i - Zeros.seg kn p c' i := by
  unfold Zeros.seg
  rw [← sum_sub_distrib]
  exact sum_congr rfl fun j _ => by rw [C_sub, sub_mul]

/-- **C109**: two splines over the same knots whose values agree at as many times of one segment as the order have the same coefficients there,
and agree on the whole segment. -/
theorem C109_segment (s r : BSpline ℝ D) (h : s.WF) (hw : s.WideLast) (hr : SharedKnots s r) (seg : ℕ) (a b : ℝ)
    (hab : s.timeIntervalOf seg = .ok (a, b)) (T : Finset ℝ) (hT : s.order ≤ T.card) (hin : ∀ t ∈ T, a ≤ t ∧ t < b)
    (hag : ∀ t ∈ T, r.eval t = s.eval t) :
    ∃ idx, s.segmentVvCoefficientVectorIndices seg = .ok idx ∧ (∀ j ∈ idx, r.vvCoefficientVector j = s.vvCoefficientVector j) ∧
      ∀ t, a ≤ t → t < b → r.eval t = s.eval t := by
  have ho := h.order_pos
  have hn := h.enough
  have hc := h.coeffs_len
  have hcr := hr.length_eq h
  obtain ⟨i, i1, i2, rfl, rfl, i3⟩ := timeIntervalOf_eq h hab
  have hwd := WideLast.wide h hw
  have hm := h.mono
  have hlt : s.kn i < s.kn (i + 1) := by
    obtain ⟨t, ht⟩ := card_pos.1 (show 0 < T.card by omega)
    exact lt_of_le_of_lt (hin t ht).1 (hin t ht).2
  have hseg : ∀ t, s.kn i ≤ t → t < s.kn (i + 1) → s.Admissible t ∧ s.InSegment t i := fun t a b =>
    ⟨admissible_of_wide t hwd (le_trans (hm _ _ i1 (by omega)) a) (le_trans b.le (hm _ _ i2 (by omega))), ⟨i1, i2, hlt, a, .inl b⟩⟩
  have hself : SharedKnots s s := ⟨h, rfl, rfl⟩
  have hcol : ∀ j, i + 1 - s.order ≤ j → j ≤ i → r.col j = s.col j := by
    intro j j1 j2
    funext d
    have := seg_zero h i1 i2 hlt (fun j => r.col j d - s.col j d) T hT (fun t ht => by
      obtain ⟨ad, is⟩ := hseg t (hin t ht).1 (hin t ht).2
      have e := hag t ht
      rw [evalOf r s hr h ad is, evalOf s s hself h ad is] at e
      have := congrFun (Outcome.ok.inj e) d
      rw [seg_sub, eval_sub, this, sub_self]) j j1 j2
    linarith
  refine ⟨linSpacedIdx s.order (i + 1 - s.order), ?_, fun j hj => ?_, fun t t1 t2 => ?_⟩
  · unfold segmentVvCoefficientVectorIndices
    have hns : ¬ ((seg : ℤ) < 0 ∨ (s.numValidTimeSegments : ℤ) ≤ seg) := by
      intro hcon
      unfold timeIntervalOf at hab
      split_ifs at hab
    rw [if_neg hns, Int.toNat_natCast, show i + 1 - s.order = seg by omega]
  · obtain ⟨j1, j2⟩ := (mem_linSpacedIdx _ _ _).1 hj
    unfold vvCoefficientVector
    rw [hcr, if_neg (by omega), if_neg (by omega), Int.toNat_natCast, hcol j j1 (by omega)]
  · obtain ⟨ad, is⟩ := hseg t t1 t2
    rw [evalOf r s hr h ad is, evalOf s s hself h ad is]
    refine congrArg Outcome.ok (funext fun d => ?_)
    rw [Zeros.seg_congr fun j j1 j2 => congrFun (hcol j (by omega) j2) d]

/-- **C109**: two splines over the same knots, with no empty segment, that describe the same curve are equal in all coefficients. -/
theorem C109_curve (s r : BSpline ℝ D) (h : s.WF) (hw : s.WideLast) (hr : SharedKnots s r)
    (hne : ∀ (seg : ℤ) a b, s.timeIntervalOf seg = .ok (a, b) → a < b)
    (hag : ∀ t tmin tmax, s.tMin = .ok tmin → s.tMax = .ok tmax → tmin ≤ t → t ≤ tmax → r.eval t = s.eval t) : r.coeffs = s.coeffs := by
  have ho := h.order_pos
  have hn := h.enough
  have hc := h.coeffs_len
  have hcr := hr.length_eq h
  have hm := h.mono
  refine List.ext_getElem hcr fun j h1 h2 => ?_
  -- a segment with coefficient `j`
  obtain ⟨seg, hs1, hs2, hs3⟩ : ∃ seg : ℕ, seg < s.numValidTimeSegments ∧ seg ≤ j ∧ j < seg + s.order := by
    unfold numValidTimeSegments numValidTimeSegmentsOf
    by_cases c : j < s.order
    · exact ⟨0, by omega, by omega, by omega⟩
    · exact ⟨j + 1 - s.order, by omega, by omega, by omega⟩
  have hab : s.timeIntervalOf seg = .ok (s.kn (s.order + seg - 1), s.kn (s.order + seg)) := by
    unfold timeIntervalOf minimumKnotsRequired numKnotsRequired numCoefficientsRequired
    rw [if_neg (by omega), if_neg (by omega), Int.toNat_natCast]
  unfold numValidTimeSegments numValidTimeSegmentsOf at hs1
  have hlt := hne seg _ _ hab
  set a := s.kn (s.order + seg - 1)
  set b := s.kn (s.order + seg)
  let f : ℕ → ℝ := fun l => a + (b - a) * (l / s.order)
  have hpos : (0 : ℝ) < s.order := by exact_mod_cast (by omega : 0 < s.order)
  have hf : Function.Injective f := by
    intro x y hxy
    have h0 : (b - a) * ((x : ℝ) / s.order) = (b - a) * (y / s.order) := add_left_cancel hxy
    have h1 := mul_left_cancel₀ (by linarith : b - a ≠ 0) h0
    have h2 := (div_left_inj' hpos.ne').1 h1
    exact_mod_cast h2
  have hin : ∀ t ∈ (range s.order).image f, a ≤ t ∧ t < b := by
    intro t ht
    obtain ⟨l, hl, rfl⟩ := mem_image.1 ht
    have h0 : (0 : ℝ) ≤ l / s.order := by positivity
    have h1 : (l : ℝ) / s.order < 1 := (div_lt_one hpos).2 (by exact_mod_cast mem_range.1 hl)
    constructor
    · change a ≤ a + (b - a) * (l / s.order)
      nlinarith
    · change a + (b - a) * (l / s.order) < b
      nlinarith
  obtain ⟨idx, e1, e2, -⟩ := C109_segment s r h hw hr seg a b hab ((range s.order).image f) (by rw [card_image_of_injective _ hf, card_range]) hin
    fun t ht => hag t _ _ (tMin_eq h) (tMax_eq h) (le_trans (hm _ _ (by omega) (by omega)) (hin t ht).1)
      (le_trans (hin t ht).2.le (hm _ _ (by omega) (by omega)))
  unfold segmentVvCoefficientVectorIndices at e1
  unfold numValidTimeSegments numValidTimeSegmentsOf at e1
  rw [if_neg (by omega), Int.toNat_natCast, Outcome.ok.injEq] at e1
  subst e1
  have e := e2 j ((mem_linSpacedIdx _ _ _).2 ⟨hs2, hs3⟩)
  unfold vvCoefficientVector at e
  rw [hcr, if_neg (by omega), if_neg (by omega), Int.toNat_natCast, Outcome.ok.injEq] at e
  unfold BSpline.col at e
  rw [List.getD_eq_getElem?_getD, List.getD_eq_getElem?_getD, List.getElem?_eq_getElem h1, List.getElem?_eq_getElem h2] at e
  exact e

/-! ### Examples -/

theorem exReal_times : exReal.tMin = .ok 2 ∧ exReal.tMax = .ok 4 := ⟨rfl, rfl⟩

/-- At 5/2 the first four of the six coefficients have influence. -/
example : ∃ idx, exReal.localVvCoefficientVectorIndices (5 / 2) = .ok idx ∧ ∀ j : ℕ, j < 6 →
    (j ∈ idx ↔ ∃ c s', exReal.setVvCoefficientVector j c = .ok s' ∧ s'.eval (5 / 2) ≠ exReal.eval (5 / 2)) := by
  obtain ⟨idx, h1, h2⟩ := C109_reported exReal exReal_wf exReal_wide le_rfl (5 / 2) 2 4 rfl rfl (by norm_num) (by norm_num) (by
    show (5 / 2 : ℝ) ∉ ([0, 1, 1, 2, 3, 3, 4, 6, 7, 8] : List ℝ)
    norm_num)
  exact ⟨idx, h1, fun j hj => (h2 j hj).1⟩

/-- At 3 the sixth has none, at 4 the third. -/
example : ∃ lo : ℕ, exReal.localVvCoefficientVectorIndices 3 = .ok ((List.range 4).map (lo + ·)) ∧
    (∀ c s', exReal.setVvCoefficientVector (lo + 3 : ℕ) c = .ok s' → s'.eval 3 = exReal.eval 3) ∧
    ∀ c s', exReal.setVvCoefficientVector lo c = .ok s' → s'.eval 4 = exReal.eval 4 := by
  obtain ⟨lo, h1, h2, h3⟩ := C109_at_knot exReal exReal_wf exReal_wide 2 3 4 rfl (by norm_num)
  exact ⟨lo, h1, h2, (h3 rfl).2⟩

/-- Four values between 2 and 3 give the rest of the curve up to 3. -/
example (r : BSpline ℝ 1) (hr : SharedKnots exReal r) (h : ∀ t ∈ ({2, 9 / 4, 5 / 2, 11 / 4} : Finset ℝ), r.eval t = exReal.eval t) :
    r.eval (21 / 10) = exReal.eval (21 / 10) := by
  obtain ⟨-, -, -, h3⟩ := C109_segment exReal r exReal_wf exReal_wide hr 0 2 3 rfl {2, 9 / 4, 5 / 2, 11 / 4} (by
    rw [card_insert_of_notMem (by norm_num), card_insert_of_notMem (by norm_num), card_insert_of_notMem (by norm_num), card_singleton]
    exact le_rfl) (fun t ht => by
      simp only [mem_insert, mem_singleton] at ht
      rcases ht with rfl | rfl | rfl | rfl <;> norm_num) h
  exact h3 _ (by norm_num) (by norm_num)

/-- A spline without empty segments. -/
noncomputable def exPlain : BSpline ℝ 1 := initializeBasisMatrices ⟨2, [0, 1, 2, 4, 5], [![1], ![5], ![-2]], []⟩

theorem exPlain_wf : exPlain.WF := initializeBasisMatrices_wf _ (by decide) (by norm_num) (by decide) (by decide)

theorem exPlain_segments (seg : ℤ) (a b : ℝ) (h : exPlain.timeIntervalOf seg = .ok (a, b)) : (seg = 0 ∧ a = 1 ∧ b = 2) ∨ (seg = 1 ∧ a = 2 ∧ b = 4) := by
  have hn : exPlain.numValidTimeSegments = 2 := rfl
  have hs : 0 ≤ seg ∧ seg < 2 := by
    unfold timeIntervalOf at h
    split_ifs at h with c1 c2
    rw [hn] at c2
    constructor <;> push_cast at c2 <;> omega
  obtain rfl | rfl : seg = 0 ∨ seg = 1 := by omega
  · have e : exPlain.timeIntervalOf 0 = .ok (1, 2) := rfl
    rw [e, Outcome.ok.injEq, Prod.mk.injEq] at h
    exact .inl ⟨rfl, h.1.symm, h.2.symm⟩
  · have e : exPlain.timeIntervalOf 1 = .ok (2, 4) := rfl
    rw [e, Outcome.ok.injEq, Prod.mk.injEq] at h
    exact .inr ⟨rfl, h.1.symm, h.2.symm⟩

theorem exPlain_wide : exPlain.WideLast := by
  intro a b hab
  rcases exPlain_segments _ _ _ hab with ⟨-, rfl, rfl⟩ | ⟨-, rfl, rfl⟩ <;> norm_num

example (r : BSpline ℝ 1) (hr : SharedKnots exPlain r) (h : ∀ t, 1 ≤ t → t ≤ 4 → r.eval t = exPlain.eval t) : r.coeffs = [![1], ![5], ![-2]] :=
  C109_curve exPlain r exPlain_wf exPlain_wide hr (fun seg a b hab => by
    rcases exPlain_segments _ _ _ hab with ⟨-, rfl, rfl⟩ | ⟨-, rfl, rfl⟩ <;> norm_num) fun t tmin tmax h1 h2 h3 h4 => by
      have e1 : exPlain.tMin = .ok 1 := rfl
      have e2 : exPlain.tMax = .ok 4 := rfl
      rw [e1, Outcome.ok.injEq] at h1
      rw [e2, Outcome.ok.injEq] at h2
      subst h1 h2
      exact h t h3 h4

end Verif
