import Verif.Lemmas.ManifoldSpline
import Verif.Lemmas.PieceFacts
import Verif.Model.EuclideanSpline

/-!
# The evaluator of the manifold spline
-/

set_option linter.unusedSectionVars false

namespace Verif.MSpline

open Finset Polynomial

variable {K : Type*} [Field K] [LinearOrder K] [IsStrictOrderedRing K] {P V : Type*}

/-- Time `t` is evaluated on the knot interval `i`: the valid interval containing it, the last one for the end of the curve. -/
structure InSeg (s : MSpline K P) (t : K) (i : ℕ) : Prop where
  lower : s.order ≤ i + 1
  upper : i + s.order < s.keys.length
  left : s.kn i ≤ t
  right : t < s.kn (i + 1) ∨ (t = s.kn (i + 1) ∧ i + 1 + s.order = s.keys.length)

theorem InSeg.right_le {s : MSpline K P} {t : K} {i : ℕ} (h : s.InSeg t i) : t ≤ s.kn (i + 1) := by
  rcases h.right with h | h
  · exact h.le
  · exact h.1.le

theorem InSeg.unique {s : MSpline K P} (h : s.MWF) {t : K} {i j : ℕ} (hi : s.InSeg t i) (hj : s.InSeg t j) : i = j := by
  have key : ∀ i j, s.InSeg t i → s.InSeg t j → ¬ i < j := by
    intro i j hi hj hij
    have h1 : s.kn (i + 1) ≤ s.kn j := h.mono _ _ (by omega) (by have := hj.upper; omega)
    rcases hi.right with h2 | ⟨_, h3⟩
    · exact absurd (hj.left.trans_lt h2) (not_lt.2 h1)
    · have := hj.upper; omega
  exact le_antisymm (not_lt.1 (key j i hj hi)) (not_lt.1 (key i j hi hj))

theorem getMinTime_eq {s : MSpline K P} (h : s.MWF) (he : s.state = .evaluable) :
    s.getMinTime = .ok (s.kn (s.order - 1)) := by
  have := h.enough he
  have := h.order_pos
  unfold getMinTime
  rw [h.iters_eq he, kn_getElem s (by omega : s.order - 1 < s.keys.length)]

theorem getMaxTime_eq {s : MSpline K P} (h : s.MWF) (he : s.state = .evaluable) :
    s.getMaxTime = .ok (s.kn (s.keys.length - s.order)) := by
  have := h.enough he
  have := h.order_pos
  unfold getMaxTime
  rw [h.iters_eq he, kn_getElem s (by omega : s.keys.length - s.order < s.keys.length)]

theorem getSegmentIterator_ok {s : MSpline K P} (h : s.MWF) (he : s.state = .evaluable) (t : K)
    (h1 : s.kn (s.order - 1) ≤ t) (h2 : t ≤ s.kn (s.keys.length - s.order)) :
    ∃ i, s.InSeg t i ∧ s.getSegmentIterator t = .ok s.keys[i]? := by
  have hn := h.enough he
  have hk := h.order_pos
  have hd := h.nodup
  unfold getSegmentIterator
  rw [getMinTime_eq h he, getMaxTime_eq h he]
  simp only [Outcome.bind_ok]
  rw [if_neg (not_lt.2 h1), if_neg (not_lt.2 h2)]
  by_cases hmax : t = s.kn (s.keys.length - s.order)
  · rw [if_pos hmax, ← kn_getElem s (by omega), itDec_at hd (by omega) (by omega)]
    refine ⟨s.keys.length - s.order - 1, ⟨by omega, by omega, ?_, Or.inr ⟨?_, by omega⟩⟩, rfl⟩
    · rw [hmax]; exact h.mono _ _ (by omega) (by omega)
    · rw [hmax]; congr 1; omega
  · rw [if_neg hmax]
    have hlt : t < s.kn (s.keys.length - s.order) := lt_of_le_of_ne h2 hmax
    have hsle : s.keys.Pairwise (· ≤ ·) := h.sorted.imp fun h => h.le
    have hub : ∀ j, j < s.keys.length → (j < getSegmentIterator.upperBoundIdx s.keys t ↔ s.kn j ≤ t) := by
      intro j hj
      have := BSpline.upperBound_spec s.keys hsle t j hj
      unfold BSpline.upperBound at this
      unfold getSegmentIterator.upperBoundIdx
      rw [this]
      have e := kn_getElem s hj
      rw [List.getElem?_eq_getElem hj, Option.some.injEq] at e
      rw [e]
    have hlo := (hub (s.order - 1) (by omega)).2 h1
    have hhi : getSegmentIterator.upperBoundIdx s.keys t ≤ s.keys.length - s.order := by
      by_contra hc
      exact absurd ((hub _ (by omega)).1 (not_le.1 hc)) (not_le.2 hlt)
    generalize getSegmentIterator.upperBoundIdx s.keys t = u at *
    rw [itDec_at hd (by omega) (by omega)]
    refine ⟨u - 1, ⟨by omega, by omega, (hub _ (by omega)).1 (by omega), Or.inl ?_⟩, rfl⟩
    rw [show u - 1 + 1 = u by omega]
    by_contra hc
    exact absurd ((hub u (by omega)).2 (not_lt.1 hc)) (lt_irrefl _)

theorem getSegmentIterator_throws {s : MSpline K P} (h : s.MWF) (he : s.state = .evaluable) (t : K)
    (ht : t < s.kn (s.order - 1) ∨ s.kn (s.keys.length - s.order) < t) : s.getSegmentIterator t = .throws := by
  unfold getSegmentIterator
  rw [getMinTime_eq h he, getMaxTime_eq h he]
  simp only [Outcome.bind_ok]
  rcases ht with ht | ht
  · rw [if_pos ht]
  · rw [if_pos ht, ite_self]

/-- What the evaluator of a time in knot interval `i` holds. -/
def evaluatorOf (s : MSpline K P) (t : K) (i : ℕ) : Evaluator K :=
  ⟨s.keys[i]?, s.keys[i + 1 - s.order]?, s.keys[i + 1]?, s.kn (i + 1) - s.kn i, (t - s.kn i) / (s.kn (i + 1) - s.kn i)⟩

theorem InSeg.lt {s : MSpline K P} (h : s.MWF) {t : K} {i : ℕ} (hi : s.InSeg t i) : s.kn i < s.kn (i + 1) :=
  h.strict (by omega) (by have := hi.upper; have := h.order_pos; omega)

theorem InSeg.range {s : MSpline K P} (h : s.MWF) {t : K} {i : ℕ} (hi : s.InSeg t i) :
    s.kn (s.order - 1) ≤ t ∧ t ≤ s.kn (s.keys.length - s.order) := by
  have h1 := hi.lower
  have h2 := hi.upper
  have h3 := h.order_pos
  exact ⟨(h.mono _ _ (by omega) (by omega)).trans hi.left, hi.right_le.trans (h.mono _ _ (by omega) (by omega))⟩

theorem segmentLength_eq {s : MSpline K P} (h : s.MWF) {i : ℕ} (hi : i + 1 < s.keys.length) :
    s.segmentLength s.keys[i]? = .ok (s.kn (i + 1) - s.kn i) := by
  have hd := h.nodup
  unfold segmentLength
  rw [kn_getElem s (by omega)]
  simp only []
  rw [← kn_getElem s (by omega), at_end s.keys]
  have := moveIter_fwd hd le_rfl (show i ≤ s.keys.length by omega) 1
  rw [Nat.cast_one] at this
  rw [this, Outcome.bind_ok, show min (i + 1) s.keys.length = i + 1 by omega, kn_getElem s hi]

theorem evaluatorAt_eq {s : MSpline K P} (h : s.MWF) (he : s.state = .evaluable) {t : K} {i : ℕ} (hi : s.InSeg t i) :
    s.evaluatorAt t = .ok (s.evaluatorOf t i) := by
  have h1 := hi.lower
  have h2 := hi.upper
  have h3 := h.order_pos
  have hd := h.nodup
  obtain ⟨hr1, hr2⟩ := hi.range h
  obtain ⟨i', hi', hit⟩ := getSegmentIterator_ok h he t hr1 hr2
  obtain rfl := hi.unique h hi'
  unfold evaluatorAt
  rw [he]
  simp only []
  rw [hit, Outcome.bind_ok]
  unfold firstRelevantByLast absBegin
  rw [show -((s.order : ℤ) - 1) = -((s.order - 1 : ℕ) : ℤ) by omega, moveIter_bwd hd (Nat.zero_le _) (by omega),
    Outcome.bind_ok]
  have hm := moveIter_fwd hd le_rfl (show i ≤ s.keys.length by omega) 1
  rw [← at_end, Nat.cast_one] at hm
  rw [hm, Outcome.bind_ok, segmentLength_eq h (by omega), Outcome.bind_ok]
  rw [kn_getElem s (show i < s.keys.length by omega)]
  simp only []
  have hlt := hi.lt h
  rw [if_neg (by linarith [hlt] : ¬ s.kn (i + 1) - s.kn i = 0)]
  unfold evaluatorOf
  rw [← kn_getElem s (show i < s.keys.length by omega)]
  congr 2
  · congr 1; omega
  · congr 1; omega

theorem evaluatorAt_throws {s : MSpline K P} (h : s.MWF) (t : K) (ht : s.state = .constructing ∨
    t < s.kn (s.order - 1) ∨ s.kn (s.keys.length - s.order) < t) : s.evaluatorAt t = .throws := by
  unfold evaluatorAt
  rcases hst : s.state with _ | _
  · rfl
  · simp only []
    rcases ht with ht | ht
    · rw [hst] at ht; cases ht
    · rw [getSegmentIterator_throws h hst t ht]; rfl

theorem segAt_eq {s : MSpline K P} (h : s.MWF) {i : ℕ} {g : Seg K P} (hg : s.segs[i]? = some g) :
    s.segAt s.keys[i]? = .ok g := by
  have hk : s.keys[i]? = some g.knot := by unfold keys; rw [List.getElem?_map, hg]; rfl
  rw [hk]
  unfold segAt
  have hi : i < s.segs.length := by
    by_contra hc
    rw [List.getElem?_eq_none (by omega)] at hg
    cases hg
  have hf : s.segs.find? (fun x => decide (x.knot = g.knot)) = some g := by
    rw [List.find?_eq_some_iff_getElem]
    refine ⟨by simp, i, hi, ?_, ?_⟩
    · rw [List.getElem?_eq_getElem hi] at hg
      exact Option.some.inj hg
    · intro j hj
      have hne : s.keys[j]? ≠ s.keys[i]? := by
        rw [Ne, at_inj h.nodup (by rw [keys_length]; omega) (by rw [keys_length]; omega)]
        omega
      rw [hk] at hne
      unfold keys at hne
      rw [List.getElem?_map, List.getElem?_eq_getElem (by omega)] at hne
      simpa using hne
  simp only [hf]

theorem evalU_eq (kn : ℕ → K) (k i der : ℕ) (rel : K) :
    evalU k (kn (i + 1) - kn i) rel der = computeU kn k rel i der := by
  funext j
  unfold evalU computeU
  simp only []
  split
  · rfl
  · simp

/-- The local weights are the pieces of the Cox–de Boor functions. -/
theorem localBi_eq {s : MSpline K P} (h : s.MWF) (he : s.state = .evaluable) {t : K} {i : ℕ} (hi : s.InSeg t i) (der : ℕ) :
    ∃ w, s.localBi (s.evaluatorOf t i) der = .ok w ∧ ∀ c, c < s.order →
      w c = (derivative^[der] (piece s.kn i (s.order - 1) (i + 1 - s.order + c))).eval t := by
  have h1 := hi.lower
  have h2 := hi.upper
  have h3 := h.order_pos
  have hlt : i < s.segs.length := by rw [keys_length] at h2; omega
  have hg := List.getElem?_eq_getElem hlt
  refine ⟨BSpline.transposeMul s.order (basisM s.kn i s.order)
    (evalU s.order (s.kn (i + 1) - s.kn i) ((t - s.kn i) / (s.kn (i + 1) - s.kn i)) der), ?_, ?_⟩
  · unfold localBi evaluatorOf
    simp only []
    rw [segAt_eq h hg, Outcome.bind_ok, h.basis_eq he i _ h1 h2 hg]
  · intro c hc
    rw [evalU_eq]
    have e : s.order = s.order - 1 + 1 := by omega
    have := weight_eq_piece s.kn s.keys.length i (s.order - 1) der c h.mono (hi.lt h) (by omega) (by omega) (by omega) t
    rw [← e] at this
    rw [this]
    congr 4; omega

theorem readVertices_eq {s : MSpline K P} (h : s.MWF) : ∀ n i, i + n ≤ s.segs.length →
    s.readVertices n s.keys[i]? = .ok ((s.verts.drop i).take n)
  | 0, i, _ => by simp [readVertices]
  | (n + 1), i, hi => by
    have hlt : i < s.segs.length := by omega
    have hv : i < s.verts.length := by simp [verts]; omega
    unfold readVertices
    rw [segAt_eq h (List.getElem?_eq_getElem hlt), Outcome.bind_ok, itInc_at h.nodup (by rw [keys_length]; omega),
      Outcome.bind_ok, readVertices_eq h n (i + 1) (by omega), Outcome.bind_ok]
    rw [← List.cons_getElem_drop_succ (h := hv), List.take_succ_cons]
    simp [verts]

theorem readVerticesBack_eq {s : MSpline K P} (h : s.MWF) : ∀ n i, i < s.segs.length → n ≤ i + 1 →
    ∃ vs, s.readVerticesBack n s.keys[i]? = .ok vs ∧ vs.length = n ∧ ∀ j, j < n → vs[j]? = s.verts[i - j]?
  | 0, i, _, _ => ⟨[], rfl, rfl, by omega⟩
  | 1, i, hi, _ => by
    refine ⟨[s.segs[i].vertex], ?_, rfl, ?_⟩
    · unfold readVerticesBack
      rw [segAt_eq h (List.getElem?_eq_getElem hi), Outcome.bind_ok]
    · intro j hj
      obtain rfl : j = 0 := by omega
      simp [verts, List.getElem?_eq_getElem hi]
  | (n + 2), i, hi, hn => by
    obtain ⟨vs, r1, r2, r3⟩ := readVerticesBack_eq h (n + 1) (i - 1) (by omega) (by omega)
    refine ⟨s.segs[i].vertex :: vs, ?_, by simp [r2], ?_⟩
    · unfold readVerticesBack
      rw [segAt_eq h (List.getElem?_eq_getElem hi), Outcome.bind_ok, itDec_at h.nodup (by omega) (by rw [keys_length]; omega),
        Outcome.bind_ok, r1, Outcome.bind_ok]
    · intro j hj
      rcases j with _ | j
      · simp [verts, List.getElem?_eq_getElem hi]
      · rw [List.getElem?_cons_succ, r3 j (by omega)]
        congr 1; omega

/-! ### Generic evaluation -/

theorem evalGeneric_eq {s : MSpline K P} (h : s.MWF) (he : s.state = .evaluable) (M : Mfd K P V) {t : K} {i : ℕ}
    (hi : s.InSeg t i) :
    ∃ w c cs, (∀ c, c < s.order → w c = (piece s.kn i (s.order - 1) (i + 1 - s.order + c)).eval t) ∧
      (s.verts.drop (i + 1 - s.order)).take s.order = c :: cs ∧
      s.evalGeneric M t = .ok (genericLoop M (cumulativeOf s.order w 0) 1 c c cs) := by
  have h1 := hi.lower
  have h2 := hi.upper
  have h3 := h.order_pos
  rw [keys_length] at h2
  obtain ⟨w, hw, hwc⟩ := localBi_eq h he hi 0
  have hv : i + 1 - s.order < s.verts.length := by simp [verts]; omega
  refine ⟨w, s.verts[i + 1 - s.order], (s.verts.drop (i + 1 - s.order + 1)).take (s.order - 1), fun c hc => by
    simpa using hwc c hc, ?_, ?_⟩
  · rw [← List.cons_getElem_drop_succ (h := hv), List.take_cons (by omega)]
  · unfold evalGeneric
    rw [evaluatorAt_eq h he hi, Outcome.bind_ok]
    unfold localCumulativeBi
    rw [hw, Outcome.map_ok, Outcome.bind_ok]
    have := readVertices_eq h s.order (i + 1 - s.order) (by omega)
    unfold evaluatorOf
    simp only []
    rw [this, Outcome.bind_ok]
    rw [← List.cons_getElem_drop_succ (h := hv), List.take_cons (by omega)]

end Verif.MSpline
