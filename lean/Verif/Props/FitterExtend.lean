import Verif.Model.Fitter
import Verif.Props.Euclidean

/-!
# C39: extending and refitting a spline, which data are used
-/

set_option linter.unusedSectionVars false

namespace Verif.MSpline

variable {K : Type*} [Field K] [LinearOrder K] [IsStrictOrderedRing K] {D : ℕ}

theorem firstRelevant_at {P : Type*} {s : MSpline K P} (h : s.MWF) {i : ℕ} (h1 : s.order ≤ i + 1) (h2 : i < s.keys.length) :
    s.firstRelevantByLast s.keys[i]? = .ok s.keys[i + 1 - s.order]? := by
  have hk := h.order_pos
  unfold firstRelevantByLast absBegin
  rw [show (-((s.order : ℤ) - 1)) = -((s.order - 1 : ℕ) : ℤ) by omega]
  have e : max (i - (s.order - 1)) 0 = i + 1 - s.order := by omega
  have := moveIter_bwd h.nodup (Nat.zero_le i) h2.le (s.order - 1)
  rw [e] at this
  exact this

theorem segIter_at {P : Type*} {s : MSpline K P} (h : s.MWF) (he : s.state = .evaluable) {t : K} {i : ℕ} (hi : s.InSeg t i) :
    s.getSegmentIterator t = .ok s.keys[i]? := by
  obtain ⟨h1, h2⟩ := hi.range h
  obtain ⟨j, hj, hj'⟩ := getSegmentIterator_ok h he t h1 h2
  rw [hj', hj.unique h hi]

/-- The loop visits the knots from the first relevant one up to the one before the old end. -/
theorem relevantKeys_at {P : Type*} {s : MSpline K P} (h : s.MWF) (m : ℕ) (hm : m < s.keys.length) : ∀ d f, d = m - f → f ≤ m →
    relevantKeys (s.kn m) (s.keys.drop f) = .ok ((s.keys.take m).drop f)
  | 0, f, hd, hf => by
    have e : f = m := by omega
    subst e
    rw [List.drop_eq_getElem_cons hm]
    unfold relevantKeys
    have hk : s.keys[f] = s.kn f := by
      have := kn_getElem s hm
      rw [List.getElem?_eq_getElem hm, Option.some.injEq] at this
      exact this
    rw [hk, if_neg (lt_irrefl _)]
    simp
  | (d + 1), f, hd, hf => by
    have hlt : f < s.keys.length := by omega
    rw [List.drop_eq_getElem_cons hlt]
    unfold relevantKeys
    have hk : s.keys[f] = s.kn f := by
      have := kn_getElem s hlt
      rw [List.getElem?_eq_getElem hlt, Option.some.injEq] at this
      exact this
    rw [if_pos (by rw [hk]; exact h.strict (by omega) hm), relevantKeys_at h m hm d (f + 1) (by omega) (by omega), Outcome.map_ok]
    congr 1
    have hf' : f < (s.keys.take m).length := by rw [List.length_take]; omega
    rw [List.drop_eq_getElem_cons hf', List.getElem_take]

theorem relevantKeys_none {P : Type*} {s : MSpline K P} (h : s.MWF) (m f : ℕ) (hf : f < s.keys.length) (hmf : m ≤ f) :
    relevantKeys (s.kn m) (s.keys.drop f) = .ok [] := by
  rw [List.drop_eq_getElem_cons hf]
  unfold relevantKeys
  have hk : s.keys[f] = s.kn f := by
    have := kn_getElem s hf
    rw [List.getElem?_eq_getElem hf, Option.some.injEq] at this
    exact this
  rw [hk, if_neg (not_lt.2 (h.mono _ _ hmf hf))]

/-- The curve is evaluated at each knot following a visited one. -/
theorem retained_at {s : MSpline K (Fin D → K)} (h : s.MWF) (he : s.state = .evaluable) (m : ℕ) (hm : m + s.order ≤ s.keys.length) :
    ∀ d f, d = m - f → s.order - 1 ≤ f + 1 →
    ∃ old, s.retained (s.kn (s.order - 1)) ((s.keys.take m).drop f) = .ok old ∧ old.map Prod.fst = (s.keys.take (m + 1)).drop (f + 1) ∧
      ∀ x ∈ old, s.euclideanEval x.1 = .ok x.2
  | 0, f, hd, hf => by
    refine ⟨[], ?_, ?_, by simp⟩
    · rw [List.drop_eq_nil_of_le (by rw [List.length_take]; omega)]
      rfl
    · rw [List.drop_eq_nil_of_le (by rw [List.length_take]; omega)]
      rfl
  | (d + 1), f, hd, hf => by
    have hk := h.order_pos
    have hlt : f < s.keys.length := by omega
    have hlt1 : f + 1 < s.keys.length := by omega
    obtain ⟨old, r1, r2, r3⟩ := retained_at h he m hm d (f + 1) (by omega) (by omega)
    have hf' : f < (s.keys.take m).length := by rw [List.length_take]; omega
    have hf1 : f + 1 < (s.keys.take (m + 1)).length := by rw [List.length_take]; omega
    have hkf : s.keys[f + 1] = s.kn (f + 1) := by
      have := kn_getElem s hlt1
      rw [List.getElem?_eq_getElem hlt1, Option.some.injEq] at this
      exact this
    have hmin : s.kn (s.order - 1) ≤ s.kn (f + 1) := h.mono _ _ hf (by omega)
    obtain ⟨i, hi, -⟩ := getSegmentIterator_ok h he (s.kn (f + 1)) hmin (h.mono _ _ (by omega) (by omega))
    have hev : s.euclideanEval (s.kn (f + 1)) = .ok (s.segSum i 0 (s.kn (f + 1))) := euclideanEvalD_eq h he hi none 0 (by simp)
    refine ⟨(s.kn (f + 1), s.segSum i 0 (s.kn (f + 1))) :: old, ?_, ?_, ?_⟩
    · rw [List.drop_eq_getElem_cons hf', List.getElem_take]
      unfold retained
      rw [← List.getElem?_eq_getElem hlt, itInc_at h.nodup hlt, Outcome.bind_ok, kn_getElem s hlt1]
      simp only []
      rw [if_pos hmin, hev, Outcome.bind_ok, r1, Outcome.map_ok]
    · rw [List.drop_eq_getElem_cons hf1, List.getElem_take, List.map_cons, r2, hkf]
    · intro x hx
      rcases List.mem_cons.1 hx with rfl | hx
      · exact hev
      · exact r3 x hx

/-- C39 (partial): the data.  `s` is the spline after the extension, `oldMax` the maximum time before, a knot with number `m`; the
first new time lies in segment `seg`.  If the knot following the first relevant one is not before the minimum time
(`2 * order ≤ seg + 3`), or no old vertex is concerned, then the data used are exactly the curve at the knots from there to the old
maximum, weighted with `percent / (100 - percent)`, followed by the new measurements with weight one.  Missing: without the condition
the statement is false, see `C39_start_gap`. -/
theorem C39_data_partial (order : ℕ) (ho : 1 ≤ order) (s : MSpline K (Fin D → K))
    (hr : RegularReach (euclidean K (Fin D → K)) order s) (he : s.state = .evaluable) (oldMax tmax t0 : K) (m seg : ℕ)
    (hm : s.keys[m]? = some oldMax) (hmax : s.getMaxTime = .ok tmax) (hle : oldMax ≤ tmax)
    (times : List K) (points : List (Fin D → K)) (ht0 : times.head? = some t0) (hseg : s.getSegmentIterator t0 = .ok s.keys[seg]?)
    (hsl : seg < s.keys.length) (hstart : 2 * order ≤ seg + 3 ∨ m + order ≤ seg + 1) (percent : K) :
    ∃ old : List (K × (Fin D → K)),
      old.map Prod.fst = (s.keys.take (m + 1)).drop (seg + 2 - order) ∧ (∀ x ∈ old, s.euclideanEval x.1 = .ok x.2) ∧
      s.extendData oldMax times points percent = .ok ⟨old.map Prod.fst ++ times, (old.map Prod.snd ++ points).map some,
        (old.map (fun _ => some (percent / (100 - percent)))) ++ points.map fun _ => some 1⟩ := by
  obtain ⟨hw, rfl⟩ := hr.mwf ho
  have hn := hw.enough he
  have hml : m < s.keys.length := by
    by_contra hc
    rw [List.getElem?_eq_none (by omega)] at hm
    cases hm
  rw [kn_getElem s hml, Option.some.injEq] at hm
  subst hm
  rw [getMaxTime_eq hw he, Outcome.ok.injEq] at hmax
  subst hmax
  have hm2 : m + s.order ≤ s.keys.length := by
    by_contra hc
    exact absurd hle (not_le.2 (hw.strict (by omega) hml))
  obtain ⟨i, hi, hi'⟩ : ∃ i, s.InSeg t0 i ∧ s.getSegmentIterator t0 = .ok s.keys[i]? := by
    rcases evaluable_total hw he t0 with ⟨i, hi⟩ | ht
    · exact ⟨i, hi, segIter_at hw he hi⟩
    · rw [getSegmentIterator_throws hw he t0 ht] at hseg
      cases hseg
  have l1 := hi.lower
  have l2 := hi.upper
  have e : i = seg := by
    rw [hi', Outcome.ok.injEq, at_inj hw.nodup (by omega) hsl.le] at hseg
    exact hseg
  subst e
  have key : ∃ old, (relevantKeys (s.kn m) (s.keys.drop (i + 1 - s.order))).bind (fun visited =>
        (s.retained (s.kn (s.order - 1)) visited).bind fun old => .ok (visited.length, old)) = .ok (old.length, old) ∧
      old.map Prod.fst = (s.keys.take (m + 1)).drop (i + 2 - s.order) ∧ ∀ x ∈ old, s.euclideanEval x.1 = .ok x.2 := by
    by_cases hc : m ≤ i + 1 - s.order
    · refine ⟨[], ?_, ?_, by simp⟩
      · rw [relevantKeys_none hw m _ (by omega) hc]
        rfl
      · rw [List.drop_eq_nil_of_le (by rw [List.length_take]; omega)]
        rfl
    · obtain ⟨old, r1, r2, r3⟩ := retained_at hw he m hm2 _ (i + 1 - s.order) rfl (by omega)
      refine ⟨old, ?_, ?_, r3⟩
      · rw [relevantKeys_at hw m hml _ _ rfl (by omega), Outcome.bind_ok, r1, Outcome.bind_ok]
        have hl := congrArg List.length r2
        rw [List.length_map, List.length_drop, List.length_take] at hl
        rw [List.length_drop, List.length_take, hl]
        congr 2
        omega
      · rw [r2]
        congr 1
        omega
  obtain ⟨old, r1, r2, r3⟩ := key
  refine ⟨old, r2, r3, ?_⟩
  unfold extendData
  rw [ht0]
  simp only []
  rw [hi', Outcome.bind_ok, firstRelevant_at hw l1 (by omega), Outcome.bind_ok, itPos_at hw.nodup (by omega)]
  cases hrel : relevantKeys (s.kn m) (s.keys.drop (i + 1 - s.order)) with
  | throws => rw [hrel] at r1; cases r1
  | ub => rw [hrel] at r1; cases r1
  | ok visited =>
    rw [hrel, Outcome.bind_ok] at r1
    rw [Outcome.bind_ok, getMinTime_eq hw he, Outcome.bind_ok]
    cases hret : s.retained (s.kn (s.order - 1)) visited with
    | throws => rw [hret] at r1; cases r1
    | ub => rw [hret] at r1; cases r1
    | ok old' =>
      rw [hret, Outcome.bind_ok, Outcome.ok.injEq, Prod.mk.injEq] at r1
      obtain ⟨q1, rfl⟩ := r1
      rw [Outcome.bind_ok]
      simp [q1, Function.comp_def]

/-- C39: each new time is paired with its own point and weight one, whatever precedes. -/
theorem C39_pairs (s : MSpline K (Fin D → K)) (oldMax : K) (times : List K) (points : List (Fin D → K))
    (hlen : times.length = points.length) (percent : K) (d : FitData K D) (hd : s.extendData oldMax times points percent = .ok d) :
    d.times.length = d.points.length ∧ d.weights.length = d.points.length ∧
      ∀ i : ℕ, i < times.length → ∃ j, j = d.times.length - times.length + i ∧
        d.times[j]? = times[i]? ∧ d.points[j]? = points[i]?.map some ∧ d.weights[j]? = some (some 1) := by
  unfold extendData at hd
  cases ht : times.head? with
  | none => rw [ht] at hd; cases hd
  | some t0 =>
    rw [ht] at hd
    simp only [Outcome.bind_eq_ok] at hd
    obtain ⟨it, -, fi, -, visited, -, tmin, -, old, -, hd⟩ := hd
    rw [Outcome.ok.injEq] at hd
    subst hd
    refine ⟨by simp [hlen], by simp, fun i hi => ⟨old.length + (visited.length - old.length) + i, ?_, ?_, ?_, ?_⟩⟩
    · simp only [List.length_append, List.length_map, List.length_replicate]
      omega
    · dsimp only
      rw [List.getElem?_append_right (by simp)]
      congr 1
      simp
    · dsimp only
      rw [List.getElem?_append_right (by simp), List.getElem?_map]
      congr 2
      simp
    · dsimp only
      rw [List.getElem?_append_right (by simp), List.getElem?_map]
      have : i < points.length := by omega
      simp [this]

/-- C39 (partial): the fit.  Under the condition of `C39_data_partial` the extended spline `s1` is fitted to the retained samples
followed by the new measurements, with the weights belonging to them and no vertex fixed.  Missing: see `C39_data_partial`. -/
theorem C39_fit_partial (dense : Bool) (solve : Solver K) (project : (Fin D → K) → Fin D → K) (order : ℕ) (ho : 1 ≤ order)
    (s s1 : MSpline K (Fin D → K)) (hr : RegularReach (euclidean K (Fin D → K)) order s) (he : s.state = .evaluable) (oldMax t0 tl : K)
    (hmax : s.getMaxTime = .ok oldMax) (times : List K) (points : List (Fin D → K)) (hlen : times.length = points.length)
    (ht0 : times.head? = some t0) (htl : times.getLast? = some tl) (ts : List K) (hts : (s.keys ++ ts).Pairwise (· < ·))
    (hs1 : s1 = if oldMax < tl then (s.appendSegments (euclidean K (Fin D → K)) ts none).2 else s) (seg : ℕ)
    (hseg : s1.getSegmentIterator t0 = .ok s1.keys[seg]?) (hsl : seg < s1.keys.length) (hstart : 2 * order ≤ seg + 3)
    (percent : ℕ) (hp0 : 0 < percent) (hp1 : percent < 100) (lambda : K) (offsets : Bool) :
    ∃ old : List (K × (Fin D → K)),
      (∀ x ∈ old, x.1 ∈ s.keys ∧ x.1 ≤ oldMax ∧ s1.euclideanEval x.1 = .ok x.2) ∧
      (∀ t ∈ s.keys, t ≤ oldMax → s1.keys.getD (seg + 1 - order) 0 < t → t ∈ old.map Prod.fst) ∧
      s.extendAndFit dense solve project (euclidean K (Fin D → K)) ts times points lambda percent offsets =
        s1.fitSpline dense solve project (old.map Prod.fst ++ times) (old.map Prod.snd ++ points) lambda 0
          (some fun i => if i < old.length then (percent : K) / (100 - percent) else 1) offsets := by
  obtain ⟨hw, ho'⟩ := hr.mwf ho
  have hn := hw.enough he
  subst ho'
  rw [getMaxTime_eq hw he, Outcome.ok.injEq] at hmax
  subst hmax
  have hpos : 0 < points.length := by
    rw [← hlen]
    cases times with
    | nil => simp at ht0
    | cons => simp
  -- the extended spline
  have hext : RegularReach (euclidean K (Fin D → K)) s.order s1 ∧ s1.state = .evaluable ∧
      (∃ ts', s1.keys = s.keys ++ ts') ∧
      (if s.kn (s.keys.length - s.order) < tl then ((s.appendSegments (euclidean K (Fin D → K)) ts none).1.map fun _ => (),
        (s.appendSegments (euclidean K (Fin D → K)) ts none).2) else (Outcome.ok (), s)) = (.ok (), s1) := by
    by_cases hc : s.kn (s.keys.length - s.order) < tl
    · rw [if_pos hc] at hs1
      obtain ⟨tmax', s', r1, r2, r3, r4, -⟩ := C23_past (euclidean K (Fin D → K)) s.order ho s hr he ts none hts _ _
        (getMinTime_eq hw he) (getMaxTime_eq hw he)
      rw [r1] at hs1
      dsimp only at hs1
      subst hs1
      exact ⟨r2, r3, ⟨ts, r4⟩, by rw [if_pos hc, r1]; rfl⟩
    · rw [if_neg hc] at hs1
      subst hs1
      exact ⟨hr, he, ⟨[], by simp⟩, by rw [if_neg hc]⟩
  obtain ⟨hr1, he1, ⟨ts', hk1⟩, hext⟩ := hext
  obtain ⟨hw1, ho1⟩ := hr1.mwf ho
  have hn1 := hw1.enough he1
  have hkl : s1.keys.length = s.keys.length + ts'.length := by rw [hk1, List.length_append]
  have hm : s1.keys[s.keys.length - s.order]? = some (s.kn (s.keys.length - s.order)) := by
    rw [hk1, List.getElem?_append_left (by omega), kn_getElem s (by omega)]
  have hknm : s1.kn (s.keys.length - s.order) = s.kn (s.keys.length - s.order) := by
    rw [kn_getElem s1 (by omega), Option.some.injEq] at hm
    exact hm
  obtain ⟨old, r1, r2, r3⟩ := C39_data_partial s.order ho s1 hr1 he1 _ _ t0 _ seg hm (getMaxTime_eq hw1 he1)
    (by rw [← hknm]; exact hw1.mono _ _ (by omega) (by omega)) times points ht0 hseg hsl (.inl hstart) (percent : K)
  refine ⟨old, fun x hx => ?_, fun t ht htm hlt => ?_, ?_⟩
  · have hmem : x.1 ∈ (s1.keys.take (s.keys.length - s.order + 1)).drop (seg + 2 - s.order) := by
      rw [← r1]; exact List.mem_map_of_mem hx
    have hmem := List.mem_of_mem_drop hmem
    rw [hk1, List.take_append_of_le_length (by omega)] at hmem
    refine ⟨List.mem_of_mem_take hmem, ?_, r2 x hx⟩
    obtain ⟨j, hj, hj'⟩ := List.getElem_of_mem hmem
    rw [List.length_take] at hj
    rw [List.getElem_take] at hj'
    have := kn_getElem s (show j < s.keys.length by omega)
    rw [List.getElem?_eq_getElem (by omega), hj', Option.some.injEq] at this
    rw [this]
    exact hw.mono _ _ (by omega) (by omega)
  · obtain ⟨j, hj, hj'⟩ := List.getElem_of_mem ht
    have hjk := kn_getElem s hj
    rw [List.getElem?_eq_getElem hj, hj', Option.some.injEq] at hjk
    have hjm : j ≤ s.keys.length - s.order := by
      by_contra hc
      rw [hjk] at htm
      exact absurd htm (not_le.2 (hw.strict (by omega) hj))
    have hsj : seg + 1 - s.order < j := by
      by_contra hc
      have e1 : s1.keys.getD (seg + 1 - s.order) 0 = s1.kn (seg + 1 - s.order) := rfl
      rw [e1, hjk, ← kn_append hk1 hj] at hlt
      exact absurd hlt (not_lt.2 (hw1.mono _ _ (by omega) (by omega)))
    rw [r1]
    have hjl : j - (seg + 2 - s.order) < ((s1.keys.take (s.keys.length - s.order + 1)).drop (seg + 2 - s.order)).length := by
      rw [List.length_drop, List.length_take]
      omega
    have hget := List.getElem_mem hjl
    rw [List.getElem_drop, List.getElem_take] at hget
    have e2 : s1.keys[seg + 2 - s.order + (j - (seg + 2 - s.order))]? = some t := by
      rw [show seg + 2 - s.order + (j - (seg + 2 - s.order)) = j by omega, hk1, List.getElem?_append_left hj,
        List.getElem?_eq_getElem hj, hj']
    rw [List.getElem?_eq_getElem (by omega), Option.some.injEq] at e2
    rw [e2] at hget
    exact hget
  · unfold extendAndFit
    rw [if_neg (by omega), if_neg (by omega), if_neg (by omega), ht0, htl, getMaxTime_eq hw he]
    dsimp only
    rw [hext]
    dsimp only
    rw [if_neg (by omega), if_neg (by omega), r3]
    dsimp only
    rw [if_pos]
    · congr 1
      · rw [List.map_map]
        simp [Function.comp_def]
      · congr 1
        funext i
        rw [List.getD_eq_getElem?_getD]
        by_cases hi : i < old.length
        · rw [if_pos hi, List.getElem?_append_left (by simpa using hi), List.getElem?_map, List.getElem?_eq_getElem hi]
          rfl
        · rw [if_neg hi, List.getElem?_append_right (by simpa using hi), List.getElem?_map]
          cases points[i - (old.map fun _ => some ((percent : K) / (100 - percent))).length]? <;> rfl
    · simp

/-- C39: with percentage zero the extended spline is fitted to exactly the new measurements, no vertex fixed; with percentage one
hundred to exactly the new measurements with the vertices before the old maximum time fixed. -/
theorem C39_extremes (dense : Bool) (solve : Solver K) (project : (Fin D → K) → Fin D → K) (order : ℕ) (ho : 1 ≤ order)
    (s s1 : MSpline K (Fin D → K)) (hr : RegularReach (euclidean K (Fin D → K)) order s) (he : s.state = .evaluable) (oldMax t0 tl : K)
    (hmax : s.getMaxTime = .ok oldMax) (times : List K) (points : List (Fin D → K)) (hlen : times.length = points.length)
    (ht0 : times.head? = some t0) (htl : times.getLast? = some tl) (hlt : oldMax < tl) (ts : List K)
    (hts : (s.keys ++ ts).Pairwise (· < ·)) (hs1 : s1 = (s.appendSegments (euclidean K (Fin D → K)) ts none).2) (lambda : K)
    (offsets : Bool) (seg : ℕ) (hseg : s1.getSegmentIterator t0 = .ok s1.keys[seg]?) (hsl : seg < s1.keys.length) (nv : ℕ)
    (hnv : s.numControlVertices = .ok nv) :
    s.extendAndFit dense solve project (euclidean K (Fin D → K)) ts times points lambda 0 offsets =
      s1.fitSpline dense solve project times points lambda 0 none offsets ∧
    s.extendAndFit dense solve project (euclidean K (Fin D → K)) ts times points lambda 100 offsets =
      s1.fitSpline dense solve project times points lambda (nv - (seg + 1 - order)) none offsets := by
  obtain ⟨hw, ho'⟩ := hr.mwf ho
  have hn := hw.enough he
  subst ho'
  rw [getMaxTime_eq hw he, Outcome.ok.injEq] at hmax
  subst hmax
  rw [numControlVertices_eq hw he, Outcome.ok.injEq] at hnv
  subst hnv
  have hpos : 0 < points.length := by
    rw [← hlen]
    cases times with
    | nil => simp at ht0
    | cons => simp
  obtain ⟨tmax', s', r1, r2, r3, r4, -⟩ := C23_past (euclidean K (Fin D → K)) s.order ho s hr he ts none hts _ _
    (getMinTime_eq hw he) (getMaxTime_eq hw he)
  rw [r1] at hs1
  dsimp only at hs1
  subst hs1
  obtain ⟨hw1, ho1⟩ := r2.mwf ho
  have hkl : s1.keys.length = s.keys.length + ts.length := by rw [r4, List.length_append]
  obtain ⟨i, hi, hi'⟩ : ∃ i, s1.InSeg t0 i ∧ s1.getSegmentIterator t0 = .ok s1.keys[i]? := by
    rcases evaluable_total hw1 r3 t0 with ⟨i, hi⟩ | ht
    · exact ⟨i, hi, segIter_at hw1 r3 hi⟩
    · rw [getSegmentIterator_throws hw1 r3 t0 ht] at hseg
      cases hseg
  have l1 := hi.lower
  have l2 := hi.upper
  have e : i = seg := by
    rw [hi', Outcome.ok.injEq, at_inj hw1.nodup (by omega) hsl.le] at hseg
    exact hseg
  subst e
  constructor
  · unfold extendAndFit
    rw [if_neg (by omega), if_neg (by omega), if_neg (by omega), ht0, htl, getMaxTime_eq hw he]
    dsimp only
    rw [if_pos hlt, r1]
    dsimp only [Outcome.map]
    rw [if_pos rfl]
  · unfold extendAndFit
    rw [if_neg (by omega), if_neg (by omega), if_neg (by omega), ht0, htl, getMaxTime_eq hw he]
    dsimp only
    rw [if_pos hlt, r1]
    dsimp only [Outcome.map]
    rw [if_neg (by omega), if_pos rfl, hi', Outcome.bind_ok, firstRelevant_at hw1 l1 (by omega), Outcome.bind_ok,
      itPos_at hw1.nodup (by omega), if_pos hlt]
    have hknm : s.kn (s.keys.length - s.order) = s1.kn (s.keys.length - s.order) := (kn_append r4 (by omega)).symm
    rw [hknm, ← ho1]
    by_cases hc : s.keys.length - s1.order ≤ i + 1 - s1.order
    · rw [relevantKeys_none hw1 _ _ (by omega) hc]
      dsimp only
      congr 1
      simp only [List.length_nil]
      omega
    · rw [relevantKeys_at hw1 _ (by omega) _ _ rfl (by omega)]
      dsimp only
      congr 1
      rw [List.length_drop, List.length_take]
      omega

/-- A spline of order 3 with valid interval `[2, 5]`. -/
def fitDemo : MSpline ℚ (Fin 1 → ℚ) :=
  ((Call.initWithKnotsAndControlVertices [0, 1, 2, 3, 4, 5, 6, 7] [![0], ![1], ![2], ![3], ![4]]).run
    (euclidean ℚ (Fin 1 → ℚ)) (create 3)).2

theorem fitDemo_reach : RegularReach (euclidean ℚ (Fin 1 → ℚ)) 3 fitDemo := .call _ .create trivial

/-- The same with valid interval `[0, 3]`. -/
def fitDemo0 : MSpline ℚ (Fin 1 → ℚ) :=
  ((Call.initWithKnotsAndControlVertices [-2, -1, 0, 1, 2, 3, 4, 5] [![0], ![1], ![2], ![3], ![4]]).run
    (euclidean ℚ (Fin 1 → ℚ)) (create 3)).2

/-- C39 is violated near the start of the spline.  Measurements at `5/2` and `6` extend a spline that is valid on `[2, 5]`: all is as
required, but between the retained samples and the new measurements an element is left that belongs to neither, and the fit is
rejected.  If the valid interval contains zero, as for `fitDemo0`, the left over element passes the checks, and weights are read
outside their array. -/
theorem C39_start_gap :
    ((fitDemo.appendSegments (euclidean ℚ (Fin 1 → ℚ)) [8, 9] none).2.extendData 5 [5 / 2, 6] [![7], ![8]] 50).map
      (fun d => (d.times, d.points.map fun p => p.map fun p => p 0)) =
        .ok ([2, 3, 4, 5, 0, 5 / 2, 6], [some (1 / 2), some (3 / 2), some (5 / 2), some (7 / 2), none, some 7, some 8]) ∧
    (fitDemo.extendAndFit true (fun _ _ _ _ => 0) id (euclidean ℚ (Fin 1 → ℚ)) [8, 9] [5 / 2, 6] [![7], ![8]] 0 50 false).1 = .throws ∧
    (fitDemo0.extendAndFit true (fun _ _ _ _ => 0) id (euclidean ℚ (Fin 1 → ℚ)) [6, 7] [1 / 2, 4] [![7], ![8]] 0 50 false).1 = .ub := by
  decide +kernel

/-- Not vacuous: from the second segment on the data are as required. -/
example := C39_fit_partial true (fun _ _ _ _ => 0) id 3 (by omega) fitDemo _ fitDemo_reach (by decide +kernel) 5 (7 / 2) 6
  (by decide +kernel) [7 / 2, 6] [![7], ![8]] rfl rfl rfl [8, 9] (by decide +kernel) rfl 3 (by decide +kernel) (by decide +kernel)
  (by omega) 50 (by omega) (by omega) 0 false

example := C39_extremes true (fun _ _ _ _ => 0) id 3 (by omega) fitDemo _ fitDemo_reach (by decide +kernel) 5 (7 / 2) 6
  (by decide +kernel) [7 / 2, 6] [![7], ![8]] rfl rfl rfl (by decide +kernel) [8, 9] (by decide +kernel) rfl 0 false 3
  (by decide +kernel) (by decide +kernel) 5 (by decide +kernel)

example : ((fitDemo.appendSegments (euclidean ℚ (Fin 1 → ℚ)) [8, 9] none).2.extendData 5 [7 / 2, 6] [![7], ![8]] 80).map
      (fun d => (d.times, d.points.map fun p => p.map fun p => p 0, d.weights)) =
    .ok ([2, 3, 4, 5, 7 / 2, 6], [some (1 / 2), some (3 / 2), some (5 / 2), some (7 / 2), some 7, some 8],
      [some 4, some 4, some 4, some 4, some 1, some 1]) := by
  decide +kernel

end Verif.MSpline
