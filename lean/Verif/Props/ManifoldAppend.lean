import Verif.Props.ManifoldLife

/-!
# C23: appending segments to a manifold spline preserves the past
-/

set_option linter.unusedSectionVars false

namespace Verif.MSpline

variable {K : Type*} [Field K] [LinearOrder K] [IsStrictOrderedRing K] {P V : Type*}

theorem kn_append {s s' : MSpline K P} {ts : List K} (h : s'.keys = s.keys ++ ts) {j : ℕ} (hj : j < s.keys.length) :
    s'.kn j = s.kn j := by
  have h1 := kn_getElem s hj
  have h2 := kn_getElem s' (show j < s'.keys.length by rw [h, List.length_append]; omega)
  rw [h, List.getElem?_append_left hj, h1, Option.some.injEq] at h2
  exact h2.symm

theorem verts_append {s s' : MSpline K P} (M : Mfd K P V) (value : Option P) (m : ℕ)
    (h : ∀ j, s'.verts[j]? = (s.verts ++ List.replicate m M.default)[j]?.map fun v0 =>
        if s.keys.length - s.order ≤ j ∧ j < s.keys.length - s.order + m then value.getD v0 else v0) {j : ℕ}
    (hj : j < s.keys.length - s.order) : s'.verts[j]? = s.verts[j]? := by
  rw [h, List.getElem?_append_left (by simp [verts, ← keys_length]; omega)]
  rcases s.verts[j]? with _ | v
  · rfl
  · rw [Option.map_some, if_neg (by omega)]

theorem append_inSeg {s s' : MSpline K P} {ts : List K} (hk : s'.keys = s.keys ++ ts) (ho : s'.order = s.order) (hp : 1 ≤ s.order)
    {t : K} {i : ℕ} (hi : s.InSeg t i) (hlt : t < s.kn (s.keys.length - s.order)) : s'.InSeg t i := by
  have h1 := hi.lower
  have h2 := hi.upper
  refine ⟨by rw [ho]; exact h1, by rw [ho, hk, List.length_append]; omega, by rw [kn_append hk (by omega)]; exact hi.left, ?_⟩
  rcases hi.right with h | ⟨h, h'⟩
  · left; rw [kn_append hk (by omega)]; exact h
  · rw [h, show i + 1 = s.keys.length - s.order by omega] at hlt
    exact absurd hlt (lt_irrefl _)

theorem evalGeneric_of {s : MSpline K P} (h : s.MWF) (he : s.state = .evaluable) (M : Mfd K P V) {t : K} {i : ℕ}
    (hi : s.InSeg t i) {p : P} (hp : segCurve M s.order s.kn s.verts i t = some p) : s.evalGeneric M t = .ok p := by
  obtain ⟨q, hq, hq'⟩ := evalGeneric_segCurve h he M hi
  rw [hp, Option.some.injEq] at hq'
  rw [hq, hq']

/-- C23: appending knots that continue the knot sequence leaves the curve unchanged on the old valid interval without its end, for
any manifold and any order; it adds exactly as many valid segments as knots, keeps the minimum time and moves the maximum time on
by as many knots as were appended. -/
theorem C23_past (M : Mfd K P V) (order : ℕ) (ho : 1 ≤ order) (s : MSpline K P) (h : RegularReach M order s)
    (he : s.state = .evaluable) (ts : List K) (value : Option P) (hts : (s.keys ++ ts).Pairwise (· < ·))
    (tmin tmax : K) (hmin : s.getMinTime = .ok tmin) (hmax : s.getMaxTime = .ok tmax) :
    ∃ tmax' s', s.appendSegments M ts value = (.ok tmax', s') ∧ RegularReach M order s' ∧ s'.state = .evaluable ∧
      s'.keys = s.keys ++ ts ∧
      (∀ t, tmin ≤ t → t < tmax → s'.evalGeneric M t = s.evalGeneric M t) ∧
      s'.numValidTimeSegments = s.numValidTimeSegments + ts.length ∧
      s'.getMinTime = .ok tmin ∧ s'.getMaxTime = .ok tmax' ∧
      ∀ j, s.keys[j]? = some tmax → s'.keys[j + ts.length]? = some tmax' := by
  obtain ⟨hw, rfl⟩ := h.mwf ho
  have hn := hw.enough he
  rw [getMinTime_eq hw he, Outcome.ok.injEq] at hmin
  rw [getMaxTime_eq hw he, Outcome.ok.injEq] at hmax
  obtain ⟨s', r1, r2, r3, r4, r5, r6⟩ := append_ok hw he M ts value hts
  have hrr : RegularReach M s.order s' := by
    have := RegularReach.call (.append ts value) h (fun _ => hts)
    simp only [Call.run] at this
    rw [r1] at this
    exact this
  have hl : s'.keys.length = s.keys.length + ts.length := by rw [r5, List.length_append]
  refine ⟨_, s', r1, hrr, r4, r5, fun t h1 h2 => ?_, ?_, ?_, ?_, fun j hj => ?_⟩
  · subst hmin hmax
    obtain ⟨i, hi, -⟩ := getSegmentIterator_ok hw he t h1 h2.le
    have l1 := hi.lower
    have l2 := hi.upper
    have hi' := append_inSeg r5 r3 ho hi h2
    obtain ⟨p, hp, hp'⟩ := evalGeneric_segCurve hw he M hi
    rw [hp]
    refine evalGeneric_of r2 r4 M hi' ?_
    rw [← hp', r3]
    refine segCurve_congr M _ _ _ _ _ _ _ (fun m hm => kn_append r5 (by omega)) ho (fun j _ _ => ?_) l1
    exact verts_append M value ts.length r6 (by omega)
  · unfold numValidTimeSegments
    rw [← keys_length, ← keys_length, hl, r3]
    omega
  · rw [getMinTime_eq r2 r4, r3, kn_append r5 (by omega), hmin]
  · rw [getMaxTime_eq r2 r4, hl, r3]
  · have hj' : j < s.keys.length := by
      by_contra hc
      rw [List.getElem?_eq_none (by omega)] at hj
      cases hj
    have e : j = s.keys.length - s.order := by
      rw [← hmax] at hj
      rw [kn_getElem s hj', Option.some.injEq] at hj
      rcases lt_trichotomy j (s.keys.length - s.order) with h1 | h1 | h1
      · exact absurd hj (hw.strict h1 (by omega)).ne
      · exact h1
      · exact absurd hj (hw.strict h1 hj').ne'
    rw [kn_getElem s' (by omega)]
    congr 2; omega

/-- C23: at the old maximum time the curve is unchanged too, if the order is at least two and following the logarithm to a point
leads to that point.  (What is missing: order one, where the value at the old maximum time changes.) -/
theorem C23_past_end_partial (M : Mfd K P V) (hexp : ∀ a b, M.exp a (M.scale (M.log a b) 1) = b) (order : ℕ) (ho : 2 ≤ order)
    (s : MSpline K P) (h : RegularReach M order s) (he : s.state = .evaluable) (ts : List K) (value : Option P)
    (hts : (s.keys ++ ts).Pairwise (· < ·)) (tmax : K) (hmax : s.getMaxTime = .ok tmax) :
    (s.appendSegments M ts value).2.evalGeneric M tmax = s.evalGeneric M tmax := by
  obtain ⟨hw, rfl⟩ := h.mwf (by omega)
  have hn := hw.enough he
  rw [getMaxTime_eq hw he, Outcome.ok.injEq] at hmax
  obtain ⟨s', r1, r2, r3, r4, r5, r6⟩ := append_ok hw he M ts value hts
  have hl : s'.keys.length = s.keys.length + ts.length := by rw [r5, List.length_append]
  rw [r1]
  subst hmax
  obtain ⟨i, hi, -⟩ := getSegmentIterator_ok hw he (s.kn (s.keys.length - s.order)) (hw.mono _ _ (by omega) (by omega)) le_rfl
  have l1 := hi.lower
  have l2 := hi.upper
  have ei : i + 1 = s.keys.length - s.order := by
    rcases hi.right with h1 | h1
    · exact absurd h1 (not_lt.2 (hw.mono _ _ (by omega) (by omega)))
    · omega
  obtain ⟨p, hp, hp'⟩ := evalGeneric_segCurve hw he M hi
  rw [hp]
  have hcong : segCurve M s'.order s'.kn s'.verts i (s.kn (s.keys.length - s.order)) = some p := by
    rw [← hp', r3]
    refine segCurve_congr M _ _ _ _ _ _ _ (fun m hm => kn_append r5 (by omega)) (by omega) (fun j _ _ => ?_) l1
    exact verts_append M value ts.length r6 (by omega)
  have hkn : s.kn (s.keys.length - s.order) = s'.kn (i + 1) := by rw [ei, kn_append r5 (by omega)]
  rcases Nat.eq_zero_or_pos ts.length with h0 | h0
  · refine evalGeneric_of r2 r4 M (i := i) ⟨by rw [r3]; exact l1, by rw [r3]; omega, ?_, Or.inr ⟨hkn, by rw [r3]; omega⟩⟩ hcong
    rw [kn_append r5 (by omega)]; exact hi.left
  · refine evalGeneric_of r2 r4 M (i := i + 1) ⟨by rw [r3]; omega, by rw [r3]; omega, hkn.ge, Or.inl ?_⟩ ?_
    · rw [hkn]; exact r2.strict (by omega) (by omega)
    · rw [← hcong, hkn]
      symm
      exact segCurve_join M hexp _ _ s'.keys.length (fun a b hab hb => r2.mono a b hab hb) _ i (by omega) (by omega) (by rw [r3]; omega)
        (r2.strict (by omega) (by omega)) (r2.strict (by omega) (by omega)) (by simp only [verts, List.length_map, ← keys_length]; omega)

/-- C23: the control vertices.  The vertices relevant before keep their values, the newly relevant ones get the requested value
(without a requested value they keep what was stored), the remaining ones keep what was stored or are default points. -/
theorem C23_vertices (M : Mfd K P V) (order : ℕ) (ho : 1 ≤ order) (s : MSpline K P) (h : RegularReach M order s)
    (he : s.state = .evaluable) (ts : List K) (value : Option P) (hts : (s.keys ++ ts).Pairwise (· < ·)) (nv : ℕ)
    (hnv : s.numControlVertices = .ok nv) :
    (s.appendSegments M ts value).2.numControlVertices = .ok (nv + ts.length) ∧
    (∀ j, j < nv → (s.appendSegments M ts value).2.verts[j]? = s.verts[j]?) ∧
    (∀ v, value = some v → ∀ j, nv ≤ j → j < nv + ts.length → (s.appendSegments M ts value).2.verts[j]? = some v) ∧
    (value = none → (s.appendSegments M ts value).2.verts = s.verts ++ List.replicate ts.length M.default) := by
  obtain ⟨hw, rfl⟩ := h.mwf ho
  have hn := hw.enough he
  rw [numControlVertices_eq hw he, Outcome.ok.injEq] at hnv
  subst hnv
  obtain ⟨s', r1, r2, r3, r4, r5, r6⟩ := append_ok hw he M ts value hts
  rw [r1]
  refine ⟨?_, fun j hj => verts_append M value ts.length r6 hj, fun v hv j h1 h2 => ?_, fun hv => ?_⟩
  · rw [numControlVertices_eq r2 r4, r5, r3, List.length_append]
    congr 1; omega
  · have hj : j < (s.verts ++ List.replicate ts.length M.default).length := by
      rw [List.length_append, List.length_replicate]
      simp only [verts, List.length_map, ← keys_length]
      omega
    rw [r6, List.getElem?_eq_getElem hj, Option.map_some, if_pos ⟨h1, h2⟩, hv]
    rfl
  · apply List.ext_getElem?
    intro j
    rw [r6, hv]
    simp only [Option.getD_none, ite_self, Option.map_id']

/-- C23, repeatedly: any number of appends leaves the curve unchanged on the original valid interval without its end. -/
theorem C23_repeatedly (M : Mfd K P V) (order : ℕ) (ho : 1 ≤ order) (appends : List (List K × Option P)) :
    ∀ (s : MSpline K P), RegularReach M order s → s.state = .evaluable →
    (s.keys ++ (appends.map Prod.fst).flatten).Pairwise (· < ·) → ∀ tmin tmax, s.getMinTime = .ok tmin → s.getMaxTime = .ok tmax →
    ∀ t, tmin ≤ t → t < tmax →
      (appends.foldl (fun s a => (s.appendSegments M a.1 a.2).2) s).evalGeneric M t = s.evalGeneric M t := by
  induction appends with
  | nil => intros; rfl
  | cons a appends ih =>
    intro s h he hp tmin tmax hmin hmax t h1 h2
    rw [List.map_cons, List.flatten_cons, ← List.append_assoc] at hp
    have hp1 : (s.keys ++ a.1).Pairwise (· < ·) := (List.pairwise_append.1 hp).1
    obtain ⟨tmax', s', r1, r2, r3, r4, r5, -, r7, r8, r9⟩ := C23_past M order ho s h he a.1 a.2 hp1 tmin tmax hmin hmax
    rw [List.foldl_cons, r1]
    have hle : tmax ≤ tmax' := by
      obtain ⟨hw, rfl⟩ := h.mwf ho
      obtain ⟨hw', ho'⟩ := r2.mwf ho
      have hn := hw.enough he
      rw [getMaxTime_eq hw he, Outcome.ok.injEq] at hmax
      have := r9 (s.keys.length - s.order) (by rw [kn_getElem s (by omega), hmax])
      have hl : s'.keys.length = s.keys.length + a.1.length := by rw [r4, List.length_append]
      rw [kn_getElem s' (by omega), Option.some.injEq] at this
      rw [← this, ← hmax, ← kn_append r4 (by omega)]
      exact hw'.mono _ _ (by omega) (by omega)
    rw [ih s' r2 r3 (by rw [r4]; exact hp) tmin tmax' r7 r8 t h1 (h2.trans_le hle), r5 t h1 h2]

theorem deltaGen_jump_last (g : DeltaGen K) : ∀ n : ℕ, (g.jump n).lastKnot = g.lastKnot + n * g.delta ∧ (g.jump n).delta = g.delta
  | 0 => by simp [DeltaGen.jump]
  | (n + 1) => by
    have := deltaGen_jump_last g.next.2 n
    unfold DeltaGen.jump
    rw [this.1, this.2]
    simp only [DeltaGen.next, addScaledDuration]
    push_cast
    exact ⟨by ring, trivial⟩

/-- C23: `appendSegmentsUniformly` continues the knot sequence with the spacing of the last two knots. -/
theorem C23_uniform (M : Mfd K P V) (order : ℕ) (ho : 1 ≤ order) (s : MSpline K P) (h : RegularReach M order s)
    (he : s.state = .evaluable) (n : ℕ) (value : Option P) :
    ∃ l a b, s.keys = l ++ [a, b] ∧
      s.appendSegmentsUniformly M n value = s.appendSegments M ((List.range n).map fun j : ℕ => b + ((j : K) + 1) * (b - a)) value ∧
      (s.keys ++ (List.range n).map fun j : ℕ => b + ((j : K) + 1) * (b - a)).Pairwise (· < ·) := by
  obtain ⟨hw, rfl⟩ := h.mwf ho
  have hn := hw.enough he
  have hd := hw.nodup
  have hab : s.kn (s.keys.length - 2) < s.kn (s.keys.length - 1) := hw.strict (by omega) (by omega)
  refine ⟨s.keys.take (s.keys.length - 2), s.kn (s.keys.length - 2), s.kn (s.keys.length - 1), ?_, ?_, ?_⟩
  · apply List.ext_getElem?
    intro j
    rcases Nat.lt_or_ge j (s.keys.length - 2) with h1 | h1
    · rw [List.getElem?_append_left (by rw [List.length_take]; omega), List.getElem?_take, if_pos h1]
    · rw [List.getElem?_append_right (by rw [List.length_take]; omega), List.length_take,
        show min (s.keys.length - 2) s.keys.length = s.keys.length - 2 by omega]
      rcases (by omega : j = s.keys.length - 2 ∨ j = s.keys.length - 1 ∨ s.keys.length ≤ j) with h2 | h2 | h2
      · rw [h2, kn_getElem s (by omega)]; simp
      · rw [h2, kn_getElem s (by omega), show s.keys.length - 1 - (s.keys.length - 2) = 1 by omega]; simp
      · rw [List.getElem?_eq_none h2, List.getElem?_eq_none (by simp only [List.length_cons, List.length_nil]; omega)]
  · unfold appendSegmentsUniformly absBegin
    have e1 : moveIter s.keys none s.keys[0]? (-1) = .ok s.keys[s.keys.length - 1]? := by
      have := moveIter_bwd hd (Nat.zero_le _) (le_refl s.keys.length) 1
      rw [← at_end, Nat.cast_one] at this
      rw [this]; simp
    have e2 : moveIter s.keys s.keys[s.keys.length - 1]? s.keys[0]? (-1) = .ok s.keys[s.keys.length - 2]? := by
      have := moveIter_bwd hd (Nat.zero_le _) (show s.keys.length - 1 ≤ s.keys.length by omega) 1
      rw [Nat.cast_one] at this
      rw [this]
      congr 2; omega
    rw [e1, Outcome.bind_ok, e2, Outcome.bind_ok, kn_getElem s (by omega : s.keys.length - 1 < s.keys.length),
      kn_getElem s (by omega : s.keys.length - 2 < s.keys.length)]
    simp only []
    congr 1
    refine List.map_congr_left fun j _ => ?_
    have h1 := deltaGen_jump_last ((DeltaGen.create (s.order : ℤ) (s.kn (s.keys.length - 2)) 0
      (s.kn (s.keys.length - 1) - s.kn (s.keys.length - 2)) true).jump 2) j
    have h2 := deltaGen_jump_last (DeltaGen.create (s.order : ℤ) (s.kn (s.keys.length - 2)) 0
      (s.kn (s.keys.length - 1) - s.kn (s.keys.length - 2)) true) 2
    simp only [DeltaGen.next, addScaledDuration]
    rw [h1.1, h1.2, h2.1, h2.2]
    simp only [DeltaGen.create, firstLastKnot, addScaledDuration]
    push_cast
    simp
    ring
  · rw [List.pairwise_append]
    refine ⟨hw.sorted, ?_, ?_⟩
    · rw [List.pairwise_map]
      refine List.pairwise_lt_range.imp fun {i j} hij => ?_
      have : ((i : K)) < j := by exact_mod_cast hij
      nlinarith
    · intro x hx y hy
      obtain ⟨j, -, rfl⟩ := List.mem_map.1 hy
      obtain ⟨i, hi, rfl⟩ := List.mem_iff_getElem.1 hx
      have e : s.keys[i] = s.kn i := by
        have := kn_getElem s hi
        rw [List.getElem?_eq_getElem hi, Option.some.injEq] at this
        exact this
      rw [e]
      have h1 : s.kn i ≤ s.kn (s.keys.length - 1) := hw.mono _ _ (by omega) (by omega)
      have h2 : (0 : K) ≤ j := Nat.cast_nonneg j
      nlinarith

/-- For order one the value at the old maximum time does change: the half open last interval was closed before. -/
theorem C23_order_one_end : ∃ s : MSpline ℚ ℚ, RegularReach halfLine 1 s ∧ s.getMaxTime = .ok 2 ∧ s.evalGeneric halfLine 2 = .ok 1 ∧
    (s.appendSegments halfLine [3] (some 5)).2.evalGeneric halfLine 2 = .ok 5 :=
  ⟨((Call.initWithKnotsAndControlVertices [0, 1, 2] [0, 1]).run halfLine (create 1)).2, .call _ .create trivial,
    by decide +kernel, by decide +kernel, by decide +kernel⟩

/-- Not vacuous: appending two knots to the example spline. -/
example : (demo.keys ++ [5, 6]).Pairwise (· < ·) ∧ demo.getMinTime = .ok 1 ∧ demo.getMaxTime = .ok 3 ∧
    demo.numControlVertices = .ok 3 ∧ (demo.appendSegments halfLine [5, 6] (some 2)).1 = .ok 5 ∧
    (demo.appendSegments halfLine [5, 6] (some 2)).2.evalGeneric halfLine (5 / 2) = .ok (5 / 2) ∧
    demo.evalGeneric halfLine (5 / 2) = .ok (5 / 2) ∧
    (demo.appendSegments halfLine [5, 6] (some 2)).2.evalGeneric halfLine 4 = .ok 2 := by
  decide +kernel

/-- Not vacuous: the half line satisfies the condition on the logarithm. -/
example : ∀ a b, halfLine.exp a (halfLine.scale (halfLine.log a b) 1) = b := by
  intro a b; simp [halfLine]

example : (demo.appendSegmentsUniformly halfLine 2 (some 2)).1 = .ok 5 ∧
    (demo.appendSegmentsUniformly halfLine 2 (some 2)).2.keys = [0, 1, 2, 3, 4, 5, 6] := by decide +kernel

end Verif.MSpline
