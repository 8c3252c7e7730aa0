import Verif.Model.ManifoldConstant
import Verif.Props.ManifoldInit
import Verif.Props.Knots
import Verif.Props.LieGroup
import Verif.Lemmas.Euclidean
import Verif.Lemmas.PieceFacts

/-!
# Constant initialisation of manifold splines (C67)
-/

set_option linter.unusedSectionVars false

namespace Verif.MSpline

open Finset

section Init

variable {K : Type*} [Field K] [LinearOrder K] [IsStrictOrderedRing K] {P V : Type*}

theorem forEach_constant (M : Mfd K P V) (c : P) (hc : M.isIn c = true) : ∀ (l : List K) (s : MSpline K P),
    (s.keys ++ l).Pairwise (· < ·) →
    forEach (fun t => addControlVertex M t c) l s =
      (.ok (), ⟨s.order, s.segs ++ l.map (fun x => ⟨x, c, none⟩), s.state, s.iters⟩)
  | [], s, _ => by simp [forEach]
  | a :: l, s, hs => by
    have h := forEach_vertices M [(a, c)] s (by simp [hc]) (by
      refine hs.sublist ?_
      simp)
    have h' : s.addControlVertex M a c = (.ok (), ⟨s.order, s.segs ++ [⟨a, c, none⟩], s.state, s.iters⟩) := by
      unfold forEach forEach at h
      revert h
      cases h1 : s.addControlVertex M a c with
      | mk o s1 =>
        cases o with
        | ok u => intro h; simpa using h
        | throws => intro h; simp at h
        | ub => intro h; simp at h
    unfold forEach
    rw [h']
    simp only
    rw [forEach_constant M c hc l _ (by simpa [keys] using hs)]
    simp

/-- **C67**: initialising with a constant on strictly increasing knots, at least twice as many as the order, always succeeds; the knots are
those given, all vertices the constant, the valid interval goes from knot `order - 1` to knot `size - order`. -/
theorem C67_init_constant (M : Mfd K P V) (order : ℕ) (ho : 1 ≤ order) (ts : List K) (hts : ts.Pairwise (· < ·))
    (hlen : 2 * order ≤ ts.length) (c : P) (hc : M.isIn c = true) :
    ∃ s, (create order).initConstantSpline M ts c = (.ok (), s) ∧ RegularReach M order s ∧ s.state = .evaluable ∧
      s.keys = ts ∧ s.verts = List.replicate ts.length c ∧ s.numControlVertices = .ok (ts.length - order) ∧
      s.numValidTimeSegments = ts.length + 1 - 2 * order ∧
      s.getMinTime = .ok (ts.getD (order - 1) 0) ∧ s.getMaxTime = .ok (ts.getD (ts.length - order) 0) := by
  set b : MSpline K P := ⟨order, ts.map (fun x => ⟨x, c, none⟩), .constructing, none⟩ with hb
  have hkeys : b.keys = ts := by
    rw [hb]
    simp [keys, Function.comp_def]
  have hbw : b.MWF := by
    refine ⟨ho, by rw [hkeys]; exact hts, ?_, ?_, ?_⟩ <;> intro h <;> cases h
  have hrun : (create order).initConstantSpline M ts c = b.init := by
    unfold initConstantSpline andThen assertConstructing create
    simp only []
    rw [forEach_constant M c hc ts _ (by simpa [keys] using hts)]
    simp only [List.nil_append]
    rfl
  obtain ⟨segs', r1, r2, r3⟩ := init_ok hbw rfl (by rw [hkeys]; exact hlen)
  refine ⟨_, hrun.trans r1, ?_⟩
  generalize hs : (⟨b.order, segs', .evaluable,
        some ⟨b.keys[0]?, b.keys[b.order - 1]?, b.keys[b.keys.length - b.order]?⟩⟩ : MSpline K P) = s at *
  have hreach : RegularReach M order s := by
    have := RegularReach.call (M := M) (order := order) (.initConstant ts c) .create trivial
    simp only [Call.run, hrun, r1] at this
    exact this
  have hst : s.state = .evaluable := by rw [← hs]
  have hk : s.keys = ts := by rw [← hs]; exact r2.trans hkeys
  obtain ⟨hw, hord⟩ := hreach.mwf ho
  have hv : s.verts = List.replicate ts.length c := by
    have : s.verts = b.verts := by
      rw [← hs]
      apply List.ext_getElem?
      intro j
      simp only [verts, List.getElem?_map]
      rw [r3.2 j, Option.map_map]
      congr 1
      funext g
      simp only [Function.comp]
      split <;> rfl
    rw [this, hb]
    simp [verts, Function.comp_def, List.map_const']
  refine ⟨hreach, hst, hk, hv, ?_, ?_, ?_, ?_⟩
  · rw [numControlVertices_eq hw hst, hk, hord]
  · have : s.segs.length = ts.length := by rw [← hk]; simp [keys]
    unfold numValidTimeSegments
    omega
  · rw [getMinTime_eq hw hst, hord]; unfold kn; rw [hk]
  · rw [getMaxTime_eq hw hst, hord]; unfold kn; rw [hk]

end Init

section Uniform

variable {K : Type*} [Field K] [LinearOrder K] [IsStrictOrderedRing K] [FloorRing K] {P V : Type*}

/-- The list is what the loop gets. -/
theorem knots_drain (T : TimePolicy K) (g : IntervalGen K) (h : g.nextIndex ≤ g.numKnots) :
    ∃ g', Drain IntervalGen.hasNext (IntervalGen.next T) g (g.knots T) g' := by
  have := intervalGen_drain T g.timeCalculator g.numKnots (g.numKnots - g.nextIndex).toNat g.nextIndex (by omega)
  exact ⟨_, this⟩

/-- **C67**: the constant uniform initialisation with `n ≥ 1` segments of a non-empty interval succeeds for every order and point of the
manifold; the knots divide the interval evenly, the valid interval is the one given, there are `n` segments. -/
theorem C67_uniform (M : Mfd K P V) (order : ℕ) (ho : 1 ≤ order) (a b : K) (hab : a < b) (n : ℕ) (hn : 1 ≤ n) (c : P)
    (hc : M.isIn c = true) :
    ∃ s, (create order).initConstantUniformSpline M (fieldPolicy K) a b n c = (.ok (), s) ∧ RegularReach M order s ∧
      s.state = .evaluable ∧ s.keys.length = n + 2 * order - 1 ∧
      (∀ j : ℕ, j < n + 2 * order - 1 → s.keys[j]? = some (a + ((j : K) - ((order : K) - 1)) * ((b - a) / n))) ∧
      (∀ v ∈ s.verts, v = c) ∧ s.verts.length = n + 2 * order - 1 ∧ s.numControlVertices = .ok (n + order - 1) ∧
      s.numValidTimeSegments = n ∧ s.getMinTime = .ok a ∧ s.getMaxTime = .ok b := by
  have hcr : IntervalGen.create (order : ℤ) a b (n : ℤ) = .ok ⟨⟨a, b, n, order⟩, 0, numKnotsRequiredInt n order⟩ := by
    unfold IntervalGen.create
    rw [if_neg (by omega), if_neg (by simpa using hab)]
  set g : IntervalGen K := ⟨⟨a, b, n, order⟩, 0, numKnotsRequiredInt n order⟩ with hg
  have hnum : (g.numKnots - g.nextIndex).toNat = n + 2 * order - 1 := by
    simp only [hg, numKnotsRequiredInt, numControlVerticesRequired]
    omega
  have hks : g.knots (fieldPolicy K) = (List.range (n + 2 * order - 1)).map fun j : ℕ => a + ((j : K) - ((order : K) - 1)) * ((b - a) / n) := by
    unfold IntervalGen.knots
    rw [hnum]
    refine List.map_congr_left fun j _ => ?_
    simp only [hg, UniformTimeCalculator.getTimeByKnotIndex, preambleKnots]
    rw [linearlyInterpolate_field a b n hn]
    push_cast
    ring
  have hn' : (0 : K) < n := by exact_mod_cast hn
  have hstep : 0 < (b - a) / (n : K) := div_pos (sub_pos.2 hab) hn'
  have hp : (g.knots (fieldPolicy K)).Pairwise (· < ·) := by
    rw [hks, List.pairwise_map]
    refine List.Pairwise.imp ?_ List.pairwise_lt_range
    intro i j hij
    have : (i : K) < j := by exact_mod_cast hij
    nlinarith
  have hl : (g.knots (fieldPolicy K)).length = n + 2 * order - 1 := by rw [hks]; simp
  obtain ⟨s, h1, h2, h3, h4, h5, h6, h7, h8, h9⟩ := C67_init_constant M order ho _ hp (by omega) c hc
  have hget : ∀ j : ℕ, j < n + 2 * order - 1 → (g.knots (fieldPolicy K))[j]? = some (a + ((j : K) - ((order : K) - 1)) * ((b - a) / n)) := by
    intro j hj
    rw [hks, List.getElem?_map, List.getElem?_range hj]
    rfl
  refine ⟨s, ?_, h2, h3, by rw [h4, hl], fun j hj => by rw [h4]; exact hget j hj, ?_, by rw [h5]; simpa using hl, ?_, ?_, ?_, ?_⟩
  · unfold initConstantUniformSpline
    rw [show (create order : MSpline K P).order = order from rfl, hcr]
    exact h1
  · intro v hv
    rw [h5] at hv
    exact List.eq_of_mem_replicate hv
  · rw [h6, hl]
    refine congrArg Outcome.ok ?_
    omega
  · rw [h7, hl]
    omega
  · rw [h8, List.getD_eq_getElem?_getD, hget _ (by omega), Option.getD_some]
    refine congrArg Outcome.ok ?_
    rw [Nat.cast_sub ho]
    push_cast
    ring
  · rw [h9, List.getD_eq_getElem?_getD, hl, hget _ (by omega), Option.getD_some]
    refine congrArg Outcome.ok ?_
    rw [show n + 2 * order - 1 - order = n + (order - 1) by omega, Nat.cast_add, Nat.cast_sub ho]
    push_cast
    field_simp
    ring

/-- **C67**: no segments, an empty interval, a point off the manifold or a spline already initialised are rejected, in the first two cases
without changing the spline. -/
theorem C67_rejects (M : Mfd K P V) (s : MSpline K P) (T : TimePolicy K) (a b : K) (n : ℤ) (c : P) :
    (n ≤ 0 ∨ b ≤ a → s.initConstantUniformSpline M T a b n c = (.throws, s)) ∧
    (1 ≤ s.order → M.isIn c = false → (s.initConstantUniformSpline M T a b n c).1 = .throws) ∧
    (s.state = .evaluable → s.initConstantUniformSpline M T a b n c = (.throws, s)) := by
  refine ⟨fun h => ?_, fun ho h => ?_, fun h => ?_⟩
  · unfold initConstantUniformSpline
    rw [C32_rejects _ _ _ _ h]
  · by_cases h0 : n ≤ 0 ∨ b ≤ a
    · unfold initConstantUniformSpline
      rw [C32_rejects _ _ _ _ h0]
    · push Not at h0
      unfold initConstantUniformSpline IntervalGen.create
      rw [if_neg (by omega), if_neg (by simpa using h0.2)]
      simp only
      cases hs : s.state with
      | constructing =>
        refine (C22_rejects_points M s _ [c] hs ⟨c, by simp, h⟩).2.2 c h ?_
        intro hnil
        have := congrArg List.length hnil
        simp only [IntervalGen.knots, numKnotsRequiredInt, numControlVerticesRequired, List.length_map, List.length_range,
          List.length_nil] at this
        omega
      | evaluable =>
        unfold initConstantSpline
        rw [assertConstructing_evaluable hs]
  · unfold initConstantUniformSpline
    cases hg : IntervalGen.create (s.order : ℤ) a b n with
    | throws => rfl
    | ub =>
      exfalso
      revert hg
      unfold IntervalGen.create
      split_ifs <;> simp
    | ok g =>
      simp only
      unfold initConstantSpline
      rw [assertConstructing_evaluable h]

/-- **C67**: the same with a knot distance (`initConstantUniformSplineWithKnotDelta`): the spline starts at the start time, its end is the first
multiple of the distance that is not before the requested time. -/
theorem C67_delta (M : Mfd K P V) (order : ℕ) (ho : 1 ≤ order) (start beyond δ : K) (hδ : 0 < δ) (hb : start < beyond) (c : P)
    (hc : M.isIn c = true) :
    ∃ g' ks s e, Drain DeltaGen.hasNext DeltaGen.next (DeltaGen.create (order : ℤ) start beyond δ false) ks g' ∧
      (create order).initConstantSpline M ks c = (.ok (), s) ∧ RegularReach M order s ∧ s.state = .evaluable ∧
      (∀ v ∈ s.verts, v = c) ∧ s.getMinTime = .ok start ∧ s.getMaxTime = .ok e ∧ beyond ≤ e ∧ e - δ < beyond ∧
      e = start + s.numValidTimeSegments * δ := by
  haveI : Archimedean K := FloorRing.archimedean K
  obtain ⟨g', ks, h1, h2, h3, h4, h5, ⟨e, h6, h7⟩, ⟨e', h8, h9⟩⟩ := C33_delta_generator order ho start beyond δ hδ hb
  obtain ⟨s, r1, r2, r3, r4, r5, -, r7, r8, r9⟩ := C67_init_constant M order ho ks h2 h4 c hc
  have hgrid : ∀ j : ℕ, order - 1 + j < ks.length → ks[order - 1 + j]? = some (start + j * δ) := by
    intro j
    induction j with
    | zero => intro _; simpa using h5
    | succ j ih =>
      intro hj
      have hx := ih (by omega)
      have hy := List.getElem?_eq_getElem hj
      have := h3 (order - 1 + j) _ _ hx hy
      rw [hy]
      refine congrArg some ?_
      push_cast
      linarith
  have hend := hgrid (ks.length + 1 - 2 * order) (by omega)
  rw [show order - 1 + (ks.length + 1 - 2 * order) = ks.length - order by omega, h6, Option.some.injEq] at hend
  have hprev := h3 (ks.length - order - 1) e' e h8 (by rw [show ks.length - order - 1 + 1 = ks.length - order by omega]; exact h6)
  refine ⟨g', ks, s, e, h1, r1, r2, r3, ?_, ?_, ?_, h7, by linarith, by rw [r7]; exact hend⟩
  · intro v hv
    rw [r5] at hv
    exact List.eq_of_mem_replicate hv
  · rw [r8, List.getD_eq_getElem?_getD, h5, Option.getD_some]
  · rw [r9, List.getD_eq_getElem?_getD, h6, Option.getD_some]

end Uniform

/-! ## The curve -/

section Euclidean

variable {K : Type*} [Field K] [LinearOrder K] [IsStrictOrderedRing K] {P : Type*} [AddCommGroup P] [Module K P]

/-- **C67**: a Euclidean spline with equal vertices has this value and derivatives zero at all valid times. -/
theorem C67_euclidean_constant (M : Mfd K P V) (order : ℕ) (ho : 1 ≤ order) (s : MSpline K P) (h : RegularReach M order s)
    (he : s.state = .evaluable) (c : P) (hv : ∀ v ∈ s.verts, v = c) (tmin tmax : K) (hmin : s.getMinTime = .ok tmin)
    (hmax : s.getMaxTime = .ok tmax) (t : K) (h1 : tmin ≤ t) (h2 : t ≤ tmax) (m : Option ℕ) (d : ℕ) (hd : ∀ n, m = some n → d ≤ n) :
    s.euclideanEvalD m t d = .ok (if d = 0 then c else 0) := by
  obtain ⟨hw, rfl⟩ := h.mwf ho
  rw [getMinTime_eq hw he, Outcome.ok.injEq] at hmin
  rw [getMaxTime_eq hw he, Outcome.ok.injEq] at hmax
  subst hmin hmax
  obtain ⟨i, hi, -⟩ := getSegmentIterator_ok hw he t h1 h2
  rw [euclideanEvalD_eq hw he hi m d hd, ← segSum_local hw hi.lower hi.upper d t]
  have hl := hi.lower
  have hu := hi.upper
  have hlen : s.verts.length = s.keys.length := by simp [verts, keys]
  have hvert : ∀ j, j < s.order → s.vert (i + 1 - s.order + j) = c := by
    intro j hj
    unfold vert
    rw [List.getD_eq_getElem?_getD, List.getElem?_eq_getElem (by omega), Option.getD_some]
    exact hv _ (List.getElem_mem _)
  have hsum : ∑ j ∈ range s.order, piece s.kn i (s.order - 1) (i + 1 - s.order + j) = 1 := by
    have hlt : s.kn i < s.kn (i + 1) := hw.strict (by omega) (by have := hw.order_pos; omega)
    have := piece_sum_one s.kn s.keys.length i hw.mono hlt (s.order - 1) (by omega) (by omega)
    rw [← this, Finset.sum_Ico_eq_sum_range]
    rw [show i + 1 - (i - (s.order - 1)) = s.order by omega, show i - (s.order - 1) = i + 1 - s.order by omega]
  refine congrArg Outcome.ok ?_
  rw [sum_congr rfl fun j hj => by rw [hvert j (mem_range.1 hj)], ← sum_smul, ← Polynomial.eval_finsetSum,
    ← Polynomial.iterate_derivative_sum, hsum]
  cases d with
  | zero => simp
  | succ d => rw [Polynomial.iterate_derivative_one (by omega)]; simp

end Euclidean

section Group

variable {K : Type*} [Field K] [LinearOrder K] [IsStrictOrderedRing K] [FloorRing K] {P V : Type*} [SMul K V]

/-- **C67**: the constant uniform initialisation of a Lie group spline gives the constant curve. -/
theorem C67_group_constant {G : LieGrp P V} {H : Set P} (hG : IsGroupOn G H)
    (hlog : ∀ c : K, G.expAtId (c • G.logAtId G.identity) = G.identity) (order : ℕ) (ho : 1 ≤ order) (a b : K) (hab : a < b) (n : ℕ)
    (hn : 1 ≤ n) (c : P) (hc : G.toMfd (K := K).isIn c = true) (hcH : c ∈ H) :
    ∃ s, (create order).initConstantUniformSpline G.toMfd (fieldPolicy K) a b n c = (.ok (), s) ∧
      ∀ t, a ≤ t → t ≤ b → s.evalGeneric G.toMfd t = .ok c := by
  obtain ⟨s, h1, h2, h3, -, -, h6, -, h8, -, h10, h11⟩ := C67_uniform (G.toMfd (K := K)) order ho a b hab n hn c hc
  exact ⟨s, h1, fun t ht1 ht2 => C27_constant hG hlog order ho s h2 h3 _ h8 c hcH (fun v hv => h6 v (List.mem_of_mem_take hv)) a b h10 h11
    t ht1 ht2⟩

end Group

/-! ## Examples -/

/-- `C67_uniform`: a cubic spline with two segments on `[1, 2]` in the half line. -/
example : ∃ s, (create 4 : MSpline ℚ ℚ).initConstantUniformSpline halfLine (fieldPolicy ℚ) 1 2 2 7 = (.ok (), s) ∧
    s.keys.length = 9 ∧ s.numControlVertices = .ok 5 ∧ s.getMinTime = .ok 1 ∧ s.getMaxTime = .ok 2 := by
  obtain ⟨s, h1, -, -, h4, -, -, -, h8, -, h10, h11⟩ := C67_uniform halfLine 4 (by norm_num) 1 2 (by norm_num) 2 (by norm_num) (7 : ℚ)
    (by decide +kernel)
  exact ⟨s, h1, h4, h8, h10, h11⟩

example : ((create 4 : MSpline ℚ ℚ).initConstantUniformSpline halfLine (fieldPolicy ℚ) 1 2 2 7).2.keys =
    [-1/2, 0, 1/2, 1, 3/2, 2, 5/2, 3, 7/2] := by
  decide +kernel

/-- `C67_rejects`: each of the four reasons. -/
example : (create 4 : MSpline ℚ ℚ).initConstantUniformSpline halfLine (fieldPolicy ℚ) 1 2 0 7 = (.throws, create 4) ∧
    (create 4 : MSpline ℚ ℚ).initConstantUniformSpline halfLine (fieldPolicy ℚ) 2 2 1 7 = (.throws, create 4) ∧
    halfLine.isIn (-1 : ℚ) = false :=
  ⟨(C67_rejects halfLine (create 4) _ 1 2 0 7).1 (by decide), (C67_rejects halfLine (create 4) _ 2 2 1 7).1 (by decide), by decide +kernel⟩

/-- `C67_delta`: from 0 beyond 5/2 in steps of 1: three segments, the end is 3. -/
example : ∃ g' ks s e, Drain DeltaGen.hasNext DeltaGen.next (DeltaGen.create (2 : ℤ) (0 : ℚ) (5/2) 1 false) ks g' ∧
    (create 2).initConstantSpline halfLine ks 7 = (.ok (), s) ∧ s.getMaxTime = .ok e ∧ 5/2 ≤ e ∧ e - 1 < 5/2 := by
  obtain ⟨g', ks, s, e, h1, h2, -, -, -, -, h7, h8, h9, -⟩ := C67_delta halfLine 2 (by norm_num) (0 : ℚ) (5/2) 1 (by norm_num) (by norm_num) 7
    (by decide +kernel)
  exact ⟨g', ks, s, e, h1, h2, h7, h8, h9⟩

/-- `C67_euclidean_constant`: the vertices of the tutorial. -/
example : ∃ s, (create 4 : MSpline ℝ (Fin 1 → ℝ)).initConstantUniformSpline (euclidean ℝ (Fin 1 → ℝ)) (fieldPolicy ℝ) 0 3 3 ![10] = (.ok (), s) ∧
    s.euclideanEvalD (some 1) (5 / 2) 0 = .ok ![10] ∧ s.euclideanEvalD (some 1) (5 / 2) 1 = .ok 0 := by
  obtain ⟨s, h1, h2, h3, -, -, h6, -, -, -, h10, h11⟩ := C67_uniform (euclidean ℝ (Fin 1 → ℝ)) 4 (by norm_num) 0 3 (by norm_num) 3
    (by norm_num) ![10] rfl
  refine ⟨s, by exact_mod_cast h1, ?_, ?_⟩
  · simpa using C67_euclidean_constant _ 4 (by norm_num) s h2 h3 _ h6 0 3 h10 h11 (5/2) (by norm_num) (by norm_num) (some 1) 0 (by simp)
  · simpa using C67_euclidean_constant _ 4 (by norm_num) s h2 h3 _ h6 0 3 h10 h11 (5/2) (by norm_num) (by norm_num) (some 1) 1 (by simp)

open Quaternion in
/-- `C67_group_constant`: unit quaternions, with any logarithm that vanishes at one. -/
example (lg : ℍ[ℝ] → V3) (hlg : lg 1 = 0) (q : ℍ[ℝ]) (hq : ‖q‖ = 1) :
    ∃ s, (create 3).initConstantUniformSpline (quatGroup lg).toMfd (fieldPolicy ℝ) 0 1 4 q = (.ok (), s) ∧
      ∀ t, 0 ≤ t → t ≤ 1 → s.evalGeneric (quatGroup lg).toMfd t = .ok q := by
  obtain ⟨s, h1, h2⟩ := C67_group_constant (quat_group lg) (fun c : ℝ => by
      show axisAngle2quat (c • lg 1) = 1
      rw [hlg, smul_zero, axisAngle2quat_eq]
      rw [show quatV 0 = 0 by ext <;> simp, NormedSpace.exp_zero]) 3 (by norm_num) 0 1 (by norm_num) 4 (by norm_num) q
    (by show decide (|‖q‖ - 1| < 1 / 10 ^ 9) = true; rw [hq]; norm_num) hq
  exact ⟨s, by exact_mod_cast h1, h2⟩

end Verif.MSpline
