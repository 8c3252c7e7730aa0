import Verif.Props.FitFixed

/-!
# C113: fitting a manifold spline again

A Euclidean manifold spline that has already been built, extended and fitted is fitted once more.  The theorems compare the spline after the
fit with the spline before it and with the results of fits that have other arguments.
-/

set_option linter.unusedSectionVars false

namespace Verif.MSpline

open Finset Polynomial BSpline MeasureTheory

variable {D : ℕ}

/-- The arguments of `fitSpline`, and the solver it uses. -/
structure Fit (D : ℕ) where
  dense : Bool
  solve : Solver ℝ
  times : List ℝ
  points : List (Fin D → ℝ)
  lambda : ℝ
  fix : ℕ
  weights : Option (ℕ → ℝ)
  offsets : Bool

/-- The call. -/
noncomputable def Fit.run (f : Fit D) (s : MSpline ℝ (Fin D → ℝ)) : Outcome Unit × MSpline ℝ (Fin D → ℝ) :=
  s.fitSpline f.dense f.solve id f.times f.points f.lambda f.fix f.weights f.offsets

/-- A call with as many points as times, the first and last time in the intervals `i0` and `il` of the spline and the others between them,
and without a regularisation when offsets are computed (the code refuses that).  The solver solves positive semidefinite systems. -/
structure Fit.Accepted (f : Fit D) (s : MSpline ℝ (Fin D → ℝ)) (i0 il : ℕ) : Prop where
  solves : SolvesSemidefinite f.solve
  evaluable : s.state = .evaluable
  length : f.times.length = f.points.length
  ends : ∃ t0 tl, f.times.head? = some t0 ∧ f.times.getLast? = some tl ∧ (∀ t ∈ f.times, t0 ≤ t ∧ t ≤ tl) ∧ s.InSeg t0 i0 ∧ s.InSeg tl il
  nonneg : 0 ≤ f.lambda
  offsets : f.offsets = true → f.lambda = 0

/-- In addition there is no regularisation when vertices are fixed (there the code is wrong, see C38). -/
structure Fit.Admissible (f : Fit D) (s : MSpline ℝ (Fin D → ℝ)) (i0 il : ℕ) : Prop extends f.Accepted s i0 il where
  fixed : f.fix = 0 ∨ f.lambda = 0

/-- Splines obtained by any sequence of calls of a reasonable client, among them fits. -/
inductive Life (order : ℕ) : MSpline ℝ (Fin D → ℝ) → Prop
  | create : Life order (MSpline.create order)
  | call {s} (c : Call ℝ (Fin D → ℝ)) : Life order s → c.Regular s → Life order (c.run (euclidean ℝ (Fin D → ℝ)) s).2
  | fit {s} (f : Fit D) (i0 il : ℕ) : Life order s → f.Accepted s i0 il → Life order (f.run s).2

/-- The cost of a spline for a fit. -/
noncomputable def Fit.cost (f : Fit D) (s : MSpline ℝ (Fin D → ℝ)) : ℝ :=
  s.fitterCost (f.times.zip f.points) f.weights f.lambda (s.kn (s.order - 1)) (s.kn (s.keys.length - s.order))

theorem withVerts_withVerts (s : MSpline ℝ (Fin D → ℝ)) (v v' : ℕ → Fin D → ℝ) : (s.withVerts v).withVerts v' = s.withVerts v' := by
  unfold withVerts
  congr 1
  refine List.ext_getElem? fun j => ?_
  simp only [List.getElem?_mapIdx, Option.map_map]
  rfl

theorem withVerts_congr {s : MSpline ℝ (Fin D → ℝ)} {v v' : ℕ → Fin D → ℝ} (h : ∀ j, j < s.keys.length → v j = v' j) :
    s.withVerts v = s.withVerts v' := by
  unfold withVerts
  congr 1
  refine List.ext_getElem? fun j => ?_
  simp only [List.getElem?_mapIdx]
  rcases hg : s.segs[j]? with _ | g
  · rfl
  · have hj : j < s.keys.length := by rw [keys_length]; exact (List.getElem?_eq_some_iff.1 hg).1
    rw [Option.map_some, Option.map_some, h j hj]

theorem vert_ge (s : MSpline ℝ (Fin D → ℝ)) {j : ℕ} (h : s.keys.length ≤ j) : s.vert j = 0 := by
  unfold vert verts
  rw [keys_length] at h
  rw [List.getD_eq_getElem?_getD, List.getElem?_map, List.getElem?_eq_none h]
  rfl

theorem Keeps.vert {s : MSpline ℝ (Fin D → ℝ)} {fix i0 il : ℕ} {v : ℕ → Fin D → ℝ} (h : s.Keeps fix i0 il v) (hl : il < s.keys.length) :
    (s.withVerts v).vert = v := by
  funext j
  by_cases hj : j < s.keys.length
  · exact withVerts_vert s v j hj
  · rw [vert_ge _ (by rw [withVerts_keys]; omega), h j (by omega), vert_ge s (by omega)]

theorem InSeg.withVerts {s : MSpline ℝ (Fin D → ℝ)} (v : ℕ → Fin D → ℝ) {t : ℝ} {i : ℕ} (hi : s.InSeg t i) : (s.withVerts v).InSeg t i := by
  refine ⟨hi.lower, ?_, ?_, ?_⟩
  · rw [withVerts_keys]; exact hi.upper
  · rw [withVerts_kn]; exact hi.left
  · rw [withVerts_kn, withVerts_keys]; exact hi.right

theorem Fit.Admissible.withVerts {f : Fit D} {s : MSpline ℝ (Fin D → ℝ)} {i0 il : ℕ} (h : f.Admissible s i0 il) (v : ℕ → Fin D → ℝ) :
    f.Admissible (s.withVerts v) i0 il := by
  obtain ⟨t0, tl, a, b, c, d, e⟩ := h.ends
  exact ⟨⟨h.solves, h.evaluable, h.length, ⟨t0, tl, a, b, c, d.withVerts v, e.withVerts v⟩, h.nonneg, h.offsets⟩, h.fixed⟩

/-- The fit with any number of fixed vertices and any weight. -/
theorem Fit.run_accepted (hD : 1 ≤ D) {f : Fit D} {s : MSpline ℝ (Fin D → ℝ)} (h : s.MWF) {i0 il : ℕ} (ha : f.Accepted s i0 il) :
    ∃ v, f.run s = (.ok (), s.withVerts v) ∧ s.Keeps f.fix i0 il v := by
  obtain ⟨t0, tl, ht0, htl, hb, h0, hl⟩ := ha.ends
  obtain ⟨v, v1, v2, -⟩ := fitSpline_shifted h ha.evaluable hD f.dense f.solve ha.solves f.times f.points t0 tl ha.length ht0 htl hb i0 il h0 hl
    f.weights f.lambda ha.nonneg f.fix f.offsets ha.offsets
  exact ⟨v, v1, v2⟩

theorem Fit.cost_withVerts (f : Fit D) (s : MSpline ℝ (Fin D → ℝ)) (v : ℕ → Fin D → ℝ) : f.cost (s.withVerts v)
    = (s.withVerts v).fitterCost (f.times.zip f.points) f.weights f.lambda (s.kn (s.order - 1)) (s.kn (s.keys.length - s.order)) := by
  unfold Fit.cost
  rw [withVerts_kn, withVerts_keys]
  rfl

/-- The fit on splines that satisfy the invariant. -/
theorem Fit.run_optimal (hD : 1 ≤ D) {f : Fit D} {s : MSpline ℝ (Fin D → ℝ)} (h : s.MWF) {i0 il : ℕ} (ha : f.Admissible s i0 il) :
    ∃ v, f.run s = (.ok (), s.withVerts v) ∧ s.Keeps f.fix i0 il v ∧
      ∀ v', s.Keeps f.fix i0 il v' → f.cost (s.withVerts v) ≤ f.cost (s.withVerts v') := by
  obtain ⟨t0, tl, ht0, htl, hb, h0, hl⟩ := ha.ends
  obtain ⟨ks, k1, k2⟩ := fitKnots_resolver h ha.evaluable h0 hl
  have hin := fit_input h ha.evaluable ha.length ht0 htl hb h0 hl (mapResolver (fitMap ks)) _ fun t i _ h1 h2 h3 => k2 t i h1 h2 h3
  obtain ⟨v, v1, v2, v3⟩ := calcFitted_optimal h ha.evaluable hD f.dense f.solve ha.solves hin f.weights f.lambda ha.nonneg f.fix ha.fixed
    f.offsets ha.offsets
  refine ⟨v, ?_, v2, fun v' hv' => ?_⟩
  · unfold Fit.run fitSpline
    rw [fitGuard_ok h ha.evaluable ht0 htl hb h0 hl f.points.length ha.length, Outcome.bind_ok, k1]
    exact v1
  · rw [Fit.cost_withVerts, Fit.cost_withVerts]
    exact v3 v' hv'

theorem Life.mwf {order : ℕ} (ho : 1 ≤ order) (hD : 1 ≤ D) {s : MSpline ℝ (Fin D → ℝ)} (h : Life order s) : s.MWF ∧ s.order = order := by
  induction h with
  | create => exact RegularReach.mwf ho (.create : RegularReach (euclidean ℝ (Fin D → ℝ)) order _)
  | call c _ hr ih =>
    have := regular_mwf (euclidean ℝ (Fin D → ℝ)) c ih.1 hr
    exact ⟨this.1, this.2.2.trans ih.2⟩
  | fit f i0 il _ ha ih =>
    obtain ⟨v, v1, -⟩ := Fit.run_accepted hD ih.1 ha
    rw [v1]
    exact ⟨withVerts_mwf ih.1 v, ih.2⟩

/-- C113: whatever calls and fits came before, a fit succeeds, changes only free vertices, and no other choice of the free vertices has a
smaller cost. -/
theorem C113_optimal {order : ℕ} (ho : 1 ≤ order) (hD : 1 ≤ D) {s : MSpline ℝ (Fin D → ℝ)} (hr : Life order s) {f : Fit D} {i0 il : ℕ}
    (ha : f.Admissible s i0 il) :
    ∃ v, f.run s = (.ok (), s.withVerts v) ∧ s.Keeps f.fix i0 il v ∧
      ∀ v', s.Keeps f.fix i0 il v' → f.cost (s.withVerts v) ≤ f.cost (s.withVerts v') :=
  Fit.run_optimal hD (hr.mwf ho hD).1 ha

/-- C113: a fit never makes the cost larger. -/
theorem C113_improves {order : ℕ} (ho : 1 ≤ order) (hD : 1 ≤ D) {s : MSpline ℝ (Fin D → ℝ)} (hr : Life order s) {f : Fit D} {i0 il : ℕ}
    (ha : f.Admissible s i0 il) : (f.run s).1 = .ok () ∧ f.cost (f.run s).2 ≤ f.cost s := by
  obtain ⟨v, v1, -, v3⟩ := C113_optimal ho hD hr ha
  have := v3 s.vert fun _ _ => rfl
  rw [withVerts_self] at this
  rw [v1]
  exact ⟨rfl, this⟩

/-- C113: the cost of the result depends neither on the solver, nor on the choice between dense and sparse matrices, nor on whether
vertices or offsets are computed; and when the spline is fitted to the same data once more, the cost stays the same. -/
theorem C113_again {order : ℕ} (ho : 1 ≤ order) (hD : 1 ≤ D) {s : MSpline ℝ (Fin D → ℝ)} (hr : Life order s) {f : Fit D} {i0 il : ℕ}
    (ha : f.Admissible s i0 il) (dense : Bool) (solve : Solver ℝ) (hsolve : SolvesSemidefinite solve) (offsets : Bool)
    (hoff : offsets = true → f.lambda = 0) :
    let g : Fit D := { f with dense := dense, solve := solve, offsets := offsets }
    f.cost (g.run s).2 = f.cost (f.run s).2 ∧ f.cost (g.run (f.run s).2).2 = f.cost (f.run s).2 := by
  intro g
  have hg : g.Admissible s i0 il := ⟨⟨hsolve, ha.evaluable, ha.length, ha.ends, ha.nonneg, hoff⟩, ha.fixed⟩
  have hc : ∀ u, g.cost u = f.cost u := fun _ => rfl
  obtain ⟨v, v1, v2, v3⟩ := C113_optimal ho hD hr ha
  obtain ⟨w, w1, w2, w3⟩ := C113_optimal ho hD hr hg
  have hr' : Life order (f.run s).2 := .fit f i0 il hr ha.toAccepted
  rw [v1] at hr' ⊢
  dsimp only at hr' ⊢
  obtain ⟨x, x1, x2, x3⟩ := C113_optimal ho hD hr' (hg.withVerts v)
  rw [x1, w1]
  rw [withVerts_withVerts]
  have hl : il < s.keys.length := by
    obtain ⟨_, _, _, _, _, _, hl⟩ := ha.ends
    have := hl.upper
    omega
  have e := v2.vert hl
  refine ⟨le_antisymm (w3 v v2) (v3 w w2), le_antisymm ?_ (v3 x fun j hj => ?_)⟩
  · have := x3 v fun j _ => by rw [e]
    rw [withVerts_withVerts, withVerts_withVerts] at this
    exact this
  · have := x2 j hj
    rw [e] at this
    rw [this, v2 j hj]

/-- C113: with fewer fixed vertices the cost of the result is at most as large. -/
theorem C113_fewer_fixed {order : ℕ} (ho : 1 ≤ order) (hD : 1 ≤ D) {s : MSpline ℝ (Fin D → ℝ)} (hr : Life order s) {f : Fit D} {i0 il : ℕ}
    (ha : f.Admissible s i0 il) (fix : ℕ) (hfix : fix ≤ f.fix) :
    f.cost (({ f with fix := fix } : Fit D).run s).2 ≤ f.cost (f.run s).2 := by
  have hg : ({ f with fix := fix } : Fit D).Admissible s i0 il :=
    ⟨⟨ha.solves, ha.evaluable, ha.length, ha.ends, ha.nonneg, ha.offsets⟩, ha.fixed.imp_left fun h => by dsimp only; omega⟩
  obtain ⟨v, v1, v2, v3⟩ := C113_optimal ho hD hr ha
  obtain ⟨w, w1, w2, w3⟩ := C113_optimal ho hD hr hg
  rw [v1, w1]
  exact w3 v fun j hj => v2 j fun hn => hj ⟨by dsimp only; omega, hn.2⟩

/-- C113: with a larger weight of the regularisation the result bends less and is further away from the points. -/
theorem C113_weight {order : ℕ} (ho : 1 ≤ order) (hD : 1 ≤ D) {s : MSpline ℝ (Fin D → ℝ)} (hr : Life order s) {f : Fit D} {i0 il : ℕ}
    (ha : f.Admissible s i0 il) (lambda tmin tmax : ℝ) (hlam : f.lambda < lambda) (hfix : f.fix = 0) (hoff : f.offsets = false)
    (hmin : s.getMinTime = .ok tmin) (hmax : s.getMaxTime = .ok tmax) :
    let g : Fit D := { f with lambda := lambda }
    (g.run s).1 = .ok () ∧ Spec.fitBending (g.run s).2 tmin tmax ≤ Spec.fitBending (f.run s).2 tmin tmax ∧
      Spec.fitMisfit (f.run s).2 (f.times.zip f.points) f.weights ≤ Spec.fitMisfit (g.run s).2 (f.times.zip f.points) f.weights := by
  intro g
  have h := (hr.mwf ho hD).1
  have hg : g.Admissible s i0 il :=
    ⟨⟨ha.solves, ha.evaluable, ha.length, ha.ends, ha.nonneg.trans hlam.le, fun h => by
      have : f.offsets = true := h
      rw [hoff] at this; simp at this⟩, Or.inl hfix⟩
  rw [getMinTime_eq h ha.evaluable, Outcome.ok.injEq] at hmin
  rw [getMaxTime_eq h ha.evaluable, Outcome.ok.injEq] at hmax
  subst hmin hmax
  obtain ⟨v, v1, v2, v3⟩ := C113_optimal ho hD hr ha
  obtain ⟨w, w1, w2, w3⟩ := C113_optimal ho hD hr hg
  rw [v1, w1]
  have a := v3 w w2
  have b := w3 v v2
  rw [Fit.cost_withVerts, Fit.cost_withVerts] at a b
  unfold fitterCost at a b
  change Spec.fitMisfit (s.withVerts v) _ _ + f.lambda * Spec.fitBending (s.withVerts v) _ _
    ≤ Spec.fitMisfit (s.withVerts w) _ _ + f.lambda * Spec.fitBending (s.withVerts w) _ _ at a
  change Spec.fitMisfit (s.withVerts w) _ _ + lambda * Spec.fitBending (s.withVerts w) _ _
    ≤ Spec.fitMisfit (s.withVerts v) _ _ + lambda * Spec.fitBending (s.withVerts v) _ _ at b
  have hl := ha.nonneg
  have c : Spec.fitBending (s.withVerts w) (s.kn (s.order - 1)) (s.kn (s.keys.length - s.order))
      ≤ Spec.fitBending (s.withVerts v) (s.kn (s.order - 1)) (s.kn (s.keys.length - s.order)) := by
    by_contra hc
    rw [not_le] at hc
    have := mul_pos (sub_pos.2 hlam) (sub_pos.2 hc)
    have a' := a
    have b' := b
    dsimp only [g] at a' b'
    nlinarith
  refine ⟨rfl, c, ?_⟩
  have := mul_le_mul_of_nonneg_left c hl
  linarith

/-- C113: when the curve before the fit passes through all points, or some curve with the same fixed vertices does, and there is no
regularisation and no weight is zero, then the curve after the fit passes through all points. -/
theorem C113_meets {order : ℕ} (ho : 1 ≤ order) (hD : 1 ≤ D) {s : MSpline ℝ (Fin D → ℝ)} (hr : Life order s) {f : Fit D} {i0 il : ℕ}
    (ha : f.Admissible s i0 il) (hlam : f.lambda = 0) (hw : ∀ m, m < f.times.length → weightOf f.weights m ≠ 0) (v' : ℕ → Fin D → ℝ)
    (hv' : s.Keeps f.fix i0 il v') (hm : Spec.Meets (s.withVerts v') (f.times.zip f.points)) :
    Spec.Meets (f.run s).2 (f.times.zip f.points) := by
  have h := (hr.mwf ho hD).1
  obtain ⟨v, v1, v2, v3⟩ := C113_optimal ho hD hr ha
  rw [v1]
  have a := v3 v' hv'
  have z : f.cost (s.withVerts v') = 0 := by
    unfold Fit.cost fitterCost
    rw [hlam, zero_mul, add_zero]
    refine sum_eq_zero fun m _ => sum_eq_zero fun d _ => ?_
    have := hm _ (List.getElem_mem m.2)
    rw [Fin.getElem_fin, this]
    exact pow_eq_zero_iff two_ne_zero |>.2 (mul_eq_zero_of_right _ (sub_self _))
  rw [z] at a
  have n : ∀ m : Fin (f.times.zip f.points).length, ∀ d : Fin D,
      (weightOf f.weights m * (((s.withVerts v).euclideanEval (f.times.zip f.points)[m].1).getD 0 d - (f.times.zip f.points)[m].2 d)) ^ 2 = 0 := by
    unfold Fit.cost fitterCost at a
    rw [hlam, zero_mul, add_zero] at a
    have e := le_antisymm a (sum_nonneg fun m _ => sum_nonneg fun d _ => sq_nonneg _)
    intro m d
    have e1 := (sum_eq_zero_iff_of_nonneg fun m _ => sum_nonneg fun d _ => sq_nonneg _).1 e m (mem_univ m)
    exact (sum_eq_zero_iff_of_nonneg fun d _ => sq_nonneg _).1 e1 d (mem_univ d)
  obtain ⟨t0, tl, ht0, htl, hb, h0, hl⟩ := ha.ends
  intro x hx
  obtain ⟨m, hm', rfl⟩ := List.mem_iff_getElem.1 hx
  have hmt : m < f.times.length := by rw [List.length_zip] at hm'; omega
  have ht : (f.times.zip f.points)[m].1 ∈ f.times := (List.of_mem_zip (List.getElem_mem hm')).1
  have hin : ∃ i, s.InSeg (f.times.zip f.points)[m].1 i := by
    rcases evaluable_total h ha.evaluable (f.times.zip f.points)[m].1 with hi | hc
    · exact hi
    · have b1 := (h0.range h).1
      have b2 := (hl.range h).2
      obtain ⟨b3, b4⟩ := hb _ ht
      rcases hc with hc | hc
      · exact absurd hc (not_lt.2 (b1.trans b3))
      · exact absurd hc (not_lt.2 (b4.trans b2))
  obtain ⟨i, hi⟩ := hin
  obtain ⟨p, hp, -⟩ := withVerts_eval h ha.evaluable v (fun j d => if hd : d < D then v j ⟨d, hd⟩ else 0) (fun j d _ => by simp) hi 0
  have hp' : (s.withVerts v).euclideanEval (f.times.zip f.points)[m].1 = .ok p := hp
  rw [hp']
  congr 1
  funext d
  have := n ⟨m, hm'⟩ d
  rw [Fin.getElem_fin] at this
  dsimp only at this
  rw [hp'] at this
  have := (mul_eq_zero.1 (pow_eq_zero_iff two_ne_zero |>.1 this)).resolve_left (hw m hmt)
  exact sub_eq_zero.1 this

/-- C113: with any weight and any number of fixed vertices a fit succeeds and changes only free vertices; only a regularisation together with
offsets is refused, and then the spline stays as it was. -/
theorem C113_total {order : ℕ} (ho : 1 ≤ order) (hD : 1 ≤ D) {s : MSpline ℝ (Fin D → ℝ)} (hr : Life order s) {f : Fit D} {i0 il : ℕ}
    (ha : ({ f with offsets := false } : Fit D).Accepted s i0 il) :
    (f.offsets = true ∧ f.lambda ≠ 0 → f.run s = (.throws, s)) ∧
      (¬ (f.offsets = true ∧ f.lambda ≠ 0) → ∃ v, f.run s = (.ok (), s.withVerts v) ∧ s.Keeps f.fix i0 il v) := by
  have h := (hr.mwf ho hD).1
  obtain ⟨t0, tl, ht0, htl, hb, h0, hl⟩ := ha.ends
  have he := ha.evaluable
  refine ⟨fun hc => ?_, fun hc => Fit.run_accepted hD h ⟨ha.solves, he, ha.length, ha.ends, ha.nonneg, fun h1 => ?_⟩⟩
  · unfold Fit.run fitSpline
    obtain ⟨ks, k1, k2⟩ := fitKnots_resolver h he h0 hl
    rw [fitGuard_ok h he ht0 htl hb h0 hl f.points.length ha.length, Outcome.bind_ok, k1]
    show s.calcFitted _ _ _ _ _ _ _ _ _ = _
    unfold calcFitted
    rw [if_pos hc]
  · by_contra h2
    exact hc ⟨h1, h2⟩

/-- C113: a fit changes the curve and its derivatives only on intervals near the data: not on the intervals whose vertices all come before
the first free vertex or all after the last one.  This holds for all weights and numbers of fixed vertices. -/
theorem C113_local {order : ℕ} (ho : 1 ≤ order) (hD : 1 ≤ D) {s : MSpline ℝ (Fin D → ℝ)} (hr : Life order s) {f : Fit D} {i0 il : ℕ}
    (ha : f.Accepted s i0 il) (t : ℝ) (i : ℕ) (hi : s.InSeg t i) (hfar : i + order < i0 + 1 + f.fix ∨ il + order ≤ i) (der : ℕ) :
    (f.run s).2.euclideanEvalD none t der = s.euclideanEvalD none t der := by
  obtain ⟨h, rfl⟩ := hr.mwf ho hD
  obtain ⟨v, v1, v2⟩ := Fit.run_accepted hD h ha
  rw [v1]
  have l1 := hi.lower
  have l2 := hi.upper
  have key : ∀ (u : ℕ → Fin D → ℝ), (∀ j, i + 1 - s.order ≤ j → j ≤ i → u j = s.vert j) →
      ∃ p, (s.withVerts u).euclideanEvalD none t der = .ok p ∧ ∀ d : Fin D, p d
        = s.curveVal (fun j d => if hd : d < D then s.vert j ⟨d, hd⟩ else 0) i der t d := by
    intro u hu
    obtain ⟨p, hp, hp'⟩ := withVerts_eval h ha.evaluable u (fun j d => if hd : d < D then u j ⟨d, hd⟩ else 0) (fun j d _ => by simp) hi der
    refine ⟨p, hp, fun d => (hp' d).trans ?_⟩
    unfold curveVal
    refine sum_congr rfl fun c hc => ?_
    have hc := mem_range.1 hc
    dsimp only
    rw [hu _ (by omega) (by omega)]
  obtain ⟨p, hp, hp'⟩ := key v fun j h1 h2 => v2 j fun hn => by omega
  obtain ⟨q, hq, hq'⟩ := key s.vert fun _ _ _ => rfl
  rw [withVerts_self] at hq
  rw [hq]
  refine hp.trans (congrArg Outcome.ok (funext fun d => ?_))
  rw [hp' d, hq' d]

/-- C113 is violated when vertices are fixed and there is a regularisation: the spline `fitDemo` passes through the only point and has no
second derivative, so both parts of its cost are zero, but after the fit it does not pass through the point. -/
theorem C113_violated (dense : Bool) :
    RegularReach (euclidean ℚ (Fin 1 → ℚ)) 3 fitDemo ∧ fitDemo.euclideanEval (7 / 2) = .ok ![2] ∧
      (∀ t : ℚ, 2 ≤ t → t ≤ 5 → fitDemo.euclideanEvalD none t 2 = .ok 0) ∧
      (fitDemo.fitSpline dense (fun _ A b _ => b 0 / A 0 0) id [7 / 2] [![2]] 1 2 none false).1 = .ok () ∧
      (fitDemo.fitSpline dense (fun _ A b _ => b 0 / A 0 0) id [7 / 2] [![2]] 1 2 none false).2.euclideanEval (7 / 2) ≠ .ok ![2] := by
  obtain ⟨h1, h2, h3, -, h5⟩ := C38_fixed_regularised_wrong dense
  refine ⟨fitDemo_reach, h1, h2, h3, fun hc => ?_⟩
  rw [hc] at h5
  simp only [Outcome.map, Outcome.ok.injEq] at h5
  norm_num at h5

theorem RegularReach.life {order : ℕ} {s : MSpline ℝ (Fin D → ℝ)} (h : RegularReach (euclidean ℝ (Fin D → ℝ)) order s) : Life order s := by
  induction h with
  | create => exact .create
  | call c _ hr ih => exact .call c ih hr

/-- Not vacuous: a spline of order 3 is fitted with regularisation, and then to three other points with two fixed vertices.  The second fit
does not change the curve before the first of its points. -/
example : ∃ (s : MSpline ℝ (Fin 1 → ℝ)) (f g : Fit 1), Life 3 s ∧ f.Admissible s 2 5 ∧ f.lambda = 1 ∧ Life 3 (f.run s).2 ∧
    g.Admissible (f.run s).2 3 4 ∧ g.fix = 2 ∧ g.points.length = 3 ∧ g.cost (g.run (f.run s).2).2 ≤ g.cost (f.run s).2 ∧
    ∀ der : ℕ, (g.run (f.run s).2).2.euclideanEvalD none (5 / 2) der = (f.run s).2.euclideanEvalD none (5 / 2) der := by
  obtain ⟨s1, s, b1, b2, b3, b4, b5, -⟩ := build_ok (euclidean ℝ (Fin 1 → ℝ)) 3 (by omega) ([0, 1, 2, 3, 4, 5, 6, 7, 8] : List ℝ)
    (by simp only [List.pairwise_cons, List.mem_cons, List.not_mem_nil]; norm_num) (by simp)
  obtain ⟨h, ho⟩ := b5.mwf (by omega)
  have hk : ∀ j : ℕ, s.kn j = ([0, 1, 2, 3, 4, 5, 6, 7, 8] : List ℝ).getD j 0 := fun j => by unfold kn; rw [b3]
  have seg : ∀ (t : ℝ) (i : ℕ), 2 ≤ i → i ≤ 5 → ([0, 1, 2, 3, 4, 5, 6, 7, 8] : List ℝ).getD i 0 ≤ t →
      t < ([0, 1, 2, 3, 4, 5, 6, 7, 8] : List ℝ).getD (i + 1) 0 → s.InSeg t i := fun t i h1 h2 h3 h4 =>
    ⟨by omega, by rw [b3, ho]; simp only [List.length_cons, List.length_nil]; omega, by rw [hk]; exact h3, Or.inl (by rw [hk]; exact h4)⟩
  let f : Fit 1 := ⟨true, choiceSolver, [2, 11 / 2], [![1], ![5]], 1, 0, none, false⟩
  let g : Fit 1 := ⟨false, choiceSolver, [3, 7 / 2, 4], [![1], ![2], ![5]], 0, 2, none, true⟩
  have hf : f.Admissible s 2 5 := ⟨⟨choiceSolver_semidefinite, b4, rfl, ⟨2, 11 / 2, rfl, rfl, by simp [f]; norm_num,
    seg _ _ le_rfl (by omega) (by simp) (by simp; norm_num), seg _ _ (by omega) le_rfl (by simp; norm_num) (by simp; norm_num)⟩,
    by simp [f], by simp [f]⟩, Or.inl rfl⟩
  have hl : Life 3 (f.run s).2 := .fit f 2 5 b5.life hf.toAccepted
  have hg : g.Admissible (f.run s).2 3 4 := by
    obtain ⟨v, v1, -, -⟩ := C113_optimal (by omega) (by omega) b5.life hf
    rw [v1]
    have : g.Admissible s 3 4 := ⟨⟨choiceSolver_semidefinite, b4, rfl, ⟨3, 4, rfl, rfl, by simp [g]; norm_num,
      seg _ _ (by omega) (by omega) (by simp) (by simp; norm_num), seg _ _ (by omega) (by omega) (by simp) (by simp; norm_num)⟩,
      by simp [g], by simp [g]⟩, Or.inr rfl⟩
    exact this.withVerts v
  refine ⟨s, f, g, b5.life, hf, rfl, hl, hg, rfl, rfl, (C113_improves (by omega) (by omega) hl hg).2, fun der => ?_⟩
  have hi : (f.run s).2.InSeg (5 / 2) 2 := by
    obtain ⟨v, v1, -, -⟩ := C113_optimal (by omega) (by omega) b5.life hf
    rw [v1]
    exact (seg _ _ le_rfl (by omega) (by simp; norm_num) (by simp; norm_num)).withVerts v
  exact C113_local (by omega) (by omega) hl hg.toAccepted (5 / 2) 2 hi (Or.inl (by simp [g])) der

end Verif.MSpline
