import Verif.Model.RollingShutterVariables
import Verif.Props.SplineVariables
import Verif.Props.TimedExpressions

/-!
# The design variables of a rolling shutter pose spline, and Euclidean expressions (C66)
-/

set_option linter.unusedSectionVars false

namespace Verif

open BSpline

/-! ## Specification -/

/-- Specification: a table of `n` coefficients and one line delay, each with its value before the last update. -/
structure RSTable (K : Type*) where
  coeffs : List (Fin 6 → K)
  saved : List (Fin 6 → K)
  line : K
  lineSaved : K

namespace RSTable
variable {K : Type*} [Field K]

/-- Specification: index `i < n` is coefficient `i`, index `n` the line delay, larger indices do nothing. -/
def step (t : RSTable K) : RSVars.Op K → RSTable K
  | .update i dp dl =>
    if i < t.coeffs.length then
      { t with coeffs := t.coeffs.set i (t.coeffs.getD i 0 + dp), saved := t.saved.set i (t.coeffs.getD i 0) }
    else if i = t.coeffs.length then { t with line := t.line + dl, lineSaved := t.line }
    else t
  | .revert i =>
    if i < t.coeffs.length then { t with coeffs := t.coeffs.set i (t.saved.getD i 0) }
    else if i = t.coeffs.length then { t with line := t.lineSaved }
    else t

/-- Specification: the table after a sequence of operations. -/
def run (t : RSTable K) (ops : List (RSVars.Op K)) : RSTable K := ops.foldl step t

end RSTable

namespace RSVars

variable {K : Type*} [Field K] [LinearOrder K] [IsStrictOrderedRing K]

/-- Specification: the table of a new object. -/
def start (s : Pose K) (ℓ : K) : RSTable K := ⟨s.spline.coeffs, List.replicate s.spline.coeffs.length 0, ℓ, ℓ⟩

/-! ## Refinement -/

theorem update_eq {v : SplineVars K 6} (h : v.Mirror) (i : ℕ) (hi : i < v.spline.coeffs.length) (dp : Fin 6 → K) :
    ∃ x, v.vars[i]? = some x ∧ v.update i dp = .ok ⟨⟨v.spline.order, v.spline.knots,
      v.spline.coeffs.set i (fun d => v.spline.col i d + dp d), v.spline.basis⟩, v.buffer,
      v.vars.set i ⟨x.serial, x.buffer, x.column, v.spline.col i⟩, v.fresh⟩ := by
  obtain ⟨x, hdv, hx⟩ := SplineVars.designVariable_ok h i hi
  refine ⟨x, hx, ?_⟩
  unfold SplineVars.update
  rw [hdv]
  simp only [Outcome.bind_ok]
  rw [(h.deref hx).1]
  simp only [Outcome.bind_ok]
  rw [SplineVars.store_ok h hx]
  rfl

theorem revert_eq {v : SplineVars K 6} (h : v.Mirror) (i : ℕ) (hi : i < v.spline.coeffs.length) :
    ∃ x, v.vars[i]? = some x ∧ v.revert i = .ok ⟨⟨v.spline.order, v.spline.knots,
      v.spline.coeffs.set i x.saved, v.spline.basis⟩, v.buffer, v.vars, v.fresh⟩ := by
  obtain ⟨x, hdv, hx⟩ := SplineVars.designVariable_ok h i hi
  refine ⟨x, hx, ?_⟩
  unfold SplineVars.revert
  rw [hdv]
  simp only [Outcome.bind_ok]
  rw [SplineVars.store_ok h hx]
  rfl

/-- The relation between an object made from the spline `s` and the table. -/
structure Rel (s : Pose K) (v : RSVars K) (t : RSTable K) : Prop where
  mirror : v.pose.Mirror
  kept : v.kept = s.spline
  rotation : v.rotation = s.rotation
  order : v.pose.spline.order = s.spline.order
  knots : v.pose.spline.knots = s.spline.knots
  basis : v.pose.spline.basis = s.spline.basis
  len : v.pose.spline.coeffs.length = s.spline.coeffs.length
  serials : v.pose.serials = List.range s.spline.coeffs.length
  coeffs : v.pose.spline.coeffs = t.coeffs
  saved : v.pose.vars.map MappedVar.saved = t.saved
  line : v.lineDelay = t.line
  lineSaved : v.lineSaved = t.lineSaved

theorem rel_create (s : Pose K) (h : SplineVars.Sized s.spline) (ℓ : K) : Rel s (create s ℓ) (start s ℓ) := by
  refine ⟨SplineVars.mirror_create h, rfl, rfl, rfl, rfl, rfl, rfl, ?_, rfl, ?_, rfl, rfl⟩
  · simp [create, SplineVars.serials, SplineVars.create, Function.comp_def]
  · simp [create, SplineVars.create, start, Function.comp_def, List.map_const']

theorem designVariable_cases {s : Pose K} {v : RSVars K} {t : RSTable K} (h : Rel s v t) (i : ℕ) :
    (i < s.spline.coeffs.length → ∃ x, v.designVariable i = .ok (.coefficient x) ∧ v.pose.vars[i]? = some x ∧
      v.pose.deref x = .ok (t.coeffs.getD i 0)) ∧
    (i = s.spline.coeffs.length → v.designVariable i = .ok .lineDelay) ∧
    (s.spline.coeffs.length < i → v.designVariable i = .throws) := by
  have hl := h.mirror.length
  have hlen := h.len
  refine ⟨fun hi => ?_, fun hi => ?_, fun hi => ?_⟩
  · obtain ⟨x, hx, hx'⟩ := SplineVars.designVariable_ok h.mirror i (by omega)
    refine ⟨x, ?_, hx', ?_⟩
    · unfold designVariable numDesignVariables
      rw [if_neg (by omega), if_neg (by omega), hx, Outcome.map_ok]
    · rw [(h.mirror.deref hx').1, ← h.coeffs]
      rfl
  · unfold designVariable numDesignVariables
    rw [if_neg (by omega), if_pos (by omega)]
  · unfold designVariable numDesignVariables
    rw [if_pos (by omega)]

theorem step_rel {s : Pose K} {v : RSVars K} {t : RSTable K} (h : Rel s v t) (op : Op K) :
    (∃ v', v.step op = .ok v' ∧ Rel s v' (t.step op)) ∨ (v.step op = .throws ∧ t.step op = t) := by
  have hl := h.mirror.length
  have hlen := h.len
  have hct : t.coeffs.length = s.spline.coeffs.length := by rw [← h.coeffs, hlen]
  cases op with
  | update i dp dl =>
    obtain ⟨h1, h2, h3⟩ := designVariable_cases h i
    rcases lt_trichotomy i s.spline.coeffs.length with hi | hi | hi
    · left
      obtain ⟨x, hx, -, -⟩ := h1 hi
      obtain ⟨y, hy, hup⟩ := update_eq h.mirror i (by omega) dp
      obtain ⟨v', x', hup', hm', hser, -⟩ := SplineVars.update_ok h.mirror i (by omega) dp
      rw [hup] at hup'
      obtain rfl := Outcome.ok.inj hup'
      refine ⟨{ v with pose := _ }, ?_, ⟨hm', h.kept, h.rotation, h.order, h.knots, h.basis, ?_, ?_, ?_, ?_, ?_, ?_⟩⟩
      · unfold step
        dsimp only
        rw [hx, Outcome.bind_ok]
        dsimp only
        rw [hup, Outcome.map_ok]
      · simpa using hlen
      · exact hser.trans h.serials
      · simp only [RSTable.step]
        rw [if_pos (by omega)]
        simp only
        rw [h.coeffs]
        refine congrArg _ ?_
        ext d
        simp [col, h.coeffs]
      · simp only [RSTable.step]
        rw [if_pos (by omega)]
        simp only
        rw [List.map_set, h.saved]
        refine congrArg _ ?_
        simp [col, h.coeffs]
      · simp only [RSTable.step]
        rw [if_pos (by omega)]
        exact h.line
      · simp only [RSTable.step]
        rw [if_pos (by omega)]
        exact h.lineSaved
    · left
      refine ⟨{ v with lineDelay := v.lineDelay + dl, lineSaved := v.lineDelay }, ?_, ?_⟩
      · unfold step
        dsimp only
        rw [h2 hi, Outcome.bind_ok]
      · simp only [RSTable.step]
        rw [if_neg (by omega), if_pos (by omega)]
        exact ⟨h.mirror, h.kept, h.rotation, h.order, h.knots, h.basis, h.len, h.serials, h.coeffs, h.saved,
          by rw [← h.line], by rw [← h.line]⟩
    · right
      refine ⟨?_, ?_⟩
      · unfold step
        dsimp only
        rw [h3 hi, Outcome.bind_throws]
      · simp only [RSTable.step]
        rw [if_neg (by omega), if_neg (by omega)]
  | revert i =>
    obtain ⟨h1, h2, h3⟩ := designVariable_cases h i
    rcases lt_trichotomy i s.spline.coeffs.length with hi | hi | hi
    · left
      obtain ⟨x, hx, -, -⟩ := h1 hi
      obtain ⟨y, hy, hup⟩ := revert_eq h.mirror i (by omega)
      obtain ⟨v', hup', hm', hser, -⟩ := SplineVars.revert_ok h.mirror i y hy
      rw [hup] at hup'
      obtain rfl := Outcome.ok.inj hup'
      refine ⟨{ v with pose := _ }, ?_, ⟨hm', h.kept, h.rotation, h.order, h.knots, h.basis, ?_, ?_, ?_, ?_, ?_, ?_⟩⟩
      · unfold step
        dsimp only
        rw [hx, Outcome.bind_ok]
        dsimp only
        rw [hup, Outcome.map_ok]
      · simpa using hlen
      · exact hser.trans h.serials
      · simp only [RSTable.step]
        rw [if_pos (by omega)]
        simp only
        rw [h.coeffs]
        refine congrArg _ ?_
        rw [← h.saved, List.getD_eq_getElem?_getD, List.getElem?_map, hy]
        rfl
      · simp only [RSTable.step]
        rw [if_pos (by omega)]
        exact h.saved
      · simp only [RSTable.step]
        rw [if_pos (by omega)]
        exact h.line
      · simp only [RSTable.step]
        rw [if_pos (by omega)]
        exact h.lineSaved
    · left
      refine ⟨{ v with lineDelay := v.lineSaved }, ?_, ?_⟩
      · unfold step
        dsimp only
        rw [h2 hi, Outcome.bind_ok]
      · simp only [RSTable.step]
        rw [if_neg (by omega), if_pos (by omega)]
        exact ⟨h.mirror, h.kept, h.rotation, h.order, h.knots, h.basis, h.len, h.serials, h.coeffs, h.saved,
          h.lineSaved, h.lineSaved⟩
    · right
      refine ⟨?_, ?_⟩
      · unfold step
        dsimp only
        rw [h3 hi, Outcome.bind_throws]
      · simp only [RSTable.step]
        rw [if_neg (by omega), if_neg (by omega)]

theorem run_rel {s : Pose K} : ∀ (ops : List (Op K)) (v : RSVars K) (t : RSTable K), Rel s v t →
    ∃ v', v.run ops = .ok v' ∧ Rel s v' (t.run ops)
  | [], v, t, h => ⟨v, rfl, h⟩
  | op :: ops, v, t, h => by
    rcases step_rel h op with ⟨v', hs, h'⟩ | ⟨hs, ht⟩
    · obtain ⟨v'', hr, h''⟩ := run_rel ops v' _ h'
      exact ⟨v'', by unfold run; rw [hs]; exact hr, h''⟩
    · obtain ⟨v'', hr, h''⟩ := run_rel ops v _ h
      refine ⟨v'', by unfold run; rw [hs]; exact hr, ?_⟩
      unfold RSTable.run
      rw [List.foldl_cons, ht]
      exact h''

/-- **C66**, refinement: for every spline, line delay and sequence of updates and reverts through the design variables (valid or
not), the object behaves like a table of coefficients followed by the line delay: no undefined behaviour; index `i < n` is coefficient
`i`, index `n` the line delay, larger indices are rejected; different indices are different objects; the spline has the knots, the
order and the basis matrices of the original and the coefficients of the table. -/
theorem C66_refinement (s : Pose K) (h : SplineVars.Sized s.spline) (ℓ : K) (ops : List (Op K)) :
    ∃ v, (create s ℓ).run ops = .ok v ∧
      v.numDesignVariables = s.spline.coeffs.length + 1 ∧
      v.spline = ⟨⟨s.spline.order, s.spline.knots, ((start s ℓ).run ops).coeffs, s.spline.basis⟩, s.rotation⟩ ∧
      v.lineDelay = ((start s ℓ).run ops).line ∧
      (∀ i, i < s.spline.coeffs.length → ∃ x, v.designVariable i = .ok (.coefficient x) ∧ x.serial = i ∧
        v.pose.deref x = .ok (((start s ℓ).run ops).coeffs.getD i 0)) ∧
      (∀ i, i = s.spline.coeffs.length → v.designVariable i = .ok .lineDelay) ∧
      (∀ i, s.spline.coeffs.length < i → v.designVariable i = .throws) := by
  obtain ⟨v, hr, hv⟩ := run_rel ops _ _ (rel_create s h ℓ)
  refine ⟨v, hr, ?_, ?_, hv.line, fun i hi => ?_, fun i => (designVariable_cases hv i).2.1, fun i => (designVariable_cases hv i).2.2⟩
  · unfold numDesignVariables
    rw [hv.mirror.length, hv.len]
  · unfold spline
    rw [← hv.order, ← hv.knots, ← hv.basis, ← hv.coeffs, ← hv.rotation]
  · obtain ⟨x, h1, h2, h3⟩ := (designVariable_cases hv i).1 hi
    refine ⟨x, h1, ?_, h3⟩
    have := congrArg (fun l => l[i]?) hv.serials
    simp only [SplineVars.serials, List.getElem?_map, h2, Option.map_some, List.getElem?_range hi] at this
    exact Option.some.inj this

theorem indices_congr {b b' : BSpline K 6} (e1 : b.order = b'.order) (e2 : b.knots = b'.knots) (t : K) :
    b.localVvCoefficientVectorIndices t = b'.localVvCoefficientVectorIndices t := by
  cases b
  cases b'
  subst e1
  subst e2
  rfl

theorem indices_segment (b : BSpline K 6) (t : K) :
    b.localVvCoefficientVectorIndices t = (b.segmentIndex t).map (linSpacedIdx b.order) := by
  unfold localVvCoefficientVectorIndices segmentIndex
  cases b.computeTIndex t with
  | throws => rfl
  | ub => rfl
  | ok p =>
    simp only [Outcome.bind_ok]
    cases b.bidxOf p.2 <;> rfl

/-- **C66**, active indices: although it asks the spline kept aside at construction, the query always agrees with the spline in use. -/
theorem C66_active_indices (s : Pose K) (h : SplineVars.Sized s.spline) (ℓ : K) (ops : List (Op K)) (v : RSVars K)
    (hv : (create s ℓ).run ops = .ok v) (t : K) :
    v.getActiveDesignVariableIndices t = v.spline.spline.localVvCoefficientVectorIndices t := by
  obtain ⟨v', hr, h'⟩ := run_rel ops _ _ (rel_create s h ℓ)
  obtain rfl := Outcome.ok.inj (hv.symm.trans hr)
  unfold getActiveDesignVariableIndices
  rw [h'.kept]
  exact (indices_congr h'.order h'.knots t).symm

/-! ## The expression for a line -/

/-- **C66**, value: the transformation for a line is the pose of the spline with the coefficients of the table, at the start time plus
the line times the line delay of the table. -/
theorem C66_value (s : Pose K) (h : SplineVars.Sized s.spline) (ℓ : K) (ops : List (Op K)) (v : RSVars K)
    (hv : (create s ℓ).run ops = .ok v) (t0 line : K) :
    v.transformationValue t0 line =
      (⟨⟨s.spline.order, s.spline.knots, ((start s ℓ).run ops).coeffs, s.spline.basis⟩, s.rotation⟩ : Pose K).transformation
        (t0 + line * ((start s ℓ).run ops).line) := by
  obtain ⟨v', hr, -, hs, hl, -⟩ := C66_refinement s h ℓ ops
  obtain rfl := Outcome.ok.inj (hv.symm.trans hr)
  unfold transformationValue Pose.rollingShutterValue
  rw [hs, hl]
  refine congrArg _ ?_
  ring

/-- What an expression adds to the Jacobians goes to the variables it would announce now. -/
theorem emitted (v : RSVars K) (t0 line : K) (em : Pose.TimedEmission K) (h : v.transformationJacobians t0 line = .ok em) :
    v.transformationVariables t0 line = .ok (em.blocks.map Prod.fst) := by
  unfold transformationJacobians Pose.rollingShutterJacobians at h
  unfold transformationVariables Pose.rollingShutterVariables
  dsimp only at h
  rw [Outcome.bind_eq_ok] at h
  obtain ⟨dvs, h1, h⟩ := h
  rw [Outcome.bind_eq_ok] at h
  obtain ⟨r, h2, h⟩ := h
  rw [h1]
  split_ifs at h with hall
  cases hd : v.spline.spline.evalD (v.lineDelay * 1 * line + t0) 1 with
  | throws => rw [hd] at h; exact nomatch h
  | ub => rw [hd] at h; exact nomatch h
  | ok d =>
    rw [hd, Outcome.map_ok] at h
    obtain rfl := Outcome.ok.inj h
    exact congrArg Outcome.ok (Pose.emitBlocks_fst _ _ _).symm

/-- **C66**, announced variables (partial: only while the observation stays in the same segment).  The variables an expression announces
when an error term is made are those its Jacobians refer to later, after any further updates, as long as the time of the observation is
then in the same segment of the spline. -/
theorem C66_announced_partial (s : Pose K) (h : SplineVars.Sized s.spline) (ℓ : K) (ops ops' : List (Op K)) (v v' : RSVars K)
    (hv : (create s ℓ).run ops = .ok v) (hv' : (create s ℓ).run (ops ++ ops') = .ok v') (t0 line : K)
    (hseg : s.spline.segmentIndex (t0 + line * ((start s ℓ).run ops).line) =
      s.spline.segmentIndex (t0 + line * ((start s ℓ).run (ops ++ ops')).line))
    (em : Pose.TimedEmission K) (hem : v'.transformationJacobians t0 line = .ok em) :
    v.transformationVariables t0 line = .ok (em.blocks.map Prod.fst) := by
  rw [← emitted v' t0 line em hem]
  obtain ⟨w, hr, hw⟩ := run_rel ops _ _ (rel_create s h ℓ)
  obtain rfl := Outcome.ok.inj (hv.symm.trans hr)
  obtain ⟨w', hr', hw'⟩ := run_rel (ops ++ ops') _ _ (rel_create s h ℓ)
  obtain rfl := Outcome.ok.inj (hv'.symm.trans hr')
  unfold transformationVariables Pose.rollingShutterVariables spline
  rw [indices_congr hw.order hw.knots, indices_congr hw'.order hw'.knots, hw.line, hw'.line]
  rw [show ((start s ℓ).run ops).line * 1 * line + t0 = t0 + line * ((start s ℓ).run ops).line by ring,
    show ((start s ℓ).run (ops ++ ops')).line * 1 * line + t0 = t0 + line * ((start s ℓ).run (ops ++ ops')).line by ring]
  rw [indices_segment, indices_segment, hseg]

end RSVars

/-! ## Euclidean expressions -/

namespace SplineVars

variable {K : Type*} [Field K] [LinearOrder K] [IsStrictOrderedRing K]

theorem pick_eq (vars : List (MappedVar K 3)) : ∀ is : List ℕ, (∀ i ∈ is, i < vars.length) →
    ∃ xs, pick vars is = .ok xs ∧ xs.length = is.length ∧ ∀ j i : ℕ, is[j]? = some i → xs[j]? = vars[i]? ∧ i < vars.length
  | [], _ => ⟨[], rfl, rfl, fun j i h => by simp at h⟩
  | i :: is, h => by
    obtain ⟨xs, h1, h2, h3⟩ := pick_eq vars is fun j hj => h j (List.mem_cons_of_mem _ hj)
    have hi := h i List.mem_cons_self
    refine ⟨vars[i] :: xs, ?_, by simp [h2], fun j a hj => ?_⟩
    · unfold pick
      rw [List.getElem?_eq_getElem hi]
      dsimp only
      rw [h1, Outcome.map_ok]
    · cases j with
      | zero =>
        simp only [List.getElem?_cons_zero, Option.some.injEq] at hj
        subst hj
        exact ⟨by rw [List.getElem?_cons_zero, List.getElem?_eq_getElem hi], hi⟩
      | succ j => exact h3 j a (by simpa using hj)

/-- **C66**, Euclidean expressions: after any sequence of updates, reverts, added and removed segments, an expression for a time in the
spline (in its first or a later segment) takes exactly `order` design variables, all existing, in order those of the coefficients that
determine the value at that time. -/
theorem C66_euclidean (solve : Solver K) (s : BSpline K 3) (h : Sized s) (ops : List (Op K 3)) (v : SplineVars K 3)
    (hv : (create s).run solve ops = .ok v) (t : K) (der : ℤ) (c : Fin 3 → K) (hc : v.toEuclidean t der = .ok c) :
    ∃ lo xs, v.toEuclideanExpression t = .ok xs ∧ xs.length = v.spline.order ∧
      v.spline.localVvCoefficientVectorIndices t = .ok ((List.range v.spline.order).map (lo + ·)) ∧
      ∀ j, j < v.spline.order → ∃ x, xs[j]? = some x ∧ v.vars[lo + j]? = some x ∧ v.deref x = .ok (v.spline.col (lo + j)) ∧
        lo + j < v.spline.coeffs.length := by
  have hm := run_mirror solve ops _ v (mirror_create h) hv
  have hJ := C07_jacobian_defined v.spline t der
  unfold toEuclidean at hc
  rw [hc] at hJ
  cases hr : v.spline.evalDAndJacobian t der with
  | throws => rw [hr] at hJ; exact nomatch hJ
  | ub => rw [hr] at hJ; exact nomatch hJ
  | ok r =>
    obtain ⟨x, u, i, B, -, hT, -, h1, -, h2, -, -⟩ := evalDAndJacobian_inv hr
    have hidx : v.spline.localVvCoefficientVectorIndices t =
        .ok ((List.range v.spline.order).map (i + 1 - v.spline.order + ·)) := by
      unfold localVvCoefficientVectorIndices bidxOf
      rw [hT, Outcome.bind_ok]
      dsimp only
      rw [if_neg (by omega)]
      rfl
    obtain ⟨xs, g1, g2, g3⟩ := pick_eq v.vars ((List.range v.spline.order).map (i + 1 - v.spline.order + ·)) (fun a ha => by
      obtain ⟨j, hj, rfl⟩ := List.mem_map.1 ha
      have := List.mem_range.1 hj
      have := hm.length
      omega)
    refine ⟨i + 1 - v.spline.order, xs, ?_, by simpa using g2, hidx, fun j hj => ?_⟩
    · unfold toEuclideanExpression
      rw [hidx, Outcome.bind_ok, g1]
    · obtain ⟨g4, g5⟩ := g3 j (i + 1 - v.spline.order + j) (by simp [List.getElem?_range hj])
      have hx := List.getElem?_eq_getElem g5
      exact ⟨_, g4.trans hx, hx, (hm.deref hx).1, by omega⟩

end SplineVars

/-! ## Witnesses -/

namespace RSVars

/-- A parametrisation that always gives the identity (enough for the bookkeeping). -/
def still : Rotation ℚ := ⟨fun _ => 1, fun _ => 1, fun _ => 0, fun _ _ => 0, fun _ _ => 0⟩

/-- A piecewise linear pose on `[1, 3]` with three coefficients: the camera moves along the first axis. -/
def slide : Pose ℚ := ⟨initializeBasisMatrices (BSpline.mk (K := ℚ) 2 [0, 1, 2, 3, 4]
  [![0, 0, 0, 0, 0, 0], ![1, 0, 0, 0, 0, 0], ![5, 0, 0, 0, 0, 0]] []), still⟩

theorem slide_sized : SplineVars.Sized slide.spline :=
  SplineVars.sized_of_wf (initializeBasisMatrices_wf _ (by decide) (by decide +kernel) (by decide) (by decide))

/-- **C66** is violated by the announced variables: an expression announces the coefficients of the segment the observation is in when the
error term is made.  After the line delay has been updated the observation is in the next segment, and the Jacobians refer to a
coefficient that was not announced (and no longer to one that was). -/
theorem C66_violated :
    ((create slide 0).run []).bind (fun v => v.transformationVariables (3/2) 1) = .ok [0, 1] ∧
    ((create slide 0).run [.update 3 0 1]).bind (fun v => (v.transformationJacobians (3/2) 1).map fun em => em.blocks.map Prod.fst)
      = .ok [1, 2] := by
  decide +kernel

/-- `C66_refinement`: a coefficient and the line delay updated, an index out of range refused, the line delay reverted. -/
example : SplineVars.Sized slide.spline ∧
    ((create slide 0).run [.update 1 ![2, 0, 0, 0, 0, 0] 7, .update 3 0 (1/2), .update 4 0 1, .revert 3, .update 3 0 (1/4)]).map
      (fun v => (v.numDesignVariables, v.pose.spline.coeffs.map (· 0), v.lineDelay, v.lineSaved)) = .ok (4, [0, 3, 5], 1/4, 0) :=
  ⟨slide_sized, by decide +kernel⟩

/-- `C66_value`: the position at `3/2 + 2 · 1/4 = 2`, the second coefficient. -/
example : ((create slide 0).run [.update 1 ![2, 0, 0, 0, 0, 0] 7, .update 3 0 (1/4)]).bind
    (fun v => (v.transformationValue (3/2) 2).map fun T => T 0 3) = .ok 3 := by
  decide +kernel

/-- `C66_announced_partial`: the line delay changes, the observation stays in its segment. -/
example : ((create slide 0).run ([] ++ [.update 3 0 (1/4)])).bind
      (fun v => (v.transformationJacobians (3/2) 1).map fun em => em.blocks.map Prod.fst) = .ok [0, 1] ∧
    slide.spline.segmentIndex (3/2 + 1 * ((start slide 0).run []).line) =
      slide.spline.segmentIndex (3/2 + 1 * ((start slide 0).run ([] ++ [.update 3 0 (1/4)])).line) := by
  decide +kernel

end RSVars

namespace SplineVars

def demo3 : BSpline ℚ 3 := initializeBasisMatrices (BSpline.mk (K := ℚ) 2 [0, 1, 2, 3, 4]
  [![0, 0, 0], ![1, 2, 3], ![5, 5, 5]] [])

/-- `C66_euclidean`: after the removal of a segment the expression for time `5/2` takes the objects with the serial numbers 1 and 2. -/
example : Sized demo3 ∧
    ((create demo3).run (fun _ _ b => b) [.update 1 ![1, 0, 0], .remove]).bind (fun v => v.toEuclidean (5/2) 0) = .ok ![7/2, 7/2, 4] ∧
    ((create demo3).run (fun _ _ b => b) [.update 1 ![1, 0, 0], .remove]).bind
      (fun v => (v.toEuclideanExpression (5/2)).map fun xs => xs.map MappedVar.serial) = .ok [1, 2] :=
  ⟨sized_of_wf (initializeBasisMatrices_wf _ (by decide) (by decide +kernel) (by decide) (by decide)), by decide +kernel⟩

end SplineVars
end Verif
