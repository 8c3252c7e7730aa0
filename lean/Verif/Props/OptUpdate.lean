import Verif.Model.OptSpline
import Verif.Props.LieGroup
import Mathlib.Analysis.SpecialFunctions.Trigonometric.Inverse

/-!
# C48: update and revert of a control vertex
-/

set_option linter.unusedSectionVars false

namespace Verif

variable {P V : Type*}

/-- A sequence of calls; stops at undefined behaviour. -/
def DVCall.runAll (G : LieGrp P V) (cs : List (DVCall P V)) (d : DV P) : Outcome (DV P) :=
  cs.foldl (fun (acc : Outcome (DV P)) c => acc.bind (c.run G)) (.ok d)

theorem DVCall.runAll_nil (G : LieGrp P V) (d : DV P) : DVCall.runAll G [] d = .ok d := rfl

theorem DVCall.foldl_stuck (G : LieGrp P V) (cs : List (DVCall P V)) (x : Outcome (DV P)) (hx : ∀ d, x ≠ .ok d) :
    cs.foldl (fun (acc : Outcome (DV P)) c => acc.bind (c.run G)) x = x := by
  induction cs with
  | nil => rfl
  | cons c cs ih =>
    rw [List.foldl_cons]
    have : x.bind (c.run G) = x := by
      cases x with
      | ok d => exact absurd rfl (hx d)
      | throws => rfl
      | ub => rfl
    rw [this, ih]

theorem DVCall.runAll_cons (G : LieGrp P V) (c : DVCall P V) (cs : List (DVCall P V)) (d : DV P) :
    DVCall.runAll G (c :: cs) d = (c.run G d).bind (DVCall.runAll G cs) := by
  unfold DVCall.runAll
  rw [List.foldl_cons, Outcome.bind_ok]
  rcases h : c.run G d with d' | _ | _
  · rfl
  · exact DVCall.foldl_stuck G cs _ (fun d h => by cases h)
  · exact DVCall.foldl_stuck G cs _ (fun d h => by cases h)

theorem DVCall.runAll_append (G : LieGrp P V) (cs cs' : List (DVCall P V)) (d : DV P) :
    DVCall.runAll G (cs ++ cs') d = (DVCall.runAll G cs d).bind (DVCall.runAll G cs') := by
  induction cs generalizing d with
  | nil => rfl
  | cons c cs ih =>
    rw [List.cons_append, DVCall.runAll_cons, DVCall.runAll_cons]
    rcases c.run G d with d' | _ | _
    · exact ih d'
    · rfl
    · rfl

/-- Calls that change the vertex. -/
def DVCall.changes : DVCall P V → Prop
  | .revert => False
  | _ => True

/-- C48: whatever was done before, after an update (or setting a value) one or more reverts restore the vertex from before. -/
theorem C48_revert_restores (G : LieGrp P V) (d0 d : DV P) (before : List (DVCall P V))
    (hb : DVCall.runAll G before d0 = .ok d) (c : DVCall P V) (hc : c.changes) (n : ℕ) :
    ∃ d', DVCall.runAll G (before ++ c :: List.replicate (n + 1) .revert) d0 = .ok d' ∧ d'.vertex = d.vertex := by
  have hrev : ∀ (n : ℕ) (v p : P), DVCall.runAll G (List.replicate (n + 1) .revert) ⟨v, some p⟩ = .ok ⟨p, some p⟩ := by
    intro n
    induction n with
    | zero => intro v p; rfl
    | succ n ih => intro v p; rw [List.replicate_succ, DVCall.runAll_cons]; exact ih p p
  rw [DVCall.runAll_append, hb, Outcome.bind_ok, DVCall.runAll_cons]
  cases c with
  | update v => exact ⟨_, hrev n _ _, rfl⟩
  | revert => exact hc.elim
  | setParameters p => exact ⟨_, hrev n _ _, rfl⟩

/-- C48: a sequence of calls has defined behaviour as soon as it does not start with a revert. -/
theorem C48_defined (G : LieGrp P V) (d : DV P) (c : DVCall P V) (hc : c.changes) (cs : List (DVCall P V)) :
    ∃ d', DVCall.runAll G (c :: cs) d = .ok d' := by
  have key : ∀ (cs : List (DVCall P V)) (d : DV P), d.saved.isSome → ∃ d', DVCall.runAll G cs d = .ok d' := by
    intro cs
    induction cs with
    | nil => intro d _; exact ⟨d, rfl⟩
    | cons c cs ih =>
      intro d hd
      rw [DVCall.runAll_cons]
      cases c with
      | update v => exact ih _ rfl
      | setParameters p => exact ih _ rfl
      | revert =>
        rcases hs : d.saved with _ | p
        · rw [hs] at hd; cases hd
        · simp only [DVCall.run, hs, Outcome.bind_ok]
          exact ih _ rfl
  rw [DVCall.runAll_cons]
  cases c with
  | update v => exact key cs _ rfl
  | revert => exact hc.elim
  | setParameters p => exact key cs _ rfl

/-- C48: a revert before anything was saved reads an uninitialised point. -/
theorem C48_first_revert_undefined (G : LieGrp P V) (p : P) : DVCall.runAll G [.revert] ⟨p, none⟩ = .ub := rfl

/-- C48: the vertex stays in the group under every sequence of updates, reverts, and set values that are in the group. -/
theorem C48_stays_on_manifold (G : LieGrp P V) (H : Set P) (hG : MSpline.IsGroupOn G H) (hp : ∀ x ∈ H, G.project x ∈ H) (p : P) (h0 : p ∈ H)
    (cs : List (DVCall P V)) (hset : ∀ q, DVCall.setParameters q ∈ cs → q ∈ H) (d' : DV P)
    (hr : DVCall.runAll G cs ⟨p, none⟩ = .ok d') : d'.vertex ∈ H := by
  have key : ∀ (cs : List (DVCall P V)) (d : DV P), (∀ q, DVCall.setParameters q ∈ cs → q ∈ H) → d.vertex ∈ H →
      (∀ q, d.saved = some q → q ∈ H) → DVCall.runAll G cs d = .ok d' → d'.vertex ∈ H := by
    intro cs
    induction cs with
    | nil =>
      intro d _ hv _ hr
      rw [DVCall.runAll_nil, Outcome.ok.injEq] at hr
      rw [← hr]; exact hv
    | cons c cs ih =>
      intro d hset hv hs hr
      rw [DVCall.runAll_cons] at hr
      have hset' : ∀ q, DVCall.setParameters q ∈ cs → q ∈ H := fun q hq => hset q (List.mem_cons_of_mem _ hq)
      have hsome : ∀ q, some d.vertex = some q → q ∈ H := by
        intro q hq
        rw [Option.some.injEq] at hq
        rw [← hq]; exact hv
      cases c with
      | update v => exact ih _ hset' (hp _ (hG.mul_mem (hG.exp_mem v) hv)) hsome hr
      | setParameters q => exact ih _ hset' (hset q (by simp)) hsome hr
      | revert =>
        rcases hsv : d.saved with _ | q
        · simp only [DVCall.run, hsv] at hr; cases hr
        · simp only [DVCall.run, hsv, Outcome.bind_ok] at hr
          refine ih _ hset' (hs q hsv) ?_ hr
          intro q' hq'
          simp only [Option.some.injEq] at hq'
          rw [← hq']; exact hs q hsv
  exact key cs _ hset h0 (fun q hq => by cases hq) hr

/-- C48: for quaternions an update gives a unit quaternion whatever nonzero quaternion the vertex was. -/
theorem C48_quaternion_unit (lg : Quaternion ℝ → V3) (d d' : DV (Quaternion ℝ)) (v : V3) (hv : d.vertex ≠ 0)
    (h : (DVCall.update v).run (quatGroup lg) d = .ok d') : ‖d'.vertex‖ = 1 := by
  simp only [DVCall.run, Outcome.ok.injEq] at h
  rw [← h]
  change ‖(‖qplus (axisAngle2quat v) d.vertex‖)⁻¹ • qplus (axisAngle2quat v) d.vertex‖ = 1
  rw [norm_smul, norm_inv, norm_norm, inv_mul_cancel₀]
  rw [MSpline.qplus_eq, norm_mul, MSpline.norm_axisAngle2quat, mul_one]
  exact norm_ne_zero_iff.2 hv

/-- C48: the minimal difference from the old vertex after an update by `v` is `v`, if the logarithm inverts the exponential at `v`.
-/
theorem C48_minimal_difference (G : LieGrp P V) (H : Set P) (hG : MSpline.IsGroupOn G H) (hp : ∀ x ∈ H, G.project x = x) (d d' : DV P)
    (h0 : d.vertex ∈ H) (v : V) (hv : G.logAtId (G.expAtId v) = v) (h : (DVCall.update v).run G d = .ok d') :
    d'.minimalDifference G d.vertex = v := by
  simp only [DVCall.run, Outcome.ok.injEq] at h
  rw [← h]
  unfold DV.minimalDifference LieGrp.minimalDifference LieGrp.update
  simp only []
  rw [hp _ (hG.mul_mem (hG.exp_mem v) h0), hG.assoc (hG.exp_mem v) h0 (hG.inv_mem h0), hG.mul_inv h0, hG.mul_one (hG.exp_mem v), hv]

/-- C48: the minimal difference is zero only at the vertex itself, if only the identity has logarithm zero. -/
theorem C48_minimal_difference_zero [Zero V] (G : LieGrp P V) (H : Set P) (hG : MSpline.IsGroupOn G H)
    (hl : ∀ x ∈ H, G.logAtId x = 0 ↔ x = G.identity) (d : DV P) (q : P) (hd : d.vertex ∈ H) (hq : q ∈ H) :
    d.minimalDifference G q = 0 ↔ d.vertex = q := by
  unfold DV.minimalDifference LieGrp.minimalDifference
  rw [hl _ (hG.mul_mem hd (hG.inv_mem hq))]
  constructor
  · intro h
    have h1 : G.mult (G.mult d.vertex (G.invert q)) q = G.mult G.identity q := by rw [h]
    rwa [hG.assoc hd (hG.inv_mem hq) hq, hG.inv_mul hq, hG.mul_one hd, hG.one_mul hq] at h1
  · intro h
    rw [h]; exact hG.mul_inv hq

/-! ### Quaternions -/

/-- A logarithm of unit quaternions. -/
noncomputable def quatLog (q : Quaternion ℝ) : V3 := (2 * Real.arccos q.re / norm3 (qeps q)) • qeps q

theorem norm3_sq (v : V3) : norm3 v ^ 2 = v 0 ^ 2 + v 1 ^ 2 + v 2 ^ 2 := by
  unfold norm3
  rw [Real.sq_sqrt (by positivity)]

theorem norm3_smul (c : ℝ) (v : V3) : norm3 (c • v) = |c| * norm3 v := by
  unfold norm3
  simp only [Pi.smul_apply, smul_eq_mul]
  rw [show (c * v 0) ^ 2 + (c * v 1) ^ 2 + (c * v 2) ^ 2 = c ^ 2 * (v 0 ^ 2 + v 1 ^ 2 + v 2 ^ 2) by ring,
    Real.sqrt_mul (sq_nonneg c), Real.sqrt_sq_eq_abs]

theorem norm3_eq_zero {v : V3} (h : norm3 v = 0) : v = 0 := by
  have h1 := norm3_sq v
  rw [h] at h1
  have h2 : v 0 ^ 2 = 0 ∧ v 1 ^ 2 = 0 ∧ v 2 ^ 2 = 0 := by
    refine ⟨?_, ?_, ?_⟩ <;> nlinarith [sq_nonneg (v 0), sq_nonneg (v 1), sq_nonneg (v 2)]
  funext i
  fin_cases i
  · exact pow_eq_zero_iff (n := 2) (by norm_num) |>.1 h2.1
  · exact pow_eq_zero_iff (n := 2) (by norm_num) |>.1 h2.2.1
  · exact pow_eq_zero_iff (n := 2) (by norm_num) |>.1 h2.2.2

/-- It inverts the exponential on rotation vectors shorter than a full turn. -/
theorem quatLog_exp (v : V3) (hv : norm3 v < 2 * Real.pi) : quatLog (axisAngle2quat v) = v := by
  have e : qeps (axisAngle2quat v) = (Real.sin (norm3 v / 2) / norm3 v) • v := by
    funext i
    fin_cases i <;> simp [qeps, axisAngle2quat, mul_comm]
  have e0 : (axisAngle2quat v).re = Real.cos (norm3 v / 2) := rfl
  unfold quatLog
  rw [e, e0]
  have hn : 0 ≤ norm3 v := Real.sqrt_nonneg _
  rcases hn.eq_or_lt with h0 | h0
  · rw [norm3_eq_zero h0.symm]; simp
  · have hs : 0 < Real.sin (norm3 v / 2) := Real.sin_pos_of_pos_of_lt_pi (by linarith) (by linarith)
    rw [Real.arccos_cos (by linarith) (by linarith), norm3_smul, abs_of_pos (by positivity), smul_smul]
    have : 2 * (norm3 v / 2) / (Real.sin (norm3 v / 2) / norm3 v * norm3 v) * (Real.sin (norm3 v / 2) / norm3 v) = 1 := by
      field_simp
    rw [this, one_smul]

/-- C48 for quaternions: updating a unit quaternion by a rotation vector `v` and taking the minimal difference from the old one gives
`v` back, for every logarithm that inverts the exponential at `v`. -/
theorem C48_quaternion_difference (lg : Quaternion ℝ → V3) (d d' : DV (Quaternion ℝ)) (hd : ‖d.vertex‖ = 1) (v : V3)
    (hv : lg (axisAngle2quat v) = v) (h : (DVCall.update v).run (quatGroup lg) d = .ok d') :
    d'.minimalDifference (quatGroup lg) d.vertex = v := by
  refine C48_minimal_difference (quatGroup lg) {q | ‖q‖ = 1} (MSpline.quat_group lg) ?_ d d' hd v hv h
  intro x hx
  have hx : ‖x‖ = 1 := hx
  change (‖x‖)⁻¹ • x = x
  rw [hx]; simp

/-! ### The theorems are not vacuous -/

/-- The Euclidean space as a group, EuclideanSpaceImpl.hpp 21-64 (all points are in the manifold). -/
def euclideanGroup (D : ℕ) (K : Type*) [Field K] : LieGrp (Fin D → K) (Fin D → K) where
  identity := 0
  mult a b := a + b
  invert a := -a
  expAtId v := v
  logAtId v := v
  isIn _ := true
  project x := x

theorem euclidean_group (D : ℕ) (K : Type*) [Field K] : MSpline.IsGroupOn (euclideanGroup D K) Set.univ where
  one_mem := trivial
  mul_mem _ _ := trivial
  inv_mem _ := trivial
  exp_mem _ := trivial
  assoc _ _ _ := add_assoc _ _ _
  one_mul _ := zero_add _
  mul_one _ := add_zero _
  inv_mul {a} _ := neg_add_cancel a

/-- Two updates and two reverts leave the vertex after the first update. -/
example : (DVCall.runAll (euclideanGroup 1 ℚ) [.update ![2], .update ![3], .revert, .revert] ⟨![1], none⟩).map
    (fun d => d.vertex 0) = .ok 3 := by decide +kernel

/-- In the Euclidean space every difference is recovered. -/
example (D : ℕ) (K : Type*) [Field K] (d d' : DV (Fin D → K)) (v : Fin D → K)
    (h : (DVCall.update v).run (euclideanGroup D K) d = .ok d') : d'.minimalDifference (euclideanGroup D K) d.vertex = v :=
  C48_minimal_difference _ Set.univ (euclidean_group D K) (fun _ _ => rfl) d d' trivial v rfl h

/-- A rotation by one radian about the first axis. -/
example : ∃ d' : DV (Quaternion ℝ), (DVCall.update ![1, 0, 0]).run (quatGroup quatLog) ⟨MSpline.quatIJ, none⟩ = .ok d' ∧
    ‖d'.vertex‖ = 1 ∧ d'.minimalDifference (quatGroup quatLog) MSpline.quatIJ = ![1, 0, 0] := by
  have h : norm3 ![1, 0, 0] < 2 * Real.pi := by
    have : norm3 ![1, 0, 0] = 1 := by unfold norm3; simp
    rw [this]
    linarith [Real.two_le_pi]
  refine ⟨_, rfl, C48_quaternion_unit quatLog ⟨MSpline.quatIJ, none⟩ _ _ ?_ rfl,
    C48_quaternion_difference quatLog ⟨MSpline.quatIJ, none⟩ _ MSpline.norm_quatIJ _ (quatLog_exp _ h) rfl⟩
  intro h0
  have := MSpline.norm_quatIJ
  have h0 : MSpline.quatIJ = 0 := h0
  rw [h0, norm_zero] at this
  norm_num at this

end Verif
