import Verif.Model.LivePoseNodes
import Verif.Props.LiveExpressions

/-!
# C93, the other expressions of a pose spline for a constant time

Rotation, position, velocity, acceleration, angular velocity and angular acceleration.
-/

set_option linter.unusedSectionVars false

namespace Verif

open Matrix Finset BSpline Pose

namespace SplineVars

/-- Updating a design variable is moving the coefficient vector along one block. -/
theorem update_moved {v : SplineVars ℝ 6} (hm : Mirror v) {i : ℕ} (hi : i < v.spline.coeffs.length) (dp : Fin 6 → ℝ) (ε : ℝ) :
    ∃ v', v.update i (ε • dp) = .ok v' ∧ v'.spline = moved v.spline (bump v.spline.coeffs.length i dp) ε := by
  obtain ⟨v', -, hu, -, -, -, -, -, hs⟩ := update_ok hm i hi (ε • dp)
  refine ⟨v', hu, ?_⟩
  have hcl : v.spline.coefficientVector.length = v.spline.coeffs.length * 6 := by simp [coefficientVector]
  have hl : (addVec v.spline.coefficientVector ((bump v.spline.coeffs.length i dp).map (ε * ·))).length = 6 * v.spline.coeffs.length := by
    simp [addVec, hcl, bump_length, Nat.mul_comm]
  unfold moved setCoefficientVector
  rw [if_pos hl]
  show v'.spline = BSpline.mk (K := ℝ) _ _ _ _
  rw [hs]
  congr 1
  apply List.ext_getElem (by simp)
  intro j h1 h2
  have hj : j < v.spline.coeffs.length := by simpa using h1
  have key := writeCols_getD v.spline.coeffs 0 (addVec v.spline.coefficientVector ((bump v.spline.coeffs.length i dp).map (ε * ·)))
    v.spline.coeffs.length j hj
  rw [List.getD_eq_getElem?_getD, List.getElem?_eq_getElem h2, Option.getD_some] at key
  rw [key, if_pos (by omega), List.getElem_set]
  funext d
  have hd := d.2
  have hlt : j * 6 + d < v.spline.coeffs.length * 6 := by omega
  have e1 : v.spline.coefficientVector[j * 6 + (d : ℕ)]? = some (v.spline.col j d) := by
    have := stack_getD v.spline.coeffs.length (fun i => v.spline.col i) j hj d
    rw [List.getD_eq_getElem?_getD] at this
    rw [List.getElem?_eq_getElem (by rw [hcl]; exact hlt)]
    have e : (BSpline.stack v.spline.coeffs.length fun i => v.spline.col i) = v.spline.coefficientVector := rfl
    rw [e, List.getElem?_eq_getElem (by rw [hcl]; exact hlt)] at this
    exact congrArg some this
  have e2 : (bump v.spline.coeffs.length i dp)[j * 6 + (d : ℕ)]? = some (if j = i then dp d else 0) := by
    have := entry_bump (n := v.spline.coeffs.length) (i := i) hj dp d
    unfold entry at this
    rw [List.getD_eq_getElem?_getD, List.getElem?_eq_getElem (by rw [bump_length]; exact hlt)] at this
    rw [List.getElem?_eq_getElem (by rw [bump_length]; exact hlt)]
    exact congrArg some this
  show _ = (addVec v.spline.coefficientVector ((bump v.spline.coeffs.length i dp).map (ε * ·))).getD ((j - 0) * 6 + (d : ℕ)) 0
  unfold addVec
  rw [Nat.sub_zero, List.getD_eq_getElem?_getD, List.getElem?_zipWith, List.getElem?_map, e1, e2]
  show _ = v.spline.col j d + ε * (if j = i then dp d else 0)
  have e3 : v.spline.coeffs[j] = v.spline.col j := by simp [BSpline.col, List.getD_eq_getElem?_getD, hj]
  by_cases hij : i = j
  · subst hij
    simp
  · rw [if_neg hij, if_neg (Ne.symm hij), e3]
    simp

/-- What a query answers after an update. -/
theorem query_update {α : Type*} {v : SplineVars ℝ 6} (hm : Mirror v) (R : Rotation ℝ) {i : ℕ} (hi : i < v.spline.coeffs.length)
    (dp : Fin 6 → ℝ) (ε : ℝ) (Q : Pose ℝ → Outcome α) :
    ((v.update i (ε • dp)).bind fun v' => Q (v'.pose R)) = Q ((v.pose R).along (bump v.spline.coeffs.length i dp) ε) := by
  obtain ⟨v', hu, hs⟩ := update_moved hm hi dp ε
  rw [hu, Outcome.bind_ok]
  unfold pose along
  rw [hs]

/-- The blocks of a node emitted for the design variables it collected say what the blocks emitted for the active coefficients say. -/
theorem live_blocks {m : ℕ} {v : SplineVars ℝ 6} (hm : Mirror v) {R : Rotation ℝ} {n : VarNode ℝ}
    (hc : v.captured n.time = .ok (n.vars.map some)) {b : ValJac ℝ 6} {der : ℤ} (hb : v.spline.evalDAndJacobian n.time der = .ok b)
    (J : List ℕ → Outcome (Emission m 6 ℝ)) (M : Fin m → ℕ → ℝ)
    (hJ : ∀ l, J l = if l.length ≤ v.spline.order then .ok (emitBlocks 6 l M) else .ub) {dvs : List ℕ} {em : Emission m 6 ℝ}
    (ha : (v.pose R).activeVariables n.time = .ok dvs) (he : J dvs = .ok em) :
    ∃ em', (J n.vars).bind (v.touch n.vars) = .ok em' ∧ em'.map Prod.fst = n.vars ∧ (∀ p ∈ em', p.1 ∈ v.serials) ∧
      ∀ i x dp, v.designVariable i = .ok x → predicted em' x.serial dp = emissionEffect em (bump v.spline.coeffs.length i dp) := by
  obtain ⟨lo, hlo, hidx, hcap⟩ := jacobian_captured hm hb
  obtain ⟨lo', ha', hidx', -⟩ := active_eq hb
  have ho := hm.sized.order
  obtain rfl : lo = lo' := by
    have := linSpaced_inj (by omega) (hidx.symm.trans hidx')
    omega
  have hdv : dvs = linSpacedIdx v.spline.order lo := Outcome.ok.inj (ha.symm.trans ha')
  have hl := Outcome.ok.inj (hc.symm.trans hcap)
  have hal := captured_alive hl
  have hlen : n.vars.length = v.spline.order := by simpa using congrArg List.length hl
  rw [hJ, if_pos (by rw [hdv]; simp [linSpacedIdx])] at he
  obtain rfl := Outcome.ok.inj he
  refine ⟨emitBlocks 6 n.vars M, ?_, emitBlocks_fst _ _ _, ?_, ?_⟩
  · rw [hJ, if_pos hlen.le, Outcome.bind_ok]
    exact touch_ok hal _
  · intro p hp
    have : p.1 ∈ (emitBlocks 6 n.vars M).map Prod.fst := List.mem_map_of_mem hp
    rw [emitBlocks_fst] at this
    exact hal _ this
  · intro i x dp hx
    obtain ⟨hi, hx'⟩ := designVariable_some hm hx
    rw [emit_named v n.vars v.spline.order lo hl, predicted_eq hm _ ?_ hx', hdv]
    intro p hp
    rw [emitBlocks_eq] at hp
    obtain ⟨j, hj, rfl⟩ := List.mem_map.1 hp
    have := List.mem_range.1 hj
    show lo + j < _
    omega

/-- Specification: the expression for the rotation is right in a state. -/
def RotationFaithful (n : VarNode ℝ) (v : SplineVars ℝ 6) (R : Rotation ℝ) : Prop :=
  ∃ C em, n.rotation v R = .ok C ∧ n.rotationJacobians v R = .ok em ∧ em.map Prod.fst = n.vars ∧ (∀ p ∈ em, p.1 ∈ v.serials) ∧
    ∀ i x dp, v.designVariable i = .ok x → ∀ a c : Fin 3,
      HasDerivAt (fun ε : ℝ => ((v.update i (ε • dp)).bind fun v' => n.rotation v' R).getD 0 a c)
        ((-(crossMx (predicted em x.serial dp)) * C) a c) 0

/-- Specification: an expression with three components is right in a state. -/
def VectorFaithful (q : PoseVector) (n : VarNode ℝ) (v : SplineVars ℝ 6) (R : Rotation ℝ) : Prop :=
  ∃ y em, n.vector q v R = .ok y ∧ n.vectorJacobians q v R = .ok em ∧ em.map Prod.fst = n.vars ∧ (∀ p ∈ em, p.1 ∈ v.serials) ∧
    ∀ i x dp, v.designVariable i = .ok x →
      HasDerivAt (fun ε : ℝ => ((v.update i (ε • dp)).bind fun v' => n.vector q v' R).getD 0) (predicted em x.serial dp) 0

/-- **C93**, the expression for the rotation of a pose spline; holds for a time before the end of the spline. -/
theorem C93_rotation_partial (solve : Solver ℝ) (s : BSpline ℝ 6) (h : Sized s) (ops0 ops : List (Op ℝ 6)) (v0 v : SplineVars ℝ 6)
    (hv0 : (create s).run solve ops0 = .ok v0) (t b : ℝ) (n : VarNode ℝ) (hn : v0.toExpression t 0 = .ok n)
    (hb : v0.spline.tMax = .ok b) (htb : t + snapTol ≤ b) (hv : v0.run solve ops = .ok v) (R : Rotation ℝ) (hd : Differential R) :
    (v.InRange t → RotationFaithful n v R) ∧ (¬ v.InRange t → n.rotation v R = .throws ∧ n.rotationJacobians v R = .throws) := by
  obtain ⟨hm, h1, h2⟩ := kept_cases solve s h ops0 ops v0 v hv0 t b 0 n hn hb htb hv
  obtain ⟨-, rfl, -⟩ := (toExpression_eq v0 t 0 n).1 hn
  refine ⟨fun hr => ?_, fun hr => ?_⟩
  · obtain ⟨hc, hend⟩ := h1 hr
    obtain ⟨y, hy⟩ := value_defined hm hr hend (der := 0) le_rfl
    obtain ⟨r, hJ, rfl⟩ := jacobian_of_value hy
    have hval : (v.pose R).rotationNodeValue n.time = .ok (R.toMatrix (tail r.value)) := by
      unfold rotationNodeValue orientation
      have : (v.pose R).spline.eval n.time = .ok r.value := hy
      rw [this]
      rfl
    obtain ⟨dvs, em, e1, e2, -, e4⟩ := C60_rotation (v.pose R) hd n.time _ hval
    obtain ⟨em', j1, j2, j3, j4⟩ := live_blocks (R := R) hm hc hJ (fun l => (v.pose R).rotationNodeJacobians l n.time)
      (mulJac (orientationBlock (R.sMatrix (tail r.value))) (rows6 r.jacobian)) (fun l => by
        unfold rotationNodeJacobians orientationAndJacobian
        have : (v.pose R).spline.evalDAndJacobian n.time 0 = .ok r := hJ
        rw [this]
        rfl) e1 e2
    refine ⟨_, em', hval, j1, j2, j3, fun i x dp hx a c => ?_⟩
    obtain ⟨hi, -⟩ := designVariable_some hm hx
    rw [j4 i x dp hx]
    refine (e4 _ (by rw [bump_length]; simp [coefficientVector, pose]) a c).congr_of_eventuallyEq (Filter.Eventually.of_forall fun ε => ?_)
    show ((v.update i (ε • dp)).bind fun v' => (v'.pose R).rotationNodeValue n.time).getD 0 a c = _
    rw [query_update hm R hi dp ε fun s => s.rotationNodeValue n.time]
  · have hT : (v.pose R).spline.computeTIndex n.time = .throws := (h2 hr).1
    unfold VarNode.rotation rotationNodeValue orientation VarNode.rotationJacobians rotationNodeJacobians
      orientationAndJacobian BSpline.eval evalD evalDNat evalDAndJacobian computeUAndTIndex
    rw [hT]
    exact ⟨rfl, rfl⟩

/-- **C93**, the expressions for position, velocity, acceleration, angular velocity and angular acceleration of a pose spline; holds for a time before
the end of the spline.  The acceleration in the body frame is left out: its Jacobians are wrong even if nothing changes (`C50_violated`). -/
theorem C93_vector_partial (solve : Solver ℝ) (s : BSpline ℝ 6) (h : Sized s) (ops0 ops : List (Op ℝ 6)) (v0 v : SplineVars ℝ 6)
    (hv0 : (create s).run solve ops0 = .ok v0) (t b : ℝ) (n : VarNode ℝ) (hn : v0.toExpression t 0 = .ok n)
    (hb : v0.spline.tMax = .ok b) (htb : t + snapTol ≤ b) (hv : v0.run solve ops = .ok v) (R : Rotation ℝ) (hs : Sound R) (q : PoseVector) :
    (v.InRange t → q ≠ .accelerationBody → VectorFaithful q n v R) ∧
      (v.InRange t → ∃ y em, n.vector q v R = .ok y ∧ n.vectorJacobians q v R = .ok em ∧ em.map Prod.fst = n.vars ∧ ∀ p ∈ em, p.1 ∈ v.serials) ∧
      (¬ v.InRange t → n.vector q v R = .throws ∧ n.vectorJacobians q v R = .throws) := by
  obtain ⟨hm, h1, h2⟩ := kept_cases solve s h ops0 ops v0 v hv0 t b 0 n hn hb htb hv
  obtain ⟨-, rfl, -⟩ := (toExpression_eq v0 t 0 n).1 hn
  have main : v.InRange n.time → ∃ y em M dvs emd, q.value (v.pose R) n.time = .ok y ∧
      (∀ l, q.jacobians (v.pose R) l n.time = if l.length ≤ v.spline.order then .ok (emitBlocks 6 l M) else .ub) ∧
      (v.pose R).activeVariables n.time = .ok dvs ∧ q.jacobians (v.pose R) dvs n.time = .ok emd ∧
      n.vectorJacobians q v R = .ok em ∧ em.map Prod.fst = n.vars ∧ (∀ p ∈ em, p.1 ∈ v.serials) ∧
      ∀ i x dp, v.designVariable i = .ok x → predicted em x.serial dp = emissionEffect emd (bump v.spline.coeffs.length i dp) := by
    intro hr
    obtain ⟨hc, hend⟩ := h1 hr
    obtain ⟨y0, hy0⟩ := value_defined hm hr hend (der := 0) le_rfl
    obtain ⟨y1, hy1⟩ := value_defined hm hr hend (der := 1) (by norm_num)
    obtain ⟨y2, hy2⟩ := value_defined hm hr hend (der := 2) (by norm_num)
    obtain ⟨r0, hJ0, rfl⟩ := jacobian_of_value hy0
    obtain ⟨r1, hJ1, rfl⟩ := jacobian_of_value hy1
    obtain ⟨r2, hJ2, rfl⟩ := jacobian_of_value hy2
    have hv0 : (v.pose R).spline.evalD n.time 0 = .ok r0.value := hy0
    have hv1 : (v.pose R).spline.evalD n.time 1 = .ok r1.value := hy1
    have hv2 : (v.pose R).spline.evalD n.time 2 = .ok r2.value := hy2
    have hj0 : (v.pose R).spline.evalDAndJacobian n.time 0 = .ok r0 := hJ0
    have hj1 : (v.pose R).spline.evalDAndJacobian n.time 1 = .ok r1 := hJ1
    have hj2 : (v.pose R).spline.evalDAndJacobian n.time 2 = .ok r2 := hJ2
    obtain ⟨lo, ha, -, -⟩ := active_eq hJ0
    have hval : ∃ y, q.value (v.pose R) n.time = .ok y := by
      cases q <;> simp only [PoseVector.value, euclideanNodeValue, accelerationBodyNodeValue, linearAccelerationBodyFrame,
        angularVelocityBodyNodeValue, angularVelocityBodyFrame, angularAccelerationBodyNodeValue, angularAccelerationBodyFrame, hv0, hv1, hv2,
        Outcome.map_ok, Outcome.bind_ok] <;> exact ⟨_, rfl⟩
    have hjac : ∃ M : Fin 3 → ℕ → ℝ, ∀ l, q.jacobians (v.pose R) l n.time = if l.length ≤ v.spline.order then .ok (emitBlocks 6 l M) else .ub := by
      cases q <;> simp only [PoseVector.jacobians, euclideanNodeJacobians, accelerationBodyNodeJacobians,
        angularVelocityBodyNodeJacobians, angularAccelerationBodyNodeJacobians, angularVelocityBodyFrameAndJacobian,
        angularAccelerationBodyFrameAndJacobian, angularBodyFrameAndJacobian, inverseOrientationAndJacobian, hj0, hj1, hj2,
        Outcome.map_ok, Outcome.bind_ok] <;> exact ⟨_, fun l => rfl⟩
    obtain ⟨y, hy⟩ := hval
    obtain ⟨M, hM⟩ := hjac
    have hemd : q.jacobians (v.pose R) (linSpacedIdx v.spline.order lo) n.time = .ok (emitBlocks 6 (linSpacedIdx v.spline.order lo) M) := by
      rw [hM, if_pos (by simp [linSpacedIdx])]
    obtain ⟨em', j1, j2, j3, j4⟩ := live_blocks (R := R) hm hc hJ0 (fun l => q.jacobians (v.pose R) l n.time) M hM ha hemd
    exact ⟨y, em', M, _, _, hy, hM, ha, hemd, j1, j2, j3, j4⟩
  refine ⟨fun hr hq => ?_, fun hr => ?_, fun hr => ?_⟩
  · obtain ⟨y, em, M, dvs, emd, hy, hM, ha, hemd, j1, j2, j3, j4⟩ := main hr
    have hder : ∀ δ : List ℝ, δ.length = (v.pose R).spline.coefficientVector.length →
        HasDerivAt (fun ε => (q.value ((v.pose R).along δ ε) n.time).getD 0) (emissionEffect emd δ) 0 := by
      intro δ hδ
      have go : ∀ (Q : Pose ℝ → Outcome (Fin 3 → ℝ)) (J : List ℕ → Outcome (Emission 3 6 ℝ)), J dvs = .ok emd →
          (∃ dvs em, (v.pose R).activeVariables n.time = .ok dvs ∧ J dvs = .ok em ∧ em.map Prod.fst = dvs ∧
            ∀ δ : List ℝ, δ.length = (v.pose R).spline.coefficientVector.length →
              HasDerivAt (fun ε => (Q ((v.pose R).along δ ε)).getD 0) (emissionEffect em δ) 0) →
          HasDerivAt (fun ε => (Q ((v.pose R).along δ ε)).getD 0) (emissionEffect emd δ) 0 := by
        rintro Q J hJ ⟨dvs', em', k1, k2, -, k4⟩
        obtain rfl := Outcome.ok.inj (ha.symm.trans k1)
        obtain rfl := Outcome.ok.inj (hJ.symm.trans k2)
        exact k4 δ hδ
      cases q with
      | position =>
        exact go (fun s => s.euclideanNodeValue n.time 0) (fun l => (v.pose R).euclideanNodeJacobians l n.time 0) hemd
          (C60_euclidean (v.pose R) n.time 0 y hy)
      | velocity =>
        exact go (fun s => s.euclideanNodeValue n.time 1) (fun l => (v.pose R).euclideanNodeJacobians l n.time 1) hemd
          (C60_euclidean (v.pose R) n.time 1 y hy)
      | acceleration =>
        exact go (fun s => s.euclideanNodeValue n.time 2) (fun l => (v.pose R).euclideanNodeJacobians l n.time 2) hemd
          (C60_euclidean (v.pose R) n.time 2 y hy)
      | accelerationBody => exact absurd rfl hq
      | angularVelocityBody =>
        exact go (fun s => s.angularVelocityBodyNodeValue n.time)
          (fun l => (v.pose R).angularVelocityBodyNodeJacobians l n.time) hemd ((C60_angular (v.pose R) hs n.time).1 y hy)
      | angularAccelerationBody =>
        exact go (fun s => s.angularAccelerationBodyNodeValue n.time)
          (fun l => (v.pose R).angularAccelerationBodyNodeJacobians l n.time) hemd ((C60_angular (v.pose R) hs n.time).2 y hy)
    refine ⟨y, em, hy, j1, j2, j3, fun i x dp hx => ?_⟩
    obtain ⟨hi, -⟩ := designVariable_some hm hx
    rw [j4 i x dp hx]
    refine (hder _ (by rw [bump_length]; simp [coefficientVector, pose])).congr_of_eventuallyEq (Filter.Eventually.of_forall fun ε => ?_)
    show ((v.update i (ε • dp)).bind fun v' => q.value (v'.pose R) n.time).getD 0 = _
    rw [query_update hm R hi dp ε fun s => q.value s n.time]
  · obtain ⟨y, em, M, dvs, emd, hy, hM, ha, hemd, j1, j2, j3, j4⟩ := main hr
    exact ⟨y, em, hy, j1, j2, j3⟩
  · have hT : (v.pose R).spline.computeTIndex n.time = .throws := (h2 hr).1
    have hU : (v.pose R).spline.computeUAndTIndex n.time = .throws := by unfold computeUAndTIndex; rw [hT]; rfl
    have hE : ∀ k : ℕ, (v.pose R).spline.evalD n.time (k : ℤ) = .throws := by
      intro k
      unfold evalD evalDNat
      rw [if_neg (by omega), hU]
      rfl
    have hJ : ∀ k : ℕ, (v.pose R).spline.evalDAndJacobian n.time (k : ℤ) = .throws := by
      intro k
      unfold evalDAndJacobian
      rw [if_neg (by omega), hU]
      rfl
    have E0 := hE 0
    have E1 := hE 1
    have E2 := hE 2
    have J0 := hJ 0
    have J1 := hJ 1
    have J2 := hJ 2
    norm_cast at E0 E1 E2 J0 J1 J2
    unfold VarNode.vector VarNode.vectorJacobians
    cases q <;> simp only [PoseVector.value, PoseVector.jacobians, euclideanNodeValue, accelerationBodyNodeValue, linearAccelerationBodyFrame,
        angularVelocityBodyNodeValue, angularVelocityBodyFrame, angularAccelerationBodyNodeValue, angularAccelerationBodyFrame, euclideanNodeJacobians, accelerationBodyNodeJacobians,
        angularVelocityBodyNodeJacobians, angularAccelerationBodyNodeJacobians, angularVelocityBodyFrameAndJacobian,
        angularAccelerationBodyFrameAndJacobian, angularBodyFrameAndJacobian, E0, E1, E2, J0, J1, J2] <;> exact ⟨rfl, rfl⟩

/-- The hypotheses of `C93_rotation_partial` and `C93_vector_partial`: a pose spline, expressions for time `5/2`, and the update of a design
variable; the expressions are right afterwards. -/
example (c0 c1 c2 dp : Fin 6 → ℝ) : ∃ n v, Sized (Pose.demo c0 c1 c2) ∧ (create (Pose.demo c0 c1 c2)).toExpression (5/2) 0 = .ok n ∧
    (create (Pose.demo c0 c1 c2)).spline.tMax = .ok 3 ∧ (5/2 : ℝ) + snapTol ≤ 3 ∧
    (create (Pose.demo c0 c1 c2)).run choiceSolver [.update 1 dp] = .ok v ∧ v.InRange (5/2) ∧ Differential (rodrigues ℝ) ∧ Sound (rodrigues ℝ) ∧
    RotationFaithful n v (rodrigues ℝ) ∧ VectorFaithful .angularVelocityBody n v (rodrigues ℝ) := by
  have hs := sized_of_wf (Pose.demo_wf c0 c1 c2)
  have hn : (create (Pose.demo c0 c1 c2)).toExpression (5/2) 0 = .ok ⟨[0, 1, 2], 5/2, 0⟩ := by
    refine (toExpression_eq _ _ _ _).2 ⟨?_, rfl, rfl⟩
    rw [captured_eq hs (Pose.demo_index c0 c1 c2 (5/2) (by norm_num) (by norm_num)) le_rfl]
    rfl
  obtain ⟨v, -, hu, hm1, -, -, -, -, hsp⟩ := update_ok (mirror_create hs) 1 (by show 1 < 3; decide) dp
  have hv : (create (Pose.demo c0 c1 c2)).run choiceSolver [.update 1 dp] = .ok v := by
    unfold SplineVars.run
    have : (create (Pose.demo c0 c1 c2)).step choiceSolver (.update 1 dp) = .ok v := hu
    rw [this]
    rfl
  have hr : v.InRange (5/2) := ⟨2, by rw [hsp]; rfl, by norm_num⟩
  have ht : (5/2 : ℝ) + snapTol ≤ 3 := by norm_num [snapTol]
  exact ⟨_, v, hs, hn, rfl, ht, hv, hr, rodrigues_differential, rodrigues_sound,
    (C93_rotation_partial choiceSolver _ hs [] _ _ v rfl _ 3 _ hn rfl ht hv _ rodrigues_differential).1 hr,
    (C93_vector_partial choiceSolver _ hs [] _ _ v rfl _ 3 _ hn rfl ht hv _ rodrigues_sound .angularVelocityBody).1 hr (by decide)⟩

end SplineVars
end Verif
