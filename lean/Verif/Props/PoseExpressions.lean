import Verif.Model.PoseExpressions
import Verif.Props.PoseRates

/-!
# Expressions of pose splines: emitted Jacobians (C50, C60)
-/

set_option linter.unusedSectionVars false

namespace Verif

open Matrix Finset BSpline

namespace Pose

/-! ## Specification -/

/-- Specification: the change to first order that a container of blocks predicts for a change `δ` of all coefficients
(`D` components each). -/
def emissionEffect {K : Type*} [Field K] {m D : ℕ} (em : Emission m D K) (δ : List K) : Fin m → K :=
  (em.map fun p => p.2.mulVec (fun c : Fin D => entry δ (p.1 * D + c))).sum

/-! ## From blocks to Jacobians -/

theorem emitBlocks_eq {K : Type*} {m : ℕ} (D k b : ℕ) (J : Fin m → ℕ → K) :
    emitBlocks D (linSpacedIdx k b) J
      = (List.range k).map (fun i => (b + i, Matrix.of fun r (c : Fin D) => J r (i * D + c))) := by
  apply List.ext_getElem
  · simp [emitBlocks, linSpacedIdx]
  · intro n h1 h2
    simp [emitBlocks, linSpacedIdx]

theorem emitBlocks_fst {K : Type*} {m : ℕ} (D : ℕ) (dvs : List ℕ) (J : Fin m → ℕ → K) :
    (emitBlocks D dvs J).map Prod.fst = dvs := by
  apply List.ext_getElem
  · simp [emitBlocks]
  · intro n h1 h2
    simp [emitBlocks]

theorem emit_effect {K : Type*} [Field K] {m : ℕ} (D k b : ℕ) (J : Fin m → ℕ → K) (δ : List K) :
    emissionEffect (emitBlocks D (linSpacedIdx k b) J) δ = effect J (linSpacedIdx (k * D) (b * D)) δ := by
  rw [emitBlocks_eq]
  ext r
  have hlin : ∀ n lo q, q < n → (linSpacedIdx n lo).getD q 0 = lo + q := by
    intro n lo q hq
    simp [linSpacedIdx, List.getD_eq_getElem?_getD, hq]
  have he : effect J (linSpacedIdx (k * D) (b * D)) δ r = ∑ q ∈ range (k * D), J r q * entry δ (b * D + q) := by
    unfold effect
    rw [show (linSpacedIdx (k * D) (b * D)).length = k * D by simp [linSpacedIdx]]
    refine Finset.sum_congr rfl fun q hq => ?_
    rw [hlin _ _ _ (Finset.mem_range.1 hq)]
  rw [he]
  clear he
  induction k with
  | zero => simp [emissionEffect]
  | succ k ih =>
    rw [List.range_succ, List.map_append, emissionEffect, List.map_append, List.sum_append, Pi.add_apply, Nat.succ_mul,
      Finset.sum_range_add]
    refine congrArg₂ (· + ·) ih ?_
    simp only [List.map_cons, List.map_nil, List.sum_cons, List.sum_nil, add_zero, Matrix.mulVec, dotProduct, Matrix.of_apply]
    rw [← Fin.sum_univ_eq_sum_range (fun c : ℕ => J r (k * D + c) * entry δ (b * D + (k * D + c))) D]
    refine Finset.sum_congr rfl fun c _ => ?_
    rw [Nat.add_mul, Nat.add_assoc]

/-- The design variables captured by an expression and the coefficient indices of the Jacobian describe the same coefficients. -/
theorem active_eq {D : ℕ} {b : BSpline ℝ D} {t : ℝ} {der : ℤ} {r : ValJac ℝ D} (h : b.evalDAndJacobian t der = .ok r) :
    ∃ lo, b.localVvCoefficientVectorIndices t = .ok (linSpacedIdx b.order lo) ∧
      r.indices = linSpacedIdx (b.order * D) (lo * D) ∧ lo + b.order ≤ b.coeffs.length := by
  obtain ⟨x, u, i, B, hd, hT, hU, h1, hb, h2, hB, rfl⟩ := evalDAndJacobian_inv h
  refine ⟨i + 1 - b.order, ?_, rfl, h2⟩
  unfold localVvCoefficientVectorIndices bidxOf
  rw [hT, Outcome.bind_ok]
  dsimp only
  rw [if_neg (by omega)]
  rfl

theorem jacobian_of_value {D : ℕ} {b : BSpline ℝ D} {t : ℝ} {der : ℤ} {v : Fin D → ℝ} (h : b.evalD t der = .ok v) :
    ∃ r, b.evalDAndJacobian t der = .ok r ∧ r.value = v := by
  have := C07_jacobian_defined b t der
  rw [h] at this
  cases hr : b.evalDAndJacobian t der with
  | ok r => rw [hr] at this; exact ⟨r, rfl, Outcome.ok.inj this⟩
  | throws => rw [hr] at this; exact nomatch this
  | ub => rw [hr] at this; exact nomatch this

/-- Emission of a Jacobian whose indices are those of the spline Jacobian at that time. -/
theorem emitFor_ok {α : Type*} {m : ℕ} (s : Pose ℝ) {t : ℝ} {der : ℤ} {b : ValJac ℝ 6} (hb : s.spline.evalDAndJacobian t der = .ok b)
    (r : WithJacobian α m ℝ) (hr : r.indices = b.indices) :
    ∃ dvs em, s.activeVariables t = .ok dvs ∧ s.emitFor dvs r = .ok em ∧ em.map Prod.fst = dvs ∧
      ∀ δ, emissionEffect em δ = effect r.jacobian r.indices δ := by
  obtain ⟨lo, h1, h2, -⟩ := active_eq hb
  refine ⟨_, emitBlocks 6 (linSpacedIdx s.spline.order lo) r.jacobian, h1, ?_, emitBlocks_fst _ _ _, fun δ => ?_⟩
  · unfold emitFor
    rw [if_pos (by simp [linSpacedIdx])]
  · rw [emit_effect, hr, h2]

/-! ## C60: no node reads beyond the columns of its Jacobian -/

/-- **C60**: whatever design variables a node was given, if it emits blocks then it has at most as many design variables as the Jacobian of
the spline has blocks of columns. -/
theorem C60_within (s : Pose ℝ) (dvs : List ℕ) (t : ℝ) (h : s.spline.order < dvs.length) :
    (∀ em, s.transformationNodeJacobians dvs t ≠ .ok em) ∧ (∀ em, s.rotationNodeJacobians dvs t ≠ .ok em) ∧
    (∀ der em, s.euclideanNodeJacobians dvs t der ≠ .ok em) ∧ (∀ em, s.accelerationBodyNodeJacobians dvs t ≠ .ok em) ∧
    (∀ em, s.angularVelocityBodyNodeJacobians dvs t ≠ .ok em) ∧ ∀ em, s.angularAccelerationBodyNodeJacobians dvs t ≠ .ok em := by
  have key : ∀ {α β : Type} {m : ℕ} (r : Outcome α) (g : α → WithJacobian β m ℝ) em, (r.bind fun x => s.emitFor dvs (g x)) ≠ .ok em := by
    intro α β m r g em hem
    cases r with
    | ok x =>
      have : (if dvs.length ≤ s.spline.order then Outcome.ok (emitBlocks 6 dvs (g x).jacobian) else .ub) = .ok em := hem
      rw [if_neg (by omega)] at this
      exact nomatch this
    | throws => exact nomatch hem
    | ub => exact nomatch hem
  exact ⟨fun em => key _ (fun x => x) em, fun em => key _ (fun x => x) em, fun der em => key _ _ em, fun em => key _ _ em,
    fun em => key _ (fun x => x) em, fun em => key _ (fun x => x) em⟩

/-- Four design variables are too many for a spline of order three. -/
example (s : Pose ℝ) (t : ℝ) (em) (h : s.spline.order = 3) : s.transformationNodeJacobians [2, 3, 4, 5] t ≠ .ok em :=
  (C60_within s [2, 3, 4, 5] t (by rw [h]; decide)).1 em

/-! ## C60: the expressions emit the derivatives of their values -/

/-- **C60**, transformation expression: whenever the value is defined, the expression has design variables, emits one block for
each of them in order, and for every change of the coefficients the derivative of the value is predicted by the blocks. -/
theorem C60_transformation (s : Pose ℝ) (hd : Differential s.rotation) (t : ℝ) (T : Matrix (Fin 4) (Fin 4) ℝ)
    (hT : s.transformationNodeValue t = .ok T) :
    ∃ dvs em, s.activeVariables t = .ok dvs ∧ s.transformationNodeJacobians dvs t = .ok em ∧ em.map Prod.fst = dvs ∧
      ∀ δ : List ℝ, δ.length = s.spline.coefficientVector.length → ∀ i j,
        HasDerivAt (fun ε => ((s.along δ ε).transformationNodeValue t).getD 0 i j)
          ((boxPlus (emissionEffect em δ) * T) i j) 0 := by
  have h0 : (s.transformationAndJacobian t).map (fun r => r.value) = .ok T := (C58_partial s t).1.trans hT
  cases hb : s.spline.evalDAndJacobian t 0 with
  | throws => unfold transformationAndJacobian at h0; rw [hb] at h0; exact nomatch h0
  | ub => unfold transformationAndJacobian at h0; rw [hb] at h0; exact nomatch h0
  | ok b =>
    have hr : s.transformationAndJacobian t = .ok
        { value := curveValueToTransformation s.rotation b.value
          jacobian := mulJac (curveValueJacobian s.rotation b.value) (rows6 b.jacobian)
          indices := b.indices } := by
      unfold transformationAndJacobian
      rw [hb]
      rfl
    rw [hr] at h0
    obtain rfl := Outcome.ok.inj h0
    obtain ⟨dvs, em, e1, e2, e3, e4⟩ := emitFor_ok s hb
      ({ value := curveValueToTransformation s.rotation b.value
         jacobian := mulJac (curveValueJacobian s.rotation b.value) (rows6 b.jacobian)
         indices := b.indices } : WithJacobian _ _ _) rfl
    refine ⟨dvs, em, e1, ?_, e3, fun δ hδ i j => ?_⟩
    · unfold transformationNodeJacobians
      rw [hr]
      exact e2
    · rw [e4 δ]
      exact (C56_transformation s hd t _ hr δ hδ).2.2 i j

/-- **C60**, rotation expression. -/
theorem C60_rotation (s : Pose ℝ) (hd : Differential s.rotation) (t : ℝ) (C : Matrix (Fin 3) (Fin 3) ℝ)
    (hC : s.rotationNodeValue t = .ok C) :
    ∃ dvs em, s.activeVariables t = .ok dvs ∧ s.rotationNodeJacobians dvs t = .ok em ∧ em.map Prod.fst = dvs ∧
      ∀ δ : List ℝ, δ.length = s.spline.coefficientVector.length → ∀ i j,
        HasDerivAt (fun ε => ((s.along δ ε).rotationNodeValue t).getD 0 i j)
          ((-(crossMx (emissionEffect em δ)) * C) i j) 0 := by
  have h0 : (s.orientationAndJacobian t).map (fun r => r.value) = .ok C := (C58_partial s t).2.2.1.trans hC
  cases hb : s.spline.evalDAndJacobian t 0 with
  | throws => unfold orientationAndJacobian at h0; rw [hb] at h0; exact nomatch h0
  | ub => unfold orientationAndJacobian at h0; rw [hb] at h0; exact nomatch h0
  | ok b =>
    have hr : s.orientationAndJacobian t = .ok
        { value := s.rotation.toMatrix (tail b.value)
          jacobian := mulJac (orientationBlock (s.rotation.sMatrix (tail b.value))) (rows6 b.jacobian)
          indices := b.indices } := by
      unfold orientationAndJacobian
      rw [hb]
      rfl
    rw [hr] at h0
    obtain rfl := Outcome.ok.inj h0
    obtain ⟨dvs, em, e1, e2, e3, e4⟩ := emitFor_ok s hb
      ({ value := s.rotation.toMatrix (tail b.value)
         jacobian := mulJac (orientationBlock (s.rotation.sMatrix (tail b.value))) (rows6 b.jacobian)
         indices := b.indices } : WithJacobian _ _ _) rfl
    refine ⟨dvs, em, e1, ?_, e3, fun δ hδ i j => ?_⟩
    · unfold rotationNodeJacobians
      rw [hr]
      exact e2
    · rw [e4 δ]
      exact (C56_orientation s hd t _ hr δ hδ).2 i j

/-- **C60**, position, velocity and acceleration expressions (`der = 0, 1, 2`). -/
theorem C60_euclidean (s : Pose ℝ) (t : ℝ) (der : ℤ) (v : Fin 3 → ℝ) (hv : s.euclideanNodeValue t der = .ok v) :
    ∃ dvs em, s.activeVariables t = .ok dvs ∧ s.euclideanNodeJacobians dvs t der = .ok em ∧ em.map Prod.fst = dvs ∧
      ∀ δ : List ℝ, δ.length = s.spline.coefficientVector.length →
        HasDerivAt (fun ε => ((s.along δ ε).euclideanNodeValue t der).getD 0) (emissionEffect em δ) 0 := by
  unfold euclideanNodeValue at hv
  cases hc : s.spline.evalD t der with
  | throws => rw [hc] at hv; exact nomatch hv
  | ub => rw [hc] at hv; exact nomatch hv
  | ok c =>
    obtain ⟨b, hb, rfl⟩ := jacobian_of_value hc
    obtain ⟨dvs, em, e1, e2, e3, e4⟩ := emitFor_ok s hb
      { value := (), jacobian := fun (i : Fin 3) q => b.jacobian i q, indices := b.indices } rfl
    refine ⟨dvs, em, e1, ?_, e3, fun δ hδ => ?_⟩
    · unfold euclideanNodeJacobians
      rw [hb, Outcome.bind_ok]
      exact e2
    · rw [e4 δ]
      refine hasDerivAt_congr (hasDerivAt_head (line_hasDerivAt b.value (effect (rows6 b.jacobian) b.indices δ)))
        (fun ε => ?_) rfl
      have : (moved s.spline δ ε).evalD t der = _ := moved_evalD s.spline t der b hb δ hδ ε
      unfold euclideanNodeValue along
      rw [this]
      rfl

/-- **C60**, angular velocity and angular acceleration expressions in the body frame (for the acceleration: the derivative of the value
the query returns, see C59). -/
theorem C60_angular (s : Pose ℝ) (hs : Sound s.rotation) (t : ℝ) :
    (∀ ω, s.angularVelocityBodyNodeValue t = .ok ω →
      ∃ dvs em, s.activeVariables t = .ok dvs ∧ s.angularVelocityBodyNodeJacobians dvs t = .ok em ∧ em.map Prod.fst = dvs ∧
      ∀ δ : List ℝ, δ.length = s.spline.coefficientVector.length →
        HasDerivAt (fun ε => ((s.along δ ε).angularVelocityBodyNodeValue t).getD 0) (emissionEffect em δ) 0) ∧
    (∀ α, s.angularAccelerationBodyNodeValue t = .ok α →
      ∃ dvs em, s.activeVariables t = .ok dvs ∧ s.angularAccelerationBodyNodeJacobians dvs t = .ok em ∧
        em.map Prod.fst = dvs ∧
      ∀ δ : List ℝ, δ.length = s.spline.coefficientVector.length →
        HasDerivAt (fun ε => ((s.along δ ε).angularAccelerationBodyNodeValue t).getD 0) (emissionEffect em δ) 0) := by
  have key : ∀ der : ℤ, ∀ ω, (s.angularBodyFrameAndJacobian t der).map (fun r => r.value) = .ok ω →
      ∃ dvs em r, s.activeVariables t = .ok dvs ∧ s.angularBodyFrameAndJacobian t der = .ok r ∧ s.emitFor dvs r = .ok em ∧
        em.map Prod.fst = dvs ∧ ∀ δ, emissionEffect em δ = effect r.jacobian r.indices δ := by
    intro der ω hω
    cases hr : s.angularBodyFrameAndJacobian t der with
    | throws => rw [hr] at hω; exact nomatch hω
    | ub => rw [hr] at hω; exact nomatch hω
    | ok r =>
      have hr' := hr
      unfold angularBodyFrameAndJacobian at hr'
      obtain ⟨a, ha, hr'⟩ := Outcome.bind_eq_ok.1 hr'
      obtain ⟨b, hb, hr'⟩ := Outcome.bind_eq_ok.1 hr'
      unfold inverseOrientationAndJacobian at hr'
      rw [ha, Outcome.map_ok, Outcome.map_ok] at hr'
      have hi : r.indices = b.indices := by rw [← Outcome.ok.inj hr']
      obtain ⟨dvs, em, e1, e2, e3, e4⟩ := emitFor_ok s hb r hi
      exact ⟨dvs, em, r, e1, rfl, e2, e3, e4⟩
  constructor
  · intro ω hω
    obtain ⟨dvs, em, r, e1, e2, e3, e4, e5⟩ := key 1 ω (((C58_partial s t).2.2.2.2.2 hs.rate).1.trans hω)
    refine ⟨dvs, em, e1, ?_, e4, fun δ hδ => ?_⟩
    · unfold angularVelocityBodyNodeJacobians angularVelocityBodyFrameAndJacobian
      rw [e2, Outcome.bind_ok, e3]
    · rw [e5 δ]
      refine hasDerivAt_congr (C56_angular_body s hs.differential hs.proper hs.rateJacobian t 1 r e2 δ hδ) (fun ε => ?_) rfl
      exact congrArg (fun o : Outcome (Fin 3 → ℝ) => o.getD 0) ((C58_partial (s.along δ ε) t).2.2.2.2.2 hs.rate).1.symm
  · intro ω hω
    obtain ⟨dvs, em, r, e1, e2, e3, e4, e5⟩ := key 2 ω (((C58_partial s t).2.2.2.2.2 hs.rate).2.1.trans hω)
    refine ⟨dvs, em, e1, ?_, e4, fun δ hδ => ?_⟩
    · unfold angularAccelerationBodyNodeJacobians angularAccelerationBodyFrameAndJacobian
      rw [e2, Outcome.bind_ok, e3]
    · rw [e5 δ]
      refine hasDerivAt_congr (C56_angular_body s hs.differential hs.proper hs.rateJacobian t 2 r e2 δ hδ) (fun ε => ?_) rfl
      exact congrArg (fun o : Outcome (Fin 3 → ℝ) => o.getD 0) ((C58_partial (s.along δ ε) t).2.2.2.2.2 hs.rate).2.1.symm

/-- **C60**, expression of a Euclidean spline. -/
theorem C60_vector (b : BSpline ℝ 3) (t : ℝ) (der : ℤ) (v : Fin 3 → ℝ) (hv : vectorNodeValue b t der = .ok v) :
    ∃ dvs em, b.localVvCoefficientVectorIndices t = .ok dvs ∧ vectorNodeJacobians b dvs t der = .ok em ∧
      em.map Prod.fst = dvs ∧
      ∀ δ : List ℝ, δ.length = b.coefficientVector.length →
        HasDerivAt (fun ε => (vectorNodeValue (moved b δ ε) t der).getD 0) (emissionEffect em δ) 0 := by
  obtain ⟨r, hr, rfl⟩ := jacobian_of_value (b := b) hv
  obtain ⟨lo, h1, h2, -⟩ := active_eq hr
  refine ⟨_, emitBlocks 3 (linSpacedIdx b.order lo) (fun (i : Fin 3) q => r.jacobian i q), h1, ?_, emitBlocks_fst _ _ _,
    fun δ hδ => ?_⟩
  · unfold vectorNodeJacobians
    rw [hr, Outcome.bind_ok, if_pos (by simp [linSpacedIdx])]
  · rw [emit_effect, ← h2]
    refine hasDerivAt_congr (line_hasDerivAt r.value (effect (fun (i : Fin 3) q => r.jacobian i q) r.indices δ)) (fun ε => ?_) rfl
    unfold vectorNodeValue
    rw [moved_evalD b t der r hr δ hδ ε]
    rfl

example : ∃ T ω, spinning.transformationNodeValue (5/2) = .ok T ∧ spinning.angularVelocityBodyNodeValue (5/2) = .ok ω ∧
    Sound spinning.rotation := by
  obtain ⟨e0, e1, -⟩ := spinning_evalD (5/2) (by norm_num) (by norm_num)
  refine ⟨curveValueToTransformation (rodrigues ℝ) ![0, 0, 0, 0, 0, 5/2],
    (-((rodrigues ℝ).toMatrix (tail ![0, 0, 0, 0, 0, 5/2]))ᵀ * (rodrigues ℝ).sMatrix (tail ![0, 0, 0, 0, 0, 5/2])).mulVec
      (tail ![0, 0, 0, 0, 0, 1]), ?_, ?_, rodrigues_sound⟩
  · have : spinning.spline.eval (5/2) = _ := e0
    unfold transformationNodeValue transformation
    rw [this]
    rfl
  · unfold angularVelocityBodyNodeValue angularVelocityBodyFrame
    rw [e0, e1]
    rfl

/-! ## C50: the acceleration expression in the body frame -/

/-- **C50**, `_partial`: whenever the value is defined, the derivative of the value along a change `δ` is `Cᵀ (φ^× a + e)`, where `C` is the
orientation, `a` the acceleration in the world frame, `φ` what the rotation expression predicts and `e` what the body frame
acceleration expression emits.  So the emitted Jacobian is right for `δ` exactly if `Cᵀ (φ^× a + e) = e`; in particular if the
orientation is the identity and `δ` does not rotate.
Missing: the expression emits the Jacobian of the world frame acceleration (`C50_violated`). -/
theorem C50_partial (s : Pose ℝ) (hs : Sound s.rotation) (t : ℝ) (v : Fin 3 → ℝ) (hv : s.accelerationBodyNodeValue t = .ok v) :
    ∃ C a dvs em emR, s.orientation t = .ok C ∧ s.linearAcceleration t = .ok a ∧ s.activeVariables t = .ok dvs ∧
      s.accelerationBodyNodeJacobians dvs t = .ok em ∧ s.rotationNodeJacobians dvs t = .ok emR ∧
      ∀ δ : List ℝ, δ.length = s.spline.coefficientVector.length →
        HasDerivAt (fun ε => ((s.along δ ε).accelerationBodyNodeValue t).getD 0)
          (Cᵀ.mulVec ((crossMx (emissionEffect emR δ)).mulVec a + emissionEffect em δ)) 0 ∧
        (HasDerivAt (fun ε => ((s.along δ ε).accelerationBodyNodeValue t).getD 0) (emissionEffect em δ) 0 ↔
          Cᵀ.mulVec ((crossMx (emissionEffect emR δ)).mulVec a + emissionEffect em δ) = emissionEffect em δ) ∧
        (C = 1 → emissionEffect emR δ = 0 →
          HasDerivAt (fun ε => ((s.along δ ε).accelerationBodyNodeValue t).getD 0) (emissionEffect em δ) 0) := by
  unfold accelerationBodyNodeValue linearAccelerationBodyFrame at hv
  obtain ⟨c, hc, hv⟩ := Outcome.bind_eq_ok.1 hv
  cases hw : s.spline.evalD t 2 with
  | throws => rw [hw] at hv; exact nomatch hv
  | ub => rw [hw] at hv; exact nomatch hv
  | ok w =>
    obtain ⟨b0, hb0, rfl⟩ := jacobian_of_value hc
    obtain ⟨b2, hb2, rfl⟩ := jacobian_of_value hw
    have ho : s.rotationNodeValue t = .ok (s.rotation.toMatrix (tail b0.value)) := by
      have : s.spline.eval t = .ok b0.value := hc
      unfold rotationNodeValue orientation
      rw [this, Outcome.map_ok]
    obtain ⟨dvs, emR, e1, e2, -, -⟩ := C60_rotation s hs.differential t _ ho
    obtain ⟨dvs', em, f1, f2, -, f4⟩ := emitFor_ok s hb2
      { value := (), jacobian := fun (i : Fin 3) q => b2.jacobian i q, indices := b2.indices } rfl
    obtain rfl := Outcome.ok.inj (e1.symm.trans f1)
    obtain ⟨dvs'', emR', g1, g2, -, g4⟩ := emitFor_ok s hb0
      ({ value := s.rotation.toMatrix (tail b0.value)
         jacobian := mulJac (orientationBlock (s.rotation.sMatrix (tail b0.value))) (rows6 b0.jacobian)
         indices := b0.indices } : WithJacobian _ _ _) rfl
    obtain rfl := Outcome.ok.inj (e1.symm.trans g1)
    have hR : emR = emR' := by
      have : s.rotationNodeJacobians dvs t = .ok emR' := by
        unfold rotationNodeJacobians orientationAndJacobian
        rw [hb0, Outcome.map_ok, Outcome.bind_ok]
        exact g2
      exact Outcome.ok.inj (e2.symm.trans this)
    subst hR
    set C := s.rotation.toMatrix (tail b0.value) with hC
    have hCp : Proper C := hs.proper _
    have hmain : ∀ δ : List ℝ, δ.length = s.spline.coefficientVector.length →
        HasDerivAt (fun ε => ((s.along δ ε).accelerationBodyNodeValue t).getD 0)
          (Cᵀ.mulVec ((crossMx (emissionEffect emR δ)).mulVec (head b2.value) + emissionEffect em δ)) 0 := by
      intro δ hδ
      set e0 := effect (rows6 b0.jacobian) b0.indices δ with he0
      set ea := effect (rows6 b2.jacobian) b2.indices δ with hea
      set φ := (s.rotation.sMatrix (tail b0.value)).mulVec (tail e0) with hφ
      have hφ' : emissionEffect emR δ = φ := by
        rw [g4 δ]
        dsimp only
        rw [effect_mulJac, orientationBlock_mulVec]
      have hea' : emissionEffect em δ = head ea := f4 δ
      have hder : HasDerivAt (fun ε : ℝ => (s.rotation.toMatrix (tail (fun d => b0.value d + ε * e0 d)))ᵀ.mulVec
          (head (fun d => b2.value d + ε * ea d))) ((-(crossMx φ) * C)ᵀ.mulVec (head b2.value) + Cᵀ.mulVec (head ea)) 0 := by
        rw [hasDerivAt_pi]
        intro k
        have hsum : HasDerivAt (fun ε : ℝ => ∑ l, s.rotation.toMatrix (tail (fun d => b0.value d + ε * e0 d)) l k
              * head (fun d => b2.value d + ε * ea d) l)
            (∑ l, ((-(crossMx φ) * C) l k * head b2.value l + C l k * head ea l)) 0 := by
          refine HasDerivAt.fun_sum fun l _ => ?_
          have h1 := (matrix_hasDerivAt s.rotation hs.differential b0.value e0 l k).mul
            (hasDerivAt_pi.1 (hasDerivAt_head (line_hasDerivAt b2.value ea)) l)
          rw [line_zero, line_zero] at h1
          exact h1
        refine hasDerivAt_congr hsum (fun ε => ?_) ?_
        · simp only [Matrix.mulVec, dotProduct, Matrix.transpose_apply]
        · rw [Finset.sum_add_distrib]
          simp only [Pi.add_apply, Matrix.mulVec, dotProduct, Matrix.transpose_apply]
      refine hasDerivAt_congr hder (fun ε => ?_) ?_
      · have m0 : (s.along δ ε).spline.evalD t 0 = _ := moved_evalD s.spline t 0 b0 hb0 δ hδ ε
        have m2 : (s.along δ ε).spline.evalD t 2 = _ := moved_evalD s.spline t 2 b2 hb2 δ hδ ε
        unfold accelerationBodyNodeValue linearAccelerationBodyFrame
        rw [m0, m2]
        rfl
      · rw [hφ', hea', Matrix.mulVec_add, Matrix.mulVec_mulVec]
        congr 2
        rw [Matrix.transpose_mul, Matrix.transpose_neg, crossMx_transpose, neg_neg]
    have hiff : ∀ δ : List ℝ, δ.length = s.spline.coefficientVector.length →
        (HasDerivAt (fun ε => ((s.along δ ε).accelerationBodyNodeValue t).getD 0) (emissionEffect em δ) 0 ↔
          Cᵀ.mulVec ((crossMx (emissionEffect emR δ)).mulVec (head b2.value) + emissionEffect em δ) = emissionEffect em δ) := by
      intro δ hδ
      constructor
      · intro hx
        exact (hmain δ hδ).unique hx
      · intro hx
        have := hmain δ hδ
        rwa [hx] at this
    refine ⟨C, head b2.value, dvs, em, emR, ho, ?_, e1, ?_, e2, fun δ hδ => ⟨hmain δ hδ, hiff δ hδ, fun h1 h2 => ?_⟩⟩
    · unfold linearAcceleration
      rw [hw, Outcome.map_ok]
    · unfold accelerationBodyNodeJacobians
      rw [hb2, Outcome.bind_ok]
      exact f2
    · rw [hiff δ hδ, h1, h2, Matrix.transpose_one, Matrix.one_mulVec]
      have : crossMx (0 : Fin 3 → ℝ) = 0 := by
        ext i j
        fin_cases i <;> fin_cases j <;> simp [crossMx]
      rw [this, Matrix.zero_mulVec, zero_add]

/-- **C50 is violated**: a pose spline at rest, turned by 90 degrees, and a change of one position coefficient. -/
theorem C50_violated : ∃ (s : Pose ℝ) (t : ℝ) (v : Fin 3 → ℝ) (dvs : List ℕ) (em : Emission 3 6 ℝ) (δ : List ℝ),
    s.spline.WF ∧ s.spline.WideLast ∧ Sound s.rotation ∧ s.accelerationBodyNodeValue t = .ok v ∧
    s.activeVariables t = .ok dvs ∧ s.accelerationBodyNodeJacobians dvs t = .ok em ∧
    δ.length = s.spline.coefficientVector.length ∧
    ¬ HasDerivAt (fun ε => ((s.along δ ε).accelerationBodyNodeValue t).getD 0) (emissionEffect em δ) 0 := by
  set c : Fin 6 → ℝ := ![0, 0, 0, 0, 0, 1] with hc
  set s : Pose ℝ := ⟨demo c c c, rodrigues ℝ⟩ with hs
  obtain ⟨e0, -, e2⟩ := demo_evalD c c c (5/2) (by norm_num) (by norm_num)
  set δ : List ℝ := [1, 0, 0, 0, 0, 0, 0, 0, 0, 0, 0, 0, 0, 0, 0, 0, 0, 0] with hδ
  have hv : ∃ v, s.accelerationBodyNodeValue (5/2) = .ok v := by
    unfold accelerationBodyNodeValue linearAccelerationBodyFrame
    rw [show s.spline = demo c c c from rfl, e0, e2]
    exact ⟨_, rfl⟩
  obtain ⟨v, hv⟩ := hv
  have hlen : δ.length = s.spline.coefficientVector.length := rfl
  obtain ⟨C, a, dvs, em, emR, f1, f2, f3, f4, f5, f6⟩ := C50_partial s rodrigues_sound (5/2) v hv
  refine ⟨s, 5/2, v, dvs, em, δ, demo_wf _ _ _, demo_wide _ _ _, rodrigues_sound, hv, f3, f4, hlen, fun hx => ?_⟩
  have hiff := (f6 δ hlen).2.1.1 hx
  -- the acceleration vanishes
  have ha : a = 0 := by
    unfold linearAcceleration at f2
    rw [show s.spline = demo c c c from rfl, e2, Outcome.map_ok] at f2
    rw [← Outcome.ok.inj f2]
    ext i
    simp [head]
    ring
  have hC : C = (rodrigues ℝ).toMatrix ![0, 0, 1] := by
    have e0' : s.spline.eval (5/2) = _ := e0
    unfold orientation at f1
    rw [e0', Outcome.map_ok] at f1
    rw [← Outcome.ok.inj f1]
    congr 1
    ext i
    fin_cases i <;> simp [tail, c] <;> norm_num
  -- the emitted change is (1, 0, 0)
  have he : emissionEffect em δ = ![1, 0, 0] := by
    have hacc : s.euclideanNodeValue (5/2) 2 = .ok 0 := by
      unfold euclideanNodeValue
      rw [show s.spline = demo c c c from rfl, e2, Outcome.map_ok]
      congr 1
      ext i
      simp [head]
      ring
    obtain ⟨dvs', em', g1, g2, -, g4⟩ := C60_euclidean s (5/2) 2 0 hacc
    obtain rfl := Outcome.ok.inj (f3.symm.trans g1)
    obtain rfl : em = em' := Outcome.ok.inj (f4.symm.trans g2)
    have h1 := g4 δ hlen
    have hmv : ∀ ε : ℝ, (s.along δ ε).spline = demo (fun d => c d + ε * (![1, 0, 0, 0, 0, 0] : Fin 6 → ℝ) d) c c := by
      intro ε
      have h18 : (addVec (demo c c c).coefficientVector (δ.map (ε * ·))).length = 6 * (demo c c c).coeffs.length := rfl
      have hcol0 : (segmentOf (addVec (demo c c c).coefficientVector (δ.map (ε * ·))) 0 : Fin 6 → ℝ)
          = fun d => c d + ε * (![1, 0, 0, 0, 0, 0] : Fin 6 → ℝ) d := by
        ext d
        fin_cases d <;> rfl
      have hcol1 : (segmentOf (addVec (demo c c c).coefficientVector (δ.map (ε * ·))) 1 : Fin 6 → ℝ) = c := by
        ext d
        have : c d = c d + ε * 0 := by ring
        rw [this]
        fin_cases d <;> rfl
      have hcol2 : (segmentOf (addVec (demo c c c).coefficientVector (δ.map (ε * ·))) 2 : Fin 6 → ℝ) = c := by
        ext d
        have : c d = c d + ε * 0 := by ring
        rw [this]
        fin_cases d <;> rfl
      show moved (demo c c c) δ ε = _
      unfold moved setCoefficientVector
      rw [if_pos h18, Outcome.getD_ok]
      have hcs : writeCols (demo c c c).coeffs 0 (addVec (demo c c c).coefficientVector (δ.map (ε * ·))) (demo c c c).coeffs.length
          = [fun d => c d + ε * (![1, 0, 0, 0, 0, 0] : Fin 6 → ℝ) d, c, c] := by
        show [segmentOf _ 0, segmentOf _ 1, segmentOf _ 2] = _
        rw [hcol0, hcol1, hcol2]
      rw [hcs]
      rfl
    have h2 : HasDerivAt (fun ε => ((s.along δ ε).euclideanNodeValue (5/2) 2).getD 0) (![1, 0, 0] : Fin 3 → ℝ) 0 := by
      have hl : HasDerivAt (fun ε : ℝ => fun d => (0 : Fin 3 → ℝ) d + ε * (![1, 0, 0] : Fin 3 → ℝ) d) (![1, 0, 0] : Fin 3 → ℝ) 0 :=
        line_hasDerivAt _ _
      refine hasDerivAt_congr hl (fun ε => ?_) rfl
      unfold euclideanNodeValue
      rw [hmv ε, (demo_evalD _ _ _ (5/2) (by norm_num) (by norm_num)).2.2]
      simp only [Outcome.map_ok, Outcome.getD_ok]
      ext i
      fin_cases i <;> simp [head, c]
    exact h1.unique h2
  rw [ha, hC, he, Matrix.mulVec_zero, zero_add] at hiff
  have h00 : ∀ p : Fin 3 → ℝ, (rodrigues ℝ).toMatrix p 0 0 = (1 / (1 + p ⬝ᵥ p)) * ((1 - p ⬝ᵥ p) + 2 * (p 0 * p 0)) := by
    intro p
    simp [rodrigues, crossMx, Matrix.vecMulVec_apply]
  have := congrFun hiff 0
  simp [Matrix.mulVec, dotProduct, Fin.sum_univ_three, h00] at this

end Pose
end Verif
