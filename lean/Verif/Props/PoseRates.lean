import Verif.Lemmas.PoseDemo

/-!
# Pose splines: angular velocity (C57), agreement of queries with and without Jacobians (C58), angular acceleration (C59)
-/

set_option linter.unusedSectionVars false

namespace Verif

open Matrix Finset BSpline Filter Topology

namespace Pose

/-- All assumptions on the rotation parametrisation used below. -/
structure Sound (rot : Rotation ℝ) : Prop where
  differential : Differential rot
  proper : ∀ θ, Proper (rot.toMatrix θ)
  rate : RateIsS rot
  rateJacobian : RateJacobianCorrect rot

theorem rodrigues_sound : Sound (rodrigues ℝ) :=
  ⟨rodrigues_differential, rodrigues_proper, rodrigues_rateIsS, rodrigues_rateJacobian⟩

/-- Inside a segment the queries of derivatives are defined. -/
theorem evalD_ok_near {D : ℕ} {b : BSpline ℝ D} (h : b.WF) (hw : b.WideLast) {seg : ℤ} {a e t : ℝ}
    (hseg : b.timeIntervalOf seg = .ok (a, e)) (h1 : a < t) (h2 : t < e) (der : ℕ) :
    ∀ᶠ x in 𝓝 t, b.evalD x der = .ok ((b.evalD x der).getD 0) := by
  filter_upwards [Ioo_mem_nhds h1 h2] with x hx
  obtain ⟨i, j1, j2, rfl, rfl, -⟩ := timeIntervalOf_eq h hseg
  rw [evalD_on_segment h hw j1 j2 der x hx.1.le (Or.inl hx.2)]
  rfl

/-- Curve value and its first derivative inside a segment. -/
theorem curve_hasDerivAt {D : ℕ} {b : BSpline ℝ D} (h : b.WF) (hw : b.WideLast) {seg : ℤ} {a e t : ℝ}
    (hseg : b.timeIntervalOf seg = .ok (a, e)) (h1 : a < t) (h2 : t < e) (der : ℕ) :
    ∃ v w, b.evalD t der = .ok v ∧ b.evalD t (der + 1) = .ok w ∧ (b.evalD t der).getD 0 = v ∧
      HasDerivAt (fun x => (b.evalD x der).getD 0) w t := by
  obtain ⟨w, hw1, hw2⟩ := (C04_derivative b h hw der seg a e t hseg).1 h1 h2
  have := (evalD_ok_near h hw hseg h1 h2 der).self_of_nhds
  exact ⟨_, w, this, hw1, rfl, hw2⟩

/-- **C57**: inside every segment the angular velocity `ω` is the rate of the orientation: the derivative of the orientation
is `ω^× C`; the body frame angular velocity `ω_b` satisfies the same with the other order, `C ω_b^×`, and the two are
the same vector expressed in the two frames. -/
theorem C57_angular_velocity (s : Pose ℝ) (h : s.spline.WF) (hw : s.spline.WideLast) (hd : Differential s.rotation)
    (hp : ∀ θ, Proper (s.rotation.toMatrix θ)) (seg : ℤ) (a b t : ℝ) (hseg : s.spline.timeIntervalOf seg = .ok (a, b))
    (h1 : a < t) (h2 : t < b) :
    ∃ C ω ωb, s.orientation t = .ok C ∧ s.angularVelocity t = .ok ω ∧ s.angularVelocityBodyFrame t = .ok ωb ∧
      (∀ i j, HasDerivAt (fun x => (s.orientation x).getD 0 i j) ((crossMx ω * C) i j) t) ∧
      (∀ i j, HasDerivAt (fun x => (s.orientation x).getD 0 i j) ((C * crossMx ωb) i j) t) ∧
      ωb = Cᵀ.mulVec ω ∧ C.mulVec ωb = ω := by
  obtain ⟨v, w, e0, e1, ev, hder⟩ := curve_hasDerivAt h hw hseg h1 h2 0
  have e0' : s.spline.evalD t 0 = .ok v := e0
  have e1' : s.spline.evalD t 1 = .ok w := e1
  set C := s.rotation.toMatrix (tail v) with hC
  set ω := (-(s.rotation.sMatrix (tail v))).mulVec (tail w) with hω
  have hCp : Proper C := hp _
  have hb : s.angularVelocityBodyFrame t = .ok (Cᵀ.mulVec ω) := by
    unfold angularVelocityBodyFrame
    rw [e0', Outcome.bind_ok, e1', Outcome.map_ok, ← hC, hω, Matrix.mulVec_mulVec, Matrix.neg_mul, Matrix.mul_neg]
  have hback : C.mulVec (Cᵀ.mulVec ω) = ω := by rw [Matrix.mulVec_mulVec, hCp.1.1, Matrix.one_mulVec]
  have hrate : ∀ i j, HasDerivAt (fun x => (s.orientation x).getD 0 i j) ((crossMx ω * C) i j) t := by
    intro i j
    have := hd _ _ _ (hasDerivAt_tail hder) i j
    rw [ev, ← crossMx_neg, ← Matrix.neg_mulVec] at this
    refine HasDerivAt.congr_of_eventuallyEq this ?_
    filter_upwards [evalD_ok_near h hw hseg h1 h2 0] with x hx
    have hx' : s.spline.eval x = _ := hx
    unfold orientation
    rw [hx']
    rfl
  refine ⟨C, ω, Cᵀ.mulVec ω, ?_, ?_, hb, hrate, ?_, rfl, hback⟩
  · have : s.spline.eval t = .ok v := e0
    unfold orientation
    rw [this, Outcome.map_ok]
  · unfold angularVelocity
    rw [e0', Outcome.bind_ok, e1', Outcome.map_ok]
  · intro i j
    have hcc : C * crossMx (Cᵀ.mulVec ω) = crossMx ω * C := by
      have := cross_conj hCp (Cᵀ.mulVec ω)
      rw [hback] at this
      rw [this, Matrix.mul_assoc, hCp.1.2, Matrix.mul_one]
    rw [hcc]
    exact hrate i j

/-- A rotating pose spline: `θ(t) = (0, 0, t)` on `[2, 3]`. -/
noncomputable def spinning : Pose ℝ := ⟨demo ![0, 0, 0, 0, 0, 3/2] ![0, 0, 0, 0, 0, 5/2] ![0, 0, 0, 0, 0, 7/2], rodrigues ℝ⟩

theorem spinning_evalD (t : ℝ) (h1 : 2 ≤ t) (h2 : t < 3) :
    spinning.spline.evalD t 0 = .ok ![0, 0, 0, 0, 0, t] ∧ spinning.spline.evalD t 1 = .ok ![0, 0, 0, 0, 0, 1] ∧
      spinning.spline.evalD t 2 = .ok 0 := by
  obtain ⟨e0, e1, e2⟩ := demo_evalD ![0, 0, 0, 0, 0, 3/2] ![0, 0, 0, 0, 0, 5/2] ![0, 0, 0, 0, 0, 7/2] t h1 h2
  refine ⟨e0.trans ?_, e1.trans ?_, e2.trans ?_⟩
  all_goals
    congr 1
    ext d
    fin_cases d <;> simp <;> ring

example : spinning.spline.WF ∧ spinning.spline.WideLast ∧ Sound spinning.rotation ∧
    spinning.spline.timeIntervalOf 0 = .ok (2, 3) ∧ (2 : ℝ) < 5 / 2 ∧ (5 / 2 : ℝ) < 3 :=
  ⟨demo_wf _ _ _, demo_wide _ _ _, rodrigues_sound, rfl, by norm_num, by norm_num⟩

/-! ## C58 -/

/-- **C58**, `_partial`: for every pose spline and time (also where they fail) the queries with Jacobians of the transformation, its
inverse, the orientation, its inverse and the linear acceleration return the value of the query without Jacobian; so do the
body frame angular queries if the rate function is multiplication with `S`.
Missing: the angular velocity in the world frame, where the two queries have opposite signs (`C58_violated`). -/
theorem C58_partial (s : Pose ℝ) (t : ℝ) :
    (s.transformationAndJacobian t).map (fun r => r.value) = s.transformation t ∧
    (s.inverseTransformationAndJacobian t).map (fun r => r.value) = s.inverseTransformation t ∧
    (s.orientationAndJacobian t).map (fun r => r.value) = s.orientation t ∧
    (s.inverseOrientationAndJacobian t).map (fun r => r.value) = s.inverseOrientation t ∧
    (s.linearAccelerationAndJacobian t).map (fun r => r.value) = s.linearAcceleration t ∧
    (RateIsS s.rotation →
      (s.angularVelocityBodyFrameAndJacobian t).map (fun r => r.value) = s.angularVelocityBodyFrame t ∧
      (s.angularAccelerationBodyFrameAndJacobian t).map (fun r => r.value) = s.angularAccelerationBodyFrame t ∧
      (s.angularVelocityAndJacobian t).map (fun r => r.value) = (s.angularVelocity t).map (fun ω => -ω)) := by
  have hj := C07_jacobian_defined s.spline t 0
  have hj2 := C07_jacobian_defined s.spline t 2
  refine ⟨?_, ?_, ?_, ?_, ?_, fun hr => ⟨?_, ?_, ?_⟩⟩
  · unfold transformationAndJacobian transformation BSpline.eval
    rw [← hj]
    cases s.spline.evalDAndJacobian t 0 <;> rfl
  · unfold inverseTransformationAndJacobian inverseTransformation BSpline.eval
    cases hb : s.spline.evalDAndJacobian t 0 with
    | ok b =>
      rw [hb] at hj
      rw [← hj, Outcome.bind_ok, (C07_jacobian_consistent s.spline t 0 b hb).2.2.1]
      rfl
    | throws => rw [hb] at hj; rw [← hj]; rfl
    | ub => rw [hb] at hj; rw [← hj]; rfl
  · unfold orientationAndJacobian orientation BSpline.eval
    rw [← hj]
    cases s.spline.evalDAndJacobian t 0 <;> rfl
  · unfold inverseOrientationAndJacobian inverseOrientation BSpline.eval
    rw [← hj]
    cases s.spline.evalDAndJacobian t 0 <;> rfl
  · unfold linearAccelerationAndJacobian linearAcceleration
    rw [← hj2]
    cases s.spline.evalDAndJacobian t 2 <;> rfl
  · unfold angularVelocityBodyFrameAndJacobian angularVelocityBodyFrame
    rw [angularBody_value]
    simp only [hr _ _, Matrix.mulVec_mulVec]
  · unfold angularAccelerationBodyFrameAndJacobian angularAccelerationBodyFrame
    rw [angularBody_value]
    simp only [hr _ _, Matrix.mulVec_mulVec]
  · unfold angularVelocityAndJacobian angularVelocity
    rw [angular_value]
    cases s.spline.evalD t 0 with
    | ok r => cases s.spline.evalD t 1 with
      | ok v =>
        simp only [Outcome.bind_ok, Outcome.map_ok, hr _ _, Matrix.neg_mulVec, neg_neg]
      | throws => rfl
      | ub => rfl
    | throws => rfl
    | ub => rfl

/-- **C58 is violated**: a rotating pose spline with a sound parametrisation whose two angular velocity queries differ; the one
with Jacobian is minus the rate of the orientation. -/
theorem C58_violated : ∃ (s : Pose ℝ) (t : ℝ) (ω : Fin 3 → ℝ), s.spline.WF ∧ s.spline.WideLast ∧ Sound s.rotation ∧
    s.angularVelocity t = .ok ω ∧ (s.angularVelocityAndJacobian t).map (fun r => r.value) = .ok (-ω) ∧ -ω ≠ ω := by
  obtain ⟨e0, e1, -⟩ := spinning_evalD (5/2) (by norm_num) (by norm_num)
  refine ⟨spinning, 5/2, (-((rodrigues ℝ).sMatrix (tail ![0, 0, 0, 0, 0, 5/2]))).mulVec (tail ![0, 0, 0, 0, 0, 1]),
    demo_wf _ _ _, demo_wide _ _ _, rodrigues_sound, ?_, ?_, ?_⟩
  · unfold angularVelocity
    rw [e0, e1]
    rfl
  · rw [((C58_partial spinning (5/2)).2.2.2.2.2 rodrigues_rateIsS).2.2]
    unfold angularVelocity
    rw [e0, e1]
    rfl
  · intro h
    have := congrFun h 2
    simp [rodrigues, tail, Matrix.mulVec, dotProduct, Fin.sum_univ_three, crossMx] at this
    norm_num at this

/-! ## C59 -/

theorem cross_self_mulVec (a : Fin 3 → ℝ) : (crossMx a).mulVec a = 0 := by
  ext i
  fin_cases i <;> simp [crossMx, Matrix.mulVec, dotProduct, Fin.sum_univ_three] <;> ring

/-- The columns of the rate Jacobian that belong to the rates are `S`. -/
theorem rateJacobian_rates {rot : Rotation ℝ} (hr : RateIsS rot) (hj : RateJacobianCorrect rot) (p v w : Fin 3 → ℝ) (i : Fin 3) :
    ∑ k : Fin 3, rot.rateJacobian p v i ⟨k.1 + 3, by omega⟩ * w k = (rot.sMatrix p).mulVec w i := by
  have hη : HasDerivAt (fun τ : ℝ => fun d => v d + τ * w d) w 0 := line_hasDerivAt v w
  have h1 := hj (fun _ => p) _ 0 w 0 (hasDerivAt_const _ _) hη
  have h2 : HasDerivAt (fun τ : ℝ => rot.rate p (fun d => v d + τ * w d)) ((rot.sMatrix p).mulVec w) 0 := by
    have : HasDerivAt (fun τ : ℝ => fun d => ((rot.sMatrix p).mulVec v) d + τ * ((rot.sMatrix p).mulVec w) d)
      ((rot.sMatrix p).mulVec w) 0 := line_hasDerivAt _ _
    refine hasDerivAt_congr this (fun τ => ?_) rfl
    rw [hr]
    ext d
    simp only [Matrix.mulVec, dotProduct, Finset.mul_sum, ← Finset.sum_add_distrib]
    exact Finset.sum_congr rfl fun k _ => by ring
  have := congrFun (h1.unique h2) i
  rw [← this]
  refine Finset.sum_congr rfl fun k _ => ?_
  simp

/-- The part of the rate Jacobian that belongs to the parameters, applied to a vector: how `S(θ) v` changes when `θ` moves along
a direction. -/
noncomputable def parameterPart (rot : Rotation ℝ) (p v w : Fin 3 → ℝ) : Fin 3 → ℝ := fun i =>
  ∑ k : Fin 3, rot.rateJacobian p v i ⟨k.1, by omega⟩ * w k

/-- **C59**, `_partial`: inside a segment the body frame angular velocity is differentiable; its derivative is the value returned by
`angularAccelerationBodyFrame` minus the inverse orientation times the change of `S(θ) θ'` along `θ'`.  So the query is
right exactly where this term vanishes, in particular wherever the rotation parameters are momentarily at rest.
Missing: the query never adds the term (`C59_violated`). -/
theorem C59_partial (s : Pose ℝ) (h : s.spline.WF) (hw : s.spline.WideLast) (hs : Sound s.rotation) (seg : ℤ) (a b t : ℝ)
    (hseg : s.spline.timeIntervalOf seg = .ok (a, b)) (h1 : a < t) (h2 : t < b) :
    ∃ (c c' : Fin 6 → ℝ) (C : Matrix (Fin 3) (Fin 3) ℝ) (acc : Fin 3 → ℝ), s.spline.evalD t 0 = .ok c ∧
      s.spline.evalD t 1 = .ok c' ∧ s.orientation t = .ok C ∧ s.angularAccelerationBodyFrame t = .ok acc ∧
      HasDerivAt (fun x => (s.angularVelocityBodyFrame x).getD 0)
        (acc - Cᵀ.mulVec (parameterPart s.rotation (tail c) (tail c') (tail c'))) t ∧
      (HasDerivAt (fun x => (s.angularVelocityBodyFrame x).getD 0) acc t ↔
        parameterPart s.rotation (tail c) (tail c') (tail c') = 0) ∧
      (tail c' = 0 → HasDerivAt (fun x => (s.angularVelocityBodyFrame x).getD 0) acc t) := by
  obtain ⟨c, c', e0, e1, ev0, hder0⟩ := curve_hasDerivAt h hw hseg h1 h2 0
  obtain ⟨c1, c'', e1b, e2, ev1, hder1⟩ := curve_hasDerivAt h hw hseg h1 h2 1
  have e0' : s.spline.evalD t 0 = .ok c := e0
  have e1' : s.spline.evalD t 1 = .ok c' := e1
  have e2' : s.spline.evalD t 2 = .ok c'' := e2
  have e1b' : s.spline.evalD t 1 = .ok c1 := e1b
  obtain rfl : c' = c1 := Outcome.ok.inj (e1'.symm.trans e1b')
  set C := s.rotation.toMatrix (tail c) with hC
  set P := parameterPart s.rotation (tail c) (tail c') (tail c') with hP
  set φ := (s.rotation.sMatrix (tail c)).mulVec (tail c') with hφ
  have hCp : Proper C := hs.proper _
  have ho : s.orientation t = .ok C := by
    have : s.spline.eval t = .ok c := e0
    unfold orientation
    rw [this, Outcome.map_ok]
  have hacc : s.angularAccelerationBodyFrame t = .ok ((-Cᵀ).mulVec ((s.rotation.sMatrix (tail c)).mulVec (tail c''))) := by
    unfold angularAccelerationBodyFrame
    rw [e0', Outcome.bind_ok, e2', Outcome.map_ok, ← hC, Matrix.mulVec_mulVec]
  set acc := (-Cᵀ).mulVec ((s.rotation.sMatrix (tail c)).mulVec (tail c'')) with haccdef
  have hrate := hs.rateJacobian _ _ _ _ t (hasDerivAt_tail hder0) (hasDerivAt_tail hder1)
  have hmat := hs.differential _ _ _ (hasDerivAt_tail hder0)
  have hrv : (fun i => ∑ k : Fin 3, (s.rotation.rateJacobian (tail c) (tail c') i ⟨k.1, by omega⟩ * tail c' k
        + s.rotation.rateJacobian (tail c) (tail c') i ⟨k.1 + 3, by omega⟩ * tail c'' k))
      = P + (s.rotation.sMatrix (tail c)).mulVec (tail c'') := by
    ext i
    rw [Finset.sum_add_distrib, rateJacobian_rates hs.rate hs.rateJacobian]
    rfl
  rw [ev0, ev1, hrv] at hrate
  simp only [ev0, ← hφ, ← hC] at hmat
  have hmain : HasDerivAt (fun x => (s.angularVelocityBodyFrame x).getD 0) (acc - Cᵀ.mulVec P) t := by
    have hder : HasDerivAt (fun x : ℝ => (-(s.rotation.toMatrix (tail ((s.spline.evalD x ((0 : ℕ) : ℤ)).getD 0)))ᵀ).mulVec
        (s.rotation.rate (tail ((s.spline.evalD x ((0 : ℕ) : ℤ)).getD 0)) (tail ((s.spline.evalD x ((1 : ℕ) : ℤ)).getD 0))))
        (acc - Cᵀ.mulVec P) t := by
      rw [hasDerivAt_pi]
      intro k
      have hsum := HasDerivAt.fun_sum (u := Finset.univ) fun (l : Fin 3) _ =>
        (hmat l k).mul (hasDerivAt_pi.1 hrate l)
      refine hasDerivAt_congr hsum.neg (fun x => ?_) ?_
      · simp [Matrix.mulVec, dotProduct]
      · simp only [ev0, ev1, ← hC]
        rw [Finset.sum_add_distrib]
        have hz : ∑ x : Fin 3, (-crossMx φ * C) x k * s.rotation.rate (tail c) (tail c') x = 0 := by
          have : (-crossMx φ * C)ᵀ.mulVec φ k = 0 := by
            rw [transposed_tangent hCp, ← Matrix.mulVec_mulVec, cross_self_mulVec]
            rfl
          rw [hs.rate, ← hφ]
          simpa only [Matrix.mulVec, dotProduct, Matrix.transpose_apply] using this
        rw [hz, zero_add, haccdef, Matrix.neg_mulVec]
        simp only [Pi.sub_apply, Pi.neg_apply, Pi.add_apply, Matrix.mulVec, dotProduct, Matrix.transpose_apply, mul_add,
          Finset.sum_add_distrib]
        ring
    refine HasDerivAt.congr_of_eventuallyEq hder ?_
    filter_upwards [evalD_ok_near h hw hseg h1 h2 0, evalD_ok_near h hw hseg h1 h2 1] with x hx0 hx1
    have hx0' : s.spline.evalD x 0 = _ := hx0
    have hx1' : s.spline.evalD x 1 = _ := hx1
    unfold angularVelocityBodyFrame
    rw [hx0', hx1', hs.rate, Matrix.mulVec_mulVec]
    rfl
  have hiff : HasDerivAt (fun x => (s.angularVelocityBodyFrame x).getD 0) acc t ↔ P = 0 := by
    constructor
    · intro hx
      have h0 : Cᵀ.mulVec P = 0 := by
        have := hx.unique hmain
        have : acc - (acc - Cᵀ.mulVec P) = 0 := by rw [← this]; exact sub_self _
        simpa using this
      calc P = (C * Cᵀ).mulVec P := by rw [hCp.1.1, Matrix.one_mulVec]
        _ = 0 := by rw [← Matrix.mulVec_mulVec, h0, Matrix.mulVec_zero]
    · intro hx
      rw [hx, Matrix.mulVec_zero, sub_zero] at hmain
      exact hmain
  refine ⟨c, c', C, acc, e0', e1', ho, hacc, hmain, hiff, fun hz => hiff.2 ?_⟩
  rw [hP]
  ext i
  simp [parameterPart, hz]

/-- **C59 is violated**: for a pose spline turning about a fixed axis the angular acceleration query is not the derivative of the angular
velocity query. -/
theorem C59_violated : ∃ (s : Pose ℝ) (a b t : ℝ) (acc : Fin 3 → ℝ), s.spline.WF ∧ s.spline.WideLast ∧ Sound s.rotation ∧
    s.spline.timeIntervalOf 0 = .ok (a, b) ∧ a < t ∧ t < b ∧ s.angularAccelerationBodyFrame t = .ok acc ∧
    ¬ HasDerivAt (fun x => (s.angularVelocityBodyFrame x).getD 0) acc t := by
  obtain ⟨e0, e1, -⟩ := spinning_evalD (5/2) (by norm_num) (by norm_num)
  obtain ⟨c, c', C, acc, f0, f1, -, facc, -, fiff, -⟩ := C59_partial spinning (demo_wf _ _ _) (demo_wide _ _ _) rodrigues_sound 0 2 3
    (5/2) (demo_seg _ _ _) (by norm_num) (by norm_num)
  obtain rfl := Outcome.ok.inj (f0.symm.trans e0)
  obtain rfl := Outcome.ok.inj (f1.symm.trans e1)
  refine ⟨spinning, 2, 3, 5/2, acc, demo_wf _ _ _, demo_wide _ _ _, rodrigues_sound, demo_seg _ _ _, by norm_num, by norm_num,
    facc, fun hx => ?_⟩
  have := congrFun (fiff.1 hx) 2
  simp [spinning, parameterPart, rodrigues, tail, Matrix.mulVec, dotProduct, Fin.sum_univ_three, crossMx] at this
  norm_num at this

/-- **C59**, the angular acceleration in the world frame: what `angularAccelerationAndJacobian` returns is the body frame angular acceleration
rotated into the world frame, with the opposite sign.  (What is missing: the sign, as in `C58_violated`.) -/
theorem C59_world_partial (s : Pose ℝ) (hr : RateIsS s.rotation) (hp : ∀ θ, Proper (s.rotation.toMatrix θ)) (t : ℝ)
    (C : Matrix (Fin 3) (Fin 3) ℝ) (hC : s.orientation t = .ok C) :
    (s.angularAccelerationAndJacobian t).map (fun r => r.value) = (s.angularAccelerationBodyFrame t).map fun acc => -C.mulVec acc := by
  unfold angularAccelerationAndJacobian angularAccelerationBodyFrame
  rw [angular_value]
  unfold orientation BSpline.eval at hC
  cases e0 : s.spline.evalD t 0 with
  | throws => rw [e0] at hC; exact nomatch hC
  | ub => rw [e0] at hC; exact nomatch hC
  | ok c =>
    rw [e0] at hC
    obtain rfl := Outcome.ok.inj hC
    cases s.spline.evalD t 2 with
    | throws => rfl
    | ub => rfl
    | ok v =>
      simp only [Outcome.bind_ok, Outcome.map_ok]
      refine congrArg Outcome.ok ?_
      rw [hr, Matrix.mulVec_mulVec, ← Matrix.neg_mulVec, Matrix.neg_mul, Matrix.mul_neg, neg_neg, ← Matrix.mul_assoc, (hp _).1.1,
        Matrix.one_mul]

/-- The hypotheses of C59 in the world frame hold for the rotating spline. -/
example : RateIsS spinning.rotation ∧ (∀ θ, Proper (spinning.rotation.toMatrix θ)) ∧
    spinning.orientation (5 / 2) = .ok ((rodrigues ℝ).toMatrix ![0, 0, 5 / 2]) := by
  obtain ⟨e0, -, -⟩ := spinning_evalD (5/2) (by norm_num) (by norm_num)
  refine ⟨rodrigues_rateIsS, rodrigues_sound.proper, ?_⟩
  unfold orientation BSpline.eval
  rw [e0, Outcome.map_ok]
  rfl

/-- The hypotheses of C40: rotations by the Rodrigues parametrisation are orthogonal and reproduced by it. -/
example : (∀ θ, Orthogonal ((rodrigues ℝ).toMatrix θ)) ∧
    (∀ θ, (rodrigues ℝ).toMatrix ((rodrigues ℝ).ofMatrix ((rodrigues ℝ).toMatrix θ)) = (rodrigues ℝ).toMatrix θ) ∧
    (rodrigues ℝ).toMatrix ![0, 0, 1] ≠ 1 := by
  refine ⟨fun θ => (rodrigues_proper θ).1, fun θ => by rw [rodrigues_round_trip], fun h => ?_⟩
  have h01 : ∀ p : Fin 3 → ℝ, (rodrigues ℝ).toMatrix p 0 1 = (1 / (1 + p ⬝ᵥ p)) * (2 * (p 0 * p 1) + 2 * p 2) := by
    intro p
    simp [rodrigues, crossMx, Matrix.vecMulVec_apply]
  have := congrFun (congrFun h 0) 1
  rw [h01] at this
  simp [dotProduct, Fin.sum_univ_three] at this

/-- A spline meeting the hypotheses of `C40_append`: it ends at 3 and its last segment starts at 2. -/
example : spinning.spline.WF ∧ spinning.spline.tMax = .ok 3 ∧
    spinning.spline.kn (spinning.spline.knots.length - spinning.spline.order - 1) < 3 ∧ (3 : ℝ) < 4 :=
  ⟨demo_wf _ _ _, rfl, by show (2 : ℝ) < 3; norm_num, by norm_num⟩

/-- Two poses meeting the hypotheses of `C40_init`. -/
example : ∀ T ∈ [curveValueToTransformation (rodrigues ℝ) ![1, 2, 3, 0, 0, 1], curveValueToTransformation (rodrigues ℝ) ![0, 0, 5, 1, 1, 0]],
    (∀ j : Fin 3, T 3 j.castSucc = 0) ∧ T 3 3 = 1 ∧
      (rodrigues ℝ).toMatrix ((rodrigues ℝ).ofMatrix (fun i j : Fin 3 => T i.castSucc j.castSucc))
        = (fun i j : Fin 3 => T i.castSucc j.castSucc) := by
  have key : ∀ c : Fin 6 → ℝ, (∀ j : Fin 3, curveValueToTransformation (rodrigues ℝ) c 3 j.castSucc = 0) ∧
      curveValueToTransformation (rodrigues ℝ) c 3 3 = 1 ∧
      (rodrigues ℝ).toMatrix ((rodrigues ℝ).ofMatrix (fun i j : Fin 3 => curveValueToTransformation (rodrigues ℝ) c i.castSucc j.castSucc))
        = (fun i j : Fin 3 => curveValueToTransformation (rodrigues ℝ) c i.castSucc j.castSucc) := by
    intro c
    obtain ⟨h1, -, h3, h4⟩ := (C40_round_trip (rodrigues ℝ)).1 c
    refine ⟨h3, h4, ?_⟩
    have : (fun i j : Fin 3 => curveValueToTransformation (rodrigues ℝ) c i.castSucc j.castSucc)
        = (rodrigues ℝ).toMatrix (fun k => c (k.natAdd 3)) := by
      ext i j
      exact h1 i j
    rw [this, rodrigues_round_trip]
  intro T hT
  simp only [List.mem_cons, List.not_mem_nil, or_false] at hT
  rcases hT with rfl | rfl <;> exact key _

end Pose
end Verif
