import Verif.Model.Pose
import Verif.Props.Calculus
import Verif.Props.Fit
import Verif.Props.Append
import Mathlib.Tactic.FinCases
import Mathlib.LinearAlgebra.Matrix.NonsingularInverse

/-!
# Pose splines: inverse, round trip, end poses (C40), velocities and frames (C41)
-/

set_option linter.unusedSectionVars false

namespace Verif

open Matrix BSpline

namespace Pose

section Algebra
variable {K : Type*} [Field K]

/-- Specification: the homogeneous matrix of a rotation and a translation. -/
def rigid (R : Matrix (Fin 3) (Fin 3) K) (p : Fin 3 → K) : Matrix (Fin 4) (Fin 4) K :=
  !![R 0 0, R 0 1, R 0 2, p 0; R 1 0, R 1 1, R 1 2, p 1; R 2 0, R 2 1, R 2 2, p 2; 0, 0, 0, 1]

/-- Specification: a matrix and its transpose are inverse to each other. -/
def Orthogonal (R : Matrix (Fin 3) (Fin 3) K) : Prop := R * Rᵀ = 1 ∧ Rᵀ * R = 1

theorem curveValueToTransformation_eq (rot : Rotation K) (c : Fin 6 → K) :
    curveValueToTransformation rot c = rigid (rot.toMatrix (tail c)) (head c) := by
  ext i j
  fin_cases i <;> fin_cases j <;> simp [curveValueToTransformation, setTopRight, setTopLeft, rigid]

theorem topLeft_rigid (R : Matrix (Fin 3) (Fin 3) K) (p : Fin 3 → K) : topLeft (rigid R p) = R := by
  ext i j
  fin_cases i <;> fin_cases j <;> simp [topLeft, rigid]

theorem topRight_rigid (R : Matrix (Fin 3) (Fin 3) K) (p : Fin 3 → K) : topRight (rigid R p) = p := by
  ext i
  fin_cases i <;> simp [topRight, rigid]

theorem setTopLeft_rigid (R R' : Matrix (Fin 3) (Fin 3) K) (p : Fin 3 → K) :
    setTopLeft (rigid R p) R' = rigid R' p := by
  ext i j
  fin_cases i <;> fin_cases j <;> simp [setTopLeft, rigid]

theorem setTopRight_rigid (R : Matrix (Fin 3) (Fin 3) K) (p p' : Fin 3 → K) :
    setTopRight (rigid R p) p' = rigid R p' := by
  ext i j
  fin_cases i <;> fin_cases j <;> simp [setTopRight, rigid]

theorem invertInPlace_rigid (R : Matrix (Fin 3) (Fin 3) K) (p : Fin 3 → K) :
    invertInPlace (rigid R p) = rigid Rᵀ (-(Rᵀ.mulVec p)) := by
  unfold invertInPlace
  simp only [topLeft_rigid, topRight_rigid, setTopLeft_rigid, setTopRight_rigid, Matrix.neg_mulVec]

theorem rigid_mul (R R' : Matrix (Fin 3) (Fin 3) K) (p p' : Fin 3 → K) :
    rigid R p * rigid R' p' = rigid (R * R') (R.mulVec p' + p) := by
  ext i j
  fin_cases i <;> fin_cases j <;>
    simp [rigid, Matrix.mul_apply, Fin.sum_univ_four, Fin.sum_univ_three, Matrix.mulVec, dotProduct]

theorem rigid_one : rigid (1 : Matrix (Fin 3) (Fin 3) K) 0 = 1 := by
  ext i j
  fin_cases i <;> fin_cases j <;> simp [rigid]

theorem eq_rigid (T : Matrix (Fin 4) (Fin 4) K) (h0 : T 3 0 = 0) (h1 : T 3 1 = 0) (h2 : T 3 2 = 0) (h3 : T 3 3 = 1) :
    T = rigid (topLeft T) (topRight T) := by
  ext i j
  fin_cases i <;> fin_cases j <;> simp [rigid, topLeft, topRight, h0, h1, h2, h3]

theorem head_ofTransformation (rot : Rotation K) (T : Matrix (Fin 4) (Fin 4) K) :
    head (transformationToCurveValue rot T) = topRight T := by
  ext i
  fin_cases i <;> simp [head, transformationToCurveValue]

theorem tail_ofTransformation (rot : Rotation K) (T : Matrix (Fin 4) (Fin 4) K) :
    tail (transformationToCurveValue rot T) = rot.ofMatrix (topLeft T) := by
  ext i
  fin_cases i <;> simp [tail, transformationToCurveValue]

theorem ext_head_tail {c c' : Fin 6 → K} (h1 : head c = head c') (h2 : tail c = tail c') : c = c' := by
  ext i
  have a0 := congrFun h1 0
  have a1 := congrFun h1 1
  have a2 := congrFun h1 2
  have b0 := congrFun h2 0
  have b1 := congrFun h2 1
  have b2 := congrFun h2 2
  fin_cases i <;> first | exact a0 | exact a1 | exact a2 | exact b0 | exact b1 | exact b2

/-- **C40**, conversion: the transformation of a curve value is rigid with the position in the last column, the rotation in the
corner and a bottom row `0 0 0 1`; converting it back returns the curve value when the parametrisation recovers these
rotation parameters; and converting a transformation with a proper bottom row to a curve value and back returns it when the
parametrisation reproduces its rotation. -/
theorem C40_round_trip (rot : Rotation K) :
    (∀ c : Fin 6 → K,
      (∀ i j : Fin 3, curveValueToTransformation rot c i.castSucc j.castSucc = rot.toMatrix (fun k => c (k.natAdd 3)) i j) ∧
      (∀ i : Fin 3, curveValueToTransformation rot c i.castSucc 3 = c (i.castAdd 3)) ∧
      (∀ j : Fin 3, curveValueToTransformation rot c 3 j.castSucc = 0) ∧
      curveValueToTransformation rot c 3 3 = 1) ∧
    (∀ c : Fin 6 → K, rot.ofMatrix (rot.toMatrix (fun k => c (k.natAdd 3))) = (fun k => c (k.natAdd 3)) →
      transformationToCurveValue rot (curveValueToTransformation rot c) = c) ∧
    (∀ T : Matrix (Fin 4) (Fin 4) K, (∀ j : Fin 3, T 3 j.castSucc = 0) → T 3 3 = 1 →
      rot.toMatrix (rot.ofMatrix (fun i j : Fin 3 => T i.castSucc j.castSucc)) = (fun i j : Fin 3 => T i.castSucc j.castSucc) →
      curveValueToTransformation rot (transformationToCurveValue rot T) = T) := by
  have htail : ∀ c : Fin 6 → K, (fun k : Fin 3 => c (k.natAdd 3)) = tail c := by
    intro c
    ext k
    fin_cases k <;> rfl
  refine ⟨fun c => ⟨?_, ?_, ?_, ?_⟩, fun c hc => ?_, fun T hb h3 hR => ?_⟩
  · intro i j
    rw [htail, curveValueToTransformation_eq]
    exact congrFun (congrFun (topLeft_rigid (rot.toMatrix (tail c)) (head c)) i) j
  · intro i
    rw [curveValueToTransformation_eq]
    exact congrFun (topRight_rigid (rot.toMatrix (tail c)) (head c)) i
  · intro j
    rw [curveValueToTransformation_eq]
    fin_cases j <;> simp [rigid]
  · rw [curveValueToTransformation_eq]
    simp [rigid]
  · rw [htail] at hc
    rw [curveValueToTransformation_eq]
    apply ext_head_tail
    · rw [head_ofTransformation, topRight_rigid]
    · rw [tail_ofTransformation, topLeft_rigid, hc]
  · rw [curveValueToTransformation_eq, head_ofTransformation, tail_ofTransformation]
    have hR' : rot.toMatrix (rot.ofMatrix (topLeft T)) = topLeft T := hR
    rw [hR']
    exact (eq_rigid T (hb 0) (hb 1) (hb 2) h3).symm

end Algebra

variable {K : Type*} [Field K] [LinearOrder K]

/-- **C40**, inverse: for every pose spline whose parametrisation returns orthogonal matrices, and every time, the inverse query
fails exactly like the transformation query, and otherwise returns its two-sided inverse. -/
theorem C40_inverse (s : Pose K) (horth : ∀ θ, Orthogonal (s.rotation.toMatrix θ)) (t : K) :
    (s.transformation t = .throws → s.inverseTransformation t = .throws) ∧
    (s.transformation t = .ub → s.inverseTransformation t = .ub) ∧
    (∀ T, s.transformation t = .ok T →
      ∃ T', s.inverseTransformation t = .ok T' ∧ T * T' = 1 ∧ T' * T = 1) := by
  unfold transformation inverseTransformation
  cases s.spline.eval t with
  | throws => exact ⟨fun _ => rfl, fun h => (nomatch h), fun T h => (nomatch h)⟩
  | ub => exact ⟨fun h => (nomatch h), fun _ => rfl, fun T h => (nomatch h)⟩
  | ok c =>
    refine ⟨fun h => (nomatch h), fun h => (nomatch h), fun T h => ?_⟩
    obtain rfl := Outcome.ok.inj h
    refine ⟨invertInPlace (curveValueToTransformation s.rotation c), rfl, ?_, ?_⟩
    · rw [curveValueToTransformation_eq, invertInPlace_rigid, rigid_mul, (horth _).1, Matrix.mulVec_neg,
        Matrix.mulVec_mulVec, (horth _).1, Matrix.one_mulVec, neg_add_cancel, rigid_one]
    · rw [curveValueToTransformation_eq, invertInPlace_rigid, rigid_mul, (horth _).2, add_neg_cancel, rigid_one]

/-- **C40**, end poses: a pose spline initialised with two poses whose rotations the parametrisation reproduces takes exactly
these poses at the two ends. -/
theorem C40_init [IsStrictOrderedRing K] (solve : Solver K) (hsolve : SolvesRegular solve) (s : Pose K) (ho : 2 ≤ s.spline.order)
    (hold : s.spline.knots.length ≤ 2 * s.spline.order) (t0 t1 : K) (ht : t0 < t1)
    (T0 T1 : Matrix (Fin 4) (Fin 4) K)
    (hT : ∀ T ∈ [T0, T1], (∀ j : Fin 3, T 3 j.castSucc = 0) ∧ T 3 3 = 1 ∧
      s.rotation.toMatrix (s.rotation.ofMatrix (fun i j : Fin 3 => T i.castSucc j.castSucc))
        = (fun i j : Fin 3 => T i.castSucc j.castSucc)) :
    ∃ s', s.initPoseSpline solve t0 t1 T0 T1 = .ok s' ∧ s'.transformation t0 = .ok T0 ∧
      s'.transformation t1 = .ok T1 := by
  obtain ⟨b, h1, -, -, -, -, h2, h3, -⟩ := C15_two_points_partial solve hsolve s.spline ho hold t0 t1
    (transformationToCurveValue s.rotation T0) (transformationToCurveValue s.rotation T1) ht
  obtain ⟨a1, a2, a3⟩ := hT T0 (by simp)
  obtain ⟨b1, b2, b3⟩ := hT T1 (by simp)
  refine ⟨⟨b, s.rotation⟩, ?_, ?_, ?_⟩
  · unfold initPoseSpline
    rw [h1]
    rfl
  · unfold transformation
    rw [h2, Outcome.map_ok, (C40_round_trip s.rotation).2.2 T0 a1 a2 a3]
  · unfold transformation
    rw [h3, Outcome.map_ok, (C40_round_trip s.rotation).2.2 T1 b1 b2 b3]

/-- **C40**, appended poses: after appending a pose, the spline ends at the given time with exactly this pose and still has the
pose it had at its old end. -/
theorem C40_append [IsStrictOrderedRing K] (solve : Solver K) (hsolve : SolvesRegular solve) (s : Pose K) (h : s.spline.WF)
    (b : K) (hb : s.spline.tMax = .ok b) (hlast : s.spline.kn (s.spline.knots.length - s.spline.order - 1) < b)
    (t : K) (ht : b < t) (T : Matrix (Fin 4) (Fin 4) K) (junk : Fin 6 → K)
    (hT0 : ∀ j : Fin 3, T 3 j.castSucc = 0) (hT1 : T 3 3 = 1)
    (hT : s.rotation.toMatrix (s.rotation.ofMatrix (fun i j : Fin 3 => T i.castSucc j.castSucc))
        = (fun i j : Fin 3 => T i.castSucc j.castSucc)) :
    ∃ s' Tb, s.addPoseSegment solve t T junk = .ok s' ∧ s'.spline.tMax = .ok t ∧ s'.transformation t = .ok T ∧
      s.transformation b = .ok Tb ∧ s'.transformation b = .ok Tb := by
  obtain ⟨b', p0, h1, -, -, -, -, h2, h3, h4, h5⟩ := C14_append solve hsolve s.spline h b hb hlast t ht
    (transformationToCurveValue s.rotation T) junk
  refine ⟨⟨b', s.rotation⟩, curveValueToTransformation s.rotation p0, ?_, h2, ?_, ?_, ?_⟩
  · unfold addPoseSegment
    rw [h1]
    rfl
  · unfold transformation
    rw [h3, Outcome.map_ok, (C40_round_trip s.rotation).2.2 T hT0 hT1 hT]
  · unfold transformation
    rw [h4, Outcome.map_ok]
  · unfold transformation
    rw [h5, Outcome.map_ok]

/-! ## C41 -/

theorem head_getD (o : Outcome (Fin 6 → ℝ)) : (o.map head).getD 0 = head (o.getD 0) := by
  cases o <;> rfl

theorem hasDerivAt_head {f : ℝ → Fin 6 → ℝ} {v : Fin 6 → ℝ} {t : ℝ} (h : HasDerivAt f v t) :
    HasDerivAt (fun x => head (f x)) (head v) t :=
  hasDerivAt_pi.2 fun _ => hasDerivAt_pi.1 h _

theorem hasDerivWithinAt_head {f : ℝ → Fin 6 → ℝ} {v : Fin 6 → ℝ} {t : ℝ} {S : Set ℝ} (h : HasDerivWithinAt f v S t) :
    HasDerivWithinAt (fun x => head (f x)) (head v) S t :=
  hasDerivWithinAt_pi.2 fun _ => hasDerivWithinAt_pi.1 h _

/-- **C41**, derivatives: inside a segment the linear velocity is the derivative of the position and the linear acceleration the
derivative of the linear velocity; at the left end of a segment they are the derivatives from the right. -/
theorem C41_derivatives (s : Pose ℝ) (h : s.spline.WF) (hw : s.spline.WideLast) (seg : ℤ) (a b t : ℝ)
    (hseg : s.spline.timeIntervalOf seg = .ok (a, b)) :
    (a < t → t < b → ∃ v acc, s.linearVelocity t = .ok v ∧ s.linearAcceleration t = .ok acc ∧
      HasDerivAt (fun x => (s.position x).getD 0) v t ∧
      HasDerivAt (fun x => (s.linearVelocity x).getD 0) acc t ∧
      ∀ i, iteratedDeriv 2 (fun x => (s.position x).getD 0 i) t = acc i) ∧
    (t = a → a < b → ∃ v acc, s.linearVelocity t = .ok v ∧ s.linearAcceleration t = .ok acc ∧
      HasDerivWithinAt (fun x => (s.position x).getD 0) v (Set.Ici t) t ∧
      HasDerivWithinAt (fun x => (s.linearVelocity x).getD 0) acc (Set.Ici t) t) := by
  have e1 : (fun x => (s.position x).getD 0) = fun x => head ((s.spline.evalD x ((0 : ℕ) : ℤ)).getD 0) := by
    ext x : 1
    exact head_getD _
  have e2 : (fun x => (s.linearVelocity x).getD 0) = fun x => head ((s.spline.evalD x ((1 : ℕ) : ℤ)).getD 0) := by
    ext x : 1
    exact head_getD _
  constructor
  · intro h1 h2
    obtain ⟨v, hv, dv⟩ := (C04_derivative s.spline h hw 0 seg a b t hseg).1 h1 h2
    obtain ⟨acc, hacc, dacc⟩ := (C04_derivative s.spline h hw 1 seg a b t hseg).1 h1 h2
    refine ⟨head v, head acc, ?_, ?_, ?_, ?_, ?_⟩
    · have hv' : s.spline.evalD t 1 = .ok v := hv
      unfold linearVelocity
      rw [hv', Outcome.map_ok]
    · have hacc' : s.spline.evalD t 2 = .ok acc := hacc
      unfold linearAcceleration
      rw [hacc', Outcome.map_ok]
    · rw [e1]
      exact hasDerivAt_head dv
    · rw [e2]
      exact hasDerivAt_head dacc
    · intro i
      obtain ⟨w, hw1, hw2⟩ := C04_iterated_derivative s.spline h hw 2 seg a b t hseg h1 h2 ⟨i.1, by omega⟩
      have hacc' : s.spline.evalD t ((2 : ℕ) : ℤ) = .ok acc := hacc
      rw [hacc'] at hw1
      obtain rfl := Outcome.ok.inj hw1
      rw [show head acc i = acc ⟨i.1, by omega⟩ from rfl, ← hw2]
      congr 1
      ext x
      exact congrFun (head_getD (s.spline.eval x)) i
  · intro h1 h2
    obtain ⟨v, hv, dv⟩ := (C04_derivative s.spline h hw 0 seg a b t hseg).2.1 h1 h2
    obtain ⟨acc, hacc, dacc⟩ := (C04_derivative s.spline h hw 1 seg a b t hseg).2.1 h1 h2
    refine ⟨head v, head acc, ?_, ?_, ?_, ?_⟩
    · have hv' : s.spline.evalD t 1 = .ok v := hv
      unfold linearVelocity
      rw [hv', Outcome.map_ok]
    · have hacc' : s.spline.evalD t 2 = .ok acc := hacc
      unfold linearAcceleration
      rw [hacc', Outcome.map_ok]
    · rw [e1]
      exact hasDerivWithinAt_head dv
    · rw [e2]
      exact hasDerivWithinAt_head dacc

/-- **C41**, frames: for every time the body frame velocity and acceleration are defined when the orientation and the world
quantity are, and they are then the inverse orientation times the world quantity; so the orientation takes them back to
the world quantity if it is orthogonal. -/
theorem C41_body_frame (s : Pose K) (t : K) (C : Matrix (Fin 3) (Fin 3) K) (hC : s.orientation t = .ok C) :
    s.inverseOrientation t = .ok Cᵀ ∧
    (∀ v, s.linearVelocity t = .ok v → ∃ vb, s.linearVelocityBodyFrame t = .ok vb ∧
      vb = Cᵀ.mulVec v ∧ (Orthogonal C → C.mulVec vb = v)) ∧
    (∀ a, s.linearAcceleration t = .ok a → ∃ ab, s.linearAccelerationBodyFrame t = .ok ab ∧
      ab = Cᵀ.mulVec a ∧ (Orthogonal C → C.mulVec ab = a)) := by
  unfold orientation at hC
  cases hr : s.spline.eval t with
  | throws => rw [hr] at hC; exact nomatch hC
  | ub => rw [hr] at hC; exact nomatch hC
  | ok r =>
    rw [hr] at hC
    have hCr : s.rotation.toMatrix (tail r) = C := Outcome.ok.inj hC
    have hr0 : s.spline.evalD t 0 = .ok r := hr
    have horth : ∀ v : Fin 3 → K, Orthogonal C → C.mulVec (Cᵀ.mulVec v) = v := by
      intro v ho
      rw [Matrix.mulVec_mulVec, ho.1, Matrix.one_mulVec]
    refine ⟨?_, ?_, ?_⟩
    · unfold inverseOrientation
      rw [hr, Outcome.map_ok, hCr]
    · intro v hv
      unfold linearVelocity at hv
      unfold linearVelocityBodyFrame
      cases hd : s.spline.evalD t 1 with
      | throws => rw [hd] at hv; exact nomatch hv
      | ub => rw [hd] at hv; exact nomatch hv
      | ok w =>
        rw [hd] at hv
        obtain rfl : head w = v := Outcome.ok.inj hv
        rw [hr0, Outcome.bind_ok, Outcome.map_ok, hCr]
        exact ⟨_, rfl, rfl, horth _⟩
    · intro v hv
      unfold linearAcceleration at hv
      unfold linearAccelerationBodyFrame
      cases hd : s.spline.evalD t 2 with
      | throws => rw [hd] at hv; exact nomatch hv
      | ub => rw [hd] at hv; exact nomatch hv
      | ok w =>
        rw [hd] at hv
        obtain rfl : head w = v := Outcome.ok.inj hv
        rw [hr0, Outcome.bind_ok, Outcome.map_ok, hCr]
        exact ⟨_, rfl, rfl, horth _⟩

end Pose
end Verif
