import Verif.Model.PoseFit
import Verif.Props.Reproduction
import Verif.Props.Pose
import Verif.Lemmas.PoseRotation

/-!
# Property C76 for pose splines: motions reproduced by the fits
-/

set_option linter.unusedSectionVars false

namespace Verif

open Finset Polynomial BSpline Pose

/-- A rigid transformation whose rotation the parametrisation can represent. -/
structure Representable {K : Type*} [Field K] (rot : Rotation K) (T : Matrix (Fin 4) (Fin 4) K) : Prop where
  bottom : ∀ j : Fin 3, T 3 j.castSucc = 0
  corner : T 3 3 = 1
  rotation : rot.toMatrix (rot.ofMatrix (fun i j : Fin 3 => T i.castSucc j.castSucc)) = (fun i j : Fin 3 => T i.castSucc j.castSucc)

theorem transformation_of_eval {K : Type*} [Field K] [LinearOrder K] {s : Pose K} {t : K} {T : Matrix (Fin 4) (Fin 4) K}
    (hT : Representable s.rotation T) (h : s.spline.eval t = .ok (transformationToCurveValue s.rotation T)) :
    s.transformation t = .ok T := by
  unfold transformation
  rw [h]
  exact congrArg Outcome.ok ((C40_round_trip s.rotation).2.2 T hT.bottom hT.corner hT.rotation)

/-- The curve values of poses. -/
def poseData {K : Type*} [Field K] (rot : Rotation K) (poses : List (K × Matrix (Fin 4) (Fin 4) K)) : List (K × (Fin 6 → K)) :=
  poses.map fun o => (o.1, transformationToCurveValue rot o.2)

/-- The motion with given position and rotation parameters at time zero and constant rates. -/
noncomputable def steady (c v : Fin 6 → ℝ) (d : Fin 6) : ℝ[X] := C (v d) * X + C (c d)

theorem steady_natDegree (c v : Fin 6 → ℝ) (d : Fin 6) : (steady c v d).natDegree < 2 :=
  lt_of_le_of_lt natDegree_linear_le (by norm_num)

/-- What holds of a pose spline that follows a steady motion at time `t`. -/
def Follows (s : Pose ℝ) (c v : Fin 6 → ℝ) (t : ℝ) : Prop :=
  s.transformation t = .ok (curveValueToTransformation s.rotation fun d => c d + v d * t) ∧
  s.position t = .ok (fun i => c (i.castAdd 3) + v (i.castAdd 3) * t) ∧
  s.linearVelocity t = .ok (fun i => v (i.castAdd 3)) ∧ s.linearAcceleration t = .ok 0

theorem follows_of_evalD {s : Pose ℝ} {c v : Fin 6 → ℝ} {t : ℝ}
    (h : ∀ der : ℕ, s.spline.evalD t der = .ok (fun d => (derivative^[der] (steady c v d)).eval t)) : Follows s c v t := by
  have h0 := h 0
  have h1 := h 1
  have h2 := h 2
  simp only [Nat.cast_zero, Nat.cast_one, Nat.cast_ofNat] at h0 h1 h2
  have e0 : s.spline.eval t = .ok fun d => c d + v d * t := by
    unfold BSpline.eval
    rw [h0]
    refine congrArg Outcome.ok (funext fun d => ?_)
    simp [steady]
    ring
  have e1 : s.spline.evalD t 1 = .ok v := by
    rw [h1]
    refine congrArg Outcome.ok (funext fun d => ?_)
    simp [steady]
  have e2 : s.spline.evalD t 2 = .ok 0 := by
    rw [h2]
    refine congrArg Outcome.ok (funext fun d => ?_)
    rw [iterate_derivative_eq_zero (steady_natDegree c v d), eval_zero]
    rfl
  refine ⟨?_, ?_, ?_, ?_⟩
  · unfold transformation; rw [e0]; rfl
  · unfold position; rw [e0]; rfl
  · unfold linearVelocity; rw [e1]; rfl
  · unfold linearAcceleration; rw [e2]; rfl

/-- **C76**, poses: the fits of poses by least squares with a penalty integral keep the rotation parametrisation.  Poses whose curve values
lie on polynomials of degree below the order are met if nothing is penalised; poses of a steady motion are met with any penalty for orders
from three on, and with a positive penalty the spline follows the motion at all times. -/
theorem C76_pose_fit (solve : Solver ℝ) (hsolve : SolvesSemidefinite solve) (s : Pose ℝ) (poses : List (ℝ × Matrix (Fin 4) (Fin 4) ℝ)) (n : ℕ)
    (hin : FitInput s.spline (poseData s.rotation poses) n) (hrep : ∀ o ∈ poses, Representable s.rotation o.2)
    (lambda : ℝ) (hl : 0 ≤ lambda) :
    (∀ P : Fin 6 → ℝ[X], (∀ d, (P d).natDegree < s.spline.order) → lambda = 0 →
      (∀ o ∈ poses, ∀ d, transformationToCurveValue s.rotation o.2 d = (P d).eval o.1) →
      ∃ s', s.initPoseSpline3 solve (poseData s.rotation poses) n lambda = .ok s' ∧
        s.initPoseSplineSparse solve (poseData s.rotation poses) n lambda = .ok s' ∧ s'.rotation = s.rotation ∧
        ∀ o ∈ poses, s'.transformation o.1 = .ok o.2) ∧
    (∀ c v : Fin 6 → ℝ, 3 ≤ s.spline.order → (∀ o ∈ poses, ∀ d, transformationToCurveValue s.rotation o.2 d = c d + v d * o.1) →
      ∃ s', s.initPoseSpline3 solve (poseData s.rotation poses) n lambda = .ok s' ∧
        s.initPoseSplineSparse solve (poseData s.rotation poses) n lambda = .ok s' ∧ s'.rotation = s.rotation ∧
        (∀ o ∈ poses, s'.transformation o.1 = .ok o.2) ∧
        (0 < lambda → ∀ t, firstTime (poseData s.rotation poses) ≤ t → t ≤ lastTime (poseData s.rotation poses) → Follows s' c v t)) := by
  have hmem : ∀ {b : BSpline ℝ 6}, (∀ o ∈ poseData s.rotation poses, b.eval o.1 = .ok o.2) →
      ∀ o ∈ poses, (⟨b, s.rotation⟩ : Pose ℝ).transformation o.1 = .ok o.2 := by
    intro b hb o ho
    exact transformation_of_eval (s := ⟨b, s.rotation⟩) (hrep o ho) (hb (o.1, transformationToCurveValue s.rotation o.2) (List.mem_map.2 ⟨o, ho, rfl⟩))
  refine ⟨fun P hP hl0 hon => ?_, fun c v ho hon => ?_⟩
  · obtain ⟨b, h1, h2, -, -, h3, -⟩ := C76_fit solve hsolve s.spline _ n hin lambda hl P hP (Or.inl hl0) (by
      intro o ho d
      obtain ⟨q, hq, rfl⟩ := List.mem_map.1 ho
      exact hon q hq d)
    refine ⟨⟨b, s.rotation⟩, ?_, ?_, rfl, hmem h3⟩
    · unfold initPoseSpline3; rw [h1]; rfl
    · unfold initPoseSplineSparse; rw [h2]; rfl
  · obtain ⟨b, h1, h2, -, -, h3, h4⟩ := C76_fit solve hsolve s.spline _ n hin lambda hl (steady c v)
      (fun d => lt_of_lt_of_le (steady_natDegree c v d) hin.order) (Or.inr fun d => by
        rw [if_neg (by omega)]; exact steady_natDegree c v d) (by
      intro o ho d
      obtain ⟨q, hq, rfl⟩ := List.mem_map.1 ho
      rw [show (q.1, transformationToCurveValue s.rotation q.2).2 d = transformationToCurveValue s.rotation q.2 d from rfl, hon q hq d]
      simp [steady]
      ring)
    refine ⟨⟨b, s.rotation⟩, ?_, ?_, rfl, hmem h3, fun hpos t t1 t2 => follows_of_evalD (h4 hpos t t1 t2)⟩
    · unfold initPoseSpline3; rw [h1]; rfl
    · unfold initPoseSplineSparse; rw [h2]; rfl

/-- **C76**, poses, for `initPoseSpline2`, with any penalty at the knots and any order from two on. -/
theorem C76_pose_fit_at_knots (solve : Solver ℝ) (hsolve : SolvesSemidefinite solve) (s : Pose ℝ) (poses : List (ℝ × Matrix (Fin 4) (Fin 4) ℝ))
    (n : ℕ) (hin : FitInput s.spline (poseData s.rotation poses) n) (hrep : ∀ o ∈ poses, Representable s.rotation o.2)
    (lambda : ℝ) (c v : Fin 6 → ℝ) (hon : ∀ o ∈ poses, ∀ d, transformationToCurveValue s.rotation o.2 d = c d + v d * o.1) :
    ∃ s', s.initPoseSpline2 solve (poseData s.rotation poses) n lambda = .ok s' ∧ s'.rotation = s.rotation ∧
      (∀ o ∈ poses, s'.transformation o.1 = .ok o.2) ∧
      (lambda ≠ 0 → s.spline.order = 3 ∨ s.spline.order = 4 → ∀ t, firstTime (poseData s.rotation poses) ≤ t →
        t ≤ lastTime (poseData s.rotation poses) → Follows s' c v t) := by
  obtain ⟨b, h1, -, -, h3, h4⟩ := C76_fit_at_knots solve hsolve s.spline _ n hin lambda (steady c v)
    (fun d => lt_of_lt_of_le (steady_natDegree c v d) hin.order) (Or.inr (steady_natDegree c v)) (by
      intro o ho d
      obtain ⟨q, hq, rfl⟩ := List.mem_map.1 ho
      rw [show (q.1, transformationToCurveValue s.rotation q.2).2 d = transformationToCurveValue s.rotation q.2 d from rfl, hon q hq d]
      simp [steady]
      ring)
  refine ⟨⟨b, s.rotation⟩, ?_, rfl, ?_, fun hlam ho t t1 t2 => follows_of_evalD (h4 hlam ho t t1 t2)⟩
  · unfold initPoseSpline2; rw [h1]; rfl
  · intro o ho
    exact transformation_of_eval (s := ⟨b, s.rotation⟩) (hrep o ho) (h3 (o.1, transformationToCurveValue s.rotation o.2) (List.mem_map.2 ⟨o, ho, rfl⟩))

/-- **C76**, poses, with knots given by the caller. -/
theorem C76_pose_fit_knots (solve : Solver ℝ) (hsolve : SolvesSemidefinite solve) (s : Pose ℝ) (ho : 3 ≤ s.spline.order)
    (poses : List (ℝ × Matrix (Fin 4) (Fin 4) ℝ)) (hlen : 2 ≤ poses.length) (hs : (poses.map Prod.fst).Pairwise (· ≤ ·))
    (knots : List ℝ) (hks : knots.Pairwise (· ≤ ·)) (hkl : 2 * s.spline.order ≤ knots.length) (hold : s.spline.knots.length ≤ knots.length)
    (hwide : 1 / 10 ^ 10 ≤ knots.getD (knots.length - s.spline.order) 0 - knots.getD (knots.length - s.spline.order - 1) 0)
    (hin : ∀ o ∈ poses, knots.getD (s.spline.order - 1) 0 ≤ o.1 ∧ o.1 ≤ knots.getD (knots.length - s.spline.order) 0)
    (hrep : ∀ o ∈ poses, Representable s.rotation o.2) (lambda : ℝ) (hl : 0 ≤ lambda) (c v : Fin 6 → ℝ)
    (hon : ∀ o ∈ poses, ∀ d, transformationToCurveValue s.rotation o.2 d = c d + v d * o.1) :
    ∃ s', s.initPoseSplineSparseKnots solve (poseData s.rotation poses) knots lambda = .ok s' ∧ s'.rotation = s.rotation ∧
      s'.spline.knots = knots ∧ (∀ o ∈ poses, s'.transformation o.1 = .ok o.2) ∧
      (0 < lambda → (∀ i, s.spline.order - 1 ≤ i → i + 1 ≤ knots.length - s.spline.order → knots.getD i 0 < knots.getD (i + 1) 0) →
        (∃ o ∈ poses, ∃ o' ∈ poses, o.1 ≠ o'.1) → ∀ t, knots.getD (s.spline.order - 1) 0 ≤ t →
          t ≤ knots.getD (knots.length - s.spline.order) 0 → Follows s' c v t) := by
  have hmap : (poseData s.rotation poses).map Prod.fst = poses.map Prod.fst := by
    unfold poseData
    rw [List.map_map]
    rfl
  obtain ⟨b, h1, -, -, hk, h3, h4⟩ := C76_fit_knots solve hsolve s.spline (by omega) (by norm_num) (poseData s.rotation poses)
    (by unfold poseData; rw [List.length_map]; exact hlen) (by rw [hmap]; exact hs) knots hks hkl hold hwide (by
      intro o ho
      obtain ⟨q, hq, rfl⟩ := List.mem_map.1 ho
      exact hin q hq) lambda hl (steady c v)
    (fun d => lt_of_lt_of_le (steady_natDegree c v d) (by omega)) (Or.inr fun d => by rw [if_neg (by omega)]; exact steady_natDegree c v d) (by
      intro o ho d
      obtain ⟨q, hq, rfl⟩ := List.mem_map.1 ho
      rw [show (q.1, transformationToCurveValue s.rotation q.2).2 d = transformationToCurveValue s.rotation q.2 d from rfl, hon q hq d]
      simp [steady]
      ring)
  refine ⟨⟨b, s.rotation⟩, ?_, rfl, hk, ?_, ?_⟩
  · unfold initPoseSplineSparseKnots; rw [h1]; rfl
  · intro o ho
    exact transformation_of_eval (s := ⟨b, s.rotation⟩) (hrep o ho) (h3 (o.1, transformationToCurveValue s.rotation o.2) (List.mem_map.2 ⟨o, ho, rfl⟩))
  · rintro hpos hst ⟨o, ho, o', ho', hne⟩ t t1 t2
    exact follows_of_evalD (h4 hpos hst ⟨_, List.mem_map.2 ⟨o, ho, rfl⟩, _, List.mem_map.2 ⟨o', ho', rfl⟩, hne⟩ t t1 t2)

/-- **C76**, appending a pose with a smoothing term: without weight, or for order two, where the smoothed derivative is zero anyway, the new
pose and the old end are met. -/
theorem C76_pose_append {K : Type*} [Field K] [LinearOrder K] [IsStrictOrderedRing K] (solve : Solver K) (hsolve : SolvesRegular solve)
    (s : Pose K) (h : s.spline.WF)
    (b : K) (hb : s.spline.tMax = .ok b) (hlast : s.spline.kn (s.spline.knots.length - s.spline.order - 1) < b) (t : K) (ht : b < t)
    (T : Matrix (Fin 4) (Fin 4) K) (hT : Representable s.rotation T) (lambda : K) (junk : Fin 6 → K) (hl : lambda = 0 ∨ s.spline.order = 2) :
    ∃ s' Tb, s.addPoseSegment2 solve t T lambda junk = .ok s' ∧ s'.rotation = s.rotation ∧ s'.transformation t = .ok T ∧
      s.transformation b = .ok Tb ∧ s'.transformation b = .ok Tb := by
  obtain ⟨b', p0, h1, h2, h3, h4⟩ := C51_interpolates_partial solve hsolve s.spline h b hb hlast t ht
    (transformationToCurveValue s.rotation T) lambda junk hl
  refine ⟨⟨b', s.rotation⟩, curveValueToTransformation s.rotation p0, ?_, rfl, transformation_of_eval (s := ⟨b', s.rotation⟩) hT h2, ?_, ?_⟩
  · unfold addPoseSegment2; rw [h1]; rfl
  · unfold transformation; rw [h3]; rfl
  · unfold transformation; rw [h4]; rfl

/-- Every curve value gives a representable pose for Rodrigues parameters, from which it is read back. -/
theorem rodrigues_pose {K : Type*} [Field K] [LinearOrder K] [IsStrictOrderedRing K] (c : Fin 6 → K) :
    Representable (rodrigues K) (curveValueToTransformation (rodrigues K) c) ∧
      transformationToCurveValue (rodrigues K) (curveValueToTransformation (rodrigues K) c) = c := by
  obtain ⟨h1, h2, -⟩ := C40_round_trip (rodrigues K)
  obtain ⟨a1, a2, a3, a4⟩ := h1 c
  have hr : (fun i j : Fin 3 => curveValueToTransformation (rodrigues K) c i.castSucc j.castSucc)
      = (rodrigues K).toMatrix (fun k => c (k.natAdd 3)) := by
    funext i j
    exact a1 i j
  exact ⟨⟨a3, a4, by rw [hr, rodrigues_round_trip]⟩, h2 c (rodrigues_round_trip _)⟩

/-- Three poses of a motion with a turn about the third axis, fitted with a penalty. -/
example : ∃ s', (⟨⟨4, [], [], []⟩, rodrigues ℝ⟩ : Pose ℝ).initPoseSpline3 choiceSolver
      (poseData (rodrigues ℝ) (([0, 1, 4] : List ℝ).map fun t => (t, curveValueToTransformation (rodrigues ℝ) ![1, 2 * t, 0, 0, 0, t]))) 2 3 = .ok s' ∧
    s'.position 2 = .ok ![1, 4, 0] ∧ s'.linearVelocity 3 = .ok ![0, 2, 0] := by
  set poses := ([0, 1, 4] : List ℝ).map fun t => (t, curveValueToTransformation (rodrigues ℝ) ![1, 2 * t, 0, 0, 0, t]) with hp
  have f0 : firstTime (poseData (rodrigues ℝ) poses) = 0 := by simp [firstTime, poseData, hp]
  have f1 : lastTime (poseData (rodrigues ℝ) poses) = 4 := by simp [lastTime, poseData, hp]
  obtain ⟨s', h1, -, h2, -, h3⟩ := (C76_pose_fit choiceSolver choiceSolver_semidefinite (⟨⟨4, [], [], []⟩, rodrigues ℝ⟩ : Pose ℝ) poses 2
    ⟨by norm_num, by norm_num, by simp [poseData, hp], by simp [poseData, hp], by norm_num, by norm_num, by
      change _ ≤ (lastTime (poseData (rodrigues ℝ) poses) - firstTime (poseData (rodrigues ℝ) poses)) / _
      rw [f0, f1]; norm_num⟩
    (by
      intro o ho
      obtain ⟨t, -, rfl⟩ := List.mem_map.1 ho
      exact (rodrigues_pose _).1) 3 (by norm_num)).2 ![1, 0, 0, 0, 0, 0] ![0, 2, 0, 0, 0, 1] (by norm_num) (by
      intro o ho d
      obtain ⟨t, -, rfl⟩ := List.mem_map.1 ho
      change transformationToCurveValue (rodrigues ℝ) (curveValueToTransformation (rodrigues ℝ) ![1, 2 * t, 0, 0, 0, t]) d = _
      rw [(rodrigues_pose _).2]
      fin_cases d <;> simp)
  refine ⟨s', h1, ?_, ?_⟩
  · have := (h3 (by norm_num) 2 (by change firstTime (poseData (rodrigues ℝ) poses) ≤ 2; rw [f0]; norm_num)
      (by change 2 ≤ lastTime (poseData (rodrigues ℝ) poses); rw [f1]; norm_num)).2.1
    rw [this]
    refine congrArg Outcome.ok (funext fun i => ?_)
    fin_cases i
    · simp [Fin.castAdd]
    · change (0 : ℝ) + 2 * 2 = 4; norm_num
    · change (0 : ℝ) + 0 * 2 = 0; norm_num
  · have := (h3 (by norm_num) 3 (by change firstTime (poseData (rodrigues ℝ) poses) ≤ 3; rw [f0]; norm_num)
      (by change 3 ≤ lastTime (poseData (rodrigues ℝ) poses); rw [f1]; norm_num)).2.2.1
    rw [this]
    refine congrArg Outcome.ok (funext fun i => ?_)
    fin_cases i <;> rfl

end Verif
