import Verif.Model.PoseDimensions
import Verif.Props.Dimensions
import Verif.Props.Views

/-!
# C97: pose queries need a spline of dimension six

Programs that change the spline through poses only keep the dimension at six if the points have six rows (`C97_programs_partial`), and then the queries are those of `Model/Pose`
(`C97_six`).  The functions of the base class accept points of any dimension, and the queries do not notice: see `C97_selected`, `C97_small`
and `C97_jacobian`.
-/

set_option linter.unusedSectionVars false
set_option linter.unusedSimpArgs false

namespace Verif
namespace DPose

open Matrix Pose BSpline

variable {K : Type*} [Field K] [LinearOrder K]

/-! ### Dimension six -/

theorem headOf_six (c : Fin 6 → K) : headOf c = .ok (head c) := rfl

theorem tailOf_six (c : Fin 6 → K) : tailOf c = .ok (tail c) := by
  unfold tailOf tail
  rw [dif_pos (by omega)]
  congr 1
  funext i
  congr 1
  apply Fin.ext
  show 6 - 3 + (i : ℕ) = i + 3
  omega

theorem stackOf_six (A B : Mat K) : stackOf 6 A B = .ok fun r q => if r < 3 then A (r + 3) q else B r q := rfl

theorem rows6_stack (A B : Mat K) : rows6 (fun r q => if r < 3 then A (r + 3) q else B r q) = stackJac (rows6 A) (rows6 B) := by
  funext r q
  show (if (r : ℕ) < 3 then A (r + 3) q else B r q) = if h : (r : ℕ) < 3 then A (r + 3) q else B r q
  by_cases h : (r : ℕ) < 3
  · rw [if_pos h, dif_pos h]
  · rw [if_neg h, dif_neg h]

/-- The Jacobian of a result if it was requested. -/
def optional {α : Type*} {m : ℕ} (J : Bool) (w : WithJacobian α m K) : OptJacobian α m K :=
  ⟨w.value, if J then some w.jacobian else none, w.indices⟩

/-- The pose spline of `Model/Pose` as an object with its dimension. -/
def ofPose (s : Pose K) : DPose K := ⟨⟨6, s.spline⟩, s.rotation⟩

/-- **C97**: for a spline of dimension six every query is that of the model with fixed dimension. -/
theorem C97_six (s : Pose K) (J : Bool) (t : K) (v : Fin 4 → K) :
    (ofPose s).transformation t = s.transformation t ∧
    (ofPose s).transformationAndJacobian J t = (s.transformationAndJacobian t).map (optional J) ∧
    (ofPose s).orientationAndJacobian J t = (s.orientationAndJacobian t).map (optional J) ∧
    (ofPose s).inverseOrientationAndJacobian J t = (s.inverseOrientationAndJacobian t).map (optional J) ∧
    (ofPose s).inverseTransformationAndJacobian J t = (s.inverseTransformationAndJacobian t).map (optional J) ∧
    (ofPose s).inverseTransformation t = s.inverseTransformation t ∧
    (ofPose s).transformVectorAndJacobian J t v = (s.transformVectorAndJacobian t v).map (optional J) ∧
    (ofPose s).position t = s.position t ∧
    (ofPose s).orientation t = s.orientation t ∧
    (ofPose s).inverseOrientation t = s.inverseOrientation t ∧
    (ofPose s).linear 1 t = s.linearVelocity t ∧
    (ofPose s).linear 2 t = s.linearAcceleration t ∧
    (ofPose s).linearBodyFrame 1 t = s.linearVelocityBodyFrame t ∧
    (ofPose s).linearBodyFrame 2 t = s.linearAccelerationBodyFrame t ∧
    (ofPose s).linearAccelerationAndJacobian J t = (s.linearAccelerationAndJacobian t).map (optional J) ∧
    (ofPose s).angularVelocity t = s.angularVelocity t ∧
    (ofPose s).angularBodyFrame 1 t = s.angularVelocityBodyFrame t ∧
    (ofPose s).angularBodyFrame 2 t = s.angularAccelerationBodyFrame t ∧
    (ofPose s).angularBodyFrameAndJacobian J 1 t = (s.angularVelocityBodyFrameAndJacobian t).map (optional J) ∧
    (ofPose s).angularBodyFrameAndJacobian J 2 t = (s.angularAccelerationBodyFrameAndJacobian t).map (optional J) ∧
    (ofPose s).angularAndJacobian J 1 t = (s.angularVelocityAndJacobian t).map (optional J) ∧
    (ofPose s).angularAndJacobian J 2 t = (s.angularAccelerationAndJacobian t).map (optional J) := by
  have hT : ∀ c : Fin 6 → K, curveValueToTransformation s.rotation c = .ok (Pose.curveValueToTransformation s.rotation c) := by
    intro c
    unfold curveValueToTransformation Pose.curveValueToTransformation
    rw [tailOf_six, headOf_six]
    rfl
  have hTJ : ∀ c : Fin 6 → K, curveValueToTransformationAndJacobian s.rotation c =
      .ok (Pose.curveValueToTransformation s.rotation c, curveValueJacobian s.rotation c) := by
    intro c
    unfold curveValueToTransformationAndJacobian Pose.curveValueToTransformation curveValueJacobian
    rw [tailOf_six, headOf_six]
    rfl
  have hm : ∀ (m : ℕ) (A : Matrix (Fin m) (Fin 6) K) (B : Mat K), timesJac 6 A B = .ok (mulJac A (rows6 B)) := fun m A B => rfl
  have hio : (ofPose s).inverseOrientationAndJacobian true t = (s.inverseOrientationAndJacobian t).map (optional true) := by
    unfold inverseOrientationAndJacobian Pose.inverseOrientationAndJacobian ofPose optional
    dsimp only
    rcases s.spline.evalDAndJacobian t 0 with r | _ | _ <;>
      simp [Outcome.bind, Outcome.map, tailOf_six, hm, ifRequested]
  have htj : (ofPose s).transformationAndJacobian true t = (s.transformationAndJacobian t).map (optional true) := by
    unfold transformationAndJacobian Pose.transformationAndJacobian ofPose optional
    dsimp only
    rcases s.spline.evalDAndJacobian t 0 with r | _ | _ <;>
      simp [Outcome.bind, Outcome.map, hTJ, hm, ifRequested]
  have hab : ∀ der, (ofPose s).angularBodyFrameAndJacobian J der t = (s.angularBodyFrameAndJacobian t der).map (optional J) := by
    intro der
    unfold angularBodyFrameAndJacobian Pose.angularBodyFrameAndJacobian
    rw [hio]
    unfold ofPose optional
    dsimp only
    rcases s.spline.evalDAndJacobian t 0 with r | _ | _ <;> try rfl
    simp only [Outcome.bind, tailOf_six]
    rcases s.spline.evalDAndJacobian t der with r1 | _ | _ <;> try rfl
    simp only [Outcome.bind, tailOf_six]
    rcases s.inverseOrientationAndJacobian t with o | _ | _ <;> try rfl
    cases J <;> simp [Outcome.bind, Outcome.map, stackOf_six, hm, ifRequested, rows6_stack]
  have ha : ∀ der, (ofPose s).angularAndJacobian J der t = (s.angularAndJacobian t der).map (optional J) := by
    intro der
    unfold angularAndJacobian Pose.angularAndJacobian ofPose optional
    dsimp only
    rcases s.spline.evalDAndJacobian t 0 with r | _ | _ <;> try rfl
    simp only [Outcome.bind, tailOf_six]
    rcases s.spline.evalDAndJacobian t der with r1 | _ | _ <;> try rfl
    cases J <;> simp [Outcome.bind, Outcome.map, stackOf_six, hm, ifRequested, rows6_stack, tailOf_six]
  refine ⟨?_, ?_, ?_, ?_, ?_, ?_, ?_, ?_, ?_, ?_, ?_, ?_, ?_, ?_, ?_, ?_, ?_, ?_, hab 1, hab 2, ha 1, ha 2⟩
  · unfold transformation Pose.transformation ofPose
    dsimp only
    rcases s.spline.eval t with r | _ | _ <;> simp [Outcome.bind, Outcome.map, hT]
  · unfold transformationAndJacobian Pose.transformationAndJacobian ofPose optional
    dsimp only
    rcases s.spline.evalDAndJacobian t 0 with r | _ | _ <;> cases J <;>
      simp [Outcome.bind, Outcome.map, hTJ, hm, ifRequested]
  · unfold orientationAndJacobian Pose.orientationAndJacobian ofPose optional
    dsimp only
    rcases s.spline.evalDAndJacobian t 0 with r | _ | _ <;> cases J <;>
      simp [Outcome.bind, Outcome.map, tailOf_six, hm, ifRequested]
  · unfold inverseOrientationAndJacobian Pose.inverseOrientationAndJacobian ofPose optional
    dsimp only
    rcases s.spline.evalDAndJacobian t 0 with r | _ | _ <;> cases J <;>
      simp [Outcome.bind, Outcome.map, tailOf_six, hm, ifRequested]
  · unfold inverseTransformationAndJacobian Pose.inverseTransformationAndJacobian ofPose optional
    dsimp only
    rcases s.spline.evalDAndJacobian t 0 with r | _ | _ <;> try rfl
    rcases s.spline.localCoefficientVectorIndices t with i | _ | _ <;> cases J <;>
      simp [Outcome.bind, Outcome.map, hTJ, hm, ifRequested]
  · unfold inverseTransformation Pose.inverseTransformation ofPose
    dsimp only
    rcases s.spline.eval t with r | _ | _ <;> simp [Outcome.bind, Outcome.map, hT]
  · unfold transformVectorAndJacobian Pose.transformVectorAndJacobian
    rw [htj]
    rcases s.transformationAndJacobian t with r | _ | _ <;> simp [Outcome.bind, Outcome.map, optional]
  · unfold position Pose.position ofPose
    dsimp only
    rcases s.spline.eval t with r | _ | _ <;> simp [Outcome.bind, Outcome.map, headOf_six]
  · unfold orientation Pose.orientation ofPose
    dsimp only
    rcases s.spline.eval t with r | _ | _ <;> simp [Outcome.bind, Outcome.map, tailOf_six]
  · unfold inverseOrientation Pose.inverseOrientation ofPose
    dsimp only
    rcases s.spline.eval t with r | _ | _ <;> simp [Outcome.bind, Outcome.map, tailOf_six]
  · unfold linear Pose.linearVelocity ofPose
    dsimp only
    rcases s.spline.evalD t 1 with r | _ | _ <;> simp [Outcome.bind, Outcome.map, headOf_six]
  · unfold linear Pose.linearAcceleration ofPose
    dsimp only
    rcases s.spline.evalD t 2 with r | _ | _ <;> simp [Outcome.bind, Outcome.map, headOf_six]
  · unfold linearBodyFrame Pose.linearVelocityBodyFrame ofPose
    dsimp only
    rcases s.spline.evalD t 0 with r | _ | _ <;> rcases s.spline.evalD t 1 with v | _ | _ <;>
      simp [Outcome.bind, Outcome.map, headOf_six, tailOf_six]
  · unfold linearBodyFrame Pose.linearAccelerationBodyFrame ofPose
    dsimp only
    rcases s.spline.evalD t 0 with r | _ | _ <;> rcases s.spline.evalD t 2 with v | _ | _ <;>
      simp [Outcome.bind, Outcome.map, headOf_six, tailOf_six]
  · unfold linearAccelerationAndJacobian Pose.linearAccelerationAndJacobian ofPose optional
    dsimp only
    rcases s.spline.evalDAndJacobian t 2 with r | _ | _ <;> simp [Outcome.bind, Outcome.map, headOf_six]
  · unfold angularVelocity Pose.angularVelocity ofPose
    dsimp only
    rcases s.spline.evalD t 0 with r | _ | _ <;> rcases s.spline.evalD t 1 with v | _ | _ <;>
      simp [Outcome.bind, Outcome.map, tailOf_six]
  · unfold angularBodyFrame Pose.angularVelocityBodyFrame ofPose
    dsimp only
    rcases s.spline.evalD t 0 with r | _ | _ <;> rcases s.spline.evalD t 1 with v | _ | _ <;>
      simp [Outcome.bind, Outcome.map, tailOf_six]
  · unfold angularBodyFrame Pose.angularAccelerationBodyFrame ofPose
    dsimp only
    rcases s.spline.evalD t 0 with r | _ | _ <;> rcases s.spline.evalD t 2 with v | _ | _ <;>
      simp [Outcome.bind, Outcome.map, tailOf_six]

/-! ### Programs -/

/-- Specification: the points of a call have six rows; this is a condition on `initPoseSplineSparseKnots` only. -/
def PoseCall.Six : PoseCall K → Prop
  | .initSparseKnots _ points _ _ => points.rows = 6
  | _ => True

theorem PoseCall.keeps (solve : Solver K) (rot : Rotation K) (c : PoseCall K) (h6 : c.Six) (s : DSpline K) :
    ((c.call rot).run solve s).2 = s ∨ ((c.call rot).run solve s).2.dim = 6 := by
  have hv : ∀ T, (curveValue rot T).length = 6 := fun T => by simp [curveValue]
  have hinit : ∀ c' : DSpline.Call K, c'.newDim = some 6 → (c'.run solve s).2 = s ∨ (c'.run solve s).2.dim = 6 := by
    intro c' h
    exact ((DSpline.C95_dimension solve c' s).2 6 h).1.symm
  have happ : ∀ (t : K) (p : List K), p.length = 6 → ∀ (f : (s : DSpline K) → BSpline K s.dim → Outcome Unit × BSpline K s.dim),
      (MSpline.andThen (fun s : DSpline K => (s.checkAppend t p, s)) (fun s => s.lift (f s)) s).2 = s ∨
      (MSpline.andThen (fun s : DSpline K => (s.checkAppend t p, s)) (fun s => s.lift (f s)) s).2.dim = 6 := by
    intro t p hp f
    unfold MSpline.andThen
    dsimp only
    rcases h : s.checkAppend t p with u | _ | _
    · refine Or.inr ?_
      show s.dim = 6
      unfold DSpline.checkAppend at h
      rcases hc : s.spline.tMax with u | _ | _ <;> rw [hc] at h <;> simp [Outcome.bind] at h
      split_ifs at h with h1 h2
      exact h2.symm.trans hp
    · exact Or.inl rfl
    · exact Or.inl rfl
  cases c with
  | init t0 t1 T0 T1 => exact hinit _ (by simp [PoseCall.call, DSpline.Call.newDim, hv])
  | init2 times cols poses n lambda => exact hinit _ rfl
  | init3 times cols poses n lambda => exact hinit _ rfl
  | initSparse times cols poses n lambda => exact hinit _ rfl
  | initSparseKnots times points knots lambda => exact hinit _ (congrArg some h6)
  | add t T junk => exact happ t _ (hv T) _
  | add2 t T lambda junk => exact happ t _ (hv T) _

theorem run_keeps (solve : Solver K) (rot : Rotation K) : ∀ (cs : List (PoseCall K)) (_ : ∀ c ∈ cs, c.Six) (s : DSpline K),
    (DSpline.runCatching solve (cs.map (PoseCall.call rot)) s).2 = s ∨
    (DSpline.runCatching solve (cs.map (PoseCall.call rot)) s).2.dim = 6
  | [], _, s => Or.inl rfl
  | c :: cs, h6, s => by
    rw [List.map_cons, DSpline.runCatching]
    have h := PoseCall.keeps solve rot c (h6 c List.mem_cons_self) s
    rcases hr : (c.call rot).run solve s with ⟨o, s'⟩
    rw [hr] at h
    have ih := run_keeps solve rot cs (fun c hc => h6 c (List.mem_cons_of_mem _ hc)) s'
    rcases o with _ | _ | _
    · dsimp only at h ⊢
      rcases h with h | h
      · subst h; exact ih
      · rcases ih with ih | ih
        · exact Or.inr (by rw [ih]; exact h)
        · exact Or.inr ih
    · dsimp only at h ⊢
      rcases h with h | h
      · subst h; exact ih
      · rcases ih with ih | ih
        · exact Or.inr (by rw [ih]; exact h)
        · exact Or.inr ih
    · exact h

/-- **C97**, holds for points of six rows in calls of `initPoseSplineSparseKnots`: a pose spline that is changed through poses only is either as it
was constructed, and all its queries throw, or has dimension six.  So has one whose base class had dimension six at the beginning. -/
theorem C97_programs_partial (solve : Solver K) (rot : Rotation K) (cs : List (PoseCall K)) (h6 : ∀ c ∈ cs, c.Six) :
    (∀ order s, DSpline.create (K := K) order = .ok s →
      ((runPoses solve ⟨s, rot⟩ cs).2.base = s ∧ ∀ t, s.spline.eval t = .throws) ∨ (runPoses solve ⟨s, rot⟩ cs).2.base.dim = 6) ∧
    (∀ s : DSpline K, s.dim = 6 → (runPoses solve ⟨s, rot⟩ cs).2.base.dim = 6) := by
  refine ⟨fun order s hc => ?_, fun s hs => ?_⟩
  · refine (run_keeps solve rot cs h6 s).imp_left fun h => ⟨h, fun t => ?_⟩
    unfold DSpline.create BSpline.create at hc
    split_ifs at hc with h0
    · obtain rfl := Outcome.ok.inj hc
      unfold eval evalD evalDNat computeUAndTIndex computeTIndex tMin
      rw [if_neg (by omega), if_pos (by
        show ([] : List K).length < minimumKnotsRequired order
        simp only [List.length_nil, minimumKnotsRequired, numKnotsRequired, numCoefficientsRequired]
        omega)]
      rfl
    · exact nomatch hc
  rcases run_keeps solve rot cs h6 s with h | h
  · show (DSpline.runCatching solve (cs.map (PoseCall.call rot)) s).2.dim = 6
    rw [h]; exact hs
  · exact h

/-- **C97**: poses are not added to a spline of another dimension. -/
theorem C97_add_rejected (solve : Solver K) (s : DPose K) (h : s.base.dim ≠ 6) (t : K) (T : Matrix (Fin 4) (Fin 4) K) (lambda : K)
    (junk : List K) :
    ((PoseCall.add t T junk).call s.rotation).run solve s.base = (.throws, s.base) ∧
    ((PoseCall.add2 t T lambda junk).call s.rotation).run solve s.base = (.throws, s.base) := by
  have hv : (curveValue s.rotation T).length = 6 := by simp [curveValue]
  constructor
  · refine DSpline.C95_rejected_partial solve _ s.base ?_ (by intro i v h; cases h)
    show ¬ (curveValue s.rotation T).length = s.base.dim
    rw [hv]
    exact fun h' => h h'.symm
  · refine DSpline.C95_rejected_partial solve _ s.base ?_ (by intro i v h; cases h)
    show ¬ (curveValue s.rotation T).length = s.base.dim
    rw [hv]
    exact fun h' => h h'.symm

/-! ### Other dimensions -/

/-- The first and the last three components of a vector. -/
def firstAndLast {D : ℕ} (h : 3 ≤ D) (c : Fin D → K) : Fin 6 → K := fun i =>
  if hi : (i : ℕ) < 3 then c ⟨i, by omega⟩ else c ⟨D - 3 + (i - 3), by omega⟩

/-- The spline of the first and the last three components. -/
def selected {D : ℕ} (h : 3 ≤ D) (b : BSpline K D) : BSpline K 6 := ⟨b.order, b.knots, b.coeffs.map (firstAndLast h), b.basis⟩

theorem headOf_sel {D : ℕ} (h : 3 ≤ D) (c : Fin D → K) : headOf c = .ok (head (firstAndLast h c)) := by
  unfold headOf head firstAndLast
  rw [dif_pos h]
  congr 1
  funext i
  rw [dif_pos i.2]

theorem tailOf_sel {D : ℕ} (h : 3 ≤ D) (c : Fin D → K) : tailOf c = .ok (tail (firstAndLast h c)) := by
  unfold tailOf tail firstAndLast
  rw [dif_pos h]
  rfl

theorem selected_col {D : ℕ} (h : 3 ≤ D) (b : BSpline K D) (j : ℕ) : (selected h b).col j = firstAndLast h (b.col j) := by
  unfold BSpline.col selected
  have hz : firstAndLast h (0 : Fin D → K) = 0 := by
    funext i
    unfold firstAndLast
    split_ifs <;> rfl
  simp only [List.getD_eq_getElem?_getD, List.getElem?_map]
  rcases b.coeffs[j]? with _ | c
  · simp [hz]
  · simp

theorem selected_blockMul {D : ℕ} (h : 3 ≤ D) (b : BSpline K D) (i : ℕ) (w : ℕ → K) :
    (selected h b).blockMul i w = firstAndLast h (b.blockMul i w) := by
  funext d
  show ∑ c ∈ Finset.range b.order, (selected h b).col (i + c) d * w c = _
  unfold firstAndLast BSpline.blockMul
  split_ifs with hd
  · refine Finset.sum_congr rfl fun c _ => ?_
    rw [selected_col]
    unfold firstAndLast
    rw [dif_pos hd]
  · refine Finset.sum_congr rfl fun c _ => ?_
    rw [selected_col]
    unfold firstAndLast
    rw [dif_neg hd]

theorem selected_evalD {D : ℕ} (h : 3 ≤ D) (b : BSpline K D) (t : K) (der : ℤ) :
    (selected h b).evalD t der = (b.evalD t der).map (firstAndLast h) := by
  have h1 : (selected h b).computeUAndTIndex t = b.computeUAndTIndex t := rfl
  have h2 : ∀ idx, (selected h b).blockAt idx = b.blockAt idx := by
    intro idx
    unfold BSpline.blockAt selected
    simp only [List.length_map]
  unfold BSpline.evalD BSpline.evalDNat
  rw [h1]
  split_ifs
  · rfl
  · rcases b.computeUAndTIndex t with ⟨u, idx⟩ | _ | _ <;> try rfl
    simp only [Outcome.bind, h2]
    rcases b.blockAt idx with ⟨i, B⟩ | _ | _ <;> try rfl
    simp only [Outcome.map, selected_blockMul]
    rfl

theorem jacobian_value {D : ℕ} (b : BSpline K D) (t : K) (der : ℤ) :
    (b.evalDAndJacobian t der).map (fun r => r.value) = b.evalD t der := by
  unfold BSpline.evalDAndJacobian BSpline.evalD BSpline.evalDNat
  split_ifs
  · rfl
  · rcases b.computeUAndTIndex t with ⟨u, idx⟩ | _ | _ <;> try rfl
    simp only [Outcome.bind]
    rcases b.blockAt idx with ⟨i, B⟩ | _ | _ <;> rfl

theorem views {D : ℕ} {b : BSpline K D} {t : K} {x : Fin D → K} (h : b.eval t = .ok x) (der : ℕ) :
    ∃ r : ValJac K D, b.evalDAndJacobian t der = .ok r ∧ b.evalD t der = .ok r.value := by
  have hr : ∃ r : ValJac K D, b.evalDAndJacobian t der = .ok r := by
    unfold BSpline.eval BSpline.evalD BSpline.evalDNat at h
    rw [if_neg (by omega)] at h
    unfold BSpline.evalDAndJacobian
    rw [if_neg (by omega)]
    rcases hu : b.computeUAndTIndex t with ⟨u, idx⟩ | _ | _ <;> rw [hu] at h <;> simp [Outcome.bind] at h
    rcases hb : b.blockAt idx with ⟨i, B⟩ | _ | _ <;> rw [hb] at h <;> simp at h
    simp only [Outcome.bind, hb]
    exact ⟨_, rfl⟩
  obtain ⟨r, hr⟩ := hr
  refine ⟨r, hr, ?_⟩
  rw [← jacobian_value, hr]
  rfl

theorem found_indices {D : ℕ} {b : BSpline K D} {t : K} {der : ℤ} {r : ValJac K D} (h : b.evalDAndJacobian t der = .ok r) :
    b.localCoefficientVectorIndices t = .ok r.indices := by
  obtain ⟨x, u, i, B, -, hT, -, h1, -, -, -, rfl⟩ := evalDAndJacobian_inv h
  unfold localCoefficientVectorIndices bidxOf
  rw [hT, Outcome.bind_ok]
  dsimp only
  rw [if_neg (by omega), Outcome.bind_ok]

/-- **C97** (what happens with three or more dimensions): without Jacobians the queries are those of the pose spline made of the first and the
last three components, which overlap in dimensions three to five and leave out the others in more than six. -/
theorem C97_selected {D : ℕ} (h : 3 ≤ D) (b : BSpline K D) (rot : Rotation K) (t : K) :
    let s : DPose K := ⟨⟨D, b⟩, rot⟩
    let p : Pose K := ⟨selected h b, rot⟩
    s.transformation t = p.transformation t ∧
    s.inverseTransformation t = p.inverseTransformation t ∧
    s.position t = p.position t ∧
    s.orientation t = p.orientation t ∧
    s.inverseOrientation t = p.inverseOrientation t ∧
    s.linear 1 t = p.linearVelocity t ∧
    s.linear 2 t = p.linearAcceleration t ∧
    s.linearBodyFrame 1 t = p.linearVelocityBodyFrame t ∧
    s.linearBodyFrame 2 t = p.linearAccelerationBodyFrame t ∧
    s.angularVelocity t = p.angularVelocity t ∧
    s.angularBodyFrame 1 t = p.angularVelocityBodyFrame t ∧
    s.angularBodyFrame 2 t = p.angularAccelerationBodyFrame t ∧
    (s.transformationAndJacobian false t).map (fun r => r.value) = p.transformation t ∧
    (s.orientationAndJacobian false t).map (fun r => r.value) = p.orientation t ∧
    (s.inverseOrientationAndJacobian false t).map (fun r => r.value) = p.inverseOrientation t ∧
    (s.inverseTransformationAndJacobian false t).map (fun r => r.value) = p.inverseTransformation t ∧
    (∀ J, (s.linearAccelerationAndJacobian J t).map (fun r => r.value) = p.linearAcceleration t) ∧
    (6 ≤ D → ∀ der, (s.angularAndJacobian false der t).map (fun r => r.value) =
      ((selected h b).evalD t 0).bind fun c => ((selected h b).evalD t der).map fun c' => rot.rate (tail c) (tail c')) := by
  have hT : ∀ c : Fin D → K, curveValueToTransformation rot c = .ok (Pose.curveValueToTransformation rot (firstAndLast h c)) := by
    intro c
    unfold curveValueToTransformation Pose.curveValueToTransformation
    rw [tailOf_sel h, headOf_sel h]
    rfl
  have hE : (selected h b).eval t = (b.eval t).map (firstAndLast h) := selected_evalD h b t 0
  have hE0 : b.eval t = (b.evalDAndJacobian t 0).map (fun r => r.value) := (jacobian_value b t 0).symm
  dsimp only
  refine ⟨?_, ?_, ?_, ?_, ?_, ?_, ?_, ?_, ?_, ?_, ?_, ?_, ?_, ?_, ?_, ?_, fun J => ?_, fun h6 der => ?_⟩
  · unfold transformation Pose.transformation
    dsimp only
    rw [hE]
    rcases b.eval t with r | _ | _ <;> simp [Outcome.bind, Outcome.map, hT]
  · unfold inverseTransformation Pose.inverseTransformation
    dsimp only
    rw [hE]
    rcases b.eval t with r | _ | _ <;> simp [Outcome.bind, Outcome.map, hT]
  · unfold position Pose.position
    dsimp only
    rw [hE]
    rcases b.eval t with r | _ | _ <;> simp [Outcome.bind, Outcome.map, headOf_sel h]
  · unfold orientation Pose.orientation
    dsimp only
    rw [hE]
    rcases b.eval t with r | _ | _ <;> simp [Outcome.bind, Outcome.map, tailOf_sel h]
  · unfold inverseOrientation Pose.inverseOrientation
    dsimp only
    rw [hE]
    rcases b.eval t with r | _ | _ <;> simp [Outcome.bind, Outcome.map, tailOf_sel h]
  · unfold linear Pose.linearVelocity
    dsimp only
    rw [selected_evalD]
    rcases b.evalD t 1 with r | _ | _ <;> simp [Outcome.bind, Outcome.map, headOf_sel h]
  · unfold linear Pose.linearAcceleration
    dsimp only
    rw [selected_evalD]
    rcases b.evalD t 2 with r | _ | _ <;> simp [Outcome.bind, Outcome.map, headOf_sel h]
  · unfold linearBodyFrame Pose.linearVelocityBodyFrame
    dsimp only
    rw [selected_evalD, selected_evalD]
    rcases b.evalD t 0 with r | _ | _ <;> rcases b.evalD t 1 with v | _ | _ <;>
      simp [Outcome.bind, Outcome.map, headOf_sel h, tailOf_sel h]
  · unfold linearBodyFrame Pose.linearAccelerationBodyFrame
    dsimp only
    rw [selected_evalD, selected_evalD]
    rcases b.evalD t 0 with r | _ | _ <;> rcases b.evalD t 2 with v | _ | _ <;>
      simp [Outcome.bind, Outcome.map, headOf_sel h, tailOf_sel h]
  · unfold angularVelocity Pose.angularVelocity
    dsimp only
    rw [selected_evalD, selected_evalD]
    rcases b.evalD t 0 with r | _ | _ <;> rcases b.evalD t 1 with v | _ | _ <;>
      simp [Outcome.bind, Outcome.map, headOf_sel h, tailOf_sel h]
  · unfold angularBodyFrame Pose.angularVelocityBodyFrame
    dsimp only
    rw [selected_evalD, selected_evalD]
    rcases b.evalD t 0 with r | _ | _ <;> rcases b.evalD t 1 with v | _ | _ <;>
      simp [Outcome.bind, Outcome.map, headOf_sel h, tailOf_sel h]
  · unfold angularBodyFrame Pose.angularAccelerationBodyFrame
    dsimp only
    rw [selected_evalD, selected_evalD]
    rcases b.evalD t 0 with r | _ | _ <;> rcases b.evalD t 2 with v | _ | _ <;>
      simp [Outcome.bind, Outcome.map, headOf_sel h, tailOf_sel h]
  · unfold transformationAndJacobian Pose.transformation curveValueToTransformationAndJacobian Pose.curveValueToTransformation
    dsimp only
    rw [hE, hE0]
    rcases b.evalDAndJacobian t 0 with r | _ | _ <;>
      simp [Outcome.bind, Outcome.map, headOf_sel h, tailOf_sel h, ifRequested]
  · unfold orientationAndJacobian Pose.orientation
    dsimp only
    rw [hE, hE0]
    rcases b.evalDAndJacobian t 0 with r | _ | _ <;>
      simp [Outcome.bind, Outcome.map, headOf_sel h, tailOf_sel h, ifRequested]
  · unfold inverseOrientationAndJacobian Pose.inverseOrientation
    dsimp only
    rw [hE, hE0]
    rcases b.evalDAndJacobian t 0 with r | _ | _ <;>
      simp [Outcome.bind, Outcome.map, headOf_sel h, tailOf_sel h, ifRequested]
  · unfold inverseTransformationAndJacobian Pose.inverseTransformation curveValueToTransformationAndJacobian Pose.curveValueToTransformation
    dsimp only
    rw [hE, hE0]
    rcases hr : b.evalDAndJacobian t 0 with r | _ | _
    · simp [Outcome.bind, Outcome.map, headOf_sel h, tailOf_sel h, ifRequested, found_indices hr]
    · rfl
    · rfl
  · unfold linearAccelerationAndJacobian Pose.linearAcceleration
    dsimp only
    rw [selected_evalD, ← jacobian_value]
    rcases b.evalDAndJacobian t 2 with r | _ | _ <;>
      simp [Outcome.bind, Outcome.map, headOf_sel h, tailOf_sel h, ifRequested]
  · unfold angularAndJacobian
    dsimp only
    rw [selected_evalD, selected_evalD, ← jacobian_value, ← jacobian_value]
    rcases b.evalDAndJacobian t 0 with r | _ | _ <;> try rfl
    rcases b.evalDAndJacobian t der with r1 | _ | _ <;>
      simp [Outcome.bind, Outcome.map, tailOf_sel h, ifRequested, stackOf, h6]

theorem headOf_small {D : ℕ} (h : D < 3) (c : Fin D → K) : headOf c = .ub := dif_neg (by omega)

theorem tailOf_small {D : ℕ} (h : D < 3) (c : Fin D → K) : tailOf c = .ub := dif_neg (by omega)

/-- **C97** (what happens with fewer than three dimensions): at every time of the spline every query reads outside of the curve value. -/
theorem C97_small (s : DPose K) (h : s.base.dim < 3) (t : K) (x : Fin s.base.dim → K) (hx : s.base.spline.eval t = .ok x) (J : Bool)
    (v : Fin 4 → K) (der : ℕ) :
    s.transformation t = .ub ∧ s.transformationAndJacobian J t = .ub ∧ s.orientationAndJacobian J t = .ub ∧
    s.inverseOrientationAndJacobian J t = .ub ∧ s.inverseTransformationAndJacobian J t = .ub ∧ s.inverseTransformation t = .ub ∧
    s.transformVectorAndJacobian J t v = .ub ∧ s.position t = .ub ∧ s.orientation t = .ub ∧ s.inverseOrientation t = .ub ∧
    s.linear der t = .ub ∧ s.linearBodyFrame der t = .ub ∧ s.linearAccelerationAndJacobian J t = .ub ∧ s.angularVelocity t = .ub ∧
    s.angularBodyFrame der t = .ub ∧ s.angularBodyFrameAndJacobian J der t = .ub ∧ s.angularAndJacobian J der t = .ub := by
  obtain ⟨r0, j0, e0⟩ := views hx 0
  obtain ⟨r1, j1, e1⟩ := views hx 1
  obtain ⟨r2, j2, e2⟩ := views hx 2
  obtain ⟨rd, jd, ed⟩ := views hx der
  simp only [Nat.cast_zero, Nat.cast_one, Nat.cast_ofNat] at j0 e0 j1 e1 j2 e2
  have hh := fun c : Fin s.base.dim → K => headOf_small h c
  have ht := fun c : Fin s.base.dim → K => tailOf_small h c
  refine ⟨?_, ?_, ?_, ?_, ?_, ?_, ?_, ?_, ?_, ?_, ?_, ?_, ?_, ?_, ?_, ?_, ?_⟩
  · simp [transformation, curveValueToTransformation, hx, Outcome.bind, ht]
  · simp [transformationAndJacobian, curveValueToTransformationAndJacobian, j0, Outcome.bind, ht]
  · simp [orientationAndJacobian, j0, Outcome.bind, ht]
  · simp [inverseOrientationAndJacobian, j0, Outcome.bind, ht]
  · simp [inverseTransformationAndJacobian, curveValueToTransformationAndJacobian, j0, Outcome.bind, ht]
  · simp [inverseTransformation, curveValueToTransformation, hx, Outcome.bind, ht, Outcome.map]
  · simp [transformVectorAndJacobian, transformationAndJacobian, curveValueToTransformationAndJacobian, j0, Outcome.bind, ht]
  · simp [position, hx, Outcome.bind, hh]
  · simp [orientation, hx, Outcome.bind, ht, Outcome.map]
  · simp [inverseOrientation, hx, Outcome.bind, ht, Outcome.map]
  · simp [linear, ed, Outcome.bind, hh]
  · simp [linearBodyFrame, e0, Outcome.bind, ht]
  · simp [linearAccelerationAndJacobian, j2, Outcome.bind, hh, Outcome.map]
  · simp [angularVelocity, e0, e1, Outcome.bind, ht]
  · simp [angularBodyFrame, e0, ed, Outcome.bind, ht]
  · simp [angularBodyFrameAndJacobian, j0, Outcome.bind, ht]
  · simp [angularAndJacobian, j0, Outcome.bind, ht]

/-- **C97** (what happens to the Jacobians if the dimension is not six): at every time of the spline a query that needs one multiplies matrices
of sizes that do not match, whether or not the caller wants it in the case of `transformVectorAndJacobian` and of the body frame rates. -/
theorem C97_jacobian (s : DPose K) (h : s.base.dim ≠ 6) (t : K) (x : Fin s.base.dim → K) (hx : s.base.spline.eval t = .ok x) (J : Bool)
    (v : Fin 4 → K) (der : ℕ) :
    s.transformationAndJacobian true t = .ub ∧ s.orientationAndJacobian true t = .ub ∧ s.inverseOrientationAndJacobian true t = .ub ∧
    s.inverseTransformationAndJacobian true t = .ub ∧ s.transformVectorAndJacobian J t v = .ub ∧
    s.angularBodyFrameAndJacobian J der t = .ub ∧ s.angularAndJacobian true der t = .ub := by
  obtain ⟨r0, j0, e0⟩ := views hx 0
  obtain ⟨rd, jd, ed⟩ := views hx der
  simp only [Nat.cast_zero] at j0 e0
  by_cases h3 : s.base.dim < 3
  · obtain ⟨-, h1, h2, h3, h4, -, h5, -, -, -, -, -, -, -, -, h6, h7⟩ := C97_small s h3 t x hx true v der
    obtain ⟨-, -, -, -, -, -, h5', -, -, -, -, -, -, -, -, h6', -⟩ := C97_small s ‹_› t x hx J v der
    exact ⟨h1, h2, h3, h4, h5', h6', h7⟩
  · have h3 : 3 ≤ s.base.dim := by omega
    have hh := fun c : Fin s.base.dim → K => headOf_sel h3 c
    have ht := fun c : Fin s.base.dim → K => tailOf_sel h3 c
    have hm : ∀ (m : ℕ) (A : Matrix (Fin m) (Fin 6) K) (B : Mat K), timesJac s.base.dim A B = .ub := fun m A B => if_neg h
    refine ⟨?_, ?_, ?_, ?_, ?_, ?_, ?_⟩
    · simp [transformationAndJacobian, curveValueToTransformationAndJacobian, j0, Outcome.bind, ht, hh, hm, ifRequested, Outcome.map]
    · simp [orientationAndJacobian, j0, Outcome.bind, ht, hm, ifRequested, Outcome.map]
    · simp [inverseOrientationAndJacobian, j0, Outcome.bind, ht, hm, ifRequested, Outcome.map]
    · simp [inverseTransformationAndJacobian, curveValueToTransformationAndJacobian, j0, Outcome.bind, ht, hh, hm, ifRequested, Outcome.map]
    · simp [transformVectorAndJacobian, transformationAndJacobian, curveValueToTransformationAndJacobian, j0, Outcome.bind, ht, hh, hm,
        ifRequested, Outcome.map]
    · simp [angularBodyFrameAndJacobian, inverseOrientationAndJacobian, j0, jd, Outcome.bind, ht, hm, ifRequested, Outcome.map]
    · unfold angularAndJacobian
      simp only [j0, jd, Outcome.bind, ht]
      unfold stackOf
      split_ifs
      · simp [hm, ifRequested, Outcome.map]
      · rfl

/-! ### Witnesses -/

/-- A stand-in for a rotation parametrisation: diagonal matrices. -/
def diagonal : Rotation ℚ := ⟨fun p i j => if i = j then p i else 0, fun _ => 1, fun R i => R i i, fun _ v => v, fun _ _ => 0⟩

/-- A pose spline whose base class was given a constant of some dimension between 0 and 1. -/
def constantPose (c : List ℚ) : Outcome (DPose ℚ) :=
  (DSpline.create (K := ℚ) 2).bind fun s => (s.initConstantSpline 0 1 1 c).map fun s => ⟨s, diagonal⟩

/-- **C97** is violated: the base class takes points of any dimension.  With two components the position is undefined behaviour.  With four
the second number is both a coordinate of the position and a rotation parameter, and the Jacobian is undefined behaviour. -/
theorem C97_violated :
    ((constantPose [5, 7]).bind fun s => s.position (1 / 2)) = .ub ∧
    ((constantPose [1, 2, 3, 4]).bind fun s => s.position (1 / 2)) = .ok ![1, 2, 3] ∧
    ((constantPose [1, 2, 3, 4]).bind fun s => s.orientation (1 / 2)) = .ok !![2, 0, 0; 0, 3, 0; 0, 0, 4] ∧
    ((constantPose [1, 2, 3, 4]).bind fun s => (s.transformationAndJacobian true (1 / 2)).map fun _ => ()) = .ub := by
  refine ⟨?_, ?_, ?_, ?_⟩ <;> decide +kernel

/-- A pose spline of order two that was fitted, between 0 and 1, to two points of two numbers with `initPoseSplineSparseKnots`. -/
def flatPose : Outcome (Outcome Unit × DPose ℚ) :=
  (DSpline.create (K := ℚ) 2).map fun s =>
    runPoses (fun _ A b q => b q / A q q) ⟨s, diagonal⟩ [.initSparseKnots [0, 1] ⟨2, 2, fun i j => if i = j then 1 else 0⟩ [-1, 0, 1, 2] 0]

/-- **C97** is violated also for calls through poses: `initPoseSplineSparseKnots` takes points of any number of rows. -/
theorem C97_knots_violated :
    (flatPose.map fun r => (r.1, r.2.base.dim)) = .ok (.ok (), 2) ∧
    (flatPose.bind fun r => (r.2.base.spline.eval (1 / 2)).map List.ofFn) = .ok [1 / 2, 1 / 2] ∧
    (flatPose.bind fun r => r.2.position (1 / 2)) = .ub ∧ (flatPose.bind fun r => r.2.orientation (1 / 2)) = .ub := by
  refine ⟨?_, ?_, ?_, ?_⟩ <;> decide +kernel

/-- The hypothesis of `C97_programs_partial`: a pose spline fitted to two points of six numbers. -/
example : (PoseCall.initSparseKnots (K := ℚ) [0, 1] ⟨6, 2, fun i j => i + j⟩ [-1, 0, 1, 2] 0).Six := rfl

/-- The hypothesis of `C97_jacobian` holds. -/
example : ((constantPose [1, 2, 3, 4]).bind fun s => (s.base.spline.eval (1 / 2)).map List.ofFn) = .ok [1, 2, 3, 4] := by decide +kernel

/-- With six components all is as in `Model/Pose`. -/
example : ((constantPose [1, 2, 3, 4, 5, 6]).bind fun s => s.orientation (1 / 2)) = .ok !![4, 0, 0; 0, 5, 0; 0, 0, 6] := by
  decide +kernel

end DPose
end Verif
