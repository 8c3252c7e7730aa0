import Verif.Props.PoseJacobian

/-!
# A concrete pose spline of order 3 with one segment, evaluated in closed form (used as witness)
-/

namespace Verif

open BSpline

namespace Pose

/-- Order 3, knots 0 … 5, one valid segment `[2, 3]`. -/
noncomputable def demo (c0 c1 c2 : Fin 6 → ℝ) : BSpline ℝ 6 :=
  initializeBasisMatrices ⟨3, [0, 1, 2, 3, 4, 5], [c0, c1, c2], []⟩

theorem demo_wf (c0 c1 c2 : Fin 6 → ℝ) : (demo c0 c1 c2).WF :=
  initializeBasisMatrices_wf _ (by simp) (by norm_num) (by simp) (by simp)

theorem demo_seg (c0 c1 c2 : Fin 6 → ℝ) : (demo c0 c1 c2).timeIntervalOf 0 = .ok (2, 3) := rfl

theorem demo_wide (c0 c1 c2 : Fin 6 → ℝ) : (demo c0 c1 c2).WideLast := by
  intro a b hab
  have : (demo c0 c1 c2).timeIntervalOf (((demo c0 c1 c2).numValidTimeSegments : ℤ) - 1) = .ok (2, 3) := rfl
  rw [this] at hab
  obtain ⟨rfl, rfl⟩ := Prod.mk.inj (Outcome.ok.inj hab)
  norm_num

theorem demo_index (c0 c1 c2 : Fin 6 → ℝ) (t : ℝ) (h1 : 2 ≤ t) (h2 : t < 3) :
    (demo c0 c1 c2).computeTIndex t = .ok (1, 2) := by
  have e1 : (demo c0 c1 c2).tMin = .ok 2 := rfl
  have e2 : (demo c0 c1 c2).tMax = .ok 3 := rfl
  have e3 : (demo c0 c1 c2).knots = [0, 1, 2, 3, 4, 5] := rfl
  have e4 : (demo c0 c1 c2).order = 3 := rfl
  unfold computeTIndex
  rw [e1, e2]
  simp only [Outcome.bind_ok, e3, e4]
  rw [if_neg (by linarith)]
  have hub : upperBound [(0 : ℝ), 1, 2, 3, 4, 5] t = 3 := by
    simp only [upperBound, List.findIdx_cons]
    rw [decide_eq_false (by linarith), decide_eq_false (by linarith), decide_eq_false (by linarith),
      decide_eq_true (by linarith)]
    rfl
  by_cases h : |3 - t| < snapTol
  · simp [h]; norm_num
  · simp only [h, if_false, if_neg (not_lt.2 h2.le), if_neg h2.ne, hub]
    norm_num

theorem demo_evalD (c0 c1 c2 : Fin 6 → ℝ) (t : ℝ) (h1 : 2 ≤ t) (h2 : t < 3) :
    (demo c0 c1 c2).evalD t 0 = .ok (fun d => c0 d * ((3 - t) ^ 2 / 2) + c1 d * (1 / 2 + (t - 2) - (t - 2) ^ 2)
      + c2 d * ((t - 2) ^ 2 / 2)) ∧
    (demo c0 c1 c2).evalD t 1 = .ok (fun d => (c1 d - c0 d) * (3 - t) + (c2 d - c1 d) * (t - 2)) ∧
    (demo c0 c1 c2).evalD t 2 = .ok (fun d => c0 d - 2 * c1 d + c2 d) := by
  have hU : (demo c0 c1 c2).computeUAndTIndex t = .ok (t - 2, 2) := by
    unfold computeUAndTIndex
    rw [demo_index c0 c1 c2 t h1 h2]
    norm_num [demo, initializeBasisMatrices, kn]
  have hb : (demo c0 c1 c2).blockAt 2 = .ok (0, basisM (demo c0 c1 c2).kn 2 3) := rfl
  have k1 : (demo c0 c1 c2).kn 1 = 1 := rfl
  have k2 : (demo c0 c1 c2).kn 2 = 2 := rfl
  have k3 : (demo c0 c1 c2).kn 3 = 3 := rfl
  have k4 : (demo c0 c1 c2).kn 4 = 4 := rfl
  have o : (demo c0 c1 c2).order = 3 := rfl
  have v0 : (demo c0 c1 c2).col 0 = c0 := rfl
  have v1 : (demo c0 c1 c2).col 1 = c1 := rfl
  have v2 : (demo c0 c1 c2).col 2 = c2 := rfl
  refine ⟨?_, ?_, ?_⟩
  all_goals
    unfold evalD evalDNat
    rw [hU, if_neg (by norm_num)]
    simp only [Outcome.bind_ok, hb, o]
    congr 1
    ext d
    simp [blockMul, transposeMul, computeU, basisM, matA, matB, d0, d1, Finset.sum_range_succ, o, v0, v1, v2, k1, k2, k3,
      k4, dmul]
    norm_num
    try ring

end Pose
end Verif
