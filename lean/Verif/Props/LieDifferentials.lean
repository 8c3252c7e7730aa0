import Verif.Model.LieDifferentials
import Verif.Props.OptUpdate
import Verif.Props.QuaternionJacobian

/-!
# C77: differentials of exponential, logarithm and minimal difference
-/

set_option linter.unusedSectionVars false

namespace Verif

open Quaternion MSpline Filter Topology

section General
variable {P V : Type*} [NormedAddCommGroup P] [NormedSpace ℝ P] [NormedAddCommGroup V] [NormedSpace ℝ V]
variable {G : LieGrp P V} {d : LieDiff P V} {H : Set P}

/-- What the matrices a concrete group supplies have to be: the derivatives of the product in either argument and of the exponential. -/
structure IsDiff (G : LieGrp P V) (d : LieDiff P V) : Prop where
  left : ∀ m x, HasFDerivAt (fun y => G.mult m y) (d.dMultL m false) x
  right : ∀ m x, HasFDerivAt (fun y => G.mult y m) (d.dMultL m true) x
  exp : ∀ v, HasFDerivAt G.expAtId (d.dexpAtId v) v
  exp_zero : G.expAtId 0 = G.identity

/-- C77: `dexp(p, v)` is the derivative of `exp(p, ·)` at `v`. -/
theorem C77_dexp (hd : IsDiff G d) (p : P) (v : V) : HasFDerivAt (fun u => G.exp p u) (d.dexp p v) v :=
  (hd.left p (G.expAtId v)).comp v (hd.exp v)

/-- C77: `dlog(a, b)` is the derivative of `log(a, ·)` at `b` along the manifold, wherever the matrix of the logarithm at the identity is
one. -/
theorem C77_dlog (hG : IsGroupOn G H) (hd : IsDiff G d) {a b : P} (ha : a ∈ H) (_hb : b ∈ H)
    (hl : HasFDerivWithinAt G.logAtId (d.dlogAtId (G.mult (G.invert a) b)) H (G.mult (G.invert a) b)) :
    HasFDerivWithinAt (fun x => G.log a x) (d.dlog G a b) H b :=
  hl.comp b (hd.left (G.invert a) b).hasFDerivWithinAt (fun _ hx => hG.mul_mem (hG.inv_mem ha) hx)

/-- C77: the two differentials undo each other wherever the logarithm undoes the exponential. -/
theorem C77_inverse (hG : IsGroupOn G H) (hd : IsDiff G d) {a : P} (ha : a ∈ H) (v : V)
    (hl : HasFDerivWithinAt G.logAtId (d.dlogAtId (G.expAtId v)) H (G.expAtId v))
    (hle : ∀ᶠ u in 𝓝 v, G.logAtId (G.expAtId u) = u) :
    (d.dlog G a (G.exp a v)).comp (d.dexp a v) = ContinuousLinearMap.id ℝ V := by
  have hcancel : ∀ u, G.mult (G.invert a) (G.exp a u) = G.expAtId u := by
    intro u
    show G.mult (G.invert a) (G.mult a (G.expAtId u)) = _
    rw [← hG.assoc (hG.inv_mem ha) ha (hG.exp_mem u), hG.inv_mul ha, hG.one_mul (hG.exp_mem u)]
  have hmem : ∀ u, G.exp a u ∈ H := fun u => hG.mul_mem ha (hG.exp_mem u)
  have h1 : HasFDerivAt (fun u => G.log a (G.exp a u)) ((d.dlog G a (G.exp a v)).comp (d.dexp a v)) v := by
    refine HasFDerivWithinAt.comp_hasFDerivAt (t := H) (g := fun x => G.log a x) v ?_ (C77_dexp hd a v) (Eventually.of_forall hmem)
    exact C77_dlog hG hd ha (hmem v) (by rw [hcancel]; exact hl)
  have h2 : HasFDerivAt (fun u => G.log a (G.exp a u)) (ContinuousLinearMap.id ℝ V) v := by
    refine (hasFDerivAt_id v).congr_of_eventuallyEq ?_
    filter_upwards [hle] with u hu
    show G.logAtId (G.mult (G.invert a) (G.exp a u)) = u
    rw [hcancel, hu]
  exact h1.unique h2

theorem difference_update (hG : IsGroupOn G H) (hp : ∀ x ∈ H, G.project x = x) {xHat x : P} (hxh : xHat ∈ H) (hx : x ∈ H) (v : V) :
    G.minimalDifference xHat (G.update x v) = G.logAtId (G.mult (G.expAtId v) (G.mult x (G.invert xHat))) := by
  unfold LieGrp.minimalDifference LieGrp.update
  rw [hp _ (hG.mul_mem (hG.exp_mem v) hx), hG.assoc (hG.exp_mem v) hx (hG.inv_mem hxh)]

/-- C77: the matrix that comes with the minimal difference is its derivative with respect to an update of the vertex. -/
theorem C77_difference_jacobian (hG : IsGroupOn G H) (hd : IsDiff G d) (hp : ∀ x ∈ H, G.project x = x) {xHat x : P} (hxh : xHat ∈ H)
    (hx : x ∈ H) (hl : HasFDerivWithinAt G.logAtId (d.dlogAtId (G.mult x (G.invert xHat))) H (G.mult x (G.invert xHat))) :
    (d.minimalDifferenceAndJacobian G xHat x).1 = G.minimalDifference xHat x ∧
    HasFDerivAt (fun v => G.minimalDifference xHat (G.update x v)) (d.minimalDifferenceAndJacobian G xHat x).2 0 := by
  refine ⟨rfl, ?_⟩
  have hq : G.mult x (G.invert xHat) ∈ H := hG.mul_mem hx (hG.inv_mem hxh)
  have e : (fun v => G.minimalDifference xHat (G.update x v)) =
      fun v => G.logAtId (G.mult (G.expAtId v) (G.mult x (G.invert xHat))) := funext fun v => difference_update hG hp hxh hx v
  rw [e]
  have h1 : HasFDerivAt (fun v => G.mult (G.expAtId v) (G.mult x (G.invert xHat)))
      ((d.dMultL (G.mult x (G.invert xHat)) true).comp (d.dexpAtId 0)) 0 := (hd.right _ (G.expAtId 0)).comp 0 (hd.exp 0)
  have h0 : G.mult (G.expAtId 0) (G.mult x (G.invert xHat)) = G.mult x (G.invert xHat) := by rw [hd.exp_zero, hG.one_mul hq]
  refine HasFDerivWithinAt.comp_hasFDerivAt (t := H) (g := G.logAtId) 0 ?_ h1 (Eventually.of_forall fun v => hG.mul_mem (hG.exp_mem v) hq)
  rw [h0]
  exact hl

/-- C77: at the reference point itself the difference is zero and the matrix is the identity. -/
theorem C77_at_reference (hG : IsGroupOn G H) (hd : IsDiff G d) (hp : ∀ x ∈ H, G.project x = x) {x : P} (hx : x ∈ H)
    (hl : HasFDerivWithinAt G.logAtId (d.dlogAtId G.identity) H G.identity) (hle : ∀ᶠ u in 𝓝 (0 : V), G.logAtId (G.expAtId u) = u) :
    d.minimalDifferenceAndJacobian G x x = (0, ContinuousLinearMap.id ℝ V) := by
  have hi := hG.mul_inv hx
  have h := C77_difference_jacobian hG hd hp hx hx (by rw [hi]; exact hl)
  have h0 : G.minimalDifference x x = 0 := by
    unfold LieGrp.minimalDifference
    rw [hi, ← hd.exp_zero]
    exact hle.self_of_nhds
  refine Prod.ext (h.1.trans h0) (h.2.unique ?_)
  refine (hasFDerivAt_id (0 : V)).congr_of_eventuallyEq ?_
  filter_upwards [hle] with u hu
  rw [difference_update hG hp hx hx, hi, hG.mul_one (hG.exp_mem u), hu]
  rfl

/-- C77: a reference of the wrong size raises an exception in both calls; otherwise both give the difference from the point it holds. -/
theorem C77_sizes (G : LieGrp P V) (d : LieDiff P V) (n : ℕ) (asPoint : (ℕ → ℝ) → P) (m : DynMat) (x : P) :
    (¬(m.rows = n ∧ m.cols = 1) → minimalDifferenceChecked G n asPoint m x = .throws ∧
      d.minimalDifferenceAndJacobianChecked G n asPoint m x = .throws) ∧
    (m.rows = n ∧ m.cols = 1 → minimalDifferenceChecked G n asPoint m x = .ok (G.minimalDifference (asPoint fun i => m.entry i 0) x) ∧
      (d.minimalDifferenceAndJacobianChecked G n asPoint m x).map Prod.fst =
        .ok (G.minimalDifference (asPoint fun i => m.entry i 0) x)) := by
  unfold minimalDifferenceChecked LieDiff.minimalDifferenceAndJacobianChecked
  refine ⟨fun h => ?_, fun h => ?_⟩
  · rw [if_pos h, if_pos h]
    exact ⟨rfl, rfl⟩
  · rw [if_neg (not_not.2 h), if_neg (not_not.2 h)]
    exact ⟨rfl, rfl⟩

end General

/-! ### Euclidean spaces -/

theorem identityMat_eq (D : ℕ) : identityMat D D = 1 := by
  funext i j
  rw [Matrix.one_apply]
  unfold identityMat
  simp only [Fin.ext_iff]

theorem identity_map (D : ℕ) : LinearMap.toContinuousLinearMap (Matrix.toLin' (identityMat D D)) = ContinuousLinearMap.id ℝ (Fin D → ℝ) := by
  rw [identityMat_eq, Matrix.toLin'_one]
  rfl

theorem euclidean_isDiff (D : ℕ) : IsDiff (euclideanGroup D ℝ) (euclideanDiff D) where
  left m x := by
    show HasFDerivAt (fun y => m + y) (LinearMap.toContinuousLinearMap (Matrix.toLin' (identityMat D D))) x
    rw [identity_map]
    exact (hasFDerivAt_id x).const_add m
  right m x := by
    show HasFDerivAt (fun y => y + m) (LinearMap.toContinuousLinearMap (Matrix.toLin' (identityMat D D))) x
    rw [identity_map]
    exact (hasFDerivAt_id x).add_const m
  exp v := by
    show HasFDerivAt (fun y => y) (LinearMap.toContinuousLinearMap (Matrix.toLin' (identityMat D D))) v
    rw [identity_map]
    exact hasFDerivAt_id v
  exp_zero := rfl

/-- C77 in Euclidean spaces: all differentials are identities, as they should be. -/
theorem C77_euclidean (D : ℕ) (a b v : Fin D → ℝ) :
    HasFDerivAt (fun u => (euclideanGroup D ℝ).exp a u) (euclideanDexp D a v) v ∧
    HasFDerivAt (fun x => (euclideanGroup D ℝ).log a x) (euclideanDlog D a b) b ∧
    HasFDerivAt (fun u => (euclideanGroup D ℝ).minimalDifference a ((euclideanGroup D ℝ).update b u))
      ((euclideanDiff D).minimalDifferenceAndJacobian (euclideanGroup D ℝ) a b).2 0 := by
  have e1 : (euclideanDiff D).dexp a v = euclideanDexp D a v := by
    unfold LieDiff.dexp LieDiff.dCanonicalMult euclideanDiff euclideanDexp
    simp only [identity_map]
    rfl
  have e2 : (euclideanDiff D).dlog (euclideanGroup D ℝ) a b = euclideanDlog D a b := by
    unfold LieDiff.dlog LieDiff.dCanonicalMult euclideanDiff euclideanDlog
    simp only [identity_map]
    rfl
  have hl : ∀ q, HasFDerivWithinAt (euclideanGroup D ℝ).logAtId ((euclideanDiff D).dlogAtId q) Set.univ q := by
    intro q
    show HasFDerivWithinAt (fun y => y) (LinearMap.toContinuousLinearMap (Matrix.toLin' (identityMat D D))) Set.univ q
    rw [identity_map]
    exact (hasFDerivAt_id q).hasFDerivWithinAt
  refine ⟨e1 ▸ C77_dexp (euclidean_isDiff D) a v, ?_, ?_⟩
  · rw [← e2, ← hasFDerivWithinAt_univ]
    exact C77_dlog (euclidean_group D ℝ) (euclidean_isDiff D) trivial trivial (hl _)
  · exact (C77_difference_jacobian (euclidean_group D ℝ) (euclidean_isDiff D) (fun _ _ => rfl) trivial trivial (hl _)).2

/-! ### Unit quaternions -/

theorem axisAngle2quat_zero : axisAngle2quat 0 = 1 := by
  rw [axisAngle2quat_eq]
  have : quatV 0 = 0 := by ext <;> simp [quatV]
  rw [this, NormedSpace.exp_zero]

theorem quat_isDiff (lg : ℍ[ℝ] → V3) (E : V3 → V3 →L[ℝ] ℍ[ℝ]) (L : ℍ[ℝ] → ℍ[ℝ] →L[ℝ] V3)
    (hE : ∀ v, HasFDerivAt axisAngle2quat (E v) v) : IsDiff (quatGroup lg) (quatDiff E L) where
  left m _ := (quatDMultL m false).hasFDerivAt
  right m _ := (quatDMultL m true).hasFDerivAt
  exp v := hE v
  exp_zero := axisAngle2quat_zero

/-- C77 for unit quaternions: given that `quatExpJacobian` is the derivative of the exponential and `quatLogJacobian2` that of the logarithm
along unit quaternions, the exponential from `a`, the logarithm from `a` to `b` and the minimal difference under updates have the
matrices returned as derivatives. -/
theorem C77_quaternion (lg : ℍ[ℝ] → V3) (E : V3 → V3 →L[ℝ] ℍ[ℝ]) (L : ℍ[ℝ] → ℍ[ℝ] →L[ℝ] V3)
    (hE : ∀ v, HasFDerivAt axisAngle2quat (E v) v) (a b : ℍ[ℝ]) (ha : ‖a‖ = 1) (hb : ‖b‖ = 1) (v : V3)
    (hl : HasFDerivWithinAt lg (L (qplus (quatInv a) b)) {q | ‖q‖ = 1} (qplus (quatInv a) b))
    (hl' : HasFDerivWithinAt lg (L (qplus b (quatInv a))) {q | ‖q‖ = 1} (qplus b (quatInv a))) :
    HasFDerivAt (fun u => qplus a (axisAngle2quat u)) ((quatDiff E L).dexp a v) v ∧
    HasFDerivWithinAt (fun x => lg (qplus (quatInv a) x)) ((quatDiff E L).dlog (quatGroup lg) a b) {q | ‖q‖ = 1} b ∧
    HasFDerivAt (fun u => lg (qplus ((quatGroup lg).update b u) (quatInv a)))
      ((quatDiff E L).minimalDifferenceAndJacobian (quatGroup lg) a b).2 0 := by
  have hd := quat_isDiff lg E L hE
  have hproj : ∀ x ∈ {q : ℍ[ℝ] | ‖q‖ = 1}, (quatGroup lg).project x = x := by
    intro x hx
    have hx : ‖x‖ = 1 := hx
    change (‖x‖)⁻¹ • x = x
    rw [hx]; simp
  exact ⟨C77_dexp hd a v, C77_dlog (quat_group lg) hd (H := {q | ‖q‖ = 1}) ha hb hl,
    (C77_difference_jacobian (quat_group lg) hd (H := {q | ‖q‖ = 1}) hproj ha hb hl').2⟩

/-! ### The hypotheses can be met -/

/-- The derivative of the exponential. -/
noncomputable def expJac (v : V3) : V3 →L[ℝ] ℍ[ℝ] := fderiv ℝ axisAngle2quat v

theorem expJac_hasFDerivAt (v : V3) : HasFDerivAt axisAngle2quat (expJac v) v := by
  refine DifferentiableAt.hasFDerivAt ?_
  have e : axisAngle2quat = fun u => NormedSpace.exp (quatVL u) := by
    funext u
    rw [axisAngle2quat_eq]
    rfl
  rw [e]
  exact (exp_differentiable (quatVL v)).comp v (LinearMap.toContinuousLinearMap quatVL).differentiableAt

/-- The vector part, as a linear map. -/
noncomputable def qepsL : ℍ[ℝ] →L[ℝ] V3 := LinearMap.toContinuousLinearMap
  { toFun := qeps
    map_add' := fun a b => by funext i; fin_cases i <;> simp [qeps]
    map_smul' := fun c a => by funext i; fin_cases i <;> simp [qeps] }

theorem norm_le_norm3 (v : V3) : ‖v‖ ≤ norm3 v := by
  have hn : 0 ≤ norm3 v := Real.sqrt_nonneg _
  rw [pi_norm_le_iff_of_nonneg hn]
  intro i
  refine abs_le_of_sq_le_sq ?_ hn
  rw [norm3_sq]
  fin_cases i <;> simp <;> nlinarith [sq_nonneg (v 0), sq_nonneg (v 1), sq_nonneg (v 2)]

theorem norm3_qeps_sq (q : ℍ[ℝ]) : norm3 (qeps q) ^ 2 = ‖q‖ ^ 2 - q.re ^ 2 := by
  rw [norm3_sq, pow_two ‖q‖, ← Quaternion.normSq_eq_norm_mul_self, Quaternion.normSq_def']
  simp [qeps]
  ring

theorem norm3_qeps_unit {q : ℍ[ℝ]} (hq : ‖q‖ = 1) : norm3 (qeps q) = Real.sin (Real.arccos q.re) := by
  rw [Real.sin_arccos, show 1 - q.re ^ 2 = norm3 (qeps q) ^ 2 by rw [norm3_qeps_sq, hq]; ring, Real.sqrt_sq (show 0 ≤ norm3 (qeps q) from Real.sqrt_nonneg _)]

/-- The logarithm has the derivative `2 qeps` at the identity, along unit quaternions. -/
theorem quatLog_deriv_one : HasFDerivWithinAt quatLog ((2 : ℝ) • qepsL) {q | ‖q‖ = 1} 1 := by
  have hzero : quatLog 1 = 0 := by
    unfold quatLog
    simp
  have h1 : (fun θ : ℝ => Real.sin θ - θ) =o[𝓝 0] fun θ => θ := by
    have := (hasDerivAt_iff_isLittleO.1 (Real.hasDerivAt_sin 0))
    simpa using this
  have h2 : (fun θ : ℝ => θ) =O[𝓝 0] fun θ => Real.sin θ := by
    have : Asymptotics.IsEquivalent (𝓝 0) (fun θ : ℝ => Real.sin θ) fun θ => θ := h1
    exact this.symm.isBigO
  have h3 : (fun θ : ℝ => Real.sin θ - θ) =o[𝓝 0] fun θ => Real.sin θ := h1.trans_isBigO h2
  have hac : Tendsto (fun q : ℍ[ℝ] => Real.arccos q.re) (𝓝 1) (𝓝 0) := by
    have : ContinuousAt (fun q : ℍ[ℝ] => Real.arccos q.re) 1 :=
      Real.continuous_arccos.continuousAt.comp (LinearMap.toContinuousLinearMap reL).continuous.continuousAt
    have h := this.tendsto
    simpa using h
  have h4 := h3.comp_tendsto (hac.mono_left (nhdsWithin_le_nhds (s := {q : ℍ[ℝ] | ‖q‖ = 1})))
  rw [hasFDerivWithinAt_iff_isLittleO]
  have h5 : (fun q : ℍ[ℝ] => quatLog q - quatLog 1 - ((2 : ℝ) • qepsL) (q - 1)) =O[𝓝[{q | ‖q‖ = 1}] 1]
      ((fun θ : ℝ => Real.sin θ - θ) ∘ fun q => Real.arccos q.re) := by
    refine Asymptotics.IsBigO.of_bound 2 ?_
    filter_upwards [self_mem_nhdsWithin] with q hq
    have hq : ‖q‖ = 1 := hq
    have e1 : ((2 : ℝ) • qepsL) (q - 1) = (2 : ℝ) • qeps q := by
      show (2 : ℝ) • qeps (q - 1) = _
      congr 1
      funext i
      fin_cases i <;> simp [qeps]
    rw [hzero, sub_zero, e1]
    unfold quatLog
    rw [← sub_smul, norm_smul, norm3_qeps_unit hq]
    simp only [Function.comp, Real.norm_eq_abs]
    set θ := Real.arccos q.re with hθ
    have hs : 0 ≤ Real.sin θ := Real.sin_nonneg_of_nonneg_of_le_pi (Real.arccos_nonneg _) (Real.arccos_le_pi _)
    have hv : ‖qeps q‖ ≤ Real.sin θ := by
      rw [hθ, ← norm3_qeps_unit hq]
      exact norm_le_norm3 _
    rcases hs.eq_or_lt with h0 | h0
    · have : ‖qeps q‖ = 0 := le_antisymm (by rw [h0]; exact hv) (norm_nonneg _)
      rw [this, mul_zero]
      positivity
    · calc |2 * θ / Real.sin θ - 2| * ‖qeps q‖ ≤ |2 * θ / Real.sin θ - 2| * Real.sin θ := by gcongr
        _ = |(2 * θ / Real.sin θ - 2) * Real.sin θ| := by rw [abs_mul, abs_of_pos h0]
        _ = |2 * (θ - Real.sin θ)| := by congr 1; field_simp
        _ = 2 * |Real.sin θ - θ| := by rw [abs_mul, abs_sub_comm θ, abs_two]
  refine (h5.trans_isLittleO h4).trans_isBigO ?_
  refine Asymptotics.IsBigO.of_bound 1 ?_
  filter_upwards [self_mem_nhdsWithin] with q hq
  have hq : ‖q‖ = 1 := hq
  simp only [Function.comp, Real.norm_eq_abs]
  rw [← norm3_qeps_unit hq, one_mul, abs_of_nonneg (show 0 ≤ norm3 (qeps q) from Real.sqrt_nonneg _)]
  have e : qeps q = qeps (q - 1) := by
    funext i
    fin_cases i <;> simp [qeps]
  have hsq := norm3_qeps_sq (q - 1)
  rw [e]
  exact (abs_le_of_sq_le_sq' (by rw [hsq]; linarith [sq_nonneg (q - 1).re]) (norm_nonneg _)).2

open Classical in
/-- The derivative of the logarithm: at the identity by hand, elsewhere as Mathlib has it. -/
noncomputable def logJac (q : ℍ[ℝ]) : ℍ[ℝ] →L[ℝ] V3 := if q = 1 then (2 : ℝ) • qepsL else fderiv ℝ quatLog q

theorem norm3_pos {v : V3} (h : v ≠ 0) : 0 < norm3 v :=
  lt_of_le_of_ne (Real.sqrt_nonneg _) fun h0 => h (norm3_eq_zero h0.symm)

theorem norm3_eq_sqrt (v : V3) : norm3 v = Real.sqrt (v 0 ^ 2 + v 1 ^ 2 + v 2 ^ 2) := rfl

/-- The logarithm is differentiable at every unit quaternion but `-1`. -/
theorem logJac_hasFDerivWithinAt {q : ℍ[ℝ]} (hq : ‖q‖ = 1) (hne : q ≠ -1) : HasFDerivWithinAt quatLog (logJac q) {q | ‖q‖ = 1} q := by
  unfold logJac
  split
  · rename_i h
    rw [h]
    exact quatLog_deriv_one
  · rename_i h
    have hnz : qeps q ≠ 0 := by
      intro h0
      have hre : q.re ^ 2 = 1 := by
        have := norm3_qeps_sq q
        rw [h0, hq] at this
        simp [norm3] at this
        linarith
      have hi : q.imI = 0 := by simpa [qeps] using congrFun h0 0
      have hj : q.imJ = 0 := by simpa [qeps] using congrFun h0 1
      have hk : q.imK = 0 := by simpa [qeps] using congrFun h0 2
      rcases (sq_eq_sq_iff_eq_or_eq_neg.1 (hre.trans (one_pow 2).symm)) with h1 | h1
      · exact h (by ext <;> simp [h1, hi, hj, hk])
      · exact hne (by ext <;> simp [h1, hi, hj, hk])
    have hpos := norm3_pos hnz
    have hsum : 0 < norm3 (qeps q) ^ 2 := by positivity
    have hlt : q.re ^ 2 < 1 := by
      have := norm3_qeps_sq q
      rw [hq] at this
      linarith
    have hrange : -1 < q.re ∧ q.re < 1 := abs_lt.1 ((sq_lt_one_iff_abs_lt_one _).1 hlt)
    have hre : DifferentiableAt ℝ (fun p : ℍ[ℝ] => p.re) q := (LinearMap.toContinuousLinearMap reL).differentiableAt
    have hac : DifferentiableAt ℝ (fun p : ℍ[ℝ] => Real.arccos p.re) q :=
      (Real.differentiableAt_arccos.2 ⟨hrange.1.ne', hrange.2.ne⟩).comp q hre
    have heps : DifferentiableAt ℝ qeps q := qepsL.differentiableAt
    have hcomp : ∀ i, DifferentiableAt ℝ (fun p : ℍ[ℝ] => qeps p i) q := fun i => differentiableAt_pi.1 heps i
    have hn : DifferentiableAt ℝ (fun p : ℍ[ℝ] => norm3 (qeps p)) q := by
      simp only [norm3_eq_sqrt]
      refine DifferentiableAt.sqrt ((((hcomp 0).pow 2).add ((hcomp 1).pow 2)).add ((hcomp 2).pow 2)) ?_
      rw [norm3_sq] at hsum
      exact hsum.ne'
    have hdiv : DifferentiableAt ℝ (fun p : ℍ[ℝ] => 2 * Real.arccos p.re / norm3 (qeps p)) q := by
      have e : (fun p : ℍ[ℝ] => 2 * Real.arccos p.re / norm3 (qeps p)) =
          (fun p : ℍ[ℝ] => 2 * Real.arccos p.re) * (fun p : ℍ[ℝ] => norm3 (qeps p))⁻¹ := by
        funext p
        exact div_eq_mul_inv _ _
      rw [e]
      exact (hac.const_mul 2).mul (hn.inv hpos.ne')
    exact (hdiv.smul heps).hasFDerivAt.hasFDerivWithinAt

/-- Not vacuous: with the true derivatives the hypotheses of the theorem about unit quaternions hold for all points that are not a full
turn apart. -/
example (a b : ℍ[ℝ]) (ha : ‖a‖ = 1) (hb : ‖b‖ = 1) (h1 : qplus (quatInv a) b ≠ -1) (h2 : qplus b (quatInv a) ≠ -1) (v : V3) :
    HasFDerivAt (fun u => qplus a (axisAngle2quat u)) ((quatDiff expJac logJac).dexp a v) v ∧
    HasFDerivWithinAt (fun x => quatLog (qplus (quatInv a) x)) ((quatDiff expJac logJac).dlog (quatGroup quatLog) a b) {q | ‖q‖ = 1} b ∧
    HasFDerivAt (fun u => quatLog (qplus ((quatGroup quatLog).update b u) (quatInv a)))
      ((quatDiff expJac logJac).minimalDifferenceAndJacobian (quatGroup quatLog) a b).2 0 := by
  have hi : ‖quatInv a‖ = 1 := by rw [quatInv_eq, norm_star, ha]
  have hn : ∀ x y : ℍ[ℝ], ‖x‖ = 1 → ‖y‖ = 1 → ‖qplus x y‖ = 1 := by
    intro x y hx hy
    rw [qplus_eq, norm_mul, hx, hy, _root_.one_mul]
  exact C77_quaternion quatLog expJac logJac expJac_hasFDerivAt a b ha hb v (logJac_hasFDerivWithinAt (hn _ _ hi hb) h1)
    (logJac_hasFDerivWithinAt (hn _ _ hb hi) h2)

/-- Not vacuous: at a reference rotation the matrix is the identity. -/
example : (quatDiff expJac logJac).minimalDifferenceAndJacobian (quatGroup quatLog) quatIJ quatIJ = (0, ContinuousLinearMap.id ℝ V3) := by
  refine C77_at_reference (quat_group quatLog) (quat_isDiff quatLog expJac logJac expJac_hasFDerivAt) ?_ (H := {q | ‖q‖ = 1})
    norm_quatIJ (logJac_hasFDerivWithinAt (q := 1) norm_one ?_) ?_
  · intro x hx
    have hx : ‖x‖ = 1 := hx
    change (‖x‖)⁻¹ • x = x
    rw [hx]; simp
  · intro h
    have := congrArg (fun q : ℍ[ℝ] => q.re) h
    have h2 : (1 : ℝ) = -1 := this
    norm_num at h2
  · have hc : ContinuousAt norm3 (0 : V3) := by
      unfold norm3
      fun_prop
    have h0 : norm3 0 < 2 * Real.pi := by
      have : norm3 0 = 0 := by simp [norm3]
      rw [this]
      positivity
    filter_upwards [hc.eventually_lt continuousAt_const h0] with u hu
    exact quatLog_exp u hu

end Verif
