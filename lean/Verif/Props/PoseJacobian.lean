import Verif.Lemmas.PoseRotation
import Verif.Props.Views

/-!
# Pose splines: Jacobians with respect to the coefficients (C56), agreement of the queries with and without
Jacobians (C58)
-/

set_option linter.unusedSectionVars false

namespace Verif

open Matrix Finset BSpline

namespace Pose

/-! ## Specification -/

/-- Specification: the spline with its coefficient vector moved by `ε` times `δ`. -/
noncomputable def moved {D : ℕ} (b : BSpline ℝ D) (δ : List ℝ) (ε : ℝ) : BSpline ℝ D :=
  (b.setCoefficientVector (addVec b.coefficientVector (δ.map (ε * ·)))).getD b

/-- Specification: the pose spline with its coefficient vector moved by `ε` times `δ`. -/
noncomputable def along (s : Pose ℝ) (δ : List ℝ) (ε : ℝ) : Pose ℝ := ⟨moved s.spline δ ε, s.rotation⟩

/-- Specification: the result of applying a Jacobian with respect to the coefficients with indices `idx` to a change `δ` of the
whole coefficient vector. -/
def effect {K : Type*} [Field K] {m : ℕ} (J : Fin m → ℕ → K) (idx : List ℕ) (δ : List K) : Fin m → K := fun r =>
  ∑ q ∈ range idx.length, J r q * entry δ (idx.getD q 0)

/-- Specification: the 4 × 4 matrix of an infinitesimal motion `ξ = (ρ, φ)`: a perturbed transformation is
`(1 + boxPlus ξ) T` to first order. -/
def boxPlus {K : Type*} [Field K] (ξ : Fin 6 → K) : Matrix (Fin 4) (Fin 4) K :=
  !![0, ξ 5, -ξ 4, ξ 0; -ξ 5, 0, ξ 3, ξ 1; ξ 4, -ξ 3, 0, ξ 2; 0, 0, 0, 0]

/-! ## Algebra -/

section Algebra
variable {K : Type*} [Field K]

/-- Tangent of a rigid motion: like `rigid` with a zero bottom row. -/
def tangent (M : Matrix (Fin 3) (Fin 3) K) (v : Fin 3 → K) : Matrix (Fin 4) (Fin 4) K :=
  !![M 0 0, M 0 1, M 0 2, v 0; M 1 0, M 1 1, M 1 2, v 1; M 2 0, M 2 1, M 2 2, v 2; 0, 0, 0, 0]

theorem boxPlus_eq (ξ : Fin 6 → K) : boxPlus ξ = tangent (-crossMx (tail ξ)) (head ξ) := by
  ext i j
  fin_cases i <;> fin_cases j <;> simp [boxPlus, tangent, crossMx, head, tail]

theorem tangent_mul_rigid (M R : Matrix (Fin 3) (Fin 3) K) (v p : Fin 3 → K) :
    tangent M v * rigid R p = tangent (M * R) (M.mulVec p + v) := by
  ext i j
  fin_cases i <;> fin_cases j <;>
    simp [tangent, rigid, Matrix.mul_apply, Fin.sum_univ_four, Fin.sum_univ_three, Matrix.mulVec, dotProduct]

theorem boxMinus_mulVec (w : Fin 4 → K) (ξ : Fin 6 → K) : (boxPlus ξ).mulVec w = (boxMinus w).mulVec ξ := by
  ext i
  fin_cases i <;>
    simp [boxPlus, boxMinus, crossMx, Matrix.mulVec, dotProduct, Fin.sum_univ_four, Fin.sum_univ_six] <;> ring

theorem head_blocks6 (A B C D : Matrix (Fin 3) (Fin 3) K) (ξ : Fin 6 → K) :
    head ((blocks6 A B C D).mulVec ξ) = A.mulVec (head ξ) + B.mulVec (tail ξ) := by
  ext i
  fin_cases i <;>
    simp [head, tail, blocks6, Matrix.mulVec, dotProduct, Fin.sum_univ_three, Fin.sum_univ_six] <;> ring

theorem tail_blocks6 (A B C D : Matrix (Fin 3) (Fin 3) K) (ξ : Fin 6 → K) :
    tail ((blocks6 A B C D).mulVec ξ) = C.mulVec (head ξ) + D.mulVec (tail ξ) := by
  ext i
  fin_cases i <;>
    simp [head, tail, blocks6, Matrix.mulVec, dotProduct, Fin.sum_univ_three, Fin.sum_univ_six] <;> ring

theorem orientationBlock_mulVec (S : Matrix (Fin 3) (Fin 3) K) (ξ : Fin 6 → K) :
    (orientationBlock S).mulVec ξ = S.mulVec (tail ξ) := by
  ext i
  simp [tail, orientationBlock, Matrix.mulVec, dotProduct, Fin.sum_univ_three, Fin.sum_univ_six]

theorem effect_mulJac {m n : ℕ} (A : Matrix (Fin m) (Fin n) K) (J : Fin n → ℕ → K) (idx : List ℕ) (δ : List K) :
    effect (mulJac A J) idx δ = A.mulVec (effect J idx δ) := by
  ext r
  simp only [effect, mulJac, Matrix.mulVec, dotProduct, Finset.sum_mul, Finset.mul_sum]
  rw [Finset.sum_comm]
  exact Finset.sum_congr rfl fun k _ => Finset.sum_congr rfl fun q _ => by ring

theorem crossMx_transpose (v : Fin 3 → K) : (crossMx v)ᵀ = -crossMx v := by
  ext i j
  fin_cases i <;> fin_cases j <;> simp [crossMx]

end Algebra

/-! ## Moving the coefficients -/

theorem moved_evalD {D : ℕ} (b : BSpline ℝ D) (t : ℝ) (der : ℤ) (r : ValJac ℝ D) (h : b.evalDAndJacobian t der = .ok r)
    (δ : List ℝ) (hδ : δ.length = b.coefficientVector.length) (ε : ℝ) :
    (moved b δ ε).evalD t der = .ok (fun d => r.value d + ε * effect (fun (i : Fin D) q => r.jacobian i q) r.indices δ d) := by
  have hl : (addVec b.coefficientVector (δ.map (ε * ·))).length = b.coefficientVector.length := by
    simp [addVec, hδ]
  obtain ⟨s', hs', -⟩ := (C10_vector_round_trip b (addVec b.coefficientVector (δ.map (ε * ·)))).1 hl
  have hm : moved b δ ε = s' := by
    unfold moved
    rw [hs']
    rfl
  rw [hm, C07_jacobian_is_derivative b s' t der r h (δ.map (ε * ·)) (by simpa using hδ) hs']
  congr 1
  ext d
  congr 1
  have hi : r.indices.length = b.order * D := by
    obtain ⟨x, u, i, B, hd, hT, hU, h1, hb, h2, hB, rfl⟩ := evalDAndJacobian_inv h
    simp [linSpacedIdx]
  simp only [effect, hi, Finset.mul_sum]
  refine Finset.sum_congr rfl fun q _ => ?_
  have : entry (δ.map (ε * ·)) (r.indices.getD q 0) = ε * entry δ (r.indices.getD q 0) := by
    simp only [entry, List.getD_eq_getElem?_getD, List.getElem?_map]
    cases δ[r.indices[q]?.getD 0]? <;> simp
  rw [this]
  ring

theorem line_hasDerivAt {n : ℕ} (v e : Fin n → ℝ) : HasDerivAt (fun ε : ℝ => fun d => v d + ε * e d) e 0 := by
  rw [hasDerivAt_pi]
  intro d
  refine hasDerivAt_congr (((hasDerivAt_id (0 : ℝ)).mul_const (e d)).const_add (v d)) (fun τ => rfl) (by simp)

theorem line_zero {n : ℕ} (v e : Fin n → ℝ) : (fun d => v d + (0 : ℝ) * e d) = v := by
  ext d
  ring

theorem hasDerivAt_tail {f : ℝ → Fin 6 → ℝ} {v : Fin 6 → ℝ} {t : ℝ} (h : HasDerivAt f v t) :
    HasDerivAt (fun x => tail (f x)) (tail v) t :=
  hasDerivAt_pi.2 fun _ => hasDerivAt_pi.1 h _

theorem matrix_hasDerivAt (rot : Rotation ℝ) (hd : Differential rot) (v e : Fin 6 → ℝ) (i j : Fin 3) :
    HasDerivAt (fun ε : ℝ => rot.toMatrix (tail (fun d => v d + ε * e d)) i j)
      ((-(crossMx ((rot.sMatrix (tail v)).mulVec (tail e))) * rot.toMatrix (tail v)) i j) 0 := by
  have := hd _ _ _ (hasDerivAt_tail (line_hasDerivAt v e)) i j
  simpa only [line_zero] using this

theorem evalD_of_jacobian {D : ℕ} {b : BSpline ℝ D} {t : ℝ} {der : ℤ} {r : ValJac ℝ D}
    (h : b.evalDAndJacobian t der = .ok r) : b.evalD t der = .ok r.value := (C07_jacobian_consistent b t der r h).1

/-- Derivative of the entries of a rigid motion. -/
theorem rigid_hasDerivAt {R : ℝ → Matrix (Fin 3) (Fin 3) ℝ} {p : ℝ → Fin 3 → ℝ} {M : Matrix (Fin 3) (Fin 3) ℝ}
    {v : Fin 3 → ℝ} {x : ℝ} (hR : ∀ i j, HasDerivAt (fun τ => R τ i j) (M i j) x) (hp : HasDerivAt p v x) (i j : Fin 4) :
    HasDerivAt (fun τ => rigid (R τ) (p τ) i j) (tangent M v i j) x := by
  have hp' := hasDerivAt_pi.1 hp
  fin_cases i <;> fin_cases j <;> simp only [rigid, tangent, Matrix.of_apply] <;>
    first | exact hR _ _ | exact hp' _ | exact hasDerivAt_const _ _

/-- The tangent of the transformation computed from a curve value. -/
theorem curveValue_tangent (rot : Rotation ℝ) (v e : Fin 6 → ℝ) :
    tangent (-(crossMx ((rot.sMatrix (tail v)).mulVec (tail e))) * rot.toMatrix (tail v)) (head e)
      = boxPlus ((curveValueJacobian rot v).mulVec e) * curveValueToTransformation rot v := by
  rw [curveValueToTransformation_eq, boxPlus_eq, tangent_mul_rigid]
  unfold curveValueJacobian
  rw [head_blocks6, tail_blocks6, Matrix.zero_mulVec, zero_add, Matrix.one_mulVec]
  congr 1
  rw [Matrix.neg_mulVec, cross_mulVec_swap, neg_neg, Matrix.neg_mul, Matrix.neg_mulVec, Matrix.mulVec_mulVec]
  abel

/-- **C56**, transformation: the value is that of `transformation`, and for every change `δ` of the coefficients the derivative
of the transformation is `boxPlus (J δ) T`. -/
theorem C56_transformation (s : Pose ℝ) (hd : Differential s.rotation) (t : ℝ)
    (r : WithJacobian (Matrix (Fin 4) (Fin 4) ℝ) 6 ℝ) (hr : s.transformationAndJacobian t = .ok r) (δ : List ℝ)
    (hδ : δ.length = s.spline.coefficientVector.length) :
    s.transformation t = .ok r.value ∧ (∀ ε, ∃ T, (s.along δ ε).transformation t = .ok T) ∧
    ∀ i j, HasDerivAt (fun ε => ((s.along δ ε).transformation t).getD 0 i j)
      ((boxPlus (effect r.jacobian r.indices δ) * r.value) i j) 0 := by
  unfold transformationAndJacobian at hr
  cases hb : s.spline.evalDAndJacobian t 0 with
  | throws => rw [hb] at hr; exact nomatch hr
  | ub => rw [hb] at hr; exact nomatch hr
  | ok b =>
    rw [hb] at hr
    obtain rfl := Outcome.ok.inj hr
    have hm : ∀ ε, (s.along δ ε).transformation t = .ok (curveValueToTransformation s.rotation
        (fun d => b.value d + ε * effect (rows6 b.jacobian) b.indices δ d)) := by
      intro ε
      have : (moved s.spline δ ε).eval t = _ := moved_evalD s.spline t 0 b hb δ hδ ε
      unfold transformation along
      rw [this]
      rfl
    refine ⟨?_, fun ε => ⟨_, hm ε⟩, fun i j => ?_⟩
    · have : s.spline.eval t = .ok b.value := evalD_of_jacobian hb
      unfold transformation
      rw [this]
      rfl
    · dsimp only
      rw [effect_mulJac, ← curveValue_tangent]
      refine hasDerivAt_congr (rigid_hasDerivAt (matrix_hasDerivAt s.rotation hd b.value (effect (rows6 b.jacobian) b.indices δ))
        (hasDerivAt_head (line_hasDerivAt b.value (effect (rows6 b.jacobian) b.indices δ))) i j) (fun ε => ?_) rfl
      rw [hm ε, Outcome.getD_ok, curveValueToTransformation_eq]

/-- **C56**, point: the transformed point and its derivative. -/
theorem C56_transform_vector (s : Pose ℝ) (hd : Differential s.rotation) (t : ℝ) (v : Fin 4 → ℝ)
    (r : WithJacobian (Fin 4 → ℝ) 4 ℝ) (hr : s.transformVectorAndJacobian t v = .ok r) (δ : List ℝ)
    (hδ : δ.length = s.spline.coefficientVector.length) :
    (∃ T, s.transformation t = .ok T ∧ r.value = T.mulVec v) ∧
    HasDerivAt (fun ε => (((s.along δ ε).transformation t).getD 0).mulVec v) (effect r.jacobian r.indices δ) 0 := by
  unfold transformVectorAndJacobian at hr
  cases hb : s.transformationAndJacobian t with
  | throws => rw [hb] at hr; exact nomatch hr
  | ub => rw [hb] at hr; exact nomatch hr
  | ok b =>
    rw [hb] at hr
    obtain rfl := Outcome.ok.inj hr
    obtain ⟨h1, -, h3⟩ := C56_transformation s hd t b hb δ hδ
    refine ⟨⟨_, h1, rfl⟩, ?_⟩
    dsimp only
    rw [effect_mulJac, ← boxMinus_mulVec, Matrix.mulVec_mulVec, hasDerivAt_pi]
    intro i
    simp only [Matrix.mulVec, dotProduct]
    exact HasDerivAt.fun_sum fun j _ => (h3 i j).mul_const _

/-- **C56**, orientation: the derivative of the rotation matrix is `-(J δ)^× C`. -/
theorem C56_orientation (s : Pose ℝ) (hd : Differential s.rotation) (t : ℝ)
    (r : WithJacobian (Matrix (Fin 3) (Fin 3) ℝ) 3 ℝ) (hr : s.orientationAndJacobian t = .ok r) (δ : List ℝ)
    (hδ : δ.length = s.spline.coefficientVector.length) :
    s.orientation t = .ok r.value ∧
    ∀ i j, HasDerivAt (fun ε => ((s.along δ ε).orientation t).getD 0 i j)
      ((-(crossMx (effect r.jacobian r.indices δ)) * r.value) i j) 0 := by
  unfold orientationAndJacobian at hr
  cases hb : s.spline.evalDAndJacobian t 0 with
  | throws => rw [hb] at hr; exact nomatch hr
  | ub => rw [hb] at hr; exact nomatch hr
  | ok b =>
    rw [hb] at hr
    obtain rfl := Outcome.ok.inj hr
    refine ⟨?_, fun i j => ?_⟩
    · have : s.spline.eval t = .ok b.value := evalD_of_jacobian hb
      unfold orientation
      rw [this]
      rfl
    · dsimp only
      rw [effect_mulJac, orientationBlock_mulVec]
      refine hasDerivAt_congr (matrix_hasDerivAt s.rotation hd b.value (effect (rows6 b.jacobian) b.indices δ) i j)
        (fun ε => ?_) rfl
      have : (moved s.spline δ ε).eval t = _ := moved_evalD s.spline t 0 b hb δ hδ ε
      unfold orientation along
      rw [this]
      rfl

theorem transposed_tangent {R : Matrix (Fin 3) (Fin 3) ℝ} (h : Proper R) (φ : Fin 3 → ℝ) :
    (-(crossMx φ) * R)ᵀ = crossMx (Rᵀ.mulVec φ) * Rᵀ := by
  rw [cross_conj h.transpose, Matrix.transpose_transpose, Matrix.mul_assoc (Rᵀ * crossMx φ), h.1.1, Matrix.mul_one,
    Matrix.transpose_mul, Matrix.transpose_neg, crossMx_transpose, neg_neg]

/-- **C56**, inverse orientation: the derivative of the inverse rotation matrix is `-(J δ)^× Cᵀ`. -/
theorem C56_inverse_orientation (s : Pose ℝ) (hd : Differential s.rotation) (hp : ∀ θ, Proper (s.rotation.toMatrix θ)) (t : ℝ)
    (r : WithJacobian (Matrix (Fin 3) (Fin 3) ℝ) 3 ℝ) (hr : s.inverseOrientationAndJacobian t = .ok r) (δ : List ℝ)
    (hδ : δ.length = s.spline.coefficientVector.length) :
    s.inverseOrientation t = .ok r.value ∧
    ∀ i j, HasDerivAt (fun ε => ((s.along δ ε).inverseOrientation t).getD 0 i j)
      ((-(crossMx (effect r.jacobian r.indices δ)) * r.value) i j) 0 := by
  unfold inverseOrientationAndJacobian at hr
  cases hb : s.spline.evalDAndJacobian t 0 with
  | throws => rw [hb] at hr; exact nomatch hr
  | ub => rw [hb] at hr; exact nomatch hr
  | ok b =>
    rw [hb] at hr
    obtain rfl := Outcome.ok.inj hr
    refine ⟨?_, fun i j => ?_⟩
    · have : s.spline.eval t = .ok b.value := evalD_of_jacobian hb
      unfold inverseOrientation
      rw [this]
      rfl
    · dsimp only
      rw [effect_mulJac, ← Matrix.mulVec_mulVec, orientationBlock_mulVec, Matrix.neg_mulVec, crossMx_neg, neg_neg,
        ← transposed_tangent (hp _)]
      refine hasDerivAt_congr (matrix_hasDerivAt s.rotation hd b.value (effect (rows6 b.jacobian) b.indices δ) j i)
        (fun ε => ?_) rfl
      have : (moved s.spline δ ε).eval t = _ := moved_evalD s.spline t 0 b hb δ hδ ε
      unfold inverseOrientation along
      rw [this]
      rfl

/-- **C56**, inverse transformation: the derivative of the inverse transformation is `boxPlus (J δ) T⁻¹`. -/
theorem C56_inverse_transformation (s : Pose ℝ) (hd : Differential s.rotation) (hp : ∀ θ, Proper (s.rotation.toMatrix θ))
    (t : ℝ) (r : WithJacobian (Matrix (Fin 4) (Fin 4) ℝ) 6 ℝ) (hr : s.inverseTransformationAndJacobian t = .ok r) (δ : List ℝ)
    (hδ : δ.length = s.spline.coefficientVector.length) :
    s.inverseTransformation t = .ok r.value ∧
    ∀ i j, HasDerivAt (fun ε => ((s.along δ ε).inverseTransformation t).getD 0 i j)
      ((boxPlus (effect r.jacobian r.indices δ) * r.value) i j) 0 := by
  unfold inverseTransformationAndJacobian at hr
  cases hb : s.spline.evalDAndJacobian t 0 with
  | throws => rw [hb] at hr; exact nomatch hr
  | ub => rw [hb] at hr; exact nomatch hr
  | ok b =>
    rw [hb, Outcome.bind_ok, (C07_jacobian_consistent s.spline t 0 b hb).2.2.1, Outcome.map_ok] at hr
    obtain rfl := Outcome.ok.inj hr
    refine ⟨?_, fun i j => ?_⟩
    · have : s.spline.eval t = .ok b.value := evalD_of_jacobian hb
      unfold inverseTransformation
      rw [this]
      rfl
    · dsimp only
      set e := effect (rows6 b.jacobian) b.indices δ with he
      set R := s.rotation.toMatrix (tail b.value) with hR
      set φ := (s.rotation.sMatrix (tail b.value)).mulVec (tail e) with hφ
      set p := head b.value with hpv
      have hRp : Proper R := hp _
      have hder : ∀ i j, HasDerivAt (fun ε : ℝ => rigid (s.rotation.toMatrix (tail (fun d => b.value d + ε * e d)))ᵀ
          (-((s.rotation.toMatrix (tail (fun d => b.value d + ε * e d)))ᵀ.mulVec (head (fun d => b.value d + ε * e d)))) i j)
          (tangent (-(crossMx φ) * R)ᵀ (-(((-(crossMx φ) * R)ᵀ).mulVec p + Rᵀ.mulVec (head e))) i j) 0 := by
        refine rigid_hasDerivAt (fun i j => matrix_hasDerivAt s.rotation hd b.value e j i) ?_
        rw [hasDerivAt_pi]
        intro k
        have hsum : HasDerivAt (fun ε : ℝ => ∑ l, s.rotation.toMatrix (tail (fun d => b.value d + ε * e d)) l k
              * head (fun d => b.value d + ε * e d) l)
            (∑ l, ((-(crossMx φ) * R) l k * p l + R l k * head e l)) 0 := by
          refine HasDerivAt.fun_sum fun l _ => ?_
          have h1 := (matrix_hasDerivAt s.rotation hd b.value e l k).mul
            (hasDerivAt_pi.1 (hasDerivAt_head (line_hasDerivAt b.value e)) l)
          rw [line_zero] at h1
          exact h1
        refine hasDerivAt_congr hsum.neg (fun ε => ?_) ?_
        · simp [Matrix.mulVec, dotProduct]
        · rw [Finset.sum_add_distrib]
          simp only [Pi.neg_apply, Pi.add_apply, Matrix.mulVec, dotProduct, Matrix.transpose_apply]
      refine hasDerivAt_congr (hder i j) (fun ε => ?_) ?_
      · have : (moved s.spline δ ε).eval t = _ := moved_evalD s.spline t 0 b hb δ hδ ε
        unfold inverseTransformation along
        rw [this, Outcome.map_ok, Outcome.getD_ok, curveValueToTransformation_eq, invertInPlace_rigid]
        rfl
      · rw [effect_mulJac, ← Matrix.mulVec_mulVec, curveValueToTransformation_eq, invertInPlace_rigid, boxPlus_eq,
          tangent_mul_rigid]
        unfold boxTimes curveValueJacobian
        rw [← he, ← hR, ← hpv, topLeft_rigid, topRight_rigid, Matrix.neg_mulVec]
        have t1 : ∀ x : Fin 6 → ℝ, tail (-x) = -tail x := fun x => rfl
        have t2 : ∀ x : Fin 6 → ℝ, head (-x) = -head x := fun x => rfl
        rw [t1, t2, head_blocks6, tail_blocks6, head_blocks6, tail_blocks6, Matrix.zero_mulVec, Matrix.zero_mulVec, zero_add,
          zero_add, Matrix.one_mulVec, ← hφ, transposed_tangent hRp, crossMx_neg, neg_neg]
        congr 3
        have e1 : (-(crossMx p) * s.rotation.sMatrix (tail b.value)).mulVec (tail e) = (crossMx φ).mulVec p := by
          rw [← Matrix.mulVec_mulVec, ← hφ, Matrix.neg_mulVec, cross_mulVec_swap, neg_neg]
        have e2 : (crossMx (Rᵀ.mulVec φ)).mulVec (Rᵀ.mulVec p) = Rᵀ.mulVec ((crossMx φ).mulVec p) := by
          rw [cross_conj hRp.transpose, Matrix.transpose_transpose, Matrix.mulVec_mulVec, Matrix.mul_assoc, Matrix.mul_assoc,
            hRp.1.1, Matrix.mul_one, Matrix.mulVec_mulVec]
        have e3 : (crossMx (-(Rᵀ.mulVec p))).mulVec (Rᵀ.mulVec φ) = Rᵀ.mulVec ((crossMx φ).mulVec p) := by
          rw [cross_mulVec_swap, Matrix.mulVec_neg, neg_neg, e2]
        rw [e1, Matrix.neg_mulVec, ← Matrix.mulVec_mulVec, e3, ← Matrix.mulVec_mulVec, e2, Matrix.mulVec_neg, e2,
          Matrix.mulVec_add]
        abel

/-- **C56**, linear acceleration. -/
theorem C56_linear_acceleration (s : Pose ℝ) (t : ℝ) (r : WithJacobian (Fin 3 → ℝ) 3 ℝ)
    (hr : s.linearAccelerationAndJacobian t = .ok r) (δ : List ℝ) (hδ : δ.length = s.spline.coefficientVector.length) :
    s.linearAcceleration t = .ok r.value ∧
    HasDerivAt (fun ε => ((s.along δ ε).linearAcceleration t).getD 0) (effect r.jacobian r.indices δ) 0 := by
  unfold linearAccelerationAndJacobian at hr
  cases hb : s.spline.evalDAndJacobian t 2 with
  | throws => rw [hb] at hr; exact nomatch hr
  | ub => rw [hb] at hr; exact nomatch hr
  | ok b =>
    rw [hb] at hr
    obtain rfl := Outcome.ok.inj hr
    refine ⟨?_, ?_⟩
    · unfold linearAcceleration
      rw [evalD_of_jacobian hb]
      rfl
    · refine hasDerivAt_congr (hasDerivAt_head (line_hasDerivAt b.value (effect (rows6 b.jacobian) b.indices δ)))
        (fun ε => ?_) rfl
      have : (moved s.spline δ ε).evalD t 2 = _ := moved_evalD s.spline t 2 b hb δ hδ ε
      unfold linearAcceleration along
      rw [this]
      rfl

/-! ### Angular quantities -/

/-- The value of the common body of the angular queries in the world frame. -/
theorem angular_value (s : Pose ℝ) (t : ℝ) (der : ℤ) :
    (s.angularAndJacobian t der).map (fun r => r.value) = (s.spline.evalD t 0).bind fun r =>
      (s.spline.evalD t der).map fun v => s.rotation.rate (tail r) (tail v) := by
  rw [← C07_jacobian_defined s.spline t 0, ← C07_jacobian_defined s.spline t der]
  unfold angularAndJacobian
  cases s.spline.evalDAndJacobian t 0 <;> cases s.spline.evalDAndJacobian t der <;> rfl

/-- The value of the common body of the angular queries in the body frame. -/
theorem angularBody_value (s : Pose ℝ) (t : ℝ) (der : ℤ) :
    (s.angularBodyFrameAndJacobian t der).map (fun r => r.value) = (s.spline.evalD t 0).bind fun r =>
      (s.spline.evalD t der).map fun v =>
        (-(s.rotation.toMatrix (tail r))ᵀ).mulVec (s.rotation.rate (tail r) (tail v)) := by
  rw [← C07_jacobian_defined s.spline t 0, ← C07_jacobian_defined s.spline t der]
  unfold angularBodyFrameAndJacobian inverseOrientationAndJacobian
  cases s.spline.evalDAndJacobian t 0 <;> cases s.spline.evalDAndJacobian t der <;> rfl

theorem effect_stack (Jp Jd : Fin 6 → ℕ → ℝ) (idx : List ℕ) (δ : List ℝ) :
    head (effect (stackJac Jp Jd) idx δ) = tail (effect Jp idx δ) ∧
      tail (effect (stackJac Jp Jd) idx δ) = tail (effect Jd idx δ) := by
  constructor
  · ext k
    fin_cases k <;> simp [head, tail, effect, stackJac]
  · ext k
    fin_cases k <;> simp [tail, effect, stackJac]

theorem rate_hasDerivAt (rot : Rotation ℝ) (hj : RateJacobianCorrect rot) (v w e f ξ : Fin 6 → ℝ) (h1 : head ξ = tail e)
    (h2 : tail ξ = tail f) :
    HasDerivAt (fun ε : ℝ => rot.rate (tail (fun d => v d + ε * e d)) (tail (fun d => w d + ε * f d)))
      ((rot.rateJacobian (tail v) (tail w)).mulVec ξ) 0 := by
  have := hj _ _ _ _ _ (hasDerivAt_tail (line_hasDerivAt v e)) (hasDerivAt_tail (line_hasDerivAt w f))
  simp only [line_zero] at this
  refine hasDerivAt_congr this (fun ε => rfl) ?_
  ext i
  rw [← h1, ← h2]
  simp [Matrix.mulVec, dotProduct, Fin.sum_univ_three, Fin.sum_univ_six, head, tail]
  ring

theorem indices_eq {s : Pose ℝ} {t : ℝ} {der der' : ℤ} {a b : ValJac ℝ 6} (ha : s.spline.evalDAndJacobian t der = .ok a)
    (hb : s.spline.evalDAndJacobian t der' = .ok b) : a.indices = b.indices := by
  have h1 := (C07_jacobian_consistent s.spline t der a ha).2.2.1
  rw [(C07_jacobian_consistent s.spline t der' b hb).2.2.1] at h1
  exact (Outcome.ok.inj h1).symm

/-- **C56**, angular quantities in the world frame (`der = 1`: `angularVelocityAndJacobian`, `der = 2`:
`angularAccelerationAndJacobian`): the Jacobian is the derivative of the returned value. -/
theorem C56_angular (s : Pose ℝ) (hj : RateJacobianCorrect s.rotation) (t : ℝ) (der : ℤ) (r : WithJacobian (Fin 3 → ℝ) 3 ℝ)
    (hr : s.angularAndJacobian t der = .ok r) (δ : List ℝ) (hδ : δ.length = s.spline.coefficientVector.length) :
    HasDerivAt (fun ε => (((s.along δ ε).angularAndJacobian t der).map (fun r => r.value)).getD 0)
      (effect r.jacobian r.indices δ) 0 := by
  unfold angularAndJacobian at hr
  obtain ⟨a, ha, hr⟩ := Outcome.bind_eq_ok.1 hr
  cases hb : s.spline.evalDAndJacobian t der with
  | throws => rw [hb] at hr; exact nomatch hr
  | ub => rw [hb] at hr; exact nomatch hr
  | ok b =>
    rw [hb] at hr
    obtain rfl := Outcome.ok.inj hr
    dsimp only
    rw [effect_mulJac]
    obtain ⟨e1, e2⟩ := effect_stack (rows6 a.jacobian) (rows6 b.jacobian) b.indices δ
    refine hasDerivAt_congr (rate_hasDerivAt s.rotation hj a.value b.value (effect (rows6 a.jacobian) b.indices δ)
      (effect (rows6 b.jacobian) b.indices δ) _ e1 e2) (fun ε => ?_) rfl
    have m0 : (s.along δ ε).spline.evalD t 0 = _ := moved_evalD s.spline t 0 a ha δ hδ ε
    have m1 : (s.along δ ε).spline.evalD t der = _ := moved_evalD s.spline t der b hb δ hδ ε
    rw [angular_value, m0, m1, indices_eq ha hb]
    rfl

/-- **C56**, angular quantities in the body frame (`der = 1`: `angularVelocityBodyFrameAndJacobian`, `der = 2`:
`angularAccelerationBodyFrameAndJacobian`): the Jacobian is the derivative of the returned value. -/
theorem C56_angular_body (s : Pose ℝ) (hd : Differential s.rotation) (hp : ∀ θ, Proper (s.rotation.toMatrix θ))
    (hj : RateJacobianCorrect s.rotation) (t : ℝ) (der : ℤ) (r : WithJacobian (Fin 3 → ℝ) 3 ℝ)
    (hr : s.angularBodyFrameAndJacobian t der = .ok r) (δ : List ℝ) (hδ : δ.length = s.spline.coefficientVector.length) :
    HasDerivAt (fun ε => (((s.along δ ε).angularBodyFrameAndJacobian t der).map (fun r => r.value)).getD 0)
      (effect r.jacobian r.indices δ) 0 := by
  unfold angularBodyFrameAndJacobian at hr
  obtain ⟨a, ha, hr⟩ := Outcome.bind_eq_ok.1 hr
  obtain ⟨b, hb, hr⟩ := Outcome.bind_eq_ok.1 hr
  unfold inverseOrientationAndJacobian at hr
  rw [ha, Outcome.map_ok, Outcome.map_ok] at hr
  obtain rfl := Outcome.ok.inj hr
  dsimp only
  set e := effect (rows6 a.jacobian) b.indices δ with he
  set R := s.rotation.toMatrix (tail a.value) with hR
  set w := s.rotation.rate (tail a.value) (tail b.value) with hw
  set φ := (s.rotation.sMatrix (tail a.value)).mulVec (tail e) with hφ
  have hRp : Proper R := hp _
  obtain ⟨e1, e2⟩ := effect_stack (rows6 a.jacobian) (rows6 b.jacobian) b.indices δ
  set ξ := effect (stackJac (rows6 a.jacobian) (rows6 b.jacobian)) b.indices δ with hξ
  have hrate := rate_hasDerivAt s.rotation hj a.value b.value e (effect (rows6 b.jacobian) b.indices δ) ξ e1 e2
  have hder : HasDerivAt (fun ε : ℝ => (-(s.rotation.toMatrix (tail (fun d => a.value d + ε * e d)))ᵀ).mulVec
      (s.rotation.rate (tail (fun d => a.value d + ε * e d))
        (tail (fun d => b.value d + ε * effect (rows6 b.jacobian) b.indices δ d))))
      (-((-(crossMx φ) * R)ᵀ.mulVec w) + -(Rᵀ.mulVec ((s.rotation.rateJacobian (tail a.value) (tail b.value)).mulVec ξ))) 0 := by
    rw [hasDerivAt_pi]
    intro k
    have hsum : HasDerivAt (fun ε : ℝ => ∑ l, s.rotation.toMatrix (tail (fun d => a.value d + ε * e d)) l k
          * s.rotation.rate (tail (fun d => a.value d + ε * e d))
            (tail (fun d => b.value d + ε * effect (rows6 b.jacobian) b.indices δ d)) l)
        (∑ l, ((-(crossMx φ) * R) l k * w l
          + R l k * (s.rotation.rateJacobian (tail a.value) (tail b.value)).mulVec ξ l)) 0 := by
      refine HasDerivAt.fun_sum fun l _ => ?_
      have h1 := (matrix_hasDerivAt s.rotation hd a.value e l k).mul (hasDerivAt_pi.1 hrate l)
      simp only [line_zero] at h1
      exact h1
    refine hasDerivAt_congr hsum.neg (fun ε => ?_) ?_
    · simp [Matrix.mulVec, dotProduct]
    · rw [Finset.sum_add_distrib]
      simp only [Pi.neg_apply, Pi.add_apply, Matrix.mulVec, dotProduct, Matrix.transpose_apply]
      ring
  refine hasDerivAt_congr hder (fun ε => ?_) ?_
  · have m0 : (s.along δ ε).spline.evalD t 0 = _ := moved_evalD s.spline t 0 a ha δ hδ ε
    have m1 : (s.along δ ε).spline.evalD t der = _ := moved_evalD s.spline t der b hb δ hδ ε
    rw [angularBody_value, m0, m1, indices_eq ha hb]
    rfl
  · have hsplit : effect (fun i q => mulJac (-Rᵀ * s.rotation.rateJacobian (tail a.value) (tail b.value))
          (stackJac (rows6 a.jacobian) (rows6 b.jacobian)) i q
        + mulJac (crossMx ((-Rᵀ).mulVec w)) (mulJac (-Rᵀ * orientationBlock (s.rotation.sMatrix (tail a.value)))
          (rows6 a.jacobian)) i q) b.indices δ
        = (-Rᵀ * s.rotation.rateJacobian (tail a.value) (tail b.value)).mulVec ξ
          + (crossMx ((-Rᵀ).mulVec w)).mulVec ((-Rᵀ * orientationBlock (s.rotation.sMatrix (tail a.value))).mulVec e) := by
      rw [hξ, he, ← effect_mulJac, ← effect_mulJac, ← effect_mulJac]
      ext i
      simp only [effect, Pi.add_apply, add_mul, Finset.sum_add_distrib]
    rw [hsplit, ← Matrix.mulVec_mulVec, ← Matrix.mulVec_mulVec, orientationBlock_mulVec, ← hφ, transposed_tangent hRp,
      Matrix.neg_mulVec, Matrix.neg_mulVec, Matrix.neg_mulVec, crossMx_neg, Matrix.neg_mulVec, Matrix.mulVec_neg, neg_neg, add_comm]
    congr 1
    rw [← Matrix.mulVec_mulVec, cross_mulVec_swap]

/-- Concrete pose splines meet the assumptions on the parametrisation. -/
example : Differential (rodrigues ℝ) ∧ RateJacobianCorrect (rodrigues ℝ) ∧ RateIsS (rodrigues ℝ) ∧
    (∀ θ, Proper ((rodrigues ℝ).toMatrix θ)) :=
  ⟨rodrigues_differential, rodrigues_rateJacobian, rodrigues_rateIsS, rodrigues_proper⟩

end Pose
end Verif
