import Verif.Model.BSplineIntegral
import Mathlib.Analysis.Matrix.Order
import Mathlib.Analysis.Matrix.Spectrum
import Mathlib.Analysis.InnerProductSpace.PiL2

/-!
# Singular value decompositions

What `jacobiSvd(Eigen::ComputeFullU)` (external) is meant to return, that such a decomposition always exists, and the square root built
from it.
-/

set_option linter.unusedSectionVars false

namespace Verif

open Finset Matrix

/-- The columns of the leading `n × n` block are orthonormal. -/
def OrthoCols (n : ℕ) (U : Mat ℝ) : Prop :=
  ∀ a < n, ∀ b < n, ∑ r ∈ range n, U r a * U r b = if a = b then 1 else 0

/-- `U` and `σ` are the left singular vectors and the singular values of the leading `n × n` block of `Q`. -/
def IsSvd (n : ℕ) (Q U : Mat ℝ) (σ : ℕ → ℝ) : Prop :=
  (∀ r < n, 0 ≤ σ r) ∧ OrthoCols n U ∧
    ∃ V, OrthoCols n V ∧ ∀ p < n, ∀ q < n, Q p q = ∑ r ∈ range n, U p r * σ r * V q r

/-- The leading block as a matrix of Mathlib. -/
def toMx (n : ℕ) (Q : Mat ℝ) : Matrix (Fin n) (Fin n) ℝ := Matrix.of fun i j => Q i j

theorem toMx_ortho {n : ℕ} {U : Mat ℝ} (h : OrthoCols n U) : (toMx n U)ᵀ * toMx n U = 1 := by
  ext a b
  rw [Matrix.mul_apply, Matrix.one_apply]
  have := h a a.2 b b.2
  rw [Finset.sum_range] at this
  simp only [toMx, Matrix.transpose_apply, Matrix.of_apply]
  rw [this]
  simp only [Fin.ext_iff]

/-- Two symmetric positive semidefinite matrices with the same square agree. -/
theorem psd_sqrt_unique {n : ℕ} {A B : Matrix (Fin n) (Fin n) ℝ} (hA : A.PosSemidef) (hB : B.PosSemidef) (h : A * A = B * B) :
    A = B := by
  open scoped MatrixOrder Matrix.Norms.L2Operator in
  exact (CFC.mul_self_eq_mul_self_iff A B hA.nonneg hB.nonneg).1 h

/-- With `R = (U diag(√σ))ᵀ` from any singular value decomposition of a symmetric positive semidefinite `Q`, `Rᵀ R = Q`. -/
theorem svd_root {n : ℕ} {Q U : Mat ℝ} {σ : ℕ → ℝ} (h : IsSvd n Q U σ) (hs : ∀ p < n, ∀ q < n, Q p q = Q q p)
    (hp : ∀ x : ℕ → ℝ, 0 ≤ ∑ p ∈ range n, ∑ q ∈ range n, x p * Q p q * x q) :
    ∀ p < n, ∀ q < n, ∑ r ∈ range n, (U p r * √(σ r)) * (U q r * √(σ r)) = Q p q := by
  obtain ⟨hσ, hU, V, hV, hQ⟩ := h
  set A := toMx n Q with hA
  set S : Matrix (Fin n) (Fin n) ℝ := Matrix.diagonal fun r : Fin n => σ r with hS
  have hUU := toMx_ortho hU
  have hVV := toMx_ortho hV
  have hST : Sᵀ = S := Matrix.diagonal_transpose _
  have hAe : A = toMx n U * S * (toMx n V)ᵀ := by
    ext p q
    rw [Matrix.mul_apply]
    simp only [hS, Matrix.mul_diagonal, hA, toMx, Matrix.of_apply, Matrix.transpose_apply]
    rw [hQ p p.2 q q.2, Finset.sum_range]
  have hsym : Aᵀ = A := by
    ext p q
    exact hs q q.2 p p.2
  have hApsd : A.PosSemidef := by
    refine Matrix.PosSemidef.of_dotProduct_mulVec_nonneg ?_ fun x => ?_
    · rw [Matrix.IsHermitian, Matrix.conjTranspose_eq_transpose_of_trivial, hsym]
    · have := hp (fun a => if ha : a < n then x ⟨a, ha⟩ else 0)
      rw [Finset.sum_range] at this
      refine this.trans_eq ?_
      simp only [dotProduct, Matrix.mulVec, hA, toMx, Matrix.of_apply, Pi.star_apply, star_trivial]
      refine sum_congr rfl fun p _ => ?_
      rw [Finset.sum_range, Finset.mul_sum]
      refine sum_congr rfl fun q _ => ?_
      simp only [p.2, q.2, dif_pos, Fin.eta]
      ring
  set B := toMx n U * S * (toMx n U)ᵀ with hB
  have hBpsd : B.PosSemidef := by
    have hd : S.PosSemidef := Matrix.PosSemidef.diagonal fun r => hσ r r.2
    have := hd.mul_mul_conjTranspose_same (toMx n U)
    rwa [Matrix.conjTranspose_eq_transpose_of_trivial] at this
  have hsq : A * A = B * B := by
    have h1 : A * A = toMx n U * S * S * (toMx n U)ᵀ := by
      nth_rewrite 2 [← hsym]
      rw [hAe, Matrix.transpose_mul, Matrix.transpose_mul, Matrix.transpose_transpose, hST]
      calc toMx n U * S * (toMx n V)ᵀ * (toMx n V * (S * (toMx n U)ᵀ))
          = toMx n U * S * ((toMx n V)ᵀ * toMx n V) * S * (toMx n U)ᵀ := by simp only [Matrix.mul_assoc]
        _ = _ := by rw [hVV, Matrix.mul_one]
    rw [h1, hB]
    calc toMx n U * S * S * (toMx n U)ᵀ = toMx n U * S * ((toMx n U)ᵀ * toMx n U) * S * (toMx n U)ᵀ := by
          rw [hUU, Matrix.mul_one]
      _ = _ := by simp only [Matrix.mul_assoc]
  have hAB := psd_sqrt_unique hApsd hBpsd hsq
  intro p hp q hq
  have := congrFun (congrFun hAB ⟨p, hp⟩) ⟨q, hq⟩
  rw [hB, Matrix.mul_apply] at this
  simp only [hS, Matrix.mul_diagonal, hA, toMx, Matrix.of_apply, Matrix.transpose_apply] at this
  rw [this, Finset.sum_range]
  refine sum_congr rfl fun r _ => ?_
  have := Real.mul_self_sqrt (hσ r r.2)
  linear_combination (U p r * U q r) * this

/-- Every square matrix has a singular value decomposition. -/
theorem exists_svd (n : ℕ) (Q : Mat ℝ) : ∃ U σ, IsSvd n Q U σ := by
  set A := toMx n Q with hA
  have hH : (Aᵀ * A).IsHermitian := by
    rw [Matrix.IsHermitian, Matrix.conjTranspose_eq_transpose_of_trivial, Matrix.transpose_mul, Matrix.transpose_transpose]
  have hpsd : (Aᵀ * A).PosSemidef := by
    have := Matrix.posSemidef_conjTranspose_mul_self A
    rwa [Matrix.conjTranspose_eq_transpose_of_trivial] at this
  set v := hH.eigenvectorBasis with hv
  set ev := hH.eigenvalues with hev
  have hev0 : ∀ j, 0 ≤ ev j := hpsd.eigenvalues_nonneg
  -- inner products of the images
  have horth : ∀ i j : Fin n, (v i).ofLp ⬝ᵥ (v j).ofLp = if i = j then 1 else 0 := by
    intro i j
    have := orthonormal_iff_ite.1 v.orthonormal i j
    rw [EuclideanSpace.inner_eq_star_dotProduct, star_trivial, dotProduct_comm] at this
    exact this
  have himg : ∀ i j : Fin n, (A *ᵥ (v i).ofLp) ⬝ᵥ (A *ᵥ (v j).ofLp) = if i = j then ev j else 0 := by
    intro i j
    rw [Matrix.dotProduct_mulVec, ← Matrix.mulVec_transpose, dotProduct_comm, Matrix.mulVec_mulVec]
    rw [show (Aᵀ * A) *ᵥ (v i).ofLp = ev i • (v i).ofLp from hH.mulVec_eigenvectorBasis i]
    rw [dotProduct_smul, horth j i]
    by_cases h : i = j
    · subst h; simp
    · simp [h, Ne.symm h]
  set u0 : Fin n → EuclideanSpace ℝ (Fin n) := fun j => WithLp.toLp 2 ((√(ev j))⁻¹ • (A *ᵥ (v j).ofLp)) with hu0
  set s : Set (Fin n) := {j | 0 < ev j} with hs
  have hon : Orthonormal ℝ (s.domRestrict u0) := by
    rw [orthonormal_iff_ite]
    rintro ⟨i, hi⟩ ⟨j, hj⟩
    have hi' : 0 < ev i := hi
    simp only [Set.domRestrict_apply, hu0, EuclideanSpace.inner_eq_star_dotProduct, star_trivial, dotProduct_smul, smul_dotProduct,
      himg, Subtype.mk.injEq, smul_eq_mul]
    by_cases h : i = j
    · subst h
      simp only [if_true]
      have h1 := Real.mul_self_sqrt hi'.le
      have h2 := (Real.sqrt_pos.2 hi').ne'
      field_simp
      rw [sq]; exact h1.symm
    · simp [h, Ne.symm h]
  obtain ⟨b, hb⟩ := hon.exists_orthonormalBasis_extension_of_card_eq (by simp)
  have hbo : ∀ i j : Fin n, (b i).ofLp ⬝ᵥ (b j).ofLp = if i = j then 1 else 0 := by
    intro i j
    have := orthonormal_iff_ite.1 b.orthonormal i j
    rw [EuclideanSpace.inner_eq_star_dotProduct, star_trivial, dotProduct_comm] at this
    exact this
  -- the image of `v j` is `√(ev j)` times `b j`
  have hAv : ∀ j, A *ᵥ (v j).ofLp = √(ev j) • (b j).ofLp := by
    intro j
    rcases (hev0 j).eq_or_lt with h | h
    · have h0 := himg j j
      rw [if_pos rfl, ← h, dotProduct_self_eq_zero] at h0
      rw [h0, ← h, Real.sqrt_zero, zero_smul]
    · rw [hb j h]
      simp only [hu0]
      rw [smul_smul, mul_inv_cancel₀ (Real.sqrt_pos.2 h).ne', one_smul]
  let ext : (Fin n → EuclideanSpace ℝ (Fin n)) → Mat ℝ := fun w r c =>
    if h : r < n ∧ c < n then (w ⟨c, h.2⟩).ofLp ⟨r, h.1⟩ else 0
  have hext : ∀ (w : Fin n → EuclideanSpace ℝ (Fin n)) (r c : Fin n), ext w r c = (w c).ofLp r := by
    intro w r c
    simp only [ext, r.2, c.2, and_self, dif_pos, Fin.eta]
  have hcols : ∀ w : Fin n → EuclideanSpace ℝ (Fin n), (∀ i j, (w i).ofLp ⬝ᵥ (w j).ofLp = if i = j then 1 else 0) → OrthoCols n (ext w) := by
    intro w hw a ha c hc
    have := hw ⟨a, ha⟩ ⟨c, hc⟩
    simp only [Fin.mk.injEq] at this
    rw [← this, Finset.sum_range]
    simp only [dotProduct]
    refine sum_congr rfl fun r _ => ?_
    rw [hext w r ⟨a, ha⟩, hext w r ⟨c, hc⟩]
  refine ⟨ext b, fun r => if h : r < n then √(ev ⟨r, h⟩) else 0, fun r hr => ?_, hcols b hbo, ext v, hcols v horth, fun p hp q hq => ?_⟩
  · simp only [hr, dif_pos]
    exact Real.sqrt_nonneg _
  · -- `A = (A v) vᵀ`
    have hvv : toMx n (ext v) * (toMx n (ext v))ᵀ = 1 := mul_eq_one_comm.1 (toMx_ortho (hcols v horth))
    have : A = A * toMx n (ext v) * (toMx n (ext v))ᵀ := by rw [Matrix.mul_assoc, hvv, Matrix.mul_one]
    have h2 := congrFun (congrFun this ⟨p, hp⟩) ⟨q, hq⟩
    rw [Matrix.mul_apply] at h2
    change Q p q = _ at h2
    rw [h2, Finset.sum_range]
    refine sum_congr rfl fun r _ => ?_
    have h3 := congrFun (hAv r) ⟨p, hp⟩
    have h4 : (A * toMx n (ext v)) ⟨p, hp⟩ r = (A *ᵥ (v r).ofLp) ⟨p, hp⟩ := by
      rw [Matrix.mul_apply]
      simp only [Matrix.mulVec, dotProduct, toMx, Matrix.of_apply, hext]
    rw [h4, h3, Matrix.transpose_apply]
    have h5 := hext b ⟨p, hp⟩ r
    simp only [r.2, dif_pos, Fin.eta]
    rw [h5]
    simp only [toMx, Matrix.of_apply, Pi.smul_apply, smul_eq_mul]
    ring

end Verif
