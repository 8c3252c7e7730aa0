import Verif.Model.BSplineFit
import Verif.Lemmas.QuadForm
import Mathlib.LinearAlgebra.Dual.Lemmas
import Mathlib.LinearAlgebra.StdBasis
import Mathlib.LinearAlgebra.FiniteDimensional.Lemmas

/-!
# Normal equations
-/

set_option linter.unusedSectionVars false

namespace Verif

open Finset

variable {K : Type*} [Field K] [LinearOrder K] [IsStrictOrderedRing K]

/-- What is assumed of `householderQr().solve`: it solves every square system with trivial kernel. -/
def SolvesRegular (solve : Solver K) : Prop :=
  ∀ n A b, (∀ x, (∀ r < n, mulV n A x r = 0) → ∀ q < n, x q = 0) →
    ∀ r < n, mulV n A (solve n A b) r = b r

/-- What is assumed of `ldlt().solve` and of the sparse Cholesky solver: it returns a solution of every solvable
symmetric positive semidefinite system. -/
def SolvesSemidefinite (solve : Solver K) : Prop :=
  ∀ n A b, (∀ p < n, ∀ q < n, A p q = A q p) → (∀ x, 0 ≤ bil n A x x) →
    (∃ x, ∀ r < n, mulV n A x r = b r) → ∀ r < n, mulV n A (solve n A b) r = b r

theorem mulV_congr (n : ℕ) (A : Mat K) {x y : ℕ → K} (h : ∀ q < n, x q = y q) (r : ℕ) :
    mulV n A x r = mulV n A y r := by
  unfold mulV
  exact sum_congr rfl fun q hq => by rw [h q (mem_range.1 hq)]

theorem mulV_sub (n : ℕ) (A : Mat K) (x y : ℕ → K) (r : ℕ) :
    mulV n A (fun q => x q - y q) r = mulV n A x r - mulV n A y r := by
  unfold mulV
  rw [← sum_sub_distrib]
  exact sum_congr rfl fun q _ => by ring

theorem mulV_add_mat (n : ℕ) (A B : Mat K) (x : ℕ → K) (r : ℕ) :
    mulV n (fun p q => A p q + B p q) x r = mulV n A x r + mulV n B x r := by
  unfold mulV
  rw [← sum_add_distrib]
  exact sum_congr rfl fun q _ => by ring

theorem bil_eq_dot (n : ℕ) (A : Mat K) (x y : ℕ → K) :
    bil n A x y = ∑ p ∈ range n, x p * mulV n A y p := by
  unfold bil mulV
  refine sum_congr rfl fun p _ => ?_
  rw [mul_sum]
  exact sum_congr rfl fun q _ => by ring

theorem bil_gram (m n : ℕ) (A : Mat K) (x y : ℕ → K) :
    bil n (gram m A) x y = ∑ r ∈ range m, mulV n A x r * mulV n A y r := by
  unfold bil gram matMul matT mulV
  simp only [mul_sum, sum_mul]
  calc ∑ p ∈ range n, ∑ q ∈ range n, ∑ r ∈ range m, x p * (A r p * A r q) * y q
      = ∑ p ∈ range n, ∑ r ∈ range m, ∑ q ∈ range n, x p * (A r p * A r q) * y q :=
        sum_congr rfl fun p _ => sum_comm
    _ = ∑ r ∈ range m, ∑ p ∈ range n, ∑ q ∈ range n, x p * (A r p * A r q) * y q := sum_comm
    _ = _ := by
        refine sum_congr rfl fun r _ => ?_
        rw [sum_comm]
        refine sum_congr rfl fun q _ => sum_congr rfl fun p _ => by ring

theorem dot_transposeVec (m n : ℕ) (A : Mat K) (x b : ℕ → K) :
    ∑ p ∈ range n, x p * transposeVec m A b p = ∑ r ∈ range m, mulV n A x r * b r := by
  unfold transposeVec mulV
  simp only [mul_sum, sum_mul]
  rw [sum_comm]
  exact sum_congr rfl fun r _ => sum_congr rfl fun p _ => by ring

theorem bil_add_mat (n : ℕ) (A B : Mat K) (x y : ℕ → K) :
    bil n (fun p q => A p q + B p q) x y = bil n A x y + bil n B x y := by
  unfold bil
  rw [← sum_add_distrib]
  refine sum_congr rfl fun p _ => ?_
  rw [← sum_add_distrib]
  exact sum_congr rfl fun q _ => by ring

theorem bil_symm {n : ℕ} {Q : Mat K} (hs : ∀ p < n, ∀ q < n, Q p q = Q q p) (x y : ℕ → K) :
    bil n Q x y = bil n Q y x := by
  unfold bil
  rw [sum_comm]
  refine sum_congr rfl fun q hq => sum_congr rfl fun p hp => ?_
  rw [hs p (mem_range.1 hp) q (mem_range.1 hq)]
  ring

theorem bil_sub_sub (n : ℕ) (Q : Mat K) (x y : ℕ → K) :
    bil n Q (fun q => x q - y q) (fun q => x q - y q)
      = bil n Q x x - bil n Q x y - bil n Q y x + bil n Q y y := by
  unfold bil
  rw [← sum_sub_distrib, ← sum_sub_distrib, ← sum_add_distrib]
  refine sum_congr rfl fun p _ => ?_
  rw [← sum_sub_distrib, ← sum_sub_distrib, ← sum_add_distrib]
  exact sum_congr rfl fun q _ => by ring

/-- A solution of the normal equations minimises the regularised sum of squares. -/
theorem normal_optimal (m n : ℕ) (A Q : Mat K) (b c : ℕ → K)
    (hs : ∀ p < n, ∀ q < n, Q p q = Q q p) (hpsd : ∀ x, 0 ≤ bil n Q x x)
    (hc : ∀ r < n, mulV n (fun p q => gram m A p q + Q p q) c r = transposeVec m A b r) (c' : ℕ → K) :
    ∑ r ∈ range m, (mulV n A c r - b r) ^ 2 + bil n Q c c
      ≤ ∑ r ∈ range m, (mulV n A c' r - b r) ^ 2 + bil n Q c' c' := by
  -- the cross term vanishes by the normal equations
  set e : ℕ → K := fun q => c' q - c q with he
  have cross : ∑ r ∈ range m, mulV n A e r * mulV n A c r + bil n Q e c
      = ∑ r ∈ range m, mulV n A e r * b r := by
    rw [← dot_transposeVec m n A e b, ← bil_gram, ← bil_add_mat, bil_eq_dot]
    exact sum_congr rfl fun r hr => by rw [hc r (mem_range.1 hr)]
  have hA : ∀ r, mulV n A e r = mulV n A c' r - mulV n A c r := mulV_sub n A c' c
  have hQ := bil_sub_sub n Q c' c
  have hQs := bil_symm hs c' c
  have hlin : bil n Q e c = bil n Q c' c - bil n Q c c := by
    unfold bil
    rw [← sum_sub_distrib]
    refine sum_congr rfl fun p _ => ?_
    rw [← sum_sub_distrib]
    exact sum_congr rfl fun q _ => by simp only [he]; ring
  have hsq : ∑ r ∈ range m, (mulV n A c' r - b r) ^ 2 - ∑ r ∈ range m, (mulV n A c r - b r) ^ 2
      = ∑ r ∈ range m, (mulV n A e r) ^ 2 + 2 * (∑ r ∈ range m, mulV n A e r * mulV n A c r
          - ∑ r ∈ range m, mulV n A e r * b r) := by
    rw [← sum_sub_distrib, ← sum_sub_distrib, mul_sum, ← sum_add_distrib]
    exact sum_congr rfl fun r _ => by rw [hA]; ring
  have hpos : 0 ≤ ∑ r ∈ range m, (mulV n A e r) ^ 2 := sum_nonneg fun r _ => sq_nonneg _
  have hpsd' := hpsd e
  rw [he, hQ] at hpsd'
  linarith

/-- Normal equations of an exactly solvable system are solved exactly. -/
theorem normal_exact (m n : ℕ) (A : Mat K) (b c : ℕ → K) (hx : ∃ x, ∀ r < m, mulV n A x r = b r)
    (hc : ∀ r < n, mulV n (gram m A) c r = transposeVec m A b r) : ∀ r < m, mulV n A c r = b r := by
  obtain ⟨x, hx⟩ := hx
  have h := normal_optimal m n A (fun _ _ => 0) b c (fun _ _ _ _ => rfl) (by intro x; simp [bil])
    (by simpa using hc) x
  have h0 : ∑ r ∈ range m, (mulV n A x r - b r) ^ 2 = 0 :=
    sum_eq_zero fun r hr => by rw [hx r (mem_range.1 hr)]; ring
  rw [h0] at h
  have hz : bil n (fun _ _ => (0 : K)) c c = 0 := by simp [bil]
  have hz' : bil n (fun _ _ => (0 : K)) x x = 0 := by simp [bil]
  rw [hz, hz'] at h
  have hle : ∑ r ∈ range m, (mulV n A c r - b r) ^ 2 = 0 :=
    le_antisymm (by linarith) (sum_nonneg fun r _ => sq_nonneg _)
  intro r hr
  have := (sum_eq_zero_iff_of_nonneg (fun r _ => sq_nonneg _)).1 hle r (mem_range.2 hr)
  have := pow_eq_zero_iff (two_ne_zero) |>.1 this
  linarith

/-- The regularised normal equations always have a solution. -/
theorem normal_solvable (m n : ℕ) (A Q : Mat K) (b : ℕ → K)
    (hpsd : ∀ x, 0 ≤ bil n Q x x) :
    ∃ x, ∀ r < n, mulV n (fun p q => gram m A p q + Q p q) x r = transposeVec m A b r := by
  classical
  set T : Mat K := fun p q => gram m A p q + Q p q with hT
  -- extension by zero of a vector on `Fin n`
  let ext : (Fin n → K) → ℕ → K := fun x q => if h : q < n then x ⟨q, h⟩ else 0
  have ext_val : ∀ (x : Fin n → K) (q : Fin n), ext x q = x q := fun x q => by simp [ext]
  let L : (Fin n → K) →ₗ[K] (Fin n → K) :=
    { toFun := fun x r => mulV n T (ext x) r
      map_add' := by
        intro x y
        funext r
        simp only [Pi.add_apply]
        unfold mulV
        rw [← sum_add_distrib]
        refine sum_congr rfl fun q hq => ?_
        have := mem_range.1 hq
        simp only [ext, this, dif_pos, Pi.add_apply]
        ring
      map_smul' := by
        intro a x
        funext r
        simp only [Pi.smul_apply, smul_eq_mul, RingHom.id_apply]
        unfold mulV
        rw [mul_sum]
        refine sum_congr rfl fun q hq => ?_
        have := mem_range.1 hq
        simp only [ext, this, dif_pos, Pi.smul_apply, smul_eq_mul]
        ring }
  have hmem : (fun r : Fin n => transposeVec m A b r) ∈ LinearMap.range L := by
    by_contra hnot
    obtain ⟨f, hf1, hf2⟩ := Submodule.exists_dual_map_eq_bot_of_notMem hnot inferInstance
    have hf0 : ∀ x, f (L x) = 0 := by
      intro x
      have : f (L x) ∈ Submodule.map f (LinearMap.range L) := ⟨L x, ⟨x, rfl⟩, rfl⟩
      rw [hf2] at this
      simpa using this
    -- represent `f` as a dot product
    set z : Fin n → K := fun q => f (Pi.single q 1) with hz
    have hfz : ∀ v : Fin n → K, f v = ∑ p ∈ range n, ext z p * ext v p := by
      intro v
      rw [LinearMap.pi_apply_eq_sum_univ f v, Finset.sum_range]
      refine sum_congr rfl fun p _ => ?_
      rw [ext_val, ext_val, hz, smul_eq_mul, mul_comm]
      congr 2
      funext j
      simp [Pi.single_apply, eq_comm]
    have hTz : bil n T (ext z) (ext z) = 0 := by
      have := hf0 z
      rw [hfz] at this
      rw [bil_eq_dot, ← this]
      refine sum_congr rfl fun p hp => ?_
      congr 1
      have := mem_range.1 hp
      simp only [L, ext, this, dif_pos, LinearMap.coe_mk, AddHom.coe_mk]
    rw [hT, bil_add_mat, bil_gram] at hTz
    have h1 : 0 ≤ ∑ r ∈ range m, mulV n A (ext z) r * mulV n A (ext z) r :=
      sum_nonneg fun r _ => mul_self_nonneg _
    have h2 := hpsd (ext z)
    have h3 : ∑ r ∈ range m, mulV n A (ext z) r * mulV n A (ext z) r = 0 := by linarith
    have h4 : ∀ r < m, mulV n A (ext z) r = 0 := by
      intro r hr
      have := (sum_eq_zero_iff_of_nonneg (fun r _ => mul_self_nonneg _)).1 h3 r (mem_range.2 hr)
      exact mul_self_eq_zero.1 this
    apply hf1
    rw [hfz]
    have : ∑ p ∈ range n, ext z p * ext (fun r : Fin n => transposeVec m A b r) p
        = ∑ p ∈ range n, ext z p * transposeVec m A b p := by
      refine sum_congr rfl fun p hp => ?_
      have := mem_range.1 hp
      simp only [ext, this, dif_pos]
    rw [this, dot_transposeVec]
    exact sum_eq_zero fun r hr => by rw [h4 r (mem_range.1 hr), zero_mul]
  obtain ⟨x, hx⟩ := hmem
  exact ⟨ext x, fun r hr => congrFun hx ⟨r, hr⟩⟩

theorem normal_solvable' (m n : ℕ) (A : Mat K) (b : ℕ → K) :
    ∃ x, ∀ r < n, mulV n (gram m A) x r = transposeVec m A b r := by
  obtain ⟨x, hx⟩ := normal_solvable m n A (fun _ _ => 0) b (by intro x; simp [bil])
  exact ⟨x, by simpa using hx⟩

/-- A square system with trivial kernel is solvable. -/
theorem regular_solvable (n : ℕ) (A : Mat K) (b : ℕ → K)
    (hinj : ∀ x, (∀ r < n, mulV n A x r = 0) → ∀ q < n, x q = 0) : ∃ x, ∀ r < n, mulV n A x r = b r := by
  classical
  let ext : (Fin n → K) → ℕ → K := fun x q => if h : q < n then x ⟨q, h⟩ else 0
  let L : (Fin n → K) →ₗ[K] (Fin n → K) :=
    { toFun := fun x r => mulV n A (ext x) r
      map_add' := by
        intro x y
        funext r
        simp only [Pi.add_apply]
        unfold mulV
        rw [← sum_add_distrib]
        refine sum_congr rfl fun q hq => ?_
        have := mem_range.1 hq
        simp only [ext, this, dif_pos, Pi.add_apply]
        ring
      map_smul' := by
        intro a x
        funext r
        simp only [Pi.smul_apply, smul_eq_mul, RingHom.id_apply]
        unfold mulV
        rw [mul_sum]
        refine sum_congr rfl fun q hq => ?_
        have := mem_range.1 hq
        simp only [ext, this, dif_pos, Pi.smul_apply, smul_eq_mul]
        ring }
  have hL : Function.Injective L := by
    rw [← LinearMap.ker_eq_bot, LinearMap.ker_eq_bot']
    intro x hx
    funext q
    have := hinj (ext x) (fun r hr => congrFun hx ⟨r, hr⟩) q q.2
    simpa [ext] using this
  obtain ⟨x, hx⟩ := LinearMap.injective_iff_surjective.1 hL (fun r => b r)
  exact ⟨ext x, fun r hr => congrFun hx ⟨r, hr⟩⟩

open Classical in
/-- Some solver: any solution if there is one. Shows that the assumptions on solvers can be met. -/
noncomputable def choiceSolver : Solver K := fun n A b =>
  if h : ∃ x, ∀ r < n, mulV n A x r = b r then h.choose else 0

theorem choiceSolver_solves (n : ℕ) (A : Mat K) (b : ℕ → K) (h : ∃ x, ∀ r < n, mulV n A x r = b r) :
    ∀ r < n, mulV n A (choiceSolver n A b) r = b r := by
  unfold choiceSolver
  rw [dif_pos h]
  exact h.choose_spec

theorem choiceSolver_regular : SolvesRegular (choiceSolver : Solver K) := fun n A b h =>
  choiceSolver_solves n A b (regular_solvable n A b h)

theorem choiceSolver_semidefinite : SolvesSemidefinite (choiceSolver : Solver K) := fun n A b _ _ h =>
  choiceSolver_solves n A b h

/-- The Gram matrix of a matrix with trivial kernel has trivial kernel. -/
theorem gram_regular (m n : ℕ) (A : Mat K)
    (hinj : ∀ x, (∀ r < m, mulV n A x r = 0) → ∀ q < n, x q = 0) (x : ℕ → K)
    (hx : ∀ r < n, mulV n (gram m A) x r = 0) : ∀ q < n, x q = 0 := by
  apply hinj
  have h0 : bil n (gram m A) x x = 0 := by
    rw [bil_eq_dot]
    exact sum_eq_zero fun p hp => by rw [hx p (mem_range.1 hp), mul_zero]
  rw [bil_gram] at h0
  intro r hr
  have := (sum_eq_zero_iff_of_nonneg (fun r _ => mul_self_nonneg _)).1 h0 r (mem_range.2 hr)
  exact mul_self_eq_zero.1 this

end Verif
