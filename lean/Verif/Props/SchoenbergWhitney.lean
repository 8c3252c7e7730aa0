import Verif.Props.Zeros
import Mathlib.LinearAlgebra.Matrix.NonsingularInverse
import Mathlib.LinearAlgebra.Basis.VectorSpace
import Mathlib.LinearAlgebra.FiniteDimensional.Basic
import Mathlib.Data.Fin.Tuple.Sort

/-!
# Necessity of the condition of Schoenberg and Whitney

If the values at finitely many times determine a spline, one can choose one time in the support of each basis function, in the same order.
-/

set_option linter.unusedSectionVars false

namespace Verif

open Finset Polynomial

/-- One of the times strictly inside the support `(kn j, kn (j + k))` of each of the first `n` basis functions of order `k`, the times in
the order of the basis functions. -/
def Spec.Interlaced (k : ℕ) (kn : ℕ → ℝ) (n : ℕ) (times : List ℝ) : Prop :=
  ∃ x : ℕ → ℝ, (∀ j, j + 1 < n → x j < x (j + 1)) ∧ ∀ j < n, x j ∈ times ∧ kn j < x j ∧ x j < kn (j + k)

namespace Zeros

theorem piece_first_right (kn : ℕ → ℝ) (j q : ℕ) : (piece kn (j + (q + 1)) (q + 1) j).eval (kn (j + (q + 1) + 1)) = 0 := by
  rw [piece_eval_succ, piece_zero_of_gt kn (j + (q + 1)) q j (by omega), show j + (q + 1) + 1 = j + q + 2 by omega]
  simp

/-- A basis function is zero outside of its support. -/
theorem piece_inside {kn : ℕ → ℝ} {n p i j : ℕ} {t : ℝ} (hm : MonoBelow kn n) (hp : 1 ≤ p) (hj : j + p + 1 < n) (ht : At kn i t)
    (hs : ∀ a b, a < b → b < n → kn a < kn b)
    (hne : (piece kn i p j).eval t ≠ 0) : kn j < t ∧ t < kn (j + p + 1) := by
  have h1 : j ≤ i := by
    by_contra hc
    exact hne (by rw [piece_zero_of_lt kn i p j (by omega), eval_zero])
  have h2 : i ≤ j + p := by
    by_contra hc
    exact hne (by rw [piece_zero_of_gt kn i p j (by omega), eval_zero])
  constructor
  · refine lt_of_le_of_ne ((hm j i h1 (by omega)).trans ht.1) fun hc => hne ?_
    rcases Nat.lt_or_ge j i with h | h
    · have := hs j i h (by omega)
      have := ht.1
      linarith
    · obtain rfl : i = j := by omega
      rw [← hc]
      exact piece_last_left kn i p hp
  · refine lt_of_le_of_ne (ht.2.trans (hm (i + 1) (j + p + 1) (by omega) hj)) fun hc => hne ?_
    rcases Nat.lt_or_ge i (j + p) with h | h
    · have := hs (i + 1) (j + p + 1) (by omega) hj
      have := ht.2
      linarith
    · obtain rfl : i = j + p := by omega
      obtain ⟨q, rfl⟩ : ∃ q, p = q + 1 := ⟨p - 1, by omega⟩
      rw [hc]
      exact piece_first_right kn j q

theorem seg_eval {kn : ℕ → ℝ} {N p i : ℕ} (c : ℕ → ℝ) (hi : i < N) (t : ℝ) :
    (seg kn p c i).eval t = ∑ j : Fin N, c j * (piece kn i p j).eval t := by
  rw [Fin.sum_univ_eq_sum_range (fun j => c j * (piece kn i p j).eval t) N]
  unfold seg
  rw [eval_finsetSum]
  simp only [eval_mul, eval_C]
  refine sum_subset (fun j hj => ?_) fun j hj hn => ?_
  · have := mem_Ico.1 hj
    exact mem_range.2 (by omega)
  · rw [mem_Ico] at hn
    rcases Nat.lt_or_ge i j with h | h
    · rw [piece_zero_of_lt kn i p j h, eval_zero, mul_zero]
    · rw [piece_zero_of_gt kn i p j (by omega), eval_zero, mul_zero]

/-- A choice of one time per basis function can be sorted. -/
theorem sort_choice {N : ℕ} {lo hi : ℕ → ℝ} (hlo : ∀ a b, a ≤ b → b < N → lo a ≤ lo b) (hhi : ∀ a b, a ≤ b → b < N → hi a ≤ hi b)
    (Y : Fin N → ℝ) (hY : Function.Injective Y) (hin : ∀ j : Fin N, lo j < Y j ∧ Y j < hi j) :
    StrictMono (Y ∘ Tuple.sort Y) ∧ ∀ j : Fin N, lo j < (Y ∘ Tuple.sort Y) j ∧ (Y ∘ Tuple.sort Y) j < hi j := by
  have hmono := Tuple.monotone_sort Y
  refine ⟨hmono.strictMono_of_injective (hY.comp (Tuple.sort Y).injective), fun j => ⟨?_, ?_⟩⟩
  · by_contra hc
    push Not at hc
    have key : ∀ i : Fin N, i ≤ j → (Tuple.sort Y i) < j := by
      intro i hi
      by_contra hh
      push Not at hh
      have h1 := hmono hi
      have h2 := (hin (Tuple.sort Y i)).1
      have h3 := hlo j (Tuple.sort Y i) hh (Tuple.sort Y i).2
      simp only [Function.comp_apply] at h1 hc
      linarith
    have h1 := card_le_card_of_injOn (s := Finset.Iic j) (t := Finset.Iio j) (Tuple.sort Y)
      (fun i hi => by simpa using key i (by simpa using hi)) (Tuple.sort Y).injective.injOn
    rw [Fin.card_Iic, Fin.card_Iio] at h1
    omega
  · by_contra hc
    push Not at hc
    have key : ∀ i : Fin N, j ≤ i → j < (Tuple.sort Y i) := by
      intro i hi'
      by_contra hh
      push Not at hh
      have h1 := hmono hi'
      have h2 := (hin (Tuple.sort Y i)).2
      have h3 := hhi (Tuple.sort Y i) j hh j.2
      simp only [Function.comp_apply] at h1 hc
      linarith
    have h1 := card_le_card_of_injOn (s := Finset.Ici j) (t := Finset.Ioi j) (Tuple.sort Y)
      (fun i hi => by simpa using key i (by simpa using hi)) (Tuple.sort Y).injective.injOn
    rw [Fin.card_Ici, Fin.card_Ioi] at h1
    have := j.2
    omega

/-- **Schoenberg and Whitney**, necessity. -/
theorem interlaced_of_determined {kn : ℕ → ℝ} {n N p : ℕ} (hs : ∀ a b, a < b → b < n → kn a < kn b) (hN : N + p + 1 = n) (hp : 1 ≤ p)
    (times : List ℝ) (sg : ℝ → ℕ) (hsg : ∀ t ∈ times, sg t < N ∧ At kn (sg t) t)
    (hker : ∀ c : ℕ → ℝ, (∀ t ∈ times, (seg kn p c (sg t)).eval t = 0) → ∀ j < N, c j = 0) : Spec.Interlaced (p + 1) kn N times := by
  have hm : MonoBelow kn n := fun a b hab hb => by
    rcases hab.lt_or_eq with h | h
    · exact (hs a b h hb).le
    · rw [h]
  let v : Fin times.length → Fin N → ℝ := fun i j => (piece kn (sg (times.get i)) p j).eval (times.get i)
  have hspan : Submodule.span ℝ (Set.range v) = ⊤ := by
    by_contra hne
    obtain ⟨f, hf, hle⟩ := Submodule.exists_le_ker_of_lt_top _ (lt_top_iff_ne_top.2 hne)
    refine hf (LinearMap.pi_ext' fun j => LinearMap.ext_ring ?_)
    have hz := hker (fun j => if h : j < N then f (Pi.single ⟨j, h⟩ 1) else 0) (fun t ht => by
      obtain ⟨i, rfl⟩ := List.get_of_mem ht
      rw [seg_eval _ (hsg _ ht).1]
      have h0 : f (v i) = 0 := hle (Submodule.subset_span ⟨i, rfl⟩)
      rw [← Finset.univ_sum_single (v i), map_sum] at h0
      rw [← h0]
      refine sum_congr rfl fun j _ => ?_
      have : (Pi.single j (v i j) : Fin N → ℝ) = v i j • Pi.single j 1 := by
        rw [← Pi.single_smul, smul_eq_mul, mul_one]
      rw [this, map_smul, smul_eq_mul, dif_pos j.2, mul_comm]) j j.2
    simpa [j.2] using hz
  obtain ⟨κ, a, ha, hsp, hli⟩ := exists_linearIndependent' ℝ v
  rw [hspan] at hsp
  haveI : Finite κ := Finite.of_injective a ha
  haveI := Fintype.ofFinite κ
  let B : Module.Basis κ ℝ (Fin N → ℝ) := Module.Basis.mk hli hsp.ge
  have hcard : Fintype.card κ = N := by
    rw [← Module.finrank_eq_card_basis B, Module.finrank_fin_fun]
  let e : Fin N ≃ κ := (Fintype.equivFinOfCardEq hcard).symm
  let A : Matrix (Fin N) (Fin N) ℝ := fun k j => v (a (e k)) j
  have hA : LinearIndependent ℝ A.row := hli.comp e e.injective
  have hdet : A.det ≠ 0 := by
    rw [Matrix.linearIndependent_rows_iff_isUnit, Matrix.isUnit_iff_isUnit_det] at hA
    exact hA.ne_zero
  rw [Matrix.det_apply] at hdet
  obtain ⟨σ, -, hσ⟩ := exists_ne_zero_of_sum_ne_zero hdet
  have hprod : ∀ j, A (σ j) j ≠ 0 := fun j hj => hσ (by
    rw [prod_eq_zero (f := fun i => A (σ i) i) (mem_univ j) hj, smul_zero])
  let Y : Fin N → ℝ := fun j => times.get (a (e (σ j)))
  have hYinj : Function.Injective Y := by
    intro j j' h
    have h1 : A.row (σ j) = A.row (σ j') := by
      funext l
      change (piece kn (sg (Y j)) p l).eval (Y j) = (piece kn (sg (Y j')) p l).eval (Y j')
      rw [h]
    exact σ.injective (hA.injective h1)
  have hYin : ∀ j : Fin N, kn j < Y j ∧ Y j < kn (j + p + 1) := fun j =>
    piece_inside hm hp (by have := j.2; omega) (hsg _ (List.get_mem times _)).2 hs (hprod j)
  obtain ⟨h1, h2⟩ := sort_choice (lo := kn) (hi := fun j => kn (j + p + 1)) (fun a b hab hb => hm a b hab (by omega))
    (fun a b hab hb => hm _ _ (by omega) (by omega)) Y hYinj hYin
  refine ⟨fun j => if h : j < N then (Y ∘ Tuple.sort Y) ⟨j, h⟩ else 0, fun j hj => ?_, fun j hj => ?_⟩
  · dsimp only
    rw [dif_pos (by omega), dif_pos hj]
    exact h1 (by simp)
  · dsimp only
    rw [dif_pos hj]
    exact ⟨List.get_mem times _, h2 ⟨j, hj⟩⟩

end Zeros

end Verif
