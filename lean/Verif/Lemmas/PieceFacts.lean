import Mathlib.Tactic.LinearCombination
import Verif.Lemmas.Piece

/-!
# Facts about the polynomial pieces: partition of unity, sign, derivative, smooth joints
-/

set_option linter.unusedSectionVars false

namespace Verif

open Finset Polynomial

variable {K : Type*} [Field K] [LinearOrder K] [IsStrictOrderedRing K]

/-- One step of the de Boor algorithm for the pieces. -/
theorem piece_step (kn : ℕ → K) (i : ℕ) (p : ℕ) (hp : p + 1 ≤ i) (c : ℕ → K[X]) :
    ∑ j ∈ Ico (i - (p + 1)) (i + 1), c j * piece kn i (p + 1) j
      = ∑ j ∈ Ico (i - p) (i + 1),
        (C (1 / (kn (j + p + 1) - kn j)) * (X - C (kn j)) * c j
          + C (1 / (kn (j + p + 1) - kn j)) * (C (kn (j + p + 1)) - X) * c (j - 1)) * piece kn i p j := by
  have h1 : ∑ j ∈ Ico (i - (p + 1)) (i + 1), c j * piece kn i (p + 1) j
      = ∑ j ∈ Ico (i - (p + 1)) (i + 1),
          C (1 / (kn (j + p + 1) - kn j)) * (X - C (kn j)) * c j * piece kn i p j
        + ∑ j ∈ Ico (i - (p + 1)) (i + 1),
          C (1 / (kn (j + 1 + p + 1) - kn (j + 1))) * (C (kn (j + 1 + p + 1)) - X) * c (j + 1 - 1)
            * piece kn i p (j + 1) := by
    rw [← sum_add_distrib]
    refine sum_congr rfl fun j _ => ?_
    rw [piece, Nat.add_sub_cancel, show j + 1 + p + 1 = j + p + 2 by omega]
    ring
  rw [h1]
  have h2 : ∑ j ∈ Ico (i - (p + 1)) (i + 1),
          C (1 / (kn (j + p + 1) - kn j)) * (X - C (kn j)) * c j * piece kn i p j
      = ∑ j ∈ Ico (i - p) (i + 1),
          C (1 / (kn (j + p + 1) - kn j)) * (X - C (kn j)) * c j * piece kn i p j := by
    rw [sum_eq_sum_Ico_succ_bot (by omega), piece_zero_of_gt kn i p (i - (p + 1)) (by omega)]
    rw [show i - (p + 1) + 1 = i - p by omega]
    simp
  have h3 : ∑ j ∈ Ico (i - (p + 1)) (i + 1),
          C (1 / (kn (j + 1 + p + 1) - kn (j + 1))) * (C (kn (j + 1 + p + 1)) - X) * c (j + 1 - 1)
            * piece kn i p (j + 1)
      = ∑ j ∈ Ico (i - p) (i + 1),
          C (1 / (kn (j + p + 1) - kn j)) * (C (kn (j + p + 1)) - X) * c (j - 1) * piece kn i p j := by
    rw [sum_Ico_add' (fun j => C (1 / (kn (j + p + 1) - kn j)) * (C (kn (j + p + 1)) - X) * c (j - 1)
      * piece kn i p j) (i - (p + 1)) (i + 1) 1]
    rw [show i - (p + 1) + 1 = i - p by omega, sum_Ico_succ_top (by omega),
      piece_zero_of_lt kn i p (i + 1) (by omega)]
    simp
  rw [h2, h3, ← sum_add_distrib]
  refine sum_congr rfl fun j _ => ?_
  ring

theorem denom_pos (kn : ℕ → K) (n i : ℕ) (hm : MonoBelow kn n) (hlt : kn i < kn (i + 1)) (p j : ℕ)
    (h1 : j ≤ i) (h2 : i ≤ j + p) (h3 : j + p + 1 < n) : 0 < kn (j + p + 1) - kn j := by
  have a1 := hm j i h1 (by omega)
  have a2 := hm (i + 1) (j + p + 1) (by omega) h3
  linarith

/-- Partition of unity on the local basis functions. -/
theorem piece_sum_one (kn : ℕ → K) (n i : ℕ) (hm : MonoBelow kn n) (hlt : kn i < kn (i + 1)) :
    ∀ p, p ≤ i → i + p + 1 < n → ∑ j ∈ Ico (i - p) (i + 1), piece kn i p j = 1
  | 0, _, _ => by simp [piece]
  | (p + 1), hp, hn => by
      have h := piece_step kn i p hp (fun _ => 1)
      simp only [one_mul, mul_one] at h
      rw [h, ← piece_sum_one kn n i hm hlt p (by omega) (by omega)]
      refine sum_congr rfl fun j hj => ?_
      simp only [mem_Ico] at hj
      have hd := (denom_pos kn n i hm hlt p j (by omega) (by omega) (by omega)).ne'
      have : C (1 / (kn (j + p + 1) - kn j)) * (X - C (kn j))
          + C (1 / (kn (j + p + 1) - kn j)) * (C (kn (j + p + 1)) - X) = (1 : K[X]) := by
        have e : (1 : K[X]) = C (1 / (kn (j + p + 1) - kn j) * (kn (j + p + 1) - kn j)) := by
          rw [one_div, inv_mul_cancel₀ hd, C_1]
        rw [e, C_mul, C_sub]; ring
      rw [this, one_mul]

/-- Pieces are non-negative on their interval. -/
theorem piece_nonneg (kn : ℕ → K) (n i : ℕ) (hm : MonoBelow kn n) (t : K)
    (h1 : kn i ≤ t) (h2 : t ≤ kn (i + 1)) :
    ∀ p j, j + p + 1 < n → 0 ≤ (piece kn i p j).eval t
  | 0, j, _ => by
      simp only [piece]; split_ifs <;> simp
  | (p + 1), j, hn => by
      rw [piece_eval_succ]
      have A := piece_nonneg kn n i hm t h1 h2 p j (by omega)
      have B := piece_nonneg kn n i hm t h1 h2 p (j + 1) (by omega)
      apply add_nonneg
      · by_cases h : j ≤ i
        · by_cases h' : i ≤ j + p
          · apply mul_nonneg _ A
            apply div_nonneg
            · have := hm j i h (by omega); linarith
            · have := hm j (j + p + 1) (by omega) (by omega); linarith
          · rw [piece_zero_of_gt kn i p j (by omega)]; simp
        · rw [piece_zero_of_lt kn i p j (by omega)]; simp
      · by_cases h : i ≤ j + 1 + p
        · apply mul_nonneg _ B
          apply div_nonneg
          · have := hm (i + 1) (j + p + 2) (by omega) (by omega); linarith
          · have := hm (j + 1) (j + p + 2) (by omega) (by omega); linarith
        · rw [piece_zero_of_gt kn i p (j + 1) (by omega)]; simp

/-- Differentiation formula: the derivative of a basis function is a difference of two basis functions
of one degree less. -/
theorem derivative_piece (kn : ℕ → K) (n i : ℕ) (hm : MonoBelow kn n) (hlt : kn i < kn (i + 1)) :
    ∀ p j, j + p + 2 < n → derivative (piece kn i (p + 1) j)
      = ((p : K[X]) + 1) * (C (1 / (kn (j + p + 1) - kn j)) * piece kn i p j
          - C (1 / (kn (j + p + 2) - kn (j + 1))) * piece kn i p (j + 1))
  | 0, j, _ => by
      have h0 : ∀ j, derivative (piece kn i 0 j) = 0 := by
        intro j; simp only [piece]; split_ifs <;> simp
      simp only [piece, derivative_add, derivative_mul, derivative_sub, derivative_X, derivative_C]
      have h1 := h0 j
      have h2 := h0 (j + 1)
      simp only [piece] at h1 h2
      rw [h1, h2]
      push_cast
      ring
  | (p + 1), j, hn => by
      have A := derivative_piece kn n i hm hlt p j (by omega)
      have B := derivative_piece kn n i hm hlt p (j + 1) (by omega)
      have e1 : piece kn i (p + 1 + 1) j = C (1 / (kn (j + (p + 1) + 1) - kn j)) * (X - C (kn j)) *
          piece kn i (p + 1) j + C (1 / (kn (j + (p + 1) + 2) - kn (j + 1))) *
          (C (kn (j + (p + 1) + 2)) - X) * piece kn i (p + 1) (j + 1) := rfl
      have e2 : piece kn i (p + 1) j = C (1 / (kn (j + p + 1) - kn j)) * (X - C (kn j)) *
          piece kn i p j + C (1 / (kn (j + p + 2) - kn (j + 1))) *
          (C (kn (j + p + 2)) - X) * piece kn i p (j + 1) := rfl
      have e3 : piece kn i (p + 1) (j + 1) = C (1 / (kn (j + 1 + p + 1) - kn (j + 1))) *
          (X - C (kn (j + 1))) * piece kn i p (j + 1)
          + C (1 / (kn (j + 1 + p + 2) - kn (j + 1 + 1))) *
          (C (kn (j + 1 + p + 2)) - X) * piece kn i p (j + 1 + 1) := rfl
      rw [e1]
      simp only [derivative_add, derivative_mul, derivative_sub, derivative_X, derivative_C, A, B]
      -- the key cancellation
      have key : (C (1 / (kn (j + (p + 1) + 1) - kn j)) * C (kn (j + (p + 1) + 1) - kn j)
          - C (1 / (kn (j + (p + 1) + 2) - kn (j + 1))) * C (kn (j + (p + 1) + 2) - kn (j + 1)))
            * piece kn i p (j + 1) = 0 := by
        by_cases hs : j + 1 ≤ i ∧ i ≤ j + 1 + p
        · have d1 := (denom_pos kn n i hm hlt (p + 1) j (by omega) (by omega) (by omega)).ne'
          have d2 := (denom_pos kn n i hm hlt (p + 1) (j + 1) (by omega) (by omega) (by omega)).ne'
          rw [show j + 1 + (p + 1) + 1 = j + (p + 1) + 2 by omega] at d2
          rw [← C_mul, ← C_mul, one_div, one_div, inv_mul_cancel₀ d1, inv_mul_cancel₀ d2]
          simp
        · have : piece kn i p (j + 1) = 0 := by
            by_cases h' : j + 1 ≤ i
            · exact piece_zero_of_gt _ _ _ _ (by omega)
            · exact piece_zero_of_lt _ _ _ _ (by omega)
          rw [this, mul_zero]
      rw [e2, e3]
      rw [show j + 1 + p + 1 = j + p + 2 by omega, show j + 1 + p + 2 = j + (p + 1) + 2 by omega,
        show j + 1 + 1 = j + 2 by omega] at *
      rw [show j + (p + 1) + 1 = j + p + 2 by omega, show j + (p + 1) + 2 = j + p + 3 by omega] at *
      simp only [C_sub] at key
      push_cast
      linear_combination (-((p : K[X]) + 1) * C (1 / (kn (j + p + 2) - kn (j + 1)))) * key

/-- Value of the left pieces at a knot `τ` repeated `μ` times. -/
theorem piece_left_value (kn : ℕ → K) (a μ : ℕ) (τ : K) (hlt : kn a < τ)
    (heq : ∀ l, a + 1 ≤ l → l ≤ a + μ → kn l = τ) :
    ∀ p j, p ≤ μ → (piece kn a p j).eval τ = if j = a then 1 else 0
  | 0, j, _ => by simp only [piece]; split_ifs <;> simp
  | (p + 1), j, hp => by
      rw [piece_eval_succ, piece_left_value kn a μ τ hlt heq p j (by omega),
        piece_left_value kn a μ τ hlt heq p (j + 1) (by omega)]
      by_cases h1 : j = a
      · subst h1
        have : kn (j + p + 1) = τ := heq _ (by omega) (by omega)
        have h2 : τ - kn j ≠ 0 := by linarith
        simp [this, div_self h2]
      · by_cases h2 : j + 1 = a
        · have : kn (j + p + 2) = τ := heq _ (by omega) (by omega)
          simp [h1, h2, this]
        · simp [h1, h2]

/-- Value of the right pieces at a knot `τ` repeated `μ` times. -/
theorem piece_right_value (kn : ℕ → K) (a μ : ℕ) (τ : K) (hlt : τ < kn (a + μ + 1))
    (heq : ∀ l, a + 1 ≤ l → l ≤ a + μ → kn l = τ) :
    ∀ p j, p ≤ μ → (piece kn (a + μ) p j).eval τ = if j + p = a + μ then 1 else 0
  | 0, j, _ => by simp only [piece]; split_ifs <;> simp_all
  | (p + 1), j, hp => by
      rw [piece_eval_succ, piece_right_value kn a μ τ hlt heq p j (by omega),
        piece_right_value kn a μ τ hlt heq p (j + 1) (by omega)]
      by_cases h1 : j + p = a + μ
      · have : kn j = τ := heq _ (by omega) (by omega)
        have h2 : ¬ j + (p + 1) = a + μ := by omega
        have h3 : ¬ j + 1 + p = a + μ := by omega
        simp [h2, h3, this]
      · by_cases h2 : j + (p + 1) = a + μ
        · have h3 : j + 1 + p = a + μ := by omega
          have h4 : kn (j + 1) = τ := heq _ (by omega) (by omega)
          have h5 : j + p + 2 = a + μ + 1 := by omega
          have h6 : kn (a + μ + 1) - τ ≠ 0 := by linarith
          simp [h1, h2, h3, h4, h5, div_self h6]
        · have h3 : ¬ j + 1 + p = a + μ := by omega
          simp [h1, h2, h3]

/-- The two pieces meeting at a knot of multiplicity `μ` have the same value there if the degree is at
least `μ`. -/
theorem piece_join_value (kn : ℕ → K) (a μ : ℕ) (τ : K) (h1 : kn a < τ) (h2 : τ < kn (a + μ + 1))
    (heq : ∀ l, a + 1 ≤ l → l ≤ a + μ → kn l = τ) (q : ℕ) :
    ∀ j, (piece kn a (μ + q) j).eval τ = (piece kn (a + μ) (μ + q) j).eval τ := by
  induction q with
  | zero =>
    intro j
    rw [piece_left_value kn a μ τ h1 heq _ _ (by omega),
      piece_right_value kn a μ τ h2 heq _ _ (by omega)]
    congr 1
    apply propext
    constructor <;> intro h <;> omega
  | succ q ih =>
    intro j
    rw [show μ + (q + 1) = μ + q + 1 by omega, piece_eval_succ, piece_eval_succ, ih, ih]

/-- … and the same derivatives up to the degree minus `μ`. -/
theorem piece_join_derivative (kn : ℕ → K) (n a μ : ℕ) (hm : MonoBelow kn n) (τ : K)
    (h1 : kn a < τ) (h2 : τ < kn (a + μ + 1)) (hμ : 1 ≤ μ)
    (heq : ∀ l, a + 1 ≤ l → l ≤ a + μ → kn l = τ) :
    ∀ (d p j : ℕ), d + μ ≤ p → j + p + 1 < n →
      (derivative^[d] (piece kn a p j)).eval τ = (derivative^[d] (piece kn (a + μ) p j)).eval τ := by
  intro d
  induction d with
  | zero =>
    intro p j hp _
    obtain ⟨q, rfl⟩ := Nat.exists_eq_add_of_le (show μ ≤ p by omega)
    exact piece_join_value kn a μ τ h1 h2 heq q j
  | succ d ih =>
    intro p j hp hn
    obtain ⟨p', rfl⟩ : ∃ p', p = p' + 1 := ⟨p - 1, by omega⟩
    have l1 : kn a < kn (a + 1) := by rw [heq (a + 1) (by omega) (by omega)]; exact h1
    have l2 : kn (a + μ) < kn (a + μ + 1) := by rw [heq (a + μ) (by omega) (by omega)]; exact h2
    rw [Function.iterate_succ_apply, Function.iterate_succ_apply,
      derivative_piece kn n a hm l1 p' j (by omega),
      derivative_piece kn n (a + μ) hm l2 p' j (by omega)]
    have cast : ((p' : K[X]) + 1) = C ((p' : K) + 1) := by simp
    rw [cast]
    simp only [iterate_derivative_C_mul, iterate_derivative_sub, eval_mul, eval_sub, eval_C]
    rw [ih p' j (by omega) (by omega), ih p' (j + 1) (by omega) (by omega)]

end Verif
