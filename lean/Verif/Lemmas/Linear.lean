import Verif.Lemmas.PieceFacts
import Mathlib.Algebra.Polynomial.FieldDivision
import Mathlib.Algebra.Polynomial.Derivative

/-!
# Linear precision, degrees and uniqueness of Hermite interpolation
-/

set_option linter.unusedSectionVars false

namespace Verif

open Finset Polynomial

variable {K : Type*} [Field K] [LinearOrder K] [IsStrictOrderedRing K]

/-- The sum of the `p` knots after knot `j`. -/
def knotSum (kn : ℕ → K) (p j : ℕ) : K := ∑ l ∈ range p, kn (j + 1 + l)

/-- The basis polynomials of degree `p` reproduce `X`. -/
theorem piece_linear (kn : ℕ → K) (n i : ℕ) (hm : MonoBelow kn n) (hlt : kn i < kn (i + 1)) :
    ∀ p, p ≤ i → i + p + 1 < n →
      ∑ j ∈ Ico (i - p) (i + 1), C (knotSum kn p j) * piece kn i p j = C (p : K) * X
  | 0, _, _ => by simp [knotSum]
  | (p + 1), hp, hn => by
    rw [piece_step kn i p hp]
    have hone := piece_sum_one kn n i hm hlt p (by omega) (by omega)
    have ih := piece_linear kn n i hm hlt p (by omega) (by omega)
    have : ∑ j ∈ Ico (i - p) (i + 1),
        (C (1 / (kn (j + p + 1) - kn j)) * (X - C (kn j)) * C (knotSum kn (p + 1) j)
          + C (1 / (kn (j + p + 1) - kn j)) * (C (kn (j + p + 1)) - X) * C (knotSum kn (p + 1) (j - 1)))
            * piece kn i p j
        = ∑ j ∈ Ico (i - p) (i + 1), (C (knotSum kn p j) * piece kn i p j + X * piece kn i p j) := by
      refine sum_congr rfl fun j hj => ?_
      have hj' := mem_Ico.1 hj
      have hd : kn (j + p + 1) - kn j ≠ 0 := (denom_pos kn n i hm hlt p j (by omega) (by omega) (by omega)).ne'
      rw [← add_mul]
      congr 1
      have e1 : knotSum kn (p + 1) j = knotSum kn p j + kn (j + p + 1) := by
        unfold knotSum
        rw [sum_range_succ]
        congr 2
        omega
      have e2 : knotSum kn (p + 1) (j - 1) = kn j + knotSum kn p j := by
        unfold knotSum
        rw [sum_range_succ', add_comm]
        congr 1
        · congr 1; omega
        · refine sum_congr rfl fun l _ => ?_
          congr 1; omega
      have hC : C (1 / (kn (j + p + 1) - kn j)) * (C (kn (j + p + 1)) - C (kn j)) = (1 : K[X]) := by
        rw [← C_sub, ← C_mul, one_div, inv_mul_cancel₀ hd, C_1]
      rw [e1, e2, C_add, C_add]
      linear_combination (C (knotSum kn p j) + X) * hC
    rw [this, sum_add_distrib, ih, ← mul_sum, hone]
    push_cast
    rw [C_add, C_1]
    ring

theorem piece_natDegree (kn : ℕ → K) (i : ℕ) : ∀ p j, (piece kn i p j).natDegree ≤ p
  | 0, j => by
    simp only [piece]
    split_ifs <;> simp
  | (p + 1), j => by
    simp only [piece]
    have h1 := piece_natDegree kn i p j
    have h2 := piece_natDegree kn i p (j + 1)
    refine (natDegree_add_le _ _).trans (max_le ?_ ?_)
    · refine natDegree_mul_le.trans ?_
      have : (C (1 / (kn (j + p + 1) - kn j)) * (X - C (kn j))).natDegree ≤ 1 :=
        (natDegree_C_mul_le _ _).trans (natDegree_X_sub_C_le _)
      omega
    · refine natDegree_mul_le.trans ?_
      have : (C (1 / (kn (j + p + 2) - kn (j + 1))) * (C (kn (j + p + 2)) - X)).natDegree ≤ 1 := by
        refine (natDegree_C_mul_le _ _).trans ?_
        rw [← neg_sub, natDegree_neg]
        exact natDegree_X_sub_C_le _
      omega

/-- A polynomial of degree below `2m` with `m` vanishing derivatives (from order 0) at two points is zero. -/
theorem hermite_unique (Q : K[X]) (m : ℕ) (a b : K) (hab : a ≠ b) (hdeg : Q.natDegree < 2 * m)
    (ha : ∀ r, r < m → (derivative^[r] Q).eval a = 0) (hb : ∀ r, r < m → (derivative^[r] Q).eval b = 0) :
    Q = 0 := by
  by_contra hQ
  obtain ⟨m', rfl⟩ : ∃ m', m = m' + 1 := ⟨m - 1, by omega⟩
  have key : ∀ c : K, (∀ r, r < m' + 1 → (derivative^[r] Q).eval c = 0) → (X - C c) ^ (m' + 1) ∣ Q := by
    intro c hc
    have : m' < Q.rootMultiplicity c :=
      (lt_rootMultiplicity_iff_isRoot_iterate_derivative hQ).2 (fun r hr => hc r (by omega))
    exact (le_rootMultiplicity_iff hQ).1 this
  have hcop : IsCoprime ((X - C a) ^ (m' + 1)) ((X - C b) ^ (m' + 1)) :=
    (isCoprime_X_sub_C_of_isUnit_sub (sub_ne_zero.2 hab).isUnit).pow
  have hdvd := hcop.mul_dvd (key a ha) (key b hb)
  have := natDegree_le_of_dvd hdvd hQ
  rw [natDegree_mul (pow_ne_zero _ (X_sub_C_ne_zero a)) (pow_ne_zero _ (X_sub_C_ne_zero b)),
    natDegree_pow, natDegree_pow, natDegree_X_sub_C, natDegree_X_sub_C] at this
  omega

/-- The basis polynomials of one knot interval are linearly independent. -/
theorem piece_independent (kn : ℕ → K) (n i : ℕ) (hm : MonoBelow kn n) (hlt : kn i < kn (i + 1)) :
    ∀ p, p ≤ i → i + p + 1 < n → ∀ c : ℕ → K,
      ∑ j ∈ Ico (i - p) (i + 1), C (c j) * piece kn i p j = 0 → ∀ j, i - p ≤ j → j ≤ i → c j = 0
  | 0, _, _, c, h, j, h1, h2 => by
    have : j = i := by omega
    subst this
    simpa [piece] using h
  | (p + 1), hp, hn, c, h, j, h1, h2 => by
    have hd := congrArg derivative h
    rw [derivative_sum, derivative_zero] at hd
    have e1 : ∀ j ∈ Ico (i - (p + 1)) (i + 1), derivative (C (c j) * piece kn i (p + 1) j)
        = ((p : K[X]) + 1) * (C (c j) * (C (1 / (kn (j + p + 1) - kn j)) * piece kn i p j)
          - C (c (j + 1 - 1)) * (C (1 / (kn (j + 1 + p + 1) - kn (j + 1))) * piece kn i p (j + 1))) := by
      intro j hj
      have := mem_Ico.1 hj
      rw [derivative_C_mul, derivative_piece kn n i hm hlt p j (by omega), Nat.add_sub_cancel,
        show j + 1 + p + 1 = j + p + 2 by omega]
      ring
    rw [sum_congr rfl e1, ← mul_sum, sum_sub_distrib] at hd
    have e2 : ∑ j ∈ Ico (i - (p + 1)) (i + 1), C (c j) * (C (1 / (kn (j + p + 1) - kn j)) * piece kn i p j)
        = ∑ j ∈ Ico (i - p) (i + 1), C (c j) * (C (1 / (kn (j + p + 1) - kn j)) * piece kn i p j) := by
      rw [sum_eq_sum_Ico_succ_bot (by omega), show i - (p + 1) + 1 = i - p by omega,
        piece_zero_of_gt kn i p (i - (p + 1)) (by omega)]
      simp
    have e3 : ∑ j ∈ Ico (i - (p + 1)) (i + 1),
          C (c (j + 1 - 1)) * (C (1 / (kn (j + 1 + p + 1) - kn (j + 1))) * piece kn i p (j + 1))
        = ∑ j ∈ Ico (i - p) (i + 1), C (c (j - 1)) * (C (1 / (kn (j + p + 1) - kn j)) * piece kn i p j) := by
      rw [sum_Ico_add' (fun j => C (c (j - 1)) * (C (1 / (kn (j + p + 1) - kn j)) * piece kn i p j))
        (i - (p + 1)) (i + 1) 1, show i - (p + 1) + 1 = i - p by omega, sum_Ico_succ_top (by omega),
        piece_zero_of_lt kn i p (i + 1) (by omega)]
      simp
    rw [e2, e3, ← sum_sub_distrib] at hd
    have hp0 : ((p : K[X]) + 1) ≠ 0 := by exact_mod_cast (Nat.succ_ne_zero p)
    have hd' := (mul_eq_zero.1 hd).resolve_left hp0
    have ih := piece_independent kn n i hm hlt p (by omega) (by omega)
      (fun j => (c j - c (j - 1)) * (1 / (kn (j + p + 1) - kn j))) (by
        rw [← hd']
        refine sum_congr rfl fun j _ => ?_
        rw [C_mul, C_sub]
        ring)
    have step : ∀ j, i - p ≤ j → j ≤ i → c j = c (j - 1) := by
      intro j h1 h2
      have hden := denom_pos kn n i hm hlt p j (by omega) (by omega) (by omega)
      have := ih j h1 h2
      have h' := (mul_eq_zero.1 this).resolve_right (by
        rw [one_div]; exact inv_ne_zero hden.ne')
      linarith
    have all : ∀ m, i - (p + 1) + m ≤ i → c (i - (p + 1) + m) = c (i - (p + 1)) := by
      intro m
      induction m with
      | zero => intro _; rfl
      | succ m ihm =>
        intro hm'
        rw [step _ (by omega) hm', ← ihm (by omega)]
        congr 1
    have hall : ∀ j, i - (p + 1) ≤ j → j ≤ i → c j = c (i - (p + 1)) := by
      intro j h1 h2
      have := all (j - (i - (p + 1))) (by omega)
      rwa [show i - (p + 1) + (j - (i - (p + 1))) = j by omega] at this
    have hone := piece_sum_one kn n i hm hlt (p + 1) hp hn
    have hs : ∑ j ∈ Ico (i - (p + 1)) (i + 1), C (c j) * piece kn i (p + 1) j = C (c (i - (p + 1))) := by
      rw [← mul_one (C (c (i - (p + 1)))), ← hone, mul_sum]
      refine sum_congr rfl fun j hj => ?_
      have := mem_Ico.1 hj
      rw [hall j (by omega) (by omega)]
    rw [hs] at h
    rw [hall j h1 h2]
    simpa using h

end Verif
