import Verif.Lemmas.Linear
import Mathlib.Algebra.Polynomial.Coeff
import Mathlib.Algebra.Polynomial.BigOperators
import Mathlib.Algebra.CharZero.Infinite

/-!
# Marsden's identity: the basis functions of degree `p` reproduce all polynomials of degree up to `p`
-/

set_option linter.unusedSectionVars false

namespace Verif

open Finset Polynomial

variable {K : Type*} [Field K] [LinearOrder K] [IsStrictOrderedRing K]

/-- The product of the distances of the `p` knots after knot `j` from `y`. -/
def knotProd (kn : ℕ → K) (p j : ℕ) (y : K) : K := ∏ l ∈ range p, (kn (j + 1 + l) - y)

/-- Marsden's identity. -/
theorem marsden (kn : ℕ → K) (n i : ℕ) (hm : MonoBelow kn n) (hlt : kn i < kn (i + 1)) (y : K) :
    ∀ p, p ≤ i → i + p + 1 < n →
      ∑ j ∈ Ico (i - p) (i + 1), C (knotProd kn p j y) * piece kn i p j = (X - C y) ^ p
  | 0, _, _ => by simp [knotProd, piece]
  | (p + 1), hp, hn => by
    rw [piece_step kn i p hp]
    have ih := marsden kn n i hm hlt y p (by omega) (by omega)
    rw [pow_succ', ← ih, mul_sum]
    refine sum_congr rfl fun j hj => ?_
    have hj' := mem_Ico.1 hj
    have hd : kn (j + p + 1) - kn j ≠ 0 := (denom_pos kn n i hm hlt p j (by omega) (by omega) (by omega)).ne'
    rw [← mul_assoc]
    congr 1
    have e1 : knotProd kn (p + 1) j y = knotProd kn p j y * (kn (j + p + 1) - y) := by
      unfold knotProd
      rw [prod_range_succ]
      congr 3
      omega
    by_cases hj0 : j = 0
    · omega
    have e2 : knotProd kn (p + 1) (j - 1) y = (kn j - y) * knotProd kn p j y := by
      unfold knotProd
      rw [prod_range_succ', mul_comm]
      congr 1
      · congr 2; omega
      · refine prod_congr rfl fun l _ => ?_
        congr 2; omega
    have hC : C (1 / (kn (j + p + 1) - kn j)) * (C (kn (j + p + 1)) - C (kn j)) = (1 : K[X]) := by
      rw [← C_sub, ← C_mul, one_div, inv_mul_cancel₀ hd, C_1]
    rw [e1, e2, C_mul, C_mul, C_sub, C_sub]
    linear_combination (C (knotProd kn p j y)) * (X - C y) * hC

/-- The product of the distances of the `p` knots after knot `j` from a variable. -/
noncomputable def knotPoly (kn : ℕ → K) (p j : ℕ) : K[X] := ∏ l ∈ range p, (C (kn (j + 1 + l)) - X)

theorem knotPoly_eval (kn : ℕ → K) (p j : ℕ) (y : K) : (knotPoly kn p j).eval y = knotProd kn p j y := by
  unfold knotPoly knotProd
  rw [eval_prod]
  simp

/-- The coefficients with which the basis functions of degree `p` reproduce a polynomial. -/
noncomputable def reproCoeff (kn : ℕ → K) (p : ℕ) (P : K[X]) (j : ℕ) : K :=
  ∑ q ∈ range (p + 1), P.coeff q * ((-1) ^ (p - q) * (knotPoly kn p j).coeff (p - q) / (p.choose q : K))

theorem coeff_C_sub_X_pow (x : K) (p m : ℕ) (hm : m ≤ p) :
    ((C x - X) ^ p : K[X]).coeff m = (-1) ^ m * x ^ (p - m) * (p.choose m : K) := by
  have e : (C x - X : K[X]) = C (-1) * (X + C (-x)) := by
    rw [C_neg, C_neg, C_1]; ring
  rw [e, mul_pow, ← C_pow, coeff_C_mul, coeff_X_add_C_pow, neg_pow x, ← mul_assoc, ← mul_assoc, ← pow_add]
  congr 2
  rw [show p + (p - m) = m + 2 * (p - m) by omega, pow_add, pow_mul]
  simp

theorem monomial_reproduced (kn : ℕ → K) (n i : ℕ) (hm : MonoBelow kn n) (hlt : kn i < kn (i + 1)) (p : ℕ) (hp : p ≤ i)
    (hn : i + p + 1 < n) (q : ℕ) (hq : q ≤ p) :
    ∑ j ∈ Ico (i - p) (i + 1), C ((-1) ^ (p - q) * (knotPoly kn p j).coeff (p - q) / (p.choose q : K)) * piece kn i p j = X ^ q := by
  apply Polynomial.funext
  intro x
  have h : ∑ j ∈ Ico (i - p) (i + 1), C ((piece kn i p j).eval x) * knotPoly kn p j = (C x - X) ^ p := by
    apply Polynomial.funext
    intro y
    have := congrArg (Polynomial.eval x) (marsden kn n i hm hlt y p hp hn)
    rw [eval_finsetSum] at this ⊢
    simp only [eval_mul, eval_C, eval_pow, eval_sub, eval_X, knotPoly_eval] at this ⊢
    rw [← this]
    exact sum_congr rfl fun j _ => mul_comm _ _
  have hc := congrArg (fun P => Polynomial.coeff P (p - q)) h
  simp only [finsetSum_coeff, coeff_C_mul] at hc
  rw [coeff_C_sub_X_pow x p (p - q) (by omega), show p - (p - q) = q by omega, Nat.choose_symm hq] at hc
  have hch : ((p.choose q : ℕ) : K) ≠ 0 := by exact_mod_cast (Nat.choose_pos hq).ne'
  rw [eval_finsetSum, eval_pow, eval_X]
  have h1 : ((-1 : K) ^ (p - q)) * ((-1) ^ (p - q)) = 1 := by
    rw [← mul_pow]; simp
  have : ∑ j ∈ Ico (i - p) (i + 1), (C ((-1) ^ (p - q) * (knotPoly kn p j).coeff (p - q) / (p.choose q : K)) * piece kn i p j).eval x
      = (-1) ^ (p - q) / (p.choose q : K) * ∑ j ∈ Ico (i - p) (i + 1), (piece kn i p j).eval x * (knotPoly kn p j).coeff (p - q) := by
    rw [mul_sum]
    refine sum_congr rfl fun j _ => ?_
    rw [eval_mul, eval_C]
    ring
  rw [this, hc]
  field_simp
  linear_combination (x ^ q) * h1

/-- The basis functions of degree `p` reproduce every polynomial of degree up to `p`. -/
theorem piece_reproduces (kn : ℕ → K) (n i : ℕ) (hm : MonoBelow kn n) (hlt : kn i < kn (i + 1)) (p : ℕ) (hp : p ≤ i)
    (hn : i + p + 1 < n) (P : K[X]) (hP : P.natDegree ≤ p) :
    ∑ j ∈ Ico (i - p) (i + 1), C (reproCoeff kn p P j) * piece kn i p j = P := by
  have : ∀ j ∈ Ico (i - p) (i + 1), C (reproCoeff kn p P j) * piece kn i p j
      = ∑ q ∈ range (p + 1), C (P.coeff q) * (C ((-1) ^ (p - q) * (knotPoly kn p j).coeff (p - q) / (p.choose q : K)) * piece kn i p j) := by
    intro j _
    unfold reproCoeff
    rw [map_sum, sum_mul]
    exact sum_congr rfl fun q _ => by rw [C_mul, mul_assoc]
  rw [sum_congr rfl this, sum_comm]
  conv_rhs => rw [P.as_sum_range_C_mul_X_pow' (Nat.lt_succ_of_le hP)]
  refine sum_congr rfl fun q hq => ?_
  rw [← mul_sum, monomial_reproduced kn n i hm hlt p hp hn q (by have := mem_range.1 hq; omega)]

end Verif
