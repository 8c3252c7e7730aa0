import Mathlib.Algebra.Polynomial.Derivative
import Mathlib.Algebra.Polynomial.Eval.Defs
import Mathlib.Tactic.Ring
import Mathlib.Tactic.FieldSimp
import Mathlib.Tactic.Linarith
import Verif.Model.BSpline
import Verif.Spec.CoxDeBoor

/-!
# Polynomial pieces of the basis functions

`piece kn i p j` is the polynomial that agrees with the basis function `N p j` on the knot interval
number `i`.  The columns of the model's basis matrices are these polynomials.
-/

set_option linter.unusedSectionVars false

namespace Verif

open Finset Polynomial

variable {K : Type*} [Field K]

/-- The polynomial piece on interval `i` of the basis function `j` of degree `p`. -/
noncomputable def piece (kn : ℕ → K) (i : ℕ) : ℕ → ℕ → K[X]
  | 0, j => if j = i then 1 else 0
  | (p + 1), j =>
      C (1 / (kn (j + p + 1) - kn j)) * (X - C (kn j)) * piece kn i p j
        + C (1 / (kn (j + p + 2) - kn (j + 1))) * (C (kn (j + p + 2)) - X) * piece kn i p (j + 1)

theorem piece_zero_of_lt (kn : ℕ → K) (i : ℕ) : ∀ p j, i < j → piece kn i p j = 0
  | 0, j, h => by simp [piece]; omega
  | (p + 1), j, h => by
      simp [piece, piece_zero_of_lt kn i p j h, piece_zero_of_lt kn i p (j + 1) (by omega)]

theorem piece_zero_of_gt (kn : ℕ → K) (i : ℕ) : ∀ p j, j + p < i → piece kn i p j = 0
  | 0, j, h => by simp [piece]; omega
  | (p + 1), j, h => by
      simp [piece, piece_zero_of_gt kn i p j (by omega), piece_zero_of_gt kn i p (j + 1) (by omega)]

theorem piece_eval_succ (kn : ℕ → K) (i p j : ℕ) (t : K) :
    (piece kn i (p + 1) j).eval t =
      (t - kn j) / (kn (j + p + 1) - kn j) * (piece kn i p j).eval t
        + (kn (j + p + 2) - t) / (kn (j + p + 2) - kn (j + 1)) * (piece kn i p (j + 1)).eval t := by
  simp only [piece, eval_add, eval_mul, eval_C, eval_sub, eval_X]
  ring

section Order
variable [LinearOrder K]

theorem N_eq_piece (kn : ℕ → K) (i : ℕ) (t : K) (n : ℕ)
    (h : ∀ j, j < n → (kn j ≤ t ∧ t < kn (j + 1) ↔ j = i)) :
    ∀ p j, j + p < n → Spec.N kn p j t = (piece kn i p j).eval t
  | 0, j, hj => by
      have := h j hj
      by_cases hji : j = i
      · simp [Spec.N, piece, hji, h i (hji ▸ hj)]
      · simp only [Spec.N, piece, hji]
        rw [if_neg (by rw [this]; exact hji)]
        simp
  | (p + 1), j, hj => by
      rw [piece_eval_succ, Spec.N, N_eq_piece kn i t n h p j (by omega),
        N_eq_piece kn i t n h p (j + 1) (by omega)]

theorem NLeft_eq_piece (kn : ℕ → K) (i : ℕ) (t : K) (n : ℕ)
    (h : ∀ j, j < n → (kn j < t ∧ t ≤ kn (j + 1) ↔ j = i)) :
    ∀ p j, j + p < n → Spec.NLeft kn p j t = (piece kn i p j).eval t
  | 0, j, hj => by
      have := h j hj
      by_cases hji : j = i
      · simp [Spec.NLeft, piece, hji, h i (hji ▸ hj)]
      · simp only [Spec.NLeft, piece, hji]
        rw [if_neg (by rw [this]; exact hji)]
        simp
  | (p + 1), j, hj => by
      rw [piece_eval_succ, Spec.NLeft, NLeft_eq_piece kn i t n h p j (by omega),
        NLeft_eq_piece kn i t n h p (j + 1) (by omega)]

/-- The polynomial in the relative position `u` given by column `c` of a basis matrix. -/
noncomputable def colPoly (kn : ℕ → K) (i k c : ℕ) : K[X] :=
  ∑ r ∈ range k, C (basisM kn i k r c) * X ^ r

/-- The rows of the recursion of `M` as a recursion on the column polynomials. -/
theorem colPoly_succ (kn : ℕ → K) (i k c : ℕ) :
    colPoly kn i (k + 2) c =
      (∑ x ∈ range (k + 1), colPoly kn i (k + 1) x * C (matA kn (k + 2) i x c))
        + X * ∑ x ∈ range (k + 1), colPoly kn i (k + 1) x * C (matB kn (k + 2) i x c) := by
  unfold colPoly
  conv_lhs => simp only [basisM]
  simp only [C_add, add_mul, sum_add_distrib]
  congr 1
  · rw [sum_range_succ]
    simp only [lt_irrefl, if_false, zero_mul, sum_const_zero, C_0, add_zero]
    simp only [map_sum, sum_mul]
    rw [sum_comm]
    refine sum_congr rfl fun x _ => sum_congr rfl fun r hr => ?_
    rw [if_pos (mem_range.1 hr), C_mul]; ring
  · rw [sum_range_succ']
    simp only [if_true, zero_mul, sum_const_zero, C_0, add_zero]
    simp only [map_sum, sum_mul, mul_sum]
    rw [sum_comm]
    refine sum_congr rfl fun x _ => sum_congr rfl fun r hr => ?_
    simp only [Nat.add_eq_zero_iff, one_ne_zero, and_false, if_false, Nat.add_sub_cancel, C_mul]
    ring

theorem sum_two (n c : ℕ) (f : ℕ → K[X]) (a b : ℕ → K) :
    ∑ x ∈ range n, f x * C (if c = x then a x else if c = x + 1 then b x else 0)
      = (if c < n then f c * C (a c) else 0)
        + (if 1 ≤ c ∧ c - 1 < n then f (c - 1) * C (b (c - 1)) else 0) := by
  have : ∀ x ∈ range n, f x * C (if c = x then a x else if c = x + 1 then b x else 0)
      = (if c = x then f x * C (a x) else 0) + (if c = x + 1 then f x * C (b x) else 0) := by
    intro x _
    by_cases h1 : c = x
    · have : ¬ c = x + 1 := by omega
      simp [h1]
    · by_cases h2 : c = x + 1 <;> simp [h1, h2]
  rw [sum_congr rfl this, sum_add_distrib]
  congr 1
  · rw [sum_ite_eq]; simp
  · by_cases hc : 1 ≤ c
    · obtain ⟨c', rfl⟩ : ∃ c', c = c' + 1 := ⟨c - 1, by omega⟩
      simp [sum_ite_eq]
    · have : c = 0 := by omega
      subst this; simp

variable [IsStrictOrderedRing K]

/-- Monotone knots on the indices below `n`. -/
def MonoBelow (kn : ℕ → K) (n : ℕ) : Prop := ∀ a b, a ≤ b → b < n → kn a ≤ kn b

/-- Column `c` of the basis matrix of order `p+1`, read as a polynomial in the relative position, is
the polynomial piece of the basis function `i - p + c`. -/
theorem colPoly_eq_piece (kn : ℕ → K) (n i : ℕ) (hm : MonoBelow kn n) (hlt : kn i < kn (i + 1)) :
    ∀ p c, p ≤ i → i + p + 1 < n → c ≤ p →
      colPoly kn i (p + 1) c
        = (piece kn i p (i - p + c)).comp (C (kn (i + 1) - kn i) * X + C (kn i))
  | 0, c, hp, hn, hc => by
      have : c = 0 := by omega
      subst this
      simp [colPoly, basisM, piece]
  | (p + 1), c, hp, hn, hc => by
      have IH := fun c' (h : c' ≤ p) =>
        colPoly_eq_piece kn n i hm hlt p c' (by omega) (by omega) h
      rw [colPoly_succ]
      unfold matA matB
      rw [sum_two, sum_two]
      -- the two knot ratios
      have hden : ∀ j, j ≤ i → i + 1 ≤ j + p + 1 → j + p + 1 < n → 0 < kn (j + p + 1) - kn j := by
        intro j h1 h2 h3
        have a1 := hm j i h1 (by omega)
        have a2 := hm (i + 1) (j + p + 1) h2 h3
        linarith
      have e1 : i - (p + 1) + c = i - p + c - 1 := by omega
      rw [piece]
      -- left neighbour
      have hleft : (if 1 ≤ c ∧ c - 1 < p + 1 then
            colPoly kn i (p + 1) (c - 1) * C (d0 kn (p + 2) i (i + 2 + (c - 1) - (p + 2))) else 0)
          + X * (if 1 ≤ c ∧ c - 1 < p + 1 then
            colPoly kn i (p + 1) (c - 1) * C (d1 kn (p + 2) i (i + 2 + (c - 1) - (p + 2))) else 0)
          = (C (1 / (kn (i - (p + 1) + c + p + 1) - kn (i - (p + 1) + c))) *
              (X - C (kn (i - (p + 1) + c))) * piece kn i p (i - (p + 1) + c)).comp
              (C (kn (i + 1) - kn i) * X + C (kn i)) := by
        by_cases h1 : 1 ≤ c
        · have h2 : c - 1 < p + 1 := by omega
          have e2 : i + 2 + (c - 1) - (p + 2) = i - (p + 1) + c := by omega
          have e3 : i - p + (c - 1) = i - (p + 1) + c := by omega
          have hd := hden (i - (p + 1) + c) (by omega) (by omega) (by omega)
          have e4 : i - (p + 1) + c + (p + 2) - 1 = i - (p + 1) + c + p + 1 := by omega
          simp only [h1, h2, and_self, if_true]
          rw [IH (c - 1) (by omega), e2, e3]
          unfold d0 d1
          simp only [e4, not_le.2 hd, if_false]
          simp only [mul_comp, sub_comp, C_comp, X_comp, div_eq_mul_inv, C_mul, one_mul, C_sub]
          ring
        · have : c = 0 := by omega
          subst this
          rw [piece_zero_of_gt kn i p (i - (p + 1) + 0) (by omega)]
          simp
      have hright : (if c < p + 1 then
            colPoly kn i (p + 1) c * C (1 - d0 kn (p + 2) i (i + 2 + c - (p + 2))) else 0)
          + X * (if c < p + 1 then
            colPoly kn i (p + 1) c * C (- d1 kn (p + 2) i (i + 2 + c - (p + 2))) else 0)
          = (C (1 / (kn (i - (p + 1) + c + p + 2) - kn (i - (p + 1) + c + 1))) *
              (C (kn (i - (p + 1) + c + p + 2)) - X) * piece kn i p (i - (p + 1) + c + 1)).comp
              (C (kn (i + 1) - kn i) * X + C (kn i)) := by
        by_cases h1 : c < p + 1
        · have e2 : i + 2 + c - (p + 2) = i - (p + 1) + c + 1 := by omega
          have e3 : i - p + c = i - (p + 1) + c + 1 := by omega
          have hd := hden (i - (p + 1) + c + 1) (by omega) (by omega) (by omega)
          have e4 : i - (p + 1) + c + 1 + (p + 2) - 1 = i - (p + 1) + c + 1 + p + 1 := by omega
          have e5 : i - (p + 1) + c + p + 2 = i - (p + 1) + c + 1 + p + 1 := by omega
          simp only [h1, if_true]
          rw [IH c (by omega), e2, e3, e5]
          unfold d0 d1
          simp only [e4, not_le.2 hd, if_false]
          set a := kn (i - (p + 1) + c + 1)
          set b := kn (i - (p + 1) + c + 1 + p + 1)
          have hb : (1 : K) - (kn i - a) / (b - a) = (b - kn i) / (b - a) := by
            field_simp; ring
          rw [hb]
          simp only [mul_comp, sub_comp, C_comp, X_comp, div_eq_mul_inv, C_mul, one_mul, C_sub,
            C_neg]
          ring
        · have : c = p + 1 := by omega
          subst this
          simp [piece_zero_of_lt kn i p (i - (p + 1) + (p + 1) + 1) (by omega)]
      rw [add_comp, ← hleft, ← hright]
      ring

end Order

end Verif
