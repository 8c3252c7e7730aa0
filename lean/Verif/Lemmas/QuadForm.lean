import Verif.Model.BSplineIntegral
import Verif.Lemmas.Shift

/-!
# Bilinear forms of the matrices of the quadratic integrals
-/

set_option linter.unusedSectionVars false

namespace Verif

open Finset Polynomial

section
variable {K : Type*} [Field K]

/-- `xᵀ A y` for vectors of length `n`. -/
def bil (n : ℕ) (A : Mat K) (x y : ℕ → K) : K := ∑ a ∈ range n, ∑ b ∈ range n, x a * A a b * y b

/-- `M x` for a matrix with `n` columns. -/
def mulV (n : ℕ) (M : Mat K) (x : ℕ → K) : ℕ → K := fun a => ∑ p ∈ range n, M a p * x p

theorem bil_congruence (m n : ℕ) (M A : Mat K) (x y : ℕ → K) :
    bil n (matMul m (matMul m (matT M) A) M) x y = bil m A (mulV n M x) (mulV n M y) := by
  unfold bil matMul matT mulV
  calc ∑ p ∈ range n, ∑ q ∈ range n,
        x p * (∑ b ∈ range m, (∑ a ∈ range m, M a p * A a b) * M b q) * y q
      = ∑ p ∈ range n, ∑ q ∈ range n, ∑ b ∈ range m, ∑ a ∈ range m,
        M a p * x p * A a b * (M b q * y q) := by
        refine sum_congr rfl fun p _ => sum_congr rfl fun q _ => ?_
        rw [mul_sum, sum_mul]
        refine sum_congr rfl fun b _ => ?_
        rw [sum_mul, mul_sum, sum_mul]
        refine sum_congr rfl fun a _ => ?_
        ring
    _ = ∑ p ∈ range n, ∑ b ∈ range m, ∑ q ∈ range n, ∑ a ∈ range m,
        M a p * x p * A a b * (M b q * y q) :=
        sum_congr rfl fun p _ => sum_comm
    _ = ∑ b ∈ range m, ∑ p ∈ range n, ∑ q ∈ range n, ∑ a ∈ range m,
        M a p * x p * A a b * (M b q * y q) := sum_comm
    _ = ∑ b ∈ range m, ∑ a ∈ range m, ∑ p ∈ range n, ∑ q ∈ range n,
        M a p * x p * A a b * (M b q * y q) := by
        refine sum_congr rfl fun b _ => ?_
        exact (sum_congr rfl fun p _ => sum_comm).trans sum_comm
    _ = ∑ a ∈ range m, ∑ b ∈ range m, ∑ p ∈ range n, ∑ q ∈ range n,
        M a p * x p * A a b * (M b q * y q) := sum_comm
    _ = _ := by
        refine sum_congr rfl fun a _ => sum_congr rfl fun b _ => ?_
        rw [sum_mul, sum_mul]
        refine sum_congr rfl fun p _ => ?_
        rw [mul_sum]

theorem bil_addBlock (n off size : ℕ) (h : off + size ≤ n) (Q B : Mat K) (x y : ℕ → K) :
    bil n (addBlock Q off size B) x y
      = bil n Q x y + bil size B (fun p => x (off + p)) (fun p => y (off + p)) := by
  unfold bil addBlock
  simp only [mul_add, add_mul, sum_add_distrib]
  congr 1
  have key : ∀ f : ℕ → K, (∀ p, ¬ (off ≤ p ∧ p < off + size) → f p = 0) →
      ∑ p ∈ range n, f p = ∑ p ∈ range size, f (off + p) := by
    intro f hf
    have e : ∑ p ∈ Ico off (off + size), f p = ∑ p ∈ range n, f p := by
      apply sum_subset
      · intro p hp; simp at hp ⊢; omega
      · intro p _ hp2
        apply hf
        simpa using hp2
    rw [← e, sum_Ico_eq_sum_range, Nat.add_sub_cancel_left]
  rw [key]
  · refine sum_congr rfl fun p hp => ?_
    have hp' := mem_range.1 hp
    rw [key]
    · refine sum_congr rfl fun q hq => ?_
      have hq' := mem_range.1 hq
      rw [if_pos (by omega), Nat.add_sub_cancel_left, Nat.add_sub_cancel_left]
    · intro q hq
      rw [if_neg (by tauto)]; simp
  · intro p hp
    apply sum_eq_zero
    intro q _
    rw [if_neg (by tauto)]; simp

/-- Sum over a stacked index with blocks of size `k`. -/
theorem sum_stacked (n k : ℕ) (f : ℕ → K) :
    ∑ q ∈ range (n * k), f q = ∑ i ∈ range n, ∑ r ∈ range k, f (i * k + r) := by
  induction n with
  | zero => simp
  | succ n ih => rw [sum_range_succ, ← ih, Nat.succ_mul, sum_range_add]

/-- A block matrix `W ⊗ V` as a bilinear form. -/
theorem bil_kron (n k : ℕ) (W V : Mat K) (x y : ℕ → K) :
    bil (n * k) (fun p q => W (p / k) (q / k) * V (p % k) (q % k)) x y
      = ∑ d ∈ range n, ∑ e ∈ range n, W d e *
        bil k V (fun r => x (d * k + r)) (fun r => y (e * k + r)) := by
  unfold bil
  rw [sum_stacked]
  refine sum_congr rfl fun d _ => ?_
  rw [show (∑ r ∈ range k, ∑ b ∈ range (n * k), x (d * k + r) *
      (W ((d * k + r) / k) (b / k) * V ((d * k + r) % k) (b % k)) * y b)
      = ∑ r ∈ range k, ∑ e ∈ range n, ∑ r' ∈ range k, W d e * (x (d * k + r) * V r r' * y (e * k + r'))
      from ?_]
  · rw [sum_comm]
    refine sum_congr rfl fun e _ => ?_
    rw [mul_sum]
    refine sum_congr rfl fun r _ => ?_
    rw [mul_sum]
  · refine sum_congr rfl fun r hr => ?_
    have hr' := mem_range.1 hr
    have hk : 0 < k := by omega
    rw [sum_stacked]
    refine sum_congr rfl fun e _ => sum_congr rfl fun r' hr2 => ?_
    have hr2' := mem_range.1 hr2
    have e1 : ∀ a b, b < k → (a * k + b) / k = a := by
      intro a b hb
      rw [Nat.add_comm, Nat.add_mul_div_right _ _ hk, Nat.div_eq_of_lt hb, Nat.zero_add]
    have e2 : ∀ a b, b < k → (a * k + b) % k = b := by
      intro a b hb
      rw [Nat.add_comm, Nat.add_mul_mod_self_right, Nat.mod_eq_of_lt hb]
    rw [e1 _ _ hr', e1 _ _ hr2', e2 _ _ hr', e2 _ _ hr2']
    ring

end

namespace BSpline
variable {K : Type*} [Field K] [LinearOrder K] [IsStrictOrderedRing K] {D : ℕ}

/-- `Mi` applied to a stacked vector collects the polynomial coefficients of each component. -/
theorem Mi_mul (k : ℕ) (B : Mat K) (x : ℕ → K) (d r : ℕ) (hr : r < k) (hd : d < D) :
    mulV (k * D) (fun row col => Bij k B (col / D) row (col % D)) x (d * k + r)
      = ∑ j ∈ range k, B r j * x (j * D + d) := by
  have hk : 0 < k := by omega
  have hD : 0 < D := by omega
  unfold mulV
  rw [sum_stacked]
  refine sum_congr rfl fun j _ => ?_
  rw [Finset.sum_eq_single d]
  · unfold Bij
    beta_reduce
    have e1 : (j * D + d) / D = j := by
      rw [Nat.add_comm, Nat.add_mul_div_right _ _ hD, Nat.div_eq_of_lt hd, Nat.zero_add]
    have e2 : (j * D + d) % D = d := by
      rw [Nat.add_comm, Nat.add_mul_mod_self_right, Nat.mod_eq_of_lt hd]
    have e3 : (d * k + r) / k = d := by
      rw [Nat.add_comm, Nat.add_mul_div_right _ _ hk, Nat.div_eq_of_lt hr, Nat.zero_add]
    have e4 : (d * k + r) % k = r := by
      rw [Nat.add_comm, Nat.add_mul_mod_self_right, Nat.mod_eq_of_lt hr]
    rw [e1, e2, e3, e4, if_pos rfl]
  · intro e he hne
    have he' := mem_range.1 he
    unfold Bij
    beta_reduce
    have e2 : (j * D + e) % D = e := by
      rw [Nat.add_comm, Nat.add_mul_mod_self_right, Nat.mod_eq_of_lt he']
    have e3 : (d * k + r) / k = d := by
      rw [Nat.add_comm, Nat.add_mul_div_right _ _ hk, Nat.div_eq_of_lt hr, Nat.zero_add]
    rw [e2, e3, if_neg (Ne.symm hne), zero_mul]
  · intro h; exact absurd (mem_range.2 hd) h

/-- Differentiation of the vector of polynomial coefficients. -/
def dop (k : ℕ) (recip : K) (a : ℕ → K) : ℕ → K := fun i =>
  if i + 1 < k then ((i : K) + 1) * recip * a (i + 1) else 0

theorem derivV_bil (k : ℕ) (recip : K) (V : Mat K) (n : ℕ) (x y : ℕ → K) :
    bil k (derivV k (fun i j => if j = i + 1 then ((i : K) + 1) * recip else 0) V n) x y
      = bil k V ((dop k recip)^[n] x) ((dop k recip)^[n] y) := by
  induction n generalizing x y with
  | zero => rfl
  | succ n ih =>
    have hm : ∀ x : ℕ → K, mulV k (fun i j => if j = i + 1 then ((i : K) + 1) * recip else 0) x
        = dop k recip x := by
      intro x
      funext i
      unfold mulV dop
      beta_reduce
      split_ifs with h
      · rw [Finset.sum_eq_single (i + 1)]
        · rw [if_pos rfl]
        · intro b _ hb; rw [if_neg hb, zero_mul]
        · intro hh; exact absurd (mem_range.2 h) hh
      · apply sum_eq_zero
        intro b hb
        have := mem_range.1 hb
        rw [if_neg (by omega), zero_mul]
    simp only [derivV, Function.iterate_succ, Function.comp]
    rw [bil_congruence, hm, hm, ih]

/-- The polynomial with the coefficients `a 0, …, a (k-1)`. -/
noncomputable def polyOf (k : ℕ) (a : ℕ → K) : K[X] := ∑ r ∈ range k, C (a r) * X ^ r

theorem polyOf_eval (k : ℕ) (a : ℕ → K) (u : K) :
    (polyOf k a).eval u = ∑ r ∈ range k, a r * u ^ r := by
  simp [polyOf, eval_finsetSum]

theorem polyOf_dop (k : ℕ) (recip : K) (a : ℕ → K) :
    polyOf k (dop k recip a) = C recip * derivative (polyOf k a) := by
  cases k with
  | zero => simp [polyOf]
  | succ k =>
    unfold polyOf
    rw [derivative_sum, sum_range_succ, sum_range_succ' (fun i => derivative (C (a i) * X ^ i))]
    have h0 : dop (k + 1) recip a k = 0 := by unfold dop; rw [if_neg (by omega)]
    rw [h0]
    simp only [C_0, zero_mul, add_zero, pow_zero, mul_one, derivative_C]
    rw [mul_sum]
    refine sum_congr rfl fun r hr => ?_
    have hr' := mem_range.1 hr
    rw [derivative_C_mul, derivative_X_pow]
    unfold dop
    rw [if_pos (by omega)]
    simp only [C_mul, C_add, C_1, Nat.add_sub_cancel, Nat.cast_add, Nat.cast_one]
    simp only [map_natCast]
    ring

theorem polyOf_dop_iter (k : ℕ) (recip : K) (a : ℕ → K) (n : ℕ) :
    polyOf k ((dop k recip)^[n] a) = C (recip ^ n) * derivative^[n] (polyOf k a) := by
  induction n with
  | zero => simp
  | succ n ih =>
    rw [Function.iterate_succ_apply', polyOf_dop, ih, Function.iterate_succ_apply', derivative_C_mul,
      pow_succ, C_mul]
    ring

end BSpline
end Verif
