import Verif.Lemmas.Weights
import Mathlib.Algebra.BigOperators.Fin

/-!
# Lemmas about stacked vectors and column writes
-/

set_option linter.unusedSectionVars false

namespace Verif.BSpline

open Finset

variable {K : Type*} [Field K] [LinearOrder K] {D : ℕ}

theorem stack_succ (n : ℕ) (f : ℕ → Fin D → K) :
    stack (n + 1) f = stack n f ++ (List.finRange D).map (f n) := by
  simp [stack, List.range_succ]

@[simp] theorem stack_length (n : ℕ) (f : ℕ → Fin D → K) : (stack n f).length = n * D := by
  induction n with
  | zero => simp [stack]
  | succ n ih => rw [stack_succ, List.length_append, ih]; simp [Nat.succ_mul]

theorem stack_getD (n : ℕ) (f : ℕ → Fin D → K) (i : ℕ) (hi : i < n) (d : Fin D) :
    (stack n f).getD (i * D + d) 0 = f i d := by
  induction n with
  | zero => omega
  | succ n ih =>
    rw [stack_succ]
    by_cases h : i < n
    · rw [← ih h]
      have : i * D + d < (stack n f).length := by
        rw [stack_length]
        calc i * D + d < i * D + D := by omega
          _ = (i + 1) * D := by ring
          _ ≤ n * D := Nat.mul_le_mul_right _ h
      rw [List.getD_eq_getElem?_getD, List.getElem?_append_left this, List.getD_eq_getElem?_getD]
    · have : i = n := by omega
      subst this
      rw [List.getD_eq_getElem?_getD, List.getElem?_append_right (by simp), stack_length]
      simp

theorem segmentOf_stack (n : ℕ) (f : ℕ → Fin D → K) (i : ℕ) (hi : i < n) :
    (segmentOf (stack n f) i : Fin D → K) = f i := by
  funext d; exact stack_getD n f i hi d

theorem getD_ext {l l' : List K} (hl : l.length = l'.length)
    (h : ∀ i, i < l.length → l.getD i 0 = l'.getD i 0) : l = l' := by
  apply List.ext_getElem hl
  intro i h1 h2
  have := h i h1
  simpa [List.getD_eq_getElem?_getD, h1, h2] using this

theorem stack_segmentOf (n : ℕ) (c : List K) (hc : c.length = n * D) :
    stack n (segmentOf c : ℕ → Fin D → K) = c := by
  apply getD_ext
  · rw [stack_length, hc]
  · intro q hq
    rw [stack_length] at hq
    have hD : 0 < D := by
      rcases Nat.eq_zero_or_pos D with h | h
      · subst h; simp at hq
      · exact h
    have hlt : q % D < D := Nat.mod_lt _ hD
    have := stack_getD n (segmentOf c : ℕ → Fin D → K) (q / D)
      (Nat.div_lt_of_lt_mul (by rw [Nat.mul_comm]; exact hq)) ⟨q % D, hlt⟩
    simp only [segmentOf] at this
    rw [Nat.mul_comm, Nat.div_add_mod] at this
    exact this

@[simp] theorem writeCols_length (cs : List (Fin D → K)) (b : ℕ) (c : List K) (n : ℕ) :
    (writeCols cs b c n).length = cs.length := by
  induction n with
  | zero => rfl
  | succ n ih => simp [writeCols, ih]

theorem writeCols_getD (cs : List (Fin D → K)) (b : ℕ) (c : List K) (n j : ℕ) (hj : j < cs.length) :
    (writeCols cs b c n).getD j 0
      = if b ≤ j ∧ j < b + n then segmentOf c (j - b) else cs.getD j 0 := by
  induction n with
  | zero =>
    simp only [writeCols]
    rw [if_neg (by omega)]
  | succ n ih =>
    simp only [writeCols]
    rw [List.getD_eq_getElem?_getD, List.getElem?_set]
    by_cases h : n + b = j
    · rw [if_pos h, if_pos (by simp; omega), if_pos (by omega)]
      simp only [Option.getD_some]
      congr 1; omega
    · rw [if_neg h, ← List.getD_eq_getElem?_getD, ih]
      by_cases h2 : b ≤ j ∧ j < b + n
      · rw [if_pos h2, if_pos (by omega)]
      · rw [if_neg h2, if_neg (by omega)]

theorem sum_blocks (n : ℕ) (f : ℕ → K) :
    ∑ q ∈ range (n * D), f q = ∑ i ∈ range n, ∑ d : Fin D, f (i * D + d) := by
  induction n with
  | zero => simp
  | succ n ih =>
    rw [sum_range_succ, ← ih, Nat.succ_mul, sum_range_add, Finset.sum_range (n := D)]

/-- Applying the block row `[I w₀, I w₁, …]` to a vector. -/
theorem identityBlocks_mul (n : ℕ) (w : ℕ → K) (f : ℕ → K) (d : Fin D) :
    ∑ q ∈ range (n * D), identityBlocks D w d q * f q = ∑ i ∈ range n, w i * f (i * D + d) := by
  rw [sum_blocks]
  refine sum_congr rfl fun i _ => ?_
  rw [Finset.sum_eq_single d]
  · unfold identityBlocks
    have : (i * D + (d : ℕ)) % D = d := by
      rw [Nat.add_comm, Nat.add_mul_mod_self_right, Nat.mod_eq_of_lt d.2]
    have h2 : (i * D + (d : ℕ)) / D = i := by
      rw [Nat.add_comm, Nat.add_mul_div_right _ _ (lt_of_le_of_lt (Nat.zero_le _) d.2),
        Nat.div_eq_of_lt d.2, Nat.zero_add]
    rw [if_pos this, h2]
  · intro e _ hne
    unfold identityBlocks
    have : (i * D + (e : ℕ)) % D = e := by
      rw [Nat.add_comm, Nat.add_mul_mod_self_right, Nat.mod_eq_of_lt e.2]
    rw [if_neg (by rw [this]; exact fun h => hne (Fin.ext h)), zero_mul]
  · intro h; exact absurd (mem_univ d) h

end Verif.BSpline
