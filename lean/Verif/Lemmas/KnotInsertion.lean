import Verif.Lemmas.Marsden

/-!
# Knot insertion

A knot can be inserted without changing the curve; every new coefficient is between two neighbouring old ones.
-/

set_option linter.unusedSectionVars false

namespace Verif

open Finset Polynomial

variable {K : Type*} [Field K] [LinearOrder K] [IsStrictOrderedRing K]

/-- The knots with `u` inserted after knot `a`. -/
def insertKnot (kn : ℕ → K) (a : ℕ) (u : K) (m : ℕ) : K := if m ≤ a then kn m else if m = a + 1 then u else kn (m - 1)

/-- The weight of the coefficient `j`, the other one is `j - 1`. -/
def insertWeight (kn : ℕ → K) (p a : ℕ) (u : K) (j : ℕ) : K :=
  if j + p ≤ a then 1 else if a < j then 0 else (u - kn j) / (kn (j + p) - kn j)

/-- The coefficients after the insertion. -/
def insertCoeff (kn : ℕ → K) (p a : ℕ) (u : K) (c : ℕ → K) (j : ℕ) : K :=
  (1 - insertWeight kn p a u j) * c (j - 1) + insertWeight kn p a u j * c j

theorem insertKnot_le {kn : ℕ → K} {a m : ℕ} {u : K} (h : m ≤ a) : insertKnot kn a u m = kn m := if_pos h

theorem insertKnot_self {kn : ℕ → K} {a : ℕ} {u : K} : insertKnot kn a u (a + 1) = u := by
  unfold insertKnot
  rw [if_neg (by omega), if_pos rfl]

theorem insertKnot_gt {kn : ℕ → K} {a m : ℕ} {u : K} (h : a < m) : insertKnot kn a u (m + 1) = kn m := by
  unfold insertKnot
  rw [if_neg (by omega), if_neg (by omega), Nat.add_sub_cancel]

theorem insertKnot_mono {kn : ℕ → K} {n a : ℕ} {u : K} (hm : MonoBelow kn n) (ha : a + 1 < n) (h1 : kn a ≤ u) (h2 : u ≤ kn (a + 1)) :
    MonoBelow (insertKnot kn a u) (n + 1) := by
  intro x y hxy hy
  rcases Nat.lt_or_ge a x with hx | hx
  · obtain ⟨x, rfl⟩ : ∃ z, x = z + 1 := ⟨x - 1, by omega⟩
    obtain ⟨y, rfl⟩ : ∃ z, y = z + 1 := ⟨y - 1, by omega⟩
    rcases Nat.lt_or_ge a x with hx' | hx'
    · rw [insertKnot_gt hx', insertKnot_gt (by omega)]
      exact hm _ _ (by omega) (by omega)
    · obtain rfl : x = a := by omega
      rw [insertKnot_self]
      rcases Nat.lt_or_ge x y with hy' | hy'
      · rw [insertKnot_gt hy']
        exact h2.trans (hm _ _ (by omega) (by omega))
      · obtain rfl : y = x := by omega
        rw [insertKnot_self]
  · rw [insertKnot_le hx]
    rcases Nat.lt_or_ge a y with hy' | hy'
    · obtain ⟨y, rfl⟩ : ∃ z, y = z + 1 := ⟨y - 1, by omega⟩
      rcases Nat.lt_or_ge a y with hy'' | hy''
      · rw [insertKnot_gt hy'']
        exact hm _ _ (by omega) (by omega)
      · obtain rfl : y = a := by omega
        rw [insertKnot_self]
        exact (hm _ _ hx (by omega)).trans h1
    · rw [insertKnot_le hy']
      exact hm _ _ hxy (by omega)

theorem prod_insert {R : Type*} [CommMonoid R] (f g : ℕ → R) (v : R) (l r : ℕ) (h1 : ∀ m, m < l → g m = f m) (h2 : g l = v)
    (h3 : ∀ m, l ≤ m → g (m + 1) = f m) : ∏ m ∈ range (l + r + 1), g m = v * ∏ m ∈ range (l + r), f m := by
  rw [show l + r + 1 = l + (r + 1) by omega, prod_range_add g l (r + 1), prod_range_add f l r, prod_range_succ' (fun x => g (l + x)) r,
    Nat.add_zero, h2, prod_congr rfl fun m hm => h1 m (mem_range.1 hm), prod_congr rfl fun m _ => show g (l + (m + 1)) = f (l + m) from h3 (l + m) (by omega)]
  rw [← mul_assoc, mul_comm]

/-- The products of the new knots are between those of the old knots. -/
theorem knotPoly_insert (kn : ℕ → K) (n p a : ℕ) (u : K) (hm : MonoBelow kn n) (hp : p ≤ a) (ha : a + p + 1 < n)
    (h1 : kn a ≤ u) (h2 : u < kn (a + 1)) (j : ℕ) (hj : j + p < n) :
    knotPoly (insertKnot kn a u) p j = C (1 - insertWeight kn p a u j) * knotPoly kn p (j - 1) + C (insertWeight kn p a u j) * knotPoly kn p j := by
  unfold insertWeight
  split
  · rename_i hja
    rw [sub_self, C_0, zero_mul, C_1, one_mul, zero_add]
    unfold knotPoly
    refine prod_congr rfl fun l hl => ?_
    have := mem_range.1 hl
    rw [insertKnot_le (by omega)]
  split
  · rename_i _ hja
    rw [sub_zero, C_1, one_mul, C_0, zero_mul, add_zero]
    unfold knotPoly
    refine prod_congr rfl fun l hl => ?_
    rw [show j + 1 + l = j + l + 1 by omega, insertKnot_gt (by omega), show j - 1 + 1 + l = j + l by omega]
  · rename_i hja haj
    obtain ⟨q, rfl⟩ : ∃ q, p = q + 1 := ⟨p - 1, by omega⟩
    have hd : kn (j + (q + 1)) - kn j ≠ 0 := by
      have a1 := hm j a (by omega) (by omega)
      have a2 := hm (a + 1) (j + (q + 1)) (by omega) hj
      linarith
    have e0 : knotPoly (insertKnot kn a u) (q + 1) j = (C u - X) * ∏ l ∈ range q, (C (kn (j + 1 + l)) - X) := by
      unfold knotPoly
      have e := prod_insert (fun l => (C (kn (j + 1 + l)) - X : K[X])) (fun l => C (insertKnot kn a u (j + 1 + l)) - X) (C u - X) (a - j)
        (q - (a - j)) (fun m hm => by rw [insertKnot_le (by omega)])
        (by rw [show j + 1 + (a - j) = a + 1 by omega, insertKnot_self])
        (fun m hm => by rw [show j + 1 + (m + 1) = j + 1 + m + 1 by omega, insertKnot_gt (by omega)])
      rw [show a - j + (q - (a - j)) = q by omega] at e
      exact e
    have e1 : knotPoly kn (q + 1) j = (C (kn (j + (q + 1))) - X) * ∏ l ∈ range q, (C (kn (j + 1 + l)) - X) := by
      unfold knotPoly
      rw [prod_range_succ, mul_comm, show j + 1 + q = j + (q + 1) by omega]
    have e2 : knotPoly kn (q + 1) (j - 1) = (C (kn j) - X) * ∏ l ∈ range q, (C (kn (j + 1 + l)) - X) := by
      unfold knotPoly
      rw [prod_range_succ', mul_comm, show j - 1 + 1 + 0 = j by omega]
      congr 1
      refine prod_congr rfl fun l _ => ?_
      rw [show j + (l + 1) = j + 1 + l by omega]
    rw [e0, e1, e2, ← mul_assoc, ← mul_assoc, ← add_mul]
    congr 1
    have : C (1 - (u - kn j) / (kn (j + (q + 1)) - kn j)) * (C (kn j) - X) + C ((u - kn j) / (kn (j + (q + 1)) - kn j)) * (C (kn (j + (q + 1))) - X)
        = C (kn j + (u - kn j) / (kn (j + (q + 1)) - kn j) * (kn (j + (q + 1)) - kn j)) - X := by
      simp only [C_sub, C_1, C_add, C_mul]
      ring
    rw [this, div_mul_cancel₀ _ hd, add_sub_cancel]

theorem reproCoeff_insert (kn : ℕ → K) (n p a : ℕ) (u : K) (hm : MonoBelow kn n) (hp : p ≤ a) (ha : a + p + 1 < n)
    (h1 : kn a ≤ u) (h2 : u < kn (a + 1)) (j : ℕ) (hj : j + p < n) (P : K[X]) :
    reproCoeff (insertKnot kn a u) p P j = insertCoeff kn p a u (reproCoeff kn p P) j := by
  unfold insertCoeff reproCoeff
  rw [mul_sum, mul_sum, ← sum_add_distrib]
  refine sum_congr rfl fun q _ => ?_
  rw [knotPoly_insert kn n p a u hm hp ha h1 h2 j hj, coeff_add, coeff_C_mul, coeff_C_mul]
  ring

/-- The coefficients of a polynomial are those which reproduce it. -/
theorem coeff_eq_reproCoeff (kn : ℕ → K) (n p i : ℕ) (hm : MonoBelow kn n) (hlt : kn i < kn (i + 1)) (hp : p ≤ i) (hn : i + p + 1 < n)
    (c : ℕ → K) (j : ℕ) (h1 : i - p ≤ j) (h2 : j ≤ i) :
    c j = reproCoeff kn p (∑ l ∈ Ico (i - p) (i + 1), C (c l) * piece kn i p l) j := by
  set P := ∑ l ∈ Ico (i - p) (i + 1), C (c l) * piece kn i p l with hP
  have hdeg : P.natDegree ≤ p := by
    refine natDegree_sum_le_of_forall_le _ _ fun l _ => ?_
    exact (natDegree_C_mul_le _ _).trans (piece_natDegree kn i p l)
  have e := piece_reproduces kn n i hm hlt p hp hn P hdeg
  have := piece_independent kn n i hm hlt p hp hn (fun l => c l - reproCoeff kn p P l) (by
    simp only [C_sub, sub_mul]
    rw [sum_sub_distrib, e, hP, sub_self]) j h1 h2
  linarith

/-- Inserting a knot does not change the curve. -/
theorem piece_insert (kn : ℕ → K) (n p a : ℕ) (u : K) (hm : MonoBelow kn n) (hp : p ≤ a) (ha : a + p + 1 < n)
    (h1 : kn a ≤ u) (h2 : u < kn (a + 1)) (c : ℕ → K) (e i : ℕ) (hi : i = if e ≤ a then e else e - 1)
    (hlt : insertKnot kn a u e < insertKnot kn a u (e + 1)) (hpi : p ≤ i) (hin : i + p + 1 < n) (hlt' : kn i < kn (i + 1)) :
    ∑ j ∈ Ico (e - p) (e + 1), C (insertCoeff kn p a u c j) * piece (insertKnot kn a u) e p j =
      ∑ j ∈ Ico (i - p) (i + 1), C (c j) * piece kn i p j := by
  set P := ∑ j ∈ Ico (i - p) (i + 1), C (c j) * piece kn i p j with hP
  have hdeg : P.natDegree ≤ p := by
    refine natDegree_sum_le_of_forall_le _ _ fun l _ => ?_
    exact (natDegree_C_mul_le _ _).trans (piece_natDegree kn i p l)
  have he : p ≤ e ∧ e + p + 1 < n + 1 := by split at hi <;> omega
  rw [← piece_reproduces (insertKnot kn a u) (n + 1) e (insertKnot_mono hm (by omega) h1 h2.le) hlt p he.1 he.2 P hdeg]
  refine sum_congr rfl fun j hj => ?_
  have hj' := mem_Ico.1 hj
  congr 2
  rw [reproCoeff_insert kn n p a u hm hp ha h1 h2 j (by omega)]
  have key : ∀ j, i - p ≤ j → j ≤ i → c j = reproCoeff kn p P j := fun j => coeff_eq_reproCoeff kn n p i hm hlt' hpi hin c j
  unfold insertCoeff
  by_cases hw1 : j + p ≤ a
  · have hw : insertWeight kn p a u j = 1 := if_pos hw1
    rw [hw, sub_self, zero_mul, zero_mul, key j (by split at hi <;> omega) (by split at hi <;> omega)]
  · by_cases hw2 : a < j
    · have hw : insertWeight kn p a u j = 0 := by
        unfold insertWeight
        rw [if_neg hw1, if_pos hw2]
      rw [hw, zero_mul, zero_mul, key (j - 1) (by split at hi <;> omega) (by split at hi <;> omega)]
    · rw [key j (by split at hi <;> omega) (by split at hi <;> omega), key (j - 1) (by split at hi <;> omega) (by split at hi <;> omega)]

end Verif
