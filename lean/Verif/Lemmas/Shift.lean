import Verif.Lemmas.Views

/-!
# Lemmas: shifted and scaled knots, uniqueness of the segment, the knot check, cumulative sums
-/

set_option linter.unusedSectionVars false

namespace Verif

open Finset Polynomial

variable {K : Type*} [Field K] [LinearOrder K] [IsStrictOrderedRing K] {D : ℕ}

/-- Dropping the first knot shifts the indices of the basis polynomials. -/
theorem piece_shift (kn : ℕ → K) (i : ℕ) : ∀ p j,
    piece (fun m => kn (m + 1)) i p j = piece kn (i + 1) p (j + 1)
  | 0, j => by simp [piece]
  | (p + 1), j => by
      simp only [piece]
      rw [piece_shift kn i p j, piece_shift kn i p (j + 1)]
      rw [show j + p + 1 + 1 = j + 1 + p + 1 by omega]

/-- Basis polynomials only depend on the knots that enter their recursion. -/
theorem piece_congr (kn kn' : ℕ → K) (n i : ℕ) (h : ∀ m, m < n → kn m = kn' m) : ∀ p j,
    j + p + 1 < n → piece kn i p j = piece kn' i p j
  | 0, j, _ => by simp [piece]
  | (p + 1), j, hj => by
      simp only [piece]
      rw [piece_congr kn kn' n i h p j (by omega), piece_congr kn kn' n i h p (j + 1) (by omega),
        h j (by omega), h (j + p + 1) (by omega), h (j + p + 2) (by omega), h (j + 1) (by omega)]

/-- Basis polynomials of scaled and shifted knots. -/
theorem piece_scale (kn kn' : ℕ → K) (a b : K) (ha : 0 < a) (n i : ℕ)
    (h : ∀ m, m < n → kn' m = a * kn m + b) : ∀ p j, j + p + 1 < n →
    piece kn i p j = (piece kn' i p j).comp (C a * X + C b)
  | 0, j, _ => by simp only [piece]; split_ifs <;> simp
  | (p + 1), j, hj => by
      simp only [piece]
      rw [piece_scale kn kn' a b ha n i h p j (by omega),
        piece_scale kn kn' a b ha n i h p (j + 1) (by omega)]
      have e1 : ∀ x y : K, a * x + b - (a * y + b) = a * (x - y) := by intros; ring
      have ha' := ha.ne'
      simp only [add_comp, mul_comp, sub_comp, C_comp, X_comp]
      rw [h j (by omega), h (j + p + 1) (by omega), h (j + p + 2) (by omega), h (j + 1) (by omega),
        e1, e1]
      have key : ∀ x : K, C (1 / x) = C (1 / (a * x)) * C a := by
        intro x; rw [← C_mul]; congr 1
        by_cases hx : x = 0
        · simp [hx]
        · field_simp
      rw [key (kn (j + p + 1) - kn j), key (kn (j + p + 2) - kn (j + 1))]
      simp only [C_add, C_mul]
      ring

theorem basisM_congr (kn kn' : ℕ → K) (i i' : ℕ) : ∀ k,
    (∀ k' x, 2 ≤ k' → k' ≤ k → x + 1 < k' →
      d0 kn k' i (i + 2 + x - k') = d0 kn' k' i' (i' + 2 + x - k') ∧
      d1 kn k' i (i + 2 + x - k') = d1 kn' k' i' (i' + 2 + x - k')) →
    basisM kn i k = basisM kn' i' k
  | 0, _ => rfl
  | 1, _ => rfl
  | (k + 2), h => by
      have ih := basisM_congr kn kn' i i' (k + 1)
        (fun k' x h1 h2 h3 => h k' x h1 (by omega) h3)
      funext r c
      simp only [basisM]
      rw [ih]
      congr 1
      · refine sum_congr rfl fun x hx => ?_
        have := h (k + 2) x (by omega) le_rfl (by have := mem_range.1 hx; omega)
        simp only [matA, this.1]
      · refine sum_congr rfl fun x hx => ?_
        have := h (k + 2) x (by omega) le_rfl (by have := mem_range.1 hx; omega)
        simp only [matB, this.2]

namespace BSpline

/-- A time falls into one segment only. -/
theorem InSegment.unique {s : BSpline K D} (h : s.WF) {t : K} {i j : ℕ} (hi : s.InSegment t i)
    (hj : s.InSegment t j) : i = j := by
  have hk := h.order_pos
  have hn := h.enough
  have a1 := hi.upper
  have a2 := hj.upper
  by_contra hne
  rcases Nat.lt_or_gt_of_ne hne with hlt | hlt
  · have h1 := h.mono (i + 1) j (by omega) (by omega)
    have h2 := hj.left
    rcases hi.right with h3 | ⟨-, h4⟩
    · linarith
    · omega
  · have h1 := h.mono (j + 1) i (by omega) (by omega)
    have h2 := hi.left
    rcases hj.right with h3 | ⟨-, h4⟩
    · linarith
    · omega

theorem evalDNat_of_inSegment {s : BSpline K D} (h : s.WF) {t : K} (ha : s.Admissible t) {i : ℕ}
    (hi : s.InSegment t i) (der : ℕ) :
    s.evalDNat t der = .ok (fun d => ∑ j ∈ range s.coeffs.length,
      s.col j d * (derivative^[der] (piece s.kn i (s.order - 1) j)).eval t) := by
  obtain ⟨i', hT, hi'⟩ := lookup h t ha
  obtain rfl := InSegment.unique h hi hi'
  exact evalDNat_sum h t i der hi.lower hi.upper hi.pos hT

/-! ### The knot check -/

omit [IsStrictOrderedRing K] in
theorem verifyLoop_ok (l : List K) : ∀ n i, 1 ≤ i → i + n ≤ l.length ∨ n = 0 →
    ((∀ j, i ≤ j → j < i + n → l.getD (j - 1) 0 ≤ l.getD j 0) → verifyLoop l i n = .ok ()) ∧
    ((∃ j, i ≤ j ∧ j < i + n ∧ ¬ l.getD (j - 1) 0 ≤ l.getD j 0) → verifyLoop l i n = .throws)
  | 0, i, _, _ => ⟨fun _ => rfl, fun ⟨j, h1, h2, _⟩ => by omega⟩
  | (n + 1), i, hi, hn => by
      have hl1 : i < l.length := by omega
      have hl2 : i - 1 < l.length := by omega
      obtain ⟨ih1, ih2⟩ := verifyLoop_ok l n (i + 1) (by omega) (by omega)
      have e1 : l.getD (i - 1) 0 = l[i - 1] := by simp [List.getD_eq_getElem?_getD, hl2]
      have e2 : l.getD i 0 = l[i] := by simp [List.getD_eq_getElem?_getD, hl1]
      constructor
      · intro h
        unfold verifyLoop
        rw [List.getElem?_eq_getElem hl1, List.getElem?_eq_getElem hl2]
        simp only []
        have := h i le_rfl (by omega)
        rw [e1, e2] at this
        rw [if_pos this]
        exact ih1 fun j h1 h2 => h j (by omega) (by omega)
      · rintro ⟨j, h1, h2, h3⟩
        unfold verifyLoop
        rw [List.getElem?_eq_getElem hl1, List.getElem?_eq_getElem hl2]
        simp only []
        split_ifs with hc
        · refine ih2 ⟨j, ?_, by omega, h3⟩
          rcases Nat.eq_or_lt_of_le h1 with rfl | h
          · rw [e1, e2] at h3; exact absurd hc h3
          · exact h
        · rfl

omit [IsStrictOrderedRing K] [Field K] in
theorem pairwise_of_adjacent [Zero K] (l : List K)
    (h : ∀ j, 1 ≤ j → j < l.length → l.getD (j - 1) 0 ≤ l.getD j 0) : l.Pairwise (· ≤ ·) := by
  have key : ∀ m a, a + m < l.length → l.getD a 0 ≤ l.getD (a + m) 0 := by
    intro m
    induction m with
    | zero => intro a _; exact le_rfl
    | succ m ih =>
      intro a ha
      refine (ih a (by omega)).trans ?_
      have := h (a + m + 1) (by omega) (by omega)
      simpa [Nat.add_assoc] using this
  rw [List.pairwise_iff_getElem]
  intro a b ha hb hab
  have := key (b - a) a (by omega)
  rw [show a + (b - a) = b by omega] at this
  simpa [List.getD_eq_getElem?_getD, ha, hb] using this

omit [IsStrictOrderedRing K] [Field K] in
theorem adjacent_of_pairwise [Zero K] (l : List K) (h : l.Pairwise (· ≤ ·)) (j : ℕ) (h1 : 1 ≤ j)
    (h2 : j < l.length) : l.getD (j - 1) 0 ≤ l.getD j 0 := by
  have := List.pairwise_iff_getElem.1 h (j - 1) j (by omega) h2 (by omega)
  simpa [List.getD_eq_getElem?_getD, h2, show j - 1 < l.length by omega] using this

/-- Valid input is accepted when the stored knot vector is not longer than the new one. -/
theorem set_ok {s : BSpline K D} (hk : 2 ≤ s.order) {kns : List K} {cs : List (Fin D → K)}
    (hold : s.knots.length ≤ kns.length) (hsorted : kns.Pairwise (· ≤ ·))
    (hn : 2 * s.order ≤ kns.length) (hc : cs.length + s.order = kns.length) :
    s.setKnotsAndCoefficients kns cs
      = .ok (initializeBasisMatrices { s with knots := kns, coeffs := cs }) := by
  unfold setKnotsAndCoefficients verifyKnotSequence
  rw [if_neg (by unfold minimumKnotsRequired numKnotsRequired numCoefficientsRequired; omega)]
  rw [(verifyLoop_ok kns (s.knots.length - 1) 1 le_rfl (by omega)).1
    (fun j h1 h2 => adjacent_of_pairwise kns hsorted j h1 (by omega))]
  simp only [Outcome.bind_ok]
  rw [if_pos (by unfold numCoefficientsRequired numValidTimeSegmentsOf; omega)]

/-! ### Cumulative sums -/

omit [LinearOrder K] [IsStrictOrderedRing K] in
theorem cumulate_eq (M : ℕ) (bi : ℕ → K) (j : ℕ) (h1 : 1 ≤ j) (h2 : j ≤ M) :
    cumulate M bi j = ∑ l ∈ Icc j M, bi l := by
  have key : ∀ m, m ≤ M → ∀ j, ((List.range' 1 m).foldl
      (fun b i => Function.update b i (b i + ∑ j ∈ Ioc i M, b j)) bi) j
      = if 1 ≤ j ∧ j ≤ m then ∑ l ∈ Icc j M, bi l else bi j := by
    intro m
    induction m with
    | zero => intro _ j; simp; omega
    | succ m ih =>
      intro hm j
      rw [List.range'_1_concat, List.foldl_append]
      simp only [List.foldl_cons, List.foldl_nil]
      by_cases hj : j = 1 + m
      · subst hj
        rw [Function.update_self, if_pos (by omega), ih (by omega), if_neg (by omega)]
        have : ∀ x ∈ Ioc (1 + m) M, ((List.range' 1 m).foldl
            (fun b i => Function.update b i (b i + ∑ j ∈ Ioc i M, b j)) bi) x = bi x := by
          intro x hx
          have := mem_Ioc.1 hx
          rw [ih (by omega), if_neg (by omega)]
        rw [sum_congr rfl this, ← Finset.Ioc_insert_left (by omega : 1 + m ≤ M),
          sum_insert (by simp)]
      · rw [Function.update_of_ne hj, ih (by omega)]
        by_cases h : 1 ≤ j ∧ j ≤ m
        · rw [if_pos h, if_pos (by omega)]
        · rw [if_neg h, if_neg (by omega)]
  unfold cumulate
  rw [key M le_rfl j, if_pos ⟨h1, h2⟩]

end BSpline
end Verif
