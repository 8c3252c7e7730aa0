import Verif.Lemmas.KnotInsertion

/-!
# The sign changes of a curve are sign changes of its coefficients
-/

set_option linter.unusedSectionVars false

namespace Verif

open Finset Polynomial

variable {K : Type*} [Field K] [LinearOrder K] [IsStrictOrderedRing K]

/-- The curve has the value `v` at `x`, which is a knot of multiplicity `r`; the segment left of it is `a`. -/
structure MidAt (kn : ℕ → K) (n p r : ℕ) (c : ℕ → K) (x v : K) (a : ℕ) : Prop where
  lower : p ≤ a
  upper : a + r + p + 1 < n
  left : kn a < x
  mid : ∀ l, a + 1 ≤ l → l ≤ a + r → kn l = x
  right : x < kn (a + r + 1)
  value : (∑ j ∈ Ico (a - p) (a + 1), C (c j) * piece kn a p j).eval x = v

variable {kn : ℕ → K} {n p r : ℕ} {c : ℕ → K} {x v : K} {a : ℕ}

theorem MidAt.next (h : MidAt kn n p r c x v a) : x ≤ kn (a + 1) := by
  rcases Nat.eq_zero_or_pos r with h0 | h0
  · have := h.right
    rw [h0] at this
    exact this.le
  · exact (h.mid (a + 1) le_rfl (by omega)).ge

theorem MidAt.last (h : MidAt kn n p r c x v a) : kn (a + r) ≤ x := by
  rcases Nat.eq_zero_or_pos r with h0 | h0
  · have := h.left
    rw [h0]
    exact this.le
  · exact (h.mid (a + r) (by omega) le_rfl).le

/-- Inserting the knot once more. -/
theorem MidAt.again (h : MidAt kn n p r c x v a) (hm : MonoBelow kn n) :
    MidAt (insertKnot kn (a + r) x) (n + 1) p (r + 1) (insertCoeff kn p (a + r) x c) x v a := by
  have h1 := h.lower
  have h2 := h.upper
  have hl : insertKnot kn (a + r) x a = kn a := insertKnot_le (by omega)
  have hmid : ∀ l, a + 1 ≤ l → l ≤ a + (r + 1) → insertKnot kn (a + r) x l = x := by
    intro l hl1 hl2
    rcases Nat.lt_or_ge (a + r) l with h3 | h3
    · obtain rfl : l = a + r + 1 := by omega
      exact insertKnot_self
    · rw [insertKnot_le h3]
      exact h.mid l hl1 h3
  refine ⟨h1, by omega, by rw [hl]; exact h.left, hmid, ?_, ?_⟩
  · rw [show a + (r + 1) + 1 = (a + r + 1) + 1 by omega, insertKnot_gt (by omega)]
    exact h.right
  · rw [piece_insert kn n p (a + r) x hm (by omega) (by omega) h.last h.right c a a (by rw [if_pos (by omega)])
      (by rw [hl, hmid (a + 1) le_rfl (by omega)]; exact h.left) h1 (by omega) (h.left.trans_le h.next)]
    exact h.value

/-- Inserting another knot. -/
theorem MidAt.other (h : MidAt kn n p r c x v a) (hm : MonoBelow kn n) {b : ℕ} {u : K} (hb : p ≤ b) (hbn : b + p + 1 < n) (hu1 : kn b ≤ u)
    (hu2 : u < kn (b + 1)) (hne : u ≠ x) :
    ∃ a', MidAt (insertKnot kn b u) (n + 1) p r (insertCoeff kn p b u c) x v a' := by
  have h1 := h.lower
  have h2 := h.upper
  rcases lt_or_gt_of_ne hne with hux | hux
  · have hba : b ≤ a := by
      by_contra hc
      have := hm (a + 1) b (by omega) (by omega)
      have := h.next
      linarith
    have e1 : insertKnot kn b u (a + 1) < x := by
      rcases Nat.lt_or_ge b a with h3 | h3
      · rw [insertKnot_gt h3]
        exact h.left
      · obtain rfl : a = b := by omega
        rw [insertKnot_self]
        exact hux
    refine ⟨a + 1, by omega, by omega, e1, ?_, ?_, ?_⟩
    · intro l hl1 hl2
      obtain ⟨l, rfl⟩ : ∃ z, l = z + 1 := ⟨l - 1, by omega⟩
      rw [insertKnot_gt (by omega)]
      exact h.mid l (by omega) (by omega)
    · rw [insertKnot_gt (by omega), show a + 1 + r = a + r + 1 by omega]
      exact h.right
    · rw [piece_insert kn n p b u hm hb hbn hu1 hu2 c (a + 1) a (by rw [if_neg (by omega)]; omega)
        (by rw [insertKnot_gt (show b < a + 1 by omega)]; exact e1.trans_le h.next) h1 (by omega) (h.left.trans_le h.next)]
      exact h.value
  · have hba : a + r ≤ b := by
      by_contra hc
      have := hm (b + 1) (a + r) (by omega) (by omega)
      have := h.last
      linarith
    have e2 : ∀ l, a < l → x ≤ kn l → l ≤ b + 1 → x ≤ insertKnot kn b u l := by
      intro l _ hl hlb
      rcases Nat.lt_or_ge b l with h3 | h3
      · obtain rfl : l = b + 1 := by omega
        rw [insertKnot_self]
        exact hux.le
      · rw [insertKnot_le h3]
        exact hl
    have hla : insertKnot kn b u a = kn a := insertKnot_le (by omega)
    refine ⟨a, h1, by omega, by rw [hla]; exact h.left, ?_, ?_, ?_⟩
    · intro l hl1 hl2
      rw [insertKnot_le (by omega)]
      exact h.mid l hl1 hl2
    · rcases Nat.lt_or_ge b (a + r + 1) with h3 | h3
      · rw [show a + r + 1 = b + 1 by omega, insertKnot_self]
        exact hux
      · rw [insertKnot_le h3]
        exact h.right
    · rw [piece_insert kn n p b u hm hb hbn hu1 hu2 c a a (by rw [if_pos (by omega)])
        (by rw [hla]; exact h.left.trans_le (e2 (a + 1) (by omega) h.next (by omega))) h1 (by omega) (h.left.trans_le h.next)]
      exact h.value

/-- At a knot of full multiplicity the curve passes its coefficient. -/
theorem MidAt.full (h : MidAt kn n p p c x v a) : c a = v := by
  rw [← h.value, eval_finsetSum]
  have : ∀ j ∈ Ico (a - p) (a + 1), (C (c j) * piece kn a p j).eval x = if j = a then c a else 0 := by
    intro j _
    rw [eval_mul, eval_C, piece_left_value kn a p x h.left h.mid p j le_rfl]
    split
    · rename_i hj
      rw [hj, mul_one]
    · rw [mul_zero]
  rw [sum_congr rfl this, sum_ite_eq' , if_pos (mem_Ico.2 ⟨by omega, by omega⟩)]

/-- There are coefficients with the signs of `v 0, ..., v m`, in this order. -/
def SignsFollow (c : ℕ → K) (N m : ℕ) (v : ℕ → K) : Prop :=
  ∃ b : ℕ → ℕ, (∀ k ≤ m, b k < N ∧ 0 < c (b k) * v k) ∧ ∀ k < m, b k < b (k + 1)

theorem insertWeight_mem {u : K} {b : ℕ} (hm : MonoBelow kn n) (hb : b + p + 1 < n) (h1 : kn b ≤ u) (h2 : u < kn (b + 1)) (j : ℕ) :
    0 ≤ insertWeight kn p b u j ∧ insertWeight kn p b u j ≤ 1 := by
  unfold insertWeight
  split
  · simp
  split
  · simp
  · rename_i h3 h4
    have a1 := hm j b (by omega) (by omega)
    have a2 := hm (b + 1) (j + p) (by omega) (by omega)
    have hd : 0 < kn (j + p) - kn j := by linarith
    exact ⟨div_nonneg (by linarith) hd.le, (div_le_one hd).2 (by linarith)⟩

/-- Inserting a knot adds no sign change. -/
theorem SignsFollow.of_insert {u : K} {b N m : ℕ} {w : ℕ → K} (hm : MonoBelow kn n) (hp : p ≤ b) (hb : b + p + 1 < n) (h1 : kn b ≤ u)
    (h2 : u < kn (b + 1)) (hN : N + p + 1 = n) (halt : ∀ k < m, w k * w (k + 1) < 0)
    (h : SignsFollow (insertCoeff kn p b u c) (N + 1) m w) : SignsFollow c N m w := by
  obtain ⟨f, hf, hinc⟩ := h
  have key : ∀ k, ∃ i, k ≤ m → i < N ∧ 0 < c i * w k ∧ f k ≤ i + 1 ∧ i ≤ f k := by
    intro k
    by_cases hk : k ≤ m
    · obtain ⟨hf1, hf2⟩ := hf k hk
      obtain ⟨w0, w1⟩ := insertWeight_mem hm hb h1 h2 (f k)
      unfold insertCoeff at hf2
      by_cases hj0 : f k = 0
      · have hw : insertWeight kn p b u (f k) = 1 := if_pos (by omega)
        rw [hw] at hf2
        refine ⟨f k, fun _ => ⟨by omega, by linarith, by omega, le_rfl⟩⟩
      by_cases hjN : f k = N
      · have hw : insertWeight kn p b u (f k) = 0 := by
          unfold insertWeight
          rw [if_neg (by omega), if_pos (by omega)]
        rw [hw] at hf2
        refine ⟨f k - 1, fun _ => ⟨by omega, by linarith, by omega, by omega⟩⟩
      by_cases hc : 0 < c (f k) * w k
      · exact ⟨f k, fun _ => ⟨by omega, hc, by omega, le_rfl⟩⟩
      · refine ⟨f k - 1, fun _ => ⟨by omega, ?_, by omega, by omega⟩⟩
        by_contra hc'
        have := mul_nonneg (sub_nonneg.2 w1) (sub_nonneg.2 (not_lt.1 hc'))
        have := mul_nonneg w0 (sub_nonneg.2 (not_lt.1 hc))
        nlinarith
    · exact ⟨0, fun h => absurd h hk⟩
  choose g hg using key
  refine ⟨g, fun k hk => ⟨(hg k hk).1, (hg k hk).2.1⟩, fun k hk => ?_⟩
  obtain ⟨-, s1, -, l1⟩ := hg k hk.le
  obtain ⟨-, s2, l2, -⟩ := hg (k + 1) hk
  have := hinc k hk
  refine lt_of_le_of_ne (by omega) fun he => ?_
  rw [← he] at s2
  have := mul_pos s1 s2
  have h3 := halt k hk
  nlinarith [mul_self_nonneg (c (g k))]

/-- The coefficients have all sign changes of the curve. -/
theorem signs_follow (p m : ℕ) (xs vs : ℕ → K) (hx : ∀ k < m, xs k < xs (k + 1)) (halt : ∀ k < m, vs k * vs (k + 1) < 0)
    (hv : ∀ k ≤ m, vs k ≠ 0) : ∀ (T : ℕ) (kn : ℕ → K) (n N : ℕ) (c : ℕ → K) (r : ℕ → ℕ), MonoBelow kn n → N + p + 1 = n →
      (∀ k ≤ m, r k ≤ p ∧ ∃ a, MidAt kn n p (r k) c (xs k) (vs k) a) → ∑ k ∈ range (m + 1), (p - r k) ≤ T → SignsFollow c N m vs := by
  have hxs : ∀ k l, k < l → l ≤ m → xs k < xs l := by
    intro k l hkl
    induction l, hkl using Nat.le_induction with
    | base => exact fun hl => hx k (by omega)
    | succ l hl ih => exact fun hl' => (ih (by omega)).trans (hx l (by omega))
  intro T
  induction T with
  | zero =>
    intro kn n N c r hm hN hr hT
    have hfull : ∀ k ≤ m, ∃ a, MidAt kn n p p c (xs k) (vs k) a := by
      intro k hk
      obtain ⟨h1, a, h2⟩ := hr k hk
      have := (sum_eq_zero_iff.1 (Nat.le_zero.1 hT)) k (mem_range.2 (by omega))
      rw [show r k = p by omega] at h2
      exact ⟨a, h2⟩
    have : ∀ k, ∃ a, k ≤ m → MidAt kn n p p c (xs k) (vs k) a := fun k => by
      by_cases hk : k ≤ m
      · obtain ⟨a, ha⟩ := hfull k hk
        exact ⟨a, fun _ => ha⟩
      · exact ⟨0, fun h => absurd h hk⟩
    choose f hf using this
    refine ⟨f, fun k hk => ⟨?_, ?_⟩, fun k hk => ?_⟩
    · have := (hf k hk).upper
      omega
    · rw [(hf k hk).full]
      exact mul_self_pos.2 (hv k hk)
    · have a1 := (hf k hk.le).left
      have a2 := (hf (k + 1) hk).next
      have a3 := hx k hk
      have u1 := (hf k hk.le).upper
      have : f k ≤ f (k + 1) := by
        by_contra hc
        have := hm (f (k + 1) + 1) (f k) (by omega) (by omega)
        linarith
      refine lt_of_le_of_ne this fun he => ?_
      have e1 := (hf k hk.le).full
      have e2 := (hf (k + 1) hk).full
      rw [← he, e1] at e2
      have := halt k hk
      rw [← e2] at this
      nlinarith [mul_self_nonneg (vs k)]
  | succ T ih =>
    intro kn n N c r hm hN hr hT
    by_cases hdone : ∑ k ∈ range (m + 1), (p - r k) ≤ T
    · exact ih kn n N c r hm hN hr hdone
    obtain ⟨k, hk, hk0⟩ : ∃ k ∈ range (m + 1), p - r k ≠ 0 := by
      by_contra hc
      push Not at hc
      exact hdone (by rw [sum_eq_zero hc]; omega)
    have hkm : k ≤ m := by have := mem_range.1 hk; omega
    obtain ⟨hrk, a, ha⟩ := hr k hkm
    have l1 := ha.lower
    have l2 := ha.upper
    refine SignsFollow.of_insert hm (by omega) (by omega) ha.last ha.right hN halt
      (ih (insertKnot kn (a + r k) (xs k)) (n + 1) (N + 1) (insertCoeff kn p (a + r k) (xs k) c) (Function.update r k (r k + 1))
        (insertKnot_mono hm (by omega) ha.last ha.right.le) (by omega) ?_ ?_)
    · intro l hl
      by_cases hlk : l = k
      · subst hlk
        rw [Function.update_self]
        exact ⟨by omega, a, ha.again hm⟩
      · rw [Function.update_of_ne hlk]
        obtain ⟨hrl, a', ha'⟩ := hr l hl
        refine ⟨hrl, ha'.other hm (by omega) (by omega) ha.last ha.right ?_⟩
        rcases Nat.lt_or_gt_of_ne hlk with h | h
        · exact (hxs l k h hkm).ne'
        · exact (hxs k l h hl).ne
    · rw [← add_sum_erase _ _ hk] at hT ⊢
      rw [Function.update_self, sum_congr rfl fun l hl => by rw [Function.update_of_ne (ne_of_mem_erase hl)]]
      omega

end Verif
