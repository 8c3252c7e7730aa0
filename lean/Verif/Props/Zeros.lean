import Verif.Props.Variation
import Mathlib.Analysis.Calculus.Deriv.MeanValue

/-!
# The zeros of a spline

A spline that vanishes on no segment has fewer zeros than coefficients.  If there is one zero in the support of every basis function,
the spline is zero (the theorem of Schoenberg and Whitney).
-/

set_option linter.unusedSectionVars false

namespace Verif

open Finset Polynomial

namespace Zeros

/-- The polynomial of segment `i`. -/
noncomputable def seg (kn : ℕ → ℝ) (p : ℕ) (c : ℕ → ℝ) (i : ℕ) : ℝ[X] := ∑ j ∈ Ico (i - p) (i + 1), C (c j) * piece kn i p j

/-- The coefficients of the derivative, with the indices of the basis functions of the lower degree. -/
noncomputable def diff (kn : ℕ → ℝ) (N q : ℕ) (c : ℕ → ℝ) (j : ℕ) : ℝ :=
  if 1 ≤ j ∧ j < N then ((q : ℝ) + 1) * ((c j - c (j - 1)) * (1 / (kn (j + q + 1) - kn j))) else 0

theorem seg_derivative {kn : ℕ → ℝ} {n N q i : ℕ} (hm : MonoBelow kn n) (hN : N + (q + 1) + 1 = n) (hlt : kn i < kn (i + 1)) (c : ℕ → ℝ)
    (h1 : q + 1 ≤ i) (h2 : i < N) : derivative (seg kn (q + 1) c i) = seg kn q (diff kn N q c) i := by
  unfold seg
  rw [derivative_sum]
  have e1 : ∀ j ∈ Ico (i - (q + 1)) (i + 1), derivative (C (c j) * piece kn i (q + 1) j)
      = ((q : ℝ[X]) + 1) * (C (c j) * (C (1 / (kn (j + q + 1) - kn j)) * piece kn i q j)
        - C (c (j + 1 - 1)) * (C (1 / (kn (j + 1 + q + 1) - kn (j + 1))) * piece kn i q (j + 1))) := by
    intro j hj
    have := mem_Ico.1 hj
    rw [derivative_C_mul, derivative_piece kn n i hm hlt q j (by omega), Nat.add_sub_cancel, show j + 1 + q + 1 = j + q + 2 by omega]
    ring
  rw [sum_congr rfl e1, ← mul_sum, sum_sub_distrib]
  have e2 : ∑ j ∈ Ico (i - (q + 1)) (i + 1), C (c j) * (C (1 / (kn (j + q + 1) - kn j)) * piece kn i q j)
      = ∑ j ∈ Ico (i - q) (i + 1), C (c j) * (C (1 / (kn (j + q + 1) - kn j)) * piece kn i q j) := by
    rw [sum_eq_sum_Ico_succ_bot (by omega), show i - (q + 1) + 1 = i - q by omega, piece_zero_of_gt kn i q (i - (q + 1)) (by omega)]
    simp
  have e3 : ∑ j ∈ Ico (i - (q + 1)) (i + 1), C (c (j + 1 - 1)) * (C (1 / (kn (j + 1 + q + 1) - kn (j + 1))) * piece kn i q (j + 1))
      = ∑ j ∈ Ico (i - q) (i + 1), C (c (j - 1)) * (C (1 / (kn (j + q + 1) - kn j)) * piece kn i q j) := by
    rw [sum_Ico_add' (fun j => C (c (j - 1)) * (C (1 / (kn (j + q + 1) - kn j)) * piece kn i q j)) (i - (q + 1)) (i + 1) 1,
      show i - (q + 1) + 1 = i - q by omega, sum_Ico_succ_top (by omega), piece_zero_of_lt kn i q (i + 1) (by omega)]
    simp
  rw [e2, e3, ← sum_sub_distrib, mul_sum]
  refine sum_congr rfl fun j hj => ?_
  have := mem_Ico.1 hj
  rw [diff, if_pos (by omega), C_mul, C_mul, C_sub, show (C ((q : ℝ) + 1) : ℝ[X]) = (q : ℝ[X]) + 1 by simp]
  ring

theorem seg_join {kn : ℕ → ℝ} {p i : ℕ} (c : ℕ → ℝ) (hp : 1 ≤ p) (h1 : kn i < kn (i + 1)) (h2 : kn (i + 1) < kn (i + 2)) (hi : p ≤ i) :
    (seg kn p c i).eval (kn (i + 1)) = (seg kn p c (i + 1)).eval (kn (i + 1)) := by
  have e1 : seg kn p c i = ∑ j ∈ Ico (i - p) (i + 2), C (c j) * piece kn i p j := by
    rw [show i + 2 = (i + 1) + 1 by omega, sum_Ico_succ_top (by omega), piece_zero_of_lt kn i p (i + 1) (by omega), mul_zero, add_zero]
    rfl
  have e2 : seg kn p c (i + 1) = ∑ j ∈ Ico (i - p) (i + 2), C (c j) * piece kn (i + 1) p j := by
    rw [sum_eq_sum_Ico_succ_bot (by omega), piece_zero_of_gt kn (i + 1) p (i - p) (by omega), mul_zero, zero_add]
    unfold seg
    rw [show i + 1 - p = i - p + 1 by omega]
  rw [e1, e2, eval_finsetSum, eval_finsetSum]
  refine sum_congr rfl fun j _ => ?_
  obtain ⟨q, rfl⟩ := Nat.exists_eq_add_of_le hp
  rw [eval_mul, eval_mul, piece_join_value kn i 1 _ h1 h2 (fun l h3 h4 => by congr 1; omega) q j]

/-- A time of the closed segment `i`. -/
def At (kn : ℕ → ℝ) (i : ℕ) (x : ℝ) : Prop := kn i ≤ x ∧ x ≤ kn (i + 1)

/-- Where a piecewise polynomial curve without jumps rises, its derivative is positive somewhere. -/
theorem rise {kn : ℕ → ℝ} {Q : ℕ → ℝ[X]} : ∀ (e a : ℕ) (x y : ℝ), (∀ l, a ≤ l → l ≤ a + e → kn l < kn (l + 1)) →
    (∀ l, a ≤ l → l < a + e → (Q l).eval (kn (l + 1)) = (Q (l + 1)).eval (kn (l + 1))) → At kn a x → At kn (a + e) y → x < y →
    (Q a).eval x < (Q (a + e)).eval y → ∃ l u, a ≤ l ∧ l ≤ a + e ∧ At kn l u ∧ x < u ∧ u < y ∧ 0 < (derivative (Q l)).eval u
  | e, a, x, y, hs, hj, hx, hy, hxy, hlt => by
    have within : ∀ z, x < z → z ≤ kn (a + 1) → (Q a).eval x < (Q a).eval z → ∃ u, At kn a u ∧ x < u ∧ u < z ∧ 0 < (derivative (Q a)).eval u := by
      intro z h1 h2 h3
      obtain ⟨u, hu, he⟩ := exists_deriv_eq_slope (fun t => (Q a).eval t) h1 (Q a).continuous.continuousOn (Q a).differentiable.differentiableOn
      refine ⟨u, ⟨hx.1.trans hu.1.le, hu.2.le.trans h2⟩, hu.1, hu.2, ?_⟩
      rw [Polynomial.deriv] at he
      rw [he]
      exact div_pos (by linarith) (by linarith)
    match e with
    | 0 =>
      obtain ⟨u, h1, h2, h3, h4⟩ := within y hxy hy.2 hlt
      exact ⟨a, u, le_rfl, le_rfl, h1, h2, h3, h4⟩
    | e + 1 =>
      have hle : kn (a + 1) ≤ kn (a + (e + 1)) := by
        clear hj hy hlt within
        induction e with
        | zero => exact le_rfl
        | succ e ih => exact (ih fun l h1 h2 => hs l h1 (by omega)).trans (hs (a + (e + 1)) (by omega) (by omega)).le
      rcases lt_or_ge ((Q a).eval x) ((Q a).eval (kn (a + 1))) with h | h
      · have hx1 : x < kn (a + 1) := lt_of_le_of_ne hx.2 fun hh => by rw [hh] at h; exact lt_irrefl _ h
        obtain ⟨u, h1, h2, h3, h4⟩ := within _ hx1 le_rfl h
        exact ⟨a, u, le_rfl, by omega, h1, h2, h3.trans_le (hle.trans hy.1), h4⟩
      · rw [hj a le_rfl (by omega)] at h
        have hky : kn (a + 1) < y := by
          refine lt_of_le_of_ne (hle.trans hy.1) fun hh => ?_
          match e with
          | 0 =>
            rw [hh] at h
            exact absurd hlt (not_lt.2 h)
          | e + 1 =>
            have h1 : kn (a + 1) < kn (a + 2) := hs (a + 1) (by omega) (by omega)
            have h2 : kn (a + 2) ≤ kn (a + (e + 1 + 1)) := by
              clear hj hy hlt within hle h
              induction e with
              | zero => exact le_rfl
              | succ e ih => exact (ih fun l h1 h2 => hs l h1 (by omega)).trans (hs (a + (e + 1 + 1)) (by omega) (by omega)).le
            have := hy.1
            linarith
        have e1 : a + 1 + e = a + (e + 1) := by omega
        obtain ⟨l, u, g1, g2, g3, g4, g5, g6⟩ := rise e (a + 1) (kn (a + 1)) y (fun l h1 h2 => hs l (by omega) (by omega))
          (fun l h1 h2 => hj l (by omega) (by omega)) ⟨le_rfl, (hs (a + 1) (by omega) (by omega)).le⟩ (by rw [e1]; exact hy) hky
          (by rw [e1]; exact h.trans_lt hlt)
        exact ⟨l, u, by omega, by omega, g3, hx.2.trans_lt g4, g5, g6⟩

theorem nonroot {Q : ℝ[X]} (hQ : Q ≠ 0) {a b : ℝ} (h : a < b) : ∃ y, a < y ∧ y < b ∧ Q.eval y ≠ 0 := by
  by_contra hc
  push Not at hc
  exact hQ (Q.eq_zero_of_infinite_isRoot ((Set.Ioo_infinite h).mono fun y hy => hc y hy.1 hy.2))

/-- Between two times there is one at which the curve is not zero, if no piece is. -/
theorem gap {kn : ℕ → ℝ} {Q : ℕ → ℝ[X]} {a b : ℕ} {x y : ℝ} (hab : a ≤ b) (hs : ∀ l, a ≤ l → l ≤ b → kn l < kn (l + 1))
    (hQ : ∀ l, a ≤ l → l ≤ b → Q l ≠ 0) (hx : At kn a x) (hy : At kn b y) (hxy : x < y) :
    ∃ l z, a ≤ l ∧ l ≤ b ∧ At kn l z ∧ x < z ∧ z < y ∧ (Q l).eval z ≠ 0 := by
  rcases hx.2.lt_or_eq with h | h
  · obtain ⟨z, h1, h2, h3⟩ := nonroot (hQ a le_rfl hab) (lt_min h hxy)
    rw [lt_min_iff] at h2
    exact ⟨a, z, le_rfl, hab, ⟨hx.1.trans h1.le, h2.1.le⟩, h1, h2.2, h3⟩
  · have hb : a + 1 ≤ b := by
      by_contra hc
      have : a = b := by omega
      subst this
      have := hy.2
      linarith
    obtain ⟨z, h1, h2, h3⟩ := nonroot (hQ (a + 1) (by omega) hb) (lt_min (hs (a + 1) (by omega) hb) (h ▸ hxy))
    rw [lt_min_iff] at h2
    exact ⟨a + 1, z, by omega, hb, ⟨h1.le, h2.1.le⟩, h ▸ h1, h2.2, h3⟩

/-- Between two zeros the derivative has both signs. -/
theorem both_signs {kn : ℕ → ℝ} {Q : ℕ → ℝ[X]} {a b : ℕ} {x y : ℝ} (hab : a ≤ b) (hs : ∀ l, a ≤ l → l ≤ b → kn l < kn (l + 1))
    (hj : ∀ l, a ≤ l → l < b → (Q l).eval (kn (l + 1)) = (Q (l + 1)).eval (kn (l + 1)))
    (hQ : ∀ l, a ≤ l → l ≤ b → Q l ≠ 0) (hx : At kn a x) (hy : At kn b y) (hxy : x < y) (hx0 : (Q a).eval x = 0) (hy0 : (Q b).eval y = 0) :
    ∃ l u l' u', (a ≤ l ∧ l ≤ b ∧ At kn l u) ∧ (a ≤ l' ∧ l' ≤ b ∧ At kn l' u') ∧ x < u ∧ u < u' ∧ u' < y ∧
      (derivative (Q l)).eval u * (derivative (Q l')).eval u' < 0 := by
  obtain ⟨m, z, h1, h2, h3, h4, h5, h6⟩ := gap hab hs hQ hx hy hxy
  obtain ⟨e, rfl⟩ := Nat.exists_eq_add_of_le h1
  obtain ⟨e', rfl⟩ := Nat.exists_eq_add_of_le h2
  rcases lt_or_gt_of_ne h6 with h | h
  · obtain ⟨l, u, g1, g2, g3, g4, g5, g6⟩ := rise (Q := fun i => -Q i) e a x z (fun l h1 h2 => hs l h1 (by omega))
      (fun l h1 h2 => by simp only [eval_neg]; rw [hj l h1 (by omega)]) hx h3 h4 (by simp only [eval_neg]; linarith)
    obtain ⟨l', u', f1, f2, f3, f4, f5, f6⟩ := rise (Q := Q) e' (a + e) z y (fun l h1 h2 => hs l (by omega) (by omega))
      (fun l h1 h2 => hj l (by omega) (by omega)) h3 hy h5 (by linarith)
    simp only [derivative_neg, eval_neg] at g6
    exact ⟨l, u, l', u', ⟨g1, by omega, g3⟩, ⟨by omega, f2, f3⟩, g4, g5.trans f4, f5, mul_neg_of_neg_of_pos (by linarith) f6⟩
  · obtain ⟨l, u, g1, g2, g3, g4, g5, g6⟩ := rise (Q := Q) e a x z (fun l h1 h2 => hs l h1 (by omega))
      (fun l h1 h2 => hj l h1 (by omega)) hx h3 h4 (by linarith)
    obtain ⟨l', u', f1, f2, f3, f4, f5, f6⟩ := rise (Q := fun i => -Q i) e' (a + e) z y (fun l h1 h2 => hs l (by omega) (by omega))
      (fun l h1 h2 => by simp only [eval_neg]; rw [hj l (by omega) (by omega)]) h3 hy h5 (by simp only [eval_neg]; linarith)
    simp only [derivative_neg, eval_neg] at f6
    exact ⟨l, u, l', u', ⟨g1, by omega, g3⟩, ⟨by omega, f2, f3⟩, g4, g5.trans f4, f5, mul_neg_of_pos_of_neg g6 (by linarith)⟩

/-- From pairs of opposite signs in a row one can choose a sequence of alternating signs. -/
theorem alternate {T : ℕ → ℝ → ℕ → Prop} {g : ℕ → ℝ → ℝ} : ∀ (m : ℕ) (z : ℕ → ℝ),
    (∀ k < m, ∃ l u l' u', T k u l ∧ T k u' l' ∧ z k < u ∧ u < u' ∧ u' < z (k + 1) ∧ g l u * g l' u' < 0) → 1 ≤ m →
    ∃ (xs : ℕ → ℝ) (ls : ℕ → ℕ), (∀ k ≤ m, ∃ r < m, T r (xs k) (ls k)) ∧ (∀ k < m, xs k < xs (k + 1)) ∧ xs m < z m ∧
      (∀ k < m, g (ls k) (xs k) * g (ls (k + 1)) (xs (k + 1)) < 0)
  | 0, z, _, h0 => absurd h0 (by omega)
  | 1, z, h, _ => by
    obtain ⟨l, u, l', u', t1, t2, h1, h2, h3, h4⟩ := h 0 (by omega)
    refine ⟨fun k => if k = 0 then u else u', fun k => if k = 0 then l else l', fun k hk => ⟨0, by omega, ?_⟩, fun k hk => ?_, ?_, fun k hk => ?_⟩
    · obtain rfl | rfl : k = 0 ∨ k = 1 := by omega
      · simpa using t1
      · simpa using t2
    · obtain rfl : k = 0 := by omega
      simpa using h2
    · simpa using h3
    · obtain rfl : k = 0 := by omega
      simpa using h4
  | m + 2, z, h, _ => by
    obtain ⟨xs, ls, a1, a2, a3, a4⟩ := alternate (m + 1) z (fun k hk => h k (by omega)) (by omega)
    obtain ⟨l, u, l', u', t1, t2, h1, h2, h3, h4⟩ := h (m + 1) (by omega)
    have pick : ∃ r v, T (m + 1) v r ∧ z (m + 1) < v ∧ v < z (m + 2) ∧ g (ls (m + 1)) (xs (m + 1)) * g r v < 0 := by
      have hne : g (ls (m + 1)) (xs (m + 1)) ≠ 0 := fun hh => by
        have := a4 m (by omega)
        rw [hh, mul_zero] at this
        exact lt_irrefl _ this
      rcases lt_or_ge (g (ls (m + 1)) (xs (m + 1)) * g l u) 0 with hh | hh
      · exact ⟨l, u, t1, h1, h2.trans h3, hh⟩
      · refine ⟨l', u', t2, h1.trans h2, h3, ?_⟩
        rcases lt_or_gt_of_ne hne with hn | hn
        · have : g l u ≤ 0 := by by_contra hc; push Not at hc; nlinarith
          have : 0 < g l' u' := by by_contra hc; push Not at hc; nlinarith
          exact mul_neg_of_neg_of_pos hn this
        · have : 0 ≤ g l u := by by_contra hc; push Not at hc; nlinarith
          have : g l' u' < 0 := by by_contra hc; push Not at hc; nlinarith
          exact mul_neg_of_pos_of_neg hn this
    obtain ⟨r, v, tv, v1, v2, v3⟩ := pick
    refine ⟨fun k => if k = m + 2 then v else xs k, fun k => if k = m + 2 then r else ls k, fun k hk => ?_, fun k hk => ?_, ?_, fun k hk => ?_⟩
    · rcases Nat.lt_or_ge k (m + 2) with hk' | hk'
      · obtain ⟨q, hq, ht⟩ := a1 k (by omega)
        exact ⟨q, by omega, by simpa [hk'.ne] using ht⟩
      · obtain rfl : k = m + 2 := by omega
        exact ⟨m + 1, by omega, by simpa using tv⟩
    · rcases Nat.lt_or_ge k (m + 1) with hk' | hk'
      · have := a2 k hk'
        simpa [show k ≠ m + 2 by omega, show k ≠ m + 1 by omega] using this
      · obtain rfl : k = m + 1 := by omega
        simpa using a3.trans v1
    · simpa using v2
    · rcases Nat.lt_or_ge k (m + 1) with hk' | hk'
      · have := a4 k hk'
        simpa [show k ≠ m + 2 by omega, show k ≠ m + 1 by omega] using this
      · obtain rfl : k = m + 1 := by omega
        simpa using v3

/-- The zeros `z 0 < … < z m` of a spline that vanishes on no segment around them need `m + 1` changes of the coefficients. -/
theorem changes {kn : ℕ → ℝ} {n N p : ℕ} (hm : MonoBelow kn n) (hN : N + p + 1 = n) (hp : 1 ≤ p) {c : ℕ → ℝ} {P Q : ℕ}
    (hP : p ≤ P) (hQN : Q < N) (hs : ∀ l, P ≤ l → l ≤ Q → kn l < kn (l + 1)) (hne : ∀ l, P ≤ l → l ≤ Q → seg kn p c l ≠ 0)
    (m : ℕ) (hm1 : 1 ≤ m) (z : ℕ → ℝ) (sg : ℕ → ℕ) (hz : ∀ k < m, z k < z (k + 1))
    (hsg : ∀ k ≤ m, P ≤ sg k ∧ sg k ≤ Q ∧ At kn (sg k) (z k) ∧ (seg kn p c (sg k)).eval (z k) = 0) :
    ∃ b : ℕ → ℕ, (∀ k ≤ m, 1 ≤ b k ∧ b k < N ∧ c (b k) ≠ c (b k - 1)) ∧ ∀ k < m, b k < b (k + 1) := by
  obtain ⟨q, rfl⟩ : ∃ q, p = q + 1 := ⟨p - 1, by omega⟩
  have hd : ∀ l, P ≤ l → l ≤ Q → derivative (seg kn (q + 1) c l) = seg kn q (diff kn N q c) l := fun l h1 h2 =>
    seg_derivative hm hN (hs l h1 h2) c (by omega) (by omega)
  have hsgm : ∀ k < m, sg k ≤ sg (k + 1) := by
    intro k hk
    by_contra hc
    push Not at hc
    obtain ⟨a1, a2, a3, -⟩ := hsg k (by omega)
    obtain ⟨b1, b2, b3, -⟩ := hsg (k + 1) (by omega)
    have := hz k hk
    have h1 := b3.2
    have h2 := a3.1
    have := hm (sg (k + 1) + 1) (sg k) (by omega) (by omega)
    linarith
  obtain ⟨xs, ls, a1, a2, -, a4⟩ := alternate (T := fun _ u l => P ≤ l ∧ l ≤ Q ∧ At kn l u)
    (g := fun l u => (derivative (seg kn (q + 1) c l)).eval u) m z (fun k hk => by
      obtain ⟨b1, b2, b3, b4⟩ := hsg k (by omega)
      obtain ⟨d1, d2, d3, d4⟩ := hsg (k + 1) (by omega)
      obtain ⟨l, u, l', u', ⟨e1, e2, e3⟩, ⟨f1, f2, f3⟩, g1, g2, g3, g4⟩ := both_signs (kn := kn) (Q := seg kn (q + 1) c) (hsgm k hk)
        (fun l h1 h2 => hs l (by omega) (by omega))
        (fun l h1 h2 => seg_join c (by omega) (hs l (by omega) (by omega)) (hs (l + 1) (by omega) (by omega)) (by omega))
        (fun l h1 h2 => hne l (by omega) (by omega)) b3 d3 (hz k hk) b4 d4
      exact ⟨l, u, l', u', ⟨by omega, by omega, e3⟩, ⟨by omega, by omega, f3⟩, g1, g2, g3, g4⟩) hm1
  have hv : ∀ k ≤ m, (derivative (seg kn (q + 1) c (ls k))).eval (xs k) ≠ 0 := by
    intro k hk h0
    rcases Nat.lt_or_ge k m with hk' | hk'
    · have := a4 k hk'
      rw [h0, zero_mul] at this
      exact lt_irrefl _ this
    · obtain rfl : k = m := by omega
      have := a4 (k - 1) (by omega)
      rw [show k - 1 + 1 = k by omega, h0, mul_zero] at this
      exact lt_irrefl _ this
  obtain ⟨b, hb1, hb2⟩ := signs_closed (kn := kn) (n := n) (N := N + 1) (p := q) (c := diff kn N q c) hm (by omega) m xs
    (fun k => (derivative (seg kn (q + 1) c (ls k))).eval (xs k)) a2 a4 hv (fun k hk => by
      obtain ⟨-, -, t1, t2, t3⟩ := a1 k hk
      exact ⟨ls k, by omega, by omega, hs _ t1 t2, t3.1, t3.2, by rw [hd _ t1 t2]; rfl⟩)
  refine ⟨b, fun k hk => ?_, hb2⟩
  have h0 := (hb1 k hk).2
  have : diff kn N q c (b k) ≠ 0 := fun hh => by rw [hh, zero_mul] at h0; exact lt_irrefl _ h0
  unfold diff at this
  split_ifs at this with hh
  · refine ⟨hh.1, hh.2, fun hc => this ?_⟩
    rw [hc]
    simp
  · exact absurd rfl this

/-- A polynomial segment depends on its coefficients only. -/
theorem seg_congr {kn : ℕ → ℝ} {p i : ℕ} {c c' : ℕ → ℝ} (h : ∀ j, i - p ≤ j → j ≤ i → c j = c' j) : seg kn p c i = seg kn p c' i := by
  unfold seg
  refine sum_congr rfl fun j hj => ?_
  have := mem_Ico.1 hj
  rw [h j (by omega) (by omega)]

theorem increasing_ge {b : ℕ → ℕ} {m lo : ℕ} (h0 : lo ≤ b 0) (h : ∀ k < m, b k < b (k + 1)) : ∀ k ≤ m, lo + k ≤ b k
  | 0, _ => by simpa using h0
  | k + 1, hk => by
    have := increasing_ge h0 h k (by omega)
    have := h k (by omega)
    omega

/-- **Schoenberg and Whitney**, sufficiency: a spline with a zero strictly inside the support of each basis function, in the same order,
is zero. -/
theorem zero_of_zeros {kn : ℕ → ℝ} {n N p : ℕ} (hm : MonoBelow kn n) (hN : N + p + 1 = n) (hp : 1 ≤ p)
    (hs : ∀ l, p ≤ l → l < N → kn l < kn (l + 1)) (c : ℕ → ℝ) (x : ℕ → ℝ) (sg : ℕ → ℕ) (hx : ∀ j, j + 1 < N → x j < x (j + 1))
    (hin : ∀ j < N, kn j < x j ∧ x j < kn (j + p + 1))
    (hsg : ∀ j < N, p ≤ sg j ∧ sg j < N ∧ At kn (sg j) (x j) ∧ (seg kn p c (sg j)).eval (x j) = 0) : ∀ j < N, c j = 0 := by
  have hindep : ∀ l, p ≤ l → l < N → seg kn p c l = 0 → ∀ j, l - p ≤ j → j ≤ l → c j = 0 := fun l h1 h2 h3 =>
    piece_independent kn n l hm (hs l h1 h2) p h1 (by omega) c h3
  have hxm : ∀ e j, j + e < N → x j ≤ x (j + e) := by
    intro e
    induction e with
    | zero => intro j _; exact le_rfl
    | succ e ih => intro j hj; exact (ih j (by omega)).trans (hx (j + e) (by omega)).le
  by_contra hc
  push Not at hc
  obtain ⟨j0, hj0, hcj⟩ := hc
  have hNp : p < N := by
    obtain ⟨h1, h2, -⟩ := hsg j0 hj0
    omega
  -- a segment on which the curve is not zero
  obtain ⟨i0, i1, i2, i3⟩ : ∃ i0, p ≤ i0 ∧ i0 < N ∧ seg kn p c i0 ≠ 0 := by
    rcases Nat.lt_or_ge j0 p with h | h
    · exact ⟨p, le_rfl, hNp, fun hh => hcj (hindep p le_rfl hNp hh j0 (by omega) (by omega))⟩
    · exact ⟨j0, h, hj0, fun hh => hcj (hindep j0 h hj0 hh j0 (by omega) le_rfl)⟩
  -- the run of such segments around it
  obtain ⟨P, p1, p2, p3, p4⟩ : ∃ P, p ≤ P ∧ P ≤ i0 ∧ (∀ l, P ≤ l → l ≤ i0 → seg kn p c l ≠ 0) ∧ (P = p ∨ seg kn p c (P - 1) = 0) := by
    clear hcj
    induction i0 with
    | zero => exact ⟨0, by omega, le_rfl, fun l _ h2 => by rw [show l = 0 by omega]; exact i3, .inl (by omega)⟩
    | succ i ih =>
      rcases Nat.lt_or_ge i p with h | h
      · exact ⟨i + 1, i1, le_rfl, fun l h1 h2 => by rw [show l = i + 1 by omega]; exact i3, .inl (by omega)⟩
      · by_cases hz : seg kn p c i = 0
        · exact ⟨i + 1, i1, le_rfl, fun l h1 h2 => by rw [show l = i + 1 by omega]; exact i3, .inr hz⟩
        · obtain ⟨P, a1, a2, a3, a4⟩ := ih h (by omega) hz
          refine ⟨P, a1, by omega, fun l h1 h2 => ?_, a4⟩
          rcases Nat.lt_or_ge i l with hl | hl
          · rw [show l = i + 1 by omega]; exact i3
          · exact a3 l h1 hl
  obtain ⟨Q, q1, q2, q3, q4⟩ : ∃ Q, i0 ≤ Q ∧ Q < N ∧ (∀ l, i0 ≤ l → l ≤ Q → seg kn p c l ≠ 0) ∧ (Q + 1 = N ∨ seg kn p c (Q + 1) = 0) := by
    clear hcj p2 p3
    obtain ⟨e, he⟩ : ∃ e, i0 + e + 1 = N := ⟨N - i0 - 1, by omega⟩
    induction e generalizing i0 with
    | zero => exact ⟨i0, le_rfl, i2, fun l h1 h2 => by rw [show l = i0 by omega]; exact i3, .inl (by omega)⟩
    | succ e ih =>
      by_cases hz : seg kn p c (i0 + 1) = 0
      · exact ⟨i0, le_rfl, i2, fun l h1 h2 => by rw [show l = i0 by omega]; exact i3, .inr hz⟩
      · obtain ⟨Q, a1, a2, a3, a4⟩ := ih (i0 + 1) (by omega) (by omega) hz (by omega)
        refine ⟨Q, by omega, a2, fun l h1 h2 => ?_, a4⟩
        rcases Nat.lt_or_ge i0 l with hl | hl
        · exact a3 l (by omega) h2
        · rw [show l = i0 by omega]; exact i3
  have hne : ∀ l, P ≤ l → l ≤ Q → seg kn p c l ≠ 0 := fun l h1 h2 => by
    rcases Nat.lt_or_ge l i0 with h | h
    · exact p3 l h1 (by omega)
    · exact q3 l h h2
  -- the coefficients that matter there: `A ≤ j < B`
  obtain ⟨A, hA1, hA2, hA3⟩ : ∃ A, (A = 0 ∧ P = p ∨ A = P ∧ p < P ∧ seg kn p c (P - 1) = 0) ∧ A ≤ P ∧
      ∀ j, P - p ≤ j → j < A → c j = 0 := by
    by_cases h : P = p
    · exact ⟨0, .inl ⟨rfl, h⟩, by omega, fun j _ h2 => absurd h2 (by omega)⟩
    · have hz := p4.resolve_left h
      exact ⟨P, .inr ⟨rfl, by omega, hz⟩, le_rfl, fun j h1 h2 => hindep (P - 1) (by omega) (by omega) hz j (by omega) (by omega)⟩
  obtain ⟨B, hB1, hB2⟩ : ∃ B, (B = N ∧ Q + 1 = N ∨ B + p = Q + 1 ∧ Q + 1 < N ∧ seg kn p c (Q + 1) = 0) ∧
      ∀ j, B ≤ j → j ≤ Q → c j = 0 := by
    by_cases h : Q + 1 = N
    · exact ⟨N, .inl ⟨rfl, h⟩, fun j h1 h2 => absurd h2 (by omega)⟩
    · have hz := q4.resolve_left h
      exact ⟨Q + 1 - p, .inr ⟨by omega, by omega, hz⟩, fun j h1 h2 => hindep (Q + 1) (by omega) (by omega) hz j (by omega) (by omega)⟩
  set c' : ℕ → ℝ := fun j => if A ≤ j ∧ j < B then c j else 0 with hc'
  have hseg : ∀ l, P ≤ l → l ≤ Q → seg kn p c' l = seg kn p c l := fun l h1 h2 => by
    refine seg_congr fun j g1 g2 => ?_
    rw [hc']
    dsimp only
    split_ifs with hh
    · rfl
    · rcases Nat.lt_or_ge j A with g | g
      · exact (hA3 j (by omega) g).symm
      · exact (hB2 j (by omega) (by omega)).symm
  have hAB : A < B := by
    by_contra hh
    refine hne P le_rfl (by omega) ?_
    rw [← hseg P le_rfl (by omega)]
    unfold seg
    refine sum_eq_zero fun j _ => ?_
    rw [hc']
    dsimp only
    rw [if_neg (by omega), C_0, zero_mul]
  have hBN : B ≤ N := by rcases hB1 with h | h <;> omega
  -- the data times of these coefficients are inside the run
  have hmono : ∀ a b, a ≤ b → b < n → kn a ≤ kn b := hm
  have hrun : ∀ j, A ≤ j → j < B → P ≤ sg j ∧ sg j ≤ Q ∧ (p < P → kn P < x j) ∧ (Q + 1 < N → x j < kn (Q + 1)) := by
    intro j h1 h2
    obtain ⟨g1, g2, g3, -⟩ := hsg j (by omega)
    obtain ⟨f1, f2⟩ := hin j (by omega)
    have left : p < P → kn P < x j := fun h => by
      rcases hA1 with ⟨-, hh⟩ | ⟨hh, -⟩
      · omega
      · exact (hmono P j (by omega) (by omega)).trans_lt f1
    have right : Q + 1 < N → x j < kn (Q + 1) := fun h => by
      rcases hB1 with ⟨-, hh⟩ | ⟨hh, -⟩
      · omega
      · exact f2.trans_le (hmono (j + p + 1) (Q + 1) (by omega) (by omega))
    refine ⟨?_, ?_, left, right⟩
    · by_contra hh
      have h3 := left (by omega)
      have h4 := g3.2
      have := hmono (sg j + 1) P (by omega) (by omega)
      linarith
    · by_contra hh
      have h3 := right (by omega)
      have h4 := g3.1
      have := hmono (Q + 1) (sg j) (by omega) (by omega)
      linarith
  have hval : ∀ j, A ≤ j → j < B → (seg kn p c' (sg j)).eval (x j) = 0 := fun j h1 h2 => by
    obtain ⟨g1, g2, -⟩ := hrun j h1 h2
    rw [hseg _ g1 g2]
    exact (hsg j (by omega)).2.2.2
  have hsl : ∀ l, P ≤ l → l ≤ Q → kn l < kn (l + 1) := fun l h1 h2 => hs l (by omega) (by omega)
  -- the zeros: these times, and the ends of the run that are next to segments on which the curve is zero
  obtain ⟨M, z, s, z1, z2, z3, z4⟩ : ∃ (M : ℕ) (z : ℕ → ℝ) (s : ℕ → ℕ), (M = B - 1 ∧ A = 0 ∨ M = B - A ∧ 1 ≤ A) ∧ (∀ k < M, z k < z (k + 1)) ∧
      (∀ k ≤ M, P ≤ s k ∧ s k ≤ Q ∧ At kn (s k) (z k) ∧ (seg kn p c' (s k)).eval (z k) = 0) ∧ (Q + 1 < N → z M < kn (Q + 1)) := by
    rcases hA1 with ⟨h0, h1⟩ | ⟨h0, h1, h2⟩
    · refine ⟨B - 1, x, sg, .inl ⟨rfl, h0⟩, fun k hk => hx k (by omega), fun k hk => ?_, fun h => (hrun (B - 1) (by omega) (by omega)).2.2.2 h⟩
      obtain ⟨g1, g2, -⟩ := hrun k (by omega) (by omega)
      exact ⟨g1, g2, (hsg k (by omega)).2.2.1, hval k (by omega) (by omega)⟩
    · refine ⟨B - A, fun k => if k = 0 then kn P else x (A + k - 1), fun k => if k = 0 then P else sg (A + k - 1), .inr ⟨rfl, by omega⟩,
        fun k hk => ?_, fun k hk => ?_, fun h => ?_⟩
      · rcases Nat.eq_zero_or_pos k with rfl | hk0
        · have := (hrun A le_rfl hAB).2.2.1 h1
          simpa using this
        · have := hx (A + k - 1) (by omega)
          rw [show A + k - 1 + 1 = A + (k + 1) - 1 by omega] at this
          simpa [hk0.ne'] using this
      · rcases Nat.eq_zero_or_pos k with rfl | hk0
        · have e : (seg kn p c' P).eval (kn P) = 0 := by
            rw [hseg P le_rfl (by omega)]
            have := seg_join (kn := kn) (p := p) (i := P - 1) c hp (by rw [show P - 1 + 1 = P by omega]; have := hs (P - 1) (by omega) (by omega); rwa [show P - 1 + 1 = P by omega] at this)
              (by rw [show P - 1 + 1 = P by omega, show P - 1 + 2 = P + 1 by omega]; exact hsl P le_rfl (by omega)) (by omega)
            rw [show P - 1 + 1 = P by omega, h2, eval_zero] at this
            exact this.symm
          simp only [if_true]
          exact ⟨le_rfl, by omega, ⟨le_rfl, (hsl P le_rfl (by omega)).le⟩, e⟩
        · obtain ⟨g1, g2, -⟩ := hrun (A + k - 1) (by omega) (by omega)
          simp only [hk0.ne', if_false]
          exact ⟨g1, g2, (hsg (A + k - 1) (by omega)).2.2.1, hval _ (by omega) (by omega)⟩
      · dsimp only
        rw [if_neg (by omega)]
        exact (hrun (A + (B - A) - 1) (by omega) (by omega)).2.2.2 h
  have hchange : ∀ j, 1 ≤ j → j < N → c' j ≠ c' (j - 1) → A ≤ j ∧ j ≤ B := by
    intro j h1 h2 h3
    by_contra hh
    refine h3 ?_
    rw [hc']
    dsimp only
    rw [if_neg (by omega), if_neg (by omega)]
  rcases hB1 with ⟨h0, h1⟩ | ⟨h0, h1, h2⟩
  · rcases Nat.eq_zero_or_pos M with hM | hM
    · -- one coefficient only
      omega
    · obtain ⟨b, b1, b2⟩ := changes hm hN hp (c := c') (P := P) (Q := Q) p1 q2 hsl (fun l h1 h2 => by rw [hseg l h1 h2]; exact hne l h1 h2) M hM z s z2 z3
      obtain ⟨a1, a2, a3⟩ := b1 0 (by omega)
      have h4 := hchange _ a1 a2 a3
      have h5 := increasing_ge (lo := max A 1) (by omega) b2 M le_rfl
      have h6 := (b1 M le_rfl).2.1
      omega
  · obtain ⟨b, b1, b2⟩ := changes hm hN hp (c := c') (P := P) (Q := Q) p1 q2 hsl (fun l h1 h2 => by rw [hseg l h1 h2]; exact hne l h1 h2) (M + 1) (by omega)
      (fun k => if k = M + 1 then kn (Q + 1) else z k) (fun k => if k = M + 1 then Q else s k)
      (fun k hk => by
        rcases Nat.lt_or_ge k M with h | h
        · have := z2 k h
          simpa [show k ≠ M + 1 by omega, show k ≠ M by omega] using this
        · obtain rfl : k = M := by omega
          simpa using z4 h1)
      (fun k hk => by
        rcases Nat.lt_or_ge k (M + 1) with h | h
        · have := z3 k (by omega)
          simpa [show k ≠ M + 1 by omega] using this
        · obtain rfl : k = M + 1 := by omega
          have e : (seg kn p c' Q).eval (kn (Q + 1)) = 0 := by
            rw [hseg Q (by omega) le_rfl, seg_join c hp (hsl Q (by omega) le_rfl) (hs (Q + 1) (by omega) (by omega)) (by omega), h2, eval_zero]
          simp only [if_true]
          exact ⟨by omega, le_rfl, ⟨(hsl Q (by omega) le_rfl).le, le_rfl⟩, e⟩)
    obtain ⟨a1, a2, a3⟩ := b1 0 (by omega)
    have h4 := hchange _ a1 a2 a3
    have h5 := increasing_ge (lo := max A 1) (by omega) b2 (M + 1) le_rfl
    obtain ⟨c1, c2, c3⟩ := b1 (M + 1) le_rfl
    have h6 := hchange _ c1 c2 c3
    omega

end Zeros

end Verif
