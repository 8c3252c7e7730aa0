import Verif.Model.MachineIntegers
import Verif.Props.Knots
import Verif.Lemmas.Eval
import Mathlib.Data.Nat.Factorial.Basic
import Mathlib.Tactic.IntervalCases
import Mathlib.Tactic.NormNum

/-!
# Property C81: integer arithmetic does not overflow

The specification is the arithmetic of unbounded integers (`Model/Knots`, `Model/BSpline`), about which the other theorems are.
-/

set_option linter.unusedSectionVars false

namespace Verif

theorem checked_ok {bits : ℕ} {x : ℤ} (h : FitsBits bits x) : checked bits x = .ok x := if_pos h

theorem checked_ub {bits : ℕ} {x : ℤ} (h : ¬ FitsBits bits x) : checked bits x = .ub := if_neg h

/-- A quotient by a positive number is between zero and the dividend. -/
theorem tdiv_between (m n : ℤ) (hn : 0 < n) : (0 ≤ m → 0 ≤ m.tdiv n ∧ m.tdiv n ≤ m) ∧ (m ≤ 0 → m ≤ m.tdiv n ∧ m.tdiv n ≤ 0) := by
  have key : ∀ m : ℤ, 0 ≤ m → 0 ≤ m.tdiv n ∧ m.tdiv n ≤ m := by
    intro m hm
    rw [Int.tdiv_eq_ediv_of_nonneg hm]
    exact ⟨Int.ediv_nonneg hm hn.le, Int.ediv_le_self _ hm⟩
  refine ⟨key m, fun hm => ?_⟩
  have := key (-m) (by omega)
  rw [Int.neg_tdiv] at this
  omega

theorem tdiv_fits (m n : ℤ) (hn : 0 < n) (hm : FitsBits 64 m) : FitsBits 64 (m.tdiv n) := by
  obtain ⟨h1, h2⟩ := tdiv_between m n hn
  unfold FitsBits at *
  rcases le_total 0 m with h | h
  · have := h1 h
    omega
  · have := h2 h
    omega

/-! ### Knots of an interval -/

/-- One knot: what it needs is that the duration, its product with the position and the knot itself fit. -/
theorem linearlyInterpolate64_iff (a b n pos x : ℤ) (hn : 0 < n) (hp : pos ≠ n) :
    linearlyInterpolate64 a b n pos = .ok x ↔
      FitsBits 64 (b - a) ∧ FitsBits 64 ((b - a) * pos) ∧ FitsBits 64 x ∧ x = linearlyInterpolate intPolicy a b n pos := by
  unfold linearlyInterpolate64 linearlyInterpolate computeDuration64 div64 checked
  rw [if_neg hp, if_neg hp]
  by_cases h1 : FitsBits 64 (b - a)
  · rw [if_pos h1]
    by_cases h2 : FitsBits 64 ((b - a) * pos)
    · simp only [Outcome.bind_ok, if_pos h2, if_neg hn.ne', if_pos (tdiv_fits _ _ hn h2), intPolicy, Int.cast_id]
      by_cases h3 : FitsBits 64 (a + ((b - a) * pos).tdiv n)
      · rw [if_pos h3, Outcome.ok.injEq]
        constructor
        · rintro rfl
          exact ⟨h1, h2, h3, rfl⟩
        · rintro ⟨-, -, -, rfl⟩
          rfl
      · rw [if_neg h3]
        constructor
        · intro hc
          cases hc
        · rintro ⟨-, -, h, rfl⟩
          exact absurd h h3
    · simp [h2]
  · simp [h1]

theorem linearlyInterpolate64_defined (a b n pos : ℤ) (hn : 0 < n) :
    linearlyInterpolate64 a b n pos = .ok (linearlyInterpolate intPolicy a b n pos) ∨ linearlyInterpolate64 a b n pos = .ub := by
  unfold linearlyInterpolate64 linearlyInterpolate computeDuration64 div64 checked
  by_cases hp : pos = n
  · rw [if_pos hp, if_pos hp]
    exact Or.inl rfl
  rw [if_neg hp, if_neg hp]
  by_cases h1 : FitsBits 64 (b - a)
  · rw [if_pos h1]
    by_cases h2 : FitsBits 64 ((b - a) * pos)
    · simp only [Outcome.bind_ok, if_pos h2, if_neg hn.ne', if_pos (tdiv_fits _ _ hn h2), intPolicy, Int.cast_id]
      by_cases h3 : FitsBits 64 (a + ((b - a) * pos).tdiv n)
      · exact Or.inl (if_pos h3)
      · exact Or.inr (if_neg h3)
    · exact Or.inr (by simp [h2])
  · exact Or.inr (by simp [h1])

theorem tdiv_mono (m m' n : ℤ) (hn : 0 < n) (h : m ≤ m') : m.tdiv n ≤ m'.tdiv n := by
  rcases le_total 0 m with h0 | h0
  · rw [Int.tdiv_eq_ediv_of_nonneg h0, Int.tdiv_eq_ediv_of_nonneg (by omega)]
    exact Int.ediv_le_ediv hn h
  · rcases le_total 0 m' with h1 | h1
    · exact ((tdiv_between m n hn).2 h0).2.trans ((tdiv_between m' n hn).1 h1).1
    · have e1 : m.tdiv n = -((-m).tdiv n) := by rw [Int.neg_tdiv, neg_neg]
      have e2 : m'.tdiv n = -((-m').tdiv n) := by rw [Int.neg_tdiv, neg_neg]
      rw [e1, e2, Int.tdiv_eq_ediv_of_nonneg (by omega), Int.tdiv_eq_ediv_of_nonneg (by omega)]
      have := Int.ediv_le_ediv hn (show -m' ≤ -m by omega)
      omega

/-- Knots increase with their index, so all of them fit if the first and the last one do. -/
theorem knots_fit (order n a b : ℤ) (hn : 1 ≤ n) (hab : a < b)
    (hfirst : FitsBits 64 (UniformTimeCalculator.getTimeByKnotIndex intPolicy ⟨a, b, n, order⟩ 0))
    (hlast : FitsBits 64 (UniformTimeCalculator.getTimeByKnotIndex intPolicy ⟨a, b, n, order⟩ (n + 2 * order - 2))) (j : ℤ) (h0 : 0 ≤ j)
    (h1 : j < n + 2 * order - 1) : FitsBits 64 (UniformTimeCalculator.getTimeByKnotIndex intPolicy ⟨a, b, n, order⟩ j) := by
  obtain ⟨n, rfl⟩ : ∃ k : ℕ, n = k := ⟨n.toNat, by omega⟩
  unfold UniformTimeCalculator.getTimeByKnotIndex at *
  dsimp only at *
  rw [linearlyInterpolate_int _ _ _ (by omega)] at *
  have m1 := tdiv_mono ((b - a) * (0 - preambleKnots order)) ((b - a) * (j - preambleKnots order)) n (by omega)
    (Int.mul_le_mul_of_nonneg_left (by omega) (by omega))
  have m2 := tdiv_mono ((b - a) * (j - preambleKnots order)) ((b - a) * (n + 2 * order - 2 - preambleKnots order)) n (by omega)
    (Int.mul_le_mul_of_nonneg_left (by omega) (by omega))
  unfold FitsBits at *
  omega

/-- **C81** (knots): all knots of an interval are computed without overflow, with the values of unbounded integers, if the duration times the
largest position, the first and the last knot and the number of knots fit. -/
theorem C81_knots_partial (order n : ℤ) (ho : 1 ≤ order) (hn : 1 ≤ n) (a b : ℤ) (hab : a < b) (hcount : n + 2 * order ≤ 2 ^ 31)
    (hprod : (b - a) * (n + order - 1) < 2 ^ 63)
    (hfirst : FitsBits 64 (UniformTimeCalculator.getTimeByKnotIndex intPolicy ⟨a, b, n, order⟩ 0))
    (hlast : FitsBits 64 (UniformTimeCalculator.getTimeByKnotIndex intPolicy ⟨a, b, n, order⟩ (n + 2 * order - 2))) :
    ∃ g : IntervalGen ℤ, IntervalGen.create64 order a b n = .ok g ∧ IntervalGen.create order a b n = .ok g ∧
      g.knots64 = .ok (g.knots intPolicy) := by
  have e0 : IntervalGen.create64 order a b n = .ok ⟨⟨a, b, n, order⟩, 0, n + order - 1 + order⟩ := by
    unfold IntervalGen.create64 numKnotsRequired32
    rw [checked_ok (by unfold FitsBits; norm_num; omega), Outcome.bind_ok, checked_ok (by unfold FitsBits; norm_num; omega), Outcome.bind_ok,
      checked_ok (by unfold FitsBits; norm_num; omega), Outcome.bind_ok, if_neg (by omega), if_neg (by omega)]
  have e1 : IntervalGen.create order a b n = .ok ⟨⟨a, b, n, order⟩, 0, n + order - 1 + order⟩ := by
    unfold IntervalGen.create numKnotsRequiredInt numControlVerticesRequired
    rw [if_neg (by omega), if_neg (by omega)]
  refine ⟨_, e0, e1, ?_⟩
  have key : ∀ l : List ℤ, (∀ i ∈ l, 0 ≤ i ∧ i < n + 2 * order - 1) → timesByKnotIndices64 ⟨a, b, n, order⟩ l =
      .ok (l.map (UniformTimeCalculator.getTimeByKnotIndex intPolicy ⟨a, b, n, order⟩)) := by
    intro l
    induction l with
    | nil => intro _; rfl
    | cons i l ih =>
      intro hl
      obtain ⟨h0, h1⟩ := hl i List.mem_cons_self
      rw [timesByKnotIndices64, ih fun j hj => hl j (List.mem_cons_of_mem _ hj)]
      have : timeByKnotIndex64 ⟨a, b, n, order⟩ i = .ok (UniformTimeCalculator.getTimeByKnotIndex intPolicy ⟨a, b, n, order⟩ i) := by
        unfold timeByKnotIndex64
        dsimp only
        rw [checked_ok (by unfold FitsBits; norm_num; omega), Outcome.bind_ok, checked_ok (by unfold FitsBits; norm_num; omega), Outcome.bind_ok]
        by_cases hp : i - (order - 1) = n
        · unfold linearlyInterpolate64 UniformTimeCalculator.getTimeByKnotIndex linearlyInterpolate preambleKnots
          rw [if_pos hp, if_pos hp]
        · refine (linearlyInterpolate64_iff a b n _ _ (by omega) hp).2 ⟨?_, ?_, knots_fit order n a b hn hab hfirst hlast i h0 h1, rfl⟩
          · have : (b - a) * 1 ≤ (b - a) * (n + order - 1) := Int.mul_le_mul_of_nonneg_left (by omega) (by omega)
            unfold FitsBits
            norm_num at *
            omega
          · have q1 : (b - a) * (i - (order - 1)) ≤ (b - a) * (n + order - 1) := Int.mul_le_mul_of_nonneg_left (by omega) (by omega)
            have q2 : (b - a) * (-(n + order - 1)) ≤ (b - a) * (i - (order - 1)) := Int.mul_le_mul_of_nonneg_left (by omega) (by omega)
            rw [mul_neg] at q2
            unfold FitsBits
            norm_num at *
            omega
      rw [this]
      rfl
  unfold IntervalGen.knots64 IntervalGen.knots
  rw [key _ ?_, List.map_map]
  · rfl
  · intro i hi
    simp only [List.mem_map, List.mem_range] at hi
    obtain ⟨j, hj, rfl⟩ := hi
    omega

/-- **C81** (knots, the limit is exact): if the duration times the largest position does not fit, computing the last knot overflows, for
every order from two on. -/
theorem C81_knots_violated (order n : ℤ) (ho : 2 ≤ order) (hn : 1 ≤ n) (a b : ℤ) (hab : a < b) (hcount : n + 2 * order ≤ 2 ^ 31)
    (hprod : 2 ^ 63 ≤ (b - a) * (n + order - 1)) (g : IntervalGen ℤ) (hg : IntervalGen.create64 order a b n = .ok g) : g.knots64 = .ub := by
  have e0 : IntervalGen.create64 order a b n = .ok ⟨⟨a, b, n, order⟩, 0, n + order - 1 + order⟩ := by
    unfold IntervalGen.create64 numKnotsRequired32
    rw [checked_ok (by unfold FitsBits; norm_num; omega), Outcome.bind_ok, checked_ok (by unfold FitsBits; norm_num; omega), Outcome.bind_ok,
      checked_ok (by unfold FitsBits; norm_num; omega), Outcome.bind_ok, if_neg (by omega), if_neg (by omega)]
  rw [e0, Outcome.ok.injEq] at hg
  subst hg
  have hdef : ∀ i, 0 ≤ i → i < n + 2 * order - 1 → (∃ x, timeByKnotIndex64 ⟨a, b, n, order⟩ i = .ok x) ∨ timeByKnotIndex64 ⟨a, b, n, order⟩ i = .ub := by
    intro i h0 h1
    unfold timeByKnotIndex64
    dsimp only
    rw [checked_ok (by unfold FitsBits; norm_num; omega), Outcome.bind_ok, checked_ok (by unfold FitsBits; norm_num; omega), Outcome.bind_ok]
    rcases linearlyInterpolate64_defined a b n (i - (order - 1)) (by omega) with h | h
    · exact Or.inl ⟨_, h⟩
    · exact Or.inr h
  have hlast : timeByKnotIndex64 ⟨a, b, n, order⟩ (n + 2 * order - 2) = .ub := by
    unfold timeByKnotIndex64
    dsimp only
    rw [checked_ok (by unfold FitsBits; norm_num; omega), Outcome.bind_ok, checked_ok (by unfold FitsBits; norm_num; omega), Outcome.bind_ok]
    rcases linearlyInterpolate64_defined a b n (n + 2 * order - 2 - (order - 1)) (by omega) with h | h
    · have := ((linearlyInterpolate64_iff a b n _ _ (by omega) (by omega)).1 h).2.1
      unfold FitsBits at this
      rw [show n + 2 * order - 2 - (order - 1) = n + order - 1 by ring] at this
      norm_num at this hprod
      omega
    · exact h
  have key : ∀ l : List ℤ, (∀ i ∈ l, 0 ≤ i ∧ i < n + 2 * order - 1) → n + 2 * order - 2 ∈ l → timesByKnotIndices64 ⟨a, b, n, order⟩ l = .ub := by
    intro l
    induction l with
    | nil => intro _ h; simp at h
    | cons i l ih =>
      intro hl hm
      obtain ⟨h0, h1⟩ := hl i List.mem_cons_self
      rw [timesByKnotIndices64]
      rcases List.mem_cons.1 hm with rfl | hm
      · rw [hlast]
        rfl
      · rw [ih (fun j hj => hl j (List.mem_cons_of_mem _ hj)) hm]
        rcases hdef i h0 h1 with ⟨x, h⟩ | h <;> rw [h] <;> rfl
  unfold IntervalGen.knots64
  refine key _ ?_ ?_
  · intro i hi
    simp only [List.mem_map, List.mem_range] at hi
    obtain ⟨j, hj, rfl⟩ := hi
    omega
  · simp only [List.mem_map, List.mem_range]
    exact ⟨(n + 2 * order - 2).toNat, by omega, by omega⟩

/-- **C81** (counting knots): with very many segments the number of knots overflows before the arguments are looked at. -/
theorem C81_count_violated (order n : ℤ) (ho : 1 ≤ order) (hn : 1 ≤ n) (h : 2 ^ 31 < n + 2 * order) (a b : ℤ) :
    IntervalGen.create64 order a b n = .ub := by
  have : numKnotsRequired32 n order = .ub := by
    unfold numKnotsRequired32
    by_cases h1 : FitsBits 32 (n + order)
    · rw [checked_ok h1, Outcome.bind_ok, checked_ok (by unfold FitsBits at *; norm_num at *; omega), Outcome.bind_ok,
        checked_ub (by unfold FitsBits; norm_num at *; omega)]
    · rw [checked_ub h1]
      rfl
  unfold IntervalGen.create64
  rw [this]
  rfl

/-- **C81** (negative arguments are still rejected). -/
theorem C81_count_rejected (order n : ℤ) (ho : 1 ≤ order) (ho2 : order < 2 ^ 30) (hn : n ≤ 0) (hn2 : -2 ^ 31 ≤ n) (a b : ℤ) :
    IntervalGen.create64 order a b n = .throws := by
  unfold IntervalGen.create64 numKnotsRequired32
  rw [checked_ok (by unfold FitsBits; norm_num at *; omega), Outcome.bind_ok, checked_ok (by unfold FitsBits; norm_num at *; omega),
    Outcome.bind_ok, checked_ok (by unfold FitsBits; norm_num at *; omega), Outcome.bind_ok, if_pos (by omega)]

/-! ### Looking up times -/

/-- **C81** (lookup): the segment of a time of the interval is that of unbounded integers if duration times number of segments fits. -/
theorem C81_lookup_partial (a b n t : ℤ) (hab : a < b) (hn : 1 ≤ n) (hn32 : n < 2 ^ 31) (hprod : (b - a) * n < 2 ^ 63) (h1 : a ≤ t) (h2 : t ≤ b) :
    getSegmentNumber64 a b n t = .ok (getSegmentNumber intPolicy a b n t) := by
  have q0 : (b - a) * 1 ≤ (b - a) * n := Int.mul_le_mul_of_nonneg_left hn (by omega)
  have q1 : 0 ≤ (t - a) * n := Int.mul_nonneg (by omega) (by omega)
  have q2 : (t - a) * n ≤ (b - a) * n := Int.mul_le_mul_of_nonneg_right (by omega) (by omega)
  have q3 : 0 ≤ ((t - a) * n).tdiv (b - a) ∧ ((t - a) * n).tdiv (b - a) ≤ n := by
    rw [Int.tdiv_eq_ediv_of_nonneg q1]
    refine ⟨Int.ediv_nonneg q1 (by omega), ?_⟩
    rw [mul_comm (b - a) n] at q2
    exact Int.ediv_le_of_le_mul (by omega) q2
  have f1 : FitsBits 64 (b - a) := by unfold FitsBits; norm_num at *; omega
  have f2 : FitsBits 64 (t - a) := by unfold FitsBits; norm_num at *; omega
  have f3 : FitsBits 64 ((t - a) * n) := by unfold FitsBits; norm_num at *; omega
  have f4 : FitsBits 64 (((t - a) * n).tdiv (b - a)) := by unfold FitsBits; norm_num at *; omega
  have f5 : wrap 32 (((t - a) * n).tdiv (b - a)) = ((t - a) * n).tdiv (b - a) := by unfold wrap; norm_num at *; omega
  unfold getSegmentNumber64 computeDuration64 div64 getSegmentNumber
  rw [checked_ok f1, Outcome.bind_ok, checked_ok f2, Outcome.bind_ok, checked_ok f3, Outcome.bind_ok, if_neg (by omega), checked_ok f4]
  simp only [Outcome.map, Outcome.bind_ok, f5, intPolicy, Int.cast_id]

/-- **C81** (lookup, the limit is exact): otherwise looking up the end of the interval overflows. -/
theorem C81_lookup_violated (a b n : ℤ) (hprod : 2 ^ 63 ≤ (b - a) * n) : getSegmentNumber64 a b n b = .ub := by
  unfold getSegmentNumber64 computeDuration64
  by_cases f1 : FitsBits 64 (b - a)
  · rw [checked_ok f1, Outcome.bind_ok, Outcome.bind_ok, checked_ub (by unfold FitsBits; norm_num at *; omega)]
    rfl
  · rw [checked_ub f1]
    rfl

/-- **C81** (assertion): on a machine that wraps around, the assertion of `getSegmentNumber` holds exactly if the product of duration and
number of segments does not overflow. -/
theorem C81_assertion (d n : ℤ) (hd : 0 < d) (hd64 : d < 2 ^ 63) (hn : 0 ≤ n) : segmentAssertion d n = true ↔ d * n < 2 ^ 63 := by
  have hp : 0 ≤ d * n := Int.mul_nonneg hd.le hn
  unfold segmentAssertion
  rw [decide_eq_true_iff]
  constructor
  · intro h
    by_contra hc
    -- the wrapped product differs from the product by a multiple of 2^64, its quotient is within 2^63 / d
    have hw : wrap 64 (d * n) < 2 ^ 63 := by unfold wrap; norm_num; omega
    have hlt : (wrap 64 (d * n)).tdiv d < n ∨ n = 0 := by
      by_cases h0 : 0 ≤ wrap 64 (d * n)
      · left
        rw [Int.tdiv_eq_ediv_of_nonneg h0]
        refine Int.ediv_lt_of_lt_mul hd ?_
        rw [mul_comm n d]
        norm_num at *
        omega
      · have := (tdiv_between (wrap 64 (d * n)) d hd).2 (by omega)
        omega
    rcases hlt with hlt | h0
    · omega
    · subst h0
      norm_num at hc
  · intro h
    have : wrap 64 (d * n) = d * n := by unfold wrap; norm_num at *; omega
    rw [this, Int.mul_tdiv_cancel_left _ hd.ne']

/-- **C81** (documented limit): the comment at the assertion says that for a nanosecond clock the square of the duration in seconds times the
segment frequency must be at most 9.22e9, for instance 1000 s at 9223 Hz. -/
theorem C81_documented_limit (seconds hertz : ℤ) (h : seconds ^ 2 * hertz ≤ 9220000000) :
    (seconds * 10 ^ 9) * (seconds * hertz) < 2 ^ 63 := by
  have : (seconds * 10 ^ 9) * (seconds * hertz) = seconds ^ 2 * hertz * 10 ^ 9 := by ring
  rw [this]
  norm_num at *
  omega

/-- Exactly 1000 s at 9223 Hz can be looked up, at 9224 Hz the assertion fails. -/
theorem C81_documented_example :
    segmentAssertion (1000 * 10 ^ 9) (1000 * 9223) = true ∧ segmentAssertion (1000 * 10 ^ 9) (1000 * 9224) = false ∧
    (∀ t : ℤ, 0 ≤ t → t ≤ 1000 * 10 ^ 9 →
      getSegmentNumber64 0 (1000 * 10 ^ 9) (1000 * 9223) t = .ok (getSegmentNumber intPolicy 0 (1000 * 10 ^ 9) (1000 * 9223) t)) ∧
    getSegmentNumber64 0 (1000 * 10 ^ 9) (1000 * 9224) (1000 * 10 ^ 9) = .ub := by
  refine ⟨by decide +kernel, by decide +kernel, fun t h1 h2 => ?_, by decide +kernel⟩
  exact C81_lookup_partial _ _ _ _ (by norm_num) (by norm_num) (by norm_num) (by norm_num) h1 h2

/-- **C81** violated: durations and frequencies of everyday recordings overflow, here one hour at one kilohertz, both for the knots (order
four) and in lookups. -/
theorem C81_violated :
    (IntervalGen.create64 4 0 (3600 * 10 ^ 9) (3600 * 1000)).bind IntervalGen.knots64 = .ub ∧
    getSegmentNumber64 0 (3600 * 10 ^ 9) (3600 * 1000) (3600 * 10 ^ 9) = .ub := by
  refine ⟨?_, C81_lookup_violated _ _ _ (by norm_num)⟩
  have e : IntervalGen.create64 4 0 (3600 * 10 ^ 9) (3600 * 1000) = .ok ⟨⟨0, 3600 * 10 ^ 9, 3600 * 1000, 4⟩, 0, 3600 * 1000 + 7⟩ := rfl
  rw [e, Outcome.bind_ok]
  exact C81_knots_violated 4 (3600 * 1000) (by norm_num) (by norm_num) 0 (3600 * 10 ^ 9) (by norm_num) (by norm_num) (by norm_num) _ e

/-- **C81** violated: the assertion does not protect the knots. It holds although the last knot overflows, and no assertion is made where
knots are computed. -/
theorem C81_assertion_violated :
    segmentAssertion (10 ^ 12) 9223372 = true ∧ (IntervalGen.create64 2 0 (10 ^ 12) 9223372).bind IntervalGen.knots64 = .ub := by
  refine ⟨by decide +kernel, ?_⟩
  have e : IntervalGen.create64 2 0 (10 ^ 12) 9223372 = .ok ⟨⟨0, 10 ^ 12, 9223372, 2⟩, 0, 9223372 + 3⟩ := rfl
  rw [e, Outcome.bind_ok]
  exact C81_knots_violated 2 9223372 (by norm_num) (by norm_num) 0 (10 ^ 12) (by norm_num) (by norm_num) (by norm_num) _ e

/-- The assertion holds, so within the limits the calculation of the knot index is that of unbounded integers. -/
theorem C81_index_partial (c : UniformTimeCalculator ℤ) (t : ℤ) (hab : c.minValidTime < c.maxValidTime) (hn : 1 ≤ c.numSegments)
    (ho : 1 ≤ c.splineOrder) (hcount : c.numSegments + c.splineOrder ≤ 2 ^ 31)
    (hprod : (c.maxValidTime - c.minValidTime) * c.numSegments < 2 ^ 63) (h1 : c.minValidTime ≤ t) (h2 : t ≤ c.maxValidTime) :
    knotIndexAtTime64 c t = .ok (c.getKnotIndexAtTime intPolicy t) := by
  have q1 : 0 ≤ (t - c.minValidTime) * c.numSegments := Int.mul_nonneg (by omega) (by omega)
  have q2 : (t - c.minValidTime) * c.numSegments ≤ (c.maxValidTime - c.minValidTime) * c.numSegments :=
    Int.mul_le_mul_of_nonneg_right (by omega) (by omega)
  have q3 : 0 ≤ getSegmentNumber intPolicy c.minValidTime c.maxValidTime c.numSegments t ∧
      getSegmentNumber intPolicy c.minValidTime c.maxValidTime c.numSegments t ≤ c.numSegments := by
    unfold getSegmentNumber
    simp only [intPolicy, Int.cast_id]
    rw [Int.tdiv_eq_ediv_of_nonneg q1]
    refine ⟨Int.ediv_nonneg q1 (by omega), ?_⟩
    rw [mul_comm (c.maxValidTime - c.minValidTime)] at q2
    exact Int.ediv_le_of_le_mul (by omega) q2
  unfold knotIndexAtTime64 UniformTimeCalculator.getKnotIndexAtTime preambleKnots
  rw [C81_lookup_partial _ _ _ _ hab hn (by norm_num at *; omega) hprod h1 h2, Outcome.bind_ok,
    checked_ok (by unfold FitsBits; norm_num at *; omega), Outcome.bind_ok, checked_ok (by unfold FitsBits; norm_num at *; omega)]

/-! ### Knots of constant distance -/

/-- The loop over the knots of a generator of constant distance, at most `fuel` of them. -/
def deltaLoop64 : ℕ → DeltaGen ℤ → Outcome (List ℤ)
  | 0, _ => .ok []
  | fuel + 1, g =>
    if g.lastKnot < g.beyond then g.next64.bind fun r => (deltaLoop64 fuel r.2).map (r.1 :: ·) else .ok []

/-- The same with unbounded integers. -/
def deltaLoop : ℕ → DeltaGen ℤ → List ℤ
  | 0, _ => []
  | fuel + 1, g => if g.lastKnot < g.beyond then g.next.1 :: deltaLoop fuel g.next.2 else []

/-- **C81** (knots of constant distance): if the first and the last time a generator may produce fit, none of its steps overflows, however
long it runs. -/
theorem C81_delta_partial (order start beyond delta : ℤ) (init : Bool) (ho : 1 ≤ order) (hd : 0 < delta) (hsb : start ≤ beyond)
    (h1 : -2 ^ 63 ≤ start - order * delta) (h2 : beyond + order * delta < 2 ^ 63) (h3 : order * delta ≤ 2 ^ 63) (fuel : ℕ) :
    (DeltaGen.create64 order start beyond delta init).bind (deltaLoop64 fuel) =
      .ok (deltaLoop fuel (DeltaGen.create order start beyond delta init)) := by
  have od : delta ≤ order * delta := by nlinarith
  have e : DeltaGen.create64 order start beyond delta init = .ok (DeltaGen.create order start beyond delta init) := by
    unfold DeltaGen.create64 DeltaGen.create firstLastKnot addScaledDuration64 addScaledDuration preambleKnots
    have hm : delta * (order - 1) = order * delta - delta := by ring
    have hm2 : delta * -(order - 1 + 1) = -(order * delta) := by ring
    cases init
    · simp only [Bool.false_eq_true, if_false, Int.cast_id]
      rw [hm, hm2, checked_ok (by unfold FitsBits; norm_num at *; omega), Outcome.bind_ok, checked_ok (by unfold FitsBits; norm_num at *; omega),
        Outcome.bind_ok, checked_ok (by unfold FitsBits; norm_num at *; omega), Outcome.bind_ok,
        checked_ok (by unfold FitsBits; norm_num at *; omega), Outcome.bind_ok]
    · simp only [if_true, Int.cast_id]
      rw [hm, mul_neg_one, checked_ok (by unfold FitsBits; norm_num at *; omega), Outcome.bind_ok, checked_ok (by unfold FitsBits; norm_num at *; omega),
        Outcome.bind_ok, checked_ok (by unfold FitsBits; norm_num at *; omega), Outcome.bind_ok,
        checked_ok (by unfold FitsBits; norm_num at *; omega), Outcome.bind_ok]
  rw [e, Outcome.bind_ok]
  -- invariant: the last knot is representable and the end leaves room for one more step
  have inv : ∀ (fuel : ℕ) (g : DeltaGen ℤ), g.delta = delta → -2 ^ 63 ≤ g.lastKnot → g.beyond + delta < 2 ^ 63 + 1 →
      deltaLoop64 fuel g = .ok (deltaLoop fuel g) := by
    intro fuel
    induction fuel with
    | zero => intro g _ _ _; rfl
    | succ fuel ih =>
      intro g e1 e2 e3
      unfold deltaLoop64 deltaLoop
      by_cases hlt : g.lastKnot < g.beyond
      · rw [if_pos hlt, if_pos hlt]
        have hn : g.next64 = .ok g.next := by
          unfold DeltaGen.next64 DeltaGen.next addScaledDuration64 addScaledDuration
          rw [mul_one, e1, checked_ok (by unfold FitsBits; norm_num at *; omega), Outcome.bind_ok,
            checked_ok (by unfold FitsBits; norm_num at *; omega)]
          simp [Outcome.map]
        rw [hn, Outcome.bind_ok, ih g.next.2 e1 ?_ e3]
        · rfl
        · unfold DeltaGen.next addScaledDuration
          simp only [Int.cast_one, mul_one, e1]
          omega
      · rw [if_neg hlt, if_neg hlt]
  refine inv fuel _ rfl ?_ ?_
  · unfold DeltaGen.create firstLastKnot addScaledDuration preambleKnots
    cases init
    · simp only [Bool.false_eq_true, if_false, Int.cast_id]
      have hm2 : delta * -(order - 1 + 1) = -(order * delta) := by ring
      rw [hm2]
      omega
    · simp only [if_true, Int.cast_id]
      omega
  · unfold DeltaGen.create addScaledDuration
    simp only [Int.cast_id]
    have hm : delta * (order - 1) = order * delta - delta := by ring
    rw [hm]
    omega

/-! ### The factor of differentiated powers -/

/-- Specification: the `d`-th derivative of `x ^ i` is `i (i - 1) … (i - d + 1) x ^ (i - d)`. -/
def Spec.fallingFactor (i d : ℕ) : ℕ := i.descFactorial d

/-- **C81** (derivatives): the factor is computed without overflow, with its right value, exactly if that value is an `int`. -/
theorem C81_dmul (d : ℕ) : ∀ i : ℕ, d ≤ i → i < 2 ^ 31 →
    dmul32 (i : ℤ) d = if Spec.fallingFactor i d < 2 ^ 31 then .ok ((Spec.fallingFactor i d : ℕ) : ℤ) else .ub := by
  unfold Spec.fallingFactor
  induction d with
  | zero =>
    intro i _ _
    rw [Nat.descFactorial_zero, if_pos (by norm_num)]
    rfl
  | succ d ih =>
    intro i hdi hi
    obtain ⟨j, rfl⟩ : ∃ j, i = j + 1 := ⟨i - 1, by omega⟩
    rcases d with _ | d
    · rw [Nat.descFactorial_one, if_pos hi]
      rfl
    · have hs : (j + 1).descFactorial (d + 1 + 1) = (j + 1) * j.descFactorial (d + 1) := Nat.succ_descFactorial_succ _ _
      rw [dmul32, checked_ok (by unfold FitsBits; norm_num at *; omega), Outcome.bind_ok,
        show ((j + 1 : ℕ) : ℤ) - 1 = (j : ℤ) by push_cast; ring, ih j (by omega) (by omega), hs]
      have hmono : j.descFactorial (d + 1) ≤ (j + 1) * j.descFactorial (d + 1) := Nat.le_mul_of_pos_left _ (by omega)
      by_cases h : (j + 1) * j.descFactorial (d + 1) < 2 ^ 31
      · rw [if_pos h, if_pos (by omega), Outcome.bind_ok, checked_ok ?_]
        · push_cast
          rfl
        · have : (((j + 1) * j.descFactorial (d + 1) : ℕ) : ℤ) < 2 ^ 31 := by exact_mod_cast h
          have h0 : (0 : ℤ) ≤ (((j + 1) * j.descFactorial (d + 1) : ℕ) : ℤ) := Int.natCast_nonneg _
          push_cast at this h0
          unfold FitsBits
          push_cast
          norm_num at *
          constructor <;> linarith
      · rw [if_neg h]
        by_cases h' : j.descFactorial (d + 1) < 2 ^ 31
        · rw [if_pos h', Outcome.bind_ok, checked_ub]
          intro hf
          have : (((j + 1) * j.descFactorial (d + 1) : ℕ) : ℤ) < 2 ^ 31 := by
            have := hf.2
            push_cast at this ⊢
            norm_num at *
            exact this
          exact h (by exact_mod_cast this)
        · rw [if_neg h']
          rfl

/-- The factors of an order are at most the factorial of its degree. -/
theorem fallingFactor_le (i d : ℕ) (h : i ≤ 12) : Spec.fallingFactor i d < 2 ^ 31 := by
  unfold Spec.fallingFactor
  have h1 : i.descFactorial d ≤ i.factorial := by
    by_cases hd : d ≤ i
    · exact Nat.le_of_dvd (Nat.factorial_pos _) ⟨(i - d).factorial, by rw [mul_comm, Nat.factorial_mul_descFactorial hd]⟩
    · rw [Nat.descFactorial_of_lt (by omega)]
      exact Nat.zero_le _
  have h2 : i.factorial ≤ Nat.factorial 12 := Nat.factorial_le h
  have h3 : Nat.factorial 12 < 2 ^ 31 := by decide
  omega

/-- **C81** (derivatives): splines of orders up to thirteen may be differentiated as often as one likes. -/
theorem C81_dmul_orders_partial (order i d : ℕ) (ho : order ≤ 13) (hi : i < order) (hd : d ≤ i) : dmul32 (i : ℤ) d = .ok (dmul i d) := by
  rw [C81_dmul d i hd (by omega), if_pos (fallingFactor_le i d (by omega)), dmul_eq d i hd]
  rfl

/-- **C81** violated: the eleventh derivative of a spline of order fourteen overflows. -/
theorem C81_dmul_violated : dmul32 13 11 = .ub ∧ Spec.fallingFactor 13 11 = 3113510400 := by
  refine ⟨?_, by decide⟩
  have := C81_dmul 11 13 (by norm_num) (by norm_num)
  rw [if_neg (by decide)] at this
  exact this

/-! ### Examples -/

/-- Ten seconds from a time stamp of today, hundred segments per second, order four. -/
example : ∃ g : IntervalGen ℤ, IntervalGen.create64 4 1700000000000000000 1700000010000000000 1000 = .ok g ∧
    IntervalGen.create 4 1700000000000000000 1700000010000000000 1000 = .ok g ∧ g.knots64 = .ok (g.knots intPolicy) := by
  exact C81_knots_partial 4 1000 (by norm_num) (by norm_num) _ _ (by norm_num) (by norm_num) (by norm_num) (by decide +kernel) (by decide +kernel)

example : getSegmentNumber64 1700000000000000000 1700000010000000000 1000 1700000003141592653 = .ok 314 := by decide +kernel

example : (DeltaGen.create64 4 1700000000000000000 1700000001000000000 250000000 false).bind (deltaLoop64 3) =
    .ok [1699999999250000000, 1699999999500000000, 1699999999750000000] := by
  rw [C81_delta_partial 4 _ _ _ _ (by norm_num) (by norm_num) (by norm_num) (by norm_num) (by norm_num) (by norm_num)]
  decide +kernel

example : dmul32 12 12 = .ok 479001600 := C81_dmul_orders_partial 13 12 12 le_rfl (by norm_num) le_rfl

end Verif
