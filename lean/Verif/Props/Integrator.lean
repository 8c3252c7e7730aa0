import Verif.Model.Integrator
import Mathlib.Algebra.BigOperators.Intervals
import Mathlib.Algebra.BigOperators.Group.List.Basic
import Mathlib.Algebra.Order.BigOperators.Group.Finset
import Mathlib.Algebra.Polynomial.Eval.Defs
import Mathlib.Analysis.SpecialFunctions.Integrals.Basic
import Mathlib.Tactic.FieldSimp
import Mathlib.Tactic.Module
import Mathlib.Tactic.LinearCombination

/-!
# Properties C36 and C47: numerical integration
-/

set_option linter.unusedSectionVars false

namespace Verif

open Finset

section

variable {K : Type*} [Field K] [LinearOrder K] [IsStrictOrderedRing K] {V : Type*} [AddCommGroup V] [Module K V]

theorem foldl_add_range {M : Type*} [AddCommMonoid M] (g : ℕ → M) (s : M) (n : ℕ) :
    (List.range n).foldl (fun s i => s + g i) s = s + ∑ i ∈ range n, g i := by
  induction n with
  | zero => simp
  | succ n ih => rw [List.range_succ, List.foldl_append, ih, sum_range_succ]; simp [add_assoc]

theorem maxIndex_pos (r : Rule) (n : ℤ) (hn : 2 ≤ n) : 1 ≤ r.maxIndex n := by
  cases r with
  | simpson =>
    simp only [Rule.maxIndex, Rule.numPoints]
    have := Int.tmod_lt_of_pos n (show (0 : ℤ) < 2 by norm_num)
    omega
  | trapezoidal => simp only [Rule.maxIndex, Rule.numPoints]; omega

theorem maxIndex_simpson_even (n : ℤ) (hn : 2 ≤ n) : ∃ m : ℕ, 1 ≤ m ∧ Rule.simpson.maxIndex n = 2 * (m : ℤ) := by
  simp only [Rule.maxIndex, Rule.numPoints]
  rw [Int.tmod_eq_emod_of_nonneg (by omega)]
  exact ⟨(n / 2).toNat, by omega, by omega⟩

/-- The loop is the weighted sum over all points. -/
theorem integrateFunctor_eq (r : Rule) (a b : K) (hab : a ≠ b) (f : K → V) (n : ℤ) (zero : V) :
    integrateFunctor r a b f n zero = r.commonFactor a b n •
      ∑ i ∈ range ((r.maxIndex n).toNat + 1), (r.valueFactor n (i : ℤ) : K) • f (r.point a b n (i : ℤ)) := by
  unfold integrateFunctor
  rw [if_neg hab]
  dsimp only
  rw [foldl_add_range, sum_range_succ']
  congr 1
  rw [add_comm]
  congr 1
  apply sum_congr rfl
  intro i _
  push_cast
  split
  · rename_i h; rw [h, one_smul]
  · rfl

theorem trapezoidal_sum (g : ℕ → V) (N : ℕ) (hN : 1 ≤ N) :
    ∑ i ∈ range (N + 1), ((if i = 0 ∨ i = N then (1 / 2 : K) else 1)) • g i =
      ∑ i ∈ range N, ((1 / 2 : K)) • (g i + g (i + 1)) := by
  obtain ⟨N, rfl⟩ : ∃ M, N = M + 1 := ⟨N - 1, by omega⟩
  have h1 : ∑ i ∈ range (N + 1), ((1 / 2 : K)) • (g i + g (i + 1)) =
      ((1 / 2 : K)) • g 0 + ∑ i ∈ range N, g (i + 1) + ((1 / 2 : K)) • g (N + 1) := by
    simp only [smul_add, sum_add_distrib]
    rw [sum_range_succ' (fun i => (1 / 2 : K) • g i), sum_range_succ (fun i => (1 / 2 : K) • g (i + 1))]
    have : ∑ i ∈ range N, g (i + 1) = ∑ i ∈ range N, (1 / 2 : K) • g (i + 1) + ∑ i ∈ range N, (1 / 2 : K) • g (i + 1) := by
      rw [← sum_add_distrib]
      apply sum_congr rfl
      intro i _
      rw [← add_smul]
      norm_num
    rw [this]
    abel
  rw [h1, sum_range_succ, sum_range_succ']
  have h2 : ∑ i ∈ range N, ((if i + 1 = 0 ∨ i + 1 = N + 1 then (1 / 2 : K) else 1)) • g (i + 1) = ∑ i ∈ range N, g (i + 1) := by
    apply sum_congr rfl
    intro i hi
    have := mem_range.mp hi
    rw [if_neg (by omega), one_smul]
  rw [h2]
  simp only [true_or, or_true, if_true]
  abel

theorem simpson_sum (g : ℕ → V) (M : ℕ) (hM : 1 ≤ M) :
    ∑ i ∈ range (2 * M + 1), ((if i = 0 ∨ i = 2 * M then (1 / 2 : K) else if i % 2 = 1 then 2 else 1)) • g i =
      ∑ i ∈ range M, ((1 / 2 : K)) • (g (2 * i) + (4 : K) • g (2 * i + 1) + g (2 * i + 2)) := by
  have hsplit : ∀ (h : ℕ → V) (M : ℕ), ∑ i ∈ range (2 * M + 1), h i =
      ∑ i ∈ range (M + 1), h (2 * i) + ∑ i ∈ range M, h (2 * i + 1) := by
    intro h M
    induction M with
    | zero => simp
    | succ M ih =>
      rw [show 2 * (M + 1) + 1 = (2 * M + 1) + 1 + 1 by ring, sum_range_succ, sum_range_succ, ih,
        sum_range_succ (fun i => h (2 * i)) (M + 1), sum_range_succ (fun i => h (2 * i + 1)) M]
      rw [show 2 * M + 1 + 1 = 2 * (M + 1) by ring]
      abel
  rw [hsplit]
  have e1 : ∑ i ∈ range (M + 1), ((if 2 * i = 0 ∨ 2 * i = 2 * M then (1 / 2 : K) else if 2 * i % 2 = 1 then 2 else 1)) • g (2 * i) =
      ∑ i ∈ range (M + 1), ((if i = 0 ∨ i = M then (1 / 2 : K) else 1)) • g (2 * i) := by
    apply sum_congr rfl
    intro i _
    congr 1
    by_cases h : i = 0 ∨ i = M
    · rw [if_pos h, if_pos (by omega)]
    · rw [if_neg h, if_neg (by omega), if_neg (by omega)]
  have e2 : ∑ i ∈ range M, ((if 2 * i + 1 = 0 ∨ 2 * i + 1 = 2 * M then (1 / 2 : K) else if (2 * i + 1) % 2 = 1 then 2 else 1)) •
      g (2 * i + 1) = ∑ i ∈ range M, (2 : K) • g (2 * i + 1) := by
    apply sum_congr rfl
    intro i _
    rw [if_neg (by omega), if_pos (by omega)]
  rw [e1, e2, trapezoidal_sum (fun i => g (2 * i)) M hM, ← sum_add_distrib]
  apply sum_congr rfl
  intro i _
  rw [show 2 * (i + 1) = 2 * i + 2 by ring]
  module

/-- The grid points. -/
theorem point_eq (r : Rule) (a b : K) (n : ℤ) (hn : 2 ≤ n) (i : ℤ) :
    r.point a b n i = a + r.stepSize a b n * (i : K) := by
  have h := maxIndex_pos r n hn
  have hne : ((r.maxIndex n : ℤ) : K) ≠ 0 := by
    have : (0 : K) < ((r.maxIndex n : ℤ) : K) := by exact_mod_cast h
    exact this.ne'
  unfold Rule.point
  split
  · rename_i hi
    rw [hi]
    unfold Rule.stepSize
    field_simp
    ring
  · rfl

theorem step_mul_max (r : Rule) (a b : K) (n : ℤ) (hn : 2 ≤ n) :
    r.stepSize a b n * ((r.maxIndex n : ℤ) : K) = b - a := by
  have h := maxIndex_pos r n hn
  have hne : ((r.maxIndex n : ℤ) : K) ≠ 0 := by
    have : (0 : K) < ((r.maxIndex n : ℤ) : K) := by exact_mod_cast h
    exact this.ne'
  unfold Rule.stepSize
  field_simp

/-- **C36 (spec).** The composite trapezoidal rule with `N` panels. -/
theorem trapezoidal_panels (a b : K) (hab : a ≠ b) (f : K → V) (n : ℤ) (hn : 2 ≤ n) (zero : V) :
    let h := (b - a) / ((n - 1 : ℤ) : K)
    integrateFunctor .trapezoidal a b f n zero =
      ∑ i ∈ range (n - 1).toNat, (h / 2) • (f (a + h * (i : K)) + f (a + h * ((i : K) + 1))) := by
  have hm : Rule.trapezoidal.maxIndex n = n - 1 := rfl
  have hs : Rule.trapezoidal.stepSize a b n = (b - a) / ((n - 1 : ℤ) : K) := rfl
  dsimp only
  rw [← hs, integrateFunctor_eq _ _ _ hab, hm]
  have e : ∑ i ∈ range ((n - 1).toNat + 1),
      (Rule.valueFactor .trapezoidal n (i : ℤ) : K) • f (Rule.point .trapezoidal a b n (i : ℤ)) =
      ∑ i ∈ range ((n - 1).toNat + 1), ((if i = 0 ∨ i = (n - 1).toNat then (1 / 2 : K) else 1)) •
        (fun i : ℕ => f (a + Rule.trapezoidal.stepSize a b n * (i : K))) i := by
    apply sum_congr rfl
    intro i _
    rw [point_eq _ _ _ _ hn]
    congr 1
    · unfold Rule.valueFactor
      rw [hm]
      by_cases h : i = 0 ∨ i = (n - 1).toNat
      · rw [if_pos h, if_pos (by omega)]
      · rw [if_neg h, if_neg (by omega)]
    · simp
  rw [e, trapezoidal_sum _ _ (by omega), smul_sum]
  apply sum_congr rfl
  intro i _
  simp only [Rule.commonFactor]
  push_cast
  rw [smul_smul]
  congr 1
  ring

/-- The composite Simpson rule with `M` double panels. -/
theorem simpson_panels (a b : K) (hab : a ≠ b) (f : K → V) (n : ℤ) (hn : 2 ≤ n) (zero : V) :
    ∃ M : ℕ, 1 ≤ M ∧ (2 * M + 1 = n ∨ 2 * M = n) ∧
    let h := (b - a) / (2 * (M : K))
    integrateFunctor .simpson a b f n zero =
      ∑ i ∈ range M, (h / 3) • (f (a + h * (2 * (i : K))) + (4 : K) • f (a + h * (2 * (i : K) + 1)) +
        f (a + h * (2 * (i : K) + 2))) := by
  obtain ⟨M, hM, hmax⟩ := maxIndex_simpson_even n hn
  refine ⟨M, hM, ?_, ?_⟩
  · simp only [Rule.maxIndex, Rule.numPoints] at hmax
    rw [Int.tmod_eq_emod_of_nonneg (by omega)] at hmax
    omega
  have hs : Rule.simpson.stepSize a b n = (b - a) / (2 * (M : K)) := by
    unfold Rule.stepSize
    rw [hmax]
    push_cast
    rfl
  dsimp only
  rw [← hs, integrateFunctor_eq _ _ _ hab, hmax]
  have hN : (2 * (M : ℤ)).toNat = 2 * M := by omega
  rw [hN]
  have e : ∑ i ∈ range (2 * M + 1), (Rule.valueFactor .simpson n (i : ℤ) : K) • f (Rule.point .simpson a b n (i : ℤ)) =
      ∑ i ∈ range (2 * M + 1), ((if i = 0 ∨ i = 2 * M then (1 / 2 : K) else if i % 2 = 1 then 2 else 1)) •
        (fun i : ℕ => f (a + Rule.simpson.stepSize a b n * (i : K))) i := by
    apply sum_congr rfl
    intro i _
    rw [point_eq _ _ _ _ hn]
    congr 1
    · unfold Rule.valueFactor
      rw [hmax]
      by_cases h : i = 0 ∨ i = 2 * M
      · rw [if_pos h, if_pos (by omega)]
      · rw [if_neg h, if_neg (by omega)]
        simp only
        rw [Int.tmod_eq_emod_of_nonneg (by omega)]
        by_cases h2 : i % 2 = 1
        · rw [if_pos h2, if_pos (by omega)]
        · rw [if_neg h2, if_neg (by omega)]
    · simp
  rw [e, simpson_sum _ _ hM, smul_sum]
  apply sum_congr rfl
  intro i _
  simp only [Rule.commonFactor]
  push_cast
  rw [smul_smul]
  congr 1
  ring

/-- **C36, affine functions.** With at least two points the trapezoidal rule integrates every affine (vector valued) function
exactly. -/
theorem C36_trapezoidal_exact (a b : K) (n : ℤ) (hn : 2 ≤ n) (c d : V) :
    integrateFunctor .trapezoidal a b (fun t => c + t • d) n 0 = (b - a) • c + ((b ^ 2 - a ^ 2) / 2) • d := by
  by_cases hab : a = b
  · subst hab; simp [integrateFunctor]
  rw [trapezoidal_panels a b hab _ n hn]
  obtain ⟨h, hh⟩ : ∃ h, h = (b - a) / ((n - 1 : ℤ) : K) := ⟨_, rfl⟩
  rw [← hh]
  have e : ∀ i : ℕ, (h / 2) • ((c + (a + h * (i : K)) • d) + (c + (a + h * ((i : K) + 1)) • d)) =
      (fun i : ℕ => (a + h * (i : K)) • c + ((a + h * (i : K)) ^ 2 / 2) • d) (i + 1) -
        (fun i : ℕ => (a + h * (i : K)) • c + ((a + h * (i : K)) ^ 2 / 2) • d) i := by
    intro i
    push_cast
    module
  rw [sum_congr rfl fun i _ => e i,
    sum_range_sub (fun i : ℕ => (a + h * (i : K)) • c + ((a + h * (i : K)) ^ 2 / 2) • d)]
  have hend : a + h * (((n - 1).toNat : ℕ) : K) = b := by
    have h1 : (((n - 1).toNat : ℕ) : K) = ((n - 1 : ℤ) : K) := by
      rw [← Int.cast_natCast, Int.toNat_of_nonneg (by omega)]
    have h2 := step_mul_max .trapezoidal a b n hn
    have h3 : h * ((n - 1 : ℤ) : K) = b - a := by rw [hh]; exact h2
    rw [h1, h3]
    ring
  rw [hend]
  simp only [Nat.cast_zero, mul_zero, add_zero]
  module

/-- **C36, cubic polynomials.** With at least two points Simpson's rule integrates every (vector valued) cubic polynomial
exactly. -/
theorem C36_simpson_exact (a b : K) (n : ℤ) (hn : 2 ≤ n) (c : Fin 4 → V) :
    integrateFunctor .simpson a b (fun t => ∑ j : Fin 4, t ^ (j : ℕ) • c j) n 0 =
      ∑ j : Fin 4, ((b ^ ((j : ℕ) + 1) - a ^ ((j : ℕ) + 1)) / ((j : ℕ) + 1 : K)) • c j := by
  by_cases hab : a = b
  · subst hab; simp [integrateFunctor]
  obtain ⟨M, hM, _, he⟩ := simpson_panels (V := V) a b hab (fun t => ∑ j : Fin 4, t ^ (j : ℕ) • c j) n hn 0
  rw [he]
  obtain ⟨h, hh⟩ : ∃ h, h = (b - a) / (2 * (M : K)) := ⟨_, rfl⟩
  have hMK : (M : K) ≠ 0 := by
    have : (0 : K) < M := by exact_mod_cast hM
    exact this.ne'
  rw [← hh]
  have hend : a + h * (2 * (M : K)) = b := by rw [hh]; field_simp; ring
  simp only [Fin.sum_univ_four, Fin.val_zero, Fin.val_one, Fin.val_two, show ((3 : Fin 4) : ℕ) = 3 from rfl]
  have e : ∀ i : ℕ, (h / 3) • (((a + h * (2 * (i : K))) ^ 0 • c 0 + (a + h * (2 * (i : K))) ^ 1 • c 1 +
        (a + h * (2 * (i : K))) ^ 2 • c 2 + (a + h * (2 * (i : K))) ^ 3 • c 3) +
      (4 : K) • ((a + h * (2 * (i : K) + 1)) ^ 0 • c 0 + (a + h * (2 * (i : K) + 1)) ^ 1 • c 1 +
        (a + h * (2 * (i : K) + 1)) ^ 2 • c 2 + (a + h * (2 * (i : K) + 1)) ^ 3 • c 3) +
      ((a + h * (2 * (i : K) + 2)) ^ 0 • c 0 + (a + h * (2 * (i : K) + 2)) ^ 1 • c 1 +
        (a + h * (2 * (i : K) + 2)) ^ 2 • c 2 + (a + h * (2 * (i : K) + 2)) ^ 3 • c 3)) =
      (fun i : ℕ => (a + h * (2 * (i : K))) • c 0 + ((a + h * (2 * (i : K))) ^ 2 / 2) • c 1 +
        ((a + h * (2 * (i : K))) ^ 3 / 3) • c 2 + ((a + h * (2 * (i : K))) ^ 4 / 4) • c 3) (i + 1) -
      (fun i : ℕ => (a + h * (2 * (i : K))) • c 0 + ((a + h * (2 * (i : K))) ^ 2 / 2) • c 1 +
        ((a + h * (2 * (i : K))) ^ 3 / 3) • c 2 + ((a + h * (2 * (i : K))) ^ 4 / 4) • c 3) i := by
    intro i
    push_cast
    module
  rw [sum_congr rfl fun i _ => e i,
    sum_range_sub (fun i : ℕ => (a + h * (2 * (i : K))) • c 0 + ((a + h * (2 * (i : K))) ^ 2 / 2) • c 1 +
        ((a + h * (2 * (i : K))) ^ 3 / 3) • c 2 + ((a + h * (2 * (i : K))) ^ 4 / 4) • c 3)]
  beta_reduce
  rw [hend]
  simp only [Nat.cast_zero, mul_zero, add_zero]
  push_cast
  match_scalars <;> ring

/-- **C36, constants** are integrated exactly by both rules. -/
theorem C36_constant_exact (r : Rule) (a b : K) (n : ℤ) (hn : 2 ≤ n) (c : V) :
    integrateFunctor r a b (fun _ => c) n 0 = (b - a) • c := by
  cases r with
  | simpson =>
    have h := C36_simpson_exact a b n hn (fun j : Fin 4 => if j = 0 then c else 0)
    simpa [Fin.sum_univ_four] using h
  | trapezoidal =>
    have h := C36_trapezoidal_exact a b n hn c 0
    simpa using h

/-- **C36, linearity** in the integrand, for both rules and every number of points. -/
theorem C36_linear (r : Rule) (a b : K) (n : ℤ) (f g : K → V) (x y : K) :
    integrateFunctor r a b (fun t => x • f t + y • g t) n 0 =
      x • integrateFunctor r a b f n 0 + y • integrateFunctor r a b g n 0 := by
  by_cases hab : a = b
  · simp [integrateFunctor, hab]
  · rw [integrateFunctor_eq _ _ _ hab, integrateFunctor_eq _ _ _ hab, integrateFunctor_eq _ _ _ hab]
    simp only [smul_sum, smul_add]
    rw [← sum_add_distrib]
    apply sum_congr rfl
    intro i _
    module

/-- **C36, equal bounds** give zero. -/
theorem C36_equal_bounds (r : Rule) (a : K) (n : ℤ) (f : K → V) : integrateFunctor r a a f n 0 = 0 := by
  simp [integrateFunctor]

/-- **C36, swapped bounds** change the sign, for both rules, every integrand and at least two points. -/
theorem C36_swap (r : Rule) (a b : K) (n : ℤ) (hn : 2 ≤ n) (f : K → V) :
    integrateFunctor r b a f n 0 = - integrateFunctor r a b f n 0 := by
  by_cases hab : a = b
  · subst hab; simp [integrateFunctor]
  rw [integrateFunctor_eq _ _ _ hab, integrateFunctor_eq _ _ _ (Ne.symm hab)]
  have hmp := maxIndex_pos r n hn
  have hc : r.commonFactor b a n = - r.commonFactor a b n := by
    cases r <;> simp only [Rule.commonFactor, Rule.stepSize] <;> ring
  rw [hc, neg_smul]
  congr 2
  rw [← sum_range_reflect]
  apply sum_congr rfl
  intro i hi
  have hi' : i ≤ (r.maxIndex n).toNat := Nat.lt_succ_iff.mp (mem_range.mp hi)
  have hcast : (((r.maxIndex n).toNat + 1 - 1 - i : ℕ) : ℤ) = r.maxIndex n - i := by omega
  rw [hcast]
  congr 1
  · unfold Rule.valueFactor
    cases r with
    | simpson =>
      obtain ⟨M, _, hmax⟩ := maxIndex_simpson_even n hn
      simp only
      rw [hmax] at hi' ⊢
      by_cases h : (i : ℤ) = 0 ∨ (i : ℤ) = 2 * M
      · rw [if_pos h, if_pos (by omega)]
      · rw [if_neg h, if_neg (by omega), Int.tmod_eq_emod_of_nonneg (by omega), Int.tmod_eq_emod_of_nonneg (by omega)]
        congr 1
        apply propext
        omega
    | trapezoidal =>
      by_cases h : (i : ℤ) = 0 ∨ (i : ℤ) = Rule.trapezoidal.maxIndex n
      · rw [if_pos h, if_pos (by omega)]
      · rw [if_neg h, if_neg (by omega)]
  · congr 1
    rw [point_eq _ _ _ _ hn, point_eq _ _ _ _ hn]
    have h1 := step_mul_max r a b n hn
    have h2 : r.stepSize b a n = - r.stepSize a b n := by simp only [Rule.stepSize]; ring
    rw [h2]
    push_cast
    linear_combination (-1 : K) * h1

/-- **C36, the spline's wrapper** (which integrates from the smaller to the larger bound and flips the sign) is the plain rule
for any order of the bounds. -/
theorem C36_wrapper (r : Rule) (t1 t2 : K) (n : ℤ) (hn : 2 ≤ n) (f : K → V) :
    evalFunctorIntegral r t1 t2 f n = integrateFunctor r t1 t2 f n 0 := by
  unfold evalFunctorIntegral
  split
  · rw [C36_swap r t2 t1 n hn, ]
  · rfl

end

/-- **C36, as an integral.** Over the reals: Simpson's rule returns the integral of every polynomial of degree at most three. -/
theorem C36_simpson_integral (a b : ℝ) (n : ℤ) (hn : 2 ≤ n) (p : Polynomial ℝ) (hp : p.natDegree ≤ 3) :
    integrateFunctor .simpson a b (fun t => p.eval t) n 0 = ∫ t in a..b, p.eval t := by
  have hpe : ∀ t, p.eval t = ∑ j : Fin 4, t ^ (j : ℕ) * p.coeff j := by
    intro t
    rw [Polynomial.eval_eq_sum_range' (show p.natDegree < 4 by omega), ← Fin.sum_univ_eq_sum_range
      (fun j => p.coeff j * t ^ j) 4]
    exact sum_congr rfl fun j _ => mul_comm _ _
  simp only [hpe]
  rw [intervalIntegral.integral_finsetSum (fun j _ => by
    apply Continuous.intervalIntegrable; fun_prop)]
  have := C36_simpson_exact (V := ℝ) a b n hn (fun j => p.coeff j)
  simp only [smul_eq_mul] at this
  rw [this]
  apply sum_congr rfl
  intro j _
  rw [intervalIntegral.integral_mul_const, integral_pow]

/-- **C36, as an integral**, trapezoidal rule and affine polynomials. -/
theorem C36_trapezoidal_integral (a b : ℝ) (n : ℤ) (hn : 2 ≤ n) (p : Polynomial ℝ) (hp : p.natDegree ≤ 1) :
    integrateFunctor .trapezoidal a b (fun t => p.eval t) n 0 = ∫ t in a..b, p.eval t := by
  have hpe : ∀ t, p.eval t = p.coeff 0 + t * p.coeff 1 := by
    intro t
    rw [Polynomial.eval_eq_sum_range' (show p.natDegree < 2 by omega)]
    simp [sum_range_succ, mul_comm]
  simp only [hpe]
  have := C36_trapezoidal_exact (V := ℝ) a b n hn (p.coeff 0) (p.coeff 1)
  simp only [smul_eq_mul] at this
  rw [this, intervalIntegral.integral_add (by simp) (Continuous.intervalIntegrable (by fun_prop) _ _)]
  rw [intervalIntegral.integral_mul_const, integral_id]
  simp
  
/-- **C36, integer time.** With integer bounds the step of the code is truncated: integrating the constant 1 over `[0, 10]` with
four points gives 9 (step 3, times the weights ½ + 1 + 1 + ½). -/
theorem C36_integer_clock_false :
    let step : ℤ := Int.tdiv (10 - 0) ((4 : ℤ) - 1)
    (step : ℚ) * (Rule.valueFactor .trapezoidal 4 0 + Rule.valueFactor .trapezoidal 4 1 + Rule.valueFactor .trapezoidal 4 2 +
      Rule.valueFactor .trapezoidal 4 3) = 9 ∧ (9 : ℚ) ≠ 10 - 0 := by
  decide +kernel

/-- C36 at work: `∫₀¹ t³ = 1/4` with five points; with the trapezoidal rule it is not exact. -/
example : integrateFunctor .simpson (0 : ℚ) 1 (fun t => t ^ 3) 5 0 = 1 / 4 ∧
    integrateFunctor .trapezoidal (0 : ℚ) 1 (fun t => t ^ 3) 5 0 = 17 / 64 := by decide +kernel

example : integrateFunctor .simpson (0 : ℝ) 2 (fun t => (Polynomial.X ^ 3 : Polynomial ℝ).eval t) 4 0 =
    ∫ t in (0 : ℝ)..2, (Polynomial.X ^ 3 : Polynomial ℝ).eval t :=
  C36_simpson_integral 0 2 4 (by norm_num) _ (by simp)

/-! ### Quadratic integral error terms -/

/-- Squared length. -/
def sqNorm {m : ℕ} (v : Fin m → ℝ) : ℝ := ∑ i, v i ^ 2

theorem commonFactor_nonneg (r : Rule) (a b : ℝ) (hab : a < b) (n : ℤ) (hn : 2 ≤ n) : 0 ≤ r.commonFactor a b n := by
  have h := maxIndex_pos r n hn
  have hs : 0 ≤ r.stepSize a b n := by
    unfold Rule.stepSize
    apply div_nonneg (by linarith)
    exact_mod_cast (by omega : (0 : ℤ) ≤ r.maxIndex n)
  cases r <;> simp only [Rule.commonFactor]
  · linarith
  · exact hs

theorem valueFactor_nonneg (r : Rule) (n i : ℤ) : (0 : ℝ) ≤ r.valueFactor n i := by
  unfold Rule.valueFactor
  split
  · norm_num
  · split
    · split <;> norm_num
    · norm_num

theorem list_sum_map_range {M : Type*} [AddCommMonoid M] (g : ℕ → M) (n : ℕ) :
    ((List.range n).map g).sum = ∑ i ∈ range n, g i := by
  induction n with
  | zero => simp
  | succ n ih => rw [List.range_succ, List.map_append, List.sum_append, ih, sum_range_succ]; simp

/-- **C47, factors.** The error terms are created at the points of the rule, in order, and for every quadratic integrand `q` the
sum of the integrand weighted with their factors is the numerical integral of `q` by the chosen rule. -/
theorem C47_factors {K : Type*} [Field K] [LinearOrder K] [IsStrictOrderedRing K] (r : Rule) (a b : K) (hab : a ≠ b)
    (n : ℤ) (hn : 2 ≤ n) :
    ∃ l, quadraticErrorTerms r a b n = .ok l ∧ (l.length : ℤ) = r.numPoints n ∧
      ∀ q : K → K, (l.map fun tf => tf.2 * q tf.1).sum = integrateFunctor r a b q n 0 := by
  have h := maxIndex_pos r n hn
  refine ⟨_, by unfold quadraticErrorTerms; rw [if_neg hab, if_neg (by omega)], ?_, ?_⟩
  · simp only [List.length_map, List.length_range, Rule.maxIndex] at *
    omega
  · intro q
    rw [integrateFunctor_eq _ _ _ hab, List.map_map, smul_sum]
    rw [list_sum_map_range]
    apply sum_congr rfl
    intro i _
    simp only [Function.comp, smul_eq_mul]
    ring

/-- **C47, nothing for an empty interval.** -/
theorem C47_empty {K : Type*} [Field K] [DecidableEq K] (r : Rule) (a : K) (n : ℤ) : quadraticErrorTerms r a a n = .ok [] := by
  simp [quadraticErrorTerms]

/-- **C47, too few points.** Without any point (and a non-empty interval) the trapezoidal version raises an exception. -/
theorem C47_rejects {K : Type*} [Field K] [DecidableEq K] (a b : K) (hab : a ≠ b) (n : ℤ) (hn : n ≤ 0) :
    quadraticErrorTerms .trapezoidal a b n = .throws := by
  unfold quadraticErrorTerms
  rw [if_neg hab, if_pos]
  simp only [Rule.maxIndex, Rule.numPoints]
  omega

/-- **C47 (partial).** Full statement: for every interval the squared errors of the added expression error terms sum to the
numerical integral of `|sqrtInvR E(t)|²`.  Proved for every interval with `a ≤ b`; for reversed bounds the factors are negative
and their square root is not a number, `C47_reversed_nan`. -/
theorem C47_squared_errors_partial {m D : ℕ} (r : Rule) (a b : ℝ) (hab : a ≤ b) (n : ℤ) (hn : 2 ≤ n) (E : ℝ → Fin D → ℝ)
    (W : Fin m → Fin D → ℝ) :
    ∃ es : List (Fin m → ℝ), expressionErrors r a b n E W = .ok (es.map some) ∧
      (es.map sqNorm).sum = integrateFunctor r a b (fun t => sqNorm fun i => ∑ j, W i j * E t j) n 0 := by
  rcases hab.eq_or_lt with rfl | hlt
  · exact ⟨[], by simp [expressionErrors, quadraticErrorTerms, Outcome.map], by simp [integrateFunctor]⟩
  obtain ⟨l, hl, _, hq⟩ := C47_factors r a b hlt.ne n hn
  have hnn : ∀ tf ∈ l, 0 ≤ tf.2 := by
    have h := maxIndex_pos r n hn
    unfold quadraticErrorTerms at hl
    rw [if_neg hlt.ne, if_neg (by omega), Outcome.ok.injEq] at hl
    intro tf htf
    rw [← hl, List.mem_map] at htf
    obtain ⟨i, _, rfl⟩ := htf
    exact mul_nonneg (commonFactor_nonneg r a b hlt n hn) (valueFactor_nonneg r n i)
  refine ⟨l.map fun tf => fun i => ∑ j, (W i j * Real.sqrt tf.2) * E tf.1 j, ?_, ?_⟩
  · simp only [expressionErrors, hl, Outcome.map, List.map_map, Outcome.ok.injEq]
    apply List.map_congr_left
    intro tf htf
    simp only [Function.comp, cppSqrt, if_neg (not_lt.mpr (hnn tf htf)), Option.map_some]
  · rw [← hq, List.map_map]
    congr 1
    apply List.map_congr_left
    intro tf htf
    simp only [Function.comp, sqNorm]
    rw [mul_sum]
    apply sum_congr rfl
    intro i _
    have e : ∑ j, W i j * Real.sqrt tf.2 * E tf.1 j = Real.sqrt tf.2 * ∑ j, W i j * E tf.1 j := by
      rw [mul_sum]
      exact sum_congr rfl fun j _ => by ring
    rw [e, mul_pow, Real.sq_sqrt (hnn tf htf)]

/-- **C47, reversed bounds (violation).** For every reversed interval every expression error term is NaN. -/
theorem C47_reversed_nan {m D : ℕ} (r : Rule) (a b : ℝ) (hab : b < a) (n : ℤ) (hn : 2 ≤ n) (E : ℝ → Fin D → ℝ)
    (W : Fin m → Fin D → ℝ) :
    ∃ es, expressionErrors r a b n E W = .ok es ∧ es ≠ [] ∧ ∀ e ∈ es, e = none := by
  have h := maxIndex_pos r n hn
  have hs : r.stepSize a b n < 0 := by
    unfold Rule.stepSize
    apply div_neg_of_neg_of_pos (by linarith)
    exact_mod_cast (by omega : (0 : ℤ) < r.maxIndex n)
  have hc : r.commonFactor a b n < 0 := by
    cases r <;> simp only [Rule.commonFactor]
    · linarith
    · exact hs
  have hv : ∀ i : ℤ, (0 : ℝ) < r.valueFactor n i := by
    intro i
    unfold Rule.valueFactor
    split
    · norm_num
    · split
      · split <;> norm_num
      · norm_num
  refine ⟨_, by unfold expressionErrors quadraticErrorTerms; rw [if_neg hab.ne', if_neg (by omega)]; rfl, by simp, ?_⟩
  intro e he
  simp only [List.map_map, List.mem_map, Function.comp] at he
  obtain ⟨i, _, rfl⟩ := he
  rw [cppSqrt, if_pos (mul_neg_of_neg_of_pos hc (hv i))]
  rfl

/-- C47 at work: three points on `[0, 1]`, trapezoidal rule: factors ¼, ½, ¼. -/
example : quadraticErrorTerms .trapezoidal (0 : ℚ) 1 3 = .ok [(0, 1 / 4), (1 / 2, 1 / 2), (1, 1 / 4)] := by decide +kernel

end Verif
