import Verif.Model.RoundingEval
import Verif.Props.Rounding
import Verif.Props.Eval
import Verif.Lemmas.Shift
import Mathlib.Data.Nat.Choose.Sum
import Mathlib.Algebra.Order.BigOperators.Group.Finset

/-!
# Property C89: evaluation of a spline in floating point
-/

set_option linter.unusedSectionVars false

namespace Verif

namespace Rounding

open Finset

variable {K : Type*} [Field K] [LinearOrder K] [IsStrictOrderedRing K] {R : Rounding K} {D : ℕ}

/-! ### Calculus of errors -/

/-- The growth of an error by one operation: one plus twice the relative error of a `double`. -/
def grow : K := 1 + 1 / 2 ^ 52

theorem grow_pos : (0 : K) < grow := by unfold grow; positivity

theorem one_le_grow : (1 : K) ≤ grow := by
  unfold grow
  have : (0 : K) < 1 / 2 ^ 52 := by positivity
  linarith

theorem one_le_grow_pow (n : ℕ) : (1 : K) ≤ grow ^ n := one_le_pow₀ one_le_grow

theorem grow_succ (n : ℕ) : (grow : K) ^ (n + 1) = grow ^ n + 1 / 2 ^ 52 * grow ^ n := by
  rw [pow_succ]
  conv_lhs => rw [grow.eq_def]
  rw [show (grow : K) = 1 + 1 / 2 ^ 52 by rfl]
  ring

/-- `a` was computed for `x`; `X` bounds `x`, and the error is at most that of `n` operations on numbers as large as `X`. -/
def Near (n : ℕ) (a x X : K) : Prop := |x| ≤ X ∧ |a - x| ≤ (grow ^ n - 1) * X

theorem Near.nonneg {n : ℕ} {a x X : K} (h : Near n a x X) : 0 ≤ X := (abs_nonneg x).trans h.1

theorem Near.abs_le {n : ℕ} {a x X : K} (h : Near n a x X) : |a| ≤ grow ^ n * X := by
  have h1 : |a| ≤ |a - x| + |x| := by
    have := abs_add_le (a - x) x
    rwa [sub_add_cancel] at this
  have := h.1
  have := h.2
  linarith

theorem Near.exact {x X : K} (h : |x| ≤ X) : Near 0 x x X := ⟨h, by simp⟩

theorem Near.mono {n m : ℕ} {a x X Y : K} (h : Near n a x X) (hn : n ≤ m) (hX : X ≤ Y) : Near m a x Y := by
  refine ⟨h.1.trans hX, h.2.trans ?_⟩
  have h1 : (grow : K) ^ n ≤ grow ^ m := pow_le_pow_right₀ one_le_grow hn
  have h2 := one_le_grow_pow (K := K) n
  have := h.nonneg
  exact mul_le_mul (by linarith) hX this (by linarith)

theorem Near.neg {n : ℕ} {a x X : K} (h : Near n a x X) : Near n (-a) (-x) X := by
  refine ⟨by rw [abs_neg]; exact h.1, ?_⟩
  rw [show -a - -x = -(a - x) by ring, abs_neg]
  exact h.2

/-- The product before it is rounded. -/
theorem Near.prod {n m : ℕ} {a x X b y Y : K} (h : Near n a x X) (h' : Near m b y Y) : Near (n + m) (a * b) (x * y) (X * Y) := by
  constructor
  · rw [abs_mul]
    exact mul_le_mul h.1 h'.1 (abs_nonneg _) h.nonneg
  · have e : a * b - x * y = a * (b - y) + (a - x) * y := by ring
    have h1 : |a * (b - y)| ≤ grow ^ n * X * ((grow ^ m - 1) * Y) := by
      rw [abs_mul]
      exact mul_le_mul h.abs_le h'.2 (abs_nonneg _) (mul_nonneg (pow_nonneg grow_pos.le _) h.nonneg)
    have h2 : |(a - x) * y| ≤ (grow ^ n - 1) * X * Y := by
      rw [abs_mul]
      exact mul_le_mul h.2 h'.1 (abs_nonneg _) ((abs_nonneg _).trans h.2)
    rw [e]
    refine (abs_add_le _ _).trans ?_
    calc _ ≤ _ := add_le_add h1 h2
      _ = (grow ^ (n + m) - 1) * (X * Y) := by rw [pow_add]; ring

/-- A bound from which on rounding has its full relative precision, or zero. -/
def Normal (X : K) : Prop := X = 0 ∨ 1 / 2 ^ 1022 ≤ X

theorem Normal.mul {X Y : K} (hX : 1 / 2 ^ 1022 ≤ X) (hY : 1 ≤ Y) : Normal (X * Y) := by
  refine Or.inr (hX.trans ?_)
  have : (0 : K) < 1 / 2 ^ 1022 := by positivity
  nlinarith

theorem err_le (x : K) {X : K} (hX : 1 / 2 ^ 1022 ≤ X) (hx : |x| ≤ X) : |R.rnd x - x| ≤ 1 / 2 ^ 52 * X := by
  have h0 : (0 : K) < 1 / 2 ^ 1022 := by positivity
  have h1 := R.err x
  have h2 : R.eps * |x| ≤ 1 / 2 ^ 53 * X := mul_le_mul R.eps_le hx (abs_nonneg _) (by positivity)
  have h3 : R.tiny ≤ 1 / 2 ^ 53 * X := by
    refine R.tiny_le.trans ?_
    have : (1 : K) / 2 ^ 1075 = 1 / 2 ^ 53 * (1 / 2 ^ 1022) := by
      rw [div_mul_div_comm, one_mul, ← pow_add]
    rw [this]
    exact mul_le_mul_of_nonneg_left hX (by positivity)
  have h4 : (1 : K) / 2 ^ 53 + 1 / 2 ^ 53 = 1 / 2 ^ 52 := by norm_num
  calc _ ≤ _ := h1
    _ ≤ 1 / 2 ^ 53 * X + 1 / 2 ^ 53 * X := add_le_add h2 h3
    _ = _ := by rw [← h4]; ring

/-- Rounding. -/
theorem Near.rnd {n : ℕ} {a x X : K} (h : Near n a x X) (hX : Normal X) : Near (n + 1) (R.rnd a) x X := by
  refine ⟨h.1, ?_⟩
  rcases hX with rfl | hX
  · have := h.2
    have h1 := h.1
    rw [mul_zero] at this ⊢
    have e : a = 0 := by
      have h2 := abs_nonpos_iff.1 h1
      have h3 := abs_nonpos_iff.1 this
      rw [h2, sub_zero] at h3
      exact h3
    rw [e, R.rnd_zero]
    rw [e] at this
    exact this
  · have h1 := one_le_grow_pow (K := K) n
    have h0 := h.nonneg
    have h2 : 1 / 2 ^ 1022 ≤ grow ^ n * X := hX.trans (le_mul_of_one_le_left h0 h1)
    have h3 := R.err_le a h2 h.abs_le
    have h4 : |R.rnd a - x| ≤ |R.rnd a - a| + |a - x| := by
      have := abs_add_le (R.rnd a - a) (a - x)
      rwa [sub_add_sub_cancel] at this
    have h5 := h.2
    calc _ ≤ _ := h4
      _ ≤ 1 / 2 ^ 52 * (grow ^ n * X) + (grow ^ n - 1) * X := add_le_add h3 h5
      _ = (grow ^ (n + 1) - 1) * X := by
        rw [grow_succ]
        ring

theorem Near.mul {n m : ℕ} {a x X b y Y : K} (h : Near n a x X) (h' : Near m b y Y) (hn : Normal (X * Y)) :
    Near (n + m + 1) (R.mul a b) (x * y) (X * Y) := (h.prod h').rnd hn

/-! ### Sums -/

theorem SumTree.float {s : Multiset K} {x : K} (h : SumTree R s x) (hs : ∀ a ∈ s, R.IsFloat a) : R.IsFloat x := by
  induction h with
  | nil => exact R.rnd_zero
  | single a => exact hs a (by simp)
  | add _ _ _ _ => exact R.idem _

/-- Adding zero changes nothing: only the other numbers matter. -/
theorem SumTree.drop {s : Multiset K} {x : K} (h : SumTree R s x) : SumTree R (s.filter (· ≠ 0)) x := by
  induction h with
  | nil => simpa using SumTree.nil (R := R)
  | single a =>
    by_cases ha : a = 0
    · subst ha
      rw [Multiset.filter_singleton, if_neg (by simp)]
      exact SumTree.nil
    · rw [Multiset.filter_singleton, if_pos ha]
      exact SumTree.single a
  | add _ _ ih1 ih2 =>
    rw [Multiset.filter_add]
    exact ih1.add ih2

theorem SumTree.zero {s : Multiset K} {x : K} (h : SumTree R s x) : s = 0 → x = 0 := by
  induction h with
  | nil => exact fun _ => rfl
  | single a => intro h; simp at h
  | @add s t x y _ _ ih1 ih2 =>
    intro h
    rw [add_eq_zero] at h
    rw [ih1 h.1, ih2 h.2]
    unfold Rounding.add
    rw [add_zero, R.rnd_zero]

theorem eps_le_grow : 1 + R.eps ≤ grow := by
  have := R.eps_le
  unfold grow
  have h4 : (1 : K) / 2 ^ 53 + 1 / 2 ^ 53 = 1 / 2 ^ 52 := by norm_num
  have h5 : (0 : K) < 1 / 2 ^ 53 := by positivity
  linarith

theorem err_add' {x y : K} (hx : R.IsFloat x) (hy : R.IsFloat y) : |R.add x y - (x + y)| ≤ 1 / 2 ^ 52 * |x + y| := by
  refine (R.err_add x y hx hy).trans (mul_le_mul_of_nonneg_right ?_ (abs_nonneg _))
  refine R.eps_le.trans ?_
  rw [one_div, one_div]
  gcongr
  · norm_num
  · norm_num

theorem abs_sum_le (s : Multiset K) : |s.sum| ≤ (s.map fun a => |a|).sum := by
  induction s using Multiset.induction with
  | empty => simp
  | cons a s ih =>
    rw [Multiset.sum_cons, Multiset.map_cons, Multiset.sum_cons]
    exact (abs_add_le _ _).trans (by linarith)

/-- The error of a sum of `m + 1` numbers. -/
theorem SumTree.err {s : Multiset K} {x : K} (h : SumTree R s x) :
    (∀ a ∈ s, R.IsFloat a) → ∀ m, s.card ≤ m + 1 → |x - s.sum| ≤ (grow ^ m - 1) * (s.map fun a => |a|).sum := by
  induction h with
  | nil => intro _ m _; simp
  | single a =>
    intro _ m _
    simp only [Multiset.sum_singleton, sub_self, abs_zero, Multiset.map_singleton]
    have := one_le_grow_pow (K := K) m
    exact mul_nonneg (by linarith) (abs_nonneg _)
  | @add s t x y h1 h2 ih1 ih2 =>
    intro hf m hm
    have hfs : ∀ a ∈ s, R.IsFloat a := fun a ha => hf a (Multiset.mem_add.2 (Or.inl ha))
    have hft : ∀ a ∈ t, R.IsFloat a := fun a ha => hf a (Multiset.mem_add.2 (Or.inr ha))
    have fx := h1.float hfs
    have fy := h2.float hft
    rw [Multiset.card_add] at hm
    by_cases hs : s = 0
    · have e := h1.zero hs
      subst hs
      rw [e]
      have : R.add 0 y = y := by unfold Rounding.add; rw [zero_add]; exact fy
      rw [this, zero_add]
      exact ih2 hft m (by simpa using hm)
    by_cases ht : t = 0
    · have e := h2.zero ht
      subst ht
      rw [e]
      have : R.add x 0 = x := by unfold Rounding.add; rw [add_zero]; exact fx
      rw [this, add_zero]
      exact ih1 hfs m (by simpa using hm)
    have cs : 1 ≤ s.card := Multiset.card_pos.2 hs
    have ct : 1 ≤ t.card := Multiset.card_pos.2 ht
    obtain ⟨m, rfl⟩ : ∃ m', m = m' + 1 := ⟨m - 1, by omega⟩
    have e1 := ih1 hfs m (by omega)
    have e2 := ih2 hft m (by omega)
    set X := (s.map fun a => |a|).sum
    set Y := (t.map fun a => |a|).sum
    have hX : |s.sum| ≤ X := abs_sum_le s
    have hY : |t.sum| ≤ Y := abs_sum_le t
    have n1 : Near m x s.sum X := ⟨hX, e1⟩
    have n2 : Near m y t.sum Y := ⟨hY, e2⟩
    rw [Multiset.sum_add, Multiset.map_add, Multiset.sum_add]
    have b : |x + y| ≤ grow ^ m * (X + Y) := by
      have := abs_add_le x y
      have := n1.abs_le
      have := n2.abs_le
      linarith
    have r := err_add' fx fy
    have r' : |R.add x y - (x + y)| ≤ 1 / 2 ^ 52 * (grow ^ m * (X + Y)) :=
      r.trans (mul_le_mul_of_nonneg_left b (by positivity))
    have tri : |R.add x y - (s.sum + t.sum)| ≤ |R.add x y - (x + y)| + (|x - s.sum| + |y - t.sum|) := by
      have := abs_add_le (R.add x y - (x + y)) ((x - s.sum) + (y - t.sum))
      have h3 := abs_add_le (x - s.sum) (y - t.sum)
      rw [show R.add x y - (x + y) + ((x - s.sum) + (y - t.sum)) = R.add x y - (s.sum + t.sum) by ring] at this
      linarith
    calc _ ≤ _ := tri
      _ ≤ 1 / 2 ^ 52 * (grow ^ m * (X + Y)) + ((grow ^ m - 1) * X + (grow ^ m - 1) * Y) :=
        add_le_add r' (add_le_add e1 e2)
      _ = (grow ^ (m + 1) - 1) * (X + Y) := by
        rw [grow_succ]
        ring

/-- A sum of which at most `m + 1` summands are not zero. -/
theorem Near.sum (S : Summation R) {ι : Type*} (l : List ι) (f g X : ι → K) (n m : ℕ) (hf : ∀ i ∈ l, R.IsFloat (f i))
    (h : ∀ i ∈ l, Near n (f i) (g i) (X i)) (hm : (l.map f).countP (· ≠ 0) ≤ m + 1) :
    Near (n + m) (S.sum (l.map f)) (l.map g).sum (l.map X).sum := by
  have t := (S.tree (l.map f)).drop
  have hcard : (((l.map f : List K) : Multiset K).filter (· ≠ 0)).card ≤ m + 1 := by
    rw [← Multiset.countP_eq_card_filter, Multiset.coe_countP]
    exact hm
  have hfl : ∀ a ∈ ((l.map f : List K) : Multiset K).filter (· ≠ 0), R.IsFloat a := by
    intro a ha
    have := (Multiset.mem_filter.1 ha).1
    rw [Multiset.mem_coe, List.mem_map] at this
    obtain ⟨i, hi, rfl⟩ := this
    exact hf i hi
  have e := t.err hfl m hcard
  have s1 : ∀ l : List K, (((l : List K) : Multiset K).filter (· ≠ 0)).sum = l.sum := by
    intro l
    induction l with
    | nil => simp
    | cons a l ih =>
      rw [← Multiset.cons_coe, List.sum_cons]
      by_cases ha : a = 0
      · rw [Multiset.filter_cons_of_neg (p := fun b : K => b ≠ 0) _ (not_not.2 ha), ih, ha, zero_add]
      · rw [Multiset.filter_cons_of_pos (p := fun b : K => b ≠ 0) _ ha, Multiset.sum_cons, ih]
  have s2 : ∀ l : List K, ((((l : List K) : Multiset K).filter (· ≠ 0)).map fun a => |a|).sum = (l.map fun a => |a|).sum := by
    intro l
    induction l with
    | nil => simp
    | cons a l ih =>
      rw [← Multiset.cons_coe, List.map_cons, List.sum_cons]
      by_cases ha : a = 0
      · rw [Multiset.filter_cons_of_neg (p := fun b : K => b ≠ 0) _ (not_not.2 ha), ih, ha, abs_zero, zero_add]
      · rw [Multiset.filter_cons_of_pos (p := fun b : K => b ≠ 0) _ ha, Multiset.map_cons, Multiset.sum_cons, ih]
  rw [s1, s2] at e
  clear t hcard hfl hm hf
  have b1 : ∀ l : List ι, (∀ i ∈ l, Near n (f i) (g i) (X i)) → |(l.map g).sum| ≤ (l.map X).sum ∧
      |(l.map f).sum - (l.map g).sum| ≤ (grow ^ n - 1) * (l.map X).sum ∧
      ((l.map f).map fun a => |a|).sum ≤ grow ^ n * (l.map X).sum := by
    intro l hl
    induction l with
    | nil => simp
    | cons a l ih =>
      obtain ⟨i1, i2, i3⟩ := ih fun i hi => hl i (List.mem_cons_of_mem _ hi)
      have ha := hl a (List.mem_cons_self)
      simp only [List.map_cons, List.sum_cons]
      refine ⟨(abs_add_le _ _).trans (add_le_add ha.1 i1), ?_, ?_⟩
      · have e : f a + (l.map f).sum - (g a + (l.map g).sum) = (f a - g a) + ((l.map f).sum - (l.map g).sum) := by ring
        rw [e, mul_add]
        exact (abs_add_le _ _).trans (add_le_add ha.2 i2)
      · rw [mul_add]
        exact add_le_add ha.abs_le i3
  obtain ⟨i1, i2, i3⟩ := b1 l h
  refine ⟨i1, ?_⟩
  have tri : |S.sum (l.map f) - (l.map g).sum| ≤ |S.sum (l.map f) - (l.map f).sum| + |(l.map f).sum - (l.map g).sum| := by
    have := abs_add_le (S.sum (l.map f) - (l.map f).sum) ((l.map f).sum - (l.map g).sum)
    rwa [sub_add_sub_cancel] at this
  have h1 := one_le_grow_pow (K := K) m
  have e' := e.trans (mul_le_mul_of_nonneg_left i3 (by linarith))
  calc _ ≤ _ := tri
    _ ≤ (grow ^ m - 1) * (grow ^ n * (l.map X).sum) + (grow ^ n - 1) * (l.map X).sum := add_le_add e' i2
    _ = (grow ^ (n + m) - 1) * (l.map X).sum := by rw [pow_add]; ring

/-! ### Quotients of knot differences -/

/-- `a` was computed for the positive number `x`, with a relative error of at most `n` operations. -/
def Rel (n : ℕ) (a x : K) : Prop := 0 ≤ a ∧ a ≤ grow ^ n * x ∧ x ≤ grow ^ n * a

theorem Rel.near {n : ℕ} {a x : K} (h : Rel n a x) (hx : 0 ≤ x) : Near n a x x := by
  refine ⟨by rw [abs_of_nonneg hx], abs_le.2 ⟨?_, by linarith [h.2.1]⟩⟩
  have h1 := one_le_grow_pow (K := K) n
  have h2 := h.2.2
  have h3 := h.1
  -- `x ≤ g a` and `a ≤ g x` give `x - a ≤ (g - 1) a ≤ (g - 1) x` unless `a` is greater than `x`
  rcases le_total a x with hax | hax
  · have : x - a ≤ (grow ^ n - 1) * a := by linarith
    have : (grow ^ n - 1) * a ≤ (grow ^ n - 1) * x := mul_le_mul_of_nonneg_left hax (by linarith)
    linarith
  · have : 0 ≤ (grow ^ n - 1) * x := mul_nonneg (by linarith) hx
    linarith

theorem Rel.pos {n : ℕ} {a x : K} (h : Rel n a x) (hx : 0 < x) : 0 < a := by
  rcases h.1.eq_or_lt with e | e
  · have := h.2.2
    rw [← e, mul_zero] at this
    linarith
  · exact e

/-- A difference of floating point numbers. -/
theorem rel_sub {x y : K} (hx : R.IsFloat x) (hy : R.IsFloat y) (h : y ≤ x) : Rel 1 (R.sub x y) (x - y) := by
  have h1 := R.err_sub hx hy
  have h0 : 0 ≤ x - y := sub_nonneg.2 h
  rw [abs_of_nonneg h0, abs_le] at h1
  have h2 : R.eps * (x - y) ≤ 1 / 2 ^ 53 * (x - y) := mul_le_mul_of_nonneg_right R.eps_le h0
  refine ⟨R.sub_nonneg' h, ?_, ?_⟩
  · rw [pow_one]
    have : (1 + 1 / 2 ^ 53 : K) * (x - y) ≤ grow * (x - y) :=
      mul_le_mul_of_nonneg_right (by unfold grow; norm_num) h0
    linarith
  · rw [pow_one]
    have h3 : (1 - 1 / 2 ^ 53 : K) * (x - y) ≤ R.sub x y := by linarith
    have h4 : (grow : K) * ((1 - 1 / 2 ^ 53) * (x - y)) ≤ grow * R.sub x y := mul_le_mul_of_nonneg_left h3 grow_pos.le
    have h5 : (x - y) ≤ (grow : K) * (1 - 1 / 2 ^ 53) * (x - y) :=
      le_mul_of_one_le_left h0 (by unfold grow; norm_num)
    linarith

theorem Rel.div {n m : ℕ} {a x b y : K} (h : Rel n a x) (h' : Rel m b y) (hx : 0 ≤ x) (hy : 0 < y) : Rel (n + m) (a / b) (x / y) := by
  have hb := h'.pos hy
  refine ⟨div_nonneg h.1 hb.le, ?_, ?_⟩
  · rw [div_le_iff₀ hb]
    have h1 : (grow : K) ^ (n + m) * (x / y) * b = grow ^ n * x * (grow ^ m * b / y) := by rw [pow_add]; ring
    rw [h1]
    have h2 : 1 ≤ (grow : K) ^ m * b / y := (one_le_div hy).2 h'.2.2
    exact h.2.1.trans (le_mul_of_one_le_right (mul_nonneg (pow_nonneg grow_pos.le _) hx) h2)
  · rw [div_le_iff₀ hy]
    have h1 : (grow : K) ^ (n + m) * (a / b) * y = grow ^ n * a * (grow ^ m * y / b) := by rw [pow_add]; ring
    rw [h1]
    have h2 : 1 ≤ (grow : K) ^ m * y / b := (one_le_div hb).2 h'.2.1
    exact h.2.2.trans (le_mul_of_one_le_right (mul_nonneg (pow_nonneg grow_pos.le _) h.1) h2)

theorem Rel.pow {n : ℕ} {a x : K} (h : Rel n a x) (hx : 0 ≤ x) (k : ℕ) : Rel (n * k) (a ^ k) (x ^ k) := by
  refine ⟨pow_nonneg h.1 _, ?_, ?_⟩
  · rw [pow_mul, ← mul_pow]
    exact pow_le_pow_left₀ h.1 h.2.1 k
  · rw [pow_mul, ← mul_pow]
    exact pow_le_pow_left₀ hx h.2.2 k

theorem Rel.trans {n m : ℕ} {a b x : K} (h : Rel n a b) (h' : Rel m b x) : Rel (n + m) a x := by
  have hn := pow_nonneg (grow_pos (K := K)).le n
  have hm := pow_nonneg (grow_pos (K := K)).le m
  refine ⟨h.1, ?_, ?_⟩
  · rw [pow_add, mul_assoc]
    exact h.2.1.trans (mul_le_mul_of_nonneg_left h'.2.1 hn)
  · rw [pow_add, mul_comm (grow ^ n), mul_assoc]
    exact h'.2.2.trans (mul_le_mul_of_nonneg_left h.2.2 hm)

/-- A quotient of differences that is at most one: between zero and one again, a floating point number, and accurate. -/
theorem quotient {a b c d : K} (ha : R.IsFloat a) (hb : R.IsFloat b) (hc : R.IsFloat c) (hd : R.IsFloat d) (h1 : b ≤ a) (h2 : d < c)
    (h3 : a - b ≤ c - d) :
    R.IsFloat (R.div (R.sub a b) (R.sub c d)) ∧ 0 ≤ R.div (R.sub a b) (R.sub c d) ∧ R.div (R.sub a b) (R.sub c d) ≤ 1 ∧
      Near 3 (R.div (R.sub a b) (R.sub c d)) ((a - b) / (c - d)) 1 := by
  have hp : 0 < R.sub c d := R.sub_pos' hd hc h2
  have hcd : 0 < c - d := sub_pos.2 h2
  have hab : 0 ≤ a - b := sub_nonneg.2 h1
  refine ⟨R.idem _, R.rnd_nonneg (div_nonneg (R.sub_nonneg' h1) hp.le), ?_, ?_⟩
  · have h4 := R.mono ((div_le_one hp).mpr (R.mono h3))
    rwa [R.rnd_one] at h4
  · have r := (rel_sub ha hb h1).div (rel_sub hc hd h2.le) hab hcd
    have n2 := (r.near (div_nonneg hab hcd.le)).mono le_rfl ((div_le_one hcd).2 h3)
    exact n2.rnd (Or.inr (by
      rw [div_le_one (by positivity)]
      exact one_le_pow₀ (by norm_num)))

theorem normal_one : Normal (1 : K) := Or.inr (by
  rw [div_le_one (by positivity)]
  exact one_le_pow₀ (by norm_num))

theorem normal_nat (n : ℕ) : Normal (n : K) := by
  rcases Nat.eq_zero_or_pos n with rfl | h
  · exact Or.inl (by simp)
  · refine Or.inr ?_
    have h1 : (1 : K) ≤ n := by exact_mod_cast h
    refine le_trans ?_ h1
    rw [div_le_one (by positivity)]
    exact one_le_pow₀ (by norm_num)

theorem countP_le_length' (l : List K) (n : ℕ) (h : l.length ≤ n + 1) : l.countP (· ≠ 0) ≤ n + 1 :=
  List.countP_le_length.trans h

/-! ### Basis matrices -/

/-- What the basis matrices of a segment need: the knots around it are floating point numbers in order, and it has positive width. -/
structure GoodKnots (R : Rounding K) (kn : ℕ → K) (i order : ℕ) : Prop where
  mono : ∀ a b, a ≤ b → b < i + order → kn a ≤ kn b
  float : ∀ a, a < i + order → R.IsFloat (kn a)
  pos : kn i < kn (i + 1)
  back : order ≤ i + 1

theorem GoodKnots.of_le {kn : ℕ → K} {i n m : ℕ} (h : GoodKnots R kn i m) (hn : n ≤ m) : GoodKnots R kn i n :=
  ⟨fun a b h1 h2 => h.mono a b h1 (by omega), fun a ha => h.float a (by omega), h.pos, by have := h.back; omega⟩

theorem GoodKnots.d0 {kn : ℕ → K} {i k : ℕ} (h : GoodKnots R kn i (k + 2)) (x : ℕ) (hx : x < k + 1) :
    R.IsFloat (R.d0 kn (k + 2) i (i + 2 + x - (k + 2))) ∧ 0 ≤ R.d0 kn (k + 2) i (i + 2 + x - (k + 2)) ∧
      R.d0 kn (k + 2) i (i + 2 + x - (k + 2)) ≤ 1 ∧
      Near 3 (R.d0 kn (k + 2) i (i + 2 + x - (k + 2))) (Verif.d0 kn (k + 2) i (i + 2 + x - (k + 2))) 1 := by
  have hb := h.back
  have hp := h.pos
  set j := i + 2 + x - (k + 2) with hj
  have e : j + (k + 2) - 1 = i + 1 + x := by omega
  have m1 : kn j ≤ kn i := h.mono _ _ (by omega) (by omega)
  have m2 : kn (i + 1) ≤ kn (i + 1 + x) := h.mono _ _ (by omega) (by omega)
  have f1 := h.float j (by omega)
  have f2 := h.float i (by omega)
  have f3 := h.float (i + 1 + x) (by omega)
  unfold Rounding.d0 Verif.d0
  rw [e]
  have hlt : kn j < kn (i + 1 + x) := by linarith
  have hs : ¬ R.sub (kn (i + 1 + x)) (kn j) ≤ 0 := not_le.2 (R.sub_pos' f1 f3 hlt)
  dsimp only
  rw [if_neg hs, if_neg (by linarith)]
  exact quotient f2 f1 f3 f1 m1 hlt (by linarith)

theorem GoodKnots.d1 {kn : ℕ → K} {i k : ℕ} (h : GoodKnots R kn i (k + 2)) (x : ℕ) (hx : x < k + 1) :
    R.IsFloat (R.d1 kn (k + 2) i (i + 2 + x - (k + 2))) ∧
      Near 3 (R.d1 kn (k + 2) i (i + 2 + x - (k + 2))) (Verif.d1 kn (k + 2) i (i + 2 + x - (k + 2))) 1 := by
  have hb := h.back
  have hp := h.pos
  set j := i + 2 + x - (k + 2) with hj
  have e : j + (k + 2) - 1 = i + 1 + x := by omega
  have m1 : kn j ≤ kn i := h.mono _ _ (by omega) (by omega)
  have m2 : kn (i + 1) ≤ kn (i + 1 + x) := h.mono _ _ (by omega) (by omega)
  have f1 := h.float j (by omega)
  have f2 := h.float i (by omega)
  have f3 := h.float (i + 1 + x) (by omega)
  have f4 := h.float (i + 1) (by omega)
  unfold Rounding.d1 Verif.d1
  rw [e]
  have hlt : kn j < kn (i + 1 + x) := by linarith
  have hs : ¬ R.sub (kn (i + 1 + x)) (kn j) ≤ 0 := not_le.2 (R.sub_pos' f1 f3 hlt)
  dsimp only
  rw [if_neg hs, if_neg (by linarith)]
  obtain ⟨q1, -, -, q4⟩ := quotient f4 f2 f3 f1 hp.le hlt (by linarith)
  exact ⟨q1, q4⟩

/-- Is the entry in row `x` and column `c` one of the two of its row that may differ from zero? -/
def band (x c : ℕ) : ℕ := if c = x ∨ c = x + 1 then 1 else 0

theorem GoodKnots.matA {kn : ℕ → K} {i k : ℕ} (h : GoodKnots R kn i (k + 2)) (x c : ℕ) (hx : x < k + 1) :
    R.IsFloat (R.matA kn (k + 2) i x c) ∧ Near 4 (R.matA kn (k + 2) i x c) (Verif.matA kn (k + 2) i x c) (band x c : ℕ) := by
  obtain ⟨f, p, l, n⟩ := h.d0 x hx
  unfold Rounding.matA Verif.matA band
  by_cases h1 : c = x
  · rw [if_pos h1, if_pos h1, if_pos (Or.inl h1), Nat.cast_one]
    refine ⟨R.idem _, ?_⟩
    set d := R.d0 kn (k + 2) i (i + 2 + x - (k + 2))
    set e := Verif.d0 kn (k + 2) i (i + 2 + x - (k + 2)) with he
    -- the exact value is between zero and one as well
    have hb := h.back
    have hp := h.pos
    set j := i + 2 + x - (k + 2) with hj
    have ej : j + (k + 2) - 1 = i + 1 + x := by omega
    have m1 : kn j ≤ kn i := h.mono _ _ (by omega) (by omega)
    have m2 : kn (i + 1) ≤ kn (i + 1 + x) := h.mono _ _ (by omega) (by omega)
    have e0 : 0 ≤ e ∧ e ≤ 1 := by
      rw [he]
      unfold Verif.d0
      rw [ej]
      dsimp only
      rw [if_neg (by linarith)]
      exact ⟨div_nonneg (by linarith) (by linarith), (div_le_one (by linarith)).2 (by linarith)⟩
    have n1 : Near 3 (1 - d) (1 - e) 1 := by
      refine ⟨by rw [abs_of_nonneg (by linarith [e0.2])]; linarith [e0.1], ?_⟩
      rw [show 1 - d - (1 - e) = -(d - e) by ring, abs_neg]
      exact n.2
    exact n1.rnd normal_one
  · rw [if_neg h1, if_neg h1]
    by_cases h2 : c = x + 1
    · rw [if_pos h2, if_pos h2, if_pos (Or.inr h2), Nat.cast_one]
      exact ⟨f, n.mono (by omega) le_rfl⟩
    · rw [if_neg h2, if_neg h2, if_neg (by tauto), Nat.cast_zero]
      exact ⟨R.rnd_zero, (Near.exact (by simp)).mono (by omega) le_rfl⟩

theorem GoodKnots.matB {kn : ℕ → K} {i k : ℕ} (h : GoodKnots R kn i (k + 2)) (x c : ℕ) (hx : x < k + 1) :
    R.IsFloat (R.matB kn (k + 2) i x c) ∧ Near 4 (R.matB kn (k + 2) i x c) (Verif.matB kn (k + 2) i x c) (band x c : ℕ) := by
  obtain ⟨f, n⟩ := h.d1 x hx
  unfold Rounding.matB Verif.matB band
  by_cases h1 : c = x
  · rw [if_pos h1, if_pos h1, if_pos (Or.inl h1), Nat.cast_one]
    exact ⟨R.isFloat_neg f, n.neg.mono (by omega) le_rfl⟩
  · rw [if_neg h1, if_neg h1]
    by_cases h2 : c = x + 1
    · rw [if_pos h2, if_pos h2, if_pos (Or.inr h2), Nat.cast_one]
      exact ⟨f, n.mono (by omega) le_rfl⟩
    · rw [if_neg h2, if_neg h2, if_neg (by tauto), Nat.cast_zero]
      exact ⟨R.rnd_zero, (Near.exact (by simp)).mono (by omega) le_rfl⟩

theorem matA_band (kn : ℕ → K) (k i x c : ℕ) (h : band x c = 0) : R.matA kn k i x c = 0 := by
  unfold band at h
  unfold Rounding.matA
  have : ¬ (c = x ∨ c = x + 1) := by by_contra hc; rw [if_pos hc] at h; omega
  rw [if_neg (by tauto), if_neg (by tauto)]

theorem matB_band (kn : ℕ → K) (k i x c : ℕ) (h : band x c = 0) : R.matB kn k i x c = 0 := by
  unfold band at h
  unfold Rounding.matB
  have : ¬ (c = x ∨ c = x + 1) := by by_contra hc; rw [if_pos hc] at h; omega
  rw [if_neg (by tauto), if_neg (by tauto)]

theorem list_sum_range {M : Type*} [AddCommMonoid M] (n : ℕ) (f : ℕ → M) : ((List.range n).map f).sum = ∑ x ∈ range n, f x := by
  induction n with
  | zero => simp
  | succ n ih => rw [List.range_succ, List.map_append, List.sum_append, ih, sum_range_succ]; simp

theorem sum_band (k c : ℕ) : ∑ x ∈ range (k + 1), k.choose x * band x c = (k + 1).choose c := by
  have e : ∀ x, k.choose x * band x c = (if x = c then k.choose c else 0) + (if x + 1 = c then k.choose (c - 1) else 0) := by
    intro x
    unfold band
    by_cases h1 : x = c
    · subst h1; simp
    · by_cases h2 : x + 1 = c
      · subst h2; simp
      · rw [if_neg h1, if_neg h2, if_neg (by omega)]; simp
  simp only [e, sum_add_distrib]
  rw [sum_ite_eq']
  rcases c with _ | c
  · simp
  · have : ∀ x, (x + 1 = c + 1) ↔ x = c := by omega
    simp only [this, Nat.add_sub_cancel]
    rw [sum_ite_eq', Nat.choose_succ_succ]
    by_cases h1 : c + 1 < k + 1
    · rw [if_pos (mem_range.2 h1), if_pos (mem_range.2 (by omega))]; ring
    · rw [if_neg (by simpa using h1), Nat.choose_eq_zero_of_lt (show k < c + 1 by omega)]
      by_cases h2 : c < k + 1
      · rw [if_pos (mem_range.2 h2)]; ring
      · rw [if_neg (by simpa using h2), Nat.choose_eq_zero_of_lt (by omega)]

theorem countP_band (n c : ℕ) (f : ℕ → K) (hf : ∀ x, band x c = 0 → f x = 0) : ((List.range n).map f).countP (· ≠ 0) ≤ 2 := by
  rw [List.countP_map]
  have h1 : (List.range n).countP ((fun a : K => decide (a ≠ 0)) ∘ f) ≤ (List.range n).countP (fun x => decide (c = x ∨ c = x + 1)) := by
    apply List.countP_mono_left
    intro x _ hx
    simp only [Function.comp, decide_eq_true_eq] at hx ⊢
    by_contra hc
    exact hx (hf x (by unfold band; rw [if_neg hc]))
  refine h1.trans ?_
  rw [List.countP_eq_length_filter]
  have hn : ((List.range n).filter fun x => decide (c = x ∨ c = x + 1)).Nodup := List.nodup_range.filter _
  have hsub : ((List.range n).filter fun x => decide (c = x ∨ c = x + 1)) ⊆ [c, c - 1] := by
    intro x hx
    simp only [List.mem_filter, decide_eq_true_eq] at hx
    simp only [List.mem_cons, List.not_mem_nil, or_false]
    omega
  exact (hn.subperm hsub).length_le

/-- **C89.** The basis matrices: an entry is a floating point number, and its error is at most that of eight operations per order on numbers
as large as the product of two binomial coefficients. -/
theorem C89_basis (S : Summation R) {kn : ℕ → K} {i k : ℕ} (h : GoodKnots R kn i (k + 1)) (r c : ℕ) :
    R.IsFloat (basisM S kn i (k + 1) r c) ∧
      Near (8 * k) (basisM S kn i (k + 1) r c) (Verif.basisM kn i (k + 1) r c) ((k.choose r * k.choose c : ℕ) : K) := by
  induction k generalizing r c with
  | zero =>
    have e : basisM S kn i (0 + 1) r c = Verif.basisM kn i (0 + 1) r c := rfl
    rw [e]
    show R.IsFloat (if r = 0 ∧ c = 0 then (1 : K) else 0) ∧ Near _ (if r = 0 ∧ c = 0 then (1 : K) else 0) (if r = 0 ∧ c = 0 then (1 : K) else 0) _
    by_cases hrc : r = 0 ∧ c = 0
    · rw [if_pos hrc, hrc.1, hrc.2]
      exact ⟨R.rnd_one, Near.exact (by simp)⟩
    · rw [if_neg hrc]
      refine ⟨R.rnd_zero, Near.exact ?_⟩
      rw [abs_zero]
      positivity
  | succ k ih =>
    have ih' := ih (h.of_le (by omega))
    set f : ℕ ⊕ ℕ → K := Sum.elim
      (fun x => R.mul (if r < k + 1 then basisM S kn i (k + 1) r x else 0) (R.matA kn (k + 2) i x c))
      (fun x => R.mul (if r = 0 then 0 else basisM S kn i (k + 1) (r - 1) x) (R.matB kn (k + 2) i x c)) with hf
    set g : ℕ ⊕ ℕ → K := Sum.elim
      (fun x => (if r < k + 1 then Verif.basisM kn i (k + 1) r x else 0) * Verif.matA kn (k + 2) i x c)
      (fun x => (if r = 0 then 0 else Verif.basisM kn i (k + 1) (r - 1) x) * Verif.matB kn (k + 2) i x c) with hg
    set X : ℕ ⊕ ℕ → K := Sum.elim
      (fun x => ((k.choose r * k.choose x : ℕ) : K) * (band x c : ℕ))
      (fun x => (((if r = 0 then 0 else k.choose (r - 1)) * k.choose x : ℕ) : K) * (band x c : ℕ)) with hX
    set l : List (ℕ ⊕ ℕ) := (List.range (k + 1)).map Sum.inl ++ (List.range (k + 1)).map Sum.inr with hl
    have ef : basisM S kn i (k + 1 + 1) r c = S.sum (l.map f) := by
      show S.sum _ = _
      rw [hl, List.map_append, List.map_map, List.map_map]
      rfl
    have eg : Verif.basisM kn i (k + 1 + 1) r c = (l.map g).sum := by
      rw [hl, List.map_append, List.map_map, List.map_map, List.sum_append, list_sum_range, list_sum_range]
      rfl
    have eX : (l.map X).sum = (((k + 1).choose r * (k + 1).choose c : ℕ) : K) := by
      rw [hl, List.map_append, List.map_map, List.map_map, List.sum_append, list_sum_range, list_sum_range]
      simp only [Function.comp, hX, Sum.elim_inl, Sum.elim_inr]
      have e1 : ∀ m : ℕ, ∑ x ∈ range (k + 1), ((m * k.choose x : ℕ) : K) * (band x c : ℕ) = ((m * (k + 1).choose c : ℕ) : K) := by
        intro m
        rw [← sum_band k c, mul_sum]
        push_cast
        exact sum_congr rfl fun x _ => by ring
      rw [e1, e1, ← Nat.cast_add, ← add_mul]
      congr 2
      rcases r with _ | r
      · simp
      · rw [if_neg (by omega), Nat.choose_succ_succ, Nat.add_sub_cancel, add_comm]
    have hfl : ∀ y ∈ l, R.IsFloat (f y) := by
      intro y _
      rcases y with x | x <;> exact R.idem _
    have hfn : ∀ y ∈ l, Near (8 * k + 5) (f y) (g y) (X y) := by
      intro y hy
      rcases y with x | x
      · have hx : x < k + 1 := by
          simp only [hl, List.mem_append, List.mem_map, List.mem_range] at hy
          rcases hy with ⟨z, hz, e⟩ | ⟨z, hz, e⟩
          · cases e; exact hz
          · cases e
        have n1 : Near (8 * k) (if r < k + 1 then basisM S kn i (k + 1) r x else 0)
            (if r < k + 1 then Verif.basisM kn i (k + 1) r x else 0) ((k.choose r * k.choose x : ℕ) : K) := by
          by_cases hr : r < k + 1
          · rw [if_pos hr, if_pos hr]; exact (ih' r x).2
          · rw [if_neg hr, if_neg hr]
            exact (Near.exact (by rw [abs_zero]; positivity)).mono (Nat.zero_le _) le_rfl
        have n2 := (h.matA x c hx).2
        refine n1.mul n2 ?_
        rw [← Nat.cast_mul]
        exact normal_nat _
      · have hx : x < k + 1 := by
          simp only [hl, List.mem_append, List.mem_map, List.mem_range] at hy
          rcases hy with ⟨z, hz, e⟩ | ⟨z, hz, e⟩
          · cases e
          · cases e; exact hz
        have n1 : Near (8 * k) (if r = 0 then 0 else basisM S kn i (k + 1) (r - 1) x)
            (if r = 0 then 0 else Verif.basisM kn i (k + 1) (r - 1) x)
            (((if r = 0 then 0 else k.choose (r - 1)) * k.choose x : ℕ) : K) := by
          by_cases hr : r = 0
          · rw [if_pos hr, if_pos hr, if_pos hr]
            exact (Near.exact (by rw [abs_zero]; positivity)).mono (Nat.zero_le _) le_rfl
          · rw [if_neg hr, if_neg hr, if_neg hr]
            exact (ih' (r - 1) x).2
        have n2 := (h.matB x c hx).2
        refine n1.mul n2 ?_
        rw [← Nat.cast_mul]
        exact normal_nat _
    have hcount : (l.map f).countP (· ≠ 0) ≤ 3 + 1 := by
      rw [hl, List.map_append, List.map_map, List.map_map, List.countP_append]
      have c1 := countP_band (k + 1) c (f ∘ Sum.inl) (by
        intro x hx
        show R.mul _ _ = 0
        rw [matA_band _ _ _ _ _ hx]
        unfold Rounding.mul
        rw [mul_zero, R.rnd_zero])
      have c2 := countP_band (k + 1) c (f ∘ Sum.inr) (by
        intro x hx
        show R.mul _ _ = 0
        rw [matB_band _ _ _ _ _ hx]
        unfold Rounding.mul
        rw [mul_zero, R.rnd_zero])
      omega
    have n := Near.sum S l f g X (8 * k + 5) 3 hfl hfn hcount
    rw [ef, eg]
    rw [eX] at n
    refine ⟨?_, n.mono (by omega) le_rfl⟩
    refine (S.tree _).float ?_
    intro a ha
    rw [Multiset.mem_coe, List.mem_map] at ha
    obtain ⟨y, hy, rfl⟩ := ha
    exact hfl y hy

/-! ### The vector of powers -/

theorem powers_near {u v : K} (hu : Near 3 u v 1) (n : ℕ) : R.IsFloat (R.powers u n) ∧ Near (4 * n) (R.powers u n) (v ^ n) 1 := by
  induction n with
  | zero => exact ⟨R.rnd_one, by rw [pow_zero]; exact Near.exact (le_of_eq abs_one)⟩
  | succ n ih =>
    refine ⟨R.idem _, ?_⟩
    have := ih.2.mul (R := R) hu (by rw [mul_one]; exact normal_one)
    rw [mul_one] at this
    rw [pow_succ]
    exact this.mono (by omega) le_rfl

theorem normal_mul_nat {X : K} (hX : 1 / 2 ^ 1022 ≤ X) (n : ℕ) : Normal (X * n) := by
  rcases Nat.eq_zero_or_pos n with rfl | h
  · exact Or.inl (by simp)
  · exact Normal.mul hX (by exact_mod_cast h)

/-- The factor `1 / pow(delta_t, derivativeOrder)`. -/
theorem multiplier_near (P : Power R) {x y : K} (hx : R.IsFloat x) (hy : R.IsFloat y) (h : y < x) (der : ℕ)
    (hlo : 1 / 2 ^ 1022 ≤ R.sub x y ^ der) (hhi : 1 / 2 ^ 1022 ≤ 1 / (x - y) ^ der) :
    Near (der + 4) (R.div 1 (P.pow (R.sub x y) der)) (1 / (x - y) ^ der) (1 / (x - y) ^ der) := by
  have hp : 0 < x - y := sub_pos.2 h
  have r1 := (rel_sub hx hy h.le).pow hp.le der
  rw [one_mul] at r1
  set Y := R.sub x y ^ der with hY
  have h0 : (0 : K) < 1 / 2 ^ 1022 := by positivity
  have hYp : 0 < Y := h0.trans_le hlo
  have r2 : Rel 3 (P.pow (R.sub x y) der) Y := by
    have e := P.err (R.sub x y) der (R.idem _)
    rw [← hY, abs_of_pos hYp] at e
    have e1 : R.tiny ≤ 1 / 2 ^ 53 * Y := by
      refine R.tiny_le.trans ?_
      have : (1 : K) / 2 ^ 1075 = 1 / 2 ^ 53 * (1 / 2 ^ 1022) := by rw [div_mul_div_comm, one_mul, ← pow_add]
      rw [this]
      exact mul_le_mul_of_nonneg_left hlo (by positivity)
    have e2 : R.eps * Y ≤ 1 / 2 ^ 53 * Y := mul_le_mul_of_nonneg_right R.eps_le hYp.le
    have e3 : |P.pow (R.sub x y) der - Y| ≤ 1 / 2 ^ 51 * Y := by
      have : (1 : K) / 2 ^ 51 = 4 * (1 / 2 ^ 53) := by norm_num
      rw [this]
      linarith
    rw [abs_le] at e3
    have g1 : (1 + 1 / 2 ^ 51 : K) ≤ grow ^ 3 := by unfold grow; norm_num
    have g2 : (1 : K) ≤ grow ^ 3 * (1 - 1 / 2 ^ 51) := by unfold grow; norm_num
    have e4 : (1 - 1 / 2 ^ 51 : K) * Y ≤ P.pow (R.sub x y) der := by linarith
    have e5 : (0 : K) ≤ 1 - 1 / 2 ^ 51 := by norm_num
    refine ⟨(mul_nonneg e5 hYp.le).trans e4, ?_, ?_⟩
    · have := mul_le_mul_of_nonneg_right g1 hYp.le
      linarith
    · have a1 := mul_le_mul_of_nonneg_left e4 (pow_nonneg (grow_pos (K := K)).le 3)
      have a2 := mul_le_mul_of_nonneg_right g2 hYp.le
      linarith
  have r3 := r2.trans r1
  have one : Rel 0 (1 : K) 1 := ⟨zero_le_one, by rw [pow_zero, one_mul], by rw [pow_zero, one_mul]⟩
  have r4 := one.div r3 zero_le_one (pow_pos hp der)
  have n := (r4.near (by positivity)).rnd (R := R) (Or.inr hhi)
  exact n.mono (by omega) le_rfl

theorem computeU_near (P : Power R) {kn : ℕ → K} {i order : ℕ} (h : GoodKnots R kn i order) (ho : 2 ≤ order) {u v : K} (hu : Near 3 u v 1)
    (der : ℕ) (hlo : 1 / 2 ^ 1022 ≤ R.sub (kn (i + 1)) (kn i) ^ der) (hhi : 1 / 2 ^ 1022 ≤ 1 / (kn (i + 1) - kn i) ^ der)
    (r : ℕ) (hr : r < order) :
    R.IsFloat (computeU P kn order u i der r) ∧
      Near (4 * (order - 1) + 6) (computeU P kn order u i der r) (Verif.computeU kn order v i der r)
        (1 / (kn (i + 1) - kn i) ^ der * ((order - 1).descFactorial der : ℕ)) := by
  have hp := h.pos
  have f0 := h.float i (by omega)
  have f1 := h.float (i + 1) (by omega)
  have hd : 0 < kn (i + 1) - kn i := sub_pos.2 hp
  have hs := R.sub_pos' f0 f1 hp
  unfold Rounding.computeU Verif.computeU
  dsimp only
  rw [if_pos hs, if_pos hd]
  by_cases hc : der ≤ r ∧ r < order
  · rw [if_pos hc, if_pos hc]
    refine ⟨R.idem _, ?_⟩
    have n1 := multiplier_near P f1 f0 hp der hlo hhi
    have n2 := (powers_near (R := R) hu (r - der)).2
    have n3 := n1.mul (R := R) n2 (by rw [mul_one]; exact Or.inr hhi)
    rw [mul_one] at n3
    rw [dmul_eq der r hc.1]
    have n4 : Near 0 (((r.descFactorial der : ℕ) : ℤ) : K) (((r.descFactorial der : ℕ) : ℤ) : K) ((r.descFactorial der : ℕ) : K) := by
      rw [Int.cast_natCast]
      exact Near.exact (by rw [abs_of_nonneg (by positivity)])
    have n5 := n3.mul (R := R) n4 (normal_mul_nat hhi _)
    refine n5.mono (by omega) ?_
    refine mul_le_mul_of_nonneg_left ?_ (by positivity)
    exact_mod_cast Nat.descFactorial_le der (show r ≤ order - 1 by omega)
  · rw [if_neg hc, if_neg hc]
    refine ⟨R.rnd_zero, (Near.exact ?_).mono (Nat.zero_le _) le_rfl⟩
    rw [abs_zero]
    positivity

/-! ### The query -/

/-- The numbers that a value is made of are added up in either order. -/
theorem sum_both (k : ℕ) (a u : ℕ → K) (B : Mat K) :
    ∑ r ∈ range k, (∑ c ∈ range k, a c * B r c) * u r = ∑ c ∈ range k, a c * ∑ r ∈ range k, B r c * u r := by
  simp only [sum_mul, mul_sum]
  rw [sum_comm]
  exact sum_congr rfl fun c _ => sum_congr rfl fun r _ => by ring

/-- The lookup in floating point finds the segment of the time. -/
theorem lookup_same {s : BSpline K D} (h : s.WF) (hf : R.FloatKnots s) {t : K} (h1 : s.kn (s.order - 1) ≤ t)
    (h2 : t ≤ s.kn (s.knots.length - s.order))
    (hw : BSpline.snapTol ≤ s.kn (s.knots.length - s.order) - s.kn (s.knots.length - s.order - 1)) {i : ℕ} (hi : s.InSegment t i) :
    s.Admissible t ∧ R.computeUAndTIndex s t = .ok (R.div (R.sub t (s.kn i)) (R.sub (s.kn (i + 1)) (s.kn i)), i) := by
  have hk := h.order_pos
  have hn := h.enough
  have htol : (0 : K) < BSpline.snapTol := by unfold BSpline.snapTol; positivity
  have near_end : |R.sub (s.kn (s.knots.length - s.order)) t| < R.rnd BSpline.snapTol → s.kn (s.knots.length - s.order - 1) ≤ t := by
    intro hs
    by_contra hc
    have := R.mono (show BSpline.snapTol ≤ s.kn (s.knots.length - s.order) - t by linarith [not_le.1 hc])
    exact absurd (hs.trans_le (this.trans (le_abs_self _))) (lt_irrefl _)
  constructor
  · refine ⟨h1, h2, ?_⟩
    by_cases hc : s.kn (s.knots.length - s.order - 1) ≤ t
    · exact Or.inr ⟨hc, by linarith⟩
    · exact Or.inl (by linarith [not_le.1 hc])
  · obtain ⟨j, e, a, b, c⟩ := C84_lookup hf t h1 (Or.inl h2)
    have hj : s.InSegment t j := by
      rcases c with c | ⟨c1, c2⟩
      · exact ⟨a, b, lt_of_le_of_lt c.1 c.2, c.1, Or.inl c.2⟩
      · have e1 : s.knots.length - s.order - 1 = j := by omega
        have hl := near_end c2
        rw [e1] at hl hw
        refine ⟨a, b, by rw [c1]; linarith, hl, ?_⟩
        rcases h2.eq_or_lt with h2 | h2
        · exact Or.inr ⟨by rw [c1]; exact h2, c1⟩
        · exact Or.inl (by rw [c1]; exact h2)
    obtain rfl := BSpline.InSegment.unique h hi hj
    unfold computeUAndTIndex
    rw [e]
    simp only [Outcome.bind_ok]
    have hp := R.sub_pos' (hf.kn_float (show i < s.knots.length by omega)) (hf.kn_float (show i + 1 < s.knots.length by omega)) hi.pos
    rw [if_neg (not_le.2 hp)]

theorem goodKnots {s : BSpline K D} (hf : R.FloatKnots s) {t : K} {i : ℕ} (hi : s.InSegment t i) : GoodKnots R s.kn i s.order := by
  have h1 := hi.lower
  have h2 := hi.upper
  have h3 := hf.order_pos
  have h4 := hf.enough
  exact ⟨fun a b hab hb => hf.mono hab (by omega), fun a ha => hf.kn_float (by omega), hi.pos, by omega⟩

theorem blockAt_float (S : Summation R) {s : BSpline K D} (h : s.WF) {i : ℕ} (h1 : s.order - 1 ≤ i) (h2 : i + 1 ≤ s.knots.length - s.order) :
    (initializeBasisMatrices S s).blockAt i = .ok (i + 1 - s.order, basisM S s.kn i s.order) := by
  have hk := h.order_pos
  have hn := h.enough
  have hc := h.coeffs_len
  have hlt : i + 1 - s.order < s.numValidTimeSegments := by
    unfold BSpline.numValidTimeSegments BSpline.numValidTimeSegmentsOf
    omega
  unfold BSpline.blockAt
  rw [show (initializeBasisMatrices S s).order = s.order by rfl, if_neg (by omega)]
  have e : (initializeBasisMatrices S s).basis[i + 1 - s.order]? = some (basisM S s.kn i s.order) := by
    unfold initializeBasisMatrices
    rw [List.getElem?_map, List.getElem?_range hlt, Option.map_some]
    congr 2
    omega
  dsimp only
  rw [e]
  dsimp only
  rw [show (initializeBasisMatrices S s).coeffs = s.coeffs by rfl, if_pos (by omega)]

/-- The number of operations that the error of a query grows with. -/
def operations (order : ℕ) : ℕ := 14 * (order - 1) + 8

/-- A bound of the numbers that occur when a derivative is computed: `C` bounds the control vertices and `w` is the width of the segment. -/
def magnitude (order der : ℕ) (w C : K) : K := 4 ^ (order - 1) * ((order - 1).descFactorial der : ℕ) * C / w ^ der

theorem sum_choose (k : ℕ) : ∑ r ∈ range (k + 1), (k.choose r : K) = 2 ^ k := by
  have := Nat.sum_range_choose k
  exact_mod_cast congrArg (Nat.cast (R := K)) this

/-- **C89**: queries in floating point.  For every rounding as precise as that of a `double`, every order of adding up and every power
function accurate to one unit in the last place: the value of the curve and its derivatives, asked for with or without the Jacobian, and the
entries of the Jacobian differ from the exact ones by no more than the error of `14 (order - 1) + 8` operations on numbers of the magnitude
of the control vertices in use.  The powers of the segment width must not underflow. -/
theorem C89_derivative (S : Summation R) (P : Power R) {s : BSpline K D} (h : s.WF) (hf : R.FloatKnots s) {t : K} (ht : R.IsFloat t)
    (h1 : s.kn (s.order - 1) ≤ t) (h2 : t ≤ s.kn (s.knots.length - s.order))
    (hw : BSpline.snapTol ≤ s.kn (s.knots.length - s.order) - s.kn (s.knots.length - s.order - 1)) {i : ℕ} (hi : s.InSegment t i)
    (der : ℕ) (hlo : 1 / 2 ^ 1022 ≤ R.sub (s.kn (i + 1)) (s.kn i) ^ der) (hhi : 1 / 2 ^ 1022 ≤ 1 / (s.kn (i + 1) - s.kn i) ^ der)
    (C : K) (hC : 1 / 2 ^ 1022 ≤ C) (hC' : 1 / 2 ^ 1022 ≤ C / (s.kn (i + 1) - s.kn i) ^ der)
    (hc : ∀ c, c < s.order → ∀ d, R.IsFloat (s.col (i + 1 - s.order + c) d) ∧ |s.col (i + 1 - s.order + c) d| ≤ C) :
    ∃ v v1 v2 w, s.evalD t der = .ok v ∧ evalDNat S P (initializeBasisMatrices S s) t der = .ok v1 ∧
      evalDAndWeights S P (initializeBasisMatrices S s) t der = .ok (v2, w) ∧
      (∀ d, |v1 d - v d| ≤ (grow ^ operations s.order - 1) * magnitude s.order der (s.kn (i + 1) - s.kn i) C) ∧
      (∀ d, |v2 d - v d| ≤ (grow ^ operations s.order - 1) * magnitude s.order der (s.kn (i + 1) - s.kn i) C) ∧
      ∀ c, c < s.order → |w c - (Polynomial.derivative^[der] (piece s.kn i (s.order - 1) (i + 1 - s.order + c))).eval t| ≤
        (grow ^ operations s.order - 1) * magnitude s.order der (s.kn (i + 1) - s.kn i) 1 := by
  have hk := h.order_pos
  have g := goodKnots hf hi
  have hl := hi.lower
  have hu := hi.upper
  have hp := hi.pos
  obtain ⟨ha, hT⟩ := lookup_same h hf h1 h2 hw hi
  obtain ⟨j, hTj, hj⟩ := BSpline.lookup h t ha
  obtain rfl := BSpline.InSegment.unique h hi hj
  obtain ⟨B, hB, -, hBe⟩ := BSpline.blockAt_ok h i hl hu
  set Δ := s.kn (i + 1) - s.kn i with hΔ
  have hΔp : 0 < Δ := sub_pos.2 hp
  obtain ⟨p, hpo⟩ : ∃ p, s.order = p + 1 := ⟨s.order - 1, by omega⟩
  -- the relative position
  obtain ⟨qf, -, -, qn⟩ := quotient (R := R) ht (g.float i (by omega)) (g.float (i + 1) (by omega)) (g.float i (by omega)) hi.left hp
    (by linarith [hi.le])
  set û := R.div (R.sub t (s.kn i)) (R.sub (s.kn (i + 1)) (s.kn i)) with hû
  -- the vector of powers
  set μ := 1 / Δ ^ der with hμ
  have hμp : 0 < μ := by positivity
  set F := (s.order - 1).descFactorial der with hF
  have nu := fun r hr => computeU_near P g hk qn der hlo hhi r hr
  set uh := Rounding.computeU P s.kn s.order û i der with huh
  set ue := Verif.computeU s.kn s.order ((t - s.kn i) / Δ) i der with hue
  -- the basis matrix
  have nB : ∀ r c, R.IsFloat (basisM S s.kn i s.order r c) ∧
      Near (8 * p) (basisM S s.kn i s.order r c) (Verif.basisM s.kn i s.order r c) ((p.choose r * p.choose c : ℕ) : K) := by
    intro r c
    rw [hpo]
    rw [hpo] at g
    exact C89_basis S g r c
  have hp1 : s.order - 1 = p := by omega
  have hmag : ∀ C : K, 2 ^ p * (2 ^ p * C * (μ * F)) = magnitude s.order der Δ C := by
    intro C
    unfold magnitude
    rw [← hF, hp1, hμ, show (4 : K) ^ p = 2 ^ p * 2 ^ p by rw [← mul_pow]; norm_num]
    ring
  -- exact value
  have hev : s.evalD t der = .ok (fun d => ∑ c ∈ range s.order, s.col (i + 1 - s.order + c) d *
      ∑ r ∈ range s.order, Verif.basisM s.kn i s.order r c * ue r) := by
    unfold BSpline.evalD
    rw [if_neg (by omega), Int.toNat_natCast]
    unfold BSpline.evalDNat
    rw [BSpline.computeU_ok t i hp hTj]
    simp only [Outcome.bind_ok, hB]
    congr 1
    funext d
    unfold BSpline.blockMul BSpline.transposeMul
    refine sum_congr rfl fun c hc' => ?_
    congr 1
    refine sum_congr rfl fun r hr' => ?_
    rw [hBe r (mem_range.1 hr') c (mem_range.1 hc')]
  have hweight : ∀ c, c < s.order → ∑ r ∈ range s.order, Verif.basisM s.kn i s.order r c * ue r =
      (Polynomial.derivative^[der] (piece s.kn i (s.order - 1) (i + 1 - s.order + c))).eval t := by
    intro c hc'
    exact BSpline.weights_eq h t i der hl hu hp (Verif.basisM s.kn i s.order) (fun _ _ _ _ => rfl) c hc'
  -- the weights
  have nw : ∀ c, R.IsFloat (transposeMul S s.order (basisM S s.kn i s.order) uh c) ∧
      Near (8 * p + (4 * p + 6) + 1 + p) (transposeMul S s.order (basisM S s.kn i s.order) uh c)
        (∑ r ∈ range s.order, Verif.basisM s.kn i s.order r c * ue r) (2 ^ p * (p.choose c : K) * (μ * F)) := by
    intro c
    have fl : ∀ r ∈ List.range s.order, R.IsFloat (R.mul (basisM S s.kn i s.order r c) (uh r)) := fun r _ => R.idem _
    refine ⟨(S.tree _).float ?_, ?_⟩
    · intro a ha
      rw [Multiset.mem_coe, List.mem_map] at ha
      obtain ⟨r, hr, rfl⟩ := ha
      exact fl r hr
    · have n := Near.sum S (List.range s.order) (fun r => R.mul (basisM S s.kn i s.order r c) (uh r))
        (fun r => Verif.basisM s.kn i s.order r c * ue r) (fun r => ((p.choose r * p.choose c : ℕ) : K) * (μ * F))
        (8 * p + (4 * p + 6) + 1) p fl
        (by
          intro r hr
          have n2 := (nu r (List.mem_range.1 hr)).2
          rw [hp1] at n2
          refine (nB r c).2.mul (n2.mono le_rfl (by rw [hF, hp1])) ?_
          rw [show ((p.choose r * p.choose c : ℕ) : K) * (μ * F) = μ * ((p.choose r * p.choose c * F : ℕ) : K) by push_cast; ring]
          exact normal_mul_nat hhi _)
        (countP_le_length' _ _ (by simp; omega))
      rw [list_sum_range, list_sum_range] at n
      unfold transposeMul
      convert n using 1
      rw [← sum_mul, hpo]
      congr 1
      push_cast
      rw [← sum_mul, sum_choose]
  -- the rows of coefficients times basis matrix
  have nr : ∀ d r, R.IsFloat (blockMul S s (i + 1 - s.order) (fun c => basisM S s.kn i s.order r c) d) ∧
      Near (8 * p + 1 + p) (blockMul S s (i + 1 - s.order) (fun c => basisM S s.kn i s.order r c) d)
        (∑ c ∈ range s.order, s.col (i + 1 - s.order + c) d * Verif.basisM s.kn i s.order r c) (C * (2 ^ p * (p.choose r : K))) := by
    intro d r
    have fl : ∀ c ∈ List.range s.order, R.IsFloat (R.mul (s.col (i + 1 - s.order + c) d) (basisM S s.kn i s.order r c)) :=
      fun c _ => R.idem _
    refine ⟨(S.tree _).float ?_, ?_⟩
    · intro a ha
      rw [Multiset.mem_coe, List.mem_map] at ha
      obtain ⟨c, hc', rfl⟩ := ha
      exact fl c hc'
    · have n := Near.sum S (List.range s.order) (fun c => R.mul (s.col (i + 1 - s.order + c) d) (basisM S s.kn i s.order r c))
        (fun c => s.col (i + 1 - s.order + c) d * Verif.basisM s.kn i s.order r c) (fun c => C * ((p.choose r * p.choose c : ℕ) : K))
        (8 * p + 1) p fl
        (by
          intro c hc'
          have n1 : Near 0 (s.col (i + 1 - s.order + c) d) (s.col (i + 1 - s.order + c) d) C :=
            Near.exact (hc c (List.mem_range.1 hc') d).2
          exact (n1.mul (nB r c).2 (normal_mul_nat hC _)).mono (by omega) le_rfl)
        (countP_le_length' _ _ (by simp; omega))
      rw [list_sum_range, list_sum_range] at n
      unfold blockMul
      convert n using 1
      rw [← mul_sum, hpo]
      congr 1
      push_cast
      rw [← mul_sum, sum_choose]
      ring
  have hs1 : (initializeBasisMatrices S s).kn = s.kn := rfl
  refine ⟨_, fun d => S.sum ((List.range s.order).map fun r =>
      R.mul (blockMul S s (i + 1 - s.order) (fun c => basisM S s.kn i s.order r c) d) (uh r)),
    blockMul S s (i + 1 - s.order) (transposeMul S s.order (basisM S s.kn i s.order) uh),
    transposeMul S s.order (basisM S s.kn i s.order) uh, hev, ?_, ?_, ?_, ?_, ?_⟩
  · unfold evalDNat
    have : R.computeUAndTIndex (initializeBasisMatrices S s) t = .ok (û, i) := hT
    rw [this]
    simp only [Outcome.bind_ok]
    rw [blockAt_float S h hl hu]
    simp only [Outcome.bind_ok]
    rfl
  · unfold evalDAndWeights
    have : R.computeUAndTIndex (initializeBasisMatrices S s) t = .ok (û, i) := hT
    rw [this]
    simp only [Outcome.bind_ok]
    rw [blockAt_float S h hl hu]
    simp only [Outcome.bind_ok]
    rfl
  · intro d
    have n := Near.sum S (List.range s.order)
      (fun r => R.mul (blockMul S s (i + 1 - s.order) (fun c => basisM S s.kn i s.order r c) d) (uh r))
      (fun r => (∑ c ∈ range s.order, s.col (i + 1 - s.order + c) d * Verif.basisM s.kn i s.order r c) * ue r)
      (fun r => C * (2 ^ p * (p.choose r : K)) * (μ * F)) (8 * p + 1 + p + (4 * p + 6) + 1) p (fun r _ => R.idem _)
      (by
        intro r hr
        have n2 := (nu r (List.mem_range.1 hr)).2
        rw [hp1] at n2
        refine (nr d r).2.mul (n2.mono le_rfl (by rw [hF, hp1])) ?_
        rw [show C * (2 ^ p * (p.choose r : K)) * (μ * F) = C / Δ ^ der * ((2 ^ p * p.choose r * F : ℕ) : K) by
          rw [hμ]; push_cast; ring]
        exact normal_mul_nat hC' _)
      (countP_le_length' _ _ (by simp; omega))
    rw [list_sum_range, list_sum_range, sum_both] at n
    have e : ∑ r ∈ range s.order, C * (2 ^ p * (p.choose r : K)) * (μ * F) = magnitude s.order der Δ C := by
      rw [← sum_mul, ← mul_sum, ← mul_sum, hpo, sum_choose, ← hpo, ← hmag]
      ring
    rw [e] at n
    have := (n.mono (show _ ≤ operations s.order by unfold operations; omega) le_rfl).2
    exact this
  · intro d
    have n := Near.sum S (List.range s.order)
      (fun c => R.mul (s.col (i + 1 - s.order + c) d) (transposeMul S s.order (basisM S s.kn i s.order) uh c))
      (fun c => s.col (i + 1 - s.order + c) d * ∑ r ∈ range s.order, Verif.basisM s.kn i s.order r c * ue r)
      (fun c => C * (2 ^ p * (p.choose c : K) * (μ * F))) (0 + (8 * p + (4 * p + 6) + 1 + p) + 1) p (fun r _ => R.idem _)
      (by
        intro c hc'
        have n1 : Near 0 (s.col (i + 1 - s.order + c) d) (s.col (i + 1 - s.order + c) d) C :=
          Near.exact (hc c (List.mem_range.1 hc') d).2
        refine n1.mul (nw c).2 ?_
        rw [show C * (2 ^ p * (p.choose c : K) * (μ * F)) = C / Δ ^ der * ((2 ^ p * p.choose c * F : ℕ) : K) by
          rw [hμ]; push_cast; ring]
        exact normal_mul_nat hC' _)
      (countP_le_length' _ _ (by simp; omega))
    rw [list_sum_range, list_sum_range] at n
    have e : ∑ c ∈ range s.order, C * (2 ^ p * (p.choose c : K) * (μ * F)) = magnitude s.order der Δ C := by
      rw [← mul_sum, ← sum_mul, ← mul_sum, hpo, sum_choose, ← hpo, ← hmag]
      ring
    rw [e] at n
    exact (n.mono (show _ ≤ operations s.order by unfold operations; omega) le_rfl).2
  · intro c hc'
    rw [← hweight c hc']
    have n := (nw c).2
    refine (n.mono (show _ ≤ operations s.order by unfold operations; omega) ?_).2
    rw [← hmag]
    have h3 : (p.choose c : K) ≤ 2 ^ p := by
      have := Nat.choose_le_two_pow p c
      exact_mod_cast this
    have h4 : (0 : K) ≤ μ * F := by positivity
    have h5 : (0 : K) < 2 ^ p := by positivity
    nlinarith [mul_le_mul_of_nonneg_right h3 (mul_nonneg h5.le h4)]

/-! ### Values -/

theorem grow_le (n : ℕ) (hn : n ≤ 2 ^ 51) : (grow : K) ^ n - 1 ≤ n / 2 ^ 51 := by
  induction n with
  | zero => simp
  | succ n ih =>
    have h := ih (by omega)
    rw [grow_succ]
    have h1 : (n : K) / 2 ^ 51 ≤ 1 := by
      rw [div_le_one (by positivity)]
      have : ((n : ℕ) : K) ≤ ((2 ^ 51 : ℕ) : K) := Nat.cast_le.2 (by omega)
      rwa [Nat.cast_pow, Nat.cast_ofNat] at this
    have h2 : (grow : K) ^ n ≤ 2 := by linarith
    have h3 : (1 : K) / 2 ^ 52 * grow ^ n ≤ 1 / 2 ^ 52 * 2 := mul_le_mul_of_nonneg_left h2 (by positivity)
    push_cast
    rw [add_div]
    have h4 : (1 : K) / 2 ^ 52 * 2 = 1 / 2 ^ 51 := by norm_num
    linarith

/-- **C89**: values.  The value returned, with or without the Jacobian, differs from that of the B-spline curve by at most
`(14 (order - 1) + 8) 4 ^ (order - 1) 2 ^ -51` times the magnitude of the control vertices in use. -/
theorem C89_value (S : Summation R) (P : Power R) {s : BSpline K D} (h : s.WF) (hf : R.FloatKnots s) {t : K} (ht : R.IsFloat t)
    (h1 : s.kn (s.order - 1) ≤ t) (h2 : t < s.kn (s.knots.length - s.order))
    (hw : BSpline.snapTol ≤ s.kn (s.knots.length - s.order) - s.kn (s.knots.length - s.order - 1)) {i : ℕ} (hi : s.InSegment t i)
    (ho : s.order ≤ 2 ^ 40) (C : K) (hC : 1 / 2 ^ 1022 ≤ C)
    (hc : ∀ c, c < s.order → ∀ d, R.IsFloat (s.col (i + 1 - s.order + c) d) ∧ |s.col (i + 1 - s.order + c) d| ≤ C) :
    ∃ v1 v2 w, evalDNat S P (initializeBasisMatrices S s) t 0 = .ok v1 ∧
      evalDAndWeights S P (initializeBasisMatrices S s) t 0 = .ok (v2, w) ∧
      ∀ d, |v1 d - Spec.curve s.order s.kn (s.coeffs.map (fun c => c d)) t| ≤ (14 * (s.order - 1) + 8 : ℕ) * 4 ^ (s.order - 1) / 2 ^ 51 * C ∧
        |v2 d - Spec.curve s.order s.kn (s.coeffs.map (fun c => c d)) t| ≤ (14 * (s.order - 1) + 8 : ℕ) * 4 ^ (s.order - 1) / 2 ^ 51 * C := by
  have hone : (1 : K) / 2 ^ 1022 ≤ 1 := by
    rw [div_le_one (by positivity)]
    exact one_le_pow₀ (by norm_num)
  obtain ⟨v, v1, v2, w, e, e1, e2, b1, b2, -⟩ := C89_derivative S P h hf ht h1 h2.le hw hi 0 (by simpa using hone) (by simpa using hone) C hC
    (by simpa using hC) hc
  obtain ⟨ha, -⟩ := lookup_same h hf h1 h2.le hw hi
  have ev := C01_eval_eq_curve s h t _ ha (BSpline.tMax_eq h) h2
  have ev' : s.eval t = .ok v := e
  rw [ev'] at ev
  have ev2 := Outcome.ok.inj ev
  have hN : operations s.order ≤ 2 ^ 51 := by unfold operations; omega
  have g := grow_le (K := K) (operations s.order) hN
  have hCp : 0 ≤ C := by
    have : (0 : K) < 1 / 2 ^ 1022 := by positivity
    linarith
  have hm : magnitude s.order 0 (s.kn (i + 1) - s.kn i) C = 4 ^ (s.order - 1) * C := by
    unfold magnitude
    simp
  have key : (grow ^ operations s.order - 1) * magnitude s.order 0 (s.kn (i + 1) - s.kn i) C ≤
      (14 * (s.order - 1) + 8 : ℕ) * 4 ^ (s.order - 1) / 2 ^ 51 * C := by
    rw [hm]
    refine (mul_le_mul_of_nonneg_right g (by positivity)).trans (le_of_eq ?_)
    unfold operations
    ring
  refine ⟨v1, v2, w, e1, e2, fun d => ?_⟩
  rw [← congrFun ev2 d]
  exact ⟨(b1 d).trans key, (b2 d).trans key⟩

/-- **C89**: cubic splines (order four).  The value returned is that of the curve to within `10 ^ -12` of the magnitude of the four control
vertices in use. -/
theorem C89_cubic (S : Summation R) (P : Power R) {s : BSpline K D} (h : s.WF) (hf : R.FloatKnots s) (ho : s.order = 4) {t : K}
    (ht : R.IsFloat t) (h1 : s.kn 3 ≤ t) (h2 : t < s.kn (s.knots.length - 4))
    (hw : 1 / 10 ^ 10 ≤ s.kn (s.knots.length - 4) - s.kn (s.knots.length - 5)) {i : ℕ} (hi : s.InSegment t i) (C : K)
    (hC : 1 / 2 ^ 1022 ≤ C) (hc : ∀ c, c < 4 → ∀ d, R.IsFloat (s.col (i - 3 + c) d) ∧ |s.col (i - 3 + c) d| ≤ C) :
    ∃ v1 v2 w, evalDNat S P (initializeBasisMatrices S s) t 0 = .ok v1 ∧
      evalDAndWeights S P (initializeBasisMatrices S s) t 0 = .ok (v2, w) ∧
      ∀ d, |v1 d - Spec.curve 4 s.kn (s.coeffs.map (fun c => c d)) t| ≤ 1 / 10 ^ 12 * C ∧
        |v2 d - Spec.curve 4 s.kn (s.coeffs.map (fun c => c d)) t| ≤ 1 / 10 ^ 12 * C := by
  have hone : (1 : K) / 2 ^ 1022 ≤ 1 := by
    rw [div_le_one (by positivity)]
    exact one_le_pow₀ (by norm_num)
  have el : s.knots.length - 4 - 1 = s.knots.length - 5 := by omega
  have hi3 : i + 1 - 4 = i - 3 := by omega
  have h1' : s.kn (s.order - 1) ≤ t := by rw [ho]; exact h1
  have h2' : t < s.kn (s.knots.length - s.order) := by rw [ho]; exact h2
  have hw' : BSpline.snapTol ≤ s.kn (s.knots.length - s.order) - s.kn (s.knots.length - s.order - 1) := by
    rw [ho, el]; exact hw
  obtain ⟨v, v1, v2, w, e, e1, e2, b1, b2, -⟩ := C89_derivative S P h hf ht h1' h2'.le hw' hi 0 (by simpa using hone) (by simpa using hone)
    C hC (by simpa using hC) (by rw [ho, hi3]; exact hc)
  obtain ⟨ha, -⟩ := lookup_same h hf h1' h2'.le hw' hi
  have ev := C01_eval_eq_curve s h t _ ha (BSpline.tMax_eq h) h2'
  have ev' : s.eval t = .ok v := e
  rw [ev', ho] at ev
  have ev2 := Outcome.ok.inj ev
  have hCp : 0 ≤ C := by
    have : (0 : K) < 1 / 2 ^ 1022 := by positivity
    linarith
  have key : (grow ^ operations s.order - 1) * magnitude s.order 0 (s.kn (i + 1) - s.kn i) C ≤ 1 / 10 ^ 12 * C := by
    unfold magnitude operations
    rw [ho]
    have : ((grow : K) ^ 50 - 1) * 64 ≤ 1 / 10 ^ 12 := by unfold grow; norm_num
    have := mul_le_mul_of_nonneg_right this hCp
    simp only [Nat.descFactorial_zero, Nat.cast_one, mul_one, pow_zero, div_one]
    norm_num at this ⊢
    linarith
  refine ⟨v1, v2, w, e1, e2, fun d => ?_⟩
  rw [← congrFun ev2 d]
  exact ⟨(b1 d).trans key, (b2 d).trans key⟩

/-! ### Without rounding -/

theorem SumTree.exact_sum {s : Multiset K} {x : K} (h : SumTree (Rounding.exact (K := K)) s x) : x = s.sum := by
  induction h with
  | nil => simp
  | single a => simp
  | add _ _ ih1 ih2 =>
    rw [Multiset.sum_add, ← ih1, ← ih2]
    rfl

theorem exact_sum (S : Summation (Rounding.exact (K := K))) (l : List K) : S.sum l = l.sum := by
  rw [(S.tree l).exact_sum, Multiset.sum_coe]

theorem exact_basis (S : Summation (Rounding.exact (K := K))) (kn : ℕ → K) (i : ℕ) (k : ℕ) : basisM S kn i k = Verif.basisM kn i k := by
  induction k using Nat.strongRecOn with
  | ind k ih =>
    rcases k with _ | _ | k
    · rfl
    · rfl
    · funext r c
      show S.sum _ = _
      rw [exact_sum, List.sum_append, list_sum_range, list_sum_range, ih (k + 1) (by omega)]
      rfl

theorem exact_powers (u : K) (n : ℕ) : (Rounding.exact (K := K)).powers u n = u ^ n := by
  induction n with
  | zero => rw [pow_zero]; rfl
  | succ n ih =>
    rw [pow_succ, ← ih]
    rfl

/-- **C89**, consistency: without rounding the model is the model that the other claims are about. -/
theorem C89_exact (S : Summation (Rounding.exact (K := K))) (P : Power (Rounding.exact (K := K))) (s : BSpline K D) (t : K) (der : ℕ) :
    initializeBasisMatrices S s = s.initializeBasisMatrices ∧ evalDNat S P s t der = s.evalDNat t der ∧
      ∀ v w, evalDAndWeights S P s t der = .ok (v, w) → s.evalDNat t der = .ok v := by
  have hpow : ∀ x n, P.pow x n = x ^ n := by
    intro x n
    have := P.err x n rfl
    simp only [Rounding.exact, mul_zero, zero_mul, add_zero] at this
    exact sub_eq_zero.1 (abs_nonpos_iff.1 this)
  have hU : ∀ kn k u seg, computeU P kn k u seg der = Verif.computeU kn k u seg der := by
    intro kn k u seg
    funext r
    unfold Rounding.computeU Verif.computeU
    simp only [hpow, exact_powers]
    rfl
  have hT : (Rounding.exact (K := K)).computeUAndTIndex s t = s.computeUAndTIndex t := rfl
  have hS : ∀ u idx bidx (B : Mat K) d, S.sum ((List.range s.order).map fun r =>
      (Rounding.exact (K := K)).mul (blockMul S s bidx (fun c => B r c) d) (Verif.computeU s.kn s.order u idx der r)) =
      s.blockMul bidx (BSpline.transposeMul s.order B (Verif.computeU s.kn s.order u idx der)) d := by
    intro u idx bidx B d
    unfold BSpline.blockMul BSpline.transposeMul
    rw [← sum_both, exact_sum, list_sum_range]
    refine sum_congr rfl fun r _ => ?_
    unfold blockMul
    rw [exact_sum, list_sum_range]
    rfl
  refine ⟨?_, ?_, ?_⟩
  · unfold initializeBasisMatrices BSpline.initializeBasisMatrices
    simp only [exact_basis]
  · unfold evalDNat BSpline.evalDNat
    rw [hT]
    rcases s.computeUAndTIndex t with ⟨u, idx⟩ | _ | _
    · simp only [Outcome.bind_ok]
      rcases s.blockAt idx with ⟨bidx, B⟩ | _ | _
      · simp only [Outcome.bind_ok, hU, hS]
      · rfl
      · rfl
    · rfl
    · rfl
  · intro v w
    unfold evalDAndWeights BSpline.evalDNat
    rw [hT]
    rcases s.computeUAndTIndex t with ⟨u, idx⟩ | _ | _
    · simp only [Outcome.bind_ok]
      rcases s.blockAt idx with ⟨bidx, B⟩ | _ | _
      · simp only [Outcome.bind_ok, hU]
        intro hv
        have := (Prod.mk.inj (Outcome.ok.inj hv)).1
        rw [← this]
        congr 1
        funext d
        unfold blockMul BSpline.blockMul
        rw [exact_sum, list_sum_range]
        refine sum_congr rfl fun c _ => ?_
        unfold transposeMul BSpline.transposeMul
        rw [exact_sum, list_sum_range]
        rfl
      · intro hv; cases hv
      · intro hv; cases hv
    · intro hv; cases hv
    · intro hv; cases hv

end Rounding

open Rounding in
/-- A spline of order two that is constant: both control vertices are 3. -/
def constantThree : BSpline ℚ 1 := ⟨2, [-1, 0, 1, 2], [fun _ => 3, fun _ => 3], []⟩

open Rounding in
/-- The two queries multiply the same three factors in different orders, and with rounding this shows: asked for its value at one fifth, a
constant spline returns the constant; asked for value and Jacobian it returns the next `double`. -/
theorem C89_jacobian_differs :
    (evalDNat (Summation.fromLeft Rounding.ieee) (Power.rounded Rounding.ieee)
      (initializeBasisMatrices (Summation.fromLeft Rounding.ieee) constantThree) (double (1 / 5)) 0).map (fun v => v 0) = .ok 3 ∧
    (evalDAndWeights (Summation.fromLeft Rounding.ieee) (Power.rounded Rounding.ieee)
      (initializeBasisMatrices (Summation.fromLeft Rounding.ieee) constantThree) (double (1 / 5)) 0).map (fun v => v.1 0) =
        .ok (3 + 1 / 2 ^ 51) := by
  decide +kernel

/-- A cubic spline with one segment from 3 to 4. -/
def cubicDemo : BSpline ℚ 1 :=
  (⟨4, [0, 1, 2, 3, 4, 5, 6, 7], [fun _ => 1, fun _ => -2, fun _ => 3, fun _ => 5], []⟩ : BSpline ℚ 1).initializeBasisMatrices

theorem cubicDemo_wf : cubicDemo.WF :=
  BSpline.initializeBasisMatrices_wf _ (by decide) (by decide +kernel) (by decide) (by decide)

open Rounding in
/-- Not vacuous: the value of `cubicDemo` at the `double` next to 3.3. -/
example : ∃ v1 v2 w, evalDNat (Summation.pairwise Rounding.ieee) (Power.rounded Rounding.ieee)
      (initializeBasisMatrices (Summation.pairwise Rounding.ieee) cubicDemo) (double (33 / 10)) 0 = .ok v1 ∧
    evalDAndWeights (Summation.pairwise Rounding.ieee) (Power.rounded Rounding.ieee)
      (initializeBasisMatrices (Summation.pairwise Rounding.ieee) cubicDemo) (double (33 / 10)) 0 = .ok (v2, w) ∧
    ∀ d, |v1 d - Spec.curve 4 cubicDemo.kn (cubicDemo.coeffs.map (fun c => c d)) (double (33 / 10))| ≤ 1 / 10 ^ 12 * 5 ∧
      |v2 d - Spec.curve 4 cubicDemo.kn (cubicDemo.coeffs.map (fun c => c d)) (double (33 / 10))| ≤ 1 / 10 ^ 12 * 5 := by
  refine C89_cubic _ _ cubicDemo_wf ⟨by decide, by decide, by decide +kernel, ?_⟩ rfl (Rounding.ieee.idem _) (by decide +kernel)
    (by decide +kernel) (by decide +kernel) (i := 3) ⟨by decide, by decide, by decide +kernel, by decide +kernel, Or.inl (by decide +kernel)⟩
    5 (by decide +kernel) ?_
  · unfold Rounding.IsFloat
    decide +kernel
  · unfold Rounding.IsFloat
    decide +kernel

open Rounding in
/-- Not vacuous: the second derivative of `cubicDemo`. -/
example : ∃ v v1 v2 w, cubicDemo.evalD (double (33 / 10)) 2 = .ok v ∧
    evalDNat (Summation.fromLeft Rounding.ieee) (Power.rounded Rounding.ieee)
      (initializeBasisMatrices (Summation.fromLeft Rounding.ieee) cubicDemo) (double (33 / 10)) 2 = .ok v1 ∧
    evalDAndWeights (Summation.fromLeft Rounding.ieee) (Power.rounded Rounding.ieee)
      (initializeBasisMatrices (Summation.fromLeft Rounding.ieee) cubicDemo) (double (33 / 10)) 2 = .ok (v2, w) ∧
    (∀ d, |v1 d - v d| ≤ (grow ^ operations 4 - 1) * magnitude 4 2 (cubicDemo.kn 4 - cubicDemo.kn 3) 5) := by
  obtain ⟨v, v1, v2, w, a, b, c, d, -, -⟩ := C89_derivative (R := Rounding.ieee) (Summation.fromLeft _) (Power.rounded _) cubicDemo_wf
    ⟨by decide, by decide, by decide +kernel, by unfold Rounding.IsFloat; decide +kernel⟩ (t := double (33 / 10)) (Rounding.ieee.idem _)
    (by decide +kernel) (by decide +kernel) (by decide +kernel) (i := 3)
    ⟨by decide, by decide, by decide +kernel, by decide +kernel, Or.inl (by decide +kernel)⟩ 2 (by decide +kernel) (by decide +kernel)
    5 (by decide +kernel) (by decide +kernel) (by unfold Rounding.IsFloat; decide +kernel)
  exact ⟨v, v1, v2, w, a, b, c, d⟩

/-- Not vacuous: the knots around the segment `[3, 4)` of `cubicDemo`. -/
example : Rounding.GoodKnots Rounding.ieee cubicDemo.kn 3 4 :=
  Rounding.goodKnots (s := cubicDemo) (t := 3)
    ⟨by decide, by decide, by decide +kernel, by unfold Rounding.IsFloat; decide +kernel⟩
    ⟨by decide, by decide, by decide +kernel, by decide +kernel, Or.inl (by decide +kernel)⟩

end Verif
