import Verif.Model.Rounding
import Mathlib.Tactic.Linarith
import Mathlib.Tactic.Ring
import Mathlib.Tactic.NormNum
import Mathlib.Tactic.FieldSimp
import Mathlib.Data.Rat.Floor

/-!
# Rounding to doubles meets the assumptions on rounding
-/

set_option linter.unusedSectionVars false

namespace Verif

variable {K : Type*} [Field K] [LinearOrder K] [IsStrictOrderedRing K] [FloorRing K]

theorem roundEven_intCast (m : ℤ) : roundEven (m : K) = m := by
  unfold roundEven
  simp

theorem floor_le_roundEven (y : K) : ⌊y⌋ ≤ roundEven y := by
  unfold roundEven
  split_ifs <;> omega

theorem roundEven_le_floor (y : K) : roundEven y ≤ ⌊y⌋ + 1 := by
  unfold roundEven
  split_ifs <;> omega

theorem abs_roundEven_sub (y : K) : |(roundEven y : K) - y| ≤ 1 / 2 := by
  have h0 := Int.floor_le y
  have h1 := Int.lt_floor_add_one y
  unfold roundEven
  rw [abs_le]
  split_ifs <;> push_cast <;> constructor <;> linarith

theorem roundEven_mono {x y : K} (h : x ≤ y) : roundEven x ≤ roundEven y := by
  have hf := Int.floor_mono h
  rcases lt_or_eq_of_le hf with hlt | heq
  · have h1 := roundEven_le_floor x
    have h2 := floor_le_roundEven y
    omega
  · unfold roundEven
    rw [heq]
    split_ifs <;> first | omega | (exfalso; linarith)

theorem roundEven_neg (y : K) : roundEven (-y) = -roundEven y := by
  by_cases hy : (⌊y⌋ : K) = y
  · rw [← hy, ← Int.cast_neg, roundEven_intCast, roundEven_intCast]
  · have h0 := Int.floor_le y
    have h1 := Int.lt_floor_add_one y
    have h0' : (⌊y⌋ : K) < y := lt_of_le_of_ne h0 hy
    have hf : ⌊-y⌋ = -⌊y⌋ - 1 := by
      rw [Int.floor_eq_iff]
      push_cast
      constructor <;> linarith
    unfold roundEven
    rw [hf]
    push_cast
    split_ifs <;> first | omega | (exfalso; linarith)

theorem gridExp_neg (x : K) : gridExp (-x) = gridExp x := by
  unfold gridExp
  rw [abs_neg]

theorem neg1074_le_gridExp (x : K) : -1074 ≤ gridExp x := le_max_right _ _

theorem two_zpow_pos (e : ℤ) : (0 : K) < 2 ^ e := zpow_pos (by norm_num) e

theorem abs_lt_gridExp (x : K) : |x| < 2 ^ (gridExp x + 53) := by
  have h := Int.lt_zpow_succ_log_self (b := 2) (by norm_num) |x|
  push_cast at h
  refine lt_of_lt_of_le h (zpow_le_zpow_right₀ (by norm_num) ?_)
  have : Int.log 2 |x| - 52 ≤ gridExp x := le_max_left _ _
  omega

theorem gridExp_cases (x : K) (hx : x ≠ 0) : gridExp x = -1074 ∨ (2 : K) ^ (gridExp x + 52) ≤ |x| := by
  rcases le_total (Int.log 2 |x| - 52) (-1074) with h | h
  · left
    exact max_eq_right h
  · right
    have e : gridExp x = Int.log 2 |x| - 52 := max_eq_left h
    have h2 := Int.zpow_log_le_self (b := 2) (by norm_num) (abs_pos.mpr hx)
    push_cast at h2
    rw [e, sub_add_cancel]
    exact h2

theorem gridExp_mono {x y : K} (h0 : 0 < x) (h : x ≤ y) : gridExp x ≤ gridExp y := by
  unfold gridExp
  rw [abs_of_pos h0, abs_of_pos (lt_of_lt_of_le h0 h)]
  have := Int.log_mono_right (b := 2) h0 h
  omega

theorem double_neg (x : K) : double (-x) = -double x := by
  unfold double
  rw [gridExp_neg, neg_div, roundEven_neg]
  push_cast
  ring

theorem double_zero : double (0 : K) = 0 := by
  unfold double
  rw [zero_div, ← Int.cast_zero, roundEven_intCast]
  simp

/-- A number that is an integer multiple of its own grid is a double. -/
theorem double_of_multiple (z : K) (j : ℤ) (h : z = j * 2 ^ gridExp z) : double z = z := by
  have hp := two_zpow_pos (K := K) (gridExp z)
  have : z / 2 ^ gridExp z = (j : K) := by
    rw [div_eq_iff hp.ne']
    exact h
  unfold double
  rw [this, roundEven_intCast]
  exact h.symm

/-- An integer of at most 53 bits times a power of two that is not too small is a double. -/
theorem double_exact (m e : ℤ) (he : -1074 ≤ e) (hm : |m| ≤ 2 ^ 53) : double ((m : K) * 2 ^ e) = m * 2 ^ e := by
  by_cases h0 : m = 0
  · subst h0
    simp [double_zero]
  have hz : ((m : K) * 2 ^ e) ≠ 0 := mul_ne_zero (by exact_mod_cast h0) (two_zpow_pos e).ne'
  set z : K := (m : K) * 2 ^ e with hzd
  have two0 : (2 : K) ≠ 0 := by norm_num
  by_cases hg : gridExp z ≤ e
  · obtain ⟨n, hn⟩ := Int.eq_ofNat_of_zero_le (sub_nonneg.mpr hg)
    refine double_of_multiple z (m * 2 ^ n) ?_
    have : e = n + gridExp z := by omega
    conv_lhs => rw [hzd, this, zpow_add₀ two0, zpow_natCast]
    push_cast
    ring
  · have hg' : e < gridExp z := not_le.mp hg
    rcases gridExp_cases z hz with h1 | h1
    · omega
    · have hmK : |(m : K)| ≤ 2 ^ (53 : ℤ) := by
        have h3 : ((|m| : ℤ) : K) ≤ ((2 ^ 53 : ℤ) : K) := Int.cast_le.mpr hm
        rw [Int.cast_abs] at h3
        exact h3.trans (le_of_eq (by norm_num))
      have habs : |z| = |(m : K)| * 2 ^ e := by rw [hzd, abs_mul, abs_of_pos (two_zpow_pos (K := K) e)]
      have hle : (2 : K) ^ (gridExp z + 52) ≤ 2 ^ (53 + e) := by
        rw [zpow_add₀ two0 53 e]
        calc _ ≤ |z| := h1
          _ = |(m : K)| * 2 ^ e := habs
          _ ≤ _ := mul_le_mul_of_nonneg_right hmK (two_zpow_pos (K := K) e).le
      have hle' : gridExp z + 52 ≤ 53 + e := (zpow_le_zpow_iff_right₀ (by norm_num : (1 : K) < 2)).mp hle
      have hge : gridExp z = e + 1 := by omega
      have hm2 : (2 : K) ^ (53 : ℤ) ≤ |(m : K)| := by
        have h2 : (2 : K) ^ (53 : ℤ) * 2 ^ e ≤ |(m : K)| * 2 ^ e := by
          rw [← zpow_add₀ two0, ← habs]
          calc (2 : K) ^ (53 + e) = 2 ^ (gridExp z + 52) := by rw [hge]; congr 1; omega
            _ ≤ _ := h1
        exact le_of_mul_le_mul_right h2 (two_zpow_pos e)
      have hm3 : (2 : ℤ) ^ 53 ≤ |m| := by
        have h3 : ((2 ^ 53 : ℤ) : K) ≤ ((|m| : ℤ) : K) := by
          rw [Int.cast_abs]
          exact (le_of_eq (by norm_num)).trans hm2
        exact Int.cast_le.mp h3
      have hm4 : |m| = 2 ^ 53 := le_antisymm hm hm3
      rcases (abs_eq (by norm_num)).mp hm4 with h5 | h5
      · refine double_of_multiple z (2 ^ 52) ?_
        rw [hge, hzd, h5, zpow_add₀ two0]
        push_cast
        ring
      · refine double_of_multiple z (-2 ^ 52) ?_
        rw [hge, hzd, h5, zpow_add₀ two0]
        push_cast
        ring

/-- Every double is an integer of at most 53 bits times a power of two. -/
theorem double_form (x : K) : |roundEven (x / 2 ^ gridExp x)| ≤ 2 ^ 53 := by
  have hp := two_zpow_pos (K := K) (gridExp x)
  have h := abs_lt_gridExp x
  rw [add_comm, zpow_add₀ (by norm_num : (2 : K) ≠ 0)] at h
  have h2 : |x / 2 ^ gridExp x| < 2 ^ (53 : ℤ) := by
    rw [abs_div, abs_of_pos hp, div_lt_iff₀ hp]
    exact h
  rw [abs_lt] at h2
  have e : ((2 ^ 53 : ℤ) : K) = 2 ^ (53 : ℤ) := by push_cast; exact_mod_cast rfl
  have e' : ((-2 ^ 53 : ℤ) : K) = -2 ^ (53 : ℤ) := by push_cast; exact_mod_cast rfl
  rw [abs_le]
  constructor
  · rw [← roundEven_intCast (K := K) (-2 ^ 53), e']
    exact roundEven_mono h2.1.le
  · rw [← roundEven_intCast (K := K) (2 ^ 53), e]
    exact roundEven_mono h2.2.le

theorem double_idem (x : K) : double (double x) = double x :=
  double_exact _ _ (neg1074_le_gridExp x) (double_form x)

theorem double_int (m : ℤ) (hm : |m| ≤ 2 ^ 53) : double (m : K) = m := by
  have := double_exact (K := K) m 0 (by norm_num) hm
  simpa using this

theorem double_zpow (e : ℤ) (he : -1074 ≤ e) : double ((2 : K) ^ e) = 2 ^ e := by
  have := double_exact (K := K) 1 e he (by norm_num)
  simpa using this

/-- Doubles are integer multiples of the smallest one. -/
theorem double_multiple {x : K} (h : double x = x) : ∃ m : ℤ, x = m * 2 ^ (-1074 : ℤ) := by
  obtain ⟨n, hn⟩ := Int.eq_ofNat_of_zero_le (sub_nonneg.mpr (neg1074_le_gridExp x))
  refine ⟨roundEven (x / 2 ^ gridExp x) * 2 ^ n, ?_⟩
  have e : gridExp x = n + -1074 := by omega
  have e2 : (2 : K) ^ gridExp x = 2 ^ n * 2 ^ (-1074 : ℤ) := by
    rw [e, zpow_add₀ (by norm_num : (2 : K) ≠ 0), zpow_natCast]
  conv_lhs => rw [← h, double]
  push_cast
  rw [mul_assoc, ← e2]

theorem abs_double_sub (x : K) : |double x - x| ≤ 1 / 2 * 2 ^ gridExp x := by
  have hp := two_zpow_pos (K := K) (gridExp x)
  have e : double x - x = ((roundEven (x / 2 ^ gridExp x) : K) - x / 2 ^ gridExp x) * 2 ^ gridExp x := by
    unfold double
    rw [sub_mul, div_mul_cancel₀ _ hp.ne']
  rw [e, abs_mul, abs_of_pos hp]
  exact mul_le_mul_of_nonneg_right (abs_roundEven_sub _) hp.le

theorem double_rel {x : K} (h : (2 : K) ^ (gridExp x + 52) ≤ |x|) : |double x - x| ≤ 1 / 2 ^ 53 * |x| := by
  refine (abs_double_sub x).trans ?_
  rw [zpow_add₀ (by norm_num : (2 : K) ≠ 0)] at h
  have e : (2 : K) ^ (52 : ℤ) = 2 ^ 52 := by exact_mod_cast rfl
  rw [e] at h
  have : (1 : K) / 2 * 2 ^ gridExp x = 1 / 2 ^ 53 * (2 ^ gridExp x * 2 ^ 52) := by
    field_simp
  rw [this]
  gcongr

theorem double_err (x : K) : |double x - x| ≤ 1 / 2 ^ 53 * |x| + 1 / 2 ^ 1075 := by
  by_cases hx : x = 0
  · subst hx
    rw [double_zero]
    simp
  have t0 : (0 : K) ≤ 1 / 2 ^ 1075 := by positivity
  rcases gridExp_cases x hx with h | h
  · have h2 := abs_double_sub x
    rw [h] at h2
    have e : (1 : K) / 2 * 2 ^ (-1074 : ℤ) = 1 / 2 ^ 1075 := by
      rw [show (-1074 : ℤ) = -((1074 : ℕ) : ℤ) by norm_num, zpow_neg, zpow_natCast, pow_succ (2 : K) 1074]
      field_simp
    rw [e] at h2
    have : (0 : K) ≤ 1 / 2 ^ 53 * |x| := by positivity
    linarith
  · have := double_rel h
    linarith

theorem double_err_multiple {x : K} (m : ℤ) (h : x = m * 2 ^ (-1074 : ℤ)) : |double x - x| ≤ 1 / 2 ^ 53 * |x| := by
  by_cases hx : x = 0
  · subst hx
    rw [double_zero]
    simp
  rcases gridExp_cases x hx with h1 | h1
  · rw [double_of_multiple x m (by rw [h1]; exact h), sub_self, abs_zero]
    positivity
  · exact double_rel h1

theorem double_mono_pos {x y : K} (h0 : 0 < x) (h : x ≤ y) : double x ≤ double y := by
  have hy0 := lt_of_lt_of_le h0 h
  rcases lt_or_eq_of_le (gridExp_mono h0 h) with hlt | heq
  · rcases gridExp_cases y hy0.ne' with h1 | h1
    · have := neg1074_le_gridExp x
      omega
    · rw [abs_of_pos hy0] at h1
      have hx1 : x ≤ 2 ^ (gridExp y + 52) := by
        have h2 := abs_lt_gridExp x
        rw [abs_of_pos h0] at h2
        exact h2.le.trans (zpow_le_zpow_right₀ (by norm_num) (by omega))
      have two0 : (2 : K) ≠ 0 := by norm_num
      have lower : (2 : K) ^ (gridExp y + 52) ≤ double y := by
        have hp := two_zpow_pos (K := K) (gridExp y)
        have : (2 ^ 52 : ℤ) ≤ roundEven (y / 2 ^ gridExp y) := by
          rw [← roundEven_intCast (K := K) (2 ^ 52)]
          apply roundEven_mono
          rw [le_div_iff₀ hp]
          rw [zpow_add₀ two0] at h1
          have e4 : ((2 ^ 52 : ℤ) : K) = 2 ^ (52 : ℤ) := by norm_num
          rw [e4, mul_comm]
          exact h1
        unfold double
        rw [zpow_add₀ two0, mul_comm]
        apply mul_le_mul_of_nonneg_right _ hp.le
        have h3 : ((2 ^ 52 : ℤ) : K) ≤ ((roundEven (y / 2 ^ gridExp y) : ℤ) : K) := by exact_mod_cast this
        calc (2 : K) ^ (52 : ℤ) = ((2 ^ 52 : ℤ) : K) := by push_cast; norm_cast
          _ ≤ _ := h3
      have upper : double x ≤ 2 ^ (gridExp y + 52) := by
        have hp := two_zpow_pos (K := K) (gridExp x)
        obtain ⟨n, hn⟩ := Int.eq_ofNat_of_zero_le (show 0 ≤ gridExp y + 52 - gridExp x by omega)
        have e : gridExp y + 52 = n + gridExp x := by omega
        have : roundEven (x / 2 ^ gridExp x) ≤ (2 ^ n : ℤ) := by
          rw [← roundEven_intCast (K := K) (2 ^ n)]
          apply roundEven_mono
          rw [div_le_iff₀ hp]
          rw [e, zpow_add₀ two0, zpow_natCast] at hx1
          push_cast
          exact hx1
        unfold double
        rw [e, zpow_add₀ two0, zpow_natCast]
        apply mul_le_mul_of_nonneg_right _ hp.le
        exact_mod_cast this
      exact upper.trans lower
  · unfold double
    rw [heq]
    have hp := two_zpow_pos (K := K) (gridExp y)
    apply mul_le_mul_of_nonneg_right _ hp.le
    exact_mod_cast roundEven_mono (div_le_div_of_nonneg_right h hp.le)

theorem double_nonneg {x : K} (h : 0 ≤ x) : 0 ≤ double x := by
  unfold double
  apply mul_nonneg _ (two_zpow_pos (K := K) _).le
  have : (0 : ℤ) ≤ roundEven (x / 2 ^ gridExp x) := by
    have h1 := roundEven_mono (div_nonneg h (two_zpow_pos (K := K) (gridExp x)).le)
    rwa [show roundEven (0 : K) = 0 by simpa using roundEven_intCast (K := K) 0] at h1
  exact_mod_cast this

theorem double_mono : Monotone (double : K → K) := by
  intro x y h
  rcases lt_or_ge 0 x with h0 | h0
  · exact double_mono_pos h0 h
  · rcases lt_or_ge y 0 with h1 | h1
    · have := double_mono_pos (neg_pos.mpr h1) (neg_le_neg h)
      rw [double_neg, double_neg] at this
      linarith
    · have h2 := double_nonneg h1
      have h3 := double_nonneg (neg_nonneg.mpr h0)
      rw [double_neg] at h3
      linarith

/-- IEEE 754 double precision, without overflow. -/
def Rounding.ieee : Rounding K where
  rnd := double
  eps := 1 / 2 ^ 53
  tiny := 1 / 2 ^ 1075
  mono := double_mono
  idem := double_idem
  neg := double_neg
  int := double_int
  eps_nonneg := by positivity
  eps_le := le_rfl
  tiny_nonneg := by positivity
  tiny_le := le_rfl
  err := double_err
  err_add x y hx hy := by
    obtain ⟨a, ha⟩ := double_multiple hx
    obtain ⟨b, hb⟩ := double_multiple hy
    refine double_err_multiple (a + b) ?_
    conv_lhs => rw [ha, hb]
    push_cast
    ring
  err_mul x hx m := by
    obtain ⟨a, ha⟩ := double_multiple hx
    refine double_err_multiple (a * m) ?_
    conv_lhs => rw [ha]
    push_cast
    ring

/-- The doubles `0.1`, `0.3` and `0.7`, and a tie. -/
example : double (1 / 10 : ℚ) = 3602879701896397 / 2 ^ 55 ∧ double (3 / 10 : ℚ) = 5404319552844595 / 2 ^ 54 ∧
    double (7 / 10 : ℚ) = 6305039478318694 / 2 ^ 53 ∧ double (2 ^ 53 + 1 : ℚ) = 2 ^ 53 ∧ double (2 ^ 53 + 3 : ℚ) = 2 ^ 53 + 4 := by
  decide +kernel

end Verif
