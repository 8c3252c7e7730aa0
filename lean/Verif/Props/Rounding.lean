import Verif.Lemmas.IeeeDouble
import Verif.Lemmas.Eval
import Mathlib.Tactic.IntervalCases

/-!
# Property C84: knots and time lookup of `BSpline` in floating point
-/

set_option linter.unusedSectionVars false

namespace Verif

namespace Rounding

variable {K : Type*} [Field K] [LinearOrder K] [IsStrictOrderedRing K] (R : Rounding K) {D : ℕ}

/-! ### Facts about rounding -/

theorem rnd_zero : R.rnd 0 = 0 := by simpa using R.int 0 (by norm_num)

theorem rnd_one : R.rnd 1 = 1 := by simpa using R.int 1 (by norm_num)

theorem rnd_nonneg {x : K} (h : 0 ≤ x) : 0 ≤ R.rnd x := by
  have := R.mono h
  rwa [R.rnd_zero] at this

theorem rnd_nonpos {x : K} (h : x ≤ 0) : R.rnd x ≤ 0 := by
  have := R.mono h
  rwa [R.rnd_zero] at this

theorem isFloat_rnd (x : K) : R.IsFloat (R.rnd x) := R.idem x

theorem isFloat_neg {x : K} (h : R.IsFloat x) : R.IsFloat (-x) := by
  unfold IsFloat at h ⊢
  rw [R.neg, h]

theorem eps_lt_one : R.eps < 1 := lt_of_le_of_lt R.eps_le (by norm_num)

/-- Differences of floating point numbers have a relative error only. -/
theorem err_sub {x y : K} (hx : R.IsFloat x) (hy : R.IsFloat y) : |R.sub x y - (x - y)| ≤ R.eps * |x - y| := by
  have := R.err_add x (-y) hx (R.isFloat_neg hy)
  rwa [← sub_eq_add_neg] at this

/-- The difference of different floating point numbers is not rounded to zero. -/
theorem sub_pos' {x y : K} (hx : R.IsFloat x) (hy : R.IsFloat y) (h : x < y) : 0 < R.sub y x := by
  have h1 := R.err_sub hy hx
  have h2 : 0 < y - x := _root_.sub_pos.mpr h
  rw [abs_of_pos h2, abs_le] at h1
  have h3 := R.eps_lt_one
  nlinarith

theorem sub_self' (x : K) : R.sub x x = 0 := by
  unfold sub
  rw [sub_self, R.rnd_zero]

theorem sub_nonneg' {x y : K} (h : x ≤ y) : 0 ≤ R.sub y x := R.rnd_nonneg (_root_.sub_nonneg.mpr h)

/-- The tolerance of the lookup is positive. -/
theorem tol_pos : 0 < R.rnd (BSpline.snapTol : K) := by
  have h := R.err BSpline.snapTol
  have e : (BSpline.snapTol : K) = 1 / 10 ^ 10 := rfl
  have h0 : (0 : K) < BSpline.snapTol := by rw [e]; positivity
  rw [abs_of_pos h0, abs_le] at h
  have h1 : R.eps * BSpline.snapTol ≤ 1 / 2 ^ 53 * BSpline.snapTol := mul_le_mul_of_nonneg_right R.eps_le h0.le
  have h2 : R.tiny ≤ 1 / 2 ^ 53 := R.tiny_le.trans (one_div_le_one_div_of_le (by positivity) (pow_le_pow_right₀ (by norm_num) (by norm_num)))
  have h3 : (BSpline.snapTol : K) - 1 / 2 ^ 53 * BSpline.snapTol - 1 / 2 ^ 53 > 0 := by rw [e]; norm_num
  linarith [h.1]

/-! ### The lookup -/

/-- A spline with enough nondecreasing knots that are floating point numbers. -/
structure FloatKnots (s : BSpline K D) : Prop where
  order_pos : 1 ≤ s.order
  enough : 2 * s.order ≤ s.knots.length
  sorted : s.knots.Pairwise (· ≤ ·)
  float : ∀ x ∈ s.knots, R.IsFloat x

variable {R}

theorem FloatKnots.kn_float {s : BSpline K D} (h : R.FloatKnots s) {i : ℕ} (hi : i < s.knots.length) : R.IsFloat (s.kn i) := by
  rw [BSpline.kn_eq _ _ hi]
  exact h.float _ (List.getElem_mem _)

theorem FloatKnots.tMin {s : BSpline K D} (h : R.FloatKnots s) : s.tMin = .ok (s.kn (s.order - 1)) := by
  unfold BSpline.tMin BSpline.minimumKnotsRequired BSpline.numKnotsRequired BSpline.numCoefficientsRequired
  have := h.enough
  rw [if_neg (by omega)]

theorem FloatKnots.tMax {s : BSpline K D} (h : R.FloatKnots s) : s.tMax = .ok (s.kn (s.knots.length - s.order)) := by
  unfold BSpline.tMax BSpline.minimumKnotsRequired BSpline.numKnotsRequired BSpline.numCoefficientsRequired
  have := h.enough
  rw [if_neg (by omega)]

theorem FloatKnots.mono {s : BSpline K D} (h : R.FloatKnots s) {a b : ℕ} (hab : a ≤ b) (hb : b < s.knots.length) : s.kn a ≤ s.kn b := by
  rcases hab.eq_or_lt with rfl | hlt
  · exact le_rfl
  rw [BSpline.kn_eq _ _ hb, BSpline.kn_eq _ _ (by omega)]
  exact List.pairwise_iff_getElem.1 h.sorted a b (by omega) hb hlt

/-- **C84.** What the lookup returns, for every rounding.  A time from the first to the last valid time, or so little after the last one that
it is moved there, is accepted; the index returned is that of a segment of the valid interval that contains the time, or that of the last
segment if the time is (or is moved to) the end. -/
theorem C84_lookup {s : BSpline K D} (h : R.FloatKnots s) (t : K) (h1 : s.kn (s.order - 1) ≤ t)
    (h2 : t ≤ s.kn (s.knots.length - s.order) ∨ |R.sub (s.kn (s.knots.length - s.order)) t| < R.rnd BSpline.snapTol) :
    ∃ i, R.computeTIndex s t = .ok (R.sub (s.kn (i + 1)) (s.kn i), i) ∧ s.order - 1 ≤ i ∧ i + 1 ≤ s.knots.length - s.order ∧
      ((s.kn i ≤ t ∧ t < s.kn (i + 1)) ∨
        (i + 1 = s.knots.length - s.order ∧ |R.sub (s.kn (s.knots.length - s.order)) t| < R.rnd BSpline.snapTol)) := by
  have hk := h.order_pos
  have hn := h.enough
  unfold computeTIndex
  rw [h.tMin, h.tMax]
  simp only [Outcome.bind_ok]
  rw [if_neg (not_lt.2 h1)]
  set tmax := s.kn (s.knots.length - s.order) with htm
  by_cases hs : |R.sub tmax t| < R.rnd BSpline.snapTol
  · refine ⟨s.knots.length - s.order - 1, ?_, by omega, by omega, Or.inr ⟨by omega, hs⟩⟩
    simp only [hs, if_true]
    rw [if_neg (lt_irrefl _), if_neg (by omega)]
    rw [List.getElem?_eq_getElem (show s.knots.length - s.order < s.knots.length by omega),
      List.getElem?_eq_getElem (show s.knots.length - s.order - 1 < s.knots.length by omega)]
    dsimp only
    rw [← BSpline.kn_eq, ← BSpline.kn_eq, show s.knots.length - s.order - 1 + 1 = s.knots.length - s.order by omega]
  · have hlt : t < tmax := by
      rcases h2 with h2 | h2
      · refine lt_of_le_of_ne h2 ?_
        rintro rfl
        exact hs (by rw [R.sub_self', abs_zero]; exact R.tol_pos)
      · exact absurd h2 hs
    simp only [hs, if_false]
    rw [if_neg (not_lt.2 hlt.le), if_neg hlt.ne]
    set i := BSpline.upperBound s.knots t with hi
    have hi1 : s.order - 1 < i := (BSpline.upperBound_spec s.knots h.sorted t _ (by omega)).mpr
      (by rw [← BSpline.kn_eq]; exact h1)
    have hi2 : i ≤ s.knots.length - s.order := by
      by_contra hcon
      have := (BSpline.upperBound_spec s.knots h.sorted t (s.knots.length - s.order) (by omega)).mp (by omega)
      rw [← BSpline.kn_eq] at this
      exact absurd hlt (not_lt.2 this)
    have hi3 : s.kn (i - 1) ≤ t := by
      have := (BSpline.upperBound_spec s.knots h.sorted t (i - 1) (by omega)).mp (by omega)
      rwa [← BSpline.kn_eq] at this
    have hi4 : t < s.kn i := by
      by_contra hcon
      have := (BSpline.upperBound_spec s.knots h.sorted t i (by omega)).mpr (by rw [← BSpline.kn_eq]; exact not_lt.1 hcon)
      omega
    refine ⟨i - 1, ?_, by omega, by omega, Or.inl ⟨hi3, ?_⟩⟩
    · rw [if_neg (by omega), List.getElem?_eq_getElem (show i < s.knots.length by omega),
        List.getElem?_eq_getElem (show i - 1 < s.knots.length by omega)]
      dsimp only
      rw [← BSpline.kn_eq, ← BSpline.kn_eq, show i - 1 + 1 = i by omega]
    · rw [show i - 1 + 1 = i by omega]
      exact hi4

/-- **C84.** The relative position computed for a time that lies in the segment found is between zero and one, for every rounding: no
cancellation makes it negative or greater than one, and the segment does not have width zero. -/
theorem C84_position {s : BSpline K D} (h : R.FloatKnots s) (t : K) (h1 : s.kn (s.order - 1) ≤ t)
    (h2 : t ≤ s.kn (s.knots.length - s.order))
    (h3 : |R.sub (s.kn (s.knots.length - s.order)) t| < R.rnd BSpline.snapTol → s.kn (s.knots.length - s.order - 1) ≤ t) :
    ∃ u i, R.computeUAndTIndex s t = .ok (u, i) ∧ s.order - 1 ≤ i ∧ i + 1 ≤ s.knots.length - s.order ∧
      s.kn i ≤ t ∧ t ≤ s.kn (i + 1) ∧ 0 ≤ u ∧ u ≤ 1 ∧ (t = s.kn i → u = 0) := by
  have hk := h.order_pos
  have hn := h.enough
  obtain ⟨i, e, a, b, c⟩ := C84_lookup h t h1 (Or.inl h2)
  have hl : s.kn i ≤ t := by
    rcases c with c | ⟨c1, c2⟩
    · exact c.1
    · have := h3 c2
      rwa [show s.knots.length - s.order - 1 = i by omega] at this
  have hr : t ≤ s.kn (i + 1) := by
    rcases c with c | ⟨c1, c2⟩
    · exact c.2.le
    · rw [c1]; exact h2
  have f0 := h.kn_float (show i < s.knots.length by omega)
  have f1 := h.kn_float (show i + 1 < s.knots.length by omega)
  unfold computeUAndTIndex
  rw [e]
  simp only [Outcome.bind_ok]
  by_cases hw : R.sub (s.kn (i + 1)) (s.kn i) ≤ 0
  · rw [if_pos hw]
    exact ⟨0, i, rfl, a, b, hl, hr, le_rfl, zero_le_one, fun _ => rfl⟩
  · rw [if_neg hw]
    have hp := not_le.1 hw
    refine ⟨_, i, rfl, a, b, hl, hr, ?_, ?_, ?_⟩
    · exact R.rnd_nonneg (div_nonneg (R.sub_nonneg' hl) hp.le)
    · have : R.sub t (s.kn i) ≤ R.sub (s.kn (i + 1)) (s.kn i) := R.mono (by linarith)
      have h4 := R.mono ((div_le_one hp).mpr this)
      rwa [R.rnd_one] at h4
    · intro ht
      unfold div
      rw [ht, R.sub_self', zero_div, R.rnd_zero]

/-- **C84.** Times before the first valid time and times after the last one that are not moved there are rejected. -/
theorem C84_rejects {s : BSpline K D} (h : R.FloatKnots s) (t : K)
    (ht : t < s.kn (s.order - 1) ∨ (s.kn (s.knots.length - s.order) < t ∧
      R.rnd BSpline.snapTol ≤ |R.sub (s.kn (s.knots.length - s.order)) t|)) :
    R.computeUAndTIndex s t = .throws := by
  have : R.computeTIndex s t = .throws := by
    unfold computeTIndex
    rw [h.tMin, h.tMax]
    simp only [Outcome.bind_ok]
    by_cases h1 : t < s.kn (s.order - 1)
    · rw [if_pos h1]
    · rw [if_neg h1]
      rcases ht with ht | ⟨h2, h3⟩
      · exact absurd ht h1
      · simp only [not_lt.2 h3, if_false]
        rw [if_pos h2]
  unfold computeUAndTIndex
  rw [this]
  rfl

/-! ### The knots -/

variable (R)

/-- **C84.** The uniform knots of the fits are nondecreasing floating point numbers for every rounding and every step that is not negative; the
first valid time is exactly the first time given. -/
theorem C84_knots (order nK : ℕ) (t0 dt : K) (h0 : R.IsFloat t0) (hdt : 0 ≤ dt) :
    (R.uniformKnots order nK t0 dt).length = nK ∧ (R.uniformKnots order nK t0 dt).Pairwise (· ≤ ·) ∧
      (∀ x ∈ R.uniformKnots order nK t0 dt, R.IsFloat x) ∧
      (1 ≤ order → order - 1 < nK → (R.uniformKnots order nK t0 dt)[order - 1]? = some t0) := by
  refine ⟨by simp [uniformKnots], ?_, ?_, ?_⟩
  · unfold uniformKnots
    rw [List.pairwise_map]
    refine List.Pairwise.imp ?_ List.pairwise_lt_range
    intro i j hij
    apply R.mono
    have : R.mul dt (((i : ℤ) - order + 1 : ℤ) : K) ≤ R.mul dt (((j : ℤ) - order + 1 : ℤ) : K) := by
      apply R.mono
      apply mul_le_mul_of_nonneg_left _ hdt
      exact_mod_cast (by omega : (i : ℤ) - order + 1 ≤ (j : ℤ) - order + 1)
    linarith
  · intro x hx
    unfold uniformKnots at hx
    obtain ⟨i, -, rfl⟩ := List.mem_map.mp hx
    exact R.isFloat_rnd _
  · intro h1 h2
    unfold uniformKnots
    rw [List.getElem?_map, List.getElem?_range h2]
    simp only [Option.map_some, Option.some.injEq]
    have : ((order - 1 : ℕ) : ℤ) - order + 1 = 0 := by omega
    rw [this]
    unfold add mul
    rw [Int.cast_zero, mul_zero, R.rnd_zero, add_zero]
    exact h0

theorem knotDistance_nonneg {first last : K} (h : first ≤ last) (n : ℕ) : 0 ≤ R.knotDistance first last n :=
  R.rnd_nonneg (div_nonneg (R.sub_nonneg' h) (Nat.cast_nonneg n))

theorem fitKnots_length (order : ℕ) (first last : K) (n : ℕ) : (R.fitKnots order first last n).length = n + order - 1 + order := by
  simp [fitKnots, uniformKnots, BSpline.numKnotsRequired, BSpline.numCoefficientsRequired]

/-- A spline with the knots of a fit has the properties the lookup needs. -/
theorem fitKnots_float {s : BSpline K D} (ho : 1 ≤ s.order) (first last : K) (h0 : R.IsFloat first) (hle : first ≤ last) (n : ℕ) (hn : 1 ≤ n)
    (hs : s.knots = R.fitKnots s.order first last n) : R.FloatKnots s := by
  obtain ⟨a, b, c, -⟩ := R.C84_knots s.order (BSpline.numKnotsRequired s.order n) first (R.knotDistance first last n) h0
    (R.knotDistance_nonneg hle n)
  refine ⟨ho, ?_, ?_, ?_⟩
  · rw [hs, R.fitKnots_length]
    omega
  · rw [hs]; exact b
  · rw [hs]; exact c

theorem fitKnots_min {s : BSpline K D} (ho : 1 ≤ s.order) (first last : K) (h0 : R.IsFloat first) (hle : first ≤ last) (n : ℕ) (hn : 1 ≤ n)
    (hs : s.knots = R.fitKnots s.order first last n) : s.kn (s.order - 1) = first := by
  obtain ⟨-, -, -, d⟩ := R.C84_knots s.order (BSpline.numKnotsRequired s.order n) first (R.knotDistance first last n) h0
    (R.knotDistance_nonneg hle n)
  have := d ho (by simp only [BSpline.numKnotsRequired, BSpline.numCoefficientsRequired]; omega)
  unfold BSpline.kn
  rw [hs, List.getD_eq_getElem?_getD]
  unfold fitKnots
  rw [this]
  rfl

/-- The last valid time of a fit: the first time plus the rounded product of distance and number of segments. -/
theorem fitKnots_max {s : BSpline K D} (ho : 1 ≤ s.order) (first last : K) (n : ℕ) (hn : 1 ≤ n)
    (hs : s.knots = R.fitKnots s.order first last n) :
    s.kn (s.knots.length - s.order) = R.add first (R.mul (R.knotDistance first last n) ((n : ℤ) : K)) := by
  unfold BSpline.kn
  rw [hs, R.fitKnots_length, List.getD_eq_getElem?_getD]
  unfold fitKnots uniformKnots
  rw [List.getElem?_map, List.getElem?_range (by simp only [BSpline.numKnotsRequired, BSpline.numCoefficientsRequired]; omega)]
  simp only [Option.map_some, Option.getD_some]
  congr 3
  omega

/-- **C84** in full would be: a fit accepts all of its data, that is the lookup of every time from the first to the last one succeeds. -/
def AcceptsData (first last : K) (n : ℕ) : Prop :=
  ∀ s : BSpline K 1, 1 ≤ s.order → s.knots = R.fitKnots s.order first last n → ∀ t, R.IsFloat t → first ≤ t → t ≤ last →
    ∃ u i, R.computeUAndTIndex s t = .ok (u, i) ∧ s.order - 1 ≤ i ∧ i + 1 ≤ s.knots.length - s.order

/-- How far the last valid time of a fit can be from the last time given, and why that is less than the tolerance. -/
theorem fit_end_close (first last : K) (h0 : R.IsFloat first) (h1 : R.IsFloat last) (hle : first ≤ last) (b0 : -100000 ≤ first)
    (b1 : last ≤ 100000) (n : ℕ) (hn : 1 ≤ n) (hn2 : n ≤ 2 ^ 31) :
    |R.sub (R.add first (R.mul (R.knotDistance first last n) ((n : ℤ) : K))) last| < R.rnd BSpline.snapTol := by
  set e := R.eps with he
  have he0 : 0 ≤ e := R.eps_nonneg
  have he1 : e ≤ 1 / 2 ^ 53 := R.eps_le
  have htiny : R.tiny ≤ 1 / 2 ^ 100 :=
    R.tiny_le.trans (one_div_le_one_div_of_le (by positivity) (pow_le_pow_right₀ (by norm_num) (by norm_num)))
  have ht0 := R.tiny_nonneg
  have hnK : (1 : K) ≤ n := by exact_mod_cast hn
  have hnK2 : (n : K) ≤ 2 ^ 31 := by exact_mod_cast hn2
  have mulb : ∀ x B : K, 0 ≤ x → x ≤ B → e * x ≤ 1 / 2 ^ 53 * B := fun x B hx hB =>
    mul_le_mul he1 hB hx (by positivity)
  -- the duration
  set L := last - first with hL
  have hL0 : 0 ≤ L := by linarith
  have hL1 : L ≤ 200000 := by linarith
  set d := R.sub last first with hd
  have hd1 : |d - L| ≤ e * L := by
    have := R.err_sub h1 h0
    rwa [abs_of_nonneg hL0] at this
  have hdb := hd1.trans (mulb L _ hL0 hL1)
  have hd0 : 0 ≤ d := R.sub_nonneg' hle
  rw [abs_le] at hdb
  have hd2 : d ≤ 200001 := by norm_num at hdb ⊢; linarith [hdb.2]
  -- the distance
  set q := R.knotDistance first last n with hq
  have hq1 : |q - d / n| ≤ e * (d / n) + R.tiny := by
    have := R.err (d / n)
    rwa [abs_of_nonneg (div_nonneg hd0 (by linarith))] at this
  have hqn : |q * n - d| ≤ e * d + R.tiny * n := by
    have hn0 : (n : K) ≠ 0 := by linarith
    have e1 : q * n - d = (q - d / n) * n := by field_simp
    rw [e1, abs_mul, abs_of_nonneg (by linarith : (0 : K) ≤ n)]
    have e2 : e * d + R.tiny * n = (e * (d / n) + R.tiny) * n := by field_simp
    rw [e2]
    exact mul_le_mul_of_nonneg_right hq1 (by linarith)
  have htn : R.tiny * n ≤ 1 / 2 ^ 100 * 2 ^ 31 := mul_le_mul htiny hnK2 (by linarith) (by positivity)
  have hqb := hqn.trans (add_le_add (mulb d _ hd0 hd2) htn)
  rw [abs_le] at hqb
  have hq0 : 0 ≤ q := R.knotDistance_nonneg hle n
  have hqn0 : 0 ≤ q * n := mul_nonneg hq0 (by linarith)
  have hqn2 : q * n ≤ 200002 := by norm_num at hqb ⊢; linarith [hqb.2]
  -- the product
  set p := R.mul q ((n : ℤ) : K) with hp
  have hp1 : |p - q * n| ≤ e * (q * n) := by
    have := R.err_mul q (R.isFloat_rnd _) (n : ℤ)
    rw [Int.cast_natCast, abs_of_nonneg hqn0] at this
    rw [hp]
    unfold mul
    rw [Int.cast_natCast]
    exact this
  have hpb := hp1.trans (mulb _ _ hqn0 hqn2)
  rw [abs_le] at hpb
  -- the sum
  have hs : |first + p - last| ≤ 1 / 10 ^ 10 := by
    rw [abs_le]
    norm_num at hdb hqb hpb ⊢
    constructor <;> linarith [hdb.1, hdb.2, hqb.1, hqb.2, hpb.1, hpb.2]
  rw [abs_le] at hs
  have habs : |first + p| ≤ 100001 := by
    rw [abs_le]
    norm_num at hs ⊢
    constructor <;> linarith [hs.1, hs.2]
  set m := R.add first p with hm
  have hm1 := (R.err_add first p h0 (R.isFloat_rnd _)).trans (mulb _ _ (abs_nonneg _) habs)
  have hm2 : |m - (first + p)| ≤ 1 / 2 ^ 53 * 100001 := hm1
  rw [abs_le] at hm2
  have hml : |m - last| ≤ 9 / 10 ^ 11 := by
    rw [abs_le]
    norm_num at hdb hqb hpb hm2 ⊢
    constructor <;> linarith [hdb.1, hdb.2, hqb.1, hqb.2, hpb.1, hpb.2, hm2.1, hm2.2]
  -- compared with the tolerance
  have hf := (R.err_sub (R.isFloat_rnd (first + p)) h1).trans (mulb _ _ (abs_nonneg _) hml)
  have hf2 : |R.sub m last - (m - last)| ≤ 1 / 2 ^ 53 * (9 / 10 ^ 11) := hf
  have htol := R.err BSpline.snapTol
  have es : (BSpline.snapTol : K) = 1 / 10 ^ 10 := rfl
  rw [es] at htol ⊢
  have htol2 := htol.trans (add_le_add (mulb _ _ (abs_nonneg _) (le_of_eq (abs_of_nonneg (by positivity)))) htiny)
  rw [abs_le] at htol2 hf2 hml
  rw [abs_lt]
  norm_num at htol2 hf2 hml ⊢
  constructor <;> linarith [htol2.1, hf2.1, hf2.2, hml.1, hml.2]

/-- **C84**, proved for times of at most 10^5 in absolute value: the fits accept all of their data, and every lookup gives a valid segment.
Missing: larger times, for which it is false, `C84_data_violated`. -/
theorem C84_data_partial (first last : K) (h0 : R.IsFloat first) (h1 : R.IsFloat last) (hle : first ≤ last) (b0 : -100000 ≤ first)
    (b1 : last ≤ 100000) (n : ℕ) (hn : 1 ≤ n) (hn2 : n ≤ 2 ^ 31) : R.AcceptsData first last n := by
  intro s ho hs t ht ht0 ht1
  have hF := R.fitKnots_float ho first last h0 hle n hn hs
  have hmin := R.fitKnots_min ho first last h0 hle n hn hs
  have hmax := R.fitKnots_max ho first last n hn hs
  have hc := R.fit_end_close first last h0 h1 hle b0 b1 n hn hn2
  rw [← hmax] at hc
  have hacc : t ≤ s.kn (s.knots.length - s.order) ∨ |R.sub (s.kn (s.knots.length - s.order)) t| < R.rnd BSpline.snapTol := by
    rcases le_or_gt t (s.kn (s.knots.length - s.order)) with h | h
    · exact Or.inl h
    · right
      refine lt_of_le_of_lt ?_ hc
      have e1 : R.sub (s.kn (s.knots.length - s.order)) last ≤ R.sub (s.kn (s.knots.length - s.order)) t := R.mono (by linarith)
      have e2 : R.sub (s.kn (s.knots.length - s.order)) t ≤ 0 := R.rnd_nonpos (by linarith)
      rw [abs_of_nonpos e2, abs_of_nonpos (e1.trans e2)]
      linarith
  obtain ⟨i, e, a, b, -⟩ := C84_lookup hF t (by rw [hmin]; exact ht0) hacc
  unfold computeUAndTIndex
  rw [e]
  simp only [Outcome.bind_ok]
  by_cases hw : R.sub (s.kn (i + 1)) (s.kn i) ≤ 0
  · rw [if_pos hw]
    exact ⟨_, i, rfl, a, b⟩
  · rw [if_neg hw]
    exact ⟨_, i, rfl, a, b⟩

/-! ### Different knots -/

/-- **C84**, proved when the distance of the knots is not too small for the size of the times: different knots, so that no segment has
width zero.  Missing: smaller distances, for which it is false, `C84_strict_violated`. -/
theorem C84_strict_partial (order nK : ℕ) (t0 dt : K) (h0 : R.IsFloat t0) (hd : R.IsFloat dt) (hd0 : 0 < dt)
    (hdt : 8 * R.eps * (|t0| + (nK + order) * dt) < dt) : (R.uniformKnots order nK t0 dt).Pairwise (· < ·) := by
  have he0 := R.eps_nonneg
  have he1 : R.eps ≤ 1 := R.eps_lt_one.le
  set B : K := (nK + order) * dt with hB
  have hB0 : 0 ≤ B := by positivity
  have close : ∀ m : ℤ, |m| ≤ nK + order → |R.add t0 (R.mul dt (m : K)) - (t0 + dt * m)| ≤ 3 * R.eps * (|t0| + B) := by
    intro m hm
    have hmK : |(m : K)| ≤ nK + order := by
      have : ((|m| : ℤ) : K) ≤ ((nK + order : ℤ) : K) := Int.cast_le.mpr hm
      rw [Int.cast_abs] at this
      exact_mod_cast this
    have ha : |dt * m| ≤ B := by
      rw [abs_mul, abs_of_pos hd0, mul_comm]
      exact mul_le_mul_of_nonneg_right hmK hd0.le
    have h1 : |R.mul dt (m : K) - dt * m| ≤ R.eps * B := (R.err_mul dt hd m).trans (mul_le_mul_of_nonneg_left ha he0)
    have h1' : R.eps * B ≤ B := mul_le_of_le_one_left hB0 he1
    have h2 := R.err_add t0 (R.mul dt (m : K)) h0 (R.isFloat_rnd _)
    have h3 : |t0 + R.mul dt (m : K)| ≤ |t0| + 2 * B := by
      have e1 := abs_add_le t0 (R.mul dt (m : K))
      have e2 := abs_sub_abs_le_abs_sub (R.mul dt (m : K)) (dt * m)
      linarith
    have h4 := h2.trans (mul_le_mul_of_nonneg_left h3 he0)
    have h5 : R.eps * (|t0| + 2 * B) + R.eps * B ≤ 3 * R.eps * (|t0| + B) := by
      have : 0 ≤ R.eps * |t0| := by positivity
      linarith
    calc _ = |(R.add t0 (R.mul dt (m : K)) - (t0 + R.mul dt (m : K))) + (R.mul dt (m : K) - dt * m)| := by congr 1; ring
      _ ≤ _ := abs_add_le _ _
      _ ≤ R.eps * (|t0| + 2 * B) + R.eps * B := add_le_add h4 h1
      _ ≤ _ := h5
  unfold uniformKnots
  rw [List.pairwise_map]
  refine List.Pairwise.imp_of_mem ?_ List.pairwise_lt_range
  intro i j hi hj hij
  rw [List.mem_range] at hi hj
  have c1 := close ((i : ℤ) - order + 1) (by rw [abs_le]; omega)
  have c2 := close ((j : ℤ) - order + 1) (by rw [abs_le]; omega)
  rw [abs_le] at c1 c2
  have hstep : dt * ((((i : ℤ) - order + 1 : ℤ) : K)) + dt ≤ dt * ((((j : ℤ) - order + 1 : ℤ) : K)) := by
    have h1 : (i : ℤ) - order + 1 + 1 ≤ (j : ℤ) - order + 1 := by omega
    have h2 := (Int.cast_le (R := K)).mpr h1
    rw [Int.cast_add _ 1, Int.cast_one] at h2
    nlinarith
  have hp : 0 ≤ R.eps * (|t0| + B) := by positivity
  linarith [c1.1, c1.2, c2.1, c2.2]

/-! ### Appending a segment -/

theorem retool_spec (dt : K) (hdt : 0 ≤ dt) (m : ℕ) : ∀ t, R.IsFloat t →
    (R.retool t dt m).length = m ∧ (∀ x ∈ R.retool t dt m, t ≤ x ∧ R.IsFloat x) ∧ (R.retool t dt m).Pairwise (· ≤ ·) := by
  induction m with
  | zero => intro t _; simp [retool]
  | succ m ih =>
    intro t ht
    obtain ⟨a, b, c⟩ := ih (R.add t dt) (R.isFloat_rnd _)
    have hle : t ≤ R.add t dt := by
      have := R.mono (show t ≤ t + dt by linarith)
      rwa [show R.rnd t = t from ht] at this
    refine ⟨by simp [retool, a], ?_, ?_⟩
    · intro x hx
      rw [retool, List.mem_cons] at hx
      rcases hx with rfl | hx
      · exact ⟨le_rfl, ht⟩
      · exact ⟨hle.trans (b x hx).1, (b x hx).2⟩
    · rw [retool, List.pairwise_cons]
      exact ⟨fun x hx => hle.trans (b x hx).1, c⟩

/-- **C84.** The knots after appending a segment are again nondecreasing floating point numbers, for every rounding; there is one more, and
the new end of the valid interval is the given time exactly. -/
theorem C84_append {s : BSpline K D} (h : R.FloatKnots s) (km1 : ℕ) (hk : km1 + 1 < s.knots.length) (t : K) (ht : R.IsFloat t)
    (hlt : s.kn (km1 + 1) ≤ t) :
    (R.retooledKnots s.knots km1 t).length = s.knots.length + 1 ∧ (R.retooledKnots s.knots km1 t).Pairwise (· ≤ ·) ∧
      (∀ x ∈ R.retooledKnots s.knots km1 t, R.IsFloat x) ∧ (R.retooledKnots s.knots km1 t)[km1 + 2]? = some t ∧
      ∀ i, i ≤ km1 + 1 → (R.retooledKnots s.knots km1 t)[i]? = s.knots[i]? := by
  have hdt : 0 ≤ R.sub t (s.knots.getD (km1 + 1) 0) := R.sub_nonneg' hlt
  obtain ⟨a, b, c⟩ := R.retool_spec _ hdt (s.knots.length + 1 - (km1 + 2)) t ht
  have hl : (s.knots.take (km1 + 2)).length = km1 + 2 := by rw [List.length_take]; omega
  unfold retooledKnots
  refine ⟨?_, ?_, ?_, ?_, ?_⟩
  · rw [List.length_append, hl, a]
    omega
  · rw [List.pairwise_append]
    refine ⟨h.sorted.sublist (List.take_sublist _ _), c, ?_⟩
    intro x hx y hy
    obtain ⟨i, hi, rfl⟩ := List.getElem_of_mem hx
    rw [List.getElem_take, ← BSpline.kn_eq s i (by rw [hl] at hi; omega)]
    refine (h.mono ?_ hk).trans (hlt.trans (b y hy).1)
    omega
  · intro x hx
    rw [List.mem_append] at hx
    rcases hx with hx | hx
    · exact h.float x (List.mem_of_mem_take hx)
    · exact (b x hx).2
  · rw [List.getElem?_append_right (by omega), hl, Nat.sub_self]
    obtain ⟨m, hm⟩ : ∃ m, s.knots.length + 1 - (km1 + 2) = m + 1 := ⟨s.knots.length - (km1 + 2), by omega⟩
    rw [hm, retool]
    rfl
  · intro i hi
    rw [List.getElem?_append_left (by omega), List.getElem?_take, if_pos (by omega)]

/-! ### Without rounding -/

/-- **C84.** Without rounding these functions are those of the model in exact arithmetic. -/
theorem C84_exact (s : BSpline K D) (t : K) (order nK : ℕ) (t0 dt : K) (km1 : ℕ) (hk : km1 + 1 < s.knots.length) :
    exact.computeTIndex s t = s.computeTIndex t ∧ exact.computeUAndTIndex s t = s.computeUAndTIndex t ∧
      exact.uniformKnots order nK t0 dt = BSpline.uniformKnots order nK t0 dt ∧
      exact.retooledKnots s.knots km1 t = s.extendedKnots km1 t := by
  refine ⟨rfl, rfl, ?_, ?_⟩
  · unfold uniformKnots BSpline.uniformKnots add mul exact
    apply List.map_congr_left
    intro i _
    push_cast
    ring
  · have hr : ∀ m (x d : K), exact.retool x d m = (List.range m).map fun j : ℕ => x + (j : K) * d := by
      intro m
      induction m with
      | zero => intro x d; rfl
      | succ m ih =>
        intro x d
        rw [retool, ih, List.range_succ_eq_map, List.map_cons, List.map_map]
        congr 1
        · simp
        · apply List.map_congr_left
          intro j _
          simp only [Function.comp, add, exact]
          push_cast
          ring
    unfold retooledKnots BSpline.extendedKnots
    rw [hr]
    apply List.ext_getElem?
    intro i
    have hl : (s.knots.take (km1 + 2)).length = km1 + 2 := by rw [List.length_take]; omega
    rcases lt_or_ge i (km1 + 2) with hi | hi
    · rw [List.getElem?_append_left (by omega), List.getElem?_take, if_pos hi, List.getElem?_map,
        List.getElem?_range (by omega), List.getElem?_eq_getElem (show i < s.knots.length by omega)]
      simp only [Option.map_some, if_pos hi, BSpline.kn_eq s i (show i < s.knots.length by omega)]
    · rw [List.getElem?_append_right (by omega), hl]
      rcases lt_or_ge i (s.knots.length + 1) with hi2 | hi2
      · rw [List.getElem?_map, List.getElem?_map, List.getElem?_range (by omega), List.getElem?_range hi2]
        simp only [Option.map_some, if_neg (not_lt.2 hi)]
        rfl
      · rw [List.getElem?_eq_none (by simp; omega), List.getElem?_eq_none (by simp; omega)]

end Rounding

/-- **C84** is violated for knots that are too close: of two segments between 1 and the next double the first has width zero. -/
theorem C84_strict_violated : Rounding.ieee.fitKnots 2 (1 : ℚ) (1 + 1 / 2 ^ 52) 2 =
    [1 - 1 / 2 ^ 53, 1, 1, 1 + 1 / 2 ^ 52, 1 + 2 / 2 ^ 52] := by decide +kernel

/-- Not vacuous: knots of distance 0.1 at the time 1.5 * 10^9, and the same times with a segment appended. -/
example : Rounding.ieee.IsFloat (double (1 / 10 : ℚ)) ∧ Rounding.ieee.IsFloat (1500000000 : ℚ) ∧
    8 * (1 / 2 ^ 53) * (|1500000000| + ((20 : ℕ) + (4 : ℕ)) * double (1 / 10 : ℚ)) < double (1 / 10 : ℚ) ∧
    Rounding.ieee.retooledKnots [(0 : ℚ), 1, 2, 3] 1 (double (5 / 2)) = [0, 1, 2, 5 / 2, 3] := by
  unfold Rounding.IsFloat
  decide +kernel

/-- The spline of order four with the knots of a fit of data from 0 to 10^6 by 29 segments, in double precision. -/
def lateSpline : BSpline ℚ 1 := ⟨4, Rounding.ieee.fitKnots 4 0 1000000 29, [], []⟩

/-- **C84** is violated for larger times: with data from time 0 to time 10^6 and 29 segments, in double precision, the last valid time is
999999.9999999999, which differs from 10^6 by more than the tolerance of 10^-10.  The lookup of the last data point throws: the fit rejects
its own data. -/
theorem C84_data_violated : ¬ Rounding.ieee.AcceptsData (0 : ℚ) 1000000 29 ∧
    lateSpline.tMax = .ok (1000000 - 1 / 2 ^ 33) ∧ Rounding.ieee.computeUAndTIndex lateSpline 1000000 = .throws := by
  have h3 : Rounding.ieee.computeUAndTIndex lateSpline 1000000 = .throws := by decide +kernel
  refine ⟨?_, by decide +kernel, h3⟩
  intro h
  obtain ⟨u, i, h4, -⟩ := h lateSpline (by decide) rfl 1000000 (by unfold Rounding.IsFloat; decide +kernel) (by norm_num) (le_refl _)
  rw [h3] at h4
  cases h4

/-- Not vacuous: data from 0.1 to 1000 with 29 segments of order four. -/
example : Rounding.ieee.IsFloat (double (1 / 10 : ℚ)) ∧ Rounding.ieee.IsFloat (1000 : ℚ) ∧ double (1 / 10 : ℚ) ≤ 1000 ∧
    Rounding.ieee.computeUAndTIndex (⟨4, Rounding.ieee.fitKnots 4 (double (1 / 10)) 1000 29, [], []⟩ : BSpline ℚ 1) 1000 = .ok (1 - 15 / 2 ^ 52, 31) := by
  unfold Rounding.IsFloat
  decide +kernel

end Verif
