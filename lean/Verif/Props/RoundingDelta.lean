import Verif.Props.RoundingGrid

/-!
# Property C86: the generator of knots of a given distance in floating point
-/

set_option linter.unusedSectionVars false

namespace Verif

namespace Rounding

variable {K : Type*} [Field K] [LinearOrder K] [IsStrictOrderedRing K] (R : Rounding K)

/-! ### The loop -/

/-- The value of `_lastKnot` after `n` calls of `getNextKnot`. -/
def deltaKnot (l δ : K) : ℕ → K
  | 0 => l
  | n + 1 => R.addScaledDuration (deltaKnot l δ n) δ 1

theorem deltaKnot_shift (l δ : K) (m : ℕ) : R.deltaKnot (R.addScaledDuration l δ 1) δ m = R.deltaKnot l δ (m + 1) := by
  induction m with
  | zero => rfl
  | succ m ih => rw [deltaKnot, ih]; rfl

theorem deltaKnot_add (l δ : K) (m j : ℕ) : R.deltaKnot (R.deltaKnot l δ m) δ j = R.deltaKnot l δ (m + j) := by
  induction j with
  | zero => rfl
  | succ j ih => rw [deltaKnot, ih, ← Nat.add_assoc]; rfl

theorem delta_drain (k : ℤ) (δ B : K) (m : ℕ) (l : K) (h1 : ∀ j : ℕ, j < m → R.deltaKnot l δ j < B) (h2 : B ≤ R.deltaKnot l δ m) :
    Drain DeltaGen.hasNext R.deltaNext ⟨k, δ, l, B⟩ ((List.range m).map fun j : ℕ => R.deltaKnot l δ (j + 1)) ⟨k, δ, R.deltaKnot l δ m, B⟩ := by
  induction m generalizing l with
  | zero => exact Drain.stop _ (not_lt.2 h2)
  | succ m ih =>
    have h := ih (R.addScaledDuration l δ 1) (fun j hj => by rw [R.deltaKnot_shift]; exact h1 (j + 1) (by omega))
      (by rw [R.deltaKnot_shift]; exact h2)
    rw [List.range_succ_eq_map, List.map_cons, List.map_map]
    have e : (List.range m).map ((fun j : ℕ => R.deltaKnot l δ (j + 1)) ∘ Nat.succ) =
        (List.range m).map fun j : ℕ => R.deltaKnot (R.addScaledDuration l δ 1) δ (j + 1) := by
      apply List.map_congr_left
      intro j _
      rw [R.deltaKnot_shift]
      rfl
    rw [e]
    rw [R.deltaKnot_shift] at h
    exact Drain.step (⟨k, δ, l, B⟩ : DeltaGen K) _ _ (h1 0 (by omega)) h

theorem drain_delta {g g' : DeltaGen K} {ks : List K} (h : Drain DeltaGen.hasNext R.deltaNext g ks g') :
    ∃ m, (∀ j : ℕ, j < m → R.deltaKnot g.lastKnot g.delta j < g.beyond) ∧ g.beyond ≤ R.deltaKnot g.lastKnot g.delta m ∧
      ks = ((List.range m).map fun j : ℕ => R.deltaKnot g.lastKnot g.delta (j + 1)) ∧
      g' = { g with lastKnot := R.deltaKnot g.lastKnot g.delta m } := by
  induction h with
  | stop g hg => exact ⟨0, by simp, by simpa [DeltaGen.hasNext, deltaKnot] using hg, rfl, rfl⟩
  | step g g' ks hg _ ih =>
    obtain ⟨m, h1, h2, h3, h4⟩ := ih
    have e : ∀ j, R.deltaKnot (R.deltaNext g).2.lastKnot (R.deltaNext g).2.delta j = R.deltaKnot g.lastKnot g.delta (j + 1) :=
      fun j => R.deltaKnot_shift _ _ j
    refine ⟨m + 1, ?_, ?_, ?_, ?_⟩
    · intro j hj
      rcases j with _ | j
      · exact hg
      · rw [← e j]
        exact h1 j (by omega)
    · rw [← e m]
      exact h2
    · rw [h3, List.range_succ_eq_map, List.map_cons, List.map_map]
      congr 1
      apply List.map_congr_left
      intro j _
      rw [e]
      rfl
    · rw [h4, e]
      rfl

/-- **C86.** The loop ends exactly if some number of steps reaches the end asked for. -/
theorem C86_ends (g : DeltaGen K) :
    (∃ ks g', Drain DeltaGen.hasNext R.deltaNext g ks g') ↔ ∃ m, g.beyond ≤ R.deltaKnot g.lastKnot g.delta m := by
  constructor
  · rintro ⟨ks, g', h⟩
    obtain ⟨m, -, h2, -⟩ := R.drain_delta h
    exact ⟨m, h2⟩
  · rintro h
    classical
    have h1 := Nat.find_spec h
    have h2 : ∀ j < Nat.find h, R.deltaKnot g.lastKnot g.delta j < g.beyond := fun j hj => not_le.1 (Nat.find_min h hj)
    exact ⟨_, _, R.delta_drain g.splineOrder g.delta g.beyond (Nat.find h) g.lastKnot h2 h1⟩

/-- **C86.** Once a step does not change the last knot the loop never ends. -/
theorem C86_stuck (g : DeltaGen K) (h : R.addScaledDuration g.lastKnot g.delta 1 = g.lastKnot) (hlt : g.lastKnot < g.beyond) :
    ¬ ∃ ks g', Drain DeltaGen.hasNext R.deltaNext g ks g' := by
  rw [R.C86_ends]
  rintro ⟨m, hm⟩
  have : ∀ m, R.deltaKnot g.lastKnot g.delta m = g.lastKnot := by
    intro m
    induction m with
    | zero => rfl
    | succ m ih => rw [deltaKnot, ih, h]
  rw [this] at hm
  exact absurd hlt (not_lt.2 hm)

theorem deltaKnot_float {l : K} (hl : R.IsFloat l) (δ : K) (n : ℕ) : R.IsFloat (R.deltaKnot l δ n) := by
  rcases n with _ | n
  · exact hl
  · exact R.isFloat_rnd _

theorem deltaKnot_mono {l : K} (hl : R.IsFloat l) {δ : K} (hδ : 0 ≤ δ) {i j : ℕ} (h : i ≤ j) : R.deltaKnot l δ i ≤ R.deltaKnot l δ j := by
  induction j, h using Nat.le_induction with
  | base => exact le_rfl
  | succ j _ ih =>
    refine ih.trans ?_
    have hf := R.deltaKnot_float hl δ j
    have h0 : 0 ≤ R.mul δ ((1 : ℤ) : K) := R.rnd_nonneg (mul_nonneg hδ (by simp))
    have := R.mono (show R.deltaKnot l δ j ≤ R.deltaKnot l δ j + R.mul δ ((1 : ℤ) : K) by linarith)
    rwa [show R.rnd (R.deltaKnot l δ j) = R.deltaKnot l δ j from hf] at this

/-- **C86, extension.** For every rounding: asking for more after the loop has ended and running it again produces together exactly the knots
a generator made for the later of both ends produces. -/
theorem C86_extend (k : ℤ) (start beyond beyond' δ : K) (b : Bool) (ks₁ ks₂ : List K) (g₁ g₂ : DeltaGen K) (hδ : 0 ≤ δ)
    (h₁ : Drain DeltaGen.hasNext R.deltaNext (R.deltaCreate k start beyond δ b) ks₁ g₁)
    (h₂ : Drain DeltaGen.hasNext R.deltaNext (R.deltaExtend g₁ beyond') ks₂ g₂) :
    ∃ g', Drain DeltaGen.hasNext R.deltaNext (R.deltaCreate k start (max beyond beyond') δ b) (ks₁ ++ ks₂) g' := by
  obtain ⟨m, a1, a2, a3, a4⟩ := R.drain_delta h₁
  obtain ⟨m', b1, b2, b3, b4⟩ := R.drain_delta h₂
  subst a4
  set l := (R.deltaCreate k start beyond δ b).lastKnot with hl
  set B := R.addScaledDuration beyond δ (k - 1) with hB
  set B' := R.addScaledDuration beyond' δ (k - 1) with hB'
  have hmax : R.addScaledDuration (max beyond beyond') δ (k - 1) = max B B' := by
    simp only [hB, hB', addScaledDuration, add]
    rw [← R.mono.map_max, max_add_add_right]
  have e : R.deltaCreate k start (max beyond beyond') δ b = ⟨k, δ, l, max B B'⟩ := by
    rw [← hmax]
    rfl
  have a1' : ∀ j, j < m → R.deltaKnot l δ j < B := a1
  have a2' : B ≤ R.deltaKnot l δ m := a2
  have b1' : ∀ j, j < m' → R.deltaKnot l δ (m + j) < B' := fun j hj => by rw [← R.deltaKnot_add]; exact b1 j hj
  have b2' : B' ≤ R.deltaKnot l δ (m + m') := by rw [← R.deltaKnot_add]; exact b2
  have hlf : R.IsFloat l := R.isFloat_rnd _
  refine ⟨⟨k, δ, R.deltaKnot l δ (m + m'), max B B'⟩, ?_⟩
  have hd := R.delta_drain k δ (max B B') (m + m') l (fun j hj => by
      rw [lt_max_iff]
      rcases lt_or_ge j m with hjm | hjm
      · exact Or.inl (a1' j hjm)
      · right
        have := b1' (j - m) (by omega)
        rwa [Nat.add_sub_cancel' hjm] at this)
    (max_le (a2'.trans (R.deltaKnot_mono hlf hδ (by omega))) b2')
  rw [e]
  convert hd using 1
  rw [a3, b3, List.range_add, List.map_append, List.map_map]
  congr 1
  apply List.map_congr_left
  intro j _
  simp only [Function.comp]
  rw [Nat.add_assoc]
  exact R.deltaKnot_add l δ m (j + 1)

/-! ### Error bounds -/

/-- A bound for the times that occur. -/
def deltaSize (k : ℕ) (start beyond δ : K) : K := |start| + |beyond| + k * δ

/-- A bound for the error of one step. -/
def stepError (k : ℕ) (start beyond δ : K) : K := 2 * R.eps * deltaSize k start beyond δ

theorem scaled_close (x δ : K) (hx : R.IsFloat x) (hd : R.IsFloat δ) (m : ℤ) (W : K) (hW : |x| + |δ * m| ≤ W) :
    |R.addScaledDuration x δ m - (x + δ * m)| ≤ 3 * R.eps * W := by
  have he0 := R.eps_nonneg
  have he1 : R.eps ≤ 1 := R.eps_lt_one.le
  have hW0 : 0 ≤ W := le_trans (add_nonneg (abs_nonneg _) (abs_nonneg _)) hW
  set y := R.mul δ (m : K) with hy
  have h1 : |y - δ * m| ≤ R.eps * |δ * m| := R.err_mul δ hd m
  have h2 : |R.add x y - (x + y)| ≤ R.eps * |x + y| := R.err_add x y hx (R.isFloat_rnd _)
  have h3 : |x + y| ≤ 2 * W := by
    have e1 := abs_add_le x y
    have e2 := abs_sub_abs_le_abs_sub y (δ * m)
    have e3 : R.eps * |δ * m| ≤ |δ * m| := mul_le_of_le_one_left (abs_nonneg _) he1
    have := abs_nonneg x
    linarith
  have h4 := mul_le_mul_of_nonneg_left h3 he0
  have h5 : R.eps * |δ * m| ≤ R.eps * W := mul_le_mul_of_nonneg_left (by have := abs_nonneg x; linarith) he0
  calc |R.addScaledDuration x δ m - (x + δ * m)| = |(R.add x y - (x + y)) + (y - δ * m)| := by
        rw [hy]; unfold addScaledDuration; congr 1; ring
    _ ≤ _ := abs_add_le _ _
    _ ≤ _ := by linarith

section bounds

variable {k : ℕ} {start beyond δ : K} (hk : 1 ≤ k) (hs : R.IsFloat start) (hb : R.IsFloat beyond) (hd : R.IsFloat δ) (hd0 : 0 < δ)

include hd in
theorem step_eq (x : K) : R.addScaledDuration x δ 1 = R.add x δ := by
  unfold addScaledDuration mul
  rw [Int.cast_one, mul_one, show R.rnd δ = δ from hd]

include hs hd hd0 in
theorem first_close : |(R.deltaCreate k start beyond δ false).lastKnot - (start - k * δ)| ≤ 3 / 2 * R.stepError k start beyond δ := by
  have h := R.scaled_close start δ hs hd (-(k : ℤ)) (deltaSize k start beyond δ) (by
    unfold deltaSize
    push_cast
    rw [mul_neg, abs_neg, abs_of_nonneg (mul_nonneg hd0.le (Nat.cast_nonneg k)), mul_comm δ]
    have := abs_nonneg beyond
    linarith)
  have e : (R.deltaCreate (k : ℤ) start beyond δ false).lastKnot = R.addScaledDuration start δ (-(k : ℤ)) := by
    simp [deltaCreate, preambleKnots]
  rw [e]
  unfold stepError
  push_cast at h
  rw [show start - k * δ = start + δ * -(k : K) by ring]
  linarith

include hk hb hd hd0 in
theorem beyond_close : |(R.deltaCreate k start beyond δ false).beyond - (beyond + (k - 1) * δ)| ≤ 3 / 2 * R.stepError k start beyond δ := by
  have hk' : (1 : K) ≤ k := by exact_mod_cast hk
  have h := R.scaled_close beyond δ hb hd ((k : ℤ) - 1) (deltaSize k start beyond δ) (by
    unfold deltaSize
    push_cast
    rw [abs_of_nonneg (mul_nonneg hd0.le (by linarith) : 0 ≤ δ * ((k : K) - 1))]
    have := abs_nonneg start
    nlinarith)
  have e : (R.deltaCreate (k : ℤ) start beyond δ false).beyond = R.addScaledDuration beyond δ ((k : ℤ) - 1) := rfl
  rw [e]
  unfold stepError
  push_cast at h
  rw [show beyond + ((k : K) - 1) * δ = beyond + δ * ((k : K) - 1) by ring]
  linarith

include hd0 in
theorem deltaSize_nonneg : 0 ≤ deltaSize k start beyond δ := by
  unfold deltaSize
  have := abs_nonneg start
  have := abs_nonneg beyond
  positivity

include hd0 in
theorem stepError_nonneg : 0 ≤ R.stepError k start beyond δ := by
  have := R.eps_nonneg
  have := deltaSize_nonneg (k := k) (start := start) (beyond := beyond) hd0
  unfold stepError
  positivity

include hk hs hb hd hd0 in
/-- One step. -/
theorem step_close (j : ℕ) (h : R.deltaKnot (R.deltaCreate k start beyond δ false).lastKnot δ j < (R.deltaCreate k start beyond δ false).beyond) :
    |R.deltaKnot (R.deltaCreate k start beyond δ false).lastKnot δ (j + 1)
      - (R.deltaKnot (R.deltaCreate k start beyond δ false).lastKnot δ j + δ)| ≤ R.stepError k start beyond δ := by
  have h1 := R.first_close (k := k) (beyond := beyond) hs hd hd0
  have h2 := R.beyond_close (start := start) hk hb hd hd0
  set l := (R.deltaCreate k start beyond δ false).lastKnot with hl
  set B := (R.deltaCreate k start beyond δ false).beyond
  have hlf : R.IsFloat l := R.isFloat_rnd _
  set W := deltaSize k start beyond δ with hW
  have hW0 : 0 ≤ W := deltaSize_nonneg hd0
  have he : R.stepError k start beyond δ ≤ W / 2 := by
    unfold stepError
    have h3 : R.eps ≤ 1 / 4 := R.eps_le.trans (by norm_num)
    have := mul_le_mul_of_nonneg_right h3 hW0
    linarith
  have hm := R.deltaKnot_mono hlf hd0.le (Nat.zero_le j)
  have hm0 : R.deltaKnot l δ 0 = l := rfl
  rw [hm0] at hm
  set x := R.deltaKnot l δ j
  have hxf : R.IsFloat x := R.deltaKnot_float hlf δ j
  have e : R.deltaKnot l δ (j + 1) = R.add x δ := R.step_eq hd x
  rw [e]
  have h3 := R.err_add x δ hxf hd
  have h4 : |x + δ| ≤ 2 * W := by
    rw [abs_le] at h1 h2 ⊢
    have a1 := neg_abs_le start
    have a2 := le_abs_self beyond
    have a3 := abs_nonneg start
    have a4 := abs_nonneg beyond
    have a5 : W = |start| + |beyond| + k * δ := rfl
    constructor <;> linarith [h1.1, h2.2]
  have := mul_le_mul_of_nonneg_left h4 R.eps_nonneg
  unfold stepError
  exact h3.trans (by linarith)

include hk hs hb hd hd0 in
/-- Several steps. -/
theorem steps_close (i n : ℕ)
    (h : ∀ j, j < i + n → R.deltaKnot (R.deltaCreate k start beyond δ false).lastKnot δ j < (R.deltaCreate k start beyond δ false).beyond) :
    |R.deltaKnot (R.deltaCreate k start beyond δ false).lastKnot δ (i + n)
      - (R.deltaKnot (R.deltaCreate k start beyond δ false).lastKnot δ i + n * δ)| ≤ n * R.stepError k start beyond δ := by
  induction n with
  | zero => simp
  | succ n ih =>
    have h1 := ih fun j hj => h j (by omega)
    have h2 := R.step_close hk hs hb hd hd0 (i + n) (h _ (by omega))
    rw [← Nat.add_assoc]
    rw [abs_le] at h1 h2 ⊢
    push_cast
    constructor <;> linarith [h1.1, h1.2, h2.1, h2.2]

include hk hs hb hd hd0 in
theorem delta_ends [Archimedean K] (hlong : 2 * R.stepError k start beyond δ < δ) :
    ∃ m, (∀ j, j < m → R.deltaKnot (R.deltaCreate k start beyond δ false).lastKnot δ j < (R.deltaCreate k start beyond δ false).beyond) ∧
      (R.deltaCreate k start beyond δ false).beyond ≤ R.deltaKnot (R.deltaCreate k start beyond δ false).lastKnot δ m := by
  have hex : ∃ m, (R.deltaCreate k start beyond δ false).beyond ≤ R.deltaKnot (R.deltaCreate k start beyond δ false).lastKnot δ m := by
    by_contra hc
    push Not at hc
    obtain ⟨n, hn⟩ := exists_nat_gt (((R.deltaCreate k start beyond δ false).beyond - (R.deltaCreate k start beyond δ false).lastKnot) / (δ / 2))
    rw [div_lt_iff₀ (by linarith)] at hn
    have h1 := R.steps_close hk hs hb hd hd0 0 n fun j _ => hc j
    have h2 := hc n
    rw [Nat.zero_add, abs_le] at h1
    have h3 : R.deltaKnot (R.deltaCreate k start beyond δ false).lastKnot δ 0 = (R.deltaCreate k start beyond δ false).lastKnot := rfl
    rw [h3] at h1
    have h4 : (n : K) * R.stepError k start beyond δ ≤ n * (δ / 2) := mul_le_mul_of_nonneg_left (by linarith) (Nat.cast_nonneg n)
    linarith [h1.1]
  classical
  exact ⟨Nat.find hex, fun j hj => not_le.1 (Nat.find_min hex hj), Nat.find_spec hex⟩

end bounds

/-- **C86** in full would be: the loop ends, the knots are increasing and the valid interval starts at the time given and contains the end
asked for. -/
def GeneratesInterval (k : ℕ) (start beyond δ : K) : Prop :=
  ∃ ks g' tmin tmax, Drain DeltaGen.hasNext R.deltaNext (R.deltaCreate (k : ℤ) start beyond δ false) ks g' ∧ ks.Pairwise (· < ·) ∧
    2 * k ≤ ks.length ∧ ks[k - 1]? = some tmin ∧ ks[ks.length - k]? = some tmax ∧ tmin = start ∧ beyond ≤ tmax ∧ tmax < beyond + δ

/-- **C86**, proved up to rounding errors: if the distance and the duration are not too small for the size of the times, the loop ends, the knots
are increasing floating point numbers whose distances are right up to the error of one step, there are enough of them, and the valid
interval starts and ends where it should up to a few such errors.  Missing: the ends exactly, and shorter distances, for which it is
false, `C86_ends_violated`, `C86_interval_violated`. -/
theorem C86_generator_partial [Archimedean K] (k : ℕ) (start beyond δ : K) (hk : 1 ≤ k) (hs : R.IsFloat start) (hb : R.IsFloat beyond)
    (hd : R.IsFloat δ) (hd0 : 0 < δ) (hlong : 2 * R.stepError k start beyond δ < δ)
    (hdur : (2 * k + 2) * R.stepError k start beyond δ < beyond - start) :
    ∃ ks g' tmin tmax, Drain DeltaGen.hasNext R.deltaNext (R.deltaCreate (k : ℤ) start beyond δ false) ks g' ∧ ks.Pairwise (· < ·) ∧
      2 * k ≤ ks.length ∧ ks[k - 1]? = some tmin ∧ ks[ks.length - k]? = some tmax ∧ (∀ x ∈ ks, R.IsFloat x) ∧
      (∀ (j : ℕ) (x y : K), ks[j]? = some x → ks[j + 1]? = some y → |y - x - δ| ≤ R.stepError k start beyond δ) ∧
      |tmin - start| ≤ (k + 2) * R.stepError k start beyond δ ∧
      beyond - (k + 1) * R.stepError k start beyond δ ≤ tmax ∧ tmax ≤ beyond + δ + (k + 2) * R.stepError k start beyond δ := by
  obtain ⟨m, h1, h2⟩ := R.delta_ends hk hs hb hd hd0 hlong
  have c1 := R.first_close (k := k) (beyond := beyond) hs hd hd0
  have c2 := R.beyond_close (start := start) hk hb hd hd0
  have cs := R.step_close hk hs hb hd hd0
  have css := R.steps_close hk hs hb hd hd0
  have hE := R.stepError_nonneg (k := k) (start := start) (beyond := beyond) hd0
  have hdr := R.delta_drain (k : ℤ) δ _ m _ h1 h2
  set l := (R.deltaCreate (k : ℤ) start beyond δ false).lastKnot with hl
  set B := (R.deltaCreate (k : ℤ) start beyond δ false).beyond with hB
  set E := R.stepError k start beyond δ with hEdef
  have hlf : R.IsFloat l := R.isFloat_rnd _
  have hx0 : R.deltaKnot l δ 0 = l := rfl
  have hk' : (1 : K) ≤ k := by exact_mod_cast hk
  have hm : 2 * k ≤ m := by
    by_contra hc
    push Not at hc
    have h3 := css 0 m (by rw [Nat.zero_add]; exact h1)
    rw [Nat.zero_add, hx0, abs_le] at h3
    rw [abs_le] at c1 c2
    have h4 : (m : K) ≤ 2 * k - 1 := by
      have : m + 1 ≤ 2 * k := by omega
      have : ((m + 1 : ℕ) : K) ≤ ((2 * k : ℕ) : K) := by exact_mod_cast this
      push_cast at this
      linarith
    have h5 := mul_le_mul_of_nonneg_right h4 hd0.le
    have h6 := mul_le_mul_of_nonneg_right h4 hE
    linarith [h3.2, c1.2, c2.1]
  have hget : ∀ j x, ((List.range m).map fun j : ℕ => R.deltaKnot l δ (j + 1))[j]? = some x → j < m ∧ R.deltaKnot l δ (j + 1) = x := by
    intro j x hx
    have hj : j < m := by
      have := (List.getElem?_eq_some_iff.1 hx).1
      simpa using this
    rw [List.getElem?_map, List.getElem?_range hj] at hx
    exact ⟨hj, by simpa using hx⟩
  have hget' : ∀ j, j < m → ((List.range m).map fun j : ℕ => R.deltaKnot l δ (j + 1))[j]? = some (R.deltaKnot l δ (j + 1)) := by
    intro j hj
    rw [List.getElem?_map, List.getElem?_range hj]
    rfl
  have hlen : ((List.range m).map fun j : ℕ => R.deltaKnot l δ (j + 1)).length = m := by simp
  refine ⟨_, _, _, _, hdr, ?_, by rw [hlen]; exact hm, hget' (k - 1) (by omega), by rw [hlen]; exact hget' (m - k) (by omega), ?_, ?_, ?_, ?_⟩
  · rw [List.pairwise_map]
    refine List.Pairwise.imp_of_mem ?_ List.pairwise_lt_range
    intro i j hi hj hij
    rw [List.mem_range] at hi hj
    have h3 := cs (i + 1) (h1 _ (by omega))
    rw [abs_le] at h3
    have h4 : R.deltaKnot l δ (i + 1 + 1) ≤ R.deltaKnot l δ (j + 1) := R.deltaKnot_mono hlf hd0.le (by omega)
    linarith [h3.1]
  · intro x hx
    obtain ⟨j, -, rfl⟩ := List.mem_map.1 hx
    exact R.deltaKnot_float hlf δ _
  · intro j x y hx hy
    obtain ⟨hj, rfl⟩ := hget j x hx
    obtain ⟨hj', rfl⟩ := hget _ y hy
    have := cs (j + 1) (h1 _ (by omega))
    rwa [← sub_sub] at this
  · rw [Nat.sub_add_cancel hk]
    have h3 := css 0 k (fun j hj => h1 j (by omega))
    rw [Nat.zero_add, hx0, abs_le] at h3
    rw [abs_le] at c1 ⊢
    constructor <;> linarith [h3.1, h3.2, c1.1, c1.2]
  · have hkc : ((k - 1 : ℕ) : K) = k - 1 := by rw [Nat.cast_sub hk]; simp
    have h3 := css (m - k + 1) (k - 1) (fun j hj => h1 j (by omega))
    rw [show m - k + 1 + (k - 1) = m by omega, hkc, abs_le] at h3
    have h4 := css (m - k) (k - 1) (fun j hj => h1 j (by omega))
    rw [show m - k + (k - 1) = m - 1 by omega, hkc, abs_le] at h4
    have h5 := cs (m - k) (h1 _ (by omega))
    have h6 := h1 (m - 1) (by omega)
    rw [abs_le] at c2 h5
    constructor <;> linarith [h3.2, h4.1, c2.1, c2.2, h5.2]

theorem drain_congr {σ T : Type*} {has : σ → Prop} {next next' : σ → T × σ} (I : σ → Prop)
    (hI : ∀ g, I g → has g → next g = next' g ∧ I (next g).2) {g g' : σ} {ks : List T} (h : Drain has next g ks g') (hg : I g) :
    Drain has next' g ks g' := by
  induction h with
  | stop g h => exact Drain.stop g h
  | step g g' ks h _ ih =>
    obtain ⟨h1, h2⟩ := hI g hg h
    have h3 := ih h2
    rw [h1] at h3 ⊢
    exact Drain.step g g' ks h h3

/-- **C86.** For times that are integers (and do not exceed 2^53) nothing is rounded and the property holds in full. -/
theorem C86_integers [Archimedean K] (k : ℕ) (hk : 1 ≤ k) (a b d : ℤ) (hd : 0 < d) (hab : a < b) (hsize : |a| + |b| + k * d ≤ 2 ^ 53) :
    R.GeneratesInterval k (a : K) b d := by
  have hdK : (0 : K) < d := by exact_mod_cast hd
  have habK : (a : K) < b := by exact_mod_cast hab
  obtain ⟨g', ks, d1, d2, d3, d4, d5, ⟨e, d6, d7⟩, ⟨e', d8, d9⟩⟩ := C33_delta_generator k hk (a : K) b d hdK habK
  have hprev := d3 (ks.length - k - 1) e' e d8 (by rw [show ks.length - k - 1 + 1 = ks.length - k by omega]; exact d6)
  have a1 := neg_abs_le a
  have a2 := le_abs_self a
  have b1 := neg_abs_le b
  have b2 := le_abs_self b
  have a3 := abs_nonneg a
  have b3 := abs_nonneg b
  have hkd : d ≤ k * d := le_mul_of_one_le_left hd.le (by exact_mod_cast hk)
  have hsc : ∀ x m : ℤ, |d * m| ≤ 2 ^ 53 → |x + d * m| ≤ 2 ^ 53 → R.addScaledDuration (x : K) (d : K) m = ((x + d * m : ℤ) : K) := by
    intro x m h1 h2
    unfold addScaledDuration add mul
    rw [show (d : K) * m = ((d * m : ℤ) : K) by push_cast; rfl, R.int _ h1,
      show (x : K) + ((d * m : ℤ) : K) = ((x + d * m : ℤ) : K) by push_cast; rfl, R.int _ h2]
  have ecreate : R.deltaCreate (k : ℤ) (a : K) b d false = DeltaGen.create (k : ℤ) (a : K) b d false := by
    unfold deltaCreate DeltaGen.create firstLastKnot preambleKnots
    have h1 : |d * -(k : ℤ)| ≤ 2 ^ 53 := by rw [abs_le]; constructor <;> nlinarith
    have h2 : |a + d * -(k : ℤ)| ≤ 2 ^ 53 := by rw [abs_le]; constructor <;> nlinarith
    have h3 : |d * ((k : ℤ) - 1)| ≤ 2 ^ 53 := by rw [abs_le]; constructor <;> nlinarith
    have h4 : |b + d * ((k : ℤ) - 1)| ≤ 2 ^ 53 := by rw [abs_le]; constructor <;> nlinarith
    have e1 := hsc a (-(k : ℤ)) h1 h2
    have e2 := hsc b ((k : ℤ) - 1) h3 h4
    simp only [Bool.false_eq_true, if_false, sub_add_cancel]
    rw [e1, e2]
    unfold Verif.addScaledDuration
    congr 1 <;> push_cast <;> ring
  refine ⟨ks, g', a, e, ?_, d2, d4, d5, d6, rfl, d7, by linarith⟩
  rw [ecreate]
  refine drain_congr (fun g : DeltaGen K => g.delta = d ∧ g.beyond = ((b + d * (k - 1) : ℤ) : K) ∧ ∃ z : ℤ, g.lastKnot = z ∧ |z| ≤ 2 ^ 53)
    ?_ d1 ⟨rfl, ?_, ⟨a - k * d, ?_, ?_⟩⟩
  · rintro ⟨o, δ, l, B⟩ ⟨rfl, rfl, z, hz, hz2⟩ hh
    dsimp only at hz
    subst hz
    have hlt : z < b + d * (k - 1) := by
      have : (z : K) < ((b + d * (k - 1) : ℤ) : K) := hh
      exact_mod_cast this
    have hz3 : |z + d * 1| ≤ 2 ^ 53 := by
      rw [abs_le] at hz2 ⊢
      constructor <;> nlinarith [hz2.1]
    have e1 := hsc z 1 (by rw [mul_one, abs_of_pos hd]; linarith) hz3
    have e2 : Verif.addScaledDuration (z : K) (d : K) 1 = ((z + d * 1 : ℤ) : K) := by
      unfold Verif.addScaledDuration
      push_cast
      ring
    constructor
    · unfold DeltaGen.next deltaNext
      dsimp only
      rw [e1, e2]
    · exact ⟨rfl, rfl, z + d * 1, e2, hz3⟩
  · simp only [DeltaGen.create, Verif.addScaledDuration]
    push_cast
    ring
  · simp only [DeltaGen.create, firstLastKnot, preambleKnots, Verif.addScaledDuration, Bool.false_eq_true, if_false]
    push_cast
    ring
  · rw [abs_le]
    constructor <;> nlinarith

end Rounding

/-- **C86** for the fit in full would be: initialising with a knot distance in floating point succeeds and gives the curve of least cost.
Proved if the valid interval of the knots generated contains the data.  Missing: data outside of it by a rounding error, which is
rejected, `C86_fit_violated`. -/
theorem C86_fit_partial (R : Rounding ℝ) {D : ℕ} (dense : Bool) (solve : Solver ℝ) (hsolve : SolvesSemidefinite solve) (k : ℕ) (hk : 1 ≤ k)
    (hD : 1 ≤ D) (δ : ℝ) (times : List ℝ) (points : List (Fin D → ℝ)) (t0 tl : ℝ)
    (hlen : times.length = points.length) (hnum : 2 ≤ points.length) (ht0 : times.head? = some t0) (htl : times.getLast? = some tl)
    (hbd : ∀ t ∈ times, t0 ≤ t ∧ t ≤ tl) (hs : R.IsFloat t0) (hb : R.IsFloat tl) (hd : R.IsFloat δ) (hd0 : 0 < δ)
    (hlong : 2 * R.stepError k t0 tl δ < δ) (hdur : (2 * k + 2) * R.stepError k t0 tl δ < tl - t0) (lambda : ℝ) (hlam : 0 ≤ lambda) :
    ∃ ks g' tmin tmax, Drain DeltaGen.hasNext R.deltaNext (R.deltaCreate (k : ℤ) t0 tl δ false) ks g' ∧
      ks[k - 1]? = some tmin ∧ ks[ks.length - k]? = some tmax ∧ |tmin - t0| ≤ (k + 2) * R.stepError k t0 tl δ ∧ tl - (k + 1) * R.stepError k t0 tl δ ≤ tmax ∧
      (tmin ≤ t0 → tl ≤ tmax → ∃ (s : MSpline ℝ (Fin D → ℝ)) (v : ℕ → Fin D → ℝ) (i0 il : ℕ),
        (∀ r, R.InitDeltaFit dense solve id (euclidean ℝ (Fin D → ℝ)) times points δ lambda (MSpline.create k) r ↔ r = (.ok g', s.withVerts v)) ∧
        s.keys = ks ∧ s.order = k ∧ s.state = .evaluable ∧ s.getMinTime = .ok tmin ∧ s.getMaxTime = .ok tmax ∧
        MSpline.RegularReach (euclidean ℝ (Fin D → ℝ)) k s ∧ s.InSeg t0 i0 ∧ s.InSeg tl il ∧
        ∀ v' : ℕ → Fin D → ℝ, (∀ j, ¬ (i0 + 1 - k ≤ j ∧ j ≤ il) → v' j = v j) →
          (s.withVerts v).fitterCost (times.zip points) none lambda tmin tmax
            ≤ (s.withVerts v').fitterCost (times.zip points) none lambda tmin tmax) := by
  obtain ⟨ks, g', tmin, tmax, h1, h2, h3, h4, h5, -, -, h8, h9, -⟩ := R.C86_generator_partial k t0 tl δ hk hs hb hd hd0 hlong hdur
  refine ⟨ks, g', tmin, tmax, h1, h4, h5, h8, h9, fun a1 a2 => ?_⟩
  obtain ⟨s, v, i0, il, r1, rfl, r3, r4, r5, r6, r7, r8, -⟩ := MSpline.C38_init_optimal dense solve hsolve k hk hD ks h2 h3 tmin tmax h4 h5
    none times points t0 tl hlen hnum (by simp) ht0 htl hbd a1 a2 lambda hlam
  obtain ⟨h, -⟩ := r4.mwf hk
  have hne := h.enough r3
  refine ⟨s, v, i0, il, fun r => ?_, r1, rfl, r3, ?_, ?_, r4, r5, r6, r8⟩
  · unfold Rounding.InitDeltaFit
    have hc : (MSpline.create s.order : MSpline ℝ (Fin D → ℝ)).state = .constructing := rfl
    have hcr : (MSpline.create s.order : MSpline ℝ (Fin D → ℝ)).order = s.order := rfl
    rw [hc, ht0, htl, hcr]
    dsimp only
    rw [if_neg (by omega), if_neg (by rw [MSpline.timesBounded_of ht0 htl hbd]; simp [hlen])]
    constructor
    · rintro ⟨ks₁, g₁, h1', rfl⟩
      obtain ⟨rfl, rfl⟩ := h1'.unique h1
      rw [r7]
      rfl
    · rintro rfl
      exact ⟨_, _, h1, by rw [r7]; rfl⟩
  · rw [MSpline.getMinTime_eq h r3]
    rw [← r1, MSpline.kn_getElem s (by omega), Option.some.injEq] at h4
    rw [h4]
  · rw [MSpline.getMaxTime_eq h r3]
    rw [← r1, MSpline.kn_getElem s (by omega), Option.some.injEq] at h5
    rw [h5]

/-! ### What goes wrong -/

/-- **C86** is violated for distances too small for the size of the times: with knots every 10^-7 from time 1.5 * 10^9 on, in double
precision, the last knot does not change any more and the loop never ends. -/
theorem C86_ends_violated : ¬ ∃ ks g', Drain DeltaGen.hasNext Rounding.ieee.deltaNext
    (Rounding.ieee.deltaCreate 4 (1500000000 : ℚ) 1500000001 (double (1 / 10000000)) false) ks g' :=
  Rounding.ieee.C86_stuck _ (by decide +kernel) (by decide +kernel)

/-- The knots every 0.3 from 0 to 0.9, and from 10 to 11, in double precision. -/
def ninetyKnots : List ℚ := (List.range 6).map fun j : ℕ =>
  Rounding.ieee.deltaKnot (Rounding.ieee.deltaCreate 2 (0 : ℚ) (double (9 / 10)) (double (3 / 10)) false).lastKnot (double (3 / 10)) (j + 1)

@[inherit_doc ninetyKnots]
def elevenKnots : List ℚ := (List.range 7).map fun j : ℕ =>
  Rounding.ieee.deltaKnot (Rounding.ieee.deltaCreate 2 (10 : ℚ) 11 (double (3 / 10)) false).lastKnot (double (3 / 10)) (j + 1)

theorem ninety_drain : ∃ g', Drain DeltaGen.hasNext Rounding.ieee.deltaNext
    (Rounding.ieee.deltaCreate ((2 : ℕ) : ℤ) (0 : ℚ) (double (9 / 10)) (double (3 / 10)) false) ninetyKnots g' :=
  ⟨_, Rounding.ieee.delta_drain 2 (double (3 / 10)) _ 6 _ (by decide +kernel) (by decide +kernel)⟩

theorem eleven_drain : ∃ g', Drain DeltaGen.hasNext Rounding.ieee.deltaNext
    (Rounding.ieee.deltaCreate ((2 : ℕ) : ℤ) (10 : ℚ) 11 (double (3 / 10)) false) elevenKnots g' :=
  ⟨_, Rounding.ieee.delta_drain 2 (double (3 / 10)) _ 7 _ (by decide +kernel) (by decide +kernel)⟩

/-- **C86** is violated: the valid interval of the knots every 0.3 from 0 to 0.9 ends before 0.9, that of the knots every 0.3 from 10 to 11
starts after 10. -/
theorem C86_interval_violated :
    (¬ Rounding.ieee.GeneratesInterval 2 (0 : ℚ) (double (9 / 10)) (double (3 / 10)) ∧
      ninetyKnots[ninetyKnots.length - 2]? = some (double (9 / 10) - 1 / 2 ^ 53)) ∧
    ¬ Rounding.ieee.GeneratesInterval 2 (10 : ℚ) 11 (double (3 / 10)) ∧ elevenKnots[2 - 1]? = some (10 + 1 / 2 ^ 49) := by
  have e1 : ninetyKnots[ninetyKnots.length - 2]? = some (double (9 / 10) - 1 / 2 ^ 53) := by decide +kernel
  have e2 : elevenKnots[2 - 1]? = some (10 + 1 / 2 ^ 49) := by decide +kernel
  refine ⟨⟨?_, e1⟩, ?_, e2⟩
  · rintro ⟨ks, g', tmin, tmax, h1, -, -, -, h5, -, h7, -⟩
    obtain ⟨g, hg⟩ := ninety_drain
    obtain ⟨rfl, -⟩ := h1.unique hg
    rw [e1, Option.some.injEq] at h5
    rw [← h5] at h7
    norm_num at h7
  · rintro ⟨ks, g', tmin, tmax, h1, -, -, h4, -, h6, -⟩
    obtain ⟨g, hg⟩ := eleven_drain
    obtain ⟨rfl, -⟩ := h1.unique hg
    rw [e2, Option.some.injEq] at h4
    rw [← h4] at h6
    norm_num at h6

/-- **C86** is violated for the fit: it throws for its own last, or its own first, data time, and leaves the spline initialised, so that it
cannot be initialised any more. -/
theorem C86_fit_violated (dense : Bool) :
    (∃ s, (∀ r, Rounding.ieee.InitDeltaFit dense diagonalSolver id (euclidean ℚ (Fin 1 → ℚ)) [0, double (9 / 10)] [![1], ![1]] (double (3 / 10)) 0
        (MSpline.create 2) r ↔ r = (.throws, s)) ∧ s.state = .evaluable ∧
        ∀ minT maxT times points n lambda, Rounding.ieee.initUniformFit dense diagonalSolver id (euclidean ℚ (Fin 1 → ℚ)) minT maxT times points n
          lambda s = (.throws, s)) ∧
    ∃ s, (∀ r, Rounding.ieee.InitDeltaFit dense diagonalSolver id (euclidean ℚ (Fin 1 → ℚ)) [10, 11] [![1], ![1]] (double (3 / 10)) 0
        (MSpline.create 2) r ↔ r = (.throws, s)) ∧ s.state = .evaluable := by
  have key : ∀ (t0 tl : ℚ) (ks : List ℚ), timesBounded [t0, tl] = true → (∃ g', Drain DeltaGen.hasNext Rounding.ieee.deltaNext
        (Rounding.ieee.deltaCreate ((2 : ℕ) : ℤ) t0 tl (double (3 / 10)) false) ks g') →
      ((MSpline.create 2).fitInit dense diagonalSolver id (euclidean ℚ (Fin 1 → ℚ)) ks none [t0, tl] [![1], ![1]] 0).1 = .throws →
      ∀ r, Rounding.ieee.InitDeltaFit dense diagonalSolver id (euclidean ℚ (Fin 1 → ℚ)) [t0, tl] [![1], ![1]] (double (3 / 10)) 0
        (MSpline.create 2) r ↔
        r = (.throws, ((MSpline.create 2).fitInit dense diagonalSolver id (euclidean ℚ (Fin 1 → ℚ)) ks none [t0, tl] [![1], ![1]] 0).2) := by
    rintro t0 tl ks hlt ⟨g', hd⟩ ht r
    unfold Rounding.InitDeltaFit
    have hc : (MSpline.create 2 : MSpline ℚ (Fin 1 → ℚ)).state = .constructing := rfl
    have hcr : (MSpline.create 2 : MSpline ℚ (Fin 1 → ℚ)).order = 2 := rfl
    have hh : ([t0, tl] : List ℚ).head? = some t0 := rfl
    have hl : ([t0, tl] : List ℚ).getLast? = some tl := rfl
    rw [hc, hh, hl, hcr]
    dsimp only
    rw [if_neg (by simp), if_neg (by rw [hlt]; simp)]
    constructor
    · rintro ⟨ks', g, h1, rfl⟩
      obtain ⟨rfl, rfl⟩ := h1.unique hd
      rw [ht]
      rfl
    · rintro rfl
      exact ⟨_, _, hd, by rw [ht]; rfl⟩
  have t1 : ((MSpline.create 2).fitInit dense diagonalSolver id (euclidean ℚ (Fin 1 → ℚ)) ninetyKnots none [0, double (9 / 10)] [![1], ![1]] 0).1
      = .throws := by cases dense <;> decide +kernel
  have t2 : ((MSpline.create 2).fitInit dense diagonalSolver id (euclidean ℚ (Fin 1 → ℚ)) elevenKnots none [10, 11] [![1], ![1]] 0).1
      = .throws := by cases dense <;> decide +kernel
  have s1 : ((MSpline.create 2).fitInit dense diagonalSolver id (euclidean ℚ (Fin 1 → ℚ)) ninetyKnots none [0, double (9 / 10)] [![1], ![1]] 0).2.state
      = .evaluable := by cases dense <;> decide +kernel
  have s2 : ((MSpline.create 2).fitInit dense diagonalSolver id (euclidean ℚ (Fin 1 → ℚ)) elevenKnots none [10, 11] [![1], ![1]] 0).2.state
      = .evaluable := by cases dense <;> decide +kernel
  refine ⟨⟨_, key _ _ _ (by decide +kernel) ninety_drain t1, s1, ?_⟩, ⟨_, key _ _ _ (by decide +kernel) eleven_drain t2, s2⟩⟩
  intro minT maxT times points n lambda
  unfold Rounding.initUniformFit
  rw [s1]

/-! ### Without rounding -/

/-- **C86.** Without rounding the generator and the fit are those of the model in exact arithmetic. -/
theorem C86_exact {K : Type*} [Field K] [LinearOrder K] [IsStrictOrderedRing K] {D : ℕ} (k : ℤ) (start beyond δ t : K) (b : Bool)
    (g : DeltaGen K) (dense : Bool) (solve : Solver K) (project : (Fin D → K) → Fin D → K)
    (M : Mfd K (Fin D → K) (Fin D → K)) (times : List K) (points : List (Fin D → K)) (lambda : K) (s : MSpline K (Fin D → K))
    (r : Outcome (DeltaGen K) × MSpline K (Fin D → K)) :
    Rounding.exact.deltaCreate k start beyond δ b = DeltaGen.create k start beyond δ b ∧ Rounding.exact.deltaNext g = g.next ∧
      Rounding.exact.deltaExtend g t = g.extendBeyond t ∧
      (Rounding.exact.InitDeltaFit dense solve project M times points δ lambda s r ↔ s.InitDeltaFit dense solve project M times points δ lambda r) :=
  ⟨rfl, rfl, rfl, Iff.rfl⟩

/-! ### Examples -/

/-- Not vacuous: knots every 0.1 from 1.5 * 10^9 for ten seconds, order four, in double precision; and every second. -/
example : Rounding.ieee.IsFloat (double (1 / 10 : ℚ)) ∧ 2 * Rounding.ieee.stepError 4 (1500000000 : ℚ) 1500000010 (double (1 / 10)) < double (1 / 10) ∧
    (2 * ((4 : ℕ) : ℚ) + 2) * Rounding.ieee.stepError 4 (1500000000 : ℚ) 1500000010 (double (1 / 10)) < 1500000010 - 1500000000 := by
  unfold Rounding.IsFloat
  decide +kernel

example : Rounding.ieee.GeneratesInterval 4 ((1500000000 : ℤ) : ℚ) ((1500000010 : ℤ) : ℚ) ((1 : ℤ) : ℚ) :=
  Rounding.ieee.C86_integers 4 (by omega) _ _ _ (by omega) (by omega) (by norm_num)

/-- Not vacuous: the fit of three points at whole seconds. -/
example : ∃ (s : MSpline ℝ (Fin 1 → ℝ)) (v : ℕ → Fin 1 → ℝ) (g' : DeltaGen ℝ),
    Rounding.ieee.InitDeltaFit true choiceSolver id (euclidean ℝ (Fin 1 → ℝ)) [0, 3, 5] [![1], ![4], ![2]] 2 (1 / 10) (MSpline.create 3)
      (.ok g', s.withVerts v) := by
  have fi : ∀ m : ℤ, |m| ≤ 2 ^ 53 → Rounding.ieee.IsFloat (m : ℝ) := fun m hm => double_int m hm
  have f0 := fi 0 (by norm_num)
  have f5 := fi 5 (by norm_num)
  have f2 := fi 2 (by norm_num)
  push_cast at f0 f5 f2
  have eps : (Rounding.ieee (K := ℝ)).eps ≤ 1 / 2 ^ 53 := Rounding.ieee.eps_le
  have hG := (Rounding.ieee (K := ℝ)).C86_integers 3 (by omega) 0 5 2 (by omega) (by omega) (by norm_num)
  push_cast at hG
  obtain ⟨ks₁, g₁, tmin₁, tmax₁, c1, -, -, c4, c5, c6, c7, -⟩ := hG
  obtain ⟨ks, g', tmin, tmax, h1, h4, h5, -, -, h3⟩ := C86_fit_partial Rounding.ieee true choiceSolver choiceSolver_semidefinite 3 (by omega)
    (show 1 ≤ 1 by omega) 2 [0, 3, 5] [![1], ![4], ![2]] 0 5 rfl (by simp) rfl rfl (by simp; norm_num) f0 f5 f2 (by norm_num)
    (by unfold Rounding.stepError Rounding.deltaSize; push_cast; norm_num at eps ⊢; linarith)
    (by unfold Rounding.stepError Rounding.deltaSize; push_cast; norm_num at eps ⊢; linarith) (1 / 10) (by norm_num)
  obtain ⟨rfl, rfl⟩ := c1.unique h1
  rw [c4, Option.some.injEq] at h4
  rw [c5, Option.some.injEq] at h5
  obtain ⟨s, v, i0, il, h, -⟩ := h3 (by rw [← h4, c6]) (by rw [← h5]; exact c7)
  exact ⟨s, v, _, (h _).2 rfl⟩

end Verif
