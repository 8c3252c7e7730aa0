import Verif.Model.Fitter
import Verif.Lemmas.LeastSquares

/-!
# Algebra of the fitter: quadratic functions, overlapping blocks
-/

set_option linter.unusedSectionVars false

namespace Verif

open Finset

variable {K : Type*} [Field K] [LinearOrder K] [IsStrictOrderedRing K]

/-! ### Quadratic functions bounded below -/

/-- A system is solvable if its right hand side is orthogonal to the null vectors of its form. -/
theorem form_solvable (n : ℕ) (T : Mat K) (b : ℕ → K)
    (h : ∀ z, bil n T z z = 0 → ∑ p ∈ range n, z p * b p = 0) : ∃ x, ∀ r < n, mulV n T x r = b r := by
  classical
  let ext : (Fin n → K) → ℕ → K := fun x q => if h : q < n then x ⟨q, h⟩ else 0
  have ext_val : ∀ (x : Fin n → K) (q : Fin n), ext x q = x q := fun x q => by simp [ext]
  let L : (Fin n → K) →ₗ[K] (Fin n → K) :=
    { toFun := fun x r => mulV n T (ext x) r
      map_add' := by
        intro x y
        funext r
        simp only [Pi.add_apply]
        unfold mulV
        rw [← sum_add_distrib]
        refine sum_congr rfl fun q hq => ?_
        have := mem_range.1 hq
        simp only [ext, this, dif_pos, Pi.add_apply]
        ring
      map_smul' := by
        intro a x
        funext r
        simp only [Pi.smul_apply, smul_eq_mul, RingHom.id_apply]
        unfold mulV
        rw [mul_sum]
        refine sum_congr rfl fun q hq => ?_
        have := mem_range.1 hq
        simp only [ext, this, dif_pos, Pi.smul_apply, smul_eq_mul]
        ring }
  have hmem : (fun r : Fin n => b r) ∈ LinearMap.range L := by
    by_contra hnot
    obtain ⟨f, hf1, hf2⟩ := Submodule.exists_dual_map_eq_bot_of_notMem hnot inferInstance
    have hf0 : ∀ x, f (L x) = 0 := by
      intro x
      have : f (L x) ∈ Submodule.map f (LinearMap.range L) := ⟨L x, ⟨x, rfl⟩, rfl⟩
      rw [hf2] at this
      simpa using this
    set z : Fin n → K := fun q => f (Pi.single q 1) with hz
    have hfz : ∀ v : Fin n → K, f v = ∑ p ∈ range n, ext z p * ext v p := by
      intro v
      rw [LinearMap.pi_apply_eq_sum_univ f v, Finset.sum_range]
      refine sum_congr rfl fun p _ => ?_
      rw [ext_val, ext_val, hz, smul_eq_mul, mul_comm]
      congr 2
      funext j
      simp [Pi.single_apply, eq_comm]
    have hTz : bil n T (ext z) (ext z) = 0 := by
      have := hf0 z
      rw [hfz] at this
      rw [bil_eq_dot, ← this]
      refine sum_congr rfl fun p hp => ?_
      congr 1
      have := mem_range.1 hp
      simp only [L, ext, this, dif_pos, LinearMap.coe_mk, AddHom.coe_mk]
    apply hf1
    rw [hfz, ← h _ hTz]
    refine sum_congr rfl fun p hp => ?_
    have := mem_range.1 hp
    simp only [ext, this, dif_pos]
  obtain ⟨x, hx⟩ := hmem
  exact ⟨ext x, fun r hr => congrFun hx ⟨r, hr⟩⟩

theorem bil_smul_smul (n : ℕ) (T : Mat K) (a : K) (x : ℕ → K) :
    bil n T (fun p => a * x p) (fun p => a * x p) = a ^ 2 * bil n T x x := by
  unfold bil
  rw [mul_sum]
  refine sum_congr rfl fun p _ => ?_
  rw [mul_sum]
  exact sum_congr rfl fun q _ => by ring

theorem dot_smul (n : ℕ) (a : K) (x b : ℕ → K) :
    ∑ p ∈ range n, a * x p * b p = a * ∑ p ∈ range n, x p * b p := by
  rw [mul_sum]
  exact sum_congr rfl fun q _ => by ring

/-- A quadratic function bounded below has a positive semidefinite quadratic part. -/
theorem quad_psd (n : ℕ) (T : Mat K) (b : ℕ → K) (c0 : K)
    (hF : ∀ x, c0 ≤ bil n T x x - 2 * ∑ p ∈ range n, x p * b p) (x : ℕ → K) : 0 ≤ bil n T x x := by
  by_contra hc
  push Not at hc
  have hs : ∀ a : K, c0 ≤ a ^ 2 * bil n T x x := by
    intro a
    have h1 := hF (fun p => a * x p)
    have h2 := hF (fun p => -a * x p)
    rw [bil_smul_smul, dot_smul] at h1 h2
    have e : (-a) ^ 2 = a ^ 2 := by ring
    rw [e] at h2
    linarith
  rcases le_or_gt 0 c0 with h0 | h0
  · have := hs 1
    linarith
  · have hr : 0 < c0 / bil n T x x := div_pos_of_neg_of_neg h0 hc
    have := hs (1 + c0 / bil n T x x)
    have e : c0 / bil n T x x * bil n T x x = c0 := div_mul_cancel₀ _ hc.ne
    nlinarith [mul_neg_of_pos_of_neg hr hc, mul_pos hr hr]

/-- A quadratic function bounded below has a stationary point. -/
theorem quad_solvable (n : ℕ) (T : Mat K) (b : ℕ → K) (c0 : K)
    (hF : ∀ x, c0 ≤ bil n T x x - 2 * ∑ p ∈ range n, x p * b p) : ∃ x, ∀ r < n, mulV n T x r = b r := by
  refine form_solvable n T b fun z hz => ?_
  by_contra hne
  have h1 := hF (fun p => ((1 - c0) / (2 * ∑ p ∈ range n, z p * b p)) * z p)
  rw [bil_smul_smul, dot_smul, hz] at h1
  have e : 2 * ((1 - c0) / (2 * ∑ p ∈ range n, z p * b p) * ∑ p ∈ range n, z p * b p) = 1 - c0 := by
    field_simp
  rw [e] at h1
  linarith [hF (fun _ => 0), show bil n T (fun _ => (0 : K)) (fun _ => 0) = 0 by simp [bil],
    show ∑ p ∈ range n, (fun _ => (0 : K)) p * b p = 0 by simp]

/-- A stationary point of a quadratic function with semidefinite quadratic part is a minimum. -/
theorem quad_optimal (n : ℕ) (T : Mat K) (b x : ℕ → K) (hsym : ∀ x y, bil n T x y = bil n T y x) (hpsd : ∀ x, 0 ≤ bil n T x x)
    (hx : ∀ r < n, mulV n T x r = b r) (y : ℕ → K) :
    bil n T x x - 2 * ∑ p ∈ range n, x p * b p ≤ bil n T y y - 2 * ∑ p ∈ range n, y p * b p := by
  have h1 := hpsd (fun q => y q - x q)
  rw [bil_sub_sub, hsym x y] at h1
  have hd : ∀ z : ℕ → K, bil n T z x = ∑ p ∈ range n, z p * b p := by
    intro z
    rw [bil_eq_dot]
    exact sum_congr rfl fun p hp => by rw [hx p (mem_range.1 hp)]
  rw [hd] at h1 ⊢
  rw [hd] at h1
  linarith

/-- A symmetric form has a symmetric matrix. -/
theorem mat_symm_of_bil (n : ℕ) (T : Mat K) (hsym : ∀ x y, bil n T x y = bil n T y x) : ∀ p < n, ∀ q < n, T p q = T q p := by
  have unit : ∀ p q, p < n → q < n →
      bil n T (fun a => if a = p then 1 else 0) (fun b => if b = q then 1 else 0) = T p q := by
    intro p q hp hq
    unfold bil
    rw [Finset.sum_eq_single p, Finset.sum_eq_single q]
    · simp
    · intro b _ hb; simp [hb]
    · intro h; exact absurd (mem_range.2 hq) h
    · intro a _ ha; simp [ha]
    · intro h; exact absurd (mem_range.2 hp) h
  intro p hp q hq
  rw [← unit p q hp hq, ← unit q p hq hp, hsym]

/-! ### Overlapping blocks -/

theorem sum_shift_blocks (n k : ℕ) (br : ℤ) (G : ℕ → ℕ → K) :
    ∑ c ∈ range n, (if br ≤ (c : ℤ) ∧ (c : ℤ) < br + k then G ((c : ℤ) - br).toNat c else 0)
      = ∑ j ∈ range k, if 0 ≤ (j : ℤ) + br ∧ (j : ℤ) + br < n then G j ((j : ℤ) + br).toNat else 0 := by
  rw [← sum_filter, ← sum_filter]
  refine sum_nbij' (fun c => ((c : ℤ) - br).toNat) (fun j => ((j : ℤ) + br).toNat) ?_ ?_ ?_ ?_ ?_
  · intro c hc
    simp only [mem_filter, mem_range] at hc ⊢
    omega
  · intro c hc
    simp only [mem_filter, mem_range] at hc ⊢
    omega
  · intro c hc
    simp only [mem_filter, mem_range] at hc ⊢
    omega
  · intro c hc
    simp only [mem_filter, mem_range] at hc ⊢
    omega
  · intro c hc
    simp only [mem_filter, mem_range] at hc
    congr 1
    omega

theorem stack_div {D : ℕ} (c r : ℕ) (hr : r < D) : (c * D + r) / D = c := by
  rw [Nat.add_comm, Nat.add_mul_div_right _ _ (by omega), Nat.div_eq_of_lt hr, Nat.zero_add]

theorem stack_mod {D : ℕ} (c r : ℕ) (hr : r < D) : (c * D + r) % D = r := by
  rw [Nat.add_comm, Nat.add_mul_mod_self_right, Nat.mod_eq_of_lt hr]

theorem stack_shift {D : ℕ} (c r : ℕ) (br : ℤ) (h : 0 ≤ (c : ℤ) + br) :
    (((c * D + r : ℕ) : ℤ) + br * D).toNat = ((c : ℤ) + br).toNat * D + r := by
  obtain ⟨m, hm⟩ := Int.eq_ofNat_of_zero_le h
  have e : ((c * D + r : ℕ) : ℤ) + br * D = ((m * D + r : ℕ) : ℤ) := by
    have : br = (m : ℤ) - c := by omega
    rw [this]
    push_cast
    ring
  rw [e, hm, Int.toNat_natCast, Int.toNat_natCast]

theorem sum_shift (n k D : ℕ) (br : ℤ) (H : ℕ → ℕ → K) :
    ∑ p ∈ range (n * D), (if br ≤ ((p / D : ℕ) : ℤ) ∧ ((p / D : ℕ) : ℤ) < br + k then H ((p : ℤ) - br * D).toNat p else 0)
      = ∑ q ∈ range (k * D), if 0 ≤ ((q / D : ℕ) : ℤ) + br ∧ ((q / D : ℕ) : ℤ) + br < n then H q ((q : ℤ) + br * D).toNat else 0 := by
  rw [sum_stacked, sum_stacked]
  have e1 : ∀ c ∈ range n, ∑ r ∈ range D,
      (if br ≤ (((c * D + r) / D : ℕ) : ℤ) ∧ (((c * D + r) / D : ℕ) : ℤ) < br + k
        then H (((c * D + r : ℕ) : ℤ) - br * D).toNat (c * D + r) else 0)
      = if br ≤ (c : ℤ) ∧ (c : ℤ) < br + k then ∑ r ∈ range D, H (((c : ℤ) - br).toNat * D + r) (c * D + r) else 0 := by
    intro c _
    split_ifs with h
    · refine sum_congr rfl fun r hr => ?_
      rw [stack_div c r (mem_range.1 hr), if_pos h]
      have := stack_shift (D := D) c r (-br) (by omega)
      rw [neg_mul, ← sub_eq_add_neg, ← sub_eq_add_neg] at this
      rw [this]
    · exact sum_eq_zero fun r hr => by rw [stack_div c r (mem_range.1 hr), if_neg h]
  have e2 : ∀ j ∈ range k, ∑ r ∈ range D,
      (if 0 ≤ (((j * D + r) / D : ℕ) : ℤ) + br ∧ (((j * D + r) / D : ℕ) : ℤ) + br < n
        then H (j * D + r) (((j * D + r : ℕ) : ℤ) + br * D).toNat else 0)
      = if 0 ≤ (j : ℤ) + br ∧ (j : ℤ) + br < n then ∑ r ∈ range D, H (j * D + r) (((j : ℤ) + br).toNat * D + r) else 0 := by
    intro j _
    split_ifs with h
    · refine sum_congr rfl fun r hr => ?_
      rw [stack_div j r (mem_range.1 hr), if_pos h, stack_shift j r br h.1]
    · exact sum_eq_zero fun r hr => by rw [stack_div j r (mem_range.1 hr), if_neg h]
  rw [sum_congr rfl e1, sum_congr rfl e2]
  exact sum_shift_blocks n k br fun j c => ∑ r ∈ range D, H (j * D + r) (c * D + r)

/-- The part of the free vector `x` (of `n` blocks) seen by a segment whose first vertex is block `br`. -/
def extFree (n D : ℕ) (br : ℤ) (x : ℕ → K) : ℕ → K := fun q =>
  if 0 ≤ ((q / D : ℕ) : ℤ) + br ∧ ((q / D : ℕ) : ℤ) + br < n then x ((q : ℤ) + br * D).toNat else 0

theorem range_cond (n k : ℕ) (br : ℤ) (c : ℕ) (hc : c < n) :
    (max 0 br ≤ (c : ℤ) ∧ (c : ℤ) < max 0 br + (min (n : ℤ) (k + br) - 1 - max 0 br + 1)) ↔
      (br ≤ (c : ℤ) ∧ (c : ℤ) < br + k) := by
  omega

theorem div_lt_of_stacked {n D p : ℕ} (hp : p < n * D) : p / D < n :=
  Nat.div_lt_of_lt_mul (by rwa [Nat.mul_comm] at hp)

theorem addOverlap_bil (n k D : ℕ) (A Q : Mat K) (br : ℤ) (x y : ℕ → K) :
    bil (n * D) (MSpline.addOverlap D A Q br (max 0 br) (min (n : ℤ) (k + br) - 1 - max 0 br + 1)) x y
      = bil (n * D) A x y + bil (k * D) Q (extFree n D br x) (extFree n D br y) := by
  have e1 : ∀ p ∈ range (n * D), ∀ q ∈ range (n * D),
      x p * MSpline.addOverlap D A Q br (max 0 br) (min (n : ℤ) (k + br) - 1 - max 0 br + 1) p q * y q
        = x p * A p q * y q + if br ≤ ((p / D : ℕ) : ℤ) ∧ ((p / D : ℕ) : ℤ) < br + k then
            (if br ≤ ((q / D : ℕ) : ℤ) ∧ ((q / D : ℕ) : ℤ) < br + k then
              x p * Q ((p : ℤ) - br * D).toNat ((q : ℤ) - br * D).toNat * y q else 0) else 0 := by
    intro p hp q hq
    unfold MSpline.addOverlap
    simp only [range_cond n k br _ (div_lt_of_stacked (mem_range.1 hp)), range_cond n k br _ (div_lt_of_stacked (mem_range.1 hq))]
    rw [mul_add, add_mul]
    congr 1
    split_ifs with h1 h2 h3 h4
    · rfl
    · exact absurd h1.2 h3
    · exact absurd h1.1 h2
    · exact absurd ⟨h4, ‹_›⟩ h1
    · simp
    · simp
  unfold bil
  rw [sum_congr rfl fun p hp => sum_congr rfl (e1 p hp)]
  simp only [sum_add_distrib]
  congr 1
  have e2 : ∀ p ∈ range (n * D), (∑ q ∈ range (n * D), if br ≤ ((p / D : ℕ) : ℤ) ∧ ((p / D : ℕ) : ℤ) < br + k then
            (if br ≤ ((q / D : ℕ) : ℤ) ∧ ((q / D : ℕ) : ℤ) < br + k then
              x p * Q ((p : ℤ) - br * D).toNat ((q : ℤ) - br * D).toNat * y q else 0) else 0)
      = if br ≤ ((p / D : ℕ) : ℤ) ∧ ((p / D : ℕ) : ℤ) < br + k then
          ∑ q ∈ range (k * D), x p * Q ((p : ℤ) - br * D).toNat q * extFree n D br y q else 0 := by
    intro p _
    split_ifs with h
    · rw [sum_shift n k D br fun q' q => x p * Q ((p : ℤ) - br * D).toNat q' * y q]
      refine sum_congr rfl fun q _ => ?_
      unfold extFree
      split_ifs <;> simp
    · simp
  rw [sum_congr rfl e2, sum_shift n k D br fun p' p => ∑ q ∈ range (k * D), x p * Q p' q * extFree n D br y q]
  refine sum_congr rfl fun p _ => ?_
  split_ifs with h
  · refine sum_congr rfl fun q _ => ?_
    have : extFree n D br x p = x ((p : ℤ) + br * D).toNat := if_pos h
    rw [this]
  · have : extFree n D br x p = 0 := if_neg h
    simp [this]

/-- The fixed vertices of a segment as a stacked vector. -/
def fixedPart (n D : ℕ) (br : ℤ) (v : ℕ → ℕ → K) : ℕ → K := fun q =>
  if 0 ≤ ((q / D : ℕ) : ℤ) + br ∧ ((q / D : ℕ) : ℤ) + br < n then 0 else v (q / D) (q % D)

theorem subtractFixed_dot (n k D : ℕ) (b : ℕ → K) (Q : Mat K) (br : ℤ) (vs : List (Fin D → K)) (v : ℕ → ℕ → K)
    (hv : ∀ i < k, ∀ d : Fin D, vs.getD (k - 1 - i) 0 d = v i d) (x : ℕ → K) :
    ∑ p ∈ range (n * D), x p *
        MSpline.subtractFixed n k b Q br (max 0 br) (min (n : ℤ) (k + br) - 1 - max 0 br + 1) vs p
      = ∑ p ∈ range (n * D), x p * b p - bil (k * D) Q (extFree n D br x) (fixedPart n D br v) := by
  have e1 : ∀ p ∈ range (n * D), x p *
        MSpline.subtractFixed n k b Q br (max 0 br) (min (n : ℤ) (k + br) - 1 - max 0 br + 1) vs p
      = x p * b p + if br ≤ ((p / D : ℕ) : ℤ) ∧ ((p / D : ℕ) : ℤ) < br + k then
          -∑ q ∈ range (k * D), x p * Q ((p : ℤ) - br * D).toNat q * fixedPart n D br v q else 0 := by
    intro p hp
    unfold MSpline.subtractFixed
    simp only [range_cond n k br _ (div_lt_of_stacked (mem_range.1 hp))]
    rw [mul_add]
    congr 1
    split_ifs with h
    · rw [mul_neg, mul_sum, sum_stacked]
      congr 1
      refine sum_congr rfl fun i hi => ?_
      have hi' := mem_range.1 hi
      have hfx : (MSpline.fixedVertex n k br i = true) ↔ ¬ (0 ≤ (i : ℤ) + br ∧ (i : ℤ) + br < n) := by
        unfold MSpline.fixedVertex
        rw [Bool.or_eq_true, decide_eq_true_eq, decide_eq_true_eq]
        omega
      rw [Finset.sum_range fun r => x p * Q ((p : ℤ) - br * D).toNat (i * D + r) * fixedPart n D br v (i * D + r)]
      split_ifs with hf
      · rw [mul_sum]
        refine sum_congr rfl fun d _ => ?_
        unfold fixedPart
        rw [stack_div i d d.2, stack_mod i d d.2, if_neg (hfx.1 hf), hv i hi' d]
        ring
      · rw [mul_zero]
        refine (sum_eq_zero fun d _ => ?_).symm
        unfold fixedPart
        rw [stack_div i d d.2, if_pos (not_not.1 (fun hc => hf (hfx.2 hc))), mul_zero]
    · exact mul_zero _
  rw [sum_congr rfl e1, sum_add_distrib, sub_eq_add_neg]
  congr 1
  rw [sum_shift n k D br fun p' p => -∑ q ∈ range (k * D), x p * Q p' q * fixedPart n D br v q]
  unfold bil
  rw [← sum_neg_distrib]
  refine sum_congr rfl fun p _ => ?_
  split_ifs with h
  · have : extFree n D br x p = x ((p : ℤ) + br * D).toNat := if_pos h
    rw [this]
  · have : extFree n D br x p = 0 := if_neg h
    simp [this]

/-- All control vertices when the `n` free ones from number `base` on are given by the stacked vector `x`. -/
def fullV (n base D : ℕ) (x : ℕ → K) (v : ℕ → ℕ → K) : ℕ → ℕ → K := fun j d =>
  if base ≤ j ∧ j < base + n then x ((j - base) * D + d) else v j d

/-- The vertices from number `a` on as a stacked vector. -/
def locV (D a : ℕ) (w : ℕ → ℕ → K) : ℕ → K := fun p => w (a + p / D) (p % D)

theorem locV_fullV (n base D a : ℕ) (x : ℕ → K) (v : ℕ → ℕ → K) (p : ℕ) :
    locV D a (fullV n base D x v) p
      = extFree n D ((a : ℤ) - base) x p + fixedPart n D ((a : ℤ) - base) (fun i d => v (a + i) d) p := by
  unfold locV fullV extFree fixedPart
  by_cases h : base ≤ a + p / D ∧ a + p / D < base + n
  · rw [if_pos h, if_pos (by omega), if_pos (by omega), add_zero]
    congr 1
    have h1 := stack_shift (D := D) (p / D) (p % D) ((a : ℤ) - base) (by omega)
    rw [Nat.div_add_mod' p D] at h1
    rw [h1]
    congr 2
    omega
  · rw [if_neg h, if_neg (by omega), if_neg (by omega), zero_add]

theorem bil_congr_vec (n : ℕ) (A : Mat K) (x x' y y' : ℕ → K) (hx : ∀ r, r < n → x r = x' r)
    (hy : ∀ r, r < n → y r = y' r) : bil n A x y = bil n A x' y' := by
  unfold bil
  refine sum_congr rfl fun a ha => sum_congr rfl fun b hb => ?_
  rw [hx a (mem_range.1 ha), hy b (mem_range.1 hb)]

theorem bil_add_add (n : ℕ) (Q : Mat K) (x y : ℕ → K) :
    bil n Q (fun q => x q + y q) (fun q => x q + y q)
      = bil n Q x x + bil n Q x y + bil n Q y x + bil n Q y y := by
  unfold bil
  rw [← sum_add_distrib, ← sum_add_distrib, ← sum_add_distrib]
  refine sum_congr rfl fun p _ => ?_
  rw [← sum_add_distrib, ← sum_add_distrib, ← sum_add_distrib]
  exact sum_congr rfl fun q _ => by ring

end Verif
