import Verif.Model.MotionError
import Verif.Props.Quadratic
import Verif.Props.State

/-!
# C46: the motion error term
-/

set_option linter.unusedSectionVars false

namespace Verif

open Finset Polynomial BSpline MeasureTheory

namespace MotionError

/-! ### The blocks of the quadratic integral -/

section Blocks
variable {D : ℕ}

theorem unit_localPower (k : ℕ) (B : Mat ℝ) (i r n d : ℕ) (hr : r < D) (hd : d < D) :
    localPower D k B (shiftV (fun a => if a = i * D + r then 1 else 0) (n * D)) d
      = if d = r then (fun a => ∑ j ∈ range k, B a j * (if n + j = i then 1 else 0)) else 0 := by
  have key : ∀ j, (n * D + (j * D + d) = i * D + r) ↔ (n + j = i ∧ d = r) := by
    intro j
    constructor
    · intro h
      have h1 := congrArg (· / D) h
      have h2 := congrArg (· % D) h
      have e1 : n * D + (j * D + d) = d + D * (n + j) := by ring
      have e2 : i * D + r = r + D * i := by ring
      simp only [e1, e2, Nat.add_mul_div_left _ _ (Nat.lt_of_le_of_lt (Nat.zero_le _) hr), Nat.add_mul_mod_self_left,
        Nat.div_eq_of_lt hr, Nat.div_eq_of_lt hd, Nat.mod_eq_of_lt hr, Nat.mod_eq_of_lt hd] at h1 h2
      exact ⟨by omega, h2⟩
    · rintro ⟨rfl, rfl⟩
      ring
  funext a
  unfold localPower shiftV
  by_cases h : d = r
  · rw [if_pos h]
    refine sum_congr rfl fun j _ => ?_
    simp only [key]
    simp only [h, and_true]
  · rw [if_neg h]
    simp [key, h]

theorem dop_zero (k : ℕ) (w : ℝ) (n : ℕ) : (dop k w)^[n] (0 : ℕ → ℝ) = 0 := by
  induction n with
  | zero => rfl
  | succ n ih =>
    rw [Function.iterate_succ_apply', ih]
    funext i
    simp [dop]

theorem localPoly_unit (k : ℕ) (B : Mat ℝ) (w : ℝ) (der i r n d : ℕ) (hr : r < D) (hd : d < D) :
    localPoly D k B w der (shiftV (fun a => if a = i * D + r then 1 else 0) (n * D)) d
      = if d = r then polyOf k ((dop k (1 / w))^[der] (fun a => ∑ j ∈ range k, B a j * (if n + j = i then 1 else 0)))
        else 0 := by
  unfold localPoly
  rw [unit_localPower k B i r n d hr hd]
  split_ifs with h
  · rfl
  · rw [dop_zero]
    simp [polyOf]

/-- Every block of the matrix is a multiple of the weight. -/
theorem curveQ_blocks {s : BSpline ℝ D} (h : s.WF) (W : Mat ℝ) (hW : AcceptedWeight D W) (der : ℕ) :
    ∃ (Q : Mat ℝ) (g : ℕ → ℕ → ℝ), s.curveQuadraticIntegral W der = .ok Q ∧ (∀ i j, g i j = g j i) ∧
      ∀ i < s.coeffs.length, ∀ j < s.coeffs.length, ∀ r < D, ∀ c < D, Q (i * D + r) (j * D + c) = W r c * g i j := by
  obtain ⟨Q, hQ, hb⟩ := curveQ h W hW der
  refine ⟨Q, fun i j => ∑ n ∈ range s.numValidTimeSegments,
    ∫ t in s.kn (s.order - 1 + n)..s.kn (s.order - 1 + n + 1),
      (polyOf s.order ((dop s.order (1 / (s.kn (s.order - 1 + n + 1) - s.kn (s.order - 1 + n))))^[der]
        (fun a => ∑ l ∈ range s.order, segBasis s n a l * (if n + l = i then 1 else 0)))).eval
          ((t - s.kn (s.order - 1 + n)) / (s.kn (s.order - 1 + n + 1) - s.kn (s.order - 1 + n)))
      * (polyOf s.order ((dop s.order (1 / (s.kn (s.order - 1 + n + 1) - s.kn (s.order - 1 + n))))^[der]
        (fun a => ∑ l ∈ range s.order, segBasis s n a l * (if n + l = j then 1 else 0)))).eval
          ((t - s.kn (s.order - 1 + n)) / (s.kn (s.order - 1 + n + 1) - s.kn (s.order - 1 + n))), hQ, ?_, ?_⟩
  · intro i j
    refine sum_congr rfl fun n _ => intervalIntegral.integral_congr fun t _ => ?_
    exact mul_comm _ _
  · intro i hi j hj r hr c hc
    have hlt : ∀ i < s.coeffs.length, ∀ r < D, i * D + r < s.coeffs.length * D := by
      intro i hi r hr
      calc i * D + r < i * D + D := by omega
        _ = (i + 1) * D := by ring
        _ ≤ _ := Nat.mul_le_mul_right _ hi
    rw [← bil_unit _ Q _ _ (hlt i hi r hr) (hlt j hj c hc), hb, mul_sum]
    refine sum_congr rfl fun n _ => ?_
    rw [sum_eq_single r, sum_eq_single c]
    · rw [localPoly_unit _ _ _ _ _ _ _ _ hr hr, localPoly_unit _ _ _ _ _ _ _ _ hc hc, if_pos rfl, if_pos rfl]
    · intro e he hne
      simp only [localPoly_unit _ _ _ _ _ _ _ _ hc (mem_range.1 he), if_neg hne]
      simp
    · intro hn
      exact absurd (mem_range.2 hc) hn
    · intro d hd hne
      refine sum_eq_zero fun e _ => ?_
      simp only [localPoly_unit _ _ _ _ _ _ _ _ hr (mem_range.1 hd), if_neg hne]
      simp
    · intro hn
      exact absurd (mem_range.2 hr) hn

end Blocks

/-! ### The loops -/

section Loops
variable {K : Type*} [Field K] [LinearOrder K]

/-- Entry of a block, zero if it is not allocated. -/
def entry (H : SparseBlocks K) (a b r c : ℕ) : K := ((H a b).getD (fun _ _ => 0)) r c

theorem entry_addAt (H : SparseBlocks K) (a b : ℕ) (B : Mat K) (a' b' r c : ℕ) :
    entry (addAt H a b B) a' b' r c = entry H a' b' r c + if a = a' ∧ b = b' then B r c else 0 := by
  unfold entry addAt
  by_cases h : a' = a ∧ b' = b
  · obtain ⟨rfl, rfl⟩ := h
    simp
  · rw [if_neg h, if_neg (fun h' => h ⟨h'.1.symm, h'.2.symm⟩), add_zero]

theorem hessianInner_entry (m : MotionError K) (vars : ℕ → SolverVar) (i a b r c : ℕ) : ∀ (n : ℕ) (H : SparseBlocks K),
    entry (hessianInner m vars i n H) a b r c = entry H a b r c + ∑ j ∈ range n,
      if (vars j).active ∧ (vars j).blockIndex = a ∧ (vars i).blockIndex = b then entry m.Q i j r c else 0
  | 0, H => by simp [hessianInner]
  | n + 1, H => by
    rw [sum_range_succ, ← add_assoc, ← hessianInner_entry m vars i a b r c n H]
    conv_lhs => unfold hessianInner
    dsimp only
    by_cases ha : (vars n).active = true
    · rw [if_pos ha]
      cases hq : m.Q i n with
      | none =>
        have : entry m.Q i n r c = 0 := by unfold entry; rw [hq]; rfl
        dsimp only
        rw [this, ite_self, add_zero]
      | some B =>
        have : entry m.Q i n r c = B r c := by unfold entry; rw [hq]; rfl
        dsimp only
        rw [entry_addAt, this]
        simp only [ha, true_and]
    · rw [if_neg ha, if_neg (fun h => ha h.1), add_zero]

theorem hessianOuter_entry (D : ℕ) (m : MotionError K) (vars : ℕ → SolverVar) (dims : ℕ → ℕ) (bu : ℕ → K) (a b r c : ℕ) :
    ∀ (n : ℕ) (x : SparseBlocks K × (ℕ → K)), entry (hessianOuter D m vars dims bu n x).1 a b r c = entry x.1 a b r c
      + ∑ i ∈ range n, ∑ j ∈ range (i + 1), if (vars i).active ∧ (vars j).active ∧ (vars j).blockIndex = a ∧
          (vars i).blockIndex = b then entry m.Q i j r c else 0
  | 0, x => by simp [hessianOuter]
  | n + 1, x => by
    rw [sum_range_succ, ← add_assoc, ← hessianOuter_entry D m vars dims bu a b r c n x]
    conv_lhs => unfold hessianOuter
    dsimp only
    by_cases ha : (vars n).active = true
    · rw [if_pos ha]
      dsimp only
      rw [hessianInner_entry]
      simp only [ha, true_and]
    · rw [if_neg ha]
      simp [ha]

theorem hessianOuter_rhs (D : ℕ) (m : MotionError K) (vars : ℕ → SolverVar) (dims : ℕ → ℕ) (bu : ℕ → K) (p : ℕ) :
    ∀ (n : ℕ) (x : SparseBlocks K × (ℕ → K)), (hessianOuter D m vars dims bu n x).2 p = x.2 p
      - ∑ i ∈ range n, if (vars i).active ∧ colBase dims (vars i).blockIndex ≤ p ∧
          p < colBase dims (vars i).blockIndex + D then bu (i * D + (p - colBase dims (vars i).blockIndex)) else 0
  | 0, x => by simp [hessianOuter]
  | n + 1, x => by
    rw [sum_range_succ, ← sub_sub, ← hessianOuter_rhs D m vars dims bu p n x]
    conv_lhs => unfold hessianOuter
    dsimp only
    by_cases ha : (vars n).active = true
    · rw [if_pos ha]
      dsimp only
      by_cases hp : colBase dims (vars n).blockIndex ≤ p ∧ p < colBase dims (vars n).blockIndex + D
      · rw [if_pos hp, if_pos ⟨ha, hp⟩]
      · rw [if_neg hp, if_neg (fun h => hp h.2), sub_zero]
    · rw [if_neg ha, if_neg (fun h => ha h.1), sub_zero]

end Loops

/-! ### Construction and value -/

section Value
variable {D : ℕ}

/-- The spline with other coefficients. -/
def withCoeffs (s : BSpline ℝ D) (cs : List (Fin D → ℝ)) : BSpline ℝ D := BSpline.mk (K := ℝ) s.order s.knots cs s.basis

theorem curveQ_withCoeffs (s : BSpline ℝ D) (cs : List (Fin D → ℝ)) (hcs : cs.length = s.coeffs.length) (W : Mat ℝ) (der : ℕ) :
    (withCoeffs s cs).curveQuadraticIntegral W der = s.curveQuadraticIntegral W der := by
  have : ∀ n, (withCoeffs s cs).sumBlocks (fun seg => (withCoeffs s cs).segmentQuadraticIntegral W seg der) n
      = s.sumBlocks (fun seg => s.segmentQuadraticIntegral W seg der) n := by
    intro n
    induction n with
    | zero => rfl
    | succ n ih =>
      unfold sumBlocks
      rw [ih]
      have e1 : (withCoeffs s cs).coeffs.length = s.coeffs.length := hcs
      have e2 : (withCoeffs s cs).order = s.order := rfl
      rw [e1, e2]
      rfl
  exact this _

/-- The reduced derivative order. -/
theorem effectiveOrder_eq (k o : ℕ) (hk : 2 ≤ k) (ho : o < 2 ^ 31) : (effectiveOrder k o).toNat = min o (k - 1) := by
  unfold effectiveOrder toInt
  rw [if_pos ho]
  split_ifs with h
  · omega
  · push Not at h
    have : ¬ ((k : ℤ) ≤ (o : ℤ)) := fun h' => absurd hk (by have := h h'; omega)
    omega

/-- What the constructor stores. -/
theorem create_ok {s : BSpline ℝ D} (h : s.WF) (W : Mat ℝ) (hW : AcceptedWeight D W) (o : ℕ) :
    ∃ (m : MotionError ℝ) (Q : Mat ℝ) (g : ℕ → ℕ → ℝ), create s W o = .ok m ∧ m.blocks = s.coeffs.length ∧
      s.curveQuadraticIntegral W (effectiveOrder s.order o).toNat = .ok Q ∧ (∀ i j, g i j = g j i) ∧
      (∀ i j r c, r < D → c < D → entry m.Q i j r c = Q (i * D + r) (j * D + c)) ∧
      ∀ i < s.coeffs.length, ∀ j < s.coeffs.length, ∀ r < D, ∀ c < D, entry m.Q i j r c = W r c * g i j := by
  obtain ⟨Q, g, hQ, hg, hb⟩ := curveQ_blocks h W hW (effectiveOrder s.order o).toNat
  obtain ⟨Qs, hQs, -, he⟩ := C09_sparse s W _ Q hQ
  refine ⟨MotionError.mk Qs s.coeffs.length, Q, g, ?_, rfl, hQ, hg, he, fun i hi j hj r hr c hc => ?_⟩
  · unfold create
    rw [hQs]
    rfl
  · rw [← hb i hi j hj r hr c hc]
    exact he i j r c hr hc

theorem sparse_at {m : MotionError ℝ} (i j : ℕ) (r c : Fin D) :
    sparseDense D m.Q (i * D + r) (j * D + c) = entry m.Q i j r c := by
  have hD : 0 < D := Nat.lt_of_le_of_lt (Nat.zero_le _) r.2
  have e : ∀ (i : ℕ) (r : Fin D), (i * D + (r : ℕ)) / D = i ∧ (i * D + (r : ℕ)) % D = r := by
    intro i r
    have : i * D + (r : ℕ) = r + D * i := by ring
    rw [this, Nat.add_mul_div_left _ _ hD, Nat.add_mul_mod_self_left, Nat.div_eq_of_lt r.2, Nat.mod_eq_of_lt r.2]
    exact ⟨by omega, rfl⟩
  unfold sparseDense entry
  rw [(e i r).1, (e i r).2, (e j c).1, (e j c).2]

theorem times_at {m : MotionError ℝ} (x : ℕ → ℝ) (i : ℕ) (r : Fin D) :
    m.times D x (i * D + r) = ∑ j ∈ range m.blocks, ∑ c : Fin D, entry m.Q i j r c * x (j * D + c) := by
  unfold times
  rw [sum_blocks]
  refine sum_congr rfl fun j _ => sum_congr rfl fun c _ => ?_
  rw [sparse_at]

/-- The value in blocks. -/
theorem evaluate_eq {m : MotionError ℝ} {s : BSpline ℝ D} (hs : s.coeffs.length = m.blocks) :
    m.evaluate s = .ok (∑ i ∈ range m.blocks, ∑ r : Fin D, ∑ j ∈ range m.blocks, ∑ c : Fin D,
      s.col i r * entry m.Q i j r c * s.col j c) := by
  unfold evaluate
  rw [if_pos hs]
  refine congrArg Outcome.ok ?_
  rw [sum_blocks (D := D)]
  refine sum_congr rfl fun i hi => sum_congr rfl fun r _ => ?_
  rw [times_at, mul_sum]
  have hc : ∀ j < m.blocks, ∀ d : Fin D, s.coefficientVector.getD (j * D + d) 0 = s.col j d := by
    intro j hj d
    exact stack_getD _ _ j (by omega) d
  refine sum_congr rfl fun j hj => ?_
  rw [mul_sum]
  refine sum_congr rfl fun c _ => ?_
  beta_reduce
  rw [hc i (mem_range.1 hi), hc j (mem_range.1 hj)]
  ring

/-- **C46** (value): the error term is constructed, and for every later value of the coefficients it evaluates to the integral over the
valid interval of the weighted square of the derivative of the current curve, of the order asked for, but at most one less than the
spline order. -/
theorem C46_error (s : BSpline ℝ D) (h : s.WF) (hw : s.WideLast) (W : Mat ℝ) (hW : AcceptedWeight D W) (o : ℕ)
    (ho : o < 2 ^ 31) (lo hi : ℝ) (hlo : s.tMin = .ok lo) (hhi : s.tMax = .ok hi) :
    ∃ m, create s W o = .ok m ∧ ∀ s' : BSpline ℝ D, s'.order = s.order → s'.knots = s.knots → s'.basis = s.basis →
      s'.coeffs.length = s.coeffs.length →
      m.evaluate s' = .ok (∫ t in lo..hi, ∑ d : Fin D, ∑ e : Fin D,
        W d e * ((s'.evalD t (min o (s.order - 1) : ℕ)).getD 0 d * (s'.evalD t (min o (s.order - 1) : ℕ)).getD 0 e)) := by
  obtain ⟨m, Q, g, hm, hbl, hQ, -, he, -⟩ := create_ok h W hW o
  rw [effectiveOrder_eq _ _ h.order_pos ho] at hQ
  refine ⟨m, hm, fun s' h1 h2 h3 h4 => ?_⟩
  have hs' : s' = withCoeffs s s'.coeffs := by
    cases s'
    simp only at h1 h2 h3
    subst h1 h2 h3
    rfl
  have hwf : s'.WF := by
    rw [hs']
    exact WF.withCoeffs h s'.coeffs h4
  have hwide : s'.WideLast := by
    rw [hs']
    exact hw
  obtain ⟨Q', hQ', hval⟩ := C09_quadratic_integral s' hwf hwide W hW (min o (s.order - 1)) lo hi
    (by rw [hs']; exact hlo) (by rw [hs']; exact hhi)
  have hQQ : Q' = Q := by
    rw [hs', curveQ_withCoeffs s _ h4, hQ] at hQ'
    exact (Outcome.ok.inj hQ').symm
  subst hQQ
  rw [← hval, evaluate_eq (by rw [h4, hbl]), h4, hbl]
  congr 1
  rw [sum_blocks]
  have hc : ∀ j < s.coeffs.length, ∀ d : Fin D, s'.coefficientVector.getD (j * D + d) 0 = s'.col j d := by
    intro j hj d
    exact stack_getD _ _ j (by omega) d
  refine sum_congr rfl fun i hi => sum_congr rfl fun r _ => ?_
  rw [sum_blocks]
  refine sum_congr rfl fun j hj => sum_congr rfl fun c _ => ?_
  rw [hc i (mem_range.1 hi), hc j (mem_range.1 hj), he i j r c r.2 c.2]

theorem sumSparse_throws (s : BSpline ℝ D) (f : ℕ → Outcome (Mat ℝ)) (n : ℕ) (hn : s.sumBlocks f n = .throws) :
    s.sumSparse f n = .throws := by
  have both : ∀ n, (s.sumBlocks f n = .throws → s.sumSparse f n = .throws) ∧
      (∀ Q, s.sumBlocks f n = .ok Q → ∃ Q', s.sumSparse f n = .ok Q') := by
    intro n
    induction n with
    | zero => exact ⟨fun h => (nomatch h), fun _ _ => ⟨_, rfl⟩⟩
    | succ n ih =>
      unfold sumBlocks sumSparse
      cases hb : s.sumBlocks f n with
      | ok Q =>
        obtain ⟨Q', hQ'⟩ := ih.2 Q hb
        rw [hQ']
        simp only [Outcome.bind_ok]
        cases f n with
        | ok Qi =>
          simp only [Outcome.bind_ok]
          split_ifs
          · exact ⟨fun h => (nomatch h), fun _ _ => ⟨_, rfl⟩⟩
          · exact ⟨fun h => (nomatch h), fun _ h => (nomatch h)⟩
        | throws => exact ⟨fun _ => rfl, fun _ h => (nomatch h)⟩
        | ub => exact ⟨fun h => (nomatch h), fun _ h => (nomatch h)⟩
      | throws =>
        rw [ih.1 hb]
        exact ⟨fun _ => rfl, fun _ h => (nomatch h)⟩
      | ub => exact ⟨fun h => (nomatch h), fun _ h => (nomatch h)⟩
  exact (both n).1 hn

/-- A weight that is not symmetric (up to `1e-14`) is refused. -/
theorem C46_rejects (s : BSpline ℝ D) (h : s.WF) (W : Mat ℝ) (hW : ¬ AcceptedWeight D W) (o : ℕ) :
    create s W o = .throws := by
  unfold create
  rw [show s.curveQuadraticIntegralSparse W (effectiveOrder s.order o).toNat = .throws from
    sumSparse_throws s _ _ (C09_rejects_asymmetric s h W hW (effectiveOrder s.order o).toNat)]
  rfl

/-- **C46**: by default the error is the integral of the weighted square of the accelerations (of the velocities for order two, whose
accelerations vanish). -/
theorem C46_default (s : BSpline ℝ D) (h : s.WF) (hw : s.WideLast) (W : Mat ℝ) (hW : AcceptedWeight D W) (lo hi : ℝ) (hlo : s.tMin = .ok lo)
    (hhi : s.tMax = .ok hi) :
    ∃ m, createDefault s W = .ok m ∧ m.evaluate s = .ok (∫ t in lo..hi, ∑ d : Fin D, ∑ e : Fin D,
      W d e * ((s.evalD t (if s.order = 2 then 1 else 2)).getD 0 d * (s.evalD t (if s.order = 2 then 1 else 2)).getD 0 e)) := by
  obtain ⟨m, h1, h2⟩ := C46_error s h hw W hW 2 (by norm_num) lo hi hlo hhi
  refine ⟨m, h1, ?_⟩
  rw [h2 s rfl rfl rfl rfl]
  have := h.order_pos
  have e : ((min 2 (s.order - 1) : ℕ) : ℤ) = if s.order = 2 then 1 else 2 := by
    split_ifs with h3
    · rw [h3]; rfl
    · rw [min_eq_left (by omega)]; rfl
  rw [e]

end Value

/-! ### Hessian and right hand side -/

section Hessian
variable {D : ℕ}

theorem colBase_lt {dims : ℕ → ℕ} {a b : ℕ} (hab : a < b) : colBase dims a + dims a ≤ colBase dims b := by
  unfold colBase
  rw [← sum_range_succ]
  exact sum_le_sum_of_subset (range_subset_range.2 hab)

/-- What one error term adds to an accumulated Hessian in block `(a, b)`. -/
noncomputable def added (H H' : SparseBlocks ℝ) (a b r c : ℕ) : ℝ := entry H' a b r c - entry H a b r c

/-- The symmetric matrix of which each pair of blocks is stored once, on one side of the diagonal. -/
noncomputable def completed (H H' : SparseBlocks ℝ) (a b r c : ℕ) : ℝ :=
  if a = b then added H H' a b r c else added H H' a b r c + added H H' b a c r

/-- The active variables have different blocks, of the dimension of the spline. -/
structure GoodLayout (D : ℕ) (n : ℕ) (vars : ℕ → SolverVar) (dims : ℕ → ℕ) : Prop where
  inj : ∀ i < n, ∀ j < n, (vars i).active = true → (vars j).active = true → (vars i).blockIndex = (vars j).blockIndex → i = j
  dim : ∀ i < n, (vars i).active = true → dims (vars i).blockIndex = D

theorem added_eq {m : MotionError ℝ} {vars : ℕ → SolverVar} {dims : ℕ → ℕ} {bu : ℕ → ℝ} {H : SparseBlocks ℝ} {b0 : ℕ → ℝ}
    (hl : GoodLayout D m.blocks vars dims) (i j : ℕ) (hi : i < m.blocks) (hj : j < m.blocks) (ai : (vars i).active = true)
    (aj : (vars j).active = true) (r c : ℕ) :
    added H (hessianOuter D m vars dims bu m.blocks (H, b0)).1 (vars j).blockIndex (vars i).blockIndex r c
      = if j ≤ i then entry m.Q i j r c else 0 := by
  unfold added
  rw [hessianOuter_entry, add_sub_cancel_left, sum_eq_single i]
  · by_cases hji : j ≤ i
    · rw [if_pos hji, sum_eq_single j]
      · rw [if_pos ⟨ai, aj, rfl, rfl⟩]
      · intro j' hj' hne
        rw [if_neg]
        rintro ⟨-, aj', h1, -⟩
        exact hne (hl.inj j' (by have := mem_range.1 hj'; omega) j hj aj' aj h1)
      · intro hn
        exact absurd (mem_range.2 (by omega)) hn
    · rw [if_neg hji]
      refine sum_eq_zero fun j' hj' => ?_
      rw [if_neg]
      rintro ⟨-, aj', h1, -⟩
      have := hl.inj j' (by have := mem_range.1 hj'; omega) j hj aj' aj h1
      have := mem_range.1 hj'
      omega
  · intro i' hi' hne
    refine sum_eq_zero fun j' _ => ?_
    rw [if_neg]
    rintro ⟨ai', -, -, h1⟩
    exact hne (hl.inj i' (mem_range.1 hi') i hi ai' ai h1)
  · intro hn
    exact absurd (mem_range.2 hi) hn

theorem rhs_eq {m : MotionError ℝ} {vars : ℕ → SolverVar} {dims : ℕ → ℕ} {bu : ℕ → ℝ} {H : SparseBlocks ℝ} {b0 : ℕ → ℝ}
    (hl : GoodLayout D m.blocks vars dims) (i : ℕ) (hi : i < m.blocks) (ai : (vars i).active = true) (d : Fin D) :
    (hessianOuter D m vars dims bu m.blocks (H, b0)).2 (colBase dims (vars i).blockIndex + d)
      = b0 (colBase dims (vars i).blockIndex + d) - bu (i * D + d) := by
  have hd := d.2
  rw [hessianOuter_rhs, sum_eq_single i]
  · rw [if_pos ⟨ai, by omega, by omega⟩, Nat.add_sub_cancel_left]
  · intro i' hi' hne
    rw [if_neg]
    rintro ⟨ai', h1, h2⟩
    have hi'' := mem_range.1 hi'
    rcases Nat.lt_trichotomy (vars i').blockIndex (vars i).blockIndex with hlt | heq | hgt
    · have := colBase_lt (dims := dims) hlt
      rw [hl.dim i' hi'' ai'] at this
      omega
    · exact hne (hl.inj i' hi'' i hi ai' ai heq)
    · have := colBase_lt (dims := dims) hgt
      rw [hl.dim i hi ai] at this
      omega
  · intro hn
    exact absurd (mem_range.2 hi) hn

/-- **C46** (Hessian and right hand side): for every symmetric weight, every activity pattern, every placement of the active
variables in the blocks of the solver, and whatever other error terms have accumulated: with `b` the addition to the right hand side and
`A` the addition to the Hessian (completed symmetrically), changing the active variables by any `δ` changes the error to
`E - 2 bᵀδ + δᵀ A δ`, which is the Gauss-Newton convention for the squared error `E`. -/
theorem C46_hessian (s : BSpline ℝ D) (h : s.WF) (W : Mat ℝ) (hW : ∀ r < D, ∀ c < D, W r c = W c r) (o : ℕ) :
    ∃ m, create s W o = .ok m ∧ m.blocks = s.coeffs.length ∧
    ∀ (s' : BSpline ℝ D), s'.coeffs.length = s.coeffs.length →
    ∀ (vars : ℕ → SolverVar) (dims : ℕ → ℕ), GoodLayout D m.blocks vars dims →
    ∀ (H : SparseBlocks ℝ) (b : ℕ → ℝ), ∃ (H' : SparseBlocks ℝ) (b' : ℕ → ℝ), m.buildHessian s' vars dims H b = .ok (H', b') ∧
      ∀ (δ : ℕ → Fin D → ℝ) (s'' : BSpline ℝ D), s''.coeffs.length = s.coeffs.length →
        (∀ i d, s''.col i d = s'.col i d + if (vars i).active then δ i d else 0) →
        ∃ E E' : ℝ, m.evaluate s' = .ok E ∧ m.evaluate s'' = .ok E' ∧
          E' = E - 2 * (∑ i ∈ range m.blocks, ∑ d : Fin D, if (vars i).active then
                (b' (colBase dims (vars i).blockIndex + d) - b (colBase dims (vars i).blockIndex + d)) * δ i d else 0)
            + ∑ i ∈ range m.blocks, ∑ r : Fin D, ∑ j ∈ range m.blocks, ∑ c : Fin D,
                if (vars i).active ∧ (vars j).active then
                  δ i r * completed H H' (vars i).blockIndex (vars j).blockIndex r c * δ j c else 0 := by
  have hacc : AcceptedWeight D W := by
    intro r hr c hc
    rw [hW r hr c hc, sub_self, abs_zero]
    norm_num
  obtain ⟨m, Q, g, hm, hbl, -, hg, -, he⟩ := create_ok h W hacc o
  refine ⟨m, hm, hbl, fun s' hs' vars dims hl H b => ?_⟩
  have hlen : s'.coeffs.length = m.blocks := by rw [hs', hbl]
  refine ⟨_, _, by unfold buildHessian; rw [if_pos hlen], fun δ s'' hs'' hδ => ?_⟩
  refine ⟨_, _, evaluate_eq hlen, evaluate_eq (by rw [hs'', hbl]), ?_⟩
  have hsym : ∀ i < m.blocks, ∀ j < m.blocks, ∀ r c : Fin D, entry m.Q i j r c = entry m.Q j i c r := by
    intro i hi j hj r c
    rw [hbl] at hi hj
    rw [he i hi j hj r r.2 c c.2, he j hj i hi c c.2 r r.2, hW r r.2 c c.2, hg i j]
  have hsym' : ∀ i < m.blocks, ∀ j < m.blocks, ∀ r c : Fin D, entry m.Q i j r c = entry m.Q i j c r := by
    intro i hi j hj r c
    rw [hbl] at hi hj
    rw [he i hi j hj r r.2 c c.2, he i hi j hj c c.2 r r.2, hW r r.2 c c.2]
  have hH : ∀ i < m.blocks, ∀ j < m.blocks, (vars i).active = true → (vars j).active = true → ∀ r c : Fin D,
      completed H (hessianOuter D m vars dims (m.times D (fun p => s'.coefficientVector.getD p 0)) m.blocks (H, b)).1
        (vars i).blockIndex (vars j).blockIndex r c = entry m.Q i j r c := by
    intro i hi j hj ai aj r c
    unfold completed
    by_cases hij : i = j
    · subst hij
      rw [if_pos rfl, added_eq hl i i hi hi ai ai, if_pos le_rfl]
    · rw [if_neg (fun h => hij (hl.inj i hi j hj ai aj h)), added_eq hl j i hj hi aj ai, added_eq hl i j hi hj ai aj]
      by_cases hle : i ≤ j
      · rw [if_pos hle, if_neg (by omega), add_zero, hsym j hj i hi, hsym' i hi j hj]
      · rw [if_neg hle, if_pos (by omega), zero_add, hsym' i hi j hj]
  have hrhs : ∀ i < m.blocks, (vars i).active = true → ∀ d : Fin D,
      (hessianOuter D m vars dims (m.times D (fun p => s'.coefficientVector.getD p 0)) m.blocks (H, b)).2
        (colBase dims (vars i).blockIndex + d) - b (colBase dims (vars i).blockIndex + d)
      = -∑ j ∈ range m.blocks, ∑ c : Fin D, entry m.Q i j d c * s'.col j c := by
    intro i hi ai d
    rw [rhs_eq hl i hi ai d, times_at]
    have : ∑ j ∈ range m.blocks, ∑ c : Fin D, entry m.Q i j d c * s'.coefficientVector.getD (j * D + c) 0
        = ∑ j ∈ range m.blocks, ∑ c : Fin D, entry m.Q i j d c * s'.col j c := by
      refine sum_congr rfl fun j hj => sum_congr rfl fun c _ => ?_
      congr 1
      exact stack_getD _ _ j (by have := mem_range.1 hj; omega) c
    rw [this]
    ring
  -- the quadratic expansion
  set y : ℕ → Fin D → ℝ := fun i d => if (vars i).active then δ i d else 0 with hy
  have e1 : (∑ i ∈ range m.blocks, ∑ d : Fin D, if (vars i).active then
      ((hessianOuter D m vars dims (m.times D (fun p => s'.coefficientVector.getD p 0)) m.blocks (H, b)).2
        (colBase dims (vars i).blockIndex + d) - b (colBase dims (vars i).blockIndex + d)) * δ i d else 0)
      = -∑ i ∈ range m.blocks, ∑ d : Fin D, ∑ j ∈ range m.blocks, ∑ c : Fin D, y i d * entry m.Q i j d c * s'.col j c := by
    rw [← sum_neg_distrib]
    refine sum_congr rfl fun i hi => ?_
    rw [← sum_neg_distrib]
    refine sum_congr rfl fun d _ => ?_
    by_cases ai : (vars i).active = true
    · rw [if_pos ai, hrhs i (mem_range.1 hi) ai d, neg_mul, sum_mul]
      congr 1
      refine sum_congr rfl fun j _ => ?_
      rw [sum_mul]
      refine sum_congr rfl fun c _ => ?_
      rw [hy]
      dsimp only
      rw [if_pos ai]
      ring
    · rw [if_neg ai]
      simp [hy, ai]
  have e2 : (∑ i ∈ range m.blocks, ∑ r : Fin D, ∑ j ∈ range m.blocks, ∑ c : Fin D,
        if (vars i).active ∧ (vars j).active then
          δ i r * completed H (hessianOuter D m vars dims (m.times D (fun p => s'.coefficientVector.getD p 0)) m.blocks
            (H, b)).1 (vars i).blockIndex (vars j).blockIndex r c * δ j c else 0)
      = ∑ i ∈ range m.blocks, ∑ r : Fin D, ∑ j ∈ range m.blocks, ∑ c : Fin D, y i r * entry m.Q i j r c * y j c := by
    refine sum_congr rfl fun i hi => sum_congr rfl fun r _ => sum_congr rfl fun j hj => sum_congr rfl fun c _ => ?_
    by_cases ai : (vars i).active = true
    · by_cases aj : (vars j).active = true
      · rw [if_pos ⟨ai, aj⟩, hH i (mem_range.1 hi) j (mem_range.1 hj) ai aj r c]
        simp [hy, ai, aj]
      · rw [if_neg (fun h => aj h.2)]
        simp [hy, aj]
    · rw [if_neg (fun h => ai h.1)]
      simp [hy, ai]
  have e3 : ∑ i ∈ range m.blocks, ∑ r : Fin D, ∑ j ∈ range m.blocks, ∑ c : Fin D, s'.col i r * entry m.Q i j r c * y j c
      = ∑ i ∈ range m.blocks, ∑ r : Fin D, ∑ j ∈ range m.blocks, ∑ c : Fin D, y i r * entry m.Q i j r c * s'.col j c := by
    have sw : ∀ F : ℕ → Fin D → ℕ → Fin D → ℝ,
        ∑ i ∈ range m.blocks, ∑ r : Fin D, ∑ j ∈ range m.blocks, ∑ c : Fin D, F i r j c
          = ∑ i ∈ range m.blocks, ∑ r : Fin D, ∑ j ∈ range m.blocks, ∑ c : Fin D, F j c i r := by
      intro F
      have flat : ∀ G : ℕ → Fin D → ℕ → Fin D → ℝ,
          ∑ i ∈ range m.blocks, ∑ r : Fin D, ∑ j ∈ range m.blocks, ∑ c : Fin D, G i r j c
            = ∑ x ∈ range m.blocks ×ˢ (univ : Finset (Fin D)), ∑ z ∈ range m.blocks ×ˢ (univ : Finset (Fin D)),
                G x.1 x.2 z.1 z.2 := by
        intro G
        simp only [sum_product]
      rw [flat, flat, sum_comm]
    rw [sw]
    refine sum_congr rfl fun i hi => sum_congr rfl fun r _ => sum_congr rfl fun j hj => sum_congr rfl fun c _ => ?_
    rw [hsym j (mem_range.1 hj) i (mem_range.1 hi) c r]
    ring
  have e4 : ∑ i ∈ range m.blocks, ∑ r : Fin D, ∑ j ∈ range m.blocks, ∑ c : Fin D,
        s''.col i r * entry m.Q i j r c * s''.col j c
      = (∑ i ∈ range m.blocks, ∑ r : Fin D, ∑ j ∈ range m.blocks, ∑ c : Fin D, s'.col i r * entry m.Q i j r c * s'.col j c)
        + (∑ i ∈ range m.blocks, ∑ r : Fin D, ∑ j ∈ range m.blocks, ∑ c : Fin D, s'.col i r * entry m.Q i j r c * y j c)
        + (∑ i ∈ range m.blocks, ∑ r : Fin D, ∑ j ∈ range m.blocks, ∑ c : Fin D, y i r * entry m.Q i j r c * s'.col j c)
        + ∑ i ∈ range m.blocks, ∑ r : Fin D, ∑ j ∈ range m.blocks, ∑ c : Fin D, y i r * entry m.Q i j r c * y j c := by
    simp only [← sum_add_distrib]
    refine sum_congr rfl fun i hi => sum_congr rfl fun r _ => sum_congr rfl fun j hj => sum_congr rfl fun c _ => ?_
    rw [hδ i r, hδ j c]
    ring
  rw [e1, e2, e4, e3]
  ring

/-- **C46** (only active variables): a block of the Hessian changes only if its row and its column belong to active variables, and an
entry of the right hand side only if it belongs to an active variable. -/
theorem C46_inactive (m : MotionError ℝ) (s : BSpline ℝ D) (vars : ℕ → SolverVar) (dims : ℕ → ℕ) (H H' : SparseBlocks ℝ) (b b' : ℕ → ℝ)
    (hb : m.buildHessian s vars dims H b = .ok (H', b')) :
    (∀ x y r c, entry H' x y r c ≠ entry H x y r c → ∃ i < m.blocks, ∃ j < m.blocks,
      (vars i).active = true ∧ (vars j).active = true ∧ (vars i).blockIndex = x ∧ (vars j).blockIndex = y) ∧
    ∀ p, b' p ≠ b p → ∃ i < m.blocks, (vars i).active = true ∧
      colBase dims (vars i).blockIndex ≤ p ∧ p < colBase dims (vars i).blockIndex + D := by
  unfold buildHessian at hb
  split_ifs at hb
  have hb' := Outcome.ok.inj hb
  rw [Prod.ext_iff] at hb'
  obtain ⟨rfl, rfl⟩ := hb'
  constructor
  · intro x y r c hne
    by_contra hcon
    apply hne
    rw [hessianOuter_entry, sum_eq_zero, add_zero]
    intro i hi
    refine sum_eq_zero fun j hj => ?_
    rw [if_neg]
    rintro ⟨ai, aj, h1, h2⟩
    have hi' := mem_range.1 hi
    have hj' := mem_range.1 hj
    exact hcon ⟨j, by omega, i, hi', aj, ai, h1, h2⟩
  · intro p hne
    by_contra hcon
    apply hne
    rw [hessianOuter_rhs, sum_eq_zero, sub_zero]
    intro i hi
    rw [if_neg]
    rintro ⟨ai, h1, h2⟩
    exact hcon ⟨i, mem_range.1 hi, ai, h1, h2⟩

/-- **C46** (upper triangle): the comment in the code says the upper triangle is sufficient.  The additions lie in the upper triangle if
the blocks of the active variables are in the order of the variables.  Nothing in the code ensures that order; see
`C46_violated`. -/
theorem C46_upper_partial (m : MotionError ℝ) (s : BSpline ℝ D) (vars : ℕ → SolverVar) (dims : ℕ → ℕ) (H H' : SparseBlocks ℝ)
    (b b' : ℕ → ℝ)
    (hmono : ∀ i < m.blocks, ∀ j < i, (vars i).active = true → (vars j).active = true → (vars j).blockIndex < (vars i).blockIndex)
    (hb : m.buildHessian s vars dims H b = .ok (H', b')) (x y : ℕ) (hxy : y < x) (r c : ℕ) : entry H' x y r c = entry H x y r c := by
  unfold buildHessian at hb
  split_ifs at hb
  have hb' := Outcome.ok.inj hb
  rw [Prod.ext_iff] at hb'
  obtain ⟨rfl, rfl⟩ := hb'
  rw [hessianOuter_entry, sum_eq_zero, add_zero]
  intro i hi
  refine sum_eq_zero fun j hj => ?_
  rw [if_neg]
  rintro ⟨ai, aj, h1, h2⟩
  have hi' := mem_range.1 hi
  have hj' := mem_range.1 hj
  rcases Nat.lt_or_ge j i with h | h
  · have := hmono i hi' j h ai aj
    omega
  · have : j = i := by omega
    subst this
    omega

/-- **C46** (`rhs`): the vector `rhs()` is what `buildHessian` adds to the right hand side, if all variables are active and in order. -/
theorem C46_rhs (m : MotionError ℝ) (s : BSpline ℝ D) (hs : s.coeffs.length = m.blocks) (H : SparseBlocks ℝ) :
    ∃ (v : ℕ → ℝ) (H' : SparseBlocks ℝ) (b' : ℕ → ℝ), m.rhs s = .ok v ∧
      m.buildHessian s (fun i => ⟨true, i⟩) (fun _ => D) H (fun _ => 0) = .ok (H', b') ∧ ∀ p < m.blocks * D, b' p = v p := by
  refine ⟨_, _, _, by unfold rhs; rw [if_pos hs], by unfold buildHessian; rw [if_pos hs], fun p hp => ?_⟩
  have hD : 0 < D := by
    rcases Nat.eq_zero_or_pos D with h | h
    · subst h; omega
    · exact h
  have hl : GoodLayout D m.blocks (fun i => ⟨true, i⟩) (fun _ => D) := ⟨fun _ _ _ _ _ _ h => h, fun _ _ _ => rfl⟩
  have hpd : p = p / D * D + p % D := (Nat.div_add_mod' p D).symm
  have hmod := Nat.mod_lt p hD
  have hcb : ∀ i, colBase (fun _ => D) i = i * D := by
    intro i
    unfold colBase
    rw [sum_const, card_range, smul_eq_mul]
  have := rhs_eq (bu := m.times D (fun p => s.coefficientVector.getD p 0)) (H := H) (b0 := fun _ => (0 : ℝ)) hl (p / D)
    ((Nat.div_lt_iff_lt_mul hD).2 hp) rfl ⟨p % D, hmod⟩
  simp only [hcb] at this
  rw [← hpd] at this
  rw [this, zero_sub]
  unfold times
  rw [← sum_neg_distrib]
  refine sum_congr rfl fun q _ => ?_
  ring

/-- **C46 violated** (order): an error term order of `2^31` or more is larger than every spline order, but it is not reduced to the spline
order minus one: as a signed number it is negative, and the error integrates the square of the curve itself.
(The constructor takes an `unsigned int`.) -/
theorem C46_violated_order (s : BSpline ℝ D) (W : Mat ℝ) (o : ℕ) (ho : 2 ^ 31 ≤ o) (ho' : o < 2 ^ 32) :
    create s W o = create s W 0 := by
  have e : (effectiveOrder s.order o).toNat = (effectiveOrder s.order 0).toNat := by
    unfold effectiveOrder toInt
    have h1 : ¬ o < 2 ^ 31 := by omega
    rw [if_neg h1]
    simp only [show (0 : ℕ) < 2 ^ 31 by norm_num, if_true]
    rw [if_neg (by omega), if_neg (by omega)]
    omega
  unfold create
  rw [e]

end Hessian

/-! ### A concrete spline -/

/-- A solver that has put the variables in the opposite order. -/
def demoReversed (i : ℕ) : SolverVar := ⟨true, 4 - i⟩

/-- **C46 violated** (block order): when a later variable has a lower block index, its block lands below the diagonal and the block above
it stays empty.  A solver that reads the upper triangle misses the coupling. -/
theorem C46_violated :
    ((create exUniform (fun _ _ => 1) 1).bind fun m =>
      (m.buildHessian exUniform demoReversed (fun _ => 1) (fun _ _ => none) (fun _ => 0)).map fun x =>
        (entry m.Q 1 0 0 0, entry x.1 4 3 0 0, (x.1 3 4).isNone)) = .ok (-1/6, -1/6, true) := by
  decide +kernel

/-- The hypotheses hold for a spline with a double knot, the second variable fixed, and the active ones in any blocks. -/
example := C46_error exReal exReal_wf exReal_wide (fun _ _ => 3) (by intro r _ c _; norm_num) 2 (by norm_num) 2 4 rfl rfl

example := C46_default exReal exReal_wf exReal_wide (fun _ _ => 3) (by intro r _ c _; norm_num) 2 4 rfl rfl

example : GoodLayout 1 exReal.coeffs.length (fun i => ⟨i != 1, if i = 0 then 7 else i⟩) (fun _ => 1) := by
  refine ⟨fun i hi j hj _ _ hij => ?_, fun _ _ _ => rfl⟩
  have h6 : exReal.coeffs.length = 6 := rfl
  rw [h6] at hi hj
  simp only at hij
  split_ifs at hij <;> omega

example := C46_hessian exReal exReal_wf (fun _ _ => 3) (by intro r _ c _; rfl) 2

example : create exReal (fun _ _ => 3) (2 ^ 31) = create exReal (fun _ _ => 3) 0 :=
  C46_violated_order exReal _ _ le_rfl (by norm_num)

/-- With the variables in order: value, one Hessian block and one entry of the right hand side, on top of what was there. -/
example : ((create exUniform (fun _ _ => 1) 1).bind fun m => (m.evaluate exUniform).bind fun e =>
      (m.buildHessian exUniform (fun i => ⟨i != 1, i⟩) (fun _ => 1) (fun _ _ => some fun _ _ => 1) (fun _ => 5)).map fun x =>
        (e, entry x.1 2 2 0 0, entry x.1 1 2 0 0, x.2 2, x.2 1)) = .ok (107/3, 2, 1, 19/2, 5) := by
  decide +kernel

end MotionError
end Verif
