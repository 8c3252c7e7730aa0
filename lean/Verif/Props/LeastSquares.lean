import Verif.Props.Fit
import Verif.Props.Quadratic
import Mathlib.Algebra.BigOperators.Fin

/-!
# Properties C19 and C53: regularised least squares initialisation
-/

set_option linter.unusedSectionVars false

namespace Verif

open Finset Polynomial BSpline

section Field
variable {K : Type*} [Field K] [LinearOrder K] [IsStrictOrderedRing K] {D : ℕ}

/-- Weighted sum of squared residuals of a list of constraints. -/
def squares (s : BSpline K D) (cs : List (Constraint K D)) : K :=
  (cs.map fun c => ∑ d, (c.weight * (s.evalD c.time c.der).getD 0 d - c.value d) ^ 2).sum

theorem blockRows_cost {s : BSpline K D} (cs : List (Constraint K D)) (rows : List (BlockRow K D))
    (hspec : ∀ j (hj : j < cs.length) (d : Fin D),
        rowsVec rows (j * D + d) = cs[j].value d ∧
        ∀ y, ∃ v, (s.withVec y).evalD cs[j].time cs[j].der = .ok v ∧
          mulV (s.coeffs.length * D) (rowsMat (s.order * D) rows) y (j * D + d) = cs[j].weight * v d) (y : ℕ → K) :
    ∑ r ∈ range (cs.length * D),
        (mulV (s.coeffs.length * D) (rowsMat (s.order * D) rows) y r - rowsVec rows r) ^ 2
      = squares (s.withVec y) cs := by
  unfold squares
  rw [sum_stacked, ← Fin.sum_univ_fun_getElem, Finset.sum_range]
  refine sum_congr rfl fun j _ => ?_
  rw [Finset.sum_range]
  refine sum_congr rfl fun d _ => ?_
  obtain ⟨a1, a2⟩ := hspec j j.2 d
  obtain ⟨v, hv1, hv2⟩ := a2 y
  rw [hv2, a1]
  rw [hv1]
  rfl

/-- The solution of the regularised normal equations of constraints at valid times. -/
theorem lsq_core {s : BSpline K D} (h : s.WF) (hD : 1 ≤ D) (solve : Solver K) (hsolve : SolvesSemidefinite solve)
    (cs : List (Constraint K D)) (hcs : ∀ c ∈ cs, 0 ≤ c.der ∧ s.Admissible c.time) (Q : Mat K)
    (hs : ∀ p < s.coeffs.length * D, ∀ q < s.coeffs.length * D, Q p q = Q q p)
    (hpsd : ∀ x, 0 ≤ bil (s.coeffs.length * D) Q x x) :
    ∃ rows, s.blockRows s.firstIndex cs = .ok rows ∧
      ∃ x, s.setSolved solve (s.coeffs.length * D)
          (fun p q => gram (cs.length * D) (rowsMat (s.order * D) rows) p q + Q p q)
          (transposeVec (cs.length * D) (rowsMat (s.order * D) rows) (rowsVec rows)) = .ok (s.withVec x) ∧
        ∀ y, squares (s.withVec x) cs + bil (s.coeffs.length * D) Q x x
          ≤ squares (s.withVec y) cs + bil (s.coeffs.length * D) Q y y := by
  obtain ⟨rows, hrows, -, hspec⟩ := blockRows_spec h s.firstIndex cs (by
    intro c hc
    obtain ⟨h1, h2⟩ := hcs c hc
    obtain ⟨i, hT, hi⟩ := lookup h c.time h2
    exact ⟨h1, _, _, hT, hi.lower, hi.upper, firstIndex_ok h hD _ _ _ hT hi.lower⟩)
  refine ⟨rows, hrows, _, setSolved_eq s solve _ _, fun y => ?_⟩
  rw [← blockRows_cost cs rows hspec, ← blockRows_cost cs rows hspec]
  refine normal_optimal _ _ _ _ _ _ hs hpsd (hsolve _ _ _ ?_ ?_ (normal_solvable _ _ _ _ _ hpsd)) y
  · intro p hp q hq
    rw [hs p hp q hq]
    congr 1
    unfold gram matMul matT
    exact sum_congr rfl fun _ _ => mul_comm _ _
  · intro x
    rw [bil_add_mat, bil_gram]
    exact add_nonneg (sum_nonneg fun r _ => mul_self_nonneg _) (hpsd x)

theorem timesSorted_iff (l : List K) : timesSorted l = true ↔ l.Pairwise (· ≤ ·) := by
  induction l with
  | nil => simp [timesSorted]
  | cons a l ih =>
    cases l with
    | nil => simp [timesSorted]
    | cons b l =>
      unfold timesSorted
      rw [Bool.and_eq_true, ih, decide_eq_true_iff, List.pairwise_cons (a := a)]
      constructor
      · rintro ⟨h1, h2⟩
        refine ⟨?_, h2⟩
        intro c hc
        rcases List.mem_cons.1 hc with rfl | hc
        · exact h1
        · exact h1.trans ((List.pairwise_cons.1 h2).1 c hc)
      · rintro ⟨h1, h2⟩
        exact ⟨h1 b (by simp), h2⟩

/-- First and last time of a list of observations. -/
def firstTime (data : List (K × (Fin D → K))) : K := (data.map Prod.fst).getD 0 0

def lastTime (data : List (K × (Fin D → K))) : K := (data.map Prod.fst).getD (data.length - 1) 0

theorem times_between (data : List (K × (Fin D → K))) (hs : (data.map Prod.fst).Pairwise (· ≤ ·))
    (o : K × (Fin D → K)) (ho : o ∈ data) : firstTime data ≤ o.1 ∧ o.1 ≤ lastTime data := by
  obtain ⟨j, hj, rfl⟩ := List.getElem_of_mem ho
  have hm : ∀ a b (ha : a < data.length) (hb : b < data.length), a ≤ b → data[a].1 ≤ data[b].1 := by
    intro a b ha hb hab
    rcases hab.eq_or_lt with rfl | hlt
    · exact le_rfl
    · have := List.pairwise_iff_getElem.1 hs a b (by simpa using ha) (by simpa using hb) hlt
      simpa using this
  have e : ∀ a (ha : a < data.length), (data.map Prod.fst).getD a 0 = data[a].1 := by
    intro a ha
    simp [List.getD_eq_getElem?_getD, ha]
  unfold firstTime lastTime
  rw [e 0 (by omega), e _ (show data.length - 1 < data.length by omega)]
  exact ⟨hm _ _ _ _ (by omega), hm _ _ _ _ (by omega)⟩

/-- The spline prepared by the initialisations from data. -/
theorem prepareUniform_ok (s : BSpline K D) (ho : 2 ≤ s.order) (data : List (K × (Fin D → K)))
    (hlen : 2 ≤ data.length) (hs : (data.map Prod.fst).Pairwise (· ≤ ·)) (n : ℕ) (hn : 1 ≤ n)
    (hold : s.knots.length ≤ n + 2 * s.order - 1) (hle : firstTime data ≤ lastTime data) :
    ∃ s1, s.prepareUniform data n = .ok s1 ∧ s1.WF ∧ s1.order = s.order ∧ s1.knots.length = n + 2 * s.order - 1 ∧
      s1.numValidTimeSegments = n ∧ s1.coeffs.length = n + s.order - 1 ∧
      s1.tMin = .ok (firstTime data) ∧ s1.tMax = .ok (lastTime data) ∧
      s1.kn (s1.knots.length - s1.order) - s1.kn (s1.knots.length - s1.order - 1)
        = (lastTime data - firstTime data) / n := by
  have hnK : numKnotsRequired s.order n = n + 2 * s.order - 1 := by
    unfold numKnotsRequired numCoefficientsRequired; omega
  have hnC : numCoefficientsRequired s.order n = n + s.order - 1 := by
    unfold numCoefficientsRequired; omega
  have hn0 : (0 : K) < n := by exact_mod_cast hn
  set dt := (lastTime data - firstTime data) / (n : K) with hdt
  have hdt0 : 0 ≤ dt := div_nonneg (by linarith) hn0.le
  set kns := uniformKnots s.order (n + 2 * s.order - 1) (firstTime data) dt with hkns
  have hklen : kns.length = n + 2 * s.order - 1 := by simp [hkns, uniformKnots]
  have hsorted : kns.Pairwise (· ≤ ·) := uniformKnots_sorted _ _ _ _ hdt0
  have hset := set_ok ho (kns := kns) (cs := List.replicate (n + s.order - 1) (0 : Fin D → K)) (by omega) hsorted
    (by omega) (by rw [List.length_replicate, hklen]; omega)
  set s1 := initializeBasisMatrices
    { s with knots := kns, coeffs := List.replicate (n + s.order - 1) (0 : Fin D → K) } with hs1
  have hwf : s1.WF := set_wf ho hsorted hset
  have hord : s1.order = s.order := rfl
  have hkk : s1.knots.length = n + 2 * s.order - 1 := hklen
  have hkn : ∀ i, i < n + 2 * s.order - 1 → s1.kn i = firstTime data + ((i : K) - (s.order : K) + 1) * dt := by
    intro i hi
    exact uniformKnots_getD _ _ _ _ _ hi
  have c1 : ((s.order - 1 : ℕ) : K) = (s.order : K) - 1 := by
    push_cast [Nat.cast_sub (show 1 ≤ s.order by omega)]; ring
  have c2 : ((n + 2 * s.order - 1 - s.order : ℕ) : K) = (n : K) + ((s.order : K) - 1) := by
    rw [show n + 2 * s.order - 1 - s.order = n + (s.order - 1) by omega]
    push_cast; rw [c1]
  have c3 : ((n + 2 * s.order - 1 - s.order - 1 : ℕ) : K) = (n : K) + ((s.order : K) - 1) - 1 := by
    rw [Nat.cast_sub (by omega), c2]; push_cast; ring
  refine ⟨s1, ?_, hwf, hord, hkk, ?_, ?_, ?_, ?_, ?_⟩
  · unfold prepareUniform
    rw [if_neg (by omega), if_neg (by omega), if_neg (by rw [(timesSorted_iff _).2 hs]; simp)]
    simp only [Int.toNat_natCast]
    rw [hnK, hnC]
    exact hset
  · change s1.knots.length + 1 - 2 * s.order = n
    rw [hkk]; omega
  · change (List.replicate (n + s.order - 1) (0 : Fin D → K)).length = _
    simp
  · rw [tMin_eq hwf, hord, hkn _ (by omega), c1]
    congr 1; ring
  · rw [tMax_eq hwf, hord, hkk, hkn _ (by omega), c2, hdt]
    congr 1
    field_simp
    ring
  · rw [hord, hkk, hkn _ (by omega), hkn _ (by omega), c2, c3]
    ring

/-- The rejected inputs of the initialisations from data. -/
theorem prepareUniform_throws (s : BSpline K D) (data : List (K × (Fin D → K))) (n : ℤ)
    (h : data.length < 2 ∨ n < 1 ∨ ¬ (data.map Prod.fst).Pairwise (· ≤ ·)) : s.prepareUniform data n = .throws := by
  unfold prepareUniform
  split_ifs with h1 h2 h3
  · rfl
  · rfl
  · rfl
  · rw [Bool.not_eq_false, timesSorted_iff] at h3
    tauto

end Field

variable {D : ℕ}

/-- The cost of a spline: sum of the squared residuals of the observations plus `lambda` times the integral over the valid
interval of the squared norm of the `der`-th derivative. -/
noncomputable def fitCost (s : BSpline ℝ D) (data : List (ℝ × (Fin D → ℝ))) (lambda : ℝ) (der : ℕ) (lo hi : ℝ) : ℝ :=
  (data.map fun o => ∑ d, ((s.eval o.1).getD 0 d - o.2 d) ^ 2).sum
    + lambda * ∫ t in lo..hi, ∑ d, ((s.evalD t der).getD 0 d) ^ 2

theorem squares_data (s : BSpline ℝ D) (data : List (ℝ × (Fin D → ℝ))) :
    squares s (dataConstraints data) = (data.map fun o => ∑ d, ((s.eval o.1).getD 0 d - o.2 d) ^ 2).sum := by
  unfold squares dataConstraints
  rw [List.map_map]
  congr 1
  apply List.map_congr_left
  intro o _
  simp only [Function.comp, one_mul, BSpline.eval]

/-- The quadratic integral does not depend on the coefficients. -/
theorem quadratic_withVec (s : BSpline ℝ D) (y : ℕ → ℝ) (w : ℕ → ℝ) (der : ℕ) :
    (s.withVec y).curveQuadraticIntegralDiag w der = s.curveQuadraticIntegralDiag w der := by
  have : ∀ n, (s.withVec y).sumBlocks (fun seg => (s.withVec y).segmentQuadraticIntegralDiag w seg der) n
      = s.sumBlocks (fun seg => s.segmentQuadraticIntegralDiag w seg der) n := by
    intro n
    induction n with
    | zero => rfl
    | succ n ih =>
      unfold sumBlocks
      rw [ih]
      simp only [withVec_len, withVec_order]
      rfl
  exact this _

theorem wide_withVec {s : BSpline ℝ D} (hw : s.WideLast) (y : ℕ → ℝ) : (s.withVec y).WideLast := hw

/-- The matrix added to the normal equations. -/
theorem regulariser {s : BSpline ℝ D} (h : s.WF) (hw : s.WideLast) (lambda : ℝ) (hl : 0 ≤ lambda) (der : ℕ)
    (lo hi : ℝ) (hlo : s.tMin = .ok lo) (hhi : s.tMax = .ok hi) :
    ∃ Q, s.curveQuadraticIntegralDiag (fun _ => lambda) der = .ok Q ∧
      (∀ p < s.coeffs.length * D, ∀ q < s.coeffs.length * D, Q p q = Q q p) ∧
      (∀ x, 0 ≤ bil (s.coeffs.length * D) Q x x) ∧
      ∀ y, bil (s.coeffs.length * D) Q y y
        = lambda * ∫ t in lo..hi, ∑ d, (((s.withVec y).evalD t der).getD 0 d) ^ 2 := by
  set W : Mat ℝ := fun r c => if r = c then lambda else 0 with hW
  have hdiag : s.curveQuadraticIntegralDiag (fun _ => lambda) der = s.curveQuadraticIntegral W der :=
    C09_diagonal s _ _
  have hsym : ∀ r < D, ∀ c < D, W r c = W c r := by
    intro r _ c _
    simp only [hW, eq_comm]
  have hacc : AcceptedWeight D W := by
    intro r hr c hc
    rw [hsym r hr c hc, sub_self, abs_zero]
    norm_num
  obtain ⟨Q, hQ, hQs⟩ := C09_symmetric s h W hsym der
  obtain ⟨Q', hQ', hQp⟩ := C09_psd s h W hacc (by
    intro y
    refine sum_nonneg fun d hd => ?_
    rw [Finset.sum_eq_single d]
    · simp only [hW, if_true]
      nlinarith [mul_nonneg hl (mul_self_nonneg (y d))]
    · intro e _ he
      simp [hW, Ne.symm he]
    · intro hn; exact absurd hd hn) der
  obtain rfl : Q = Q' := Outcome.ok.inj (hQ.symm.trans hQ')
  refine ⟨Q, by rw [hdiag, hQ], hQs, hQp, fun y => ?_⟩
  obtain ⟨Q'', hQ'', hval⟩ := C09_quadratic_integral (s.withVec y) (withVec_wf h y) (wide_withVec hw y) W hacc der lo hi
    hlo hhi
  have e : (s.withVec y).curveQuadraticIntegral W der = s.curveQuadraticIntegral W der := by
    rw [← C09_diagonal, ← C09_diagonal, quadratic_withVec]
  rw [e, hQ] at hQ''
  obtain rfl := Outcome.ok.inj hQ''
  have hb : bil (s.coeffs.length * D) Q y y = ∑ p ∈ range ((s.withVec y).coeffs.length * D),
      ∑ q ∈ range ((s.withVec y).coeffs.length * D),
        (s.withVec y).coefficientVector.getD p 0 * Q p q * (s.withVec y).coefficientVector.getD q 0 := by
    have hst : ∀ p < s.coeffs.length * D, (s.withVec y).coefficientVector.getD p 0 = y p := by
      intro p hp
      have hD : 0 < D := Nat.pos_of_ne_zero fun h => by
        have := (Nat.mul_eq_zero.2 (Or.inr h) : s.coeffs.length * D = 0); omega
      have hj : p / D < s.coeffs.length := (Nat.div_lt_iff_lt_mul hD).2 hp
      have := stacked_at (s.withVec y) (p / D) (by simpa using hj) ⟨p % D, Nat.mod_lt _ hD⟩
      rw [withVec_col s y _ hj] at this
      simp only [Nat.div_add_mod'] at this
      exact this
    rw [withVec_len]
    unfold bil
    refine sum_congr rfl fun p hp => sum_congr rfl fun q hq => ?_
    rw [hst p (mem_range.1 hp), hst q (mem_range.1 hq)]
  rw [hb, hval, ← intervalIntegral.integral_const_mul]
  refine intervalIntegral.integral_congr fun t _ => ?_
  rw [mul_sum]
  refine sum_congr rfl fun d _ => ?_
  rw [Finset.sum_eq_single d]
  · simp only [hW, if_true]
    ring
  · intro e _ he
    simp [hW, Fin.val_inj, Ne.symm he]
  · intro hn; exact absurd (mem_univ d) hn

theorem competitor {s s' : BSpline ℝ D} (x : ℕ → ℝ) (hs' : s' = s.withVec x) (cs : List (Fin D → ℝ))
    (hcs : cs.length = s'.coeffs.length) :
    ∃ y, (BSpline.mk (K := ℝ) s'.order s'.knots cs s'.basis) = s.withVec y := by
  refine ⟨fun p => (BSpline.mk (K := ℝ) s'.order s'.knots cs s'.basis).coefficientVector.getD p 0, ?_⟩
  have := withVec_self (BSpline.mk (K := ℝ) s'.order s'.knots cs s'.basis)
  conv_lhs => rw [← this]
  subst hs'
  unfold withVec
  simp only at hcs ⊢
  rw [hcs]
  simp [withVec]

/-- The fit common to the dense and sparse initialisations is optimal. -/
theorem fitRegularised_optimal (solve : Solver ℝ) (hsolve : SolvesSemidefinite solve) {s : BSpline ℝ D} (h : s.WF)
    (hw : s.WideLast) (hD : 1 ≤ D) (lo hi : ℝ) (hlo : s.tMin = .ok lo) (hhi : s.tMax = .ok hi)
    (data : List (ℝ × (Fin D → ℝ))) (hdata : ∀ o ∈ data, lo ≤ o.1 ∧ o.1 ≤ hi) (lambda : ℝ) (hl : 0 ≤ lambda) :
    ∃ s', s.fitRegularised solve data lambda = .ok s' ∧ (∃ x, s' = s.withVec x) ∧
      ∀ cs, cs.length = s'.coeffs.length →
        fitCost s' data lambda (if s.order = 2 then 1 else 2) lo hi
          ≤ fitCost (BSpline.mk (K := ℝ) s'.order s'.knots cs s'.basis) data lambda (if s.order = 2 then 1 else 2) lo hi := by
  set der := if s.order = 2 then 1 else 2 with hder
  obtain ⟨Q, hQ, hQs, hQp, hQi⟩ := regulariser h hw lambda hl der lo hi hlo hhi
  have hlo' := hlo
  have hhi' := hhi
  rw [tMin_eq h] at hlo'
  rw [tMax_eq h] at hhi'
  have hlo2 := Outcome.ok.inj hlo'
  have hhi2 := Outcome.ok.inj hhi'
  obtain ⟨rows, hrows, x, hx, hopt⟩ := lsq_core h hD solve hsolve (dataConstraints data) (by
    intro c hc
    unfold dataConstraints at hc
    obtain ⟨o, ho, rfl⟩ := List.mem_map.1 hc
    refine ⟨le_rfl, admissible_of_wide _ (WideLast.wide h hw) ?_ ?_⟩
    · rw [hlo2]; exact (hdata o ho).1
    · rw [hhi2]; exact (hdata o ho).2) Q hQs hQp
  refine ⟨s.withVec x, ?_, ⟨x, rfl⟩, ?_⟩
  · unfold fitRegularised
    rw [hrows]
    simp only [Outcome.bind_ok]
    rw [← hder, hQ]
    simp only [Outcome.bind_ok]
    rw [← hx]
    simp [dataConstraints]
  · intro cs hcs
    obtain ⟨y, hy⟩ := competitor x rfl cs hcs
    rw [hy]
    have := hopt y
    rw [squares_data, squares_data, hQi, hQi] at this
    exact this

/-- **C19**: the regularised least squares initialisation minimises, among all splines with the same knots, the sum of
squared residuals plus `lambda` times the integral of the squared second (order 2: first) derivative.  It spans exactly
the observation times with the requested number of segments.  The segments must be at least `1e-10` wide (tolerance of
the lookup), the spline must not hold more knots than it is going to hold (see C12). -/
theorem C19_optimal (solve : Solver ℝ) (hsolve : SolvesSemidefinite solve) (s : BSpline ℝ D) (ho : 2 ≤ s.order)
    (hD : 1 ≤ D) (data : List (ℝ × (Fin D → ℝ))) (hlen : 2 ≤ data.length)
    (hs : (data.map Prod.fst).Pairwise (· ≤ ·)) (n : ℕ) (hn : 1 ≤ n)
    (hold : s.knots.length ≤ n + 2 * s.order - 1)
    (hwide : 1 / 10 ^ 10 ≤ (lastTime data - firstTime data) / n) (lambda : ℝ) (hl : 0 ≤ lambda) :
    ∃ s', s.initSpline3 solve data n lambda = .ok s' ∧ s'.WF ∧ s'.order = s.order ∧
      s'.numValidTimeSegments = n ∧ s'.timeInterval = .ok (firstTime data, lastTime data) ∧
      ∀ cs, cs.length = s'.coeffs.length →
        fitCost s' data lambda (if s.order = 2 then 1 else 2) (firstTime data) (lastTime data)
          ≤ fitCost (BSpline.mk (K := ℝ) s'.order s'.knots cs s'.basis) data lambda (if s.order = 2 then 1 else 2)
              (firstTime data) (lastTime data) := by
  have hn0 : (0 : ℝ) < n := by exact_mod_cast hn
  have hle : firstTime data ≤ lastTime data := by
    have : 0 ≤ (lastTime data - firstTime data) / (n : ℝ) := le_trans (by norm_num) hwide
    have := mul_nonneg this hn0.le
    rw [div_mul_cancel₀ _ hn0.ne'] at this
    linarith
  obtain ⟨s1, hp, hwf, h1, h2, h3, h4, h5, h6, h7⟩ := prepareUniform_ok s ho data hlen hs n hn hold hle
  have hw : s1.WideLast := by
    intro a b hab
    obtain ⟨i, i1, i2, rfl, rfl, i3⟩ := timeIntervalOf_eq hwf hab
    have e : i = s1.knots.length - s1.order - 1 := by
      have hk := hwf.order_pos
      rw [h3, h1] at i3
      rw [h1, h2]
      omega
    subst e
    have hk := hwf.order_pos
    have hen := hwf.enough
    rw [show s1.knots.length - s1.order - 1 + 1 = s1.knots.length - s1.order by omega, h7]
    exact hwide
  obtain ⟨s', e1, ⟨x, e2⟩, e3⟩ := fitRegularised_optimal solve hsolve hwf hw hD _ _ h5 h6 data
    (times_between data hs) lambda hl
  rw [h1] at e3
  refine ⟨s', ?_, ?_, ?_, ?_, ?_, e3⟩
  · unfold initSpline3
    rw [hp]
    exact e1
  · rw [e2]; exact withVec_wf hwf x
  · rw [e2]; exact h1
  · rw [e2]; exact h3
  · rw [e2]
    unfold timeInterval
    change Outcome.bind s1.tMin (fun a => Outcome.bind s1.tMax fun b => .ok (a, b)) = _
    rw [h5, h6]
    rfl

/-- Too few observations, no segment or unsorted times are rejected by all initialisations from data. -/
theorem C19_rejects (solve : Solver ℝ) (s : BSpline ℝ D) (data : List (ℝ × (Fin D → ℝ))) (n : ℤ) (lambda : ℝ)
    (h : data.length < 2 ∨ n < 1 ∨ ¬ (data.map Prod.fst).Pairwise (· ≤ ·)) :
    s.initSpline3 solve data n lambda = .throws ∧ s.initSplineSparse solve data n lambda = .throws ∧
      s.initSpline2 solve data n lambda = .throws := by
  unfold initSpline3 initSplineSparse initSpline2
  rw [prepareUniform_throws s data n h]
  exact ⟨rfl, rfl, rfl⟩

/-- With knots given by the caller: bad data and too few knots are rejected, except that with less knots than the order the number of coefficients
is negative, which is undefined. -/
theorem C19_given_knots_rejects (solve : Solver ℝ) (s : BSpline ℝ D) (ho : 1 ≤ s.order) (data : List (ℝ × (Fin D → ℝ))) (knots : List ℝ)
    (lambda : ℝ) :
    (data.length < 2 ∨ ¬ (data.map Prod.fst).Pairwise (· ≤ ·) → s.initSplineSparseKnots solve data knots lambda = .throws) ∧
    (2 ≤ data.length → (data.map Prod.fst).Pairwise (· ≤ ·) → s.order ≤ knots.length → knots.length < 2 * s.order →
      s.initSplineSparseKnots solve data knots lambda = .throws) ∧
    (2 ≤ data.length → (data.map Prod.fst).Pairwise (· ≤ ·) → knots.length < s.order →
      s.initSplineSparseKnots solve data knots lambda = .ub) := by
  unfold initSplineSparseKnots
  refine ⟨fun h => ?_, fun h1 h2 h3 h4 => ?_, fun h1 h2 h3 => ?_⟩
  · by_cases hl : data.length < 2
    · rw [if_pos hl]
    · rw [if_neg hl, if_pos]
      rw [← Bool.not_eq_true]
      intro hc
      rcases h with h | h
      · exact hl h
      · exact h ((timesSorted_iff _).1 hc)
  · rw [if_neg (by omega), if_neg (by rw [(timesSorted_iff _).2 h2]; simp), if_neg (by omega)]
    unfold setKnotsAndCoefficients verifyKnotSequence minimumKnotsRequired numKnotsRequired numCoefficientsRequired
    rw [if_pos (by omega)]
    rfl
  · rw [if_neg (by omega), if_neg (by rw [(timesSorted_iff _).2 h2]; simp), if_pos h3]

theorem firstIndex_multiple (s : BSpline ℝ D) (hD : 1 ≤ D) (t : ℝ) :
    (s.firstIndex t).map (fun o => o / D * D) = s.firstIndex t := by
  unfold firstIndex localCoefficientVectorIndices
  cases hT : s.computeTIndex t with
  | throws => rfl
  | ub => rfl
  | ok r =>
    obtain ⟨x, i⟩ := r
    simp only [Outcome.bind_ok]
    cases h : s.bidxOf i with
    | throws => rfl
    | ub => rfl
    | ok b =>
      simp only [Outcome.bind_ok]
      unfold linSpacedIdx
      cases hm : s.order * D with
      | zero => rfl
      | succ m =>
        rw [List.range_succ_eq_map]
        simp only [List.map_cons, Outcome.map]
        congr 1
        rw [Nat.add_zero, Nat.mul_div_cancel _ (by omega)]

/-- **C19** (sparse variants): with the same solver the sparse assembly computes the same coefficients as the dense one. -/
theorem C19_sparse_eq_dense (solve : Solver ℝ) (s : BSpline ℝ D) (h : s.WF) (hD : 1 ≤ D)
    (data : List (ℝ × (Fin D → ℝ))) (lambda : ℝ) :
    s.fitRegularisedSparse solve data lambda = s.fitRegularised solve data lambda := by
  unfold fitRegularisedSparse fitRegularised
  have : (fun t => (s.firstIndex t).map (fun o => o / D * D)) = s.firstIndex := by
    funext t
    exact firstIndex_multiple s hD t
  rw [this]
  set der := if s.order = 2 then 1 else 2 with hder
  have hacc : AcceptedWeight D (fun r c => if r = c then lambda else 0) := by
    intro r _ c _
    by_cases hrc : r = c
    · subst hrc; simp
    · beta_reduce; rw [if_neg hrc, if_neg (Ne.symm hrc)]; norm_num
  obtain ⟨Q, hQ, -⟩ := curveQ h _ hacc der
  rw [← C09_diagonal s (fun _ => lambda)] at hQ
  obtain ⟨Qs, hQs, -, hent⟩ := C09_diagonal_sparse s _ der Q hQ
  rw [hQ, hQs]
  have e : sparseDense D Qs = Q := by
    funext p q
    unfold sparseDense
    rw [hent _ _ _ _ (Nat.mod_lt _ (by omega)) (Nat.mod_lt _ (by omega)), Nat.div_add_mod', Nat.div_add_mod']
  simp only [Outcome.bind_ok]
  rw [e]

/-- **C19** for `initSplineSparse`. -/
theorem C19_sparse_optimal (solve : Solver ℝ) (s : BSpline ℝ D) (ho : 2 ≤ s.order)
    (hD : 1 ≤ D) (data : List (ℝ × (Fin D → ℝ))) (hlen : 2 ≤ data.length)
    (hs : (data.map Prod.fst).Pairwise (· ≤ ·)) (n : ℕ) (hn : 1 ≤ n)
    (hold : s.knots.length ≤ n + 2 * s.order - 1) (lambda : ℝ) :
    s.initSplineSparse solve data n lambda = s.initSpline3 solve data n lambda := by
  have hle : firstTime data ≤ lastTime data := by
    have := times_between data hs (data[0]) (List.getElem_mem _)
    exact this.1.trans this.2
  obtain ⟨s1, hp, hwf, -⟩ := prepareUniform_ok s ho data hlen hs n hn hold hle
  unfold initSplineSparse initSpline3
  rw [hp]
  exact C19_sparse_eq_dense solve s1 hwf hD data lambda

/-- **C19** for knots given by the caller: optimal among all splines with these knots, provided all observations lie in the
valid interval of the knots. -/
theorem C19_given_knots_optimal (solve : Solver ℝ) (hsolve : SolvesSemidefinite solve) (s : BSpline ℝ D) (ho : 2 ≤ s.order)
    (hD : 1 ≤ D) (data : List (ℝ × (Fin D → ℝ))) (hlen : 2 ≤ data.length)
    (hs : (data.map Prod.fst).Pairwise (· ≤ ·)) (knots : List ℝ) (hks : knots.Pairwise (· ≤ ·))
    (hkl : 2 * s.order ≤ knots.length) (hold : s.knots.length ≤ knots.length)
    (hwide : 1 / 10 ^ 10 ≤ knots.getD (knots.length - s.order) 0 - knots.getD (knots.length - s.order - 1) 0)
    (hin : ∀ o ∈ data, knots.getD (s.order - 1) 0 ≤ o.1 ∧ o.1 ≤ knots.getD (knots.length - s.order) 0)
    (lambda : ℝ) (hl : 0 ≤ lambda) :
    ∃ s', s.initSplineSparseKnots solve data knots lambda = .ok s' ∧ s'.WF ∧ s'.order = s.order ∧ s'.knots = knots ∧
      ∀ cs, cs.length = s'.coeffs.length →
        fitCost s' data lambda (if s.order = 2 then 1 else 2) (knots.getD (s.order - 1) 0)
            (knots.getD (knots.length - s.order) 0)
          ≤ fitCost (BSpline.mk (K := ℝ) s'.order s'.knots cs s'.basis) data lambda (if s.order = 2 then 1 else 2)
              (knots.getD (s.order - 1) 0) (knots.getD (knots.length - s.order) 0) := by
  have hset := set_ok ho (kns := knots) (cs := List.replicate (knots.length - s.order) (0 : Fin D → ℝ)) hold hks hkl
    (by rw [List.length_replicate]; omega)
  set s1 := initializeBasisMatrices
    { s with knots := knots, coeffs := List.replicate (knots.length - s.order) (0 : Fin D → ℝ) } with hs1
  have hwf : s1.WF := set_wf ho hks hset
  have h1 : s1.order = s.order := rfl
  have h2 : s1.knots = knots := rfl
  have hw : s1.WideLast := by
    intro a b hab
    obtain ⟨i, i1, i2, rfl, rfl, i3⟩ := timeIntervalOf_eq hwf hab
    have e : i = knots.length - s.order - 1 := by
      change (i : ℤ) = s.order + (((knots.length + 1 - 2 * s.order : ℕ) : ℤ) - 1) - 1 at i3
      omega
    subst e
    rw [show knots.length - s.order - 1 + 1 = knots.length - s.order by omega]
    exact hwide
  obtain ⟨s', e1, ⟨x, e2⟩, e3⟩ := fitRegularised_optimal solve hsolve hwf hw hD _ _ (tMin_eq hwf) (tMax_eq hwf) data
    hin lambda hl
  refine ⟨s', ?_, ?_, ?_, ?_, e3⟩
  · unfold initSplineSparseKnots
    rw [if_neg (by omega), if_neg (by rw [(timesSorted_iff _).2 hs]; simp), if_neg (by omega), hset]
    simp only [Outcome.bind_ok]
    rw [C19_sparse_eq_dense solve s1 hwf hD]
    exact e1
  · rw [e2]; exact withVec_wf hwf x
  · rw [e2]; exact h1
  · rw [e2]; exact h2

/-- **C53**: `initSpline2` minimises the sum of squared residuals plus `lambda` squared times the sum of the squared second
derivatives at the knots of the valid interval, among all splines with the same knots. -/
theorem C53_optimal (solve : Solver ℝ) (hsolve : SolvesSemidefinite solve) (s : BSpline ℝ D) (ho : 2 ≤ s.order)
    (hD : 1 ≤ D) (data : List (ℝ × (Fin D → ℝ))) (hlen : 2 ≤ data.length)
    (hs : (data.map Prod.fst).Pairwise (· ≤ ·)) (n : ℕ) (hn : 1 ≤ n)
    (hold : s.knots.length ≤ n + 2 * s.order - 1)
    (hwide : 1 / 10 ^ 10 ≤ (lastTime data - firstTime data) / n) (lambda : ℝ) :
    ∃ s', s.initSpline2 solve data n lambda = .ok s' ∧ s'.WF ∧ s'.order = s.order ∧
      s'.numValidTimeSegments = n ∧ s'.timeInterval = .ok (firstTime data, lastTime data) ∧
      ∀ cs, cs.length = s'.coeffs.length →
        let cost := fun s'' : BSpline ℝ D =>
          (data.map fun o => ∑ d, ((s''.eval o.1).getD 0 d - o.2 d) ^ 2).sum
            + lambda ^ 2 * ∑ i ∈ range (n + 1), ∑ d, ((s''.evalD (s'.kn (s.order - 1 + i)) 2).getD 0 d) ^ 2
        cost s' ≤ cost (BSpline.mk (K := ℝ) s'.order s'.knots cs s'.basis) := by
  have hn0 : (0 : ℝ) < n := by exact_mod_cast hn
  have hle : firstTime data ≤ lastTime data := by
    have : 0 ≤ (lastTime data - firstTime data) / (n : ℝ) := le_trans (by norm_num) hwide
    have := mul_nonneg this hn0.le
    rw [div_mul_cancel₀ _ hn0.ne'] at this
    linarith
  obtain ⟨s1, hp, hwf, h1, h2, h3, h4, h5, h6, h7⟩ := prepareUniform_ok s ho data hlen hs n hn hold hle
  have hlo2 := Outcome.ok.inj ((tMin_eq hwf).symm.trans h5)
  have hhi2 := Outcome.ok.inj ((tMax_eq hwf).symm.trans h6)
  have hw : snapTol ≤ s1.kn (s1.knots.length - s1.order) - s1.kn (s1.knots.length - s1.order - 1) := by
    rw [h7]; exact hwide
  set knots := (List.range (s1.knots.length + 2 - 2 * s1.order)).map (fun i => s1.kn (s1.order - 1 + i)) with hknots
  set cs : List (Constraint ℝ D) := knots.map (fun t => ⟨t, 2, lambda, 0⟩) ++ dataConstraints data with hcs
  have hk := hwf.order_pos
  have hen := hwf.enough
  obtain ⟨rows, hrows, x, hx, hopt⟩ := lsq_core hwf hD solve hsolve cs (by
    intro c hc
    rcases List.mem_append.1 hc with hc | hc
    · obtain ⟨t, ht, rfl⟩ := List.mem_map.1 hc
      obtain ⟨i, hi, rfl⟩ := List.mem_map.1 ht
      have hi' := List.mem_range.1 hi
      refine ⟨by norm_num, admissible_of_wide _ hw ?_ ?_⟩
      · exact hwf.mono _ _ (by omega) (by omega)
      · exact hwf.mono _ _ (by omega) (by omega)
    · unfold dataConstraints at hc
      obtain ⟨o, ho, rfl⟩ := List.mem_map.1 hc
      refine ⟨le_rfl, admissible_of_wide _ hw ?_ ?_⟩
      · rw [hlo2]; exact (times_between data hs o ho).1
      · rw [hhi2]; exact (times_between data hs o ho).2) (fun _ _ => 0) (fun _ _ _ _ => rfl) (by intro x; simp [bil])
  have hclen : cs.length = s1.knots.length - 2 * s1.order + 2 + data.length := by
    simp only [hcs, hknots, dataConstraints, List.length_append, List.length_map, List.length_range]
    omega
  have hcost : ∀ s'' : BSpline ℝ D, squares s'' cs
      = (data.map fun o => ∑ d, ((s''.eval o.1).getD 0 d - o.2 d) ^ 2).sum
            + lambda ^ 2 * ∑ i ∈ range (n + 1), ∑ d, ((s''.evalD (s1.kn (s.order - 1 + i)) 2).getD 0 d) ^ 2 := by
    intro s''
    rw [← squares_data]
    unfold squares
    rw [hcs, List.map_append, List.sum_append, add_comm]
    congr 1
    rw [List.map_map, hknots, List.map_map, mul_sum, show s1.knots.length + 2 - 2 * s1.order = n + 1 by omega,
      Finset.sum_range, ← List.sum_ofFn]
    congr 1
    apply List.ext_getElem (by simp)
    intro i _ _
    simp only [List.getElem_map, List.getElem_range, List.getElem_ofFn, Function.comp, Pi.zero_apply, sub_zero]
    rw [mul_sum, h1]
    exact sum_congr rfl fun d _ => by ring
  refine ⟨s1.withVec x, ?_, withVec_wf hwf x, h1, h3, ?_, ?_⟩
  · unfold initSpline2
    rw [hp]
    simp only [Outcome.bind_ok]
    rw [hrows]
    simp only [Outcome.bind_ok]
    rw [← hx, hclen]
    congr 1
    funext p q
    rw [add_zero]
  · unfold timeInterval
    change Outcome.bind s1.tMin (fun a => Outcome.bind s1.tMax fun b => .ok (a, b)) = _
    rw [h5, h6]
    rfl
  · intro cs' hcs'
    obtain ⟨y, hy⟩ := competitor x rfl cs' hcs'
    rw [hy]
    have := hopt y
    rw [hcost, hcost] at this
    have hz : ∀ z : ℕ → ℝ, bil (s1.coeffs.length * D) (fun _ _ => (0 : ℝ)) z z = 0 := by intro z; simp [bil]
    rw [hz, hz, add_zero, add_zero] at this
    exact this

/-- Three observations, a cubic with two segments. -/
example : ∃ s', (⟨4, [], [], []⟩ : BSpline ℝ 1).initSpline3 choiceSolver [(0, ![1]), (1, ![2]), (4, ![0])] 2 (1/2) = .ok s' ∧
    s'.timeInterval = .ok (0, 4) := by
  obtain ⟨s', h1, -, -, -, h2, -⟩ := C19_optimal choiceSolver choiceSolver_semidefinite
    (⟨4, [], [], []⟩ : BSpline ℝ 1) (by decide) le_rfl [(0, ![1]), (1, ![2]), (4, ![0])] (by decide)
    (by norm_num) 2 (by norm_num) (by decide) (by norm_num [firstTime, lastTime]) (1/2) (by norm_num)
  exact ⟨s', h1, h2⟩

example : ∃ s', (⟨4, [], [], []⟩ : BSpline ℝ 1).initSpline2 choiceSolver [(0, ![1]), (1, ![2]), (4, ![0])] 2 (1/2) = .ok s' ∧
    s'.timeInterval = .ok (0, 4) := by
  obtain ⟨s', h1, -, -, -, h2, -⟩ := C53_optimal choiceSolver choiceSolver_semidefinite
    (⟨4, [], [], []⟩ : BSpline ℝ 1) (by decide) le_rfl [(0, ![1]), (1, ![2]), (4, ![0])] (by decide)
    (by norm_num) 2 (by norm_num) (by decide) (by norm_num [firstTime, lastTime]) (1/2)
  exact ⟨s', h1, h2⟩

example : ∃ s', (⟨2, [], [], []⟩ : BSpline ℝ 1).initSplineSparseKnots choiceSolver
      [(1, ![1]), (2, ![2]), (4, ![0])] [0, 1, 2, 5, 7] 3 = .ok s' ∧ s'.knots = [0, 1, 2, 5, 7] := by
  obtain ⟨s', h1, -, -, h2, -⟩ := C19_given_knots_optimal choiceSolver choiceSolver_semidefinite
    (⟨2, [], [], []⟩ : BSpline ℝ 1) (by decide) le_rfl [(1, ![1]), (2, ![2]), (4, ![0])] (by decide)
    (by norm_num) [0, 1, 2, 5, 7] (by norm_num) (by decide) (by decide) (by norm_num)
    (by simp only [List.mem_cons, List.not_mem_nil, or_false]; rintro o (rfl | rfl | rfl) <;> norm_num) 3 (by norm_num)
  exact ⟨s', h1, h2⟩

end Verif
