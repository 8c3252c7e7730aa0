import Verif.Lemmas.Shift
import Verif.Props.Smooth
import Mathlib.Analysis.Convex.Combination
import Mathlib.Analysis.Calculus.MeanValue
import Mathlib.Analysis.Seminorm
import Mathlib.Analysis.LocallyConvex.Separation
import Mathlib.Topology.Algebra.Module.FiniteDimension
import Mathlib.Analysis.Convex.Topology

/-!
# Property C82: the derivative of a spline is the spline of its control slopes

The slope between two neighbouring coefficients is their difference divided by the time between the knots they belong to.  The derivative of a
spline is the spline with these slopes as coefficients, of one order less, over the same knots without the first and the last.  So a curve
never moves faster than its control slopes.
-/

set_option linter.unusedSectionVars false

namespace Verif

open Finset Polynomial

/-- Specification: the slope between the control points `j` and `j + 1` of a curve of order `k` over the knots `kn`. -/
def Spec.slope {K : Type*} [Field K] (k : ℕ) (kn : ℕ → K) (c : ℕ → K) (j : ℕ) : K :=
  ((k - 1 : ℕ) : K) * (c (j + 1) - c j) / (kn (j + k) - kn (j + 1))

namespace BSpline

variable {K : Type*} [Field K] [LinearOrder K] [IsStrictOrderedRing K] {D : ℕ}

/-- The knots of the derivative. -/
def slopeKnots (s : BSpline K D) : List K := s.knots.tail.dropLast

/-- The coefficients of the derivative. -/
def slopeCoeffs (s : BSpline K D) : List (Fin D → K) :=
  (List.range (s.coeffs.length - 1)).map fun j d => Spec.slope s.order s.kn (fun i => s.col i d) j

/-- Summation by parts. -/
theorem sum_by_parts {R : Type*} [CommRing R] (c P : ℕ → R) : ∀ n : ℕ,
    ∑ j ∈ range (n + 1), c j * (P j - P (j + 1)) = c 0 * P 0 + ∑ j ∈ range n, (c (j + 1) - c j) * P (j + 1) - c n * P (n + 1)
  | 0 => by simp; ring
  | n + 1 => by
    rw [sum_range_succ, sum_by_parts c P n, sum_range_succ _ n]
    ring

/-- The derivative of the polynomial a component follows on a segment. -/
theorem derivative_segPoly {s : BSpline K D} (h : s.WF) (i : ℕ) (h1 : s.order - 1 ≤ i) (h2 : i + 1 ≤ s.knots.length - s.order)
    (hlt : s.kn i < s.kn (i + 1)) (d : Fin D) :
    derivative (s.segPoly i d) =
      ∑ j ∈ range (s.coeffs.length - 1), C (Spec.slope s.order s.kn (fun l => s.col l d) j) * piece s.kn i (s.order - 2) (j + 1) := by
  have hk := h.order_pos
  have hn := h.enough
  have hc := h.coeffs_len
  obtain ⟨p, hp⟩ : ∃ p, s.order = p + 2 := ⟨s.order - 2, by omega⟩
  obtain ⟨m, hm⟩ : ∃ m, s.coeffs.length = m + 1 := ⟨s.coeffs.length - 1, by omega⟩
  unfold segPoly
  have e : ∀ j ∈ range s.coeffs.length, derivative (C (s.col j d) * piece s.kn i (s.order - 1) j) =
      C (s.col j d) * ((((p : K[X]) + 1) * C (1 / (s.kn (j + p + 1) - s.kn j)) * piece s.kn i p j) -
        (((p : K[X]) + 1) * C (1 / (s.kn (j + 1 + p + 1) - s.kn (j + 1))) * piece s.kn i p (j + 1))) := by
    intro j hj
    have hj := mem_range.1 hj
    rw [derivative_C_mul, show s.order - 1 = p + 1 by omega, derivative_piece s.kn s.knots.length i h.mono hlt p j (by omega),
      show j + 1 + p + 1 = j + p + 2 by omega]
    ring
  rw [derivative_sum, sum_congr rfl e, hm,
    sum_by_parts (fun j => C (s.col j d)) fun j => ((p : K[X]) + 1) * C (1 / (s.kn (j + p + 1) - s.kn j)) * piece s.kn i p j,
    piece_zero_of_gt s.kn i p 0 (by omega), piece_zero_of_lt s.kn i p (m + 1) (by omega)]
  simp only [mul_zero, zero_add, sub_zero, Nat.add_sub_cancel, hp]
  refine sum_congr rfl fun j _ => ?_
  unfold Spec.slope
  rw [show j + 1 + p + 1 = j + (p + 2) by omega, show p + 2 - 1 = p + 1 by omega, mul_div_assoc, div_eq_mul_one_div (s.col (j + 1) d - s.col j d),
    C_mul, C_mul, C_sub]
  have hcast : (C (((p + 1 : ℕ) : K)) : K[X]) = (p : K[X]) + 1 := by simp
  rw [hcast]
  ring

/-- The spline of the slopes is accepted. -/
theorem slope_set {s : BSpline K D} (h : s.WF) (hk3 : 3 ≤ s.order) :
    setKnotsAndCoefficients ⟨s.order - 1, [], [], []⟩ s.slopeKnots s.slopeCoeffs =
      .ok (initializeBasisMatrices ⟨s.order - 1, s.slopeKnots, s.slopeCoeffs, []⟩) := by
  have hn := h.enough
  have hc := h.coeffs_len
  have hl : s.slopeKnots.length = s.knots.length - 2 := by simp [slopeKnots]; omega
  have hl' : s.slopeCoeffs.length = s.coeffs.length - 1 := by simp [slopeCoeffs]
  unfold setKnotsAndCoefficients verifyKnotSequence minimumKnotsRequired numKnotsRequired numCoefficientsRequired numValidTimeSegmentsOf
  rw [hl, hl']
  dsimp only
  rw [if_neg (by omega)]
  rw [if_pos (by omega)]
  rfl

theorem slope_wf {s : BSpline K D} (h : s.WF) (hk3 : 3 ≤ s.order) :
    (initializeBasisMatrices ⟨s.order - 1, s.slopeKnots, s.slopeCoeffs, []⟩ : BSpline K D).WF := by
  refine set_wf (by dsimp only; omega) ?_ (slope_set h hk3)
  exact (h.sorted.sublist (List.tail_sublist _)).sublist (List.dropLast_sublist _)

theorem slope_kn {s : BSpline K D} (j : ℕ) (hj : j + 2 < s.knots.length) :
    (initializeBasisMatrices ⟨s.order - 1, s.slopeKnots, s.slopeCoeffs, []⟩ : BSpline K D).kn j = s.kn (j + 1) := by
  unfold kn initializeBasisMatrices slopeKnots
  simp only [List.getD_eq_getElem?_getD]
  rw [List.getElem?_dropLast, if_pos (by simp; omega), List.getElem?_tail]

theorem slope_col {s : BSpline K D} (j : ℕ) (hj : j + 1 < s.coeffs.length) (d : Fin D) :
    (initializeBasisMatrices ⟨s.order - 1, s.slopeKnots, s.slopeCoeffs, []⟩ : BSpline K D).col j d =
      Spec.slope s.order s.kn (fun i => s.col i d) j := by
  unfold col initializeBasisMatrices slopeCoeffs
  simp only [List.getD_eq_getElem?_getD]
  rw [List.getElem?_map, List.getElem?_range (by omega)]
  rfl

/-- A segment without length: all queries return zero. -/
theorem evalDNat_flat {s : BSpline K D} (h : s.WF) (t : K) (i der : ℕ) (h1 : s.order - 1 ≤ i) (h2 : i + 1 ≤ s.knots.length - s.order)
    (hz : ¬ s.kn i < s.kn (i + 1)) (hT : s.computeTIndex t = .ok (s.kn (i + 1) - s.kn i, i)) : s.evalDNat t der = .ok 0 := by
  obtain ⟨B, hB, -, -⟩ := blockAt_ok h i h1 h2
  unfold evalDNat computeUAndTIndex
  rw [hT]
  simp only [Outcome.bind_ok]
  rw [if_pos (by linarith)]
  simp only [Outcome.bind_ok, hB]
  congr 1
  funext d
  unfold blockMul transposeMul computeU
  simp [show ¬ 0 < s.kn (i + 1) - s.kn i by linarith]

/-- **C82** (derivative): for every spline of an order from three on, the spline of its control slopes, of one order less, over the knots without
the first and the last one, is accepted, and its value and derivatives are the first and higher derivatives of the spline, at every time
whatsoever, including the times that are rejected. -/
theorem C82_derivative_spline (s : BSpline K D) (h : s.WF) (hk3 : 3 ≤ s.order) :
    ∃ s' : BSpline K D, setKnotsAndCoefficients ⟨s.order - 1, [], [], []⟩ s.slopeKnots s.slopeCoeffs = .ok s' ∧ s'.WF ∧
      ∀ (t : K) (der : ℕ), s'.evalD t (der : ℤ) = s.evalD t ((der : ℤ) + 1) := by
  have h' := slope_wf h hk3
  refine ⟨_, slope_set h hk3, h', fun t der => ?_⟩
  set s' : BSpline K D := initializeBasisMatrices ⟨s.order - 1, s.slopeKnots, s.slopeCoeffs, []⟩ with hs'
  have hn := h.enough
  have hc := h.coeffs_len
  have ho' : s'.order = s.order - 1 := rfl
  have hl' : s'.knots.length = s.knots.length - 2 := by
    rw [show s'.knots = s.slopeKnots from rfl]
    simp [slopeKnots]
    omega
  have hc' : s'.coeffs.length = s.coeffs.length - 1 := by
    rw [show s'.coeffs = s.slopeCoeffs from rfl]
    simp [slopeCoeffs]
  have e1 : s'.kn (s'.order - 1) = s.kn (s.order - 1) := by
    rw [ho', slope_kn _ (by omega), show s.order - 1 - 1 + 1 = s.order - 1 by omega]
  have e2 : s'.kn (s'.knots.length - s'.order) = s.kn (s.knots.length - s.order) := by
    rw [ho', hl', slope_kn _ (by omega), show s.knots.length - 2 - (s.order - 1) + 1 = s.knots.length - s.order by omega]
  unfold evalD
  rw [if_neg (by omega), if_neg (by omega), show ((der : ℤ)).toNat = der by omega, show ((der : ℤ) + 1).toNat = der + 1 by omega]
  by_cases hth : t < s.kn (s.order - 1) ∨ s.kn (s.knots.length - s.order) + 1 / 10 ^ 10 ≤ t
  · have a := (C06_throws_iff_partial s h t _ _ (tMin_eq h) (tMax_eq h)).2 hth
    have b := (C06_throws_iff_partial s' h' t _ _ (tMin_eq h') (tMax_eq h')).2 (by rw [e1, e2]; exact hth)
    unfold evalDNat computeUAndTIndex
    rw [a, b]
    rfl
  · push Not at hth
    -- the same segment is found
    have hlook : ∃ i, s.computeTIndex t = .ok (s.kn (i + 1) - s.kn i, i) ∧ s.order - 1 ≤ i ∧ i + 1 ≤ s.knots.length - s.order ∧
        s'.computeTIndex t = .ok (s'.kn (i - 1 + 1) - s'.kn (i - 1), i - 1) := by
      by_cases hs : t + snapTol ≤ s.kn (s.knots.length - s.order)
      · obtain ⟨i, hT, a1, a2, a3, a4⟩ := lookup_interior h t hth.1 hs
        obtain ⟨j, hT', b1, b2, b3, b4⟩ := lookup_interior h' t (by rw [e1]; exact hth.1) (by rw [e2]; exact hs)
        rw [slope_kn _ (by omega)] at b3 b4
        have hij : j = i - 1 := by
          by_contra hne
          rcases Nat.lt_or_gt_of_ne hne with hlt | hlt
          · have := h.mono (j + 1 + 1) i (by omega) (by omega)
            linarith
          · have := h.mono (i + 1) (j + 1) (by omega) (by omega)
            linarith
        subst hij
        exact ⟨i, hT, a1, a2, hT'⟩
      · have habs : |s.kn (s.knots.length - s.order) - t| < snapTol := by
          have : (snapTol : K) = 1 / 10 ^ 10 := rfl
          rw [abs_lt]
          constructor <;> linarith [not_le.1 hs, hth.2]
        refine ⟨s.knots.length - s.order - 1, ?_, by omega, by omega, ?_⟩
        · rw [lookup_end h t hth.1 habs, show s.knots.length - s.order - 1 + 1 = s.knots.length - s.order by omega]
        · rw [lookup_end h' t (by rw [e1]; exact hth.1) (by rw [e2]; exact habs), ho', hl']
          rw [show s.knots.length - 2 - (s.order - 1) = s.knots.length - s.order - 1 by omega,
            show s.knots.length - s.order - 1 - 1 + 1 = s.knots.length - s.order - 1 by omega]
    obtain ⟨i, hT, a1, a2, hT'⟩ := hlook
    have k1 : s'.kn (i - 1) = s.kn i := by rw [slope_kn _ (by omega), show i - 1 + 1 = i by omega]
    have k2 : s'.kn (i - 1 + 1) = s.kn (i + 1) := by rw [slope_kn _ (by omega), show i - 1 + 1 + 1 = i + 1 by omega]
    by_cases hlt : s.kn i < s.kn (i + 1)
    · rw [evalDNat_eq h t i (der + 1) a1 a2 hlt hT, evalDNat_eq h' t (i - 1) der (by omega) (by omega) (by rw [k1, k2]; exact hlt) hT']
      congr 1
      funext d
      rw [Function.iterate_succ_apply, derivative_segPoly h i a1 a2 hlt d]
      have hp : s'.segPoly (i - 1) d = ∑ j ∈ range (s.coeffs.length - 1),
          C (Spec.slope s.order s.kn (fun l => s.col l d) j) * piece s.kn i (s.order - 2) (j + 1) := by
       unfold segPoly
       rw [hc', ho']
       refine sum_congr rfl fun j hj => ?_
       have hj := mem_range.1 hj
       rw [slope_col j (by omega) d, show s.order - 1 - 1 = s.order - 2 by omega,
         piece_congr s'.kn (fun m => s.kn (m + 1)) (s.knots.length - 2) (i - 1) (fun m hm => slope_kn m (by omega)) (s.order - 2) j (by omega),
         piece_shift, show i - 1 + 1 = i by omega]
      rw [hp]
    · rw [evalDNat_flat h t i (der + 1) a1 a2 hlt hT,
        evalDNat_flat h' t (i - 1) der (by omega) (by omega) (by rw [k1, k2]; exact hlt) hT']

/-- The velocity is an average of slopes, and only those count whose knots are on both sides of the time. -/
theorem velocity_average {s : BSpline K D} (h : s.WF) (t : K) (ha : s.Admissible t) :
    ∃ w : ℕ → K, (∀ j, 0 ≤ w j) ∧ ∑ j ∈ range (s.coeffs.length - 1), w j = 1 ∧
      (∀ j, w j ≠ 0 → s.kn (j + 1) ≤ t ∧ t ≤ s.kn (j + s.order) ∧ s.kn (j + 1) < s.kn (j + s.order)) ∧
      s.evalD t 1 = .ok fun d => ∑ j ∈ range (s.coeffs.length - 1), w j * Spec.slope s.order s.kn (fun l => s.col l d) j := by
  have hk := h.order_pos
  have hn := h.enough
  have hc := h.coeffs_len
  obtain ⟨i, hi, hT, he⟩ := evalDNat_admissible h t ha
  have a1 := hi.lower
  have a2 := hi.upper
  refine ⟨fun j => if j + 1 < s.coeffs.length then (piece s.kn i (s.order - 2) (j + 1)).eval t else 0, ?_, ?_, ?_, ?_⟩
  · intro j
    dsimp only
    split_ifs with hj
    · exact piece_nonneg s.kn s.knots.length i h.mono t hi.left hi.le _ _ (by omega)
    · exact le_rfl
  · have hsum := piece_sum_one s.kn s.knots.length i h.mono hi.pos (s.order - 2) (by omega) (by omega)
    have e : ∑ j ∈ range (s.coeffs.length - 1), (if j + 1 < s.coeffs.length then (piece s.kn i (s.order - 2) (j + 1)).eval t else 0) =
        ∑ j ∈ Ico (i - (s.order - 2)) (i + 1), (piece s.kn i (s.order - 2) j).eval t := by
      rw [sum_congr rfl fun j hj => if_pos (show j + 1 < s.coeffs.length by have := mem_range.1 hj; omega),
        range_eq_Ico, sum_Ico_add' (fun j => (piece s.kn i (s.order - 2) j).eval t) 0 (s.coeffs.length - 1) 1]
      symm
      apply sum_subset
      · intro x hx
        simp only [mem_Ico] at hx ⊢
        omega
      · intro j hj hj'
        simp only [mem_Ico] at hj hj'
        by_cases hji : i < j
        · rw [piece_zero_of_lt _ _ _ _ hji, eval_zero]
        · rw [piece_zero_of_gt _ _ _ _ (by omega), eval_zero]
    rw [e, ← eval_finsetSum, hsum, eval_one]
  · intro j hj
    dsimp only at hj
    split_ifs at hj with hjc
    · have b1 : j + 1 ≤ i := by
        by_contra hcon
        exact hj (by rw [piece_zero_of_lt _ _ _ _ (by omega), eval_zero])
      have b2 : i ≤ j + 1 + (s.order - 2) := by
        by_contra hcon
        exact hj (by rw [piece_zero_of_gt _ _ _ _ (by omega), eval_zero])
      have m1 := h.mono (j + 1) i b1 (by omega)
      have m2 := h.mono (i + 1) (j + s.order) (by omega) (by omega)
      have := hi.left
      have := hi.le
      have := hi.pos
      exact ⟨by linarith, by linarith, by linarith⟩
    · exact absurd rfl hj
  · unfold evalD
    rw [if_neg (by omega), show (1 : ℤ).toNat = 1 from rfl, he 1]
    congr 1
    funext d
    rw [Function.iterate_one, derivative_segPoly h i a1 a2 hi.pos d, eval_finsetSum]
    refine sum_congr rfl fun j hj => ?_
    dsimp only
    rw [eval_mul, eval_C, if_pos (show j + 1 < s.coeffs.length by have := mem_range.1 hj; omega), mul_comm]

/-- Specification: slope number `j` counts between the times `t1` and `t2`. -/
def SlopeCounts (s : BSpline K D) (t1 t2 : K) (j : ℕ) : Prop :=
  j + 1 < s.coeffs.length ∧ s.kn (j + 1) ≤ t2 ∧ t1 ≤ s.kn (j + s.order) ∧ s.kn (j + 1) < s.kn (j + s.order)

/-- **C82** (velocity bounds): every component of the velocity lies between all bounds of the slopes whose knots are on both sides of the time. -/
theorem C82_velocity_between (s : BSpline K D) (h : s.WF) (t : K) (ha : s.Admissible t) :
    ∃ v, s.evalD t 1 = .ok v ∧ ∀ (d : Fin D) (lo hi : K),
      (∀ j, s.SlopeCounts t t j → lo ≤ Spec.slope s.order s.kn (fun l => s.col l d) j ∧ Spec.slope s.order s.kn (fun l => s.col l d) j ≤ hi) →
      lo ≤ v d ∧ v d ≤ hi := by
  obtain ⟨w, hw0, hw1, hw2, he⟩ := velocity_average h t ha
  refine ⟨_, he, fun d lo hi hb => ?_⟩
  have hterm : ∀ j ∈ range (s.coeffs.length - 1), w j * lo ≤ w j * Spec.slope s.order s.kn (fun l => s.col l d) j ∧
      w j * Spec.slope s.order s.kn (fun l => s.col l d) j ≤ w j * hi := by
    intro j hj
    by_cases hz : w j = 0
    · rw [hz]
      simp
    · obtain ⟨c1, c2, c3⟩ := hw2 j hz
      obtain ⟨b1, b2⟩ := hb j ⟨by have := mem_range.1 hj; omega, c1, c2, c3⟩
      exact ⟨mul_le_mul_of_nonneg_left b1 (hw0 j), mul_le_mul_of_nonneg_left b2 (hw0 j)⟩
  constructor
  · calc lo = ∑ j ∈ range (s.coeffs.length - 1), w j * lo := by rw [← sum_mul, hw1, one_mul]
      _ ≤ _ := sum_le_sum fun j hj => (hterm j hj).1
  · calc _ ≤ ∑ j ∈ range (s.coeffs.length - 1), w j * hi := sum_le_sum fun j hj => (hterm j hj).2
      _ = hi := by rw [← sum_mul, hw1, one_mul]

end BSpline

namespace BSpline

open Filter Topology

variable {D : ℕ}

/-- The slopes that count between two times, as vectors. -/
def slopesBetween (s : BSpline ℝ D) (t1 t2 : ℝ) : Set (Fin D → ℝ) :=
  {q | ∃ j, s.SlopeCounts t1 t2 j ∧ q = fun d => Spec.slope s.order s.kn (fun l => s.col l d) j}

theorem slopesBetween_finite (s : BSpline ℝ D) (t1 t2 : ℝ) : (s.slopesBetween t1 t2).Finite := by
  refine ((Set.finite_lt_nat s.coeffs.length).image fun j => fun d => Spec.slope s.order s.kn (fun l => s.col l d) j).subset ?_
  rintro q ⟨j, hj, rfl⟩
  have := hj.1
  exact ⟨j, show j < s.coeffs.length by omega, rfl⟩

/-- **C82** (velocity): the velocity is a convex combination of the slopes whose knots are on both sides of the time. -/
theorem C82_velocity_hull (s : BSpline ℝ D) (h : s.WF) (t : ℝ) (ha : s.Admissible t) :
    ∃ v, s.evalD t 1 = .ok v ∧ v ∈ convexHull ℝ (s.slopesBetween t t) := by
  obtain ⟨w, hw0, hw1, hw2, he⟩ := velocity_average h t ha
  refine ⟨_, he, ?_⟩
  have e : (fun d => ∑ j ∈ range (s.coeffs.length - 1), w j * Spec.slope s.order s.kn (fun l => s.col l d) j) =
      ∑ j ∈ (range (s.coeffs.length - 1)).filter (fun j => w j ≠ 0), w j • (fun d => Spec.slope s.order s.kn (fun l => s.col l d) j) := by
    rw [sum_filter_of_ne]
    · funext d
      rw [Finset.sum_apply]
      rfl
    · intro j _ hne hz
      exact hne (by rw [hz, zero_smul])
  rw [e]
  refine (convex_convexHull ℝ _).sum_mem (fun j _ => hw0 j) ?_ ?_
  · rw [sum_filter_ne_zero, hw1]
  · intro j hj
    rw [mem_filter, mem_range] at hj
    obtain ⟨c1, c2, c3⟩ := hw2 j hj.2
    exact subset_convexHull ℝ _ ⟨j, ⟨by omega, c1, c2, c3⟩, rfl⟩

/-- Specification: inner knots are repeated less often than the order, so that the curve has no jumps. -/
def NoJumps (s : BSpline ℝ D) : Prop :=
  ∀ m, s.order ≤ m → m + s.order ≤ s.knots.length - s.order → s.kn m < s.kn (m + s.order - 1)

/-- Around a time before the end: the velocity is the derivative from the right. -/
theorem eval_right_deriv {s : BSpline ℝ D} (h : s.WF) (hw : s.WideLast) (x : ℝ) (h1 : s.kn (s.order - 1) ≤ x)
    (h2 : x < s.kn (s.knots.length - s.order)) :
    ∃ v, s.evalD x 1 = .ok v ∧ HasDerivWithinAt (fun x => (s.eval x).getD 0) v (Set.Ici x) x := by
  have ha := admissible_of_wide x (WideLast.wide h hw) h1 h2.le
  obtain ⟨i, -, hi⟩ := lookup h x ha
  have hseg := timeIntervalOf_knot h hi.lower hi.upper
  have hr : x < s.kn (i + 1) := by
    rcases hi.right with hr | ⟨hr, hl⟩
    · exact hr
    · rw [← hl, ← hr] at h2
      exact absurd h2 (lt_irrefl _)
  have c := C04_derivative s h hw 0 _ _ _ x hseg
  rcases hi.left.eq_or_lt with he | hlt
  · obtain ⟨v, hv, hd⟩ := c.2.1 he.symm hi.pos
    exact ⟨v, hv, hd⟩
  · obtain ⟨v, hv, hd⟩ := c.1 hlt hr
    exact ⟨v, hv, hd.hasDerivWithinAt⟩

/-- The value is continuous on the whole interval. -/
theorem eval_continuousOn (s : BSpline ℝ D) (h : s.WF) (hw : s.WideLast) (hj : s.NoJumps) :
    ContinuousOn (fun x => (s.eval x).getD 0) (Set.Icc (s.kn (s.order - 1)) (s.kn (s.knots.length - s.order))) := by
  have hk := h.order_pos
  have hn := h.enough
  intro x hx
  have hR : x < s.kn (s.knots.length - s.order) → ContinuousWithinAt (fun x => (s.eval x).getD 0) (Set.Ici x) x := by
    intro hlt
    obtain ⟨v, -, hd⟩ := eval_right_deriv h hw x hx.1 hlt
    exact hd.continuousWithinAt
  have hL : s.kn (s.order - 1) < x → ContinuousWithinAt (fun x => (s.eval x).getD 0) (Set.Iic x) x := by
    intro hlt
    have ha := admissible_of_wide x (WideLast.wide h hw) hx.1 hx.2
    obtain ⟨i, -, hi⟩ := lookup h x ha
    have hseg := timeIntervalOf_knot h hi.lower hi.upper
    have c := C04_derivative s h hw 0 _ _ _ x hseg
    have hup := hi.upper
    rcases hi.left.eq_or_lt with he | hlt'
    · -- an inner knot
      classical
      have hex : ∃ m, s.kn m = x := ⟨i, he⟩
      obtain ⟨m, hm, hmin⟩ : ∃ m, s.kn m = x ∧ ∀ l, l < m → s.kn l ≠ x := ⟨Nat.find hex, Nat.find_spec hex, fun l hl => Nat.find_min hex hl⟩
      have hmi : m ≤ i := by
        by_contra hcon
        exact hmin i (by omega) he
      have hmo : s.order ≤ m := by
        by_contra hcon
        have := h.mono m (s.order - 1) (by omega) (by omega)
        linarith
      have hall : ∀ l, m ≤ l → l < m + (i + 1 - m) → s.kn l = x := by
        intro l l1 l2
        have b1 := h.mono m l l1 (by omega)
        have b2 := h.mono l i (by omega) (by omega)
        linarith
      have hleft : s.kn (m - 1) < x := by
        refine lt_of_le_of_ne ?_ (hmin _ (by omega))
        rw [← hm]
        exact h.mono _ _ (by omega) (by omega)
      have hmult : i + 1 - m + 1 ≤ s.order := by
        by_contra hcon
        have b1 := hj m hmo (by omega)
        have b2 := h.mono (m + s.order - 1) i (by omega) (by omega)
        linarith
      have hend : x + 1 / 10 ^ 10 ≤ s.kn (s.knots.length - s.order) := by
        have b := WideLast.wide h hw
        have b2 : s.kn i ≤ s.kn (s.knots.length - s.order - 1) := h.mono _ _ (by omega) (by omega)
        have : (snapTol : ℝ) = 1 / 10 ^ 10 := rfl
        rw [this] at b
        linarith
      obtain ⟨v, hv, hlim, -⟩ := C05_smooth_at_knots s h m (i + 1 - m) 0 x _ hmo (by omega) (by omega) hleft
        (by rw [show m + (i + 1 - m) = i + 1 by omega, ← he]; exact hi.pos) hall (tMax_eq h) hend (by omega)
      have hv' : s.eval x = .ok v := hv
      rw [← Set.Iio_union_right]
      refine ContinuousWithinAt.union ?_ continuousWithinAt_singleton
      unfold ContinuousWithinAt
      dsimp only
      rw [hv']
      exact hlim
    · rcases hi.right with hr | ⟨hr, hl⟩
      · obtain ⟨v, -, hd⟩ := c.1 hlt' hr
        exact hd.continuousAt.continuousWithinAt
      · obtain ⟨v, -, hd⟩ := c.2.2 hr hi.pos (by rw [tMax_eq h, hl])
        exact hd.continuousWithinAt
  have hsub : Set.Icc (s.kn (s.order - 1)) (s.kn (s.knots.length - s.order)) ⊆
      (Set.Icc (s.kn (s.order - 1)) x) ∪ Set.Icc x (s.kn (s.knots.length - s.order)) := by
    intro y hy
    rcases le_total y x with hyx | hyx
    · exact Or.inl ⟨hy.1, hyx⟩
    · exact Or.inr ⟨hyx, hy.2⟩
  refine ContinuousWithinAt.mono (ContinuousWithinAt.union ?_ ?_) hsub
  · rcases hx.1.eq_or_lt with he | hlt
    · rw [he, Set.Icc_self]
      exact continuousWithinAt_singleton
    · exact (hL hlt).mono fun y hy => hy.2
  · rcases hx.2.eq_or_lt with he | hlt
    · rw [← he, Set.Icc_self]
      exact continuousWithinAt_singleton
    · exact (hR hlt).mono fun y hy => hy.1

/-- **C82** (displacement): between two times of the valid interval the curve moves by the time elapsed times a convex combination of the slopes
that count between them. -/
theorem C82_displacement (s : BSpline ℝ D) (h : s.WF) (hw : s.WideLast) (hj : s.NoJumps) (tmin tmax t1 t2 : ℝ) (hmin : s.tMin = .ok tmin)
    (hmax : s.tMax = .ok tmax) (h1 : tmin ≤ t1) (h12 : t1 ≤ t2) (h2 : t2 ≤ tmax) :
    ∃ v1 v2 q, s.eval t1 = .ok v1 ∧ s.eval t2 = .ok v2 ∧ q ∈ convexHull ℝ (s.slopesBetween t1 t2) ∧ v2 - v1 = (t2 - t1) • q := by
  rw [tMin_eq h, Outcome.ok.injEq] at hmin
  rw [tMax_eq h, Outcome.ok.injEq] at hmax
  subst hmin hmax
  have hval : ∀ t, s.kn (s.order - 1) ≤ t → t ≤ s.kn (s.knots.length - s.order) → ∃ v, s.eval t = .ok v := by
    intro t a b
    obtain ⟨i, -, -, he⟩ := evalDNat_admissible h t (admissible_of_wide t (WideLast.wide h hw) a b)
    exact ⟨_, he 0⟩
  obtain ⟨v1, e1⟩ := hval t1 h1 (h12.trans h2)
  obtain ⟨v2, e2⟩ := hval t2 (h1.trans h12) h2
  rcases h12.eq_or_lt with rfl | hlt
  · obtain ⟨v, -, hv⟩ := C82_velocity_hull s h t1 (admissible_of_wide t1 (WideLast.wide h hw) h1 h2)
    refine ⟨v1, v1, v, e1, e1, hv, ?_⟩
    rw [sub_self, sub_self, zero_smul]
  refine ⟨v1, v2, (t2 - t1)⁻¹ • (v2 - v1), e1, e2, ?_, ?_⟩
  swap
  · rw [smul_smul, mul_inv_cancel₀ (by linarith), one_smul]
  by_contra hout
  obtain ⟨f, u, hf1, hf2⟩ := geometric_hahn_banach_point_closed (convex_convexHull ℝ _) ((s.slopesBetween_finite t1 t2).isClosed_convexHull ℝ) hout
  have hcont := (s.eval_continuousOn h hw hj).mono (Set.Icc_subset_Icc h1 h2)
  have hder : ∀ x : ℝ, ∃ v, x ∈ Set.Ico t1 t2 → HasDerivWithinAt (fun x => (s.eval x).getD 0) v (Set.Ici x) x ∧ u ≤ f v := by
    intro x
    by_cases hx : x ∈ Set.Ico t1 t2
    · obtain ⟨v, hv, hd⟩ := eval_right_deriv h hw x (h1.trans hx.1) (lt_of_lt_of_le hx.2 h2)
      obtain ⟨v', hv', hh⟩ := C82_velocity_hull s h x (admissible_of_wide x (WideLast.wide h hw) (h1.trans hx.1) (hx.2.le.trans h2))
      obtain rfl : v = v' := Outcome.ok.inj (hv.symm.trans hv')
      refine ⟨v, fun _ => ⟨hd, (hf2 v (convexHull_mono ?_ hh)).le⟩⟩
      rintro q ⟨j, ⟨c0, c1, c2, c3⟩, rfl⟩
      exact ⟨j, ⟨c0, c1.trans hx.2.le, hx.1.trans c2, c3⟩, rfl⟩
    · exact ⟨0, fun hc => absurd hc hx⟩
  choose g hg using hder
  have key := image_le_of_deriv_right_le_deriv_boundary (f := fun x => f ((s.eval t1).getD 0) + u * (x - t1)) (f' := fun _ => u) (a := t1) (b := t2)
    (B := fun x => f ((s.eval x).getD 0)) (B' := fun x => f (g x)) (by fun_prop) ?_ (by simp) (f.continuous.comp_continuousOn hcont) ?_ ?_
    (x := t2) ⟨hlt.le, le_rfl⟩
  · rw [e1, e2] at key
    simp only [Outcome.getD_ok] at key
    rw [map_smul, map_sub, smul_eq_mul] at hf1
    have : (t2 - t1) * ((t2 - t1)⁻¹ * (f v2 - f v1)) < (t2 - t1) * u := mul_lt_mul_of_pos_left hf1 (by linarith)
    rw [← mul_assoc, mul_inv_cancel₀ (by linarith), one_mul] at this
    linarith
  · intro x _
    have : HasDerivAt (fun x => f ((s.eval t1).getD 0) + u * (x - t1)) u x := by
      simpa using ((hasDerivAt_id x).sub_const t1).const_mul u |>.const_add (f ((s.eval t1).getD 0))
    exact this.hasDerivWithinAt
  · intro x hx
    exact f.hasFDerivAt.comp_hasDerivWithinAt x (hg x hx).1
  · intro x hx
    exact (hg x hx).2

/-- **C82** (speed limit): whatever the norm, if no slope that counts is longer than `B` the curve moves at most `B` per unit of time. -/
theorem C82_speed_limit (s : BSpline ℝ D) (h : s.WF) (hw : s.WideLast) (hj : s.NoJumps) (p : Seminorm ℝ (Fin D → ℝ)) (B tmin tmax t1 t2 : ℝ)
    (hmin : s.tMin = .ok tmin) (hmax : s.tMax = .ok tmax) (h1 : tmin ≤ t1) (h12 : t1 ≤ t2) (h2 : t2 ≤ tmax)
    (hB : ∀ q ∈ s.slopesBetween t1 t2, p q ≤ B) :
    ∃ v1 v2, s.eval t1 = .ok v1 ∧ s.eval t2 = .ok v2 ∧ p (v2 - v1) ≤ B * (t2 - t1) := by
  obtain ⟨v1, v2, q, e1, e2, hq, he⟩ := C82_displacement s h hw hj tmin tmax t1 t2 hmin hmax h1 h12 h2
  refine ⟨v1, v2, e1, e2, ?_⟩
  have hpq : p q ≤ B := by
    have : convexHull ℝ (s.slopesBetween t1 t2) ⊆ p.closedBall 0 B :=
      convexHull_min (fun x hx => by rw [Seminorm.mem_closedBall_zero]; exact hB x hx) (p.convex_closedBall 0 B)
    simpa [Seminorm.mem_closedBall_zero] using this hq
  rw [he, map_smul_eq_mul, Real.norm_of_nonneg (by linarith), mul_comm]
  exact mul_le_mul_of_nonneg_right hpq (by linarith)

/-- **C82** (monotone): a component whose coefficients do not decrease does not decrease. -/
theorem C82_monotone (s : BSpline ℝ D) (h : s.WF) (hw : s.WideLast) (hj : s.NoJumps) (d : Fin D) (tmin tmax t1 t2 : ℝ)
    (hmin : s.tMin = .ok tmin) (hmax : s.tMax = .ok tmax) (h1 : tmin ≤ t1) (h12 : t1 ≤ t2) (h2 : t2 ≤ tmax)
    (hinc : ∀ j, s.SlopeCounts t1 t2 j → s.col j d ≤ s.col (j + 1) d) :
    ∃ v1 v2, s.eval t1 = .ok v1 ∧ s.eval t2 = .ok v2 ∧ v1 d ≤ v2 d := by
  obtain ⟨v1, v2, q, e1, e2, hq, he⟩ := C82_displacement s h hw hj tmin tmax t1 t2 hmin hmax h1 h12 h2
  refine ⟨v1, v2, e1, e2, ?_⟩
  have hpq : 0 ≤ q d := by
    have : convexHull ℝ (s.slopesBetween t1 t2) ⊆ {x | 0 ≤ x d} := by
      refine convexHull_min ?_ ?_
      · rintro x ⟨j, hc, rfl⟩
        have a := hinc j hc
        have b := hc.2.2.2
        show 0 ≤ Spec.slope s.order s.kn (fun l => s.col l d) j
        unfold Spec.slope
        exact div_nonneg (mul_nonneg (Nat.cast_nonneg _) (by linarith)) (by linarith)
      · intro x hx y hy a b ha hb _
        have hx : 0 ≤ x d := hx
        have hy : 0 ≤ y d := hy
        show 0 ≤ a * x d + b * y d
        positivity
    exact this hq
  have := congrFun he d
  simp only [Pi.sub_apply, Pi.smul_apply, smul_eq_mul] at this
  have := mul_nonneg (show 0 ≤ t2 - t1 by linarith) hpq
  linarith

/-! ### Examples -/

example : exSpline.WF ∧ 3 ≤ exSpline.order ∧ exSpline.slopeKnots = [0, 1, 2, 4, 5, 7] ∧
    exSpline.slopeCoeffs = [![2, -1], ![-10/3, 4], ![4, -2/3], ![-8/3, -2]] ∧ exSpline.evalD (9/2) 1 = .ok ![2/3, -4/3] :=
  ⟨exSpline_wf, by decide, by decide +kernel, by decide +kernel, by decide +kernel⟩

example : exSpline.Admissible (9/2) ∧ (∀ j, exSpline.SlopeCounts (9/2) (9/2) j ↔ j = 2 ∨ j = 3) := by
  refine ⟨exSpline_admissible _ (by norm_num) (by norm_num), fun j => ?_⟩
  constructor
  · rintro ⟨h0, h1, h2, -⟩
    have h0 : j + 1 < 5 := h0
    obtain rfl | rfl | rfl | rfl : j = 0 ∨ j = 1 ∨ j = 2 ∨ j = 3 := by omega
    · exact absurd h2 (by decide +kernel)
    · exact absurd h2 (by decide +kernel)
    · exact Or.inl rfl
    · exact Or.inr rfl
  · rintro (rfl | rfl)
    · exact ⟨by decide, by decide +kernel, by decide +kernel, by decide +kernel⟩
    · exact ⟨by decide, by decide +kernel, by decide +kernel, by decide +kernel⟩

/-- A rising curve of order three with a double knot. -/
noncomputable def exRise : BSpline ℝ 1 :=
  initializeBasisMatrices ⟨3, [0, 0, 1, 2, 2, 4, 5, 7, 7], [![0], ![1], ![1], ![2], ![5], ![6]], []⟩

theorem exRise_wf : exRise.WF := initializeBasisMatrices_wf _ (by decide) (by norm_num) (by decide) (by decide)

theorem exRise_wide : exRise.WideLast := by
  intro a b hab
  have : exRise.timeIntervalOf ((exRise.numValidTimeSegments : ℤ) - 1) = .ok (4, 5) := rfl
  rw [this] at hab
  have := Outcome.ok.inj hab
  obtain ⟨rfl, rfl⟩ := Prod.mk.inj this
  norm_num

theorem exRise_noJumps : exRise.NoJumps := by
  intro m h1 h2
  have h1 : 3 ≤ m := h1
  have h2 : m + 3 ≤ 6 := h2
  obtain rfl : m = 3 := by omega
  show (2 : ℝ) < 4
  norm_num

example (t1 t2 : ℝ) (h1 : 1 ≤ t1) (h12 : t1 ≤ t2) (h2 : t2 ≤ 5) : ∃ v1 v2, exRise.eval t1 = .ok v1 ∧ exRise.eval t2 = .ok v2 ∧ v1 0 ≤ v2 0 := by
  refine C82_monotone exRise exRise_wf exRise_wide exRise_noJumps 0 1 5 t1 t2 rfl rfl h1 h12 h2 ?_
  rintro j ⟨h0, -⟩
  have h0 : j + 1 < 6 := h0
  obtain rfl | rfl | rfl | rfl | rfl : j = 0 ∨ j = 1 ∨ j = 2 ∨ j = 3 ∨ j = 4 := by omega
  · show (0 : ℝ) ≤ 1; norm_num
  · show (1 : ℝ) ≤ 1; norm_num
  · show (1 : ℝ) ≤ 2; norm_num
  · show (2 : ℝ) ≤ 5; norm_num
  · show (5 : ℝ) ≤ 6; norm_num

/-- Inner knots repeated as often as the order make jumps, which no slope accounts for: here all slopes that count are zero, but the value
changes from zero to one. -/
theorem C82_jumps : ∃ s : BSpline ℚ 1, s.WF ∧ s.eval 0 = .ok ![0] ∧ s.eval 2 = .ok ![1] ∧
    ∀ j, s.SlopeCounts 0 2 j → Spec.slope s.order s.kn (fun l => s.col l 0) j = 0 := by
  refine ⟨initializeBasisMatrices ⟨2, [0, 0, 1, 1, 2, 2], [![0], ![0], ![1], ![1]], []⟩,
    initializeBasisMatrices_wf _ (by decide) (by decide +kernel) (by decide) (by decide), by decide +kernel, by decide +kernel, ?_⟩
  rintro j ⟨h0, -, -, h3⟩
  have h0 : j + 1 < 4 := h0
  obtain rfl | rfl | rfl : j = 0 ∨ j = 1 ∨ j = 2 := by omega
  · decide +kernel
  · exact absurd h3 (by decide +kernel)
  · decide +kernel

end BSpline

end Verif
