import Verif.Lemmas.Generic
import Verif.Model.EuclideanSpline
import Verif.Lemmas.Linear
import Mathlib.Algebra.BigOperators.Module
import Mathlib.Tactic.Module

/-!
# Evaluation of the Euclidean manifold spline as a weighted sum
-/

set_option linter.unusedSectionVars false

namespace Verif.MSpline

open Finset Polynomial

variable {K : Type*} [Field K] [LinearOrder K] [IsStrictOrderedRing K] {P : Type*} [AddCommGroup P] [Module K P]

/-- Control vertex number `j`, zero if there is none. -/
def vert (s : MSpline K P) (j : ℕ) : P := s.verts.getD j 0

theorem foldl_add_eq (g : ℕ → P) : ∀ (n : ℕ) (acc : P), (List.range n).foldl (fun r j => r + g j) acc = acc + ∑ j ∈ range n, g j
  | 0, acc => by simp
  | (n + 1), acc => by
    rw [List.range_succ, List.foldl_append, foldl_add_eq g n acc, sum_range_succ]
    simp [add_assoc]

theorem linCombFirst_eq {s : MSpline K P} (h : s.MWF) {i : ℕ} (hi : i < s.keys.length) (hk : s.order ≤ i + 1) (w : ℕ → K) (acc : P) :
    s.linCombFirst s.keys[i + 1 - s.order]? w acc = .ok (acc + ∑ c ∈ range s.order, w c • s.vert (i + 1 - s.order + c)) := by
  rw [keys_length] at hi
  unfold linCombFirst
  rw [readVertices_eq h s.order (i + 1 - s.order) (by omega), Outcome.bind_ok, foldl_add_eq]
  congr 2
  refine sum_congr rfl fun c hc => ?_
  have hc := mem_range.1 hc
  unfold vert
  rw [List.getD_eq_getElem?_getD, List.getD_eq_getElem?_getD, List.getElem?_take, if_pos hc, List.getElem?_drop]

theorem linCombLast_eq {s : MSpline K P} (h : s.MWF) {i : ℕ} (hi : i < s.keys.length) (hk : s.order ≤ i + 1) (w : ℕ → K) (acc : P) :
    s.linCombLast s.keys[i]? w acc = .ok (acc + ∑ c ∈ range s.order, w c • s.vert (i + 1 - s.order + c)) := by
  rw [keys_length] at hi
  obtain ⟨vs, r1, r2, r3⟩ := readVerticesBack_eq h s.order i hi hk
  unfold linCombLast
  rw [r1, Outcome.bind_ok, foldl_add_eq, ← sum_range_reflect]
  congr 2
  refine sum_congr rfl fun c hc => ?_
  have hc := mem_range.1 hc
  unfold vert
  rw [List.getD_eq_getElem?_getD, List.getD_eq_getElem?_getD, r3 _ (by omega)]
  congr 3 <;> omega

/-- The curve on interval `i` as a sum over all control vertices. -/
noncomputable def segSum (s : MSpline K P) (i der : ℕ) (t : K) : P :=
  ∑ j ∈ range (s.keys.length - s.order), (derivative^[der] (piece s.kn i (s.order - 1) j)).eval t • s.vert j

theorem segSum_local {s : MSpline K P} (h : s.MWF) {i : ℕ} (h1 : s.order ≤ i + 1) (h2 : i + s.order < s.keys.length)
    (der : ℕ) (t : K) :
    ∑ c ∈ range s.order, (derivative^[der] (piece s.kn i (s.order - 1) (i + 1 - s.order + c))).eval t •
      s.vert (i + 1 - s.order + c) = s.segSum i der t := by
  have h3 := h.order_pos
  have e : s.order = s.order - 1 + 1 := by omega
  have hz : ∀ j, j < s.keys.length - s.order → (j < i - (s.order - 1) ∨ i < j) →
      (derivative^[der] (piece s.kn i (s.order - 1) j)).eval t • s.vert j = 0 := by
    intro j _ hj
    have : piece s.kn i (s.order - 1) j = 0 := by
      rcases hj with hj | hj
      · exact piece_zero_of_gt _ _ _ _ (by omega)
      · exact piece_zero_of_lt _ _ _ _ (by omega)
    rw [this, iterate_derivative_zero, eval_zero, zero_smul]
  have := BSpline.sum_local (s.keys.length - s.order) i (s.order - 1)
    (fun j => (derivative^[der] (piece s.kn i (s.order - 1) j)).eval t • s.vert j) (by omega) (by omega) hz
  unfold segSum
  rw [← this, ← e]
  refine sum_congr rfl fun c _ => ?_
  rw [show i + 1 - s.order = i - (s.order - 1) by omega]

theorem euclideanEvalD_eq {s : MSpline K P} (h : s.MWF) (he : s.state = .evaluable) {t : K} {i : ℕ} (hi : s.InSeg t i)
    (maxDer : Option ℕ) (der : ℕ) (hmax : ∀ m, maxDer = some m → der ≤ m) :
    s.euclideanEvalD maxDer t der = .ok (s.segSum i der t) := by
  have h1 := hi.lower
  have h2 := hi.upper
  have h3 := h.order_pos
  unfold euclideanEvalD
  rw [evaluatorAt_eq h he hi, Outcome.bind_ok, if_neg (by omega), if_neg]
  · by_cases hd : der < s.order
    · rw [if_pos (by omega)]
      obtain ⟨w, hw, hwc⟩ := localBi_eq h he hi der
      rw [Int.toNat_natCast, hw, Outcome.bind_ok]
      have : (s.evaluatorOf t i).ti = s.keys[i]? := rfl
      rw [this, linCombLast_eq h (by omega) h1, zero_add, ← segSum_local h h1 h2 der t]
      congr 1
      exact sum_congr rfl fun c hc => by rw [hwc c (mem_range.1 hc)]
    · rw [if_neg (by omega)]
      unfold segSum
      congr 1
      symm
      refine sum_eq_zero fun j _ => ?_
      rw [iterate_derivative_eq_zero (lt_of_le_of_lt (piece_natDegree _ _ _ _) (by omega)), eval_zero, zero_smul]
  · rcases maxDer with _ | m
    · simp
    · have := hmax m rfl
      change ¬ (decide ((m : ℤ) < (der : ℤ)) = true)
      rw [decide_eq_true_eq]
      omega

/-! ### The cumulative form -/

theorem genericLoop_euclidean (W : ℕ → K) : ∀ (cs : List P) (i : ℕ) (a p : P),
    genericLoop (euclidean K P) W i a p cs =
      p + ∑ c ∈ range cs.length, W (i + c) • ((a :: cs).getD (c + 1) 0 - (a :: cs).getD c 0)
  | [], _, _, _ => by simp [genericLoop]
  | c :: cs, i, a, p => by
    unfold genericLoop
    rw [genericLoop_euclidean W cs (i + 1) c, List.length_cons, sum_range_succ']
    simp only [euclidean, List.getD_cons_succ, List.getD_cons_zero, add_zero]
    have hif : (if W i = 0 then p else p + W i • (c - a)) = p + W i • (c - a) := by
      split
      · rename_i h0; rw [h0, zero_smul, add_zero]
      · rfl
    rw [hif, add_assoc, add_comm (W i • (c - a))]
    congr 2
    refine sum_congr rfl fun x _ => ?_
    rw [show i + 1 + x = i + (x + 1) by omega]

theorem abel (w : ℕ → K) (v : ℕ → P) : ∀ m : ℕ,
    ∑ c ∈ range m, (∑ j ∈ Ico (c + 1) (m + 1), w j) • (v (c + 1) - v c) = ∑ j ∈ range (m + 1), w j • (v j - v 0)
  | 0 => by simp
  | (m + 1) => by
    rw [sum_range_succ _ (m + 1), ← abel w v m]
    have h1 : ∀ c ∈ range (m + 1), (∑ j ∈ Ico (c + 1) (m + 1 + 1), w j) • (v (c + 1) - v c) =
        (∑ j ∈ Ico (c + 1) (m + 1), w j) • (v (c + 1) - v c) + w (m + 1) • (v (c + 1) - v c) := by
      intro c hc
      have := mem_range.1 hc
      rw [sum_Ico_succ_top (by omega), add_smul]
    rw [sum_congr rfl h1, sum_add_distrib, ← smul_sum, sum_range_sub, sum_range_succ _ m]
    simp

theorem evalGeneric_euclidean {s : MSpline K P} (h : s.MWF) (he : s.state = .evaluable) {t : K} {i : ℕ} (hi : s.InSeg t i) :
    s.evalGeneric (euclidean K P) t = .ok (s.segSum i 0 t) := by
  have h1 := hi.lower
  have h2 := hi.upper
  have h3 := h.order_pos
  obtain ⟨w, c, cs, hw, hv, hev⟩ := evalGeneric_eq h he (euclidean K P) hi
  have hlen : cs.length + 1 = s.order := by
    have : (c :: cs).length = s.order := by
      rw [← hv, List.length_take, List.length_drop]
      simp only [verts, List.length_map, ← keys_length]
      omega
    simpa using this
  have hvert : ∀ j, j < s.order → (c :: cs).getD j 0 = s.vert (i + 1 - s.order + j) := by
    intro j hj
    unfold vert
    rw [← hv, List.getD_eq_getElem?_getD, List.getD_eq_getElem?_getD, List.getElem?_take, if_pos hj, List.getElem?_drop]
  have hsum : ∑ j ∈ range s.order, w j = 1 := by
    have e1 := piece_sum_one s.kn s.keys.length i h.mono (hi.lt h) (s.order - 1) (by omega) (by omega)
    rw [sum_Ico_eq_sum_range, show i + 1 - (i - (s.order - 1)) = s.order by omega] at e1
    have e2 := congrArg (Polynomial.eval t) e1
    rw [eval_finsetSum, eval_one] at e2
    rw [← e2]
    refine sum_congr rfl fun j hj => ?_
    rw [hw j (mem_range.1 hj), show i + 1 - s.order = i - (s.order - 1) by omega]
  rw [hev, genericLoop_euclidean, ← segSum_local h h1 h2 0 t]
  congr 1
  have e3 : ∑ x ∈ range cs.length, cumulativeOf s.order w 0 (1 + x) • ((c :: cs).getD (x + 1) 0 - (c :: cs).getD x 0)
      = ∑ x ∈ range cs.length, (∑ j ∈ Ico (x + 1) (cs.length + 1), w j) • ((c :: cs).getD (x + 1) 0 - (c :: cs).getD x 0) := by
    refine sum_congr rfl fun x hx => ?_
    have := mem_range.1 hx
    rw [cumulativeOf_eq _ _ _ (by omega) (by omega), hlen, add_comm 1 x]
  rw [e3, abel w (fun j => (c :: cs).getD j 0), hlen]
  simp only [smul_sub, sum_sub_distrib]
  rw [← sum_smul, hsum, one_smul]
  simp only [List.getD_cons_zero, add_sub_cancel]
  refine sum_congr rfl fun j hj => ?_
  have hj := mem_range.1 hj
  rw [hvert j hj, hw j hj]
  simp

end Verif.MSpline
