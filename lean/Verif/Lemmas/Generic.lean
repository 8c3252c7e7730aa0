import Verif.Lemmas.Evaluator
import Verif.Lemmas.Append

/-!
# The loop of the generic evaluation, and its continuity at knots
-/

set_option linter.unusedSectionVars false

namespace Verif.MSpline

open Finset Polynomial

variable {K : Type*} [Field K] [LinearOrder K] [IsStrictOrderedRing K] {P V : Type*}

theorem genericLoop_congr (M : Mfd K P V) (w w' : ℕ → K) : ∀ (cs : List P) (i : ℕ) (a p : P),
    (∀ j, i ≤ j → j < i + cs.length → w j = w' j) → genericLoop M w i a p cs = genericLoop M w' i a p cs
  | [], _, _, _, _ => rfl
  | c :: cs, i, a, p, h => by
    unfold genericLoop
    rw [h i le_rfl (by simp), genericLoop_congr M w w' cs (i + 1) c _ (fun j h1 h2 => h j (by omega) (by simp; omega))]

theorem genericLoop_shift (M : Mfd K P V) (w : ℕ → K) : ∀ (cs : List P) (i : ℕ) (a p : P),
    genericLoop M w (i + 1) a p cs = genericLoop M (fun j => w (j + 1)) i a p cs
  | [], _, _, _ => rfl
  | c :: cs, i, a, p => by
    unfold genericLoop
    rw [genericLoop_shift M w cs (i + 1)]

theorem genericLoop_last (M : Mfd K P V) (w : ℕ → K) (c : P) : ∀ (cs : List P) (i : ℕ) (a p : P), w (i + cs.length) = 0 →
    genericLoop M w i a p (cs ++ [c]) = genericLoop M w i a p cs
  | [], i, a, p, h => by
    simp only [List.length_nil, add_zero] at h
    simp [genericLoop, h]
  | b :: cs, i, a, p, h => by
    rw [List.cons_append]
    unfold genericLoop
    rw [genericLoop_last M w c cs (i + 1) b _ (by rw [← h]; congr 1; simp; omega)]

theorem cumulativeOf_eq (k : ℕ) (w : ℕ → K) (der : ℕ) {i : ℕ} (h0 : i ≠ 0) (hk : i < k) :
    cumulativeOf k w der i = ∑ j ∈ Ico i k, w j := by
  unfold cumulativeOf
  rw [if_neg h0, ← sum_insert (s := Ico (i + 1) k) (by simp)]
  congr 1
  ext j
  simp
  omega

/-- The weights of two neighbouring intervals agree at the knot between them. -/
theorem piece_knot_join (kn : ℕ → K) (i p j : ℕ) (hp : 1 ≤ p) (h1 : kn i < kn (i + 1)) (h2 : kn (i + 1) < kn (i + 2)) :
    (piece kn i p j).eval (kn (i + 1)) = (piece kn (i + 1) p j).eval (kn (i + 1)) := by
  obtain ⟨q, rfl⟩ := Nat.exists_eq_add_of_le hp
  refine piece_join_value kn i 1 _ h1 h2 ?_ q j
  intro l h3 h4
  congr 1; omega

/-- The generic curve on interval `i`, evaluated at an arbitrary time: what the evaluator computes there. -/
noncomputable def segCurve (M : Mfd K P V) (k : ℕ) (kn : ℕ → K) (vs : List P) (i : ℕ) (t : K) : Option P :=
  match (vs.drop (i + 1 - k)).take k with
  | [] => none
  | c :: cs => some (genericLoop M (cumulativeOf k (fun c => (piece kn i (k - 1) (i + 1 - k + c)).eval t) 0) 1 c c cs)

theorem evalGeneric_segCurve {s : MSpline K P} (h : s.MWF) (he : s.state = .evaluable) (M : Mfd K P V) {t : K} {i : ℕ}
    (hi : s.InSeg t i) :
    ∃ p, s.evalGeneric M t = .ok p ∧ segCurve M s.order s.kn s.verts i t = some p := by
  obtain ⟨w, c, cs, hw, hv, hev⟩ := evalGeneric_eq h he M hi
  refine ⟨_, hev, ?_⟩
  unfold segCurve
  rw [hv]
  simp only [Option.some.injEq]
  have hl : cs.length + 1 ≤ s.order := by
    have : (c :: cs).length ≤ s.order := by rw [← hv, List.length_take]; omega
    simpa using this
  refine genericLoop_congr M _ _ cs 1 c c fun j h1 h2 => ?_
  rw [cumulativeOf_eq _ _ _ (by omega) (by omega), cumulativeOf_eq _ _ _ (by omega) (by omega)]
  refine sum_congr rfl fun x hx => ?_
  rw [hw x (by have := mem_Ico.1 hx; omega)]

/-- At an inner knot the curve pieces of both sides have the same value, if `exp` inverts `log`. -/
theorem segCurve_join (M : Mfd K P V) (hexp : ∀ a b, M.exp a (M.scale (M.log a b) 1) = b) (k : ℕ) (kn : ℕ → K) (n : ℕ)
    (hm : MonoBelow kn n) (vs : List P) (i : ℕ) (hk : 2 ≤ k) (hi : k ≤ i + 1) (hin : i + k < n)
    (h1 : kn i < kn (i + 1)) (h2 : kn (i + 1) < kn (i + 2)) (hv : i + 2 ≤ vs.length) :
    segCurve M k kn vs i (kn (i + 1)) = segCurve M k kn vs (i + 1) (kn (i + 1)) := by
  obtain ⟨k, rfl⟩ : ∃ m, k = m + 2 := ⟨k - 2, by omega⟩
  unfold segCurve
  have e0 : i + 1 + 1 - (k + 2) = i + 1 - (k + 2) + 1 := by omega
  rw [e0]
  generalize ha : i + 1 - (k + 2) = a
  have hai : i = a + k + 1 := by omega
  have hdrop : vs.drop a = vs[a] :: vs[a + 1] :: vs.drop (a + 2) := by
    rw [← List.cons_getElem_drop_succ (h := by omega), ← List.cons_getElem_drop_succ (h := by omega)]
  have hdrop' : vs.drop (a + 1) = vs[a + 1] :: vs.drop (a + 2) := by
    rw [← List.cons_getElem_drop_succ (h := by omega)]
  rw [hdrop, hdrop', List.take_succ_cons, List.take_succ_cons, List.take_succ_cons]
  simp only [Option.some.injEq]
  have hlast : (vs.drop (a + 2)).take (k + 1) = (vs.drop (a + 2)).take k ++ [vs[a + 2 + k]] := by
    rw [List.take_add_one, List.getElem?_drop, List.getElem?_eq_getElem (by omega)]
    rfl
  have hlen : ((vs.drop (a + 2)).take k).length = k := by simp; omega
  set W : ℕ → K := fun c => (piece kn i (k + 2 - 1) (a + c)).eval (kn (i + 1)) with hW
  set W' : ℕ → K := fun c => (piece kn (i + 1) (k + 2 - 1) (a + 1 + c)).eval (kn (i + 1)) with hW'
  have hWW : ∀ c, W (c + 1) = W' c := by
    intro c
    simp only [hW, hW']
    rw [piece_knot_join kn i _ _ (by omega) h1 h2]
    congr 2; omega
  have hW0 : W 0 = 0 := by
    simp only [hW]
    rw [piece_knot_join kn i _ _ (by omega) h1 h2, piece_zero_of_gt _ _ _ _ (by omega)]
    simp
  have hWlast : W' (k + 1) = 0 := by
    simp only [hW']
    rw [show a + 1 + (k + 1) = i + 1 by omega]
    exact piece_last_left kn (i + 1) _ (by omega)
  have hsum : ∑ c ∈ range (k + 2), W c = 1 := by
    have := piece_sum_one kn n i hm h1 (k + 2 - 1) (by omega) (by omega)
    have h3 := congrArg (Polynomial.eval (kn (i + 1))) this
    rw [eval_finsetSum, eval_one] at h3
    rw [← h3, sum_Ico_eq_sum_range, show i + 1 - (i - (k + 2 - 1)) = k + 2 by omega]
    refine sum_congr rfl fun c _ => ?_
    simp only [hW]
    congr 2; omega
  have hcum1 : cumulativeOf (k + 2) W 0 1 = 1 := by
    rw [cumulativeOf_eq _ _ _ (by omega) (by omega), ← hsum, range_eq_Ico, sum_eq_sum_Ico_succ_bot (by omega : 0 < k + 2), hW0,
      zero_add]
  conv_lhs => unfold genericLoop
  rw [hcum1, if_neg one_ne_zero, hexp, hlast, genericLoop_last, genericLoop_shift]
  · refine genericLoop_congr M _ _ _ 1 _ _ fun j h3 h4 => ?_
    rw [hlen] at h4
    rw [cumulativeOf_eq _ _ _ (by omega) (by omega), cumulativeOf_eq _ _ _ (by omega) (by omega)]
    have : ∑ x ∈ Ico j (k + 2), W' x = ∑ x ∈ Ico j (k + 1), W' x := by
      rw [sum_Ico_succ_top (by omega), hWlast, add_zero]
    rw [this, ← sum_Ico_add' W j (k + 1) 1]
    exact sum_congr rfl fun x _ => hWW x
  · rw [hlen, cumulativeOf_eq _ _ _ (by omega) (by omega), show 1 + k = k + 1 by omega]
    simp [hWlast]

/-- The curve on an interval depends on the nearby knots and on the relevant vertices only. -/
theorem segCurve_congr (M : Mfd K P V) (k : ℕ) (kn kn' : ℕ → K) (vs vs' : List P) (i : ℕ) (t : K)
    (hkn : ∀ m, m < i + k → kn m = kn' m) (hk : 1 ≤ k)
    (hv : ∀ j, i + 1 - k ≤ j → j ≤ i → vs[j]? = vs'[j]?) (hki : k ≤ i + 1) :
    segCurve M k kn vs i t = segCurve M k kn' vs' i t := by
  have e : (vs.drop (i + 1 - k)).take k = (vs'.drop (i + 1 - k)).take k := by
    apply List.ext_getElem?
    intro j
    rw [List.getElem?_take, List.getElem?_take]
    split
    · rw [List.getElem?_drop, List.getElem?_drop, hv _ (by omega) (by omega)]
    · rfl
  unfold segCurve
  rw [e]
  have e2 : (fun c => (piece kn i (k - 1) (i + 1 - k + c)).eval t) = fun c => (piece kn' i (k - 1) (i + 1 - k + c)).eval t := by
    funext c
    rw [piece_congr_local kn kn' i (k - 1) (fun m hm => hkn m (by omega))]
  rw [e2]

end Verif.MSpline
