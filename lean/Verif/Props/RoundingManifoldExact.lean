import Verif.Props.RoundingManifold
import Verif.Props.ManifoldLife

/-!
# C107: rejected times, and the model without rounding

Times outside the spline are rejected as without rounding, and with rounding that does nothing the model is that of `Model/ManifoldSpline`.
-/

set_option linter.unusedSectionVars false

namespace Verif

namespace Rounding

open Finset MSpline

variable {K : Type*} [Field K] [LinearOrder K] [IsStrictOrderedRing K] {X V : Type*}

theorem evaluatorAt_throws {R : Rounding K} (S : Summation R) {s : MSpline K X} (h : s.MWF) (t : K) (ht : s.state = .constructing ∨
    t < s.kn (s.order - 1) ∨ s.kn (s.keys.length - s.order) < t) : R.evaluatorAt (withFloatBasis S s) t = .throws := by
  unfold Rounding.evaluatorAt
  rw [show (withFloatBasis S s).state = s.state from rfl]
  rcases hst : s.state with _ | _
  · rfl
  · simp only []
    rcases ht with ht | ht
    · rw [hst] at ht; cases ht
    · have : (withFloatBasis S s).getSegmentIterator t = s.getSegmentIterator t := by
        unfold MSpline.getSegmentIterator
        rw [keys_float]
        rfl
      rw [this, MSpline.getSegmentIterator_throws h hst t ht]
      rfl

theorem outside_of_times {s : MSpline K X} (hm : s.MWF) {t : K}
    (ht : s.state = .constructing ∨ ∃ tmin tmax, s.getMinTime = .ok tmin ∧ s.getMaxTime = .ok tmax ∧ (t < tmin ∨ tmax < t)) :
    s.state = .constructing ∨ t < s.kn (s.order - 1) ∨ s.kn (s.keys.length - s.order) < t := by
  rcases hst : s.state with _ | _
  · exact Or.inl rfl
  · rcases ht with ht | ⟨a, b, ha, hb, hab⟩
    · rw [hst] at ht; cases ht
    · rw [getMinTime_eq hm hst] at ha
      rw [getMaxTime_eq hm hst] at hb
      obtain rfl := Outcome.ok.inj ha
      obtain rfl := Outcome.ok.inj hb
      exact Or.inr hab

/-- **C107**: a spline under construction, and a time before the minimum or after the maximum time, are rejected in floating point as well. -/
theorem C107_rejects {D : ℕ} {R : Rounding K} (S : Summation R) (P : Power R) (M : Mfd K X V) {order : ℕ} (ho : 1 ≤ order) (t : K) :
    (∀ s : MSpline K X, RegularReach M order s →
      (s.state = .constructing ∨ ∃ tmin tmax, s.getMinTime = .ok tmin ∧ s.getMaxTime = .ok tmax ∧ (t < tmin ∨ tmax < t)) →
      evalGeneric S P M (withFloatBasis S s) t = .throws) ∧
    (∀ s : MSpline K (Fin D → K), RegularReach (euclidean K (Fin D → K)) order s →
      (s.state = .constructing ∨ ∃ tmin tmax, s.getMinTime = .ok tmin ∧ s.getMaxTime = .ok tmax ∧ (t < tmin ∨ tmax < t)) →
      ∀ der : ℕ, euclideanEvalD S P (withFloatBasis S s) t der = .throws) := by
  constructor
  · intro s h ht
    unfold evalGeneric
    rw [evaluatorAt_throws S (h.mwf ho).1 t (outside_of_times (h.mwf ho).1 ht)]
    rfl
  · intro s h ht der
    unfold euclideanEvalD
    rw [evaluatorAt_throws S (h.mwf ho).1 t (outside_of_times (h.mwf ho).1 ht)]
    rfl

/-! ### No rounding -/

local notation "E" => Rounding.exact (K := K)

theorem exact_pow (P : Power E) (x : K) (n : ℕ) : P.pow x n = x ^ n := by
  have := P.err x n rfl
  simp only [Rounding.exact, mul_zero, zero_mul, add_zero] at this
  exact sub_eq_zero.1 (abs_nonpos_iff.1 this)

theorem exact_evalU (P : Power E) (k : ℕ) (len rel : K) (der : ℕ) : evalU P k len rel der = MSpline.evalU k len rel der := by
  funext i
  unfold evalU MSpline.evalU
  simp only [exact_pow, exact_powers]
  rfl

theorem exact_transposeMul (S : Summation E) (k : ℕ) (B : Mat K) (u : ℕ → K) : transposeMul S k B u = BSpline.transposeMul k B u := by
  funext c
  unfold transposeMul BSpline.transposeMul
  rw [exact_sum, list_sum_range]
  rfl

theorem exact_localM (S : Summation E) {s : MSpline K X} {i : ℕ} (h1 : s.order ≤ i + 1) (h2 : i + s.order < s.keys.length) :
    localM S s.order ((s.keys.drop (i + 1 - s.order)).take (2 * s.order)) = Verif.basisM s.kn i s.order := by
  have el := MSpline.localM_eq s.keys s.order i h1 h2
  rw [← MSpline.kn_eq_knOf] at el
  rw [← el]
  unfold localM MSpline.localM
  rw [exact_basis]

theorem exact_evaluatorAt (S : Summation E) {s : MSpline K X} (h : s.MWF) (he : s.state = .evaluable) {t : K} {i : ℕ} (hi : s.InSeg t i) :
    (E).evaluatorAt (withFloatBasis S s) t = .ok (s.evaluatorOf t i) := evaluatorAt_float S h he (fun _ _ => rfl) hi

theorem exact_localBi (S : Summation E) (P : Power E) {s : MSpline K X} (h : s.MWF) (he : s.state = .evaluable) {t : K} {i : ℕ}
    (hi : s.InSeg t i) (der : ℕ) : localBi S P (withFloatBasis S s) (s.evaluatorOf t i) der = s.localBi (s.evaluatorOf t i) der := by
  have h1 := hi.lower
  have h2 := hi.upper
  have hlt : i < s.segs.length := by rw [MSpline.keys_length] at h2; have := h.order_pos; omega
  have hg := List.getElem?_eq_getElem hlt
  obtain ⟨G, hG, hGb⟩ := segAt_float S h he hi
  unfold localBi MSpline.localBi
  rw [show (s.evaluatorOf t i).ti = s.keys[i]? from rfl, hG, MSpline.segAt_eq h hg]
  simp only [Outcome.bind_ok]
  rw [hGb, h.basis_eq he i _ h1 h2 hg]
  simp only []
  rw [exact_localM S h1 h2, exact_transposeMul, exact_evalU]
  rfl

theorem exact_cumulativeOf (k : ℕ) (bi : ℕ → K) (der : ℕ) {i : ℕ} (hi : i < k) :
    (E).cumulativeOf k bi der i = MSpline.cumulativeOf k bi der i := by
  unfold Rounding.cumulativeOf MSpline.cumulativeOf
  split
  · rfl
  · have e : ∀ (l : List K) (a : K), l.foldl (E).add a = a + l.sum := by
      intro l
      induction l with
      | nil => simp
      | cons x l ih =>
        intro a
        rw [List.foldl_cons, ih, List.sum_cons]
        show a + x + _ = _
        ring
    rw [e, zero_add, list_sum_range]
    show bi i + _ = _
    congr 1
    rw [sum_Ico_eq_sum_range, show k - (i + 1) = k - 1 - i by omega, ← sum_range_reflect]
    exact sum_congr rfl fun j hj => by
      have := mem_range.1 hj
      congr 1
      omega

theorem genericLoop_congr (M : Mfd K X V) (w w' : ℕ → K) : ∀ (cs : List X) (i : ℕ) (a p : X), (∀ j, i ≤ j → j < i + cs.length → w j = w' j) →
    MSpline.genericLoop M w i a p cs = MSpline.genericLoop M w' i a p cs
  | [], _, _, _, _ => rfl
  | c :: cs, i, a, p, h => by
    unfold MSpline.genericLoop
    rw [h i le_rfl (by simp)]
    exact genericLoop_congr M w w' cs _ _ _ fun j h1 h2 => h j (by omega) (by simp; omega)

/-- **C107**, consistency: without rounding the model is the model that the other claims are about. -/
theorem C107_exact {D : ℕ} (S : Summation E) (P : Power E) (M : Mfd K X V) {order : ℕ} (ho : 1 ≤ order) (t : K) :
    (∀ s : MSpline K X, RegularReach M order s → evalGeneric S P M (withFloatBasis S s) t = s.evalGeneric M t) ∧
    (∀ s : MSpline K (Fin D → K), RegularReach (euclidean K (Fin D → K)) order s → ∀ der : ℕ,
      euclideanEvalD S P (withFloatBasis S s) t der = s.euclideanEvalD none t der) := by
  constructor
  · intro s h
    obtain ⟨hm, hord⟩ := h.mwf ho
    have hthrow : (s.state = .constructing ∨ t < s.kn (s.order - 1) ∨ s.kn (s.keys.length - s.order) < t) →
        evalGeneric S P M (withFloatBasis S s) t = s.evalGeneric M t := by
      intro ht
      unfold evalGeneric MSpline.evalGeneric
      rw [evaluatorAt_throws S hm t ht, MSpline.evaluatorAt_throws hm t ht]
      rfl
    rcases he : s.state with _ | _
    · exact hthrow (Or.inl he)
    rcases MSpline.evaluable_total hm he t with ⟨i, hi⟩ | ht
    · have h1 := hi.lower
      have h2 := hi.upper
      rw [MSpline.keys_length] at h2
      unfold evalGeneric MSpline.evalGeneric
      rw [exact_evaluatorAt S hm he hi, MSpline.evaluatorAt_eq hm he hi, Outcome.bind_ok, Outcome.bind_ok]
      unfold localCumulativeBi MSpline.localCumulativeBi
      rw [exact_localBi S P hm he hi]
      obtain ⟨b, hb, -⟩ := MSpline.localBi_eq hm he hi 0
      rw [hb, Outcome.map_ok, Outcome.map_ok, Outcome.bind_ok, Outcome.bind_ok]
      rw [show (s.evaluatorOf t i).firstIt = s.keys[i + 1 - s.order]? from rfl, show (withFloatBasis S s).order = s.order from rfl,
        readVertices_float S hm _ _ (by omega), MSpline.readVertices_eq hm _ _ (by omega), Outcome.bind_ok, Outcome.bind_ok]
      have hl : ((s.verts.drop (i + 1 - s.order)).take s.order).length ≤ s.order := by simp
      generalize (s.verts.drop (i + 1 - s.order)).take s.order = vs at hl
      rcases vs with _ | ⟨c, cs⟩
      · rfl
      · simp only [List.length_cons] at hl
        simp only []
        rw [genericLoop_congr M _ (MSpline.cumulativeOf s.order b 0) cs 1 c c fun j _ hj => exact_cumulativeOf _ _ _ (by omega)]
    · exact hthrow (Or.inr ht)
  · intro s h der
    obtain ⟨hm, hord⟩ := h.mwf ho
    have hthrow : (s.state = .constructing ∨ t < s.kn (s.order - 1) ∨ s.kn (s.keys.length - s.order) < t) →
        euclideanEvalD S P (withFloatBasis S s) t der = s.euclideanEvalD none t der := by
      intro ht
      unfold euclideanEvalD MSpline.euclideanEvalD
      rw [evaluatorAt_throws S hm t ht, MSpline.evaluatorAt_throws hm t ht]
      rfl
    rcases he : s.state with _ | _
    · exact hthrow (Or.inl he)
    rcases MSpline.evaluable_total hm he t with ⟨i, hi⟩ | ht
    · have h1 := hi.lower
      have h2 := hi.upper
      rw [MSpline.keys_length] at h2
      have h3 := hm.order_pos
      unfold euclideanEvalD MSpline.euclideanEvalD
      rw [exact_evaluatorAt S hm he hi, MSpline.evaluatorAt_eq hm he hi, Outcome.bind_ok, Outcome.bind_ok, exact_localBi S P hm he hi,
        if_neg (by omega : ¬ (der : ℤ) < 0), if_neg (by simp : ¬ _ = true), show (withFloatBasis S s).order = s.order from rfl, Int.toNat_natCast]
      by_cases hd : der < s.order
      · rw [if_pos hd, if_pos (by omega)]
        obtain ⟨b, hb, -⟩ := MSpline.localBi_eq hm he hi der
        rw [hb, Outcome.bind_ok, Outcome.bind_ok]
        unfold Rounding.linCombLast MSpline.linCombLast
        rw [show (s.evaluatorOf t i).ti = s.keys[i]? from rfl, show (withFloatBasis S s).order = s.order from rfl]
        obtain ⟨vs, r1, r2, r3⟩ := readVerticesBack_float S hm s.order i (by omega) h1
        obtain ⟨vs', q1, q2, q3⟩ := MSpline.readVerticesBack_eq hm s.order i (by omega) h1
        have : vs = vs' := by
          refine List.ext_getElem? fun j => ?_
          by_cases hj : j < s.order
          · rw [r3 j hj, q3 j hj]
          · rw [List.getElem?_eq_none (by omega), List.getElem?_eq_none (by omega)]
        subst this
        rw [r1, q1, Outcome.bind_ok, Outcome.bind_ok]
        congr 1
        funext d
        have e1 : ∀ (l : List ℕ) (f : ℕ → K) (a : K), l.foldl (fun r j => (E).add r (f j)) a = a + (l.map f).sum := by
          intro l f
          induction l with
          | nil => simp
          | cons x l ih =>
            intro a
            rw [List.foldl_cons, ih, List.map_cons, List.sum_cons]
            show a + f x + _ = _
            ring
        have e2 : ∀ (l : List ℕ) (f : ℕ → Fin D → K) (a : Fin D → K), (l.foldl (fun r j => r + f j) a) d = a d + (l.map fun j => f j d).sum := by
          intro l f
          induction l with
          | nil => simp
          | cons x l ih =>
            intro a
            rw [List.foldl_cons, ih, List.map_cons, List.sum_cons, Pi.add_apply]
            ring
        rw [e1, e2, Pi.zero_apply, zero_add]
        obtain ⟨p, hp⟩ : ∃ p, s.order = p + 1 := ⟨s.order - 1, by omega⟩
        rw [hp, Nat.add_sub_cancel, List.range_succ_eq_map, List.map_cons, List.map_map, List.sum_cons]
        rfl
      · rw [if_neg hd, if_neg (by omega)]
    · exact hthrow (Or.inr ht)

end Rounding

end Verif
