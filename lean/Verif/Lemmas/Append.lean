import Verif.Lemmas.Fit
import Verif.Lemmas.Shift
import Verif.Props.Views

/-!
# Appending a segment: the extended knots and the linear system
-/

set_option linter.unusedSectionVars false

namespace Verif

open Finset Polynomial BSpline

variable {K : Type*} [Field K] [LinearOrder K] [IsStrictOrderedRing K] {D : ℕ}

/-- The pieces of interval `i` depend on the knots up to `i + p` only. -/
theorem piece_congr_local (kn kn' : ℕ → K) (i : ℕ) : ∀ p, (∀ m, m ≤ i + p → kn m = kn' m) →
    ∀ j, piece kn i p j = piece kn' i p j
  | 0, _, j => by simp [piece]
  | (p + 1), h, j => by
    have ih := piece_congr_local kn kn' i p (fun m hm => h m (by omega))
    rcases Nat.lt_or_ge i j with hj | hj
    · rw [piece_zero_of_lt _ _ _ _ hj, piece_zero_of_lt _ _ _ _ hj]
    · simp only [piece]
      rw [ih j, ih (j + 1), h j (by omega), h (j + p + 1) (by omega)]
      rcases Nat.lt_or_ge i (j + 1) with hj' | hj'
      · rw [piece_zero_of_lt _ _ _ _ hj', mul_zero, mul_zero]
      · rw [h (j + 1) (by omega), h (j + p + 2) (by omega)]

/-- A piece depends on the knots of its support only. -/
theorem piece_congr_support (kn kn' : ℕ → K) (i : ℕ) : ∀ p j, (∀ m, m ≤ j + p + 1 → kn m = kn' m) →
    piece kn i p j = piece kn' i p j
  | 0, j, _ => by simp [piece]
  | (p + 1), j, h => by
    simp only [piece]
    rw [piece_congr_support kn kn' i p j (fun m hm => h m (by omega)),
      piece_congr_support kn kn' i p (j + 1) (fun m hm => h m (by omega)), h j (by omega), h (j + p + 1) (by omega),
      h (j + 1) (by omega), h (j + p + 2) (by omega)]

/-- The last local basis polynomial with one knot moved is a multiple. -/
theorem piece_last_scale (kn kn' : ℕ → K) (i p : ℕ) (h : ∀ m, m ≤ i + p → kn m = kn' m)
    (hne : kn (i + p + 1) - kn i ≠ 0) (hne' : kn' (i + p + 1) - kn i ≠ 0) :
    piece kn i (p + 1) i = C ((kn' (i + p + 1) - kn i) / (kn (i + p + 1) - kn i)) * piece kn' i (p + 1) i := by
  simp only [piece]
  rw [piece_zero_of_lt kn _ _ _ (Nat.lt_succ_self i), piece_zero_of_lt kn' _ _ _ (Nat.lt_succ_self i),
    piece_congr_local kn kn' i p h i, mul_zero, mul_zero, add_zero, add_zero, ← h i (by omega), ← mul_assoc, ← mul_assoc,
    ← C_mul]
  congr 3
  field_simp

/-- The last local basis polynomial vanishes at the left end of the interval. -/
theorem piece_last_left (kn : ℕ → K) (i p : ℕ) (hp : 1 ≤ p) : (piece kn i p i).eval (kn i) = 0 := by
  obtain ⟨q, rfl⟩ : ∃ q, p = q + 1 := ⟨p - 1, by omega⟩
  rw [piece_eval_succ, piece_zero_of_lt _ _ _ _ (Nat.lt_succ_self i)]
  simp

/-- … and is positive at the right end. -/
theorem piece_last_right (kn : ℕ → K) (n i : ℕ) (hm : MonoBelow kn n) (hlt : kn i < kn (i + 1)) :
    ∀ p, i + p < n → 0 < (piece kn i p i).eval (kn (i + 1))
  | 0, _ => by simp [piece]
  | (p + 1), hn => by
    rw [piece_eval_succ, piece_zero_of_lt _ _ _ _ (Nat.lt_succ_self i)]
    simp only [eval_zero, mul_zero, add_zero]
    have ih := piece_last_right kn n i hm hlt p (by omega)
    have hd : 0 < kn (i + p + 1) - kn i := by
      have := hm (i + 1) (i + p + 1) (by omega) (by omega)
      linarith
    exact mul_pos (div_pos (by linarith) hd) ih

/-- The second to last local basis polynomial is positive at the left end if the preceding interval is not empty. -/
theorem piece_second_left (kn : ℕ → K) (n i : ℕ) (hm : MonoBelow kn n) (hi : 1 ≤ i) (hprev : kn (i - 1) < kn i)
    (hlt : kn i < kn (i + 1)) : ∀ p, 1 ≤ p → i + p < n → 0 < (piece kn i p (i - 1)).eval (kn i)
  | 0, h, _ => by omega
  | 1, _, _ => by
    rw [piece_eval_succ, show i - 1 + 1 = i by omega, show i - 1 + 0 + 2 = i + 1 by omega]
    simp only [piece]
    rw [if_neg (by omega), if_pos trivial]
    simp only [eval_zero, mul_zero, zero_add, eval_one, mul_one]
    exact div_pos (by linarith) (by linarith)
  | (p + 2), _, hn => by
    have ih := piece_second_left kn n i hm hi hprev hlt (p + 1) (by omega) (by omega)
    rw [piece_eval_succ, show i - 1 + 1 = i by omega, piece_last_left kn i (p + 1) (by omega), mul_zero, add_zero]
    have hd : 0 < kn (i - 1 + (p + 1) + 1) - kn (i - 1) := by
      have := hm i (i - 1 + (p + 1) + 1) (by omega) (by omega)
      linarith
    exact mul_pos (div_pos (by linarith) hd) ih

/-! ### Extending the knots -/

theorem extendedKnots_len (s : BSpline K D) (km1 : ℕ) (t : K) :
    (s.extendedKnots km1 t).length = s.knots.length + 1 := by simp [extendedKnots]

theorem extendedKnots_old (s : BSpline K D) (km1 : ℕ) (t : K) (i : ℕ) (hi : i < s.knots.length + 1) (h : i < km1 + 2) :
    (s.extendedKnots km1 t).getD i 0 = s.kn i := by
  simp [extendedKnots, List.getD_eq_getElem?_getD, hi, h]

theorem extendedKnots_new (s : BSpline K D) (km1 : ℕ) (t : K) (i : ℕ) (hi : i < s.knots.length + 1) (h : km1 + 2 ≤ i) :
    (s.extendedKnots km1 t).getD i 0 = t + ((i - (km1 + 2) : ℕ) : K) * (t - s.kn (km1 + 1)) := by
  simp [extendedKnots, List.getD_eq_getElem?_getD, hi, show ¬ i < km1 + 2 by omega]

/-- Facts about the spline extended by one segment. -/
structure Extended (s s1 : BSpline K D) (t : K) (junk : Fin D → K) : Prop where
  wf : s1.WF
  order : s1.order = s.order
  coeffs : s1.coeffs = s.coeffs ++ [junk]
  len : s1.knots.length = s.knots.length + 1
  old : ∀ i, i ≤ s.knots.length - s.order → s1.kn i = s.kn i
  new : ∀ i, s.knots.length - s.order + 1 ≤ i → i < s.knots.length + 1 →
    s1.kn i = t + ((i - (s.knots.length - s.order + 1) : ℕ) : K) * (t - s.kn (s.knots.length - s.order))

theorem extend_ok {s : BSpline K D} (h : s.WF) (t : K) (ht : s.kn (s.knots.length - s.order) < t) (junk : Fin D → K) :
    ∃ s1 p0, s.extend t junk = .ok (s1, p0, s.kn (s.knots.length - s.order), t) ∧
      s.eval (s.kn (s.knots.length - s.order)) = .ok p0 ∧ Extended s s1 t junk := by
  have hk := h.order_pos
  have hn := h.enough
  have hc := h.coeffs_len
  have htol : (0 : K) < snapTol := by unfold snapTol; positivity
  set e := s.knots.length - s.order with he
  have hmono := h.mono
  -- lookup of the start of the last segment
  have hT : ∃ x, s.computeTIndex (s.kn (e - 1)) = .ok (x, e - 1) := by
    have h1 : s.kn (s.order - 1) ≤ s.kn (e - 1) := hmono _ _ (by omega) (by omega)
    have h2 : s.kn (e - 1) ≤ s.kn e := hmono _ _ (by omega) (by omega)
    by_cases hs : s.kn (e - 1) + snapTol ≤ s.kn e
    · obtain ⟨i, hT, a1, a2, a3, a4⟩ := lookup_interior h (s.kn (e - 1)) h1 hs
      have : i = e - 1 := by
        by_contra hne
        have : i + 1 ≤ e - 1 := by omega
        have := hmono (i + 1) (e - 1) this (by omega)
        linarith
      subst this
      exact ⟨_, hT⟩
    · have habs : |s.kn (s.knots.length - s.order) - s.kn (e - 1)| < snapTol := by
        rw [← he, abs_of_nonneg (by linarith)]; linarith [not_le.1 hs]
      exact ⟨_, lookup_end h _ h1 habs⟩
  obtain ⟨x, hT⟩ := hT
  -- the former end value
  have hp0 : ∃ p0, s.eval (s.kn e) = .ok p0 := by
    have h1 : s.kn (s.order - 1) ≤ s.kn e := hmono _ _ (by omega) (by omega)
    have hT' := lookup_end h (s.kn e) h1 (by rw [← he, sub_self, abs_zero]; exact htol)
    obtain ⟨B, hB, -⟩ := blockAt_ok h (e - 1) (by omega) (by omega)
    unfold BSpline.eval evalD evalDNat computeUAndTIndex
    rw [if_neg (by omega), hT']
    simp only [Outcome.bind_ok]
    split_ifs
    · simp only [Outcome.bind_ok, ← he, hB]
      exact ⟨_, rfl⟩
    · simp only [Outcome.bind_ok, ← he, hB]
      exact ⟨_, rfl⟩
  obtain ⟨p0, hp0⟩ := hp0
  set kns := s.extendedKnots (e - 1) t with hkns
  have hklen : kns.length = s.knots.length + 1 := extendedKnots_len _ _ _
  have hold : ∀ i, i ≤ e → kns.getD i 0 = s.kn i := fun i hi =>
    extendedKnots_old s (e - 1) t i (by omega) (by omega)
  have hnew : ∀ i, e + 1 ≤ i → i < s.knots.length + 1 → kns.getD i 0 = t + ((i - (e + 1) : ℕ) : K) * (t - s.kn e) := by
    intro i h1 h2
    have := extendedKnots_new s (e - 1) t i h2 (by omega)
    rwa [show e - 1 + 2 = e + 1 by omega, show e - 1 + 1 = e by omega] at this
  have hsorted : kns.Pairwise (· ≤ ·) := by
    apply pairwise_of_adjacent
    intro j h1 h2
    rcases Nat.lt_or_ge e j with hj | hj
    · rw [hnew j hj (by omega)]
      rcases Nat.lt_or_ge e (j - 1) with hj' | hj'
      · rw [hnew (j - 1) hj' (by omega)]
        have : ((j - 1 - (e + 1) : ℕ) : K) ≤ ((j - (e + 1) : ℕ) : K) := by exact_mod_cast (by omega)
        have := mul_le_mul_of_nonneg_right this (show 0 ≤ t - s.kn e by linarith)
        linarith
      · have : j = e + 1 := by omega
        subst this
        rw [hold _ (by omega)]
        simp only [Nat.add_sub_cancel, Nat.sub_self, Nat.cast_zero, zero_mul, add_zero]
        exact ht.le
    · rw [hold j hj, hold (j - 1) (by omega)]
      exact hmono _ _ (by omega) (by omega)
  have hset := set_ok hk (kns := kns) (cs := s.coeffs ++ [junk]) (by omega) hsorted (by omega)
    (by rw [List.length_append, hklen]; simp; omega)
  set s1 := initializeBasisMatrices { s with knots := kns, coeffs := s.coeffs ++ [junk] } with hs1
  have hwf : s1.WF := set_wf hk hsorted hset
  have hkk : s1.knots.length = s.knots.length + 1 := hklen
  have hord : s1.order = s.order := rfl
  refine ⟨s1, p0, ?_, hp0, ⟨hwf, hord, rfl, hkk, hold, hnew⟩⟩
  have hnt : s.numValidTimeSegments = s.knots.length + 1 - 2 * s.order := rfl
  have hI : s.timeIntervalOf ((s.numValidTimeSegments : ℤ) - 1) = .ok (s.kn (e - 1), s.kn e) := by
    unfold timeIntervalOf minimumKnotsRequired numKnotsRequired numCoefficientsRequired
    rw [if_neg (by omega), if_neg (by push Not; constructor <;> omega)]
    congr 3 <;> omega
  have hI1 : s1.timeIntervalOf (s.numValidTimeSegments : ℤ) = .ok (s.kn e, t) := by
    unfold timeIntervalOf minimumKnotsRequired numKnotsRequired numCoefficientsRequired
    have hnt1 : s1.numValidTimeSegments = s.knots.length + 2 - 2 * s.order := by
      unfold numValidTimeSegments numValidTimeSegmentsOf
      rw [hkk, hord]
    rw [if_neg (by rw [hkk, hord]; omega), if_neg (by rw [hnt1]; push Not; constructor <;> omega), hord]
    have e1 : s.order + ((s.numValidTimeSegments : ℤ)).toNat - 1 = e := by rw [Int.toNat_natCast]; omega
    have e2 : s.order + ((s.numValidTimeSegments : ℤ)).toNat = e + 1 := by rw [Int.toNat_natCast]; omega
    rw [e1, e2]
    congr 2
    · exact hold e le_rfl
    · refine (hnew (e + 1) le_rfl (by omega)).trans ?_
      simp
  unfold extend
  rw [tMax_eq h]
  simp only [Outcome.bind_ok]
  rw [if_neg (not_le.2 ht), hI]
  simp only [Outcome.bind_ok]
  rw [hp0]
  simp only [Outcome.bind_ok]
  rw [hT]
  simp only [Outcome.bind_ok]
  rw [hset]
  simp only [Outcome.bind_ok]
  rw [hI1]
  rfl

/-! ### The new segment -/

theorem Extended.seg_lt {s s1 : BSpline K D} {t : K} {junk : Fin D → K} (e : Extended s s1 t junk) (h : s.WF)
    (ht : s.kn (s.knots.length - s.order) < t) :
    s1.kn (s.knots.length - s.order) = s.kn (s.knots.length - s.order) ∧ s1.kn (s.knots.length - s.order + 1) = t ∧
      s1.kn (s.knots.length - s.order) < s1.kn (s.knots.length - s.order + 1) := by
  have hk := h.order_pos
  have hn := h.enough
  have e1 := e.old (s.knots.length - s.order) le_rfl
  have e2 := e.new (s.knots.length - s.order + 1) le_rfl (by omega)
  rw [Nat.sub_self, Nat.cast_zero, zero_mul, add_zero] at e2
  exact ⟨e1, e2, by rw [e1, e2]; exact ht⟩

/-- Both ends of the new segment are looked up in the new segment. -/
theorem Extended.lookup_ends {s s1 : BSpline K D} {t : K} {junk : Fin D → K} (e : Extended s s1 t junk) (h : s.WF)
    (ht : s.kn (s.knots.length - s.order) < t) (τ : K) (hτ1 : s.kn (s.knots.length - s.order) ≤ τ) (hτ2 : τ ≤ t) :
    s1.Admissible τ ∧ s1.InSegment τ (s.knots.length - s.order) ∧
    s1.computeTIndex τ = .ok (s1.kn (s.knots.length - s.order + 1) - s1.kn (s.knots.length - s.order),
      s.knots.length - s.order) := by
  have hk := h.order_pos
  have hn := h.enough
  obtain ⟨e1, e2, hlt⟩ := e.seg_lt h ht
  have hlast : s1.knots.length - s1.order = s.knots.length - s.order + 1 := by rw [e.len, e.order]; omega
  have hmin : s1.kn (s1.order - 1) ≤ s.kn (s.knots.length - s.order) := by
    rw [e.order, ← e1]
    exact e.wf.mono _ _ (by omega) (by rw [e.len]; omega)
  have hadm : s1.Admissible τ := by
    unfold Admissible
    rw [hlast, Nat.add_sub_cancel, e2, e1]
    exact ⟨hmin.trans hτ1, hτ2, Or.inr ⟨hτ1, ht⟩⟩
  obtain ⟨i, hT, hi⟩ := lookup e.wf τ hadm
  have hup := hi.upper
  rw [hlast] at hup
  have : i = s.knots.length - s.order := by
    by_contra hne
    have h1 : i + 1 ≤ s.knots.length - s.order := by omega
    have h2 := e.wf.mono (i + 1) (s.knots.length - s.order) h1 (by rw [e.len]; omega)
    rw [e1] at h2
    rcases hi.right with hr | hr
    · linarith
    · rw [hlast] at hr; omega
  subst this
  exact ⟨hadm, hi, hT⟩

/-- The weight of local coefficient `c` on the new segment. -/
noncomputable def endWeight (s s1 : BSpline K D) (der : ℕ) (τ : K) (c : ℕ) : K :=
  (derivative^[der] (piece s1.kn (s.knots.length - s.order) (s.order - 1)
    (s.knots.length - s.order + 1 - s.order + c))).eval τ

theorem Extended.phi_eq {s s1 : BSpline K D} {t : K} {junk : Fin D → K} (e : Extended s s1 t junk) (h : s.WF)
    (ht : s.kn (s.knots.length - s.order) < t) (τ : K) (hτ1 : s.kn (s.knots.length - s.order) ≤ τ) (hτ2 : τ ≤ t)
    (der : ℕ) :
    ∃ w, s1.phi τ der = .ok (identityBlocks D w) ∧ ∀ c < s.order, w c = endWeight s s1 der τ c := by
  have hk := h.order_pos
  have hn := h.enough
  obtain ⟨e1, e2, hlt⟩ := e.seg_lt h ht
  obtain ⟨hadm, hi, hT⟩ := e.lookup_ends h ht τ hτ1 hτ2
  obtain ⟨B, hB, -, hBe⟩ := blockAt_ok e.wf _ hi.lower hi.upper
  have hw := fun c hc => weights_eq e.wf τ (s.knots.length - s.order) der hi.lower hi.upper hlt B hBe c hc
  unfold phi
  rw [if_neg (by omega), computeU_ok τ _ hlt hT]
  simp only [Outcome.bind_ok]
  rw [hB]
  refine ⟨_, rfl, fun c hc => ?_⟩
  rw [Int.toNat_natCast, hw c (by rw [e.order]; exact hc), e.order]
  rfl

/-- The last two columns replaced. -/
theorem storeLastTwo_col {s s1 : BSpline K D} {t : K} {junk : Fin D → K} (e : Extended s s1 t junk) (h : s.WF)
    (x : ℕ → K) (j : ℕ) (hj : j ≤ s.knots.length - s.order) (d : Fin D) :
    (s1.storeLastTwo x).col j d = if j = s.knots.length - s.order then x (D + d)
      else if j = s.knots.length - s.order - 1 then x d else s.col j d := by
  have hk := h.order_pos
  have hn := h.enough
  have hc := h.coeffs_len
  have hl : s1.coeffs.length = s.knots.length - s.order + 1 := by rw [e.coeffs]; simp; omega
  unfold storeLastTwo col
  rw [hl, show s.knots.length - s.order + 1 - 2 = s.knots.length - s.order - 1 by omega,
    show s.knots.length - s.order + 1 - 1 = s.knots.length - s.order by omega]
  simp only [List.getD_eq_getElem?_getD, List.getElem?_set, List.length_set, hl]
  split_ifs with a1 a2 a3 a4 a5 a6 a7 a8 <;> first | omega | simp | skip
  rw [e.coeffs, List.getElem?_append_left (by omega)]

theorem storeLastTwo_wf {s1 : BSpline K D} (h : s1.WF) (x : ℕ → K) : (s1.storeLastTwo x).WF :=
  WF.withCoeffs h _ (by simp)

/-- Values of the result on the new segment. -/
theorem Extended.eval_new {s s1 : BSpline K D} {t : K} {junk : Fin D → K} (e : Extended s s1 t junk) (h : s.WF)
    (ht : s.kn (s.knots.length - s.order) < t) (τ : K) (hτ1 : s.kn (s.knots.length - s.order) ≤ τ) (hτ2 : τ ≤ t)
    (der : ℕ) (x : ℕ → K) :
    (s1.storeLastTwo x).evalDNat τ der = .ok (fun d =>
      ∑ c ∈ range (s.order - 2), s.col (s.knots.length - s.order + 1 - s.order + c) d * endWeight s s1 der τ c
      + x d * endWeight s s1 der τ (s.order - 2) + x (D + d) * endWeight s s1 der τ (s.order - 1)) := by
  have hk := h.order_pos
  have hn := h.enough
  have hc := h.coeffs_len
  obtain ⟨e1, e2, hlt⟩ := e.seg_lt h ht
  obtain ⟨hadm, hi, hT⟩ := e.lookup_ends h ht τ hτ1 hτ2
  have hwf := storeLastTwo_wf e.wf x
  rw [evalDNat_sum hwf τ (s.knots.length - s.order) der hi.lower hi.upper hlt hT]
  congr 1
  funext d
  have hloc := sum_local_eq hwf (s.knots.length - s.order) hi.lower hi.upper der τ (fun j => (s1.storeLastTwo x).col j d)
  rw [← hloc]
  have eo : (s1.storeLastTwo x).order = s.order := e.order
  rw [eo]
  obtain ⟨k, hk'⟩ : ∃ k, s.order = k + 2 := ⟨s.order - 2, by omega⟩
  have key : ∀ c, c < s.order → (s1.storeLastTwo x).col (s.knots.length - s.order + 1 - s.order + c) d *
        (derivative^[der] (piece (s1.storeLastTwo x).kn (s.knots.length - s.order) (s.order - 1)
          (s.knots.length - s.order + 1 - s.order + c))).eval τ
      = (if c = s.order - 1 then x (D + d) else if c = s.order - 2 then x d else
          s.col (s.knots.length - s.order + 1 - s.order + c) d) * endWeight s s1 der τ c := by
    intro c hc'
    rw [storeLastTwo_col e h x _ (by omega) d]
    unfold endWeight
    congr 1
    by_cases a1 : c = s.order - 1
    · rw [if_pos (by omega), if_pos a1]
    · rw [if_neg (by omega), if_neg a1]
      by_cases a2 : c = s.order - 2
      · rw [if_pos (by omega), if_pos a2]
      · rw [if_neg (by omega), if_neg a2]
  rw [sum_congr rfl fun c hc' => key c (mem_range.1 hc')]
  conv_lhs => rw [show range s.order = range (s.order - 2 + 1 + 1) by congr 1; omega]
  rw [sum_range_succ, sum_range_succ]
  rw [if_neg (by omega), if_pos (show s.order - 2 = s.order - 2 from rfl),
    if_pos (show s.order - 2 + 1 = s.order - 1 by omega), show s.order - 2 + 1 = s.order - 1 by omega]
  congr 2
  refine sum_congr rfl fun c hc' => ?_
  have := mem_range.1 hc'
  rw [if_neg (by omega), if_neg (by omega)]

/-- Splitting an index of two stacked blocks. -/
theorem two_blocks (r : ℕ) (n : ℕ) (hr : r < n * D) : ∃ j, j < n ∧ ∃ d : Fin D, r = j * D + d := by
  have hD : 0 < D := Nat.pos_of_ne_zero fun h => by
    have := (Nat.mul_eq_zero.2 (Or.inr h) : n * D = 0); omega
  exact ⟨r / D, (Nat.div_lt_iff_lt_mul hD).2 hr, ⟨r % D, Nat.mod_lt _ hD⟩, (Nat.div_add_mod' r D).symm⟩

/-- One row of the system for the last two coefficients. -/
theorem endRow_mul (rows : List (BlockRow K D)) (j off : ℕ) (w : ℕ → K) (wt : K) (value : Fin D → K) (fixed : ℕ → K)
    (sub : Bool) (hj : rows[j]? = some (endRow (D * off) wt (identityBlocks D w) value fixed sub)) (x : ℕ → K) (d : Fin D) :
    mulV (2 * D) (rowsMat (2 * D) rows) x (j * D + d) = wt * (w off * x d + w (off + 1) * x (D + d)) := by
  have hD : 0 < D := by have := d.2; omega
  have e1 : (j * D + (d : ℕ)) / D = j := by
    rw [Nat.add_comm, Nat.add_mul_div_right _ _ hD, Nat.div_eq_of_lt d.2, Nat.zero_add]
  have e2 : (j * D + (d : ℕ)) % D = d := by
    rw [Nat.add_comm, Nat.add_mul_mod_self_right, Nat.mod_eq_of_lt d.2]
  unfold mulV rowsMat
  rw [e1, e2, hj]
  have hid : ∀ q, identityBlocks D w d (D * off + q) = identityBlocks D (fun c => w (off + c)) d q := by
    intro q
    unfold identityBlocks
    rw [Nat.mul_add_mod, Nat.mul_add_div hD]
  have : ∀ q ∈ range (2 * D), (if 0 ≤ q ∧ q < 0 + 2 * D then
      (endRow (D * off) wt (identityBlocks D w) value fixed sub).block d (q - 0) else 0) * x q
      = wt * (identityBlocks D (fun c => w (off + c)) d q * x q) := by
    intro q hq
    have := mem_range.1 hq
    rw [if_pos (by omega)]
    unfold endRow
    simp only [Nat.sub_zero]
    rw [hid]
    ring
  refine (sum_congr rfl this).trans ?_
  rw [← mul_sum, identityBlocks_mul]
  simp [sum_range_succ]

theorem endRow_vec (rows : List (BlockRow K D)) (j off : ℕ) (w : ℕ → K) (wt : K) (value : Fin D → K) (fixed : ℕ → K)
    (sub : Bool) (hj : rows[j]? = some (endRow (D * off) wt (identityBlocks D w) value fixed sub)) (d : Fin D) :
    rowsVec rows (j * D + d) = if sub then value d - ∑ c ∈ range off, w c * fixed (c * D + d) else value d := by
  have hD : 0 < D := by have := d.2; omega
  have e1 : (j * D + (d : ℕ)) / D = j := by
    rw [Nat.add_comm, Nat.add_mul_div_right _ _ hD, Nat.div_eq_of_lt d.2, Nat.zero_add]
  have e2 : (j * D + (d : ℕ)) % D = d := by
    rw [Nat.add_comm, Nat.add_mul_mod_self_right, Nat.mod_eq_of_lt d.2]
  unfold rowsVec
  simp only [e1, e2, hj]
  rw [dif_pos d.2]
  unfold endRow
  simp only [Fin.eta]
  rw [mul_comm D off, identityBlocks_mul]

/-- The fixed local coefficients. -/
theorem Extended.fixed_eq {s s1 : BSpline K D} {t : K} {junk : Fin D → K} (e : Extended s s1 t junk) (h : s.WF)
    (ht : s.kn (s.knots.length - s.order) < t) :
    ∃ loc, s1.localCoefficientVector (s.kn (s.knots.length - s.order)) = .ok loc ∧
      ∀ c < s.order - 2, ∀ d : Fin D, loc.getD (c * D + d) 0
        = s.col (s.knots.length - s.order + 1 - s.order + c) d := by
  have hk := h.order_pos
  have hn := h.enough
  have hc := h.coeffs_len
  obtain ⟨-, hi, hT⟩ := e.lookup_ends h ht _ le_rfl ht.le
  have hl : s1.coeffs.length = s.knots.length - s.order + 1 := by rw [e.coeffs]; simp; omega
  refine ⟨_, localCoefficientVector_of_lookup hT (by rw [e.order]; omega) (by rw [e.order, hl]; omega), ?_⟩
  intro c hc' d
  rw [stack_getD _ _ c (by rw [e.order]; omega) d, e.order]
  unfold col
  rw [e.coeffs, List.getD_eq_getElem?_getD, List.getD_eq_getElem?_getD, List.getElem?_append_left (by omega),
    Nat.add_comm c]

end Verif
