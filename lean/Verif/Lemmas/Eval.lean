import Mathlib.Algebra.Polynomial.Derivative
import Mathlib.Data.List.Sort
import Mathlib.Tactic.Ring
import Mathlib.Tactic.FieldSimp
import Mathlib.Tactic.Linarith
import Verif.Lemmas.Piece

/-!
# Evaluation of the model is evaluation of polynomial pieces
-/

set_option linter.unusedSectionVars false

namespace Verif

open Finset Polynomial

variable {K : Type*} [Field K] [LinearOrder K]

theorem dmul_eq (d : ℕ) : ∀ i : ℕ, d ≤ i → dmul (i : ℤ) d = (i.descFactorial d : ℤ) := by
  induction d with
  | zero => intro i _; simp [dmul]
  | succ d ih =>
    intro i hi
    cases d with
    | zero => simp [dmul]
    | succ d =>
      obtain ⟨i', rfl⟩ : ∃ i', i = i' + 1 := ⟨i - 1, by omega⟩
      have := ih i' (by omega)
      rw [dmul, Nat.succ_descFactorial_succ]
      push_cast
      rw [← this]
      simp

theorem iterate_derivative_comp_linear (Q : K[X]) (a b : K) (d : ℕ) :
    derivative^[d] (Q.comp (C a * X + C b)) = C (a ^ d) * (derivative^[d] Q).comp (C a * X + C b) := by
  induction d with
  | zero => simp
  | succ d ih =>
    rw [Function.iterate_succ_apply', ih, Function.iterate_succ_apply', derivative_C_mul,
      derivative_comp]
    simp only [derivative_add, derivative_mul, derivative_C, zero_mul, derivative_X, mul_one,
      zero_add, add_zero, pow_succ, C_mul]
    ring

/-- The weight vector `Mᵀ u` of the model is the derivative of the column polynomials. -/
theorem transposeMul_eq (kn : ℕ → K) (k i der c : ℕ) (uval : K) :
    BSpline.transposeMul k (basisM kn i k) (computeU kn k uval i der) c
      = (if 0 < kn (i + 1) - kn i then 1 / (kn (i + 1) - kn i) ^ der else 0) *
        (derivative^[der] (colPoly kn i k c)).eval uval := by
  unfold BSpline.transposeMul colPoly computeU
  rw [iterate_derivative_sum, eval_finsetSum, mul_sum]
  refine sum_congr rfl fun r hr => ?_
  rw [iterate_derivative_C_mul, iterate_derivative_X_pow_eq_natCast_mul]
  simp only [eval_mul, eval_C, eval_natCast, eval_pow, eval_X]
  by_cases h : der ≤ r
  · rw [if_pos ⟨h, mem_range.1 hr⟩, dmul_eq der r h]
    push_cast; ring
  · rw [if_neg (fun h' => h h'.1), Nat.descFactorial_of_lt (by omega)]
    simp

variable [IsStrictOrderedRing K]

theorem weight_eq_piece (kn : ℕ → K) (n i p der c : ℕ) (hm : MonoBelow kn n)
    (hlt : kn i < kn (i + 1)) (hp : p ≤ i) (hn : i + p + 1 < n) (hc : c ≤ p) (t : K) :
    BSpline.transposeMul (p + 1) (basisM kn i (p + 1))
        (computeU kn (p + 1) ((t - kn i) / (kn (i + 1) - kn i)) i der) c
      = (derivative^[der] (piece kn i p (i - p + c))).eval t := by
  have h0 : 0 < kn (i + 1) - kn i := by linarith
  rw [transposeMul_eq, if_pos h0, colPoly_eq_piece kn n i hm hlt p c hp hn hc,
    iterate_derivative_comp_linear]
  simp only [eval_mul, eval_C, eval_comp, eval_add, eval_X]
  have h1 : (kn (i + 1) - kn i) * ((t - kn i) / (kn (i + 1) - kn i)) + kn i = t := by
    field_simp; ring
  rw [h1]
  have := h0.ne'
  field_simp

namespace BSpline
variable {D : ℕ}

/-- Consistency of the data members of an initialised spline. -/
structure WF (s : BSpline K D) : Prop where
  order_pos : 2 ≤ s.order
  sorted : s.knots.Pairwise (· ≤ ·)
  enough : 2 * s.order ≤ s.knots.length
  coeffs_len : s.coeffs.length + s.order = s.knots.length
  basis_len : s.knots.length + 1 - 2 * s.order ≤ s.basis.length
  basis_eq : ∀ b B, b < s.knots.length + 1 - 2 * s.order → s.basis[b]? = some B →
    ∀ r, r < s.order → ∀ c, c < s.order →
      B r c = basisM s.kn (b + s.order - 1) s.order r c

omit [IsStrictOrderedRing K] in
theorem WF.mono {s : BSpline K D} (h : s.WF) : MonoBelow s.kn s.knots.length := by
  intro a b hab hb
  rcases hab.eq_or_lt with rfl | hlt
  · exact le_rfl
  have := List.pairwise_iff_getElem.1 h.sorted a b (by omega) hb hlt
  simpa [kn, List.getD_eq_getElem?_getD, List.getElem?_eq_getElem hb,
    List.getElem?_eq_getElem (show a < s.knots.length by omega)] using this

omit [IsStrictOrderedRing K] in
theorem kn_eq (s : BSpline K D) (i : ℕ) (hi : i < s.knots.length) : s.kn i = s.knots[i] := by
  simp [kn, List.getD_eq_getElem?_getD, List.getElem?_eq_getElem hi]

omit [IsStrictOrderedRing K] in
theorem tMin_eq {s : BSpline K D} (h : s.WF) : s.tMin = .ok (s.kn (s.order - 1)) := by
  unfold tMin minimumKnotsRequired numKnotsRequired numCoefficientsRequired
  have := h.enough
  rw [if_neg (by omega)]

omit [IsStrictOrderedRing K] in
theorem tMax_eq {s : BSpline K D} (h : s.WF) : s.tMax = .ok (s.kn (s.knots.length - s.order)) := by
  unfold tMax minimumKnotsRequired numKnotsRequired numCoefficientsRequired
  have := h.enough
  rw [if_neg (by omega)]

omit [Field K] [IsStrictOrderedRing K] in
theorem upperBound_spec (l : List K) (hl : l.Pairwise (· ≤ ·)) (t : K) (j : ℕ) (hj : j < l.length) :
    j < upperBound l t ↔ l[j] ≤ t := by
  unfold upperBound
  constructor
  · intro h
    have := List.not_of_lt_findIdx h
    simpa using this
  · intro h
    by_contra hcon
    have hle : l.findIdx (fun x => decide (t < x)) ≤ j := not_lt.1 hcon
    have hlt : l.findIdx (fun x => decide (t < x)) < l.length := by omega
    have h1 : t < l[l.findIdx (fun x => decide (t < x))] := by
      have := List.findIdx_getElem (w := hlt)
      simpa using this
    rcases hle.eq_or_lt with he | hl'
    · simp only [he] at h1
      exact absurd h (not_le.2 h1)
    · have := List.pairwise_iff_getElem.1 hl _ j hlt hj hl'
      exact absurd (lt_of_lt_of_le h1 this) (not_lt.2 h)

/-- Lookup of a time not within `1e-10` of the end. -/
theorem lookup_interior {s : BSpline K D} (h : s.WF) (t : K) (h1 : s.kn (s.order - 1) ≤ t)
    (h2 : t + snapTol ≤ s.kn (s.knots.length - s.order)) :
    ∃ i, s.computeTIndex t = .ok (s.kn (i + 1) - s.kn i, i) ∧ s.order - 1 ≤ i ∧
      i + 1 ≤ s.knots.length - s.order ∧ s.kn i ≤ t ∧ t < s.kn (i + 1) := by
  have hk := h.order_pos
  have hn := h.enough
  have htol : (0 : K) < snapTol := by unfold snapTol; positivity
  unfold computeTIndex
  rw [tMin_eq h, tMax_eq h]
  simp only [Outcome.bind_ok]
  set tmax := s.kn (s.knots.length - s.order) with htm
  have hlt : t < tmax := by linarith
  have habs : ¬ |tmax - t| < snapTol := by
    rw [abs_of_pos (by linarith)]; intro h'; linarith
  rw [if_neg (not_lt.2 h1)]
  simp only [habs, if_false]
  rw [if_neg (not_lt.2 hlt.le), if_neg hlt.ne]
  set ub := upperBound s.knots t with hub
  have hspec := upperBound_spec s.knots h.sorted t
  have hub1 : s.order - 1 < ub := by
    rw [hspec _ (by omega), ← kn_eq s _ (by omega)]; exact h1
  have hub2 : ub ≤ s.knots.length - s.order := by
    by_contra hcon
    have := (hspec (s.knots.length - s.order) (by omega)).1 (by omega)
    rw [← kn_eq s _ (by omega)] at this
    exact absurd hlt (not_lt.2 this)
  rw [if_neg (by omega)]
  have hlen : ub < s.knots.length := by omega
  rw [List.getElem?_eq_getElem hlen, List.getElem?_eq_getElem (show ub - 1 < s.knots.length by omega)]
  refine ⟨ub - 1, ?_, by omega, by omega, ?_, ?_⟩
  · simp only []
    rw [← kn_eq s _ hlen, ← kn_eq s _ (show ub - 1 < s.knots.length by omega)]
    rw [show ub - 1 + 1 = ub by omega]
  · rw [kn_eq s _ (by omega)]
    exact (hspec _ (by omega)).1 (by omega)
  · rw [show ub - 1 + 1 = ub by omega, kn_eq s _ hlen]
    by_contra hcon
    exact lt_irrefl _ ((hspec ub hlen).2 (not_lt.1 hcon))

/-- Lookup of a time within `1e-10` of the end. -/
theorem lookup_end {s : BSpline K D} (h : s.WF) (t : K) (h1 : s.kn (s.order - 1) ≤ t)
    (h2 : |s.kn (s.knots.length - s.order) - t| < snapTol) :
    s.computeTIndex t = .ok (s.kn (s.knots.length - s.order) - s.kn (s.knots.length - s.order - 1),
      s.knots.length - s.order - 1) := by
  have hk := h.order_pos
  have hn := h.enough
  unfold computeTIndex
  rw [tMin_eq h, tMax_eq h]
  simp only [Outcome.bind_ok]
  rw [if_neg (not_lt.2 h1)]
  simp only [h2, if_true]
  rw [if_neg (lt_irrefl _), if_neg (by omega)]
  rw [List.getElem?_eq_getElem (show s.knots.length - s.order < s.knots.length by omega),
    List.getElem?_eq_getElem (show s.knots.length - s.order - 1 < s.knots.length by omega)]
  simp only []
  rw [← kn_eq, ← kn_eq]

/-- A time of the valid interval for which the code's `1e-10` rule at the end is harmless: either
the time is at least `1e-10` before the end, or it lies in the last segment, which has positive
width. -/
def Admissible (s : BSpline K D) (t : K) : Prop :=
  s.kn (s.order - 1) ≤ t ∧ t ≤ s.kn (s.knots.length - s.order) ∧
    (t + snapTol ≤ s.kn (s.knots.length - s.order) ∨
      (s.kn (s.knots.length - s.order - 1) ≤ t ∧
        s.kn (s.knots.length - s.order - 1) < s.kn (s.knots.length - s.order)))

/-- The knot interval number `i` is the segment the time `t` falls into. -/
structure InSegment (s : BSpline K D) (t : K) (i : ℕ) : Prop where
  lower : s.order - 1 ≤ i
  upper : i + 1 ≤ s.knots.length - s.order
  pos : s.kn i < s.kn (i + 1)
  left : s.kn i ≤ t
  right : t < s.kn (i + 1) ∨ (t = s.kn (i + 1) ∧ i + 1 = s.knots.length - s.order)

theorem InSegment.le {s : BSpline K D} {t : K} {i : ℕ} (h : s.InSegment t i) : t ≤ s.kn (i + 1) := by
  rcases h.right with h | h
  · exact h.le
  · exact h.1.le

theorem lookup {s : BSpline K D} (h : s.WF) (t : K) (ha : s.Admissible t) :
    ∃ i, s.computeTIndex t = .ok (s.kn (i + 1) - s.kn i, i) ∧ s.InSegment t i := by
  obtain ⟨h1, h2, h3⟩ := ha
  have hk := h.order_pos
  have hn := h.enough
  have key : t + snapTol ≤ s.kn (s.knots.length - s.order) →
      ∃ i, s.computeTIndex t = .ok (s.kn (i + 1) - s.kn i, i) ∧ s.InSegment t i := by
    intro h3
    obtain ⟨i, e, a, b, c, d⟩ := lookup_interior h t h1 h3
    exact ⟨i, e, a, b, lt_of_le_of_lt c d, c, Or.inl d⟩
  rcases h3 with h3 | ⟨h3, h4⟩
  · exact key h3
  · by_cases hs : t + snapTol ≤ s.kn (s.knots.length - s.order)
    · exact key hs
    · have habs : |s.kn (s.knots.length - s.order) - t| < snapTol := by
        rw [abs_of_nonneg (by linarith)]; linarith [not_le.1 hs]
      have hi : s.knots.length - s.order - 1 + 1 = s.knots.length - s.order := by omega
      refine ⟨s.knots.length - s.order - 1, ?_, by omega, by omega, ?_, h3, ?_⟩
      · rw [lookup_end h t h1 habs, hi]
      · rw [hi]; exact h4
      · rw [hi]
        rcases h2.eq_or_lt with h2 | h2
        · exact Or.inr ⟨h2, rfl⟩
        · exact Or.inl h2

/-- The polynomial that component `d` of the curve follows on knot interval `i`. -/
noncomputable def segPoly (s : BSpline K D) (i : ℕ) (d : Fin D) : K[X] :=
  ∑ j ∈ range s.coeffs.length, C (s.col j d) * piece s.kn i (s.order - 1) j

omit [LinearOrder K] [IsStrictOrderedRing K] in
theorem sum_local {M : Type*} [AddCommMonoid M] (C' i p : ℕ) (f : ℕ → M) (hp : p ≤ i) (hC : i < C')
    (hz : ∀ j, j < C' → (j < i - p ∨ i < j) → f j = 0) :
    ∑ c ∈ range (p + 1), f (i - p + c) = ∑ j ∈ range C', f j := by
  symm
  have : ∑ j ∈ range C', f j = ∑ j ∈ Ico (i - p) (i + 1), f j := by
    symm
    apply sum_subset
    · intro x hx; simp at hx ⊢; omega
    · intro x hx hx'; simp at hx hx'; exact hz x hx (by omega)
  rw [this, sum_Ico_eq_sum_range]
  rw [show i + 1 - (i - p) = p + 1 by omega]

theorem blockAt_ok {s : BSpline K D} (h : s.WF) (i : ℕ) (h1 : s.order - 1 ≤ i)
    (h2 : i + 1 ≤ s.knots.length - s.order) :
    ∃ B, s.blockAt i = .ok (i + 1 - s.order, B) ∧ s.basis[i + 1 - s.order]? = some B ∧
      ∀ r, r < s.order → ∀ c, c < s.order → B r c = basisM s.kn i s.order r c := by
  have hk := h.order_pos
  have hn := h.enough
  have hc := h.coeffs_len
  have hb := h.basis_len
  have hlt : i + 1 - s.order < s.basis.length := by omega
  refine ⟨s.basis[i + 1 - s.order], ?_, List.getElem?_eq_getElem hlt, ?_⟩
  · unfold blockAt
    rw [if_neg (by omega)]
    simp only [List.getElem?_eq_getElem hlt]
    rw [if_pos (by omega)]
  · intro r hr c hc'
    rw [h.basis_eq _ _ (by omega) (List.getElem?_eq_getElem hlt) r hr c hc']
    congr 1; omega

/-- The local weights of the model at a time of segment `i`. -/
theorem weights_eq {s : BSpline K D} (h : s.WF) (t : K) (i der : ℕ) (h1 : s.order - 1 ≤ i)
    (h2 : i + 1 ≤ s.knots.length - s.order) (hlt : s.kn i < s.kn (i + 1)) (B : Mat K)
    (hB : ∀ r, r < s.order → ∀ c, c < s.order → B r c = basisM s.kn i s.order r c)
    (c : ℕ) (hc : c < s.order) :
    transposeMul s.order B (computeU s.kn s.order ((t - s.kn i) / (s.kn (i + 1) - s.kn i)) i der) c
      = (derivative^[der] (piece s.kn i (s.order - 1) (i + 1 - s.order + c))).eval t := by
  have hk := h.order_pos
  have hn := h.enough
  have e : s.order = s.order - 1 + 1 := by omega
  have : transposeMul s.order B
        (computeU s.kn s.order ((t - s.kn i) / (s.kn (i + 1) - s.kn i)) i der) c
      = transposeMul s.order (basisM s.kn i s.order)
        (computeU s.kn s.order ((t - s.kn i) / (s.kn (i + 1) - s.kn i)) i der) c := by
    unfold transposeMul
    refine sum_congr rfl fun r hr => ?_
    rw [hB r (mem_range.1 hr) c hc]
  rw [this]
  have := weight_eq_piece s.kn s.knots.length i (s.order - 1) der c h.mono hlt h1 (by omega)
    (by omega) t
  rw [← e] at this
  rw [this]
  congr 4
  omega

theorem computeU_ok {s : BSpline K D} (t : K) (i : ℕ) (hlt : s.kn i < s.kn (i + 1))
    (hT : s.computeTIndex t = .ok (s.kn (i + 1) - s.kn i, i)) :
    s.computeUAndTIndex t = .ok ((t - s.kn i) / (s.kn (i + 1) - s.kn i), i) := by
  unfold computeUAndTIndex
  rw [hT]
  simp only [Outcome.bind_ok]
  rw [if_neg (by linarith)]

/-- Central fact: inside segment `i` every derivative query returns the derivative of the same
polynomial. -/
theorem evalDNat_eq {s : BSpline K D} (h : s.WF) (t : K) (i der : ℕ) (h1 : s.order - 1 ≤ i)
    (h2 : i + 1 ≤ s.knots.length - s.order) (hlt : s.kn i < s.kn (i + 1))
    (hT : s.computeTIndex t = .ok (s.kn (i + 1) - s.kn i, i)) :
    s.evalDNat t der = .ok (fun d => (derivative^[der] (s.segPoly i d)).eval t) := by
  have hk := h.order_pos
  have hn := h.enough
  have hc := h.coeffs_len
  obtain ⟨B, hB, -, hBe⟩ := blockAt_ok h i h1 h2
  unfold evalDNat
  rw [computeU_ok t i hlt hT]
  simp only [Outcome.bind_ok, hB]
  congr 1
  funext d
  unfold blockMul segPoly
  rw [iterate_derivative_sum, eval_finsetSum]
  have e : s.order = s.order - 1 + 1 := by omega
  have step : ∀ c ∈ range s.order, s.col (i + 1 - s.order + c) d *
      transposeMul s.order B
        (computeU s.kn s.order ((t - s.kn i) / (s.kn (i + 1) - s.kn i)) i der) c
      = (fun j => (derivative^[der] (C (s.col j d) * piece s.kn i (s.order - 1) j)).eval t)
          (i - (s.order - 1) + c) := by
    intro c hc'
    rw [weights_eq h t i der h1 h2 hlt B hBe c (mem_range.1 hc')]
    simp only [iterate_derivative_C_mul, eval_mul, eval_C]
    rw [show i + 1 - s.order + c = i - (s.order - 1) + c by omega]
  rw [sum_congr rfl step]
  have := sum_local s.coeffs.length i (s.order - 1)
    (fun j => (derivative^[der] (C (s.col j d) * piece s.kn i (s.order - 1) j)).eval t) h1 (by omega)
    (by
      intro j _ hj
      have : piece s.kn i (s.order - 1) j = 0 := by
        rcases hj with hj | hj
        · exact piece_zero_of_gt _ _ _ _ (by omega)
        · exact piece_zero_of_lt _ _ _ _ hj
      simp [this])
  rw [← this, ← e]

theorem evalDNat_admissible {s : BSpline K D} (h : s.WF) (t : K) (ha : s.Admissible t) :
    ∃ i, s.InSegment t i ∧ s.computeTIndex t = .ok (s.kn (i + 1) - s.kn i, i) ∧
      ∀ der, s.evalDNat t der = .ok (fun d => (derivative^[der] (s.segPoly i d)).eval t) := by
  obtain ⟨i, hT, hi⟩ := lookup h t ha
  exact ⟨i, hi, hT, fun der => evalDNat_eq h t i der hi.lower hi.upper hi.pos hT⟩

end BSpline
end Verif
