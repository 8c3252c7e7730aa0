import Verif.Lemmas.Append
import Verif.Lemmas.LeastSquares
import Verif.Props.Fit

/-!
# C14, C51: appending a segment
-/

set_option linter.unusedSectionVars false

namespace Verif

open Finset Polynomial BSpline

variable {K : Type*} [Field K] [LinearOrder K] [IsStrictOrderedRing K] {D : ℕ}

theorem Extended.w_left_last {s s1 : BSpline K D} {t : K} {junk : Fin D → K} (e : Extended s s1 t junk) (h : s.WF) :
    endWeight s s1 0 (s.kn (s.knots.length - s.order)) (s.order - 1) = 0 := by
  have hk := h.order_pos
  have hn := h.enough
  unfold endWeight
  rw [Function.iterate_zero, id, show s.knots.length - s.order + 1 - s.order + (s.order - 1) = s.knots.length - s.order by omega,
    ← e.old _ le_rfl]
  exact piece_last_left _ _ _ (by omega)

theorem Extended.w_left_second {s s1 : BSpline K D} {t : K} {junk : Fin D → K} (e : Extended s s1 t junk) (h : s.WF)
    (hlast : s.kn (s.knots.length - s.order - 1) < s.kn (s.knots.length - s.order))
    (ht : s.kn (s.knots.length - s.order) < t) :
    0 < endWeight s s1 0 (s.kn (s.knots.length - s.order)) (s.order - 2) := by
  have hk := h.order_pos
  have hn := h.enough
  obtain ⟨e1, e2, hlt⟩ := e.seg_lt h ht
  unfold endWeight
  rw [Function.iterate_zero, id, show s.knots.length - s.order + 1 - s.order + (s.order - 2) = s.knots.length - s.order - 1 by omega,
    ← e.old _ le_rfl]
  refine piece_second_left s1.kn s1.knots.length _ e.wf.mono (by omega) ?_ hlt _ (by omega) (by rw [e.len]; omega)
  rw [e.old _ le_rfl, e.old _ (by omega)]
  exact hlast

theorem Extended.w_right_last {s s1 : BSpline K D} {t : K} {junk : Fin D → K} (e : Extended s s1 t junk) (h : s.WF)
    (ht : s.kn (s.knots.length - s.order) < t) :
    0 < endWeight s s1 0 t (s.order - 1) := by
  have hk := h.order_pos
  have hn := h.enough
  obtain ⟨e1, e2, hlt⟩ := e.seg_lt h ht
  unfold endWeight
  rw [Function.iterate_zero, id, show s.knots.length - s.order + 1 - s.order + (s.order - 1) = s.knots.length - s.order by omega,
    ← e2]
  exact piece_last_right s1.kn s1.knots.length _ e.wf.mono hlt _ (by rw [e.len]; omega)

/-- The interpolation equations determine the last two coefficients. -/
theorem ends_injective {s s1 : BSpline K D} {t : K} {junk : Fin D → K} (e : Extended s s1 t junk) (h : s.WF)
    (hlast : s.kn (s.knots.length - s.order - 1) < s.kn (s.knots.length - s.order))
    (ht : s.kn (s.knots.length - s.order) < t) (a b : K)
    (h0 : endWeight s s1 0 (s.kn (s.knots.length - s.order)) (s.order - 2) * a
      + endWeight s s1 0 (s.kn (s.knots.length - s.order)) (s.order - 1) * b = 0)
    (h1 : endWeight s s1 0 t (s.order - 2) * a + endWeight s s1 0 t (s.order - 1) * b = 0) : a = 0 ∧ b = 0 := by
  rw [e.w_left_last h, zero_mul, add_zero] at h0
  have ha : a = 0 := (mul_eq_zero.1 h0).resolve_left (e.w_left_second h hlast ht).ne'
  subst ha
  rw [mul_zero, zero_add] at h1
  exact ⟨rfl, (mul_eq_zero.1 h1).resolve_left (e.w_right_last h ht).ne'⟩

/-- If the two interpolation equations hold the result takes the two end values. -/
theorem append_values {s s1 : BSpline K D} {t : K} {junk : Fin D → K} (e : Extended s s1 t junk) (h : s.WF)
    (ht : s.kn (s.knots.length - s.order) < t) (τ : K) (hτ1 : s.kn (s.knots.length - s.order) ≤ τ) (hτ2 : τ ≤ t)
    (x : ℕ → K) (p : Fin D → K)
    (hx : ∀ d : Fin D, endWeight s s1 0 τ (s.order - 2) * x d + endWeight s s1 0 τ (s.order - 1) * x (D + d)
      = p d - ∑ c ∈ range (s.order - 2), endWeight s s1 0 τ c * s.col (s.knots.length - s.order + 1 - s.order + c) d) :
    (s1.storeLastTwo x).eval τ = .ok p := by
  show (s1.storeLastTwo x).evalD τ ((0 : ℕ) : ℤ) = _
  unfold evalD
  rw [if_neg (by omega), Int.toNat_natCast, e.eval_new h ht τ hτ1 hτ2]
  congr 1
  funext d
  have := hx d
  have e1 : ∑ c ∈ range (s.order - 2), s.col (s.knots.length - s.order + 1 - s.order + c) d * endWeight s s1 0 τ c
      = ∑ c ∈ range (s.order - 2), endWeight s s1 0 τ c * s.col (s.knots.length - s.order + 1 - s.order + c) d :=
    sum_congr rfl fun c _ => mul_comm _ _
  rw [e1]
  linear_combination this

theorem append_interval {s s1 : BSpline K D} {t : K} {junk : Fin D → K} (e : Extended s s1 t junk) (h : s.WF)
    (ht : s.kn (s.knots.length - s.order) < t) (x : ℕ → K) :
    (s1.storeLastTwo x).numValidTimeSegments = s.numValidTimeSegments + 1 ∧
      (s1.storeLastTwo x).tMin = s.tMin ∧ (s1.storeLastTwo x).tMax = .ok t := by
  have hk := h.order_pos
  have hn := h.enough
  have hw := storeLastTwo_wf e.wf x
  obtain ⟨e1, e2, hlt⟩ := e.seg_lt h ht
  refine ⟨?_, ?_, ?_⟩
  · show s1.knots.length + 1 - 2 * s1.order = s.knots.length + 1 - 2 * s.order + 1
    rw [e.len, e.order]; omega
  · rw [tMin_eq hw, tMin_eq h]
    show Outcome.ok (s1.kn (s1.order - 1)) = _
    rw [e.order, e.old _ (by omega)]
  · rw [tMax_eq hw]
    show Outcome.ok (s1.kn (s1.knots.length - s1.order)) = _
    rw [e.len, e.order, show s.knots.length + 1 - s.order = s.knots.length - s.order + 1 by omega, e2]

/-- The solution of the interpolation system. -/
theorem addCurveSegment_ok (solve : Solver K) (hsolve : SolvesRegular solve) {s : BSpline K D} (h : s.WF)
    (hlast : s.kn (s.knots.length - s.order - 1) < s.kn (s.knots.length - s.order)) (t : K)
    (ht : s.kn (s.knots.length - s.order) < t) (p1 junk : Fin D → K) :
    ∃ s1 p0 x, s.addCurveSegment solve t p1 junk = .ok (s1.storeLastTwo x) ∧
      s.eval (s.kn (s.knots.length - s.order)) = .ok p0 ∧ Extended s s1 t junk ∧
      s.extend t junk = .ok (s1, p0, s.kn (s.knots.length - s.order), t) ∧
      (∀ d : Fin D, endWeight s s1 0 (s.kn (s.knots.length - s.order)) (s.order - 2) * x d
          + endWeight s s1 0 (s.kn (s.knots.length - s.order)) (s.order - 1) * x (D + d)
        = p0 d - ∑ c ∈ range (s.order - 2), endWeight s s1 0 (s.kn (s.knots.length - s.order)) c
            * s.col (s.knots.length - s.order + 1 - s.order + c) d) ∧
      (∀ d : Fin D, endWeight s s1 0 t (s.order - 2) * x d + endWeight s s1 0 t (s.order - 1) * x (D + d)
        = p1 d - ∑ c ∈ range (s.order - 2), endWeight s s1 0 t c
            * s.col (s.knots.length - s.order + 1 - s.order + c) d) := by
  have hk := h.order_pos
  have hn := h.enough
  obtain ⟨s1, p0, hext, hp0, e⟩ := extend_ok h t ht junk
  obtain ⟨loc, hloc, hlocE⟩ := e.fixed_eq h ht
  obtain ⟨w0, hP0, hw0⟩ := e.phi_eq h ht _ le_rfl ht.le 0
  obtain ⟨w1, hP1, hw1⟩ := e.phi_eq h ht t ht.le le_rfl 0
  have hP0' : s1.phi (s.kn (s.knots.length - s.order)) 0 = .ok (identityBlocks D w0) := hP0
  have hP1' : s1.phi t 0 = .ok (identityBlocks D w1) := hP1
  unfold addCurveSegment
  rw [hext]
  simp only [Outcome.bind_ok]
  rw [hloc]
  simp only [Outcome.bind_ok]
  rw [hP0', hP1']
  simp only [Outcome.bind_ok]
  set rows : List (BlockRow K D) := [endRow (D * (s.order - 2)) 1 (identityBlocks D w0) p0 (fun q => loc.getD q 0) true,
    endRow (D * (s.order - 2)) 1 (identityBlocks D w1) p1 (fun q => loc.getD q 0) true] with hrows
  have ek : s.order - 2 + 1 = s.order - 1 := by omega
  have m0 : ∀ (x : ℕ → K) (d : Fin D), mulV (2 * D) (rowsMat (2 * D) rows) x (0 * D + d)
      = endWeight s s1 0 (s.kn (s.knots.length - s.order)) (s.order - 2) * x d
        + endWeight s s1 0 (s.kn (s.knots.length - s.order)) (s.order - 1) * x (D + d) := by
    intro x d
    rw [endRow_mul rows 0 (s.order - 2) w0 1 p0 _ true rfl x d, one_mul, ek, hw0 _ (by omega), hw0 _ (by omega)]
  have m1 : ∀ (x : ℕ → K) (d : Fin D), mulV (2 * D) (rowsMat (2 * D) rows) x (1 * D + d)
      = endWeight s s1 0 t (s.order - 2) * x d + endWeight s s1 0 t (s.order - 1) * x (D + d) := by
    intro x d
    rw [endRow_mul rows 1 (s.order - 2) w1 1 p1 _ true rfl x d, one_mul, ek, hw1 _ (by omega), hw1 _ (by omega)]
  have hinj : ∀ x : ℕ → K, (∀ r < 2 * D, mulV (2 * D) (rowsMat (2 * D) rows) x r = 0) → ∀ q < 2 * D, x q = 0 := by
    intro x hx q hq
    obtain ⟨j, hj, d, rfl⟩ := two_blocks q 2 hq
    have hd := d.2
    have h0 := hx (0 * D + d) (by omega)
    have h1 := hx (1 * D + d) (by omega)
    rw [m0] at h0
    rw [m1] at h1
    obtain ⟨a, b⟩ := ends_injective e h hlast ht _ _ h0 h1
    interval_cases j
    · simpa using a
    · simpa using b
  have hsol := hsolve (2 * D) _ (rowsVec rows) hinj
  refine ⟨s1, p0, _, rfl, hp0, e, rfl, ?_, ?_⟩
  · intro d
    have hd := d.2
    have := hsol (0 * D + d) (by omega)
    rw [m0, endRow_vec rows 0 (s.order - 2) w0 1 p0 _ true rfl d, if_pos rfl] at this
    rw [this]
    congr 1
    refine sum_congr rfl fun c hc => ?_
    have := mem_range.1 hc
    rw [hw0 c (by omega), hlocE c this d]
  · intro d
    have hd := d.2
    have := hsol (1 * D + d) (by omega)
    rw [m1, endRow_vec rows 1 (s.order - 2) w1 1 p1 _ true rfl d, if_pos rfl] at this
    rw [this]
    congr 1
    refine sum_congr rfl fun c hc => ?_
    have := mem_range.1 hc
    rw [hw1 c (by omega), hlocE c this d]

/-! ### C14 -/

/-- **C14**, first part: after appending a segment ending at `t` with value `p` the valid interval ends at `t`, the curve has
value `p` there, and keeps its former value at its former end. -/
theorem C14_append (solve : Solver K) (hsolve : SolvesRegular solve) (s : BSpline K D) (h : s.WF) (b : K)
    (hb : s.tMax = .ok b) (hlast : s.kn (s.knots.length - s.order - 1) < b) (t : K) (ht : b < t) (p junk : Fin D → K) :
    ∃ s' p0, s.addCurveSegment solve t p junk = .ok s' ∧ s'.WF ∧ s'.order = s.order ∧
      s'.numValidTimeSegments = s.numValidTimeSegments + 1 ∧ s'.tMin = s.tMin ∧ s'.tMax = .ok t ∧
      s'.eval t = .ok p ∧ s.eval b = .ok p0 ∧ s'.eval b = .ok p0 := by
  rw [tMax_eq h] at hb
  obtain rfl := Outcome.ok.inj hb
  obtain ⟨s1, p0, x, hok, hp0, e, -, hx0, hx1⟩ := addCurveSegment_ok solve hsolve h hlast t ht p junk
  obtain ⟨a1, a2, a3⟩ := append_interval e h ht x
  exact ⟨_, p0, hok, storeLastTwo_wf e.wf x, e.order, a1, a2, a3, append_values e h ht t ht.le le_rfl x p hx1, hp0,
    append_values e h ht _ le_rfl ht.le x p0 hx0⟩

/-- **C14**: an end time that is not past the end is refused. -/
theorem C14_rejects (solve : Solver K) (s : BSpline K D) (b : K) (hb : s.tMax = .ok b) (t : K) (ht : t ≤ b)
    (p junk : Fin D → K) : s.addCurveSegment solve t p junk = .throws := by
  unfold addCurveSegment extend
  rw [hb]
  simp only [Outcome.bind_ok]
  rw [if_pos ht]
  rfl

/-- A segment whose knots and coefficients are kept is not changed. -/
theorem append_segment_kept {s s1 : BSpline K D} {t : K} {junk : Fin D → K} (e : Extended s s1 t junk) (h : s.WF)
    (ht : s.kn (s.knots.length - s.order) < t) (x : ℕ → K) (i : ℕ)
    (hkn : ∀ m, m ≤ i + (s.order - 1) → s1.kn m = s.kn m)
    (hx : i + 2 ≤ s.knots.length - s.order ∨ ∀ d : Fin D, x d = s.col (s.knots.length - s.order - 1) d)
    (τ : K) (ha : s.Admissible τ) (hi : s.InSegment τ i) (hτ : τ < s.kn (s.knots.length - s.order))
    (hτt : τ + snapTol ≤ t) (der : ℤ) :
    (s1.storeLastTwo x).evalD τ der = s.evalD τ der := by
  have hk := h.order_pos
  have hn := h.enough
  have hc := h.coeffs_len
  have hw := storeLastTwo_wf e.wf x
  have hup := hi.upper
  have hlo := hi.lower
  have hlast : (s1.storeLastTwo x).knots.length - (s1.storeLastTwo x).order = s.knots.length - s.order + 1 := by
    show s1.knots.length - s1.order = _
    rw [e.len, e.order]; omega
  obtain ⟨e1, e2, hlt⟩ := e.seg_lt h ht
  have hkn' : ∀ m, m ≤ i + (s.order - 1) → (s1.storeLastTwo x).kn m = s.kn m := hkn
  have hord : (s1.storeLastTwo x).order = s.order := e.order
  have ha' : (s1.storeLastTwo x).Admissible τ := by
    unfold Admissible
    rw [hlast, hord]
    have hE : (s1.storeLastTwo x).kn (s.knots.length - s.order + 1) = t := e2
    rw [hkn' (s.order - 1) (by omega), hE]
    exact ⟨ha.1, by linarith, Or.inl hτt⟩
  have hi' : (s1.storeLastTwo x).InSegment τ i := by
    refine ⟨by rw [hord]; exact hi.lower, by rw [hlast]; omega, ?_, ?_, ?_⟩
    · rw [hkn' i (by omega), hkn' (i + 1) (by omega)]; exact hi.pos
    · rw [hkn' i (by omega)]; exact hi.left
    · rw [hkn' (i + 1) (by omega)]
      rcases hi.right with hr | hr
      · exact Or.inl hr
      · rw [hr.2] at hr; exact absurd hr.1 hτ.ne
  unfold evalD
  split_ifs
  · rfl
  rw [evalDNat_of_inSegment hw ha' hi', evalDNat_of_inSegment h ha hi]
  congr 1
  funext d
  have L := sum_local_eq hw i hi'.lower hi'.upper der.toNat τ (fun j => (s1.storeLastTwo x).col j d)
  have R := sum_local_eq h i hi.lower hi.upper der.toNat τ (fun j => s.col j d)
  rw [← L, ← R, hord]
  refine sum_congr rfl fun c hc' => ?_
  have hc'' := mem_range.1 hc'
  rw [piece_congr_local (s1.storeLastTwo x).kn s.kn i (s.order - 1) hkn', storeLastTwo_col e h x _ (by omega),
    if_neg (by omega)]
  split_ifs with hj
  · rcases hx with hx | hx
    · omega
    · rw [hx d, hj]
  · rfl

/-- If the knots are kept except for the last one the last segment depends on, and the former end value is kept, then the
polynomial of the last old segment is kept. -/
theorem last_segment_kept {s s1 : BSpline K D} {t : K} {junk : Fin D → K} (e : Extended s s1 t junk) (h : s.WF)
    (hlast : s.kn (s.knots.length - s.order - 1) < s.kn (s.knots.length - s.order))
    (ht : s.kn (s.knots.length - s.order) < t) (x : ℕ → K)
    (hkn : ∀ m, m + 2 < s.knots.length → s1.kn m = s.kn m) (p0 : Fin D → K)
    (hp0 : s.eval (s.kn (s.knots.length - s.order)) = .ok p0)
    (hp0' : (s1.storeLastTwo x).eval (s.kn (s.knots.length - s.order)) = .ok p0) (d : Fin D) :
    (s1.storeLastTwo x).segPoly (s.knots.length - s.order - 1) d = s.segPoly (s.knots.length - s.order - 1) d := by
  have hk := h.order_pos
  have hn := h.enough
  have hc := h.coeffs_len
  have hw := storeLastTwo_wf e.wf x
  obtain ⟨e1, e2, hlt⟩ := e.seg_lt h ht
  obtain ⟨i, hi⟩ : ∃ i, s.knots.length - s.order = i + 1 := ⟨s.knots.length - s.order - 1, by omega⟩
  obtain ⟨p, hp⟩ : ∃ p, s.order = p + 2 := ⟨s.order - 2, by omega⟩
  have hord : (s1.storeLastTwo x).order = s.order := e.order
  have hlen' : (s1.storeLastTwo x).knots.length = s.knots.length + 1 := e.len
  have hknS : (s1.storeLastTwo x).kn = s1.kn := rfl
  have hclen' := hw.coeffs_len
  have hei : s.knots.length - s.order - 1 = i := by omega
  rw [hei]
  rw [hei] at hlast
  rw [hi] at hlast ht hp0 hp0' e1 e2 hlt
  have hs1i : s1.kn i = s.kn i := e.old i (by omega)
  -- the polynomials in local form
  have L : (s1.storeLastTwo x).segPoly i d = ∑ j ∈ Ico (i - (p + 1)) (i + 1),
      C ((s1.storeLastTwo x).col j d) * piece s1.kn i (p + 1) j := by
    have := segPoly_local hw i (by rw [hord]; omega) (by rw [hord, hlen']; omega) (fun j => (s1.storeLastTwo x).col j d)
    rw [hord, hp, show p + 2 - 1 = p + 1 by omega] at this
    unfold segPoly
    rw [hord, hp, show p + 2 - 1 = p + 1 by omega]
    exact this
  have R : s.segPoly i d = ∑ j ∈ Ico (i - (p + 1)) (i + 1), C (s.col j d) * piece s.kn i (p + 1) j := by
    have := segPoly_local h i (by omega) (by omega) (fun j => s.col j d)
    rw [hp, show p + 2 - 1 = p + 1 by omega] at this
    unfold segPoly
    rw [hp, show p + 2 - 1 = p + 1 by omega]
    exact this
  obtain ⟨i', rfl⟩ : ∃ i', i = i' + 1 := ⟨i - 1, by omega⟩
  -- pieces of the two knot vectors
  have hsplit : ∀ f : ℕ → K[X], ∑ j ∈ Ico (i' + 1 - (p + 1)) (i' + 1 + 1), f j
      = ∑ j ∈ Ico (i' - p) i', f j + f i' + f (i' + 1) := by
    intro f
    rw [sum_Ico_succ_top (by omega), sum_Ico_succ_top (by omega), show i' + 1 - (p + 1) = i' - p by omega]
  have hQ : ∀ j, j < i' → piece s1.kn (i' + 1) (p + 1) j = piece s.kn (i' + 1) (p + 1) j := fun j hj =>
    piece_congr_support _ _ _ _ _ (fun m hm => hkn m (by omega))
  have hone : ∑ j ∈ Ico (i' + 1 - (p + 1)) (i' + 1 + 1), piece s.kn (i' + 1) (p + 1) j = 1 :=
    piece_sum_one s.kn s.knots.length (i' + 1) h.mono hlast (p + 1) (by omega) (by omega)
  have hone1 : ∑ j ∈ Ico (i' + 1 - (p + 1)) (i' + 1 + 1), piece s1.kn (i' + 1) (p + 1) j = 1 :=
    piece_sum_one s1.kn s1.knots.length (i' + 1) e.wf.mono (by rw [hs1i, e1]; exact hlast) (p + 1) (by omega)
      (by rw [e.len]; omega)
  rw [hsplit] at hone hone1
  rw [sum_congr rfl fun j hj => hQ j (mem_Ico.1 hj).2] at hone1
  have hscale : ∃ ρ, piece s1.kn (i' + 1) (p + 1) (i' + 1) = C ρ * piece s.kn (i' + 1) (p + 1) (i' + 1) := by
    refine ⟨_, piece_last_scale s1.kn s.kn (i' + 1) p (fun m hm => hkn m (by omega)) ?_ ?_⟩
    · have := e.wf.mono (i' + 1 + 1) (i' + 1 + p + 1) (by omega) (by rw [e.len]; omega)
      rw [e1] at this
      rw [hs1i]
      intro h0
      linarith
    · have := h.mono (i' + 1 + 1) (i' + 1 + p + 1) (by omega) (by omega)
      rw [hs1i]
      intro h0
      linarith
  obtain ⟨ρ, hρ⟩ := hscale
  have hcol : ∀ j, j ≤ i' → (s1.storeLastTwo x).col j d = s.col j d := by
    intro j hj
    rw [storeLastTwo_col e h x j (by omega) d, if_neg (by omega), if_neg (by omega)]
  set δ : K := s.col i' d - s.col i' d * ρ + (s1.storeLastTwo x).col (i' + 1) d * ρ - s.col (i' + 1) d with hδ
  have hdiff : (s1.storeLastTwo x).segPoly (i' + 1) d = s.segPoly (i' + 1) d
      + C δ * piece s.kn (i' + 1) (p + 1) (i' + 1) := by
    rw [L, R, hsplit, hsplit, sum_congr rfl fun j hj => by rw [hQ j (mem_Ico.1 hj).2, hcol j (mem_Ico.1 hj).2.le],
      hcol i' le_rfl, hρ]
    have h2 : piece s1.kn (i' + 1) (p + 1) i' = piece s.kn (i' + 1) (p + 1) i' + piece s.kn (i' + 1) (p + 1) (i' + 1)
        - C ρ * piece s.kn (i' + 1) (p + 1) (i' + 1) := by
      rw [← hρ]; linear_combination hone1 - hone
    rw [h2, hδ]
    simp only [C_add, C_sub, C_mul]
    ring
  -- values at the join
  have hadm : s.Admissible (s.kn (i' + 1 + 1)) := by
    unfold Admissible
    rw [hi, Nat.add_sub_cancel]
    exact ⟨h.mono _ _ (by omega) (by omega), le_rfl, Or.inr ⟨hlast.le, hlast⟩⟩
  have hseg : s.InSegment (s.kn (i' + 1 + 1)) (i' + 1) :=
    ⟨by omega, by omega, hlast, hlast.le, Or.inr ⟨rfl, hi.symm⟩⟩
  have hv : (s.segPoly (i' + 1) d).eval (s.kn (i' + 1 + 1)) = p0 d := by
    have : s.eval (s.kn (i' + 1 + 1)) = s.evalDNat (s.kn (i' + 1 + 1)) 0 := rfl
    rw [this, evalDNat_of_inSegment h hadm hseg] at hp0
    have := congrFun (Outcome.ok.inj hp0) d
    rw [segPoly_eval, ← this]
    rfl
  have hv' : ((s1.storeLastTwo x).segPoly (i' + 1) d).eval (s.kn (i' + 1 + 1)) = p0 d := by
    have : (s1.storeLastTwo x).eval (s.kn (i' + 1 + 1)) = (s1.storeLastTwo x).evalDNat (s.kn (i' + 1 + 1)) 0 := rfl
    obtain ⟨hadm', hseg', -⟩ := e.lookup_ends h (by rw [hi]; exact ht) (s.kn (i' + 1 + 1)) (by rw [hi]) ht.le
    rw [hi] at hseg'
    have hadm'' : (s1.storeLastTwo x).Admissible (s.kn (i' + 1 + 1)) := hadm'
    have hseg'' : (s1.storeLastTwo x).InSegment (s.kn (i' + 1 + 1)) (i' + 1 + 1) :=
      ⟨hseg'.lower, hseg'.upper, hseg'.pos, hseg'.left, hseg'.right⟩
    rw [this, evalDNat_of_inSegment hw hadm'' hseg''] at hp0'
    have := congrFun (Outcome.ok.inj hp0') d
    rw [segPoly_eval, ← this, hord, hknS, hp, show p + 2 - 1 = p + 1 by omega]
    refine sum_congr rfl fun j _ => ?_
    have hj := piece_join_value s1.kn (i' + 1) 1 (s.kn (i' + 1 + 1)) (by rw [hs1i]; exact hlast)
      (by rw [e2]; exact ht)
      (fun l hl1 hl2 => by
        obtain rfl : l = i' + 1 + 1 := by omega
        exact e1) p j
    rw [show 1 + p = p + 1 by omega] at hj
    rw [hj]
    rfl
  have hpos : 0 < (piece s.kn (i' + 1) (p + 1) (i' + 1)).eval (s.kn (i' + 1 + 1)) :=
    piece_last_right s.kn s.knots.length _ h.mono hlast _ (by omega)
  have h0 := congrArg (fun q : K[X] => q.eval (s.kn (i' + 1 + 1))) hdiff
  simp only [eval_add, eval_mul, eval_C] at h0
  rw [hv, hv'] at h0
  have hd0 : δ = 0 := (mul_eq_zero.1 (by linear_combination -h0 : δ * _ = 0)).resolve_right hpos.ne'
  rw [hdiff, hd0, C_0, zero_mul, add_zero]

/-- The existing curve is preserved if the knots are kept as far as all but the last one of them that it depends on. -/
theorem append_curve_kept {s s1 : BSpline K D} {t : K} {junk : Fin D → K} (e : Extended s s1 t junk) (h : s.WF)
    (hlast : s.kn (s.knots.length - s.order - 1) < s.kn (s.knots.length - s.order))
    (ht : s.kn (s.knots.length - s.order) < t) (x : ℕ → K)
    (hkn : ∀ m, m + 2 < s.knots.length → s1.kn m = s.kn m) (p0 : Fin D → K)
    (hp0 : s.eval (s.kn (s.knots.length - s.order)) = .ok p0)
    (hp0' : (s1.storeLastTwo x).eval (s.kn (s.knots.length - s.order)) = .ok p0)
    (τ : K) (ha : s.Admissible τ) (hτ : τ < s.kn (s.knots.length - s.order)) (hτt : τ + snapTol ≤ t) (der : ℤ) :
    (s1.storeLastTwo x).evalD τ der = s.evalD τ der := by
  have hk := h.order_pos
  have hn := h.enough
  obtain ⟨i, hT, hi⟩ := lookup h τ ha
  have hup := hi.upper
  have hlo := hi.lower
  obtain ⟨e1, e2, hlt⟩ := e.seg_lt h ht
  by_cases hil : i + 2 ≤ s.knots.length - s.order
  · exact append_segment_kept e h ht x i (fun m hm => hkn m (by omega)) (Or.inl hil) τ ha hi hτ hτt der
  · obtain rfl : i = s.knots.length - s.order - 1 := by omega
    have hi1 : s.knots.length - s.order - 1 + 1 = s.knots.length - s.order := by omega
    have hw := storeLastTwo_wf e.wf x
    have hord : (s1.storeLastTwo x).order = s.order := e.order
    have hl : (s1.storeLastTwo x).knots.length - (s1.storeLastTwo x).order = s.knots.length - s.order + 1 := by
      show s1.knots.length - s1.order = _
      rw [e.len, e.order]; omega
    have hK : ∀ m, m ≤ s.knots.length - s.order → (s1.storeLastTwo x).kn m = s.kn m := fun m hm => e.old m hm
    have ha' : (s1.storeLastTwo x).Admissible τ := by
      unfold Admissible
      have hE : (s1.storeLastTwo x).kn (s.knots.length - s.order + 1) = t := e2
      rw [hl, hord, hK (s.order - 1) (by omega), hE]
      exact ⟨ha.1, by linarith, Or.inl hτt⟩
    have hi' : (s1.storeLastTwo x).InSegment τ (s.knots.length - s.order - 1) := by
      refine ⟨by rw [hord]; exact hlo, by rw [hl]; omega, ?_, ?_, ?_⟩
      · rw [hK _ (by omega), hi1, hK _ le_rfl]; exact hlast
      · rw [hK _ (by omega)]; exact hi.left
      · rw [hi1, hK _ le_rfl]; exact Or.inl hτ
    obtain ⟨a, ha1, -, ha3⟩ := evalDNat_admissible h τ ha
    obtain ⟨a', ha1', -, ha3'⟩ := evalDNat_admissible hw τ ha'
    obtain rfl := InSegment.unique h hi ha1
    obtain rfl := InSegment.unique hw hi' ha1'
    unfold evalD
    split_ifs
    · rfl
    rw [ha3, ha3']
    congr 1
    funext d
    rw [last_segment_kept e h hlast ht x hkn p0 hp0 hp0' d]

/-- The knots of the extended spline if the tail continues with equal steps. -/
theorem extended_tail {s s1 : BSpline K D} {t : K} {junk : Fin D → K} (e : Extended s s1 t junk) (h : s.WF)
    (htail : ∀ j, j + 3 < s.order → s.kn (s.knots.length - s.order + 1 + j) = t + (j : K) * (t - s.kn (s.knots.length - s.order)))
    (m : ℕ) (hm : m + 2 < s.knots.length) : s1.kn m = s.kn m := by
  have hk := h.order_pos
  have hn := h.enough
  rcases Nat.lt_or_ge (s.knots.length - s.order) m with hm' | hm'
  · rw [e.new m hm' (by omega)]
    have := htail (m - (s.knots.length - s.order + 1)) (by omega)
    rw [show s.knots.length - s.order + 1 + (m - (s.knots.length - s.order + 1)) = m by omega] at this
    exact this.symm
  · exact e.old m hm'

/-- **C14**, preservation of the existing curve, the part that holds: if the `k - 3` knots past the end are `t`, `t + (t - b)`,
`t + 2 (t - b)`, …, then appending a segment changes neither values nor derivatives before the former end.
For orders 2 and 3 this is no condition; for order 4 it says that `t` is the first knot past the end.
The full statement (`t` is the first knot past the end, nothing about the knots after it) is false from order 5 on, see
`C14_full_false`. -/
theorem C14_preserves_partial (solve : Solver K) (hsolve : SolvesRegular solve) (s : BSpline K D) (h : s.WF) (b : K)
    (hb : s.tMax = .ok b) (hlast : s.kn (s.knots.length - s.order - 1) < b) (t : K) (ht : b < t) (p junk : Fin D → K)
    (htail : ∀ j, j + 3 < s.order → s.kn (s.knots.length - s.order + 1 + j) = t + (j : K) * (t - b))
    (s' : BSpline K D) (hs' : s.addCurveSegment solve t p junk = .ok s') (τ : K) (ha : s.Admissible τ) (hτ : τ < b)
    (hτt : τ + 1 / 10 ^ 10 ≤ t) (der : ℤ) :
    s'.evalD τ der = s.evalD τ der := by
  rw [tMax_eq h] at hb
  obtain rfl := Outcome.ok.inj hb
  obtain ⟨s1, p0, x, hok, hp0, e, -, hx0, -⟩ := addCurveSegment_ok solve hsolve h hlast t ht p junk
  rw [hok] at hs'
  obtain rfl := Outcome.ok.inj hs'
  exact append_curve_kept e h hlast ht x (extended_tail e h htail) p0 hp0 (append_values e h ht _ le_rfl ht.le x p0 hx0)
    τ ha hτ hτt der

/-- **C14** for splines up to cubic ones (order 4), as documented: if the new end time is the first knot past the end, the
existing curve and its derivatives are preserved. -/
theorem C14_preserves_cubic (solve : Solver K) (hsolve : SolvesRegular solve) (s : BSpline K D) (h : s.WF)
    (ho : s.order ≤ 4) (b : K) (hb : s.tMax = .ok b) (hlast : s.kn (s.knots.length - s.order - 1) < b) (t : K) (ht : b < t)
    (hfirst : s.kn (s.knots.length - s.order + 1) = t) (p junk : Fin D → K)
    (s' : BSpline K D) (hs' : s.addCurveSegment solve t p junk = .ok s') (τ : K) (ha : s.Admissible τ) (hτ : τ < b)
    (hτt : τ + 1 / 10 ^ 10 ≤ t) (der : ℤ) :
    s'.evalD τ der = s.evalD τ der := by
  refine C14_preserves_partial solve hsolve s h b hb hlast t ht p junk (fun j hj => ?_) s' hs' τ ha hτ hτt der
  obtain rfl : j = 0 := by omega
  simpa using hfirst

/-- **C14**, whatever the new end time: the curve is not changed before the knot number `n - 2k + 2`, that is except on the
last `k - 2` segments (order 2: except on the last segment; see `C14_preserves_partial`). -/
theorem C14_early_segments (solve : Solver K) (hsolve : SolvesRegular solve) (s : BSpline K D) (h : s.WF) (b : K)
    (hb : s.tMax = .ok b) (hlast : s.kn (s.knots.length - s.order - 1) < b) (t : K) (ht : b < t) (p junk : Fin D → K)
    (s' : BSpline K D) (hs' : s.addCurveSegment solve t p junk = .ok s') (τ : K) (ha : s.Admissible τ) (hτ : τ < b)
    (hearly : τ < s.kn (s.knots.length - 2 * s.order + 2)) (hτl : τ < s.kn (s.knots.length - s.order - 1))
    (hτt : τ + 1 / 10 ^ 10 ≤ t) (der : ℤ) :
    s'.evalD τ der = s.evalD τ der := by
  rw [tMax_eq h] at hb
  obtain rfl := Outcome.ok.inj hb
  have hk := h.order_pos
  have hn := h.enough
  obtain ⟨s1, p0, x, hok, hp0, e, -, hx0, -⟩ := addCurveSegment_ok solve hsolve h hlast t ht p junk
  rw [hok] at hs'
  obtain rfl := Outcome.ok.inj hs'
  obtain ⟨i, hT, hi⟩ := lookup h τ ha
  have hup := hi.upper
  have h1 : i + (s.order - 1) ≤ s.knots.length - s.order := by
    by_contra hne
    have := h.mono (s.knots.length - 2 * s.order + 2) i (by omega) (by omega)
    linarith [hi.left]
  have h2 : i + 2 ≤ s.knots.length - s.order := by
    by_contra hne
    have := h.mono (s.knots.length - s.order - 1) i (by omega) (by omega)
    linarith [hi.left]
  exact append_segment_kept e h ht x i (fun m hm => e.old m (by omega)) (Or.inl h2) τ ha hi hτ hτt der

/-- The two equations determine the columns stored. -/
theorem storeLastTwo_congr (s1 : BSpline K D) (x y : ℕ → K) (h : ∀ d : Fin D, x d = y d ∧ x (D + d) = y (D + d)) :
    s1.storeLastTwo x = s1.storeLastTwo y := by
  unfold storeLastTwo
  have e1 : (fun d : Fin D => x d) = fun d : Fin D => y d := funext fun d => (h d).1
  have e2 : (fun d : Fin D => x (D + d)) = fun d : Fin D => y (D + d) := funext fun d => (h d).2
  rw [e1, e2]

/-- All exact solvers give the same spline. -/
theorem addCurveSegment_unique (solve solve' : Solver K) (hs : SolvesRegular solve) (hs' : SolvesRegular solve')
    {s : BSpline K D} (h : s.WF) (hlast : s.kn (s.knots.length - s.order - 1) < s.kn (s.knots.length - s.order)) (t : K)
    (ht : s.kn (s.knots.length - s.order) < t) (p1 junk : Fin D → K) :
    s.addCurveSegment solve t p1 junk = s.addCurveSegment solve' t p1 junk := by
  obtain ⟨s1, p0, x, hok, -, e, hext, hx0, hx1⟩ := addCurveSegment_ok solve hs h hlast t ht p1 junk
  obtain ⟨s1', p0', y, hok', -, -, hext', hy0, hy1⟩ := addCurveSegment_ok solve' hs' h hlast t ht p1 junk
  rw [hext] at hext'
  have := Outcome.ok.inj hext'
  simp only [Prod.mk.injEq, and_true] at this
  obtain ⟨rfl, rfl⟩ := this
  rw [hok, hok']
  congr 1
  refine storeLastTwo_congr _ _ _ fun d => ?_
  have := ends_injective e h hlast ht (x d - y d) (x (D + d) - y (D + d))
    (by linear_combination hx0 d - hy0 d) (by linear_combination hx1 d - hy1 d)
  exact ⟨sub_eq_zero.1 this.1, sub_eq_zero.1 this.2⟩

/-- A solver that uses Cramer's rule for two unknowns. -/
noncomputable def cramerSolver : Solver K := fun n A b q =>
  if n = 2 then
    (if q = 0 then (b 0 * A 1 1 - A 0 1 * b 1) / (A 0 0 * A 1 1 - A 0 1 * A 1 0)
      else (A 0 0 * b 1 - b 0 * A 1 0) / (A 0 0 * A 1 1 - A 0 1 * A 1 0))
  else choiceSolver n A b q

theorem cramerSolver_regular : SolvesRegular (cramerSolver : Solver K) := by
  intro n A b hinj r hr
  by_cases hn : n = 2
  · subst hn
    have hdet : A 0 0 * A 1 1 - A 0 1 * A 1 0 ≠ 0 := by
      intro h0
      -- a kernel vector
      have k1 := hinj (fun q => if q = 0 then A 1 1 else -A 1 0) (by
        intro r hr
        interval_cases r <;> simp [mulV, sum_range_succ] <;> first | linear_combination h0 | linear_combination -h0 | ring)
      have k2 := hinj (fun q => if q = 0 then A 0 1 else -A 0 0) (by
        intro r hr
        interval_cases r <;> simp [mulV, sum_range_succ] <;> first | linear_combination h0 | linear_combination -h0 | ring)
      have a11 : A 1 1 = 0 := by simpa using k1 0 (by norm_num)
      have a10 : A 1 0 = 0 := by simpa using k1 1 (by norm_num)
      have a01 : A 0 1 = 0 := by simpa using k2 0 (by norm_num)
      have a00 : A 0 0 = 0 := by simpa using k2 1 (by norm_num)
      have := hinj (fun _ => 1) (by
        intro r hr
        interval_cases r <;> simp [mulV, sum_range_succ, a11, a10, a01, a00]) 0 (by norm_num)
      exact one_ne_zero this
    have e0 : cramerSolver 2 A b 0 = (b 0 * A 1 1 - A 0 1 * b 1) / (A 0 0 * A 1 1 - A 0 1 * A 1 0) := by
      simp [cramerSolver]
    have e1 : cramerSolver 2 A b 1 = (A 0 0 * b 1 - b 0 * A 1 0) / (A 0 0 * A 1 1 - A 0 1 * A 1 0) := by
      simp [cramerSolver]
    unfold mulV
    rw [sum_range_succ, sum_range_succ, sum_range_zero, zero_add, e0, e1, ← mul_div_assoc, ← mul_div_assoc, ← add_div,
      div_eq_iff hdet]
    interval_cases r <;> ring
  · have := choiceSolver_regular n A b hinj r hr
    rw [← this]
    unfold mulV cramerSolver
    simp only [if_neg hn]

/-- A spline of order 5 with a non-uniform tail: the first knot past the end is 7, the next ones 10, 11 and 12. -/
def exTail : BSpline ℚ 1 :=
  initializeBasisMatrices { order := 5, knots := [0, 1, 2, 3, 4, 5, 6, 7, 10, 11, 12],
                            coeffs := [![0], ![0], ![0], ![0], ![1], ![0]], basis := [] }

theorem exTail_wf : exTail.WF :=
  initializeBasisMatrices_wf _ (by decide) (by decide +kernel) (by decide) (by decide)

/-- The full statement of **C14** is false: appending a segment that ends exactly at the first knot past the end changes the
existing curve, because the knots after it are overwritten as well. -/
theorem C14_full_false (solve : Solver ℚ) (hsolve : SolvesRegular solve) :
    ∃ (s : BSpline ℚ 1) (s' : BSpline ℚ 1), s.WF ∧ s.tMin = .ok 4 ∧ s.tMax = .ok 6 ∧ s.kn (s.knots.length - s.order + 1) = 7 ∧
      s.addCurveSegment solve 7 ![1] ![0] = .ok s' ∧ s.eval (9/2) = .ok ![1/576] ∧ s'.eval (9/2) = .ok ![1/384] := by
  have hu := addCurveSegment_unique solve cramerSolver hsolve cramerSolver_regular exTail_wf (by decide +kernel) 7
    (by decide +kernel) ![1] ![0]
  obtain ⟨s', -, hs', -⟩ := C14_append solve hsolve exTail exTail_wf 6 (by decide +kernel) (by decide +kernel) 7
    (by norm_num) ![1] ![0]
  refine ⟨exTail, s', exTail_wf, by decide +kernel, by decide +kernel, by decide +kernel, hs', by decide +kernel, ?_⟩
  have hc : ((exTail.addCurveSegment cramerSolver 7 ![1] ![0]).bind fun s' => s'.eval (9/2)) = .ok ![1/384] := by
    decide +kernel
  rw [← hu, hs'] at hc
  exact hc

/-- A cubic spline with a non-uniform tail. -/
def exCubic : BSpline ℚ 1 :=
  initializeBasisMatrices { order := 4, knots := [0, 1, 2, 3, 4, 6, 7, 10, 11],
                            coeffs := [![0], ![2], ![-1], ![0], ![1]], basis := [] }

theorem exCubic_wf : exCubic.WF :=
  initializeBasisMatrices_wf _ (by decide) (by decide +kernel) (by decide) (by decide)

/-- The hypotheses of the C14 theorems are met by a cubic spline with a non-uniform tail. -/
example : SolvesRegular (cramerSolver : Solver ℚ) ∧ exCubic.WF ∧ exCubic.order ≤ 4 ∧ exCubic.tMax = .ok 6 ∧
    exCubic.kn (exCubic.knots.length - exCubic.order - 1) < 6 ∧ (6 : ℚ) < 7 ∧
    exCubic.kn (exCubic.knots.length - exCubic.order + 1) = 7 ∧ exCubic.Admissible 5 ∧ (5 : ℚ) + 1 / 10 ^ 10 ≤ 7 ∧
    (exCubic.addCurveSegment cramerSolver 7 ![3] ![0]).bind (fun s' => s'.eval 5) = exCubic.eval 5 ∧
    (exCubic.addCurveSegment cramerSolver 7 ![3] ![0]).bind (fun s' => s'.eval 7) = .ok ![3] ∧
    exCubic.addCurveSegment cramerSolver 6 ![3] ![0] = .throws := by
  refine ⟨cramerSolver_regular, exCubic_wf, by decide, by decide +kernel, by decide +kernel, by norm_num, by decide +kernel,
    admissible_of_wide _ (by decide +kernel) (by decide +kernel) (by decide +kernel), by norm_num, by decide +kernel,
    by decide +kernel, C14_rejects _ _ 6 (by decide +kernel) _ le_rfl _ _⟩

/-- A longer spline for the early segments theorem. -/
def exLong : BSpline ℚ 1 :=
  initializeBasisMatrices { order := 4, knots := [0, 1, 2, 3, 4, 6, 7, 10, 11, 12, 13],
                            coeffs := [![0], ![2], ![-1], ![0], ![1], ![5], ![4]], basis := [] }

theorem exLong_wf : exLong.WF :=
  initializeBasisMatrices_wf _ (by decide) (by decide +kernel) (by decide) (by decide)

/-- The early segments theorem: the valid interval is `[3, 10]`, the curve is kept before 6 whatever the new end time is, and
not kept after it. -/
example : exLong.WF ∧ exLong.tMin = .ok 3 ∧ exLong.tMax = .ok 10 ∧
    exLong.kn (exLong.knots.length - exLong.order - 1) < 10 ∧ (10 : ℚ) < 20 ∧ exLong.Admissible 5 ∧
    (5 : ℚ) < exLong.kn (exLong.knots.length - 2 * exLong.order + 2) ∧
    (5 : ℚ) < exLong.kn (exLong.knots.length - exLong.order - 1) ∧ (5 : ℚ) + 1 / 10 ^ 10 ≤ 20 ∧
    (exLong.addCurveSegment cramerSolver 20 ![3] ![0]).bind (fun s' => s'.eval 5) = exLong.eval 5 ∧
    (exLong.addCurveSegment cramerSolver 20 ![3] ![0]).bind (fun s' => s'.eval (13/2)) ≠ exLong.eval (13/2) :=
  ⟨exLong_wf, by decide +kernel, by decide +kernel, by decide +kernel, by norm_num,
    admissible_of_wide _ (by decide +kernel) (by decide +kernel) (by decide +kernel), by decide +kernel, by decide +kernel,
    by norm_num, by decide +kernel, by decide +kernel⟩

/-! ### C51 -/

/-- Entries of the four block rows of `addCurveSegment2`. -/
theorem addCurveSegment2_ok {s : BSpline K D} (h : s.WF)
    (hlast : s.kn (s.knots.length - s.order - 1) < s.kn (s.knots.length - s.order)) (t : K)
    (ht : s.kn (s.knots.length - s.order) < t) (p1 : Fin D → K) (lambda : K) (junk : Fin D → K) :
    ∃ (s1 : BSpline K D) (p0 : Fin D → K) (A : Mat K) (v : ℕ → K),
      (∀ solve : Solver K, s.addCurveSegment2 solve t p1 lambda junk
        = .ok (s1.storeLastTwo (solve (2 * D) (gram (4 * D) A) (transposeVec (4 * D) A v)))) ∧
      s.eval (s.kn (s.knots.length - s.order)) = .ok p0 ∧ Extended s s1 t junk ∧
        (∀ x : ℕ → K, (∀ r < 2 * D, mulV (2 * D) (gram (4 * D) A) x r = 0) → ∀ q < 2 * D, x q = 0) ∧
        (∀ y, ∀ d : Fin D, mulV (2 * D) A y (0 * D + d)
          = endWeight s s1 0 (s.kn (s.knots.length - s.order)) (s.order - 2) * y d
            + endWeight s s1 0 (s.kn (s.knots.length - s.order)) (s.order - 1) * y (D + d)) ∧
        (∀ y, ∀ d : Fin D, mulV (2 * D) A y (1 * D + d)
          = endWeight s s1 0 t (s.order - 2) * y d + endWeight s s1 0 t (s.order - 1) * y (D + d)) ∧
        (∀ y, ∀ d : Fin D, mulV (2 * D) A y (2 * D + d)
          = lambda * (endWeight s s1 2 (s.kn (s.knots.length - s.order)) (s.order - 2) * y d
            + endWeight s s1 2 (s.kn (s.knots.length - s.order)) (s.order - 1) * y (D + d))) ∧
        (∀ y, ∀ d : Fin D, mulV (2 * D) A y (3 * D + d)
          = lambda * (endWeight s s1 2 t (s.order - 2) * y d + endWeight s s1 2 t (s.order - 1) * y (D + d))) ∧
        (∀ d : Fin D, v (0 * D + d) = p0 d - ∑ c ∈ range (s.order - 2),
          endWeight s s1 0 (s.kn (s.knots.length - s.order)) c * s.col (s.knots.length - s.order + 1 - s.order + c) d) ∧
        (∀ d : Fin D, v (1 * D + d) = p1 d - ∑ c ∈ range (s.order - 2),
          endWeight s s1 0 t c * s.col (s.knots.length - s.order + 1 - s.order + c) d) ∧
        (∀ d : Fin D, v (2 * D + d) = 0) ∧ (∀ d : Fin D, v (3 * D + d) = 0) := by
  have hk := h.order_pos
  have hn := h.enough
  obtain ⟨s1, p0, hext, hp0, e⟩ := extend_ok h t ht junk
  obtain ⟨loc, hloc, hlocE⟩ := e.fixed_eq h ht
  obtain ⟨w0, hP0, hw0⟩ := e.phi_eq h ht _ le_rfl ht.le 0
  obtain ⟨w1, hP1, hw1⟩ := e.phi_eq h ht t ht.le le_rfl 0
  obtain ⟨a0, hA0, ha0⟩ := e.phi_eq h ht _ le_rfl ht.le 2
  obtain ⟨a1, hA1, ha1⟩ := e.phi_eq h ht t ht.le le_rfl 2
  have hP0' : s1.phi (s.kn (s.knots.length - s.order)) 0 = .ok (identityBlocks D w0) := hP0
  have hP1' : s1.phi t 0 = .ok (identityBlocks D w1) := hP1
  have hA0' : s1.phi (s.kn (s.knots.length - s.order)) 2 = .ok (identityBlocks D a0) := hA0
  have hA1' : s1.phi t 2 = .ok (identityBlocks D a1) := hA1
  unfold addCurveSegment2
  rw [hext]
  simp only [Outcome.bind_ok]
  rw [hloc]
  simp only [Outcome.bind_ok]
  rw [hP0', hP1', hA0', hA1']
  simp only [Outcome.bind_ok]
  set rows : List (BlockRow K D) := [endRow (D * (s.order - 2)) 1 (identityBlocks D w0) p0 (fun q => loc.getD q 0) true,
    endRow (D * (s.order - 2)) 1 (identityBlocks D w1) p1 (fun q => loc.getD q 0) true,
    endRow (D * (s.order - 2)) lambda (identityBlocks D a0) 0 (fun q => loc.getD q 0) false,
    endRow (D * (s.order - 2)) lambda (identityBlocks D a1) 0 (fun q => loc.getD q 0) false] with hrows
  have ek : s.order - 2 + 1 = s.order - 1 := by omega
  have m0 : ∀ (x : ℕ → K) (d : Fin D), mulV (2 * D) (rowsMat (2 * D) rows) x (0 * D + d)
      = endWeight s s1 0 (s.kn (s.knots.length - s.order)) (s.order - 2) * x d
        + endWeight s s1 0 (s.kn (s.knots.length - s.order)) (s.order - 1) * x (D + d) := by
    intro x d
    rw [endRow_mul rows 0 (s.order - 2) w0 1 p0 _ true rfl x d, one_mul, ek, hw0 _ (by omega), hw0 _ (by omega)]
  have m1 : ∀ (x : ℕ → K) (d : Fin D), mulV (2 * D) (rowsMat (2 * D) rows) x (1 * D + d)
      = endWeight s s1 0 t (s.order - 2) * x d + endWeight s s1 0 t (s.order - 1) * x (D + d) := by
    intro x d
    rw [endRow_mul rows 1 (s.order - 2) w1 1 p1 _ true rfl x d, one_mul, ek, hw1 _ (by omega), hw1 _ (by omega)]
  have hinj : ∀ x : ℕ → K, (∀ r < 4 * D, mulV (2 * D) (rowsMat (2 * D) rows) x r = 0) → ∀ q < 2 * D, x q = 0 := by
    intro x hx q hq
    obtain ⟨j, hj, d, rfl⟩ := two_blocks q 2 hq
    have hd := d.2
    have h0 := hx (0 * D + d) (by omega)
    have h1 := hx (1 * D + d) (by omega)
    rw [m0] at h0
    rw [m1] at h1
    obtain ⟨a, b⟩ := ends_injective e h hlast ht _ _ h0 h1
    interval_cases j
    · simpa using a
    · simpa using b
  refine ⟨s1, p0, rowsMat (2 * D) rows, rowsVec rows, fun _ => rfl, hp0, e, gram_regular (4 * D) (2 * D) _ hinj, m0, m1,
    ?_, ?_, ?_, ?_, ?_, ?_⟩
  · intro x d
    rw [endRow_mul rows 2 (s.order - 2) a0 lambda 0 _ false rfl x d, ek, ha0 _ (by omega), ha0 _ (by omega)]
  · intro x d
    rw [endRow_mul rows 3 (s.order - 2) a1 lambda 0 _ false rfl x d, ek, ha1 _ (by omega), ha1 _ (by omega)]
  · intro d
    rw [endRow_vec rows 0 (s.order - 2) w0 1 p0 _ true rfl d, if_pos rfl]
    congr 1
    refine sum_congr rfl fun c hc => ?_
    have := mem_range.1 hc
    rw [hw0 c (by omega), hlocE c this d]
  · intro d
    rw [endRow_vec rows 1 (s.order - 2) w1 1 p1 _ true rfl d, if_pos rfl]
    congr 1
    refine sum_congr rfl fun c hc => ?_
    have := mem_range.1 hc
    rw [hw1 c (by omega), hlocE c this d]
  · intro d
    rw [endRow_vec rows 2 (s.order - 2) a0 lambda 0 _ false rfl d]
    simp
  · intro d
    rw [endRow_vec rows 3 (s.order - 2) a1 lambda 0 _ false rfl d]
    simp

/-- **C51**, what holds for every weight: one segment more, the valid interval ends at the new time. -/
theorem C51_interval (solve : Solver K) (s : BSpline K D) (h : s.WF) (b : K)
    (hb : s.tMax = .ok b) (hlast : s.kn (s.knots.length - s.order - 1) < b) (t : K) (ht : b < t) (p : Fin D → K) (lambda : K)
    (junk : Fin D → K) :
    ∃ s', s.addCurveSegment2 solve t p lambda junk = .ok s' ∧ s'.WF ∧ s'.order = s.order ∧
      s'.numValidTimeSegments = s.numValidTimeSegments + 1 ∧ s'.tMin = s.tMin ∧ s'.tMax = .ok t := by
  rw [tMax_eq h] at hb
  obtain rfl := Outcome.ok.inj hb
  obtain ⟨s1, p0, A, v, hok, hp0, e, -⟩ := addCurveSegment2_ok h hlast t ht p lambda junk
  obtain ⟨a1, a2, a3⟩ := append_interval e h ht (solve (2 * D) (gram (4 * D) A) (transposeVec (4 * D) A v))
  exact ⟨_, hok solve, storeLastTwo_wf e.wf _, e.order, a1, a2, a3⟩

/-- **C51**, partial: without smoothing (`lambda = 0`), or for order 2, the new segment interpolates the former end value and the
given value.  Missing: any other weight, where the claim of the documentation is false (`C51_full_false`). -/
theorem C51_interpolates_partial (solve : Solver K) (hsolve : SolvesRegular solve) (s : BSpline K D) (h : s.WF) (b : K)
    (hb : s.tMax = .ok b) (hlast : s.kn (s.knots.length - s.order - 1) < b) (t : K) (ht : b < t) (p : Fin D → K) (lambda : K)
    (junk : Fin D → K) (hl : lambda = 0 ∨ s.order = 2) :
    ∃ s' p0, s.addCurveSegment2 solve t p lambda junk = .ok s' ∧ s'.eval t = .ok p ∧ s.eval b = .ok p0 ∧
      s'.eval b = .ok p0 := by
  rw [tMax_eq h] at hb
  obtain rfl := Outcome.ok.inj hb
  have hk := h.order_pos
  obtain ⟨s1, p0, A, v, hok, hp0, e, hreg, m0, m1, m2, m3, v0, v1, v2, v3⟩ :=
    addCurveSegment2_ok h hlast t ht p lambda junk
  have hok := hok solve
  have hx := hsolve _ _ (transposeVec (4 * D) A v) hreg
  set x := solve (2 * D) (gram (4 * D) A) (transposeVec (4 * D) A v) with hxdef
  -- the smoothing rows vanish
  have hz : ∀ τ a b', lambda * (endWeight s s1 2 τ (s.order - 2) * a + endWeight s s1 2 τ (s.order - 1) * b') = 0 := by
    intro τ a b'
    rcases hl with hl | hl
    · rw [hl, zero_mul]
    · have : ∀ c, endWeight s s1 2 τ c = 0 := by
        intro c
        unfold endWeight
        rw [hl, iterate_derivative_eq_zero (lt_of_le_of_lt (piece_natDegree _ _ _ _) (by norm_num)), eval_zero]
      rw [this, this]; ring
  -- the plain interpolation solves all rows
  have hexact : ∀ r < 4 * D, mulV (2 * D) A x r = v r := by
    refine normal_exact (4 * D) (2 * D) A v x ?_ hx
    -- existence: solve the triangular system directly
    set wa := endWeight s s1 0 (s.kn (s.knots.length - s.order)) (s.order - 2) with hwa
    set wb := endWeight s s1 0 t (s.order - 2) with hwb
    set wc := endWeight s s1 0 t (s.order - 1) with hwc
    have ha0 : wa ≠ 0 := (e.w_left_second h hlast ht).ne'
    have hc0 : wc ≠ 0 := (e.w_right_last h ht).ne'
    have hb0 := e.w_left_last h
    let z : ℕ → K := fun q => if q < D then v q / wa else (v q - wb * (v (q - D) / wa)) / wc
    have z0 : ∀ d : Fin D, z d = v (0 * D + d) / wa := by
      intro d; simp only [z]; rw [if_pos d.2, Nat.zero_mul, Nat.zero_add]
    have z1 : ∀ d : Fin D, z (D + d) = (v (1 * D + d) - wb * (v (0 * D + d) / wa)) / wc := by
      intro d; simp only [z]
      rw [if_neg (by omega), Nat.one_mul, Nat.zero_mul, Nat.zero_add, Nat.add_sub_cancel_left]
    refine ⟨z, fun r hr => ?_⟩
    obtain ⟨j, hj, d, rfl⟩ := two_blocks r 4 hr
    interval_cases j
    · rw [m0, hb0, z0]; field_simp; ring
    · rw [m1, z0, z1]; field_simp; ring
    · rw [m2, hz, v2]
    · rw [m3, hz, v3]
  refine ⟨_, p0, hok, ?_, hp0, ?_⟩
  · refine append_values e h ht t ht.le le_rfl x p fun d => ?_
    have hd := d.2
    have := hexact (1 * D + d) (by omega)
    rw [m1, v1] at this
    exact this
  · refine append_values e h ht _ le_rfl ht.le x p0 fun d => ?_
    have hd := d.2
    have := hexact (0 * D + d) (by omega)
    rw [m0, v0] at this
    exact this

/-- **C51**: an end time that is not past the end is refused. -/
theorem C51_rejects (solve : Solver K) (s : BSpline K D) (b : K) (hb : s.tMax = .ok b) (t : K) (ht : t ≤ b)
    (p : Fin D → K) (lambda : K) (junk : Fin D → K) : s.addCurveSegment2 solve t p lambda junk = .throws := by
  unfold addCurveSegment2 extend
  rw [hb]
  simp only [Outcome.bind_ok]
  rw [if_pos ht]
  rfl

/-- Exact solvers agree on regular systems. -/
theorem regular_unique (solve solve' : Solver K) (hs : SolvesRegular solve) (hs' : SolvesRegular solve') (n : ℕ) (A : Mat K)
    (b : ℕ → K) (hinj : ∀ x, (∀ r < n, mulV n A x r = 0) → ∀ q < n, x q = 0) (q : ℕ) (hq : q < n) :
    solve n A b q = solve' n A b q := by
  have := hinj (fun q => solve n A b q - solve' n A b q) (fun r hr => by
    rw [mulV_sub, hs n A b hinj r hr, hs' n A b hinj r hr, sub_self]) q hq
  exact sub_eq_zero.1 this

/-- All exact solvers give the same spline. -/
theorem addCurveSegment2_unique (solve solve' : Solver K) (hs : SolvesRegular solve) (hs' : SolvesRegular solve')
    {s : BSpline K D} (h : s.WF) (hlast : s.kn (s.knots.length - s.order - 1) < s.kn (s.knots.length - s.order)) (t : K)
    (ht : s.kn (s.knots.length - s.order) < t) (p1 : Fin D → K) (lambda : K) (junk : Fin D → K) :
    s.addCurveSegment2 solve t p1 lambda junk = s.addCurveSegment2 solve' t p1 lambda junk := by
  obtain ⟨s1, p0, A, v, hok, -, -, hreg, -⟩ := addCurveSegment2_ok h hlast t ht p1 lambda junk
  rw [hok, hok]
  congr 1
  refine storeLastTwo_congr _ _ _ fun d => ?_
  have hd := d.2
  exact ⟨regular_unique _ _ hs hs' _ _ _ hreg _ (by omega), regular_unique _ _ hs hs' _ _ _ hreg _ (by omega)⟩

/-- The documented claim of **C51** is false for a positive weight: the curve interpolates neither the former end value nor the
new one.  Here the existing curve is the straight line `2 t`, whose former end value is 8, and the new value 10 is on the line as
well, so the exact continuation has no acceleration at all; the fixed coefficients are missing on the right-hand side of the
acceleration rows. -/
theorem C51_full_false (solve : Solver ℚ) (hsolve : SolvesRegular solve) :
    ∃ (s s' : BSpline ℚ 1), s.WF ∧ s.tMax = .ok 4 ∧ s.eval 4 = .ok ![8] ∧ s.eval (7/2) = .ok ![7] ∧
      s.addCurveSegment2 solve 5 ![10] 1 ![0] = .ok s' ∧ s'.eval 4 ≠ .ok ![8] ∧ s'.eval 5 ≠ .ok ![10] := by
  let s : BSpline ℚ 1 := initializeBasisMatrices
    { order := 4, knots := [0, 1, 2, 3, 4, 5, 6, 7], coeffs := [![4], ![6], ![8], ![10]], basis := [] }
  have hwf : s.WF := initializeBasisMatrices_wf _ (by decide) (by decide +kernel) (by decide) (by decide)
  have hl : s.kn (s.knots.length - s.order - 1) < s.kn (s.knots.length - s.order) := by decide +kernel
  have ht : s.kn (s.knots.length - s.order) < 5 := by decide +kernel
  have hu := addCurveSegment2_unique solve cramerSolver hsolve cramerSolver_regular hwf hl 5 ht ![10] 1 ![0]
  obtain ⟨s', hs', -⟩ := C51_interval solve s hwf 4 (by decide +kernel) (by decide +kernel) 5 (by norm_num) ![10] 1 ![0]
  have h4 : ((s.addCurveSegment2 cramerSolver 5 ![10] 1 ![0]).bind fun s' => s'.eval 4) ≠ .ok ![8] := by decide +kernel
  have h5 : ((s.addCurveSegment2 cramerSolver 5 ![10] 1 ![0]).bind fun s' => s'.eval 5) ≠ .ok ![10] := by decide +kernel
  rw [← hu, hs'] at h4 h5
  exact ⟨s, s', hwf, by decide +kernel, by decide +kernel, by decide +kernel, hs', h4, h5⟩

theorem storeLastTwo_twice (s1 : BSpline K D) (x y : ℕ → K) (h2 : 2 ≤ s1.coeffs.length) :
    (s1.storeLastTwo x).storeLastTwo y = s1.storeLastTwo y := by
  unfold storeLastTwo
  simp only [List.length_set]
  congr 1
  rw [List.set_comm _ _ (show s1.coeffs.length - 1 ≠ s1.coeffs.length - 2 by omega), List.set_set, List.set_set]

/-- **C51**, what the code computes for every weight: among all choices `y` of the last two coefficients, the result minimises
the squared errors of the former end value and of the new value plus `lambda` squared times the squared contribution *of these two
coefficients* to the accelerations at both ends (the contribution of the others is subtracted: that is the defect). -/
theorem C51_minimises (solve : Solver K) (hsolve : SolvesRegular solve) (s : BSpline K D) (h : s.WF) (b : K)
    (hb : s.tMax = .ok b) (hlast : s.kn (s.knots.length - s.order - 1) < b) (t : K) (ht : b < t) (p : Fin D → K) (lambda : K)
    (junk : Fin D → K) (s' : BSpline K D) (hs' : s.addCurveSegment2 solve t p lambda junk = .ok s') (p0 : Fin D → K)
    (hp0 : s.eval b = .ok p0) (y : ℕ → K) :
    let accel := fun (u : BSpline K D) (τ : K) (d : Fin D) =>
      (u.evalD τ 2).getD 0 d - ((u.storeLastTwo 0).evalD τ 2).getD 0 d
    let cost := fun u : BSpline K D => ∑ d : Fin D, (((u.eval b).getD 0 d - p0 d) ^ 2 + ((u.eval t).getD 0 d - p d) ^ 2
      + lambda ^ 2 * (accel u b d ^ 2 + accel u t d ^ 2))
    cost s' ≤ cost (s'.storeLastTwo y) := by
  intro accel cost
  rw [tMax_eq h] at hb
  obtain rfl := Outcome.ok.inj hb
  have hk := h.order_pos
  have hn := h.enough
  have hc := h.coeffs_len
  obtain ⟨s1, p0', A, v, hok, hp0', e, hreg, m0, m1, m2, m3, v0, v1, v2, v3⟩ :=
    addCurveSegment2_ok h hlast t ht p lambda junk
  rw [hp0] at hp0'
  obtain rfl := Outcome.ok.inj hp0'
  have hok := hok solve
  have hx := hsolve _ _ (transposeVec (4 * D) A v) hreg
  set x := solve (2 * D) (gram (4 * D) A) (transposeVec (4 * D) A v) with hxdef
  rw [hok] at hs'
  obtain rfl := Outcome.ok.inj hs'
  have hl : 2 ≤ s1.coeffs.length := by rw [e.coeffs]; simp; omega
  have hev : ∀ (z : ℕ → K) (τ : K) (_ : s.kn (s.knots.length - s.order) ≤ τ) (_ : τ ≤ t) (der : ℕ) (d : Fin D),
      ((s1.storeLastTwo z).evalD τ der).getD 0 d =
        ∑ c ∈ range (s.order - 2), s.col (s.knots.length - s.order + 1 - s.order + c) d * endWeight s s1 der τ c
        + z d * endWeight s s1 der τ (s.order - 2) + z (D + d) * endWeight s s1 der τ (s.order - 1) := by
    intro z τ h1 h2 der d
    unfold evalD
    rw [if_neg (by omega), Int.toNat_natCast, e.eval_new h ht τ h1 h2]
    rfl
  have hcost : ∀ z, cost (s1.storeLastTwo z) = ∑ r ∈ range (4 * D), (mulV (2 * D) A z r - v r) ^ 2 := by
    intro z
    rw [sum_blocks 4]
    simp only [cost, accel, storeLastTwo_twice s1 z 0 hl]
    rw [sum_comm]
    refine sum_congr rfl fun d _ => ?_
    simp only [sum_range_succ, sum_range_zero, zero_add]
    rw [m0, m1, m2, m3, v0, v1, v2, v3]
    have c1 := hev z _ le_rfl ht.le 0 d
    have c2 := hev z t ht.le le_rfl 0 d
    have c3 := hev z _ le_rfl ht.le 2 d
    have c4 := hev z t ht.le le_rfl 2 d
    have c5 := hev 0 _ le_rfl ht.le 2 d
    have c6 := hev 0 t ht.le le_rfl 2 d
    have cz : ∀ τ : K, (s1.storeLastTwo z).eval τ = (s1.storeLastTwo z).evalD τ ((0 : ℕ) : ℤ) := fun _ => rfl
    have c2' : (2 : ℤ) = ((2 : ℕ) : ℤ) := rfl
    rw [cz, cz, c2', c1, c2, c3, c4, c5, c6]
    simp only [mul_comm (s.col _ d) _, Pi.zero_apply]
    ring
  rw [storeLastTwo_twice s1 x y hl, hcost, hcost]
  have := normal_optimal (4 * D) (2 * D) A (fun _ _ => 0) v x (fun _ _ _ _ => rfl) (by intro x; simp [bil])
    (by simpa using hx) y
  simpa [bil] using this

example : SolvesRegular (cramerSolver : Solver ℚ) ∧ exCubic.WF ∧ exCubic.tMax = .ok 6 ∧
    exCubic.kn (exCubic.knots.length - exCubic.order - 1) < 6 ∧ (6 : ℚ) < 8 ∧
    (exCubic.addCurveSegment2 cramerSolver 8 ![3] 0 ![0]).bind (fun s' => s'.eval 8) = .ok ![3] ∧
    (exCubic.addCurveSegment2 cramerSolver 8 ![3] 0 ![0]).bind (fun s' => s'.eval 6) = exCubic.eval 6 ∧
    (exCubic.addCurveSegment2 cramerSolver 8 ![3] (1/2) ![0]).bind (fun s' => s'.tMax) = .ok 8 := by
  refine ⟨cramerSolver_regular, exCubic_wf, by decide +kernel, by decide +kernel, by norm_num, by decide +kernel,
    by decide +kernel, by decide +kernel⟩

end Verif
