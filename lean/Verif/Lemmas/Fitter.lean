import Verif.Lemmas.FitterAlgebra
import Verif.Lemmas.Euclidean
import Verif.Lemmas.Integral
import Verif.Props.ManifoldUpdate

/-!
# The fitter: regularisation and constraint rows
-/

set_option linter.unusedSectionVars false

namespace Verif.MSpline

open Finset Polynomial

section Field
variable {K : Type*} [Field K] [LinearOrder K] [IsStrictOrderedRing K] {D : ℕ}

/-! ### Regularisation: one segment, all segments -/

/-- The control vertices as a function of number and component. -/
def vertN (s : MSpline K (Fin D → K)) (j d : ℕ) : K := if h : d < D then s.vert j ⟨d, h⟩ else 0

theorem vertN_fin (s : MSpline K (Fin D → K)) (j : ℕ) (d : Fin D) : s.vertN j d = s.vert j d := by
  unfold vertN
  rw [dif_pos d.2]

theorem bil_zero_left (n : ℕ) (Q : Mat K) (x y : ℕ → K) (hx : ∀ p < n, x p = 0) : bil n Q x y = 0 := by
  unfold bil
  exact sum_eq_zero fun a ha => sum_eq_zero fun b _ => by rw [hx a (mem_range.1 ha)]; ring

theorem bil_zero_right (n : ℕ) (Q : Mat K) (x y : ℕ → K) (hy : ∀ p < n, y p = 0) : bil n Q x y = 0 := by
  unfold bil
  exact sum_eq_zero fun a _ => sum_eq_zero fun b hb => by rw [hy b (mem_range.1 hb)]; ring

/-- One segment contributes its form in the local vertices, up to a constant. -/
theorem regSegment_ok {s : MSpline K (Fin D → K)} (h : s.MWF) (dense : Bool) (weight : K) (n base i : ℕ) (hi : i < s.keys.length)
    (hk : s.order ≤ i + 1) (Q : Mat K) (hQ : s.segForm weight s.keys[i]? 2 = .ok Q)
    (hsym : ∀ x y, bil (s.order * D) Q x y = bil (s.order * D) Q y x) (A : Mat K) (b : ℕ → K)
    (hA : ∀ x y, bil (n * D) A x y = bil (n * D) A y x) :
    ∃ A' b' c, s.regSegment dense weight n (((i + 1 - s.order : ℕ) : ℤ) - base) s.keys[i]? (A, b) = .ok (A', b') ∧
      (∀ x y, bil (n * D) A' x y = bil (n * D) A' y x) ∧
      ∀ x, bil (n * D) A' x x - 2 * ∑ p ∈ range (n * D), x p * b' p
        = bil (n * D) A x x - 2 * ∑ p ∈ range (n * D), x p * b p +
          (bil (s.order * D) Q (locV D (i + 1 - s.order) (fullV n base D x s.vertN))
            (locV D (i + 1 - s.order) (fullV n base D x s.vertN)) - c) := by
  set a := i + 1 - s.order with ha
  set br : ℤ := (a : ℤ) - base with hbr
  set f := fixedPart n D br (fun c d => s.vertN (a + c) d) with hf
  have hloc : ∀ x, bil (s.order * D) Q (locV D a (fullV n base D x s.vertN)) (locV D a (fullV n base D x s.vertN))
      = bil (s.order * D) Q (extFree n D br x) (extFree n D br x) + 2 * bil (s.order * D) Q (extFree n D br x) f
        + bil (s.order * D) Q f f := by
    intro x
    rw [bil_congr_vec _ _ _ _ _ _ (fun p _ => locV_fullV n base D a x s.vertN p) (fun p _ => locV_fullV n base D a x s.vertN p),
      bil_add_add, hsym f]
    ring
  -- if all vertices are free there is no fixed part
  have hfree : (∀ j : ℕ, j < s.order → 0 ≤ (j : ℤ) + br ∧ (j : ℤ) + br < n) → ∀ p < s.order * D, f p = 0 := by
    intro hall p hp
    rw [hf]
    unfold fixedPart
    rw [if_pos (hall _ (div_lt_of_stacked hp))]
  unfold regSegment
  rw [hQ, Outcome.bind_ok]
  by_cases hd : dense = true ∧ 0 ≤ br ∧ br ≤ (n : ℤ) - s.order
  · rw [if_pos hd]
    obtain ⟨m, hm⟩ := Int.eq_ofNat_of_zero_le hd.2.1
    have hle : m * D + s.order * D ≤ n * D := by
      rw [← Nat.add_mul]
      exact Nat.mul_le_mul_right _ (by omega)
    have hext : ∀ (x : ℕ → K) p, p < s.order * D → x (br.toNat * D + p) = extFree n D br x p := by
      intro x p hp
      have hlt := div_lt_of_stacked hp
      unfold extFree
      rw [if_pos (by generalize p / D = c at hlt ⊢; omega), hm]
      congr 1
      rw [show ((p : ℤ) + (m : ℤ) * D) = ((m * D + p : ℕ) : ℤ) by push_cast; ring, Int.toNat_natCast, Int.toNat_natCast]
    have hb : ∀ x y, bil (n * D) (addBlock A (br.toNat * D) (s.order * D) Q) x y
        = bil (n * D) A x y + bil (s.order * D) Q (extFree n D br x) (extFree n D br y) := by
      intro x y
      rw [bil_addBlock _ _ _ (by rw [hm]; simpa using hle)]
      congr 1
      exact bil_congr_vec _ _ _ _ _ _ (hext x) (hext y)
    refine ⟨_, _, bil (s.order * D) Q f f, rfl, fun x y => ?_, fun x => ?_⟩
    · rw [hb, hb, hA, hsym]
    · rw [hb, hloc, bil_zero_right _ Q (extFree n D br x) f (hfree fun j hj => by omega)]
      ring
  · rw [if_neg hd]
    dsimp only
    by_cases hnum : 0 < min (n : ℤ) (s.order + br) - 1 - max 0 br + 1
    · rw [if_pos hnum]
      by_cases hne : min (n : ℤ) (s.order + br) - 1 - max 0 br + 1 ≠ s.order
      · rw [if_pos hne]
        rw [keys_length] at hi
        obtain ⟨vs, r1, r2, r3⟩ := readVerticesBack_eq h s.order i hi hk
        rw [r1, Outcome.bind_ok]
        refine ⟨_, _, bil (s.order * D) Q f f, rfl, fun x y => ?_, fun x => ?_⟩
        · rw [addOverlap_bil, addOverlap_bil, hA, hsym]
        · rw [addOverlap_bil, subtractFixed_dot n s.order D b Q br vs (fun c d => s.vertN (a + c) d), hloc]
          · ring
          · intro c hc d
            rw [vertN_fin]
            unfold vert
            have e : i - (s.order - 1 - c) = a + c := by omega
            rw [List.getD_eq_getElem?_getD, List.getD_eq_getElem?_getD, r3 _ (by omega), e]
      · rw [if_neg hne]
        push Not at hne
        refine ⟨_, _, bil (s.order * D) Q f f, rfl, fun x y => ?_, fun x => ?_⟩
        · rw [addOverlap_bil, addOverlap_bil, hA, hsym]
        · rw [addOverlap_bil, hloc, bil_zero_right _ Q (extFree n D br x) f (hfree fun j hj => by omega)]
          ring
    · rw [if_neg hnum]
      have hz : ∀ (x : ℕ → K) (p : ℕ), p < s.order * D → extFree n D br x p = 0 := by
        intro x p hp
        have hlt := div_lt_of_stacked hp
        unfold extFree
        rw [if_neg (by generalize p / D = c at hlt ⊢; omega)]
      refine ⟨_, _, bil (s.order * D) Q f f, rfl, hA, fun x => ?_⟩
      rw [hloc, bil_zero_left _ Q _ _ (hz x), bil_zero_left _ Q _ _ (hz x)]
      ring

/-- The loop over the segments `i, …, e - 1`; `E i w` is the form of segment `i` for vertices `w`. -/
theorem regLoop_ok {s : MSpline K (Fin D → K)} (h : s.MWF) (dense : Bool) (weight : K) (n base e : ℕ)
    (he : e + s.order ≤ s.keys.length) (E : ℕ → (ℕ → ℕ → K) → K)
    (hE : ∀ i, s.order ≤ i + 1 → i + s.order < s.keys.length → ∃ Q, s.segForm weight s.keys[i]? 2 = .ok Q ∧
      (∀ x y, bil (s.order * D) Q x y = bil (s.order * D) Q y x) ∧
      ∀ w, bil (s.order * D) Q (locV D (i + 1 - s.order) w) (locV D (i + 1 - s.order) w) = E i w) :
    ∀ m i, m = e - i → s.order ≤ i + 1 → ∀ (br : ℤ), br = ((i + 1 - s.order : ℕ) : ℤ) - base → ∀ (A : Mat K) (b : ℕ → K),
      (∀ x y, bil (n * D) A x y = bil (n * D) A y x) →
      ∃ A' b' c, s.regLoop dense weight n ((s.keys.take e).drop i) br (A, b) = .ok (A', b') ∧
        (∀ x y, bil (n * D) A' x y = bil (n * D) A' y x) ∧
        ∀ x, bil (n * D) A' x x - 2 * ∑ p ∈ range (n * D), x p * b' p
          = bil (n * D) A x x - 2 * ∑ p ∈ range (n * D), x p * b p +
            (∑ j ∈ Ico i e, E j (fullV n base D x s.vertN) - c)
  | 0, i, hm, hi, br, hbr, A, b, hA => by
    refine ⟨A, b, 0, ?_, hA, fun x => ?_⟩
    · rw [List.drop_eq_nil_of_le (by rw [List.length_take]; omega)]
      rfl
    · rw [Finset.Ico_eq_empty_of_le (by omega), sum_empty]
      ring
  | (m + 1), i, hm, hi, br, hbr, A, b, hA => by
    have hk := h.order_pos
    have hlt : i < s.keys.length := by omega
    have hl : i < (s.keys.take e).length := by rw [List.length_take]; omega
    obtain ⟨Q, q1, q2, q3⟩ := hE i hi (by omega)
    obtain ⟨A1, b1, c1, r1, r2, r3⟩ := regSegment_ok h dense weight n base i hlt hi Q q1 q2 A b hA
    obtain ⟨A2, b2, c2, t1, t2, t3⟩ := regLoop_ok h dense weight n base e he E hE m (i + 1) (by omega) (by omega) (br + 1)
      (by rw [hbr]; omega) A1 b1 r2
    refine ⟨A2, b2, c1 + c2, ?_, t2, fun x => ?_⟩
    · rw [List.drop_eq_getElem_cons hl, List.getElem_take]
      unfold regLoop
      rw [← List.getElem?_eq_getElem hlt, hbr, r1, Outcome.bind_ok, ← hbr, t1]
    · rw [t3, r3, q3, Finset.sum_eq_sum_Ico_succ_bot (by omega : i < e)]
      ring

/-- Segments without a free vertex contribute a constant. -/
theorem fullV_outside (n base D a k : ℕ) (x y : ℕ → K) (v : ℕ → ℕ → K) (h : a + k ≤ base ∨ base + n ≤ a) :
    ∀ j, a ≤ j → j < a + k → fullV n base D x v j = fullV n base D y v j := by
  intro j h1 h2
  funext d
  unfold fullV
  rw [if_neg (by omega), if_neg (by omega)]

/-- `regularise` without fixed vertices adds the forms of all segments, up to a constant. -/
theorem regularise_ok {s : MSpline K (Fin D → K)} (h : s.MWF) (he : s.state = .evaluable) (dense : Bool) (lambda : K) (t0 tl : K)
    (i0 il : ℕ) (h0 : s.InSeg t0 i0) (hl : s.InSeg tl il) (hle : i0 ≤ il) (E : ℕ → (ℕ → ℕ → K) → K)
    (hE : ∀ i, s.order ≤ i + 1 → i + s.order < s.keys.length → ∃ Q, s.segForm lambda s.keys[i]? 2 = .ok Q ∧
      (∀ x y, bil (s.order * D) Q x y = bil (s.order * D) Q y x) ∧
      ∀ w, bil (s.order * D) Q (locV D (i + 1 - s.order) w) (locV D (i + 1 - s.order) w) = E i w)
    (hloc : ∀ i w w', s.order ≤ i + 1 → (∀ j, i + 1 - s.order ≤ j → j < i + 1 → w j = w' j) → E i w = E i w')
    (hz : lambda = 0 → ∀ i w, s.order ≤ i + 1 → i + s.order < s.keys.length → E i w = 0)
    (A : Mat K) (b : ℕ → K) (n : ℕ) (hn : n = il + s.order - i0)
    (hA : ∀ x y, bil (n * D) A x y = bil (n * D) A y x) :
    ∃ A' b' c, s.regularise dense lambda n 0 t0 tl (A, b) = .ok (A', b') ∧
      (∀ x y, bil (n * D) A' x y = bil (n * D) A' y x) ∧
      ∀ x, bil (n * D) A' x x - 2 * ∑ p ∈ range (n * D), x p * b' p
        = bil (n * D) A x x - 2 * ∑ p ∈ range (n * D), x p * b p +
          (∑ j ∈ Ico (s.order - 1) (s.keys.length - s.order), E j (fullV n (i0 + 1 - s.order) D x s.vertN) - c) := by
  have hk := h.order_pos
  have hnk := h.enough he
  have hnd := h.nodup
  have l01 := h0.lower
  have l02 := h0.upper
  have ll1 := hl.lower
  have ll2 := hl.upper
  by_cases hl0 : lambda = 0
  · refine ⟨A, b, 0, ?_, hA, fun x => ?_⟩
    · unfold regularise
      rw [if_pos hl0]
    · rw [sum_eq_zero fun j hj => hz hl0 j _ (by have := mem_Ico.1 hj; omega) (by have := mem_Ico.1 hj; omega)]
      ring
  -- the iterators
  obtain ⟨j0, hj0, g0⟩ := getSegmentIterator_ok h he t0 (h0.range h).1 (h0.range h).2
  obtain rfl := hj0.unique h h0
  obtain ⟨jl, hjl, gl⟩ := getSegmentIterator_ok h he tl (hl.range h).1 (hl.range h).2
  obtain rfl := hjl.unique h hl
  have m1 : moveIter s.keys s.keys[j0]? (if (((0 : ℕ) : ℤ) - ((s.order : ℤ) - 1)) < 0 then s.keys[s.order - 1]? else s.keys[jl]?)
      (((0 : ℕ) : ℤ) - ((s.order : ℤ) - 1)) = .ok s.keys[max (j0 - (s.order - 1)) (s.order - 1)]? := by
    by_cases h1 : s.order = 1
    · rw [if_neg (by omega)]
      have := moveIter_fwd hnd (l := jl) (i := j0) (by omega) hle 0
      rw [show (((0 : ℕ) : ℤ) - ((s.order : ℤ) - 1)) = ((0 : ℕ) : ℤ) by omega, this]
      congr 2
      omega
    · rw [if_pos (by omega)]
      have := moveIter_bwd hnd (l := s.order - 1) (i := j0) (by omega) (by omega) (s.order - 1)
      rw [show (((0 : ℕ) : ℤ) - ((s.order : ℤ) - 1)) = -((s.order - 1 : ℕ) : ℤ) by omega, this]
  have m2 : moveIter s.keys s.keys[jl]? s.keys[s.keys.length - s.order]? (s.order : ℤ)
      = .ok s.keys[min (jl + s.order) (s.keys.length - s.order)]? :=
    moveIter_fwd hnd (by omega) (by omega) s.order
  set a := max (j0 - (s.order - 1)) (s.order - 1) with ha
  set e := min (jl + s.order) (s.keys.length - s.order) with hee
  obtain ⟨A', b', c, r1, r2, r3⟩ := regLoop_ok h dense lambda n (j0 + 1 - s.order) e (by omega) E hE _ a rfl (by omega)
    ((a : ℤ) - j0) (by omega) A b hA
  -- constants of the segments that are not visited
  refine ⟨A', b', c + ∑ j ∈ Ico (s.order - 1) a, E j (fullV n (j0 + 1 - s.order) D (fun _ => 0) s.vertN)
    + ∑ j ∈ Ico e (s.keys.length - s.order), E j (fullV n (j0 + 1 - s.order) D (fun _ => 0) s.vertN), ?_, r2, fun x => ?_⟩
  · unfold regularise
    rw [if_neg hl0, h.iters_eq he]
    dsimp only
    rw [g0, Outcome.bind_ok, gl, Outcome.bind_ok, m1, Outcome.bind_ok, m2, Outcome.bind_ok, itPos_at hnd (by omega),
      itPos_at hnd (by omega), itPos_at hnd (by omega), if_pos (by omega), if_pos (by omega)]
    exact r1
  · rw [r3]
    have hsplit : ∀ g : ℕ → K, ∑ j ∈ Ico (s.order - 1) (s.keys.length - s.order), g j
        = ∑ j ∈ Ico (s.order - 1) a, g j + ∑ j ∈ Ico a e, g j + ∑ j ∈ Ico e (s.keys.length - s.order), g j := by
      intro g
      rw [Finset.sum_Ico_consecutive g (by omega) (by omega), Finset.sum_Ico_consecutive g (by omega) (by omega)]
    rw [hsplit]
    have c1 : ∑ j ∈ Ico (s.order - 1) a, E j (fullV n (j0 + 1 - s.order) D x s.vertN)
        = ∑ j ∈ Ico (s.order - 1) a, E j (fullV n (j0 + 1 - s.order) D (fun _ => 0) s.vertN) := by
      refine sum_congr rfl fun j hj => ?_
      have := mem_Ico.1 hj
      refine hloc j _ _ (by omega) fun q q1 q2 => ?_
      exact fullV_outside n _ D (j + 1 - s.order) s.order _ _ _ (by omega) q q1 (by omega)
    have c2 : ∑ j ∈ Ico e (s.keys.length - s.order), E j (fullV n (j0 + 1 - s.order) D x s.vertN)
        = ∑ j ∈ Ico e (s.keys.length - s.order), E j (fullV n (j0 + 1 - s.order) D (fun _ => 0) s.vertN) := by
      refine sum_congr rfl fun j hj => ?_
      have := mem_Ico.1 hj
      refine hloc j _ _ (by omega) fun q q1 q2 => ?_
      exact fullV_outside n _ D (j + 1 - s.order) s.order _ _ _ (by omega) q q1 (by omega)
    rw [c1, c2]
    ring

/-! ### The constraint rows -/

/-- Component `d` of the `der`-th derivative on interval `i` for vertices `w`. -/
noncomputable def curveVal (s : MSpline K (Fin D → K)) (w : ℕ → ℕ → K) (i der : ℕ) (t : K) (d : ℕ) : K :=
  ∑ c ∈ range s.order, (derivative^[der] (piece s.kn i (s.order - 1) (i + 1 - s.order + c))).eval t * w (i + 1 - s.order + c) d

/-- The weight of data point number `m`. -/
def weightOf (weights : Option (ℕ → K)) (m : ℕ) : K := match weights with | none => 1 | some w => w m

theorem fitRows_ok {s : MSpline K (Fin D → K)} (h : s.MWF) (he : s.state = .evaluable) (resolver : Resolver K) (tmax : K) (off : ℤ)
    (weights : Option (ℕ → K)) (idx : K → ℕ) (r : ℤ) : ∀ (data : List (K × (Fin D → K))) (m0 : ℕ),
    (∀ x ∈ data, s.InSeg x.1 (idx x.1) ∧ resolver x.1 = .ok (r + idx x.1 + if x.1 = tmax then 1 else 0)) →
    ∃ rows, s.fitRows resolver tmax off weights data m0 = .ok rows ∧ rows.length = data.length ∧
      ∀ (m : ℕ) (x : K × (Fin D → K)), data[m]? = some x → ∃ R, rows[m]? = some R ∧
        R.col = r + idx x.1 - off - ((s.order : ℤ) - 1) ∧
        (∀ j < s.order, R.bi j = (piece s.kn (idx x.1) (s.order - 1) (idx x.1 + 1 - s.order + j)).eval x.1
          * weightOf weights (m0 + m)) ∧
        ∀ d, R.target d = x.2 d * weightOf weights (m0 + m)
  | [], m0, _ => ⟨[], rfl, rfl, fun m x hx => by simp at hx⟩
  | (t, p) :: rest, m0, hd => by
    obtain ⟨hi, hr⟩ := hd (t, p) (by simp)
    dsimp only at hi hr
    obtain ⟨rows, r1, r2, r3⟩ := fitRows_ok h he resolver tmax off weights idx r rest (m0 + 1) (fun x hx => hd x (by simp [hx]))
    obtain ⟨bi, b1, b2⟩ := localBi_eq h he hi 0
    refine ⟨⟨r + idx t + (if t = tmax then 1 else 0) - off - ((s.order : ℤ) - 1) - (if t = tmax then 1 else 0),
      fun j => bi j * weightOf weights m0, fun d => p d * weightOf weights m0⟩ :: rows, ?_, by simp [r2], ?_⟩
    · unfold fitRows
      rw [hr, Outcome.bind_ok, evaluatorAt_eq h he hi, Outcome.bind_ok, b1, Outcome.bind_ok, r1, Outcome.bind_ok]
      rfl
    · intro m x hx
      cases m with
      | zero =>
        rw [List.getElem?_cons_zero, Option.some.injEq] at hx
        subst hx
        refine ⟨_, rfl, by dsimp only; ring, fun j hj => ?_, fun d => ?_⟩
        · dsimp only
          rw [b2 j hj]
          rfl
        · rfl
      | succ m =>
        rw [List.getElem?_cons_succ] at hx
        obtain ⟨R, q1, q2, q3, q4⟩ := r3 m x hx
        refine ⟨R, by rw [List.getElem?_cons_succ]; exact q1, q2, fun j hj => ?_, fun d => ?_⟩
        · rw [q3 j hj, show m0 + 1 + m = m0 + (m + 1) by omega]
        · rw [q4, show m0 + 1 + m = m0 + (m + 1) by omega]

/-- The residual of one row. -/
theorem residual_eq {s : MSpline K (Fin D → K)} (n base fix : ℕ) (first : ℕ) (hbase : base = first + fix)
    (current : List (Fin D → K)) (hcur : ∀ c, c < fix → current.getD c 0 = s.vert (first + c))
    (rows : List (FitRow K D)) (m i : ℕ) (R : FitRow K D) (hR : rows[m]? = some R) (hk : s.order ≤ i + 1)
    (hcol : R.col = ((i + 1 - s.order : ℕ) : ℤ) - base) (hfirst : first ≤ i + 1 - s.order) (hin : i < base + n) (t w : K) (p : Fin D → K)
    (hbi : ∀ j < s.order, R.bi j = (piece s.kn i (s.order - 1) (i + 1 - s.order + j)).eval t * w)
    (htar : ∀ d, R.target d = p d * w) (x : ℕ → K) (d : Fin D) :
    mulV (n * D) (fitMatrix s.order rows) x (m * D + d) - fitVector s.order fix false current rows (m * D + d)
      = w * (s.curveVal (fullV n base D x s.vertN) i 0 t d - p d) := by
  have e1 : mulV (n * D) (fitMatrix s.order rows) x (m * D + d)
      = ∑ j ∈ range s.order, if 0 ≤ (j : ℤ) + R.col ∧ (j : ℤ) + R.col < n then R.bi j * x (((j : ℤ) + R.col).toNat * D + d) else 0 := by
    unfold mulV
    rw [sum_stacked, ← sum_shift_blocks n s.order R.col fun j c => R.bi j * x (c * D + d)]
    refine sum_congr rfl fun c hc => ?_
    rw [Finset.sum_eq_single (d : ℕ)]
    · unfold fitMatrix
      rw [stack_div m d d.2, hR]
      dsimp only
      rw [stack_mod m d d.2, stack_mod c d d.2, stack_div c d d.2]
      by_cases hc : R.col ≤ (c : ℤ) ∧ (c : ℤ) < R.col + s.order
      · rw [if_pos hc, if_pos ⟨rfl, by omega, by omega⟩]
      · rw [if_neg hc, if_neg (fun h => hc ⟨by omega, by omega⟩), zero_mul]
    · intro q hq hne
      unfold fitMatrix
      rw [stack_div m d d.2, hR]
      dsimp only
      rw [stack_mod m d d.2, stack_mod c q (mem_range.1 hq), if_neg (fun h => hne h.1.symm), zero_mul]
    · intro hh; exact absurd (mem_range.2 d.2) hh
  have e2 : fitVector s.order fix false current rows (m * D + d)
      = p d * w - ∑ j ∈ range s.order, if R.captured false j then current.getD ((fix : ℤ) + R.col + j).toNat 0 d * R.bi j else 0 := by
    unfold fitVector
    rw [stack_div m d d.2, hR]
    dsimp only
    rw [dif_pos (by rw [stack_mod m d d.2]; exact d.2)]
    have : (⟨(m * D + d) % D, by rw [stack_mod m d d.2]; exact d.2⟩ : Fin D) = d := Fin.ext (stack_mod m d d.2)
    rw [this, htar]
  rw [e1, e2]
  unfold curveVal
  rw [mul_sub, mul_sum, ← sub_add, sub_add_eq_add_sub, ← sum_add_distrib, mul_comm w (p d)]
  congr 1
  refine sum_congr rfl fun j hj => ?_
  have hj := mem_range.1 hj
  simp only [Function.iterate_zero, id]
  unfold FitRow.captured
  simp only [Bool.or_false, decide_eq_true_eq]
  unfold fullV
  by_cases hc : (j : ℤ) + R.col < 0
  · rw [if_neg (by omega), if_pos (by omega), if_neg (by omega), hbi j hj, vertN_fin, hcur _ (by omega)]
    rw [show first + ((fix : ℤ) + R.col + j).toNat = i + 1 - s.order + j by omega]
    ring
  · rw [if_pos (by omega), if_neg (by omega), if_pos (by omega), hbi j hj]
    rw [show ((j : ℤ) + R.col).toNat = i + 1 - s.order + j - base by omega]
    ring

end Field

end Verif.MSpline
