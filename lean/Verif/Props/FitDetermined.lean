import Verif.Props.SchoenbergWhitney
import Verif.Props.BothFitters

/-!
# Property C108: when a fit without regularisation is determined
-/

set_option linter.unusedSectionVars false

namespace Verif

open Finset Polynomial BSpline

variable {D : ℕ}

/-- All knots are different. -/
def StrictKnots (s : BSpline ℝ D) : Prop := ∀ a b, a < b → b < s.knots.length → s.kn a < s.kn b

/-- The values of all splines over the same knots as polynomials of one segment. -/
theorem val_seg {s : BSpline ℝ D} (h : s.WF) (hw : s.WideLast) (t : ℝ) (h1 : s.kn (s.order - 1) ≤ t) (h2 : t ≤ s.kn (s.knots.length - s.order)) :
    ∃ i, s.order - 1 ≤ i ∧ i < s.coeffs.length ∧ Zeros.At s.kn i t ∧ ∀ r : BSpline ℝ D, SharedKnots s r → ∀ d,
      val r t 0 d = (Zeros.seg s.kn (s.order - 1) (fun j => r.col j d) i).eval t := by
  have hc := h.coeffs_len
  have ha : s.Admissible t := admissible_of_wide t (WideLast.wide h hw) h1 h2
  obtain ⟨i, -, hi⟩ := lookup h t ha
  have g1 := hi.lower
  have g2 := hi.upper
  refine ⟨i, g1, by omega, ⟨hi.left, hi.le⟩, fun r hr d => ?_⟩
  have ha' : r.Admissible t := by
    unfold Admissible
    rw [hr.order, hr.knots, hr.kn_eq]
    exact ha
  have hi' : r.InSegment t i := by
    refine ⟨?_, ?_, ?_, ?_, ?_⟩
    · rw [hr.order]; exact hi.lower
    · rw [hr.order, hr.knots]; exact hi.upper
    · rw [hr.kn_eq]; exact hi.pos
    · rw [hr.kn_eq]; exact hi.left
    · rw [hr.order, hr.knots, hr.kn_eq]; exact hi.right
  unfold val evalD
  rw [if_neg (by omega), Int.toNat_natCast, evalDNat_of_inSegment hr.wf ha' hi' 0, hr.length_eq h, hr.order, hr.kn_eq,
    Zeros.seg_eval (N := s.coeffs.length) _ (by omega), Fin.sum_univ_eq_sum_range (fun j => r.col j d * (piece s.kn i (s.order - 1) j).eval t)]
  rfl

/-- With a data time for each coefficient only the zero curve is zero at all data times. -/
theorem zero_of_interlaced {s r : BSpline ℝ D} (h : s.WF) (hw : s.WideLast) (hs : StrictKnots s) (hr : SharedKnots s r) (times : List ℝ)
    (hin : ∀ t ∈ times, s.kn (s.order - 1) ≤ t ∧ t ≤ s.kn (s.knots.length - s.order))
    (hi : Spec.Interlaced s.order s.kn s.coeffs.length times) (d : Fin D) (hz : ∀ t ∈ times, val r t 0 d = 0) :
    ∀ j < s.coeffs.length, r.col j d = 0 := by
  have hk := h.order_pos
  have hn := h.enough
  have hc := h.coeffs_len
  obtain ⟨x, x1, x2⟩ := hi
  have hseg : ∀ j, ∃ i, j < s.coeffs.length → s.order - 1 ≤ i ∧ i < s.coeffs.length ∧ Zeros.At s.kn i (x j) ∧
      (Zeros.seg s.kn (s.order - 1) (fun j => r.col j d) i).eval (x j) = 0 := by
    intro j
    by_cases hj : j < s.coeffs.length
    · obtain ⟨ht, -⟩ := x2 j hj
      obtain ⟨i, a1, a2, a3, a4⟩ := val_seg h hw (x j) (hin _ ht).1 (hin _ ht).2
      exact ⟨i, fun _ => ⟨a1, a2, a3, by rw [← a4 r hr d]; exact hz _ ht⟩⟩
    · exact ⟨0, fun h => absurd h hj⟩
  choose sg hsg using hseg
  refine Zeros.zero_of_zeros (n := s.knots.length) (N := s.coeffs.length) (p := s.order - 1) h.mono (by omega) (by omega)
    (fun l h1 h2 => hs l (l + 1) (by omega) (by omega)) (fun j => r.col j d) x sg x1 (fun j hj => ?_) hsg
  have := (x2 j hj).2
  rw [show j + (s.order - 1) + 1 = j + s.order by omega]
  exact this

/-- Without a data time for each coefficient there is another curve that is zero at all data times. -/
theorem exists_vanishing {s : BSpline ℝ D} (h : s.WF) (hw : s.WideLast) (hs : StrictKnots s) (hD : 1 ≤ D) (times : List ℝ)
    (hin : ∀ t ∈ times, s.kn (s.order - 1) ≤ t ∧ t ≤ s.kn (s.knots.length - s.order))
    (hi : ¬ Spec.Interlaced s.order s.kn s.coeffs.length times) :
    ∃ q : BSpline ℝ D, SharedKnots s q ∧ (∀ t ∈ times, val q t 0 = 0) ∧ ∃ j < s.coeffs.length, q.col j ≠ 0 := by
  have hk := h.order_pos
  have hn := h.enough
  have hc := h.coeffs_len
  have hseg : ∀ t, ∃ i, t ∈ times → s.order - 1 ≤ i ∧ i < s.coeffs.length ∧ Zeros.At s.kn i t ∧ ∀ r : BSpline ℝ D, SharedKnots s r → ∀ d,
      val r t 0 d = (Zeros.seg s.kn (s.order - 1) (fun j => r.col j d) i).eval t := by
    intro t
    by_cases ht : t ∈ times
    · obtain ⟨i, a⟩ := val_seg h hw t (hin _ ht).1 (hin _ ht).2
      exact ⟨i, fun _ => a⟩
    · exact ⟨0, fun h => absurd h ht⟩
  choose sg hsg using hseg
  by_contra hno
  refine hi ?_
  have := Zeros.interlaced_of_determined (kn := s.kn) (n := s.knots.length) (N := s.coeffs.length) (p := s.order - 1) hs (by omega) (by omega)
    times sg (fun t ht => ⟨(hsg t ht).2.1, (hsg t ht).2.2.1⟩) (fun c hcz j hj => ?_)
  · rwa [show s.order - 1 + 1 = s.order by omega] at this
  · by_contra hne
    have hsh : SharedKnots s ({ s with coeffs := (List.range s.coeffs.length).map fun j _ => c j } : BSpline ℝ D) :=
      ⟨h.withCoeffs _ (by simp), rfl, rfl⟩
    refine hno ⟨_, hsh, ?_, j, hj, ?_⟩
    · intro t ht
      obtain ⟨b1, b2, b3, b4⟩ := hsg t ht
      funext d
      rw [b4 _ hsh d, Pi.zero_apply, ← hcz t ht]
      congr 1
      refine Zeros.seg_congr fun l _ hl => ?_
      unfold col
      rw [List.getD_eq_getElem?_getD, List.getElem?_map, List.getElem?_range (by omega)]
      rfl
    · intro h0
      have := congrFun h0 ⟨0, hD⟩
      unfold col at this
      dsimp only at this
      rw [List.getD_eq_getElem?_getD, List.getElem?_map, List.getElem?_range hj] at this
      exact hne this

/-- A curve that vanishes at all data times does not change the cost. -/
theorem cost_add {p q : BSpline ℝ D} (hp : p.WF) (hw : p.WideLast) (hq : SharedKnots p q) (data : List (ℝ × (Fin D → ℝ)))
    (hdata : ∀ o ∈ data, p.kn (p.order - 1) ≤ o.1 ∧ o.1 ≤ p.kn (p.knots.length - p.order)) (hz : ∀ o ∈ data, val q o.1 0 = 0) (e : ℝ) (der : ℕ)
    (lo hi : ℝ) : fitCost (comb p q 1 e) data 0 der lo hi = fitCost p data 0 der lo hi := by
  rw [fitCost_val, fitCost_val, zero_mul, zero_mul]
  congr 2
  refine List.map_congr_left fun o ho => ?_
  rw [val_comb hp hw hq 1 e o.1 (hdata o ho).1 (hdata o ho).2 0, hz o ho]
  simp

theorem coeffs_ext {p p' : BSpline ℝ D} (hl : p'.coeffs.length = p.coeffs.length) (h : ∀ j < p.coeffs.length, p'.col j = p.col j) :
    p'.coeffs = p.coeffs := by
  refine List.ext_getElem hl fun j h1 h2 => ?_
  have := h j h2
  unfold col at this
  rwa [List.getD_eq_getElem?_getD, List.getD_eq_getElem?_getD, List.getElem?_eq_getElem h1, List.getElem?_eq_getElem h2] at this

/-- **C108**: without a penalty at most one spline over given knots, all different, has the least sum of squared residuals, if there is a
data time strictly inside the support of each basis function, the times in the order of the basis functions. -/
theorem C108_unique (p p' : BSpline ℝ D) (hp : p.WF) (hw : p.WideLast) (hs : StrictKnots p) (hp' : SharedKnots p p')
    (data : List (ℝ × (Fin D → ℝ))) (hdata : ∀ o ∈ data, p.kn (p.order - 1) ≤ o.1 ∧ o.1 ≤ p.kn (p.knots.length - p.order))
    (hi : Spec.Interlaced p.order p.kn p.coeffs.length (data.map Prod.fst)) (der : ℕ)
    (hmin : Minimal data 0 der (p.kn (p.order - 1)) (p.kn (p.knots.length - p.order)) p)
    (hmin' : Minimal data 0 der (p.kn (p.order - 1)) (p.kn (p.knots.length - p.order)) p') : p'.coeffs = p.coeffs := by
  have hw' := hp'.wide hw
  set q := comb p p' 1 (-1) with hq
  have hsq : SharedKnots p q := comb_same hp hp' 1 (-1)
  have hsq' : SharedKnots p' q := ⟨hsq.wf, hp'.order.symm, hp'.knots.symm⟩
  have g1 := (minimal_iff hp hw data hdata 0 le_rfl _).1 hmin q hsq
  have g2 := (minimal_iff hp'.wf hw' data (by rw [hp'.kn_eq, hp'.order, hp'.knots]; exact hdata) 0 le_rfl der).1
    (by rw [hp'.kn_eq, hp'.order, hp'.knots]; exact hmin') q hsq'
  unfold slope at g1 g2
  rw [zero_mul, add_zero] at g1 g2
  have hvq : ∀ o ∈ data, val q o.1 0 = val p o.1 0 - val p' o.1 0 := by
    intro o ho
    rw [hq, val_comb hp hw hp' 1 (-1) o.1 (hdata o ho).1 (hdata o ho).2 0]
    funext d
    simp
    ring
  have hsum : (data.map fun o => ∑ d, val q o.1 0 d ^ 2).sum = 0 := by
    have : (data.map fun o => ∑ d, val q o.1 0 d ^ 2).sum = (data.map fun o => ∑ d, (val p o.1 0 d - o.2 d) * val q o.1 0 d).sum
        - (data.map fun o => ∑ d, (val p' o.1 0 d - o.2 d) * val q o.1 0 d).sum := by
      clear g1 g2 hmin hmin' hi
      induction data with
      | nil => simp
      | cons o l ih =>
        have ih := ih (fun x hx => hdata x (List.mem_cons_of_mem _ hx)) (fun x hx => hvq x (List.mem_cons_of_mem _ hx))
        have ho := hvq o List.mem_cons_self
        simp only [List.map_cons, List.sum_cons, ih]
        have : ∑ d, val q o.1 0 d ^ 2 = ∑ d, (val p o.1 0 d - o.2 d) * val q o.1 0 d - ∑ d, (val p' o.1 0 d - o.2 d) * val q o.1 0 d := by
          rw [← sum_sub_distrib]
          refine sum_congr rfl fun d _ => ?_
          rw [ho, Pi.sub_apply]
          ring
        rw [this]
        ring
    rw [this, g1, g2, sub_zero]
  have hz : ∀ o ∈ data, ∀ d, val q o.1 0 d = 0 := by
    intro o ho d
    have h0 := List.single_le_sum (l := data.map fun o => ∑ d, val q o.1 0 d ^ 2) (fun x hx => by
      obtain ⟨o, -, rfl⟩ := List.mem_map.1 hx
      exact sum_nonneg fun d _ => sq_nonneg _) _ (List.mem_map.2 ⟨o, ho, rfl⟩)
    rw [hsum] at h0
    replace h0 := le_antisymm h0 (sum_nonneg fun d _ => sq_nonneg _)
    exact pow_eq_zero_iff (two_ne_zero) |>.1 ((sum_eq_zero_iff_of_nonneg fun d _ => sq_nonneg _).1 h0 d (mem_univ d))
  refine coeffs_ext (hp'.length_eq hp) fun j hj => ?_
  have hcol := comb_col hp hp' 1 (-1) j hj
  funext d
  have h0 := zero_of_interlaced hp hw hs hsq (data.map Prod.fst) (fun t ht => by
    obtain ⟨o, ho, rfl⟩ := List.mem_map.1 ht
    exact hdata o ho) hi d (fun t ht => by
    obtain ⟨o, ho, rfl⟩ := List.mem_map.1 ht
    exact hz o ho d) j hj
  rw [← hq] at hcol
  rw [hcol] at h0
  simp at h0
  linarith

/-- **C108**: this condition is also necessary: otherwise every spline with the least sum of squared residuals has a rival with other
coefficients and the same residuals. -/
theorem C108_ambiguous (p : BSpline ℝ D) (hp : p.WF) (hw : p.WideLast) (hs : StrictKnots p) (hD : 1 ≤ D) (data : List (ℝ × (Fin D → ℝ)))
    (hdata : ∀ o ∈ data, p.kn (p.order - 1) ≤ o.1 ∧ o.1 ≤ p.kn (p.knots.length - p.order))
    (hi : ¬ Spec.Interlaced p.order p.kn p.coeffs.length (data.map Prod.fst)) (der : ℕ)
    (hmin : Minimal data 0 der (p.kn (p.order - 1)) (p.kn (p.knots.length - p.order)) p) :
    ∃ p', SharedKnots p p' ∧ Minimal data 0 der (p.kn (p.order - 1)) (p.kn (p.knots.length - p.order)) p' ∧
      (∀ o ∈ data, p'.eval o.1 = p.eval o.1) ∧ p'.coeffs ≠ p.coeffs := by
  obtain ⟨q, hq, hz, j, hj, hne⟩ := exists_vanishing hp hw hs hD (data.map Prod.fst) (fun t ht => by
    obtain ⟨o, ho, rfl⟩ := List.mem_map.1 ht
    exact hdata o ho) hi
  have hz' : ∀ o ∈ data, val q o.1 0 = 0 := fun o ho => hz _ (List.mem_map.2 ⟨o, ho, rfl⟩)
  have hsh := comb_same hp hq 1 1
  refine ⟨comb p q 1 1, hsh, fun r hr => ?_, fun o ho => ?_, fun hc => hne ?_⟩
  · rw [cost_add hp hw hq data hdata hz' 1]
    exact hmin r ⟨hr.wf, hr.order.trans hsh.order, hr.knots.trans hsh.knots⟩
  · have e1 := evalD_val hsh.wf (hsh.wide hw) o.1 (by rw [hsh.kn_eq, hsh.order]; exact (hdata o ho).1)
      (by rw [hsh.kn_eq, hsh.order, hsh.knots]; exact (hdata o ho).2) 0
    have e2 := evalD_val hp hw o.1 (hdata o ho).1 (hdata o ho).2 0
    unfold BSpline.eval
    rw [show (0 : ℤ) = ((0 : ℕ) : ℤ) from rfl, e1, e2, val_comb hp hw hq 1 1 o.1 (hdata o ho).1 (hdata o ho).2 0, hz' o ho]
    simp
  · have h1 := comb_col hp hq 1 1 j hj
    have h2 : (comb p q 1 1).col j = p.col j := by unfold col; rw [hc]
    rw [h2] at h1
    simpa using h1

/-- **C108**: with exactly as many data as coefficients the curve of least residuals passes through all data. -/
theorem C108_interpolates (p : BSpline ℝ D) (hp : p.WF) (hw : p.WideLast) (hs : StrictKnots p) (data : List (ℝ × (Fin D → ℝ)))
    (hdata : ∀ o ∈ data, p.kn (p.order - 1) ≤ o.1 ∧ o.1 ≤ p.kn (p.knots.length - p.order)) (hlen : data.length = p.coeffs.length)
    (hi : Spec.Interlaced p.order p.kn p.coeffs.length (data.map Prod.fst)) (der : ℕ)
    (hmin : Minimal data 0 der (p.kn (p.order - 1)) (p.kn (p.knots.length - p.order)) p) : ∀ o ∈ data, p.eval o.1 = .ok o.2 := by
  have hw1 : ∀ i : Fin data.length, ∃ w : ℕ → ℕ → ℝ, ∀ (E : ℕ) (r : BSpline ℝ E), SharedKnots p r → ∀ der d,
      val r (data.get i).1 der d = ∑ j ∈ range p.coeffs.length, r.col j d * w der j := fun i =>
    val_weights hp hw _ (hdata _ (List.get_mem data i)).1 (hdata _ (List.get_mem data i)).2
  choose w hwt using hw1
  let L : (Fin data.length → ℝ) →ₗ[ℝ] (Fin data.length → ℝ) :=
    { toFun := fun c i => ∑ j, c j * w i 0 j
      map_add' := fun x y => by
        funext i
        simp only [Pi.add_apply, add_mul, sum_add_distrib]
      map_smul' := fun a x => by
        funext i
        simp only [Pi.smul_apply, smul_eq_mul, mul_assoc, RingHom.id_apply, mul_sum] }
  let mk : (Fin D → Fin data.length → ℝ) → BSpline ℝ D := fun c =>
    { p with coeffs := (List.range p.coeffs.length).map fun j d => if h : j < data.length then c d ⟨j, h⟩ else 0 }
  have hmk : ∀ c, SharedKnots p (mk c) := fun c => ⟨hp.withCoeffs _ (by simp), rfl, rfl⟩
  have hcol : ∀ c (j : Fin data.length) d, (mk c).col j d = c d j := by
    intro c j d
    unfold col
    have hj : (j : ℕ) < p.coeffs.length := by rw [← hlen]; exact j.2
    dsimp only [mk]
    rw [List.getD_eq_getElem?_getD, List.getElem?_map, List.getElem?_range hj]
    simp
  have hval : ∀ c (i : Fin data.length) d, val (mk c) (data.get i).1 0 d = L (c d) i := by
    intro c i d
    rw [hwt i D (mk c) (hmk c) 0 d, ← hlen, ← Fin.sum_univ_eq_sum_range (fun j => (mk c).col j d * w i 0 j)]
    change _ = ∑ j, c d j * w i 0 j
    exact sum_congr rfl fun j _ => by rw [hcol]
  have htimes : ∀ t ∈ data.map Prod.fst, p.kn (p.order - 1) ≤ t ∧ t ≤ p.kn (p.knots.length - p.order) := fun t ht => by
    obtain ⟨o, ho, rfl⟩ := List.mem_map.1 ht
    exact hdata o ho
  rcases Nat.eq_zero_or_pos D with hD0 | hD
  · subst hD0
    intro o ho
    unfold BSpline.eval
    rw [show (0 : ℤ) = ((0 : ℕ) : ℤ) from rfl, evalD_val hp hw o.1 (hdata o ho).1 (hdata o ho).2 0]
    exact congrArg Outcome.ok (funext fun d => d.elim0)
  have hinj : Function.Injective L := by
    rw [← LinearMap.ker_eq_bot, LinearMap.ker_eq_bot']
    intro c hc
    funext j
    have := zero_of_interlaced hp hw hs (hmk fun _ => c) (data.map Prod.fst) htimes hi ⟨0, hD⟩ (fun t ht => by
      obtain ⟨o, ho, rfl⟩ := List.mem_map.1 ht
      obtain ⟨i, rfl⟩ := List.get_of_mem ho
      rw [hval, hc]
      rfl) j (by rw [← hlen]; exact j.2)
    rwa [hcol] at this
  have hsurj := LinearMap.injective_iff_surjective.1 hinj
  choose c hc using fun d => hsurj fun i => (data.get i).2 d
  have hcost : fitCost (mk c) data 0 der (p.kn (p.order - 1)) (p.kn (p.knots.length - p.order)) = 0 := by
    rw [fitCost_val, zero_mul, add_zero]
    refine List.sum_eq_zero fun x hx => ?_
    obtain ⟨o, ho, rfl⟩ := List.mem_map.1 hx
    obtain ⟨i, rfl⟩ := List.get_of_mem ho
    refine sum_eq_zero fun d _ => ?_
    rw [hval, hc]
    ring
  exact (zero_cost_meets hp hw data hdata 0 le_rfl der ((hmin _ (hmk c)).trans hcost.le)).1

/-! ### The initialisations -/

/-- Knot `i` of the splines that are initialised from data between the times `a` and `b`. -/
noncomputable def Spec.evenKnot (order n : ℕ) (a b : ℝ) (i : ℕ) : ℝ := a + ((i : ℝ) - (order : ℝ) + 1) * ((b - a) / n)

theorem interlaced_congr {k n : ℕ} {kn kn' : ℕ → ℝ} {times : List ℝ} (h : ∀ j < n + k, kn j = kn' j) :
    Spec.Interlaced k kn n times ↔ Spec.Interlaced k kn' n times := by
  unfold Spec.Interlaced
  refine exists_congr fun x => and_congr Iff.rfl (forall_congr' fun j => forall_congr' fun hj => ?_)
  rw [h j (by omega), h (j + k) (by omega)]

theorem UniformOn.strict {s : BSpline ℝ D} {order n : ℕ} {a b : ℝ} (hu : UniformOn s order n a b) (hpos : 0 < (b - a) / n) : StrictKnots s := by
  intro i j hij hj
  rw [hu.length_eq] at hj
  rw [hu.kn_eq i (by omega), hu.kn_eq j hj]
  have : (i : ℝ) < j := by exact_mod_cast hij
  nlinarith

theorem UniformOn.interlaced {s : BSpline ℝ D} (h : s.WF) {order n : ℕ} {a b : ℝ} (hu : UniformOn s order n a b) (times : List ℝ) :
    Spec.Interlaced s.order s.kn s.coeffs.length times ↔ Spec.Interlaced order (Spec.evenKnot order n a b) (n + order - 1) times := by
  have hc := h.coeffs_len
  have hk := h.order_pos
  have h1 := hu.order_eq
  have h2 := hu.length_eq
  have h3 : s.coeffs.length = n + order - 1 := by omega
  rw [h3, h1]
  exact interlaced_congr fun j hj => hu.kn_eq j (by omega)

theorem minimal_penalty {p : BSpline ℝ D} {data : List (ℝ × (Fin D → ℝ))} {der : ℕ} {lo hi : ℝ} (der' : ℕ) (h : Minimal data 0 der lo hi p) :
    Minimal data 0 der' lo hi p := by
  intro r hr
  have := h r hr
  unfold fitCost at this ⊢
  simpa using this

/-- **C108**: with weight zero and a data time for each coefficient the initialisations from data have one result: it does not depend on
whether the equations are dense or sparse, on the solver, on the content of the spline before, or on the order of observations at the
same time; and the manifold class computes the same coefficients, also for order two.  If there are only as many data as coefficients, both
curves pass through all data. -/
theorem C108_fit (dense : Bool) (solve solve' solve'' : Solver ℝ) (hsolve : SolvesSemidefinite solve) (hsolve' : SolvesSemidefinite solve')
    (hsolve'' : SolvesSemidefinite solve'') (s r : BSpline ℝ D) (ho : r.order = s.order) (data data' : List (ℝ × (Fin D → ℝ)))
    (hperm : data.Perm data') (n : ℕ) (hin : FitInput s data n) (hin' : FitInput r data' n)
    (hi : Spec.Interlaced s.order (Spec.evenKnot s.order n (firstTime data) (lastTime data)) (n + s.order - 1) (data.map Prod.fst)) :
    ∃ (b b' : BSpline ℝ D) (m : MSpline ℝ (Fin D → ℝ)), s.initSpline3 solve data n 0 = .ok b ∧ s.initSplineSparse solve data n 0 = .ok b ∧
      r.initSpline3 solve' data' n 0 = .ok b' ∧ r.initSplineSparse solve' data' n 0 = .ok b' ∧
      (MSpline.create s.order).initUniformFitTimes dense solve'' id (euclidean ℝ (Fin D → ℝ)) (fieldPolicy ℝ) (data.map Prod.fst)
        (data.map Prod.snd) n 0 = (.ok (), m) ∧
      b'.order = b.order ∧ b'.knots = b.knots ∧ b'.coeffs = b.coeffs ∧ SameSpline b m ∧
      (data.length = n + s.order - 1 → ∀ o ∈ data, b.eval o.1 = .ok o.2 ∧ m.euclideanEval o.1 = .ok o.2) := by
  obtain ⟨b, m, v, h1, h2, h3, hb, hw, lo, hihi, hst, hbo, hm, he, hord, hkn, m1, m2⟩ := both_minimal dense solve solve'' hsolve hsolve'' s data n
    hin 0 le_rfl
  obtain ⟨s', a1, a2, a3, a4, a5⟩ := fit_minimal solve hsolve s data n hin 0 le_rfl
  obtain rfl : b = s' := Outcome.ok.inj (h1.symm.trans a1)
  obtain ⟨r', b1, b2, b3, b4, b5⟩ := fit_minimal solve' hsolve' r data' n hin' 0 le_rfl
  have ht := perm_times hperm hin.sorted hin'.sorted
  have hf : firstTime data' = firstTime data := by unfold firstTime; rw [ht]
  have hla : lastTime data' = lastTime data := by unfold lastTime; rw [ht, hperm.length_eq]
  rw [ho, hf, hla] at b4
  have hsame := a4.same b3 b4
  have hs : StrictKnots b := a4.strict (lt_of_lt_of_le (by norm_num) hin.wide)
  have hi' := (a4.interlaced hb (data.map Prod.fst)).2 hi
  have hdata : ∀ o ∈ data, b.kn (b.order - 1) ≤ o.1 ∧ o.1 ≤ b.kn (b.knots.length - b.order) := by
    rw [lo, hihi]; exact times_between data hin.sorted
  have hc := C108_unique b (plain b v) hb hw hs (plain_shared hb v) data hdata hi' 2 (minimal_penalty 2 m1) m2
  have hss := plain_coeffs (plain_same hb hord hkn v) hc.symm
  refine ⟨b, r', m.withVerts v, h1, h2, b1, b2, h3, hsame.order, hsame.knots, ?_, hss, fun hlen o hod => ?_⟩
  · refine C108_unique b r' hb hw hs hsame data hdata hi' _ m1 ?_
    rw [hsame.kn_eq, hsame.order, hsame.knots] at b5
    intro q hq
    rw [fitCost_perm _ hperm, fitCost_perm _ hperm]
    exact b5 q hq
  · have hcl := hb.coeffs_len
    have hkl := a4.length_eq
    have hbn := hb.order_pos
    have e := C108_interpolates b hb hw hs data hdata (by omega) hi' _ m1 o hod
    refine ⟨e, ?_⟩
    have e2 := hss.eval hb hw (MSpline.withVerts_mwf hm v) he o.1 (hdata o hod).1 (hdata o hod).2 0
    rw [Nat.cast_zero] at e2
    unfold MSpline.euclideanEval
    rw [e2]
    exact e

theorem mulV_gram_zero {m n : ℕ} {A : Mat ℝ} {v : ℕ → ℝ} (h : ∀ r < m, mulV n A v r = 0) (r : ℕ) : mulV n (gram m A) v r = 0 := by
  have : mulV n (gram m A) v r = ∑ k ∈ range m, A k r * mulV n A v k := by
    unfold mulV gram matMul matT
    simp only [sum_mul, mul_sum]
    rw [sum_comm]
    exact sum_congr rfl fun _ _ => sum_congr rfl fun _ _ => by ring
  rw [this]
  exact sum_eq_zero fun k hk => by rw [h k (mem_range.1 hk), mul_zero]

theorem mulV_of_bil_zero {n : ℕ} {Q : Mat ℝ} (hs : ∀ p < n, ∀ q < n, Q p q = Q q p) (hz : ∀ x, bil n Q x x = 0) (v : ℕ → ℝ) (r : ℕ) (hr : r < n) :
    mulV n Q v r = 0 := by
  have h0 : ∀ x, bil n Q x v = 0 := by
    intro x
    have h1 := bil_sub_sub n Q x v
    rw [hz, hz x, hz v, bil_symm hs v x] at h1
    linarith
  have := h0 (fun q => if q = r then 1 else 0)
  rw [bil_eq_dot, Finset.sum_eq_single r] at this
  · simpa using this
  · intro b _ hb
    simp [hb]
  · intro hn
    exact absurd (mem_range.2 hr) hn

/-- The solver that adds `v` where this keeps a solution. -/
noncomputable def shiftSolver (solve : Solver ℝ) (v : ℕ → ℝ) : Solver ℝ := fun n A b =>
  open Classical in if ∀ r < n, mulV n A v r = 0 then fun q => solve n A b q + v q else solve n A b

theorem mulV_add (n : ℕ) (A : Mat ℝ) (x y : ℕ → ℝ) (r : ℕ) : mulV n A (fun q => x q + y q) r = mulV n A x r + mulV n A y r := by
  unfold mulV
  rw [← sum_add_distrib]
  exact sum_congr rfl fun q _ => by ring

theorem shiftSolver_semidefinite {solve : Solver ℝ} (h : SolvesSemidefinite solve) (v : ℕ → ℝ) : SolvesSemidefinite (shiftSolver solve v) := by
  intro n A b h1 h2 h3 r hr
  unfold shiftSolver
  split_ifs with hz
  · rw [mulV_add, hz r hr, add_zero]
    exact h n A b h1 h2 h3 r hr
  · exact h n A b h1 h2 h3 r hr

/-- **C108**: without a data time for each coefficient the result of an initialisation with weight zero depends on the solver: for each
solver there is another one, as good as the first, with another result. -/
theorem C108_fit_ambiguous (solve : Solver ℝ) (hsolve : SolvesSemidefinite solve) (s : BSpline ℝ D) (data : List (ℝ × (Fin D → ℝ))) (n : ℕ)
    (hin : FitInput s data n)
    (hi : ¬ Spec.Interlaced s.order (Spec.evenKnot s.order n (firstTime data) (lastTime data)) (n + s.order - 1) (data.map Prod.fst)) :
    ∃ (solve' : Solver ℝ) (b b' : BSpline ℝ D), SolvesSemidefinite solve' ∧ s.initSpline3 solve data n 0 = .ok b ∧
      s.initSpline3 solve' data n 0 = .ok b' ∧ b'.order = b.order ∧ b'.knots = b.knots ∧ b'.coeffs ≠ b.coeffs := by
  have hn := hin.segments
  have hD := hin.dim
  obtain ⟨s1, hp, hwf, h1, h2, h3, h4, h5, h6, h7⟩ := prepareUniform_ok s hin.order data hin.two hin.sorted n hn hin.old hin.lt.le
  have hu1 : UniformOn s1 s.order n (firstTime data) (lastTime data) :=
    ⟨h1, h2, fun i hi => prepareUniform_knots hin.order hp i (by omega)⟩
  obtain ⟨f1, f2, f3, f4⟩ := hu1.facts hwf hn hin.wide
  have hdata : ∀ o ∈ data, s1.kn (s1.order - 1) ≤ o.1 ∧ o.1 ≤ s1.kn (s1.knots.length - s1.order) := by
    rw [f1, f2]; exact times_between data hin.sorted
  obtain ⟨q, hq, hz, j, hj, hne⟩ := exists_vanishing hwf f3 (hu1.strict (lt_of_lt_of_le (by norm_num) hin.wide)) hD (data.map Prod.fst)
    (fun t ht => by
      obtain ⟨o, ho, rfl⟩ := List.mem_map.1 ht
      exact hdata o ho) (fun h => hi ((hu1.interlaced hwf _).1 h))
  set v : ℕ → ℝ := fun p => q.coefficientVector.getD p 0 with hv
  have hvj : ∀ l < s1.coeffs.length, ∀ d : Fin D, v (l * D + d) = q.col l d := fun l hl d => by
    have := stacked_at q l (by rw [hq.length_eq hwf]; exact hl) d
    exact this
  obtain ⟨Q, hQ, hQs, hQp, hQi⟩ := regulariser hwf f3 0 le_rfl (if s1.order = 2 then 1 else 2) _ _ h5 h6
  obtain ⟨rows, hrows, -, hspec⟩ := blockRows_spec hwf s1.firstIndex (dataConstraints data) (by
    intro c hc
    unfold dataConstraints at hc
    obtain ⟨o, ho, rfl⟩ := List.mem_map.1 hc
    obtain ⟨i, hT, hii⟩ := lookup hwf o.1 (admissible_of_wide _ (WideLast.wide hwf f3) (hdata o ho).1 (hdata o ho).2)
    exact ⟨le_rfl, _, _, hT, hii.lower, hii.upper, firstIndex_ok hwf hD _ _ _ hT hii.lower⟩)
  have hcost := blockRows_cost (dataConstraints data) rows hspec
  have hlen : (dataConstraints data).length = data.length := by simp [dataConstraints]
  rw [hlen] at hcost
  have hshare : ∀ y, SharedKnots s1 (s1.withVec y) := fun y => ⟨withVec_wf hwf y, rfl, rfl⟩
  -- a multiple of the curve `q` does not change the residuals
  have hsq : ∀ e : ℝ, squares (s1.withVec fun p => e * v p) (dataConstraints data) = (data.map fun o => ∑ d, (o.2 d) ^ 2).sum := by
    intro e
    rw [squares_data]
    congr 1
    refine List.map_congr_left fun o ho => sum_congr rfl fun d _ => ?_
    have h0 : val (s1.withVec fun p => e * v p) o.1 0 d = 0 := by
      obtain ⟨w, hwt⟩ := val_weights hwf f3 o.1 (hdata o ho).1 (hdata o ho).2
      rw [hwt D _ (hshare _) 0 d]
      have hq0 := hwt D q hq 0 d
      rw [hz o.1 (List.mem_map.2 ⟨o, ho, rfl⟩), Pi.zero_apply] at hq0
      rw [← mul_zero e, hq0, mul_sum]
      refine sum_congr rfl fun l hl => ?_
      rw [withVec_col s1 _ l (mem_range.1 hl) d, hvj l (mem_range.1 hl) d]
      ring
    have h0' : (BSpline.eval (s1.withVec fun p => e * v p) o.1).getD 0 d = 0 := h0
    rw [h0']
    ring
  set N := s1.coeffs.length * D with hN
  set A := rowsMat (s1.order * D) rows with hA
  have hAv : ∀ r < data.length * D, mulV N A v r = 0 := by
    have e1 := hcost fun p => 1 * v p
    have e2 := hcost fun p => (-1) * v p
    have e0 := hcost fun p => 0 * v p
    rw [hsq] at e0 e1 e2
    have hlin : ∀ (e : ℝ) r, mulV N A (fun p => e * v p) r = e * mulV N A v r := by
      intro e r
      unfold mulV
      rw [mul_sum]
      exact sum_congr rfl fun _ _ => by ring
    simp only [hlin] at e0 e1 e2
    have e3 : ∑ r ∈ range (data.length * D), (mulV N A v r) ^ 2 = 0 := by
      have : ∑ r ∈ range (data.length * D), (mulV N A v r) ^ 2 =
          (∑ r ∈ range (data.length * D), (1 * mulV N A v r - rowsVec rows r) ^ 2
            + ∑ r ∈ range (data.length * D), (-1 * mulV N A v r - rowsVec rows r) ^ 2) / 2
            - ∑ r ∈ range (data.length * D), (0 * mulV N A v r - rowsVec rows r) ^ 2 := by
        rw [← sum_add_distrib, sum_div, ← sum_sub_distrib]
        exact sum_congr rfl fun r _ => by ring
      rw [this, e0, e1, e2]
      ring
    intro r hr
    exact pow_eq_zero_iff two_ne_zero |>.1 ((sum_eq_zero_iff_of_nonneg fun d _ => sq_nonneg _).1 e3 r (mem_range.2 hr))
  have hker : ∀ r < N, mulV N (fun p q => gram (data.length * D) A p q + Q p q) v r = 0 := by
    intro r hr
    rw [mulV_add_mat, mulV_gram_zero hAv, mulV_of_bil_zero hQs (fun x => by rw [hQi x, zero_mul]) v r hr, add_zero]
  have hres : ∀ sv : Solver ℝ, s.initSpline3 sv data n 0 = .ok (s1.withVec (sv N (fun p q => gram (data.length * D) A p q + Q p q)
      (transposeVec (data.length * D) A (rowsVec rows)))) := by
    intro sv
    unfold initSpline3
    rw [hp]
    simp only [Outcome.bind_ok]
    unfold fitRegularised
    rw [hrows]
    simp only [Outcome.bind_ok]
    rw [hQ]
    simp only [Outcome.bind_ok]
    exact setSolved_eq s1 sv _ _
  refine ⟨shiftSolver solve v, _, _, shiftSolver_semidefinite hsolve v, hres solve, hres _, rfl, rfl, fun hc => hne ?_⟩
  funext d
  have hcol : (s1.withVec (shiftSolver solve v N (fun p q => gram (data.length * D) A p q + Q p q)
      (transposeVec (data.length * D) A (rowsVec rows)))).col j d = (s1.withVec (solve N (fun p q => gram (data.length * D) A p q + Q p q)
      (transposeVec (data.length * D) A (rowsVec rows)))).col j d := by
    unfold col
    rw [hc]
  rw [withVec_col s1 _ j hj d, withVec_col s1 _ j hj d] at hcol
  unfold shiftSolver at hcol
  rw [if_pos hker] at hcol
  rw [hvj j hj d] at hcol
  simpa using hcol

/-- **C108** for knots given by the caller, all different. -/
theorem C108_knots (solve solve' : Solver ℝ) (hsolve : SolvesSemidefinite solve) (hsolve' : SolvesSemidefinite solve') (s r : BSpline ℝ D)
    (ho : 2 ≤ s.order) (hor : r.order = s.order) (hD : 1 ≤ D) (data : List (ℝ × (Fin D → ℝ))) (hlen : 2 ≤ data.length)
    (hs : (data.map Prod.fst).Pairwise (· ≤ ·)) (knots : List ℝ) (hks : knots.Pairwise (· < ·)) (hkl : 2 * s.order ≤ knots.length)
    (hold : s.knots.length ≤ knots.length) (hold' : r.knots.length ≤ knots.length)
    (hwide : 1 / 10 ^ 10 ≤ knots.getD (knots.length - s.order) 0 - knots.getD (knots.length - s.order - 1) 0)
    (hin : ∀ o ∈ data, knots.getD (s.order - 1) 0 ≤ o.1 ∧ o.1 ≤ knots.getD (knots.length - s.order) 0)
    (hi : Spec.Interlaced s.order (fun i => knots.getD i 0) (knots.length - s.order) (data.map Prod.fst)) :
    ∃ b b', s.initSplineSparseKnots solve data knots 0 = .ok b ∧ r.initSplineSparseKnots solve' data knots 0 = .ok b' ∧
      b.order = s.order ∧ b'.order = s.order ∧ b.knots = knots ∧ b'.knots = knots ∧ b'.coeffs = b.coeffs ∧
      (data.length = knots.length - s.order → ∀ o ∈ data, b.eval o.1 = .ok o.2) := by
  have hle := hks.imp fun {a b} (h : a < b) => h.le
  obtain ⟨b, a1, a2, a3, a4, a5⟩ := C19_given_knots_optimal solve hsolve s ho hD data hlen hs knots hle hkl hold hwide hin 0 le_rfl
  obtain ⟨b', b1, b2, b3, b4, b5⟩ := C19_given_knots_optimal solve' hsolve' r (by omega) hD data hlen hs knots hle (by omega) hold'
    (by rw [hor]; exact hwide) (by rw [hor]; exact hin) 0 le_rfl
  have hsame : SharedKnots b b' := ⟨b2, b3.trans (hor.trans a3.symm), b4.trans a4.symm⟩
  have hkn : ∀ i, b.kn i = knots.getD i 0 := fun i => by unfold kn; rw [a4]
  have hkn' : b.kn = fun i => knots.getD i 0 := funext hkn
  have hw : b.WideLast := by
    intro x y hxy
    obtain ⟨i, i1, i2, rfl, rfl, i3⟩ := timeIntervalOf_eq a2 hxy
    unfold numValidTimeSegments numValidTimeSegmentsOf at i3
    rw [a3, a4] at i3
    have e : i = knots.length - s.order - 1 := by omega
    subst e
    rw [hkn, hkn, show knots.length - s.order - 1 + 1 = knots.length - s.order by omega]
    exact hwide
  have hst : StrictKnots b := by
    intro i j hij hj
    rw [hkn, hkn]
    rw [a4] at hj
    rw [List.getD_eq_getElem?_getD, List.getD_eq_getElem?_getD, List.getElem?_eq_getElem (by omega), List.getElem?_eq_getElem hj]
    exact List.pairwise_iff_getElem.1 hks i j (by omega) hj hij
  have hcl := a2.coeffs_len
  have hN : b.coeffs.length = knots.length - s.order := by rw [a4, a3] at hcl; omega
  have hi' : Spec.Interlaced b.order b.kn b.coeffs.length (data.map Prod.fst) := by rw [a3, hN, hkn']; exact hi
  have hdata : ∀ o ∈ data, b.kn (b.order - 1) ≤ o.1 ∧ o.1 ≤ b.kn (b.knots.length - b.order) := by
    rw [hkn, hkn, a3, a4]; exact hin
  have m1 : Minimal data 0 (if b.order = 2 then 1 else 2) (b.kn (b.order - 1)) (b.kn (b.knots.length - b.order)) b := by
    refine minimal_of_lists a2 hw hdata fun cs hcs => ?_
    rw [hkn, hkn]
    have := a5 cs hcs
    rw [← a3] at this
    rw [show knots.length = b.knots.length by rw [a4]] at this
    exact this
  have m2 : Minimal data 0 (if b'.order = 2 then 1 else 2) (b'.kn (b'.order - 1)) (b'.kn (b'.knots.length - b'.order)) b' := by
    refine minimal_of_lists b2 (hsame.wide hw) (fun o ho => ?_) fun cs hcs => ?_
    · rw [hsame.kn_eq, hsame.order, hsame.knots]
      exact hdata o ho
    · rw [hsame.kn_eq, hkn, hkn]
      have := b5 cs hcs
      rw [← b3] at this
      rw [show knots.length = b'.knots.length by rw [b4]] at this
      exact this
  rw [hsame.kn_eq, hsame.order, hsame.knots] at m2
  exact ⟨b, b', a1, b1, a3, b3.trans hor, a4, b4, C108_unique b b' a2 hw hst hsame data hdata hi' _ m1 m2, fun hl =>
    C108_interpolates b a2 hw hst data hdata (by omega) hi' _ m1⟩

/-! ### Two simple criteria -/

theorem strictMono_steps {n : ℕ} {x : ℕ → ℝ} (h : ∀ j, j + 1 < n → x j < x (j + 1)) (i j : ℕ) (hij : i < j) (hj : j < n) : x i < x j := by
  induction j with
  | zero => omega
  | succ j ih =>
    rcases Nat.lt_succ_iff_lt_or_eq.1 hij with h' | rfl
    · exact (ih h' (by omega)).trans (h j hj)
    · exact h i hj

/-- **C108**: there must be as many different data times as coefficients. -/
theorem C108_few (k n : ℕ) (kn : ℕ → ℝ) (times : List ℝ) (h : Spec.Interlaced k kn n times) : n ≤ times.toFinset.card := by
  obtain ⟨x, h1, h2⟩ := h
  rw [← card_range n]
  refine card_le_card_of_injOn x (fun j hj => ?_) fun i hi j hj hij => ?_
  · simpa using (h2 j (mem_range.1 (by simpa using hj))).1
  · have hi' : i < n := by simpa using hi
    have hj' : j < n := by simpa using hj
    rcases lt_trichotomy i j with h | h | h
    · exact absurd hij (strictMono_steps h1 i j h hj').ne
    · exact h
    · exact absurd hij (strictMono_steps h1 j i h hi').ne'

/-- **C108**: it suffices that one segment holds as many different data times as the order, and each other one holds one. -/
theorem C108_enough (k n : ℕ) (hk : 2 ≤ k) (kn : ℕ → ℝ) (hkn : ∀ i j, i < j → j < n + k → kn i < kn j) (times : List ℝ) (a : ℕ) (ha : k - 1 ≤ a)
    (han : a < n) (y : ℕ → ℝ) (hy : ∀ l, l + 1 < k → y l < y (l + 1)) (hyt : ∀ l < k, y l ∈ times ∧ kn a ≤ y l ∧ y l ≤ kn (a + 1))
    (hleft : ∀ i, k - 1 ≤ i → i < a → ∃ t ∈ times, kn i ≤ t ∧ t < kn (i + 1))
    (hright : ∀ i, a < i → i < n → ∃ t ∈ times, kn i < t ∧ t ≤ kn (i + 1)) : Spec.Interlaced k kn n times := by
  have hL : ∀ i, ∃ t, k - 1 ≤ i → i < a → t ∈ times ∧ kn i ≤ t ∧ t < kn (i + 1) := fun i => by
    by_cases h : k - 1 ≤ i ∧ i < a
    · obtain ⟨t, ht⟩ := hleft i h.1 h.2
      exact ⟨t, fun _ _ => ht⟩
    · exact ⟨0, fun h1 h2 => absurd ⟨h1, h2⟩ h⟩
  have hR : ∀ i, ∃ t, a < i → i < n → t ∈ times ∧ kn i < t ∧ t ≤ kn (i + 1) := fun i => by
    by_cases h : a < i ∧ i < n
    · obtain ⟨t, ht⟩ := hright i h.1 h.2
      exact ⟨t, fun _ _ => ht⟩
    · exact ⟨0, fun h1 h2 => absurd ⟨h1, h2⟩ h⟩
  choose L hL using hL
  choose R hR using hR
  have hle : ∀ i j, i ≤ j → j < n + k → kn i ≤ kn j := fun i j hij hj => by
    rcases hij.eq_or_lt with rfl | h
    · exact le_rfl
    · exact (hkn i j h hj).le
  refine ⟨fun j => if j + k ≤ a then L (j + k - 1) else if j ≤ a then y (j + k - 1 - a) else R j, fun j hj => ?_, fun j hj => ?_⟩
  · dsimp only
    by_cases c1 : j + 1 + k ≤ a
    · rw [if_pos (by omega), if_pos c1]
      have e1 := (hL (j + k - 1) (by omega) (by omega)).2.2
      have e2 := (hL (j + 1 + k - 1) (by omega) (by omega)).2.1
      rw [show j + k - 1 + 1 = j + 1 + k - 1 by omega] at e1
      linarith
    · rw [if_neg c1]
      by_cases c2 : j + k ≤ a
      · rw [if_pos c2, if_pos (by omega)]
        have e1 := (hL (j + k - 1) (by omega) (by omega)).2.2
        have e2 := (hyt (j + 1 + k - 1 - a) (by omega)).2.1
        rw [show j + k - 1 + 1 = a by omega] at e1
        linarith
      · rw [if_neg c2]
        by_cases c3 : j + 1 ≤ a
        · rw [if_pos c3, if_pos (by omega), show j + 1 + k - 1 - a = j + k - 1 - a + 1 by omega]
          exact hy _ (by omega)
        · rw [if_neg c3]
          by_cases c4 : j ≤ a
          · rw [if_pos c4]
            obtain rfl : j = a := by omega
            have e1 := (hyt (j + k - 1 - j) (by omega)).2.2
            have e2 := (hR (j + 1) (by omega) hj).2.1
            linarith
          · rw [if_neg c4]
            have e1 := (hR j (by omega) (by omega)).2.2
            have e2 := (hR (j + 1) (by omega) hj).2.1
            linarith
  · dsimp only
    by_cases c1 : j + k ≤ a
    · rw [if_pos c1]
      obtain ⟨e1, e2, e3⟩ := hL (j + k - 1) (by omega) (by omega)
      rw [show j + k - 1 + 1 = j + k by omega] at e3
      exact ⟨e1, lt_of_lt_of_le (hkn _ _ (by omega) (by omega)) e2, e3⟩
    · rw [if_neg c1]
      by_cases c2 : j ≤ a
      · rw [if_pos c2]
        obtain ⟨e1, e2, e3⟩ := hyt (j + k - 1 - a) (by omega)
        refine ⟨e1, ?_, ?_⟩
        · rcases c2.eq_or_lt with rfl | h
          · have g := (hyt 0 (by omega)).2.1
            exact lt_of_le_of_lt g (strictMono_steps hy 0 _ (by omega) (by omega))
          · exact lt_of_lt_of_le (hkn _ _ h (by omega)) e2
        · rcases Nat.lt_or_ge (a + 1) (j + k) with h | h
          · exact lt_of_le_of_lt e3 (hkn _ _ h (by omega))
          · have g := (hyt (k - 1) (by omega)).2.2
            rw [show j + k = a + 1 by omega]
            exact lt_of_lt_of_le (strictMono_steps hy _ (k - 1) (by omega) (by omega)) g
      · rw [if_neg c2]
        obtain ⟨e1, e2, e3⟩ := hR j (by omega) hj
        exact ⟨e1, e2, lt_of_le_of_lt e3 (hkn _ _ (by omega) (by omega))⟩

/-! ### Examples -/

/-- Order three, two segments between the times 0 and 4: four coefficients and four data. -/
theorem example_interlaced : Spec.Interlaced 3 (Spec.evenKnot 3 2 0 4) 4 [0, 1, 2, 4] := by
  refine C108_enough 3 4 (by norm_num) _ (fun i j hij _ => ?_) _ 2 (by norm_num) (by norm_num) (fun l => l) (fun l _ => by simp) (fun l hl => ?_)
    (fun i h1 h2 => by omega) fun i h1 h2 => ?_
  · unfold Spec.evenKnot
    have : (i : ℝ) < j := by exact_mod_cast hij
    norm_num
    linarith
  · unfold Spec.evenKnot
    interval_cases l <;> norm_num
  · obtain rfl : i = 3 := by omega
    exact ⟨4, by simp, by unfold Spec.evenKnot; norm_num, by unfold Spec.evenKnot; norm_num⟩

example : ∃ (b : BSpline ℝ 1) (m : MSpline ℝ (Fin 1 → ℝ)),
    (⟨3, [], [], []⟩ : BSpline ℝ 1).initSpline3 choiceSolver [(0, ![1]), (1, ![3]), (2, ![-2]), (4, ![5])] 2 0 = .ok b ∧
    (MSpline.create 3).initUniformFitTimes true choiceSolver id (euclidean ℝ (Fin 1 → ℝ)) (fieldPolicy ℝ) [0, 1, 2, 4]
      [![1], ![3], ![-2], ![5]] 2 0 = (.ok (), m) ∧ b.eval 1 = .ok ![3] ∧ m.euclideanEval 2 = .ok ![-2] := by
  have hin : FitInput (⟨3, [], [], []⟩ : BSpline ℝ 1) [(0, ![1]), (1, ![3]), (2, ![-2]), (4, ![5])] 2 :=
    ⟨by norm_num, by norm_num, by simp, by norm_num, by norm_num, by simp, by norm_num [firstTime, lastTime]⟩
  obtain ⟨b, b', m, h1, -, -, -, h2, -, -, -, -, h3⟩ := C108_fit true choiceSolver choiceSolver choiceSolver choiceSolver_semidefinite
    choiceSolver_semidefinite choiceSolver_semidefinite _ _ rfl _ _ (List.Perm.refl _) 2 hin hin (by
      simpa [firstTime, lastTime] using example_interlaced)
  exact ⟨b, m, h1, h2, (h3 rfl _ (by simp : ((1 : ℝ), ![(3 : ℝ)]) ∈ _)).1, (h3 rfl _ (by simp : ((2 : ℝ), ![(-2 : ℝ)]) ∈ _)).2⟩

/-- Three data do not determine four coefficients. -/
example : ∃ (solve' : Solver ℝ) (b b' : BSpline ℝ 1), SolvesSemidefinite solve' ∧
    (⟨3, [], [], []⟩ : BSpline ℝ 1).initSpline3 choiceSolver [(0, ![1]), (1, ![3]), (4, ![5])] 2 0 = .ok b ∧
    (⟨3, [], [], []⟩ : BSpline ℝ 1).initSpline3 solve' [(0, ![1]), (1, ![3]), (4, ![5])] 2 0 = .ok b' ∧ b'.coeffs ≠ b.coeffs := by
  have hin : FitInput (⟨3, [], [], []⟩ : BSpline ℝ 1) [(0, ![1]), (1, ![3]), (4, ![5])] 2 :=
    ⟨by norm_num, by norm_num, by simp, by norm_num, by norm_num, by simp, by norm_num [firstTime, lastTime]⟩
  obtain ⟨solve', b, b', h1, h2, h3, -, -, h4⟩ := C108_fit_ambiguous choiceSolver choiceSolver_semidefinite _ _ 2 hin (fun h => by
    have h1 := C108_few _ _ _ _ h
    have h2 := List.toFinset_card_le [(0 : ℝ), 1, 4]
    simp only [List.map_cons, List.map_nil] at h1
    simp only [List.length_cons, List.length_nil] at h2
    omega)
  exact ⟨solve', b, b', h1, h2, h3, h4⟩

/-- Five different times for five coefficients, but only one of them for the last two coefficients. -/
example : ¬ Spec.Interlaced 3 (Spec.evenKnot 3 3 0 6) 5 [0, 1 / 2, 1, 3 / 2, 6, 6] := by
  rintro ⟨x, h1, h2⟩
  obtain ⟨a1, a2, -⟩ := h2 3 (by norm_num)
  obtain ⟨b1, b2, b3⟩ := h2 4 (by norm_num)
  have e := h1 3 (by norm_num)
  unfold Spec.evenKnot at a2 b2 b3
  norm_num at a2 b2 b3
  simp only [List.mem_cons, List.not_mem_nil, or_false] at a1 b1
  rcases a1 with a | a | a | a | a | a <;> rcases b1 with b | b | b | b | b | b <;> linarith

example : ∃ b : BSpline ℝ 1, (⟨2, [], [], []⟩ : BSpline ℝ 1).initSplineSparseKnots choiceSolver [(1, ![1]), (2, ![3]), (5, ![-2])] [0, 1, 3, 7, 8] 0
    = .ok b ∧ b.eval 2 = .ok ![3] ∧ b.eval 5 = .ok ![-2] := by
  have hi : Spec.Interlaced 2 (fun i => ([0, 1, 3, 7, 8] : List ℝ).getD i 0) 3 [1, 2, 5] := by
    refine ⟨fun j => ([1, 2, 5] : List ℝ).getD j 0, fun j hj => ?_, fun j hj => ?_⟩
    · obtain rfl | rfl : j = 0 ∨ j = 1 := by omega
      all_goals norm_num
    · interval_cases j <;> norm_num
  obtain ⟨b, b', h1, -, -, -, -, -, -, h2⟩ := C108_knots choiceSolver choiceSolver choiceSolver_semidefinite choiceSolver_semidefinite
    (⟨2, [], [], []⟩ : BSpline ℝ 1) ⟨2, [], [], []⟩ (by norm_num) rfl (by norm_num) [(1, ![1]), (2, ![3]), (5, ![-2])] (by simp) (by norm_num)
    [0, 1, 3, 7, 8] (by norm_num) (by norm_num) (by simp) (by simp) (by norm_num)
    (by
      intro o ho
      simp only [List.mem_cons, List.not_mem_nil, or_false] at ho
      rcases ho with rfl | rfl | rfl <;> norm_num) hi
  exact ⟨b, h1, h2 rfl _ (by simp : ((2 : ℝ), ![(3 : ℝ)]) ∈ _), h2 rfl _ (by simp : ((5 : ℝ), ![(-2 : ℝ)]) ∈ _)⟩

end Verif
