import Verif.Props.Reproduction

/-!
# Property C79: a regularised fit is determined by its data
-/

set_option linter.unusedSectionVars false

namespace Verif

open Finset Polynomial BSpline MeasureTheory

variable {D E : ℕ}

/-- Splines of the same order over the same knots. -/
structure SharedKnots (s : BSpline ℝ D) (r : BSpline ℝ E) : Prop where
  wf : r.WF
  order : r.order = s.order
  knots : r.knots = s.knots

theorem SharedKnots.kn_eq {s : BSpline ℝ D} {r : BSpline ℝ E} (h : SharedKnots s r) : r.kn = s.kn := by
  unfold kn; rw [h.knots]

theorem SharedKnots.length_eq {s : BSpline ℝ D} {r : BSpline ℝ E} (hs : s.WF) (h : SharedKnots s r) :
    r.coeffs.length = s.coeffs.length := by
  have a := hs.coeffs_len
  have b := h.wf.coeffs_len
  rw [h.order, h.knots] at b
  omega

theorem SharedKnots.wide {s : BSpline ℝ D} {r : BSpline ℝ E} (h : SharedKnots s r) (hw : s.WideLast) : r.WideLast := by
  intro a b hab
  refine hw a b ?_
  have ho := h.order
  have hk := h.knots
  obtain ⟨o, k, c, bs⟩ := s
  obtain ⟨o', k', c', bs'⟩ := r
  subst ho
  subst hk
  exact hab

/-- The value of a derivative. -/
noncomputable def val (s : BSpline ℝ D) (t : ℝ) (der : ℕ) : Fin D → ℝ := (s.evalD t der).getD 0

theorem evalD_val {s : BSpline ℝ D} (h : s.WF) (hw : s.WideLast) (t : ℝ) (h1 : s.kn (s.order - 1) ≤ t)
    (h2 : t ≤ s.kn (s.knots.length - s.order)) (der : ℕ) : s.evalD t der = .ok (val s t der) := by
  obtain ⟨-, i, -, e⟩ := evalD_repro h hw der t h1 h2
  unfold val
  rw [e]
  rfl

/-- Order and knots alone determine the weights of the coefficients. -/
theorem val_weights {s : BSpline ℝ D} (h : s.WF) (hw : s.WideLast) (t : ℝ) (h1 : s.kn (s.order - 1) ≤ t)
    (h2 : t ≤ s.kn (s.knots.length - s.order)) :
    ∃ w : ℕ → ℕ → ℝ, ∀ (E : ℕ) (r : BSpline ℝ E), SharedKnots s r → ∀ der d,
      val r t der d = ∑ j ∈ range s.coeffs.length, r.col j d * w der j := by
  have ha : s.Admissible t := admissible_of_wide t (WideLast.wide h hw) h1 h2
  obtain ⟨i, -, hi⟩ := lookup h t ha
  refine ⟨fun der j => (derivative^[der] (piece s.kn i (s.order - 1) j)).eval t, fun E r hr der d => ?_⟩
  have ha' : r.Admissible t := by
    unfold Admissible
    rw [hr.order, hr.knots, hr.kn_eq]
    exact ha
  have hi' : r.InSegment t i := by
    refine ⟨?_, ?_, ?_, ?_, ?_⟩
    · rw [hr.order]; exact hi.lower
    · rw [hr.order, hr.knots]; exact hi.upper
    · rw [hr.kn_eq]; exact hi.pos
    · rw [hr.kn_eq]; exact hi.left
    · rw [hr.order, hr.knots, hr.kn_eq]; exact hi.right
  unfold val evalD
  rw [if_neg (by omega), Int.toNat_natCast, evalDNat_of_inSegment hr.wf ha' hi' der, hr.length_eq h, hr.order, hr.kn_eq]
  rfl

/-- The spline with the coefficients `a x + b y`. -/
noncomputable def comb (p q : BSpline ℝ D) (a b : ℝ) : BSpline ℝ D :=
  { p with coeffs := List.zipWith (fun x y => a • x + b • y) p.coeffs q.coeffs }

theorem comb_same {p q : BSpline ℝ D} (hp : p.WF) (hq : SharedKnots p q) (a b : ℝ) : SharedKnots p (comb p q a b) := by
  refine ⟨hp.withCoeffs _ ?_, rfl, rfl⟩
  rw [List.length_zipWith, hq.length_eq hp, min_self]

theorem comb_col {p q : BSpline ℝ D} (hp : p.WF) (hq : SharedKnots p q) (a b : ℝ) (j : ℕ) (hj : j < p.coeffs.length) :
    (comb p q a b).col j = a • p.col j + b • q.col j := by
  have hj' : j < q.coeffs.length := by rw [hq.length_eq hp]; exact hj
  unfold comb col
  simp only [List.getD_eq_getElem?_getD, List.getElem?_zipWith, List.getElem?_eq_getElem hj, List.getElem?_eq_getElem hj',
    Option.getD_some]

theorem val_comb {p q : BSpline ℝ D} (hp : p.WF) (hw : p.WideLast) (hq : SharedKnots p q) (a b : ℝ) (t : ℝ) (h1 : p.kn (p.order - 1) ≤ t)
    (h2 : t ≤ p.kn (p.knots.length - p.order)) (der : ℕ) :
    val (comb p q a b) t der = a • val p t der + b • val q t der := by
  obtain ⟨w, hwt⟩ := val_weights hp hw t h1 h2
  funext d
  rw [Pi.add_apply, Pi.smul_apply, Pi.smul_apply, hwt _ _ (comb_same hp hq a b), hwt _ _ ⟨hp, rfl, rfl⟩, hwt _ _ hq, smul_eq_mul, smul_eq_mul,
    mul_sum, mul_sum, ← sum_add_distrib]
  refine sum_congr rfl fun j hj => ?_
  rw [comb_col hp hq a b j (mem_range.1 hj)]
  simp only [Pi.add_apply, Pi.smul_apply, smul_eq_mul]
  ring

/-- The spline whose coefficients are mapped by a matrix. -/
noncomputable def mapped (A : Matrix (Fin E) (Fin D) ℝ) (p : BSpline ℝ D) : BSpline ℝ E :=
  { order := p.order, knots := p.knots, coeffs := p.coeffs.map A.mulVec, basis := p.basis }

theorem mapped_same {p : BSpline ℝ D} (hp : p.WF) (A : Matrix (Fin E) (Fin D) ℝ) : SharedKnots p (mapped A p) :=
  ⟨⟨hp.order_pos, hp.sorted, hp.enough, by simpa [mapped] using hp.coeffs_len, hp.basis_len, hp.basis_eq⟩, rfl, rfl⟩

theorem val_mapped {p : BSpline ℝ D} (hp : p.WF) (hw : p.WideLast) (A : Matrix (Fin E) (Fin D) ℝ) (t : ℝ) (h1 : p.kn (p.order - 1) ≤ t)
    (h2 : t ≤ p.kn (p.knots.length - p.order)) (der : ℕ) : val (mapped A p) t der = A.mulVec (val p t der) := by
  obtain ⟨w, hwt⟩ := val_weights hp hw t h1 h2
  funext e
  rw [hwt _ _ (mapped_same hp A)]
  unfold Matrix.mulVec dotProduct
  simp only [hwt _ _ ⟨hp, rfl, rfl⟩, mul_sum]
  rw [sum_comm]
  refine sum_congr rfl fun j hj => ?_
  have hj := mem_range.1 hj
  have : (mapped A p).col j = A.mulVec (p.col j) := by
    unfold mapped col
    simp only [List.getD_eq_getElem?_getD, List.getElem?_map, List.getElem?_eq_getElem hj, Option.map_some, Option.getD_some]
  rw [this, Matrix.mulVec, dotProduct, sum_mul]
  exact sum_congr rfl fun d _ => by ring

/-- Products of derivatives are integrable. -/
theorem val_mul_integrable {p q : BSpline ℝ D} (hp : p.WF) (hw : p.WideLast) (hq : SharedKnots p q) (der : ℕ) :
    IntervalIntegrable (fun t => ∑ d, val p t der d * val q t der d) volume (p.kn (p.order - 1)) (p.kn (p.knots.length - p.order)) := by
  have hk := hp.order_pos
  have hn := hp.enough
  refine (pieces_integral (kn := p.kn) (lo := p.order - 1) (hi := p.knots.length - p.order)
    (P := fun i t => ∑ d, (derivative^[der] (p.segPoly i d)).eval t * (derivative^[der] (q.segPoly i d)).eval t)
    (fun i => continuous_finsetSum _ fun d _ => (Polynomial.continuous _).mul (Polynomial.continuous _))
    (fun i a b => hp.mono _ _ (by omega) (by omega)) (fun i a b x x1 x2 => ?_) (p.knots.length - p.order) (by omega) le_rfl).1
  unfold val
  rw [evalD_on_segment hp hw a b der x x1.le (Or.inl x2),
    evalD_on_segment hq.wf (hq.wide hw) (i := i) (by rw [hq.order]; exact a) (by rw [hq.order, hq.knots]; exact b) der x
      (by rw [hq.kn_eq]; exact x1.le) (Or.inl (by rw [hq.kn_eq]; exact x2))]
  rfl

/-- Half the derivative of the cost at `p` in the direction `q`. -/
noncomputable def slope (data : List (ℝ × (Fin D → ℝ))) (lambda : ℝ) (der : ℕ) (lo hi : ℝ) (p q : BSpline ℝ D) : ℝ :=
  (data.map fun o => ∑ d, (val p o.1 0 d - o.2 d) * val q o.1 0 d).sum
    + lambda * ∫ t in lo..hi, ∑ d, val p t der d * val q t der d

/-- The same times with the value zero. -/
def zeroed (data : List (ℝ × (Fin D → ℝ))) : List (ℝ × (Fin D → ℝ)) := data.map fun o => (o.1, 0)

theorem fitCost_val (p : BSpline ℝ D) (data : List (ℝ × (Fin D → ℝ))) (lambda : ℝ) (der : ℕ) (lo hi : ℝ) :
    fitCost p data lambda der lo hi
      = (data.map fun o => ∑ d, (val p o.1 0 d - o.2 d) ^ 2).sum + lambda * ∫ t in lo..hi, ∑ d, (val p t der d) ^ 2 := rfl

theorem fitCost_expand {p q : BSpline ℝ D} (hp : p.WF) (hw : p.WideLast) (hq : SharedKnots p q) (data : List (ℝ × (Fin D → ℝ)))
    (hdata : ∀ o ∈ data, p.kn (p.order - 1) ≤ o.1 ∧ o.1 ≤ p.kn (p.knots.length - p.order)) (lambda : ℝ) (der : ℕ) (e : ℝ) :
    fitCost (comb p q 1 e) data lambda der (p.kn (p.order - 1)) (p.kn (p.knots.length - p.order))
      = fitCost p data lambda der (p.kn (p.order - 1)) (p.kn (p.knots.length - p.order))
        + 2 * e * slope data lambda der (p.kn (p.order - 1)) (p.kn (p.knots.length - p.order)) p q
        + e ^ 2 * fitCost q (zeroed data) lambda der (p.kn (p.order - 1)) (p.kn (p.knots.length - p.order)) := by
  have hk := hp.order_pos
  have hn := hp.enough
  have hlohi : p.kn (p.order - 1) ≤ p.kn (p.knots.length - p.order) := hp.mono _ _ (by omega) (by omega)
  rw [fitCost_val, fitCost_val, fitCost_val]
  unfold slope
  have e1 : (data.map fun o => ∑ d, (val (comb p q 1 e) o.1 0 d - o.2 d) ^ 2).sum
      = (data.map fun o => ∑ d, (val p o.1 0 d - o.2 d) ^ 2).sum
        + 2 * e * (data.map fun o => ∑ d, (val p o.1 0 d - o.2 d) * val q o.1 0 d).sum
        + e ^ 2 * ((zeroed data).map fun o => ∑ d, (val q o.1 0 d - o.2 d) ^ 2).sum := by
    clear hlohi
    unfold zeroed
    rw [List.map_map]
    induction data with
    | nil => simp
    | cons o l ih =>
      have ih := ih fun x hx => hdata x (List.mem_cons_of_mem _ hx)
      have ho := hdata o List.mem_cons_self
      simp only [List.map_cons, List.sum_cons, ih, Function.comp_apply, Pi.zero_apply, sub_zero]
      have : ∑ d, (val (comb p q 1 e) o.1 0 d - o.2 d) ^ 2
          = ∑ d, (val p o.1 0 d - o.2 d) ^ 2 + 2 * e * ∑ d, (val p o.1 0 d - o.2 d) * val q o.1 0 d + e ^ 2 * ∑ d, val q o.1 0 d ^ 2 := by
        rw [mul_sum, mul_sum, ← sum_add_distrib, ← sum_add_distrib]
        refine sum_congr rfl fun d _ => ?_
        rw [val_comb hp hw hq 1 e o.1 ho.1 ho.2 0]
        simp only [Pi.add_apply, Pi.smul_apply, smul_eq_mul]
        ring
      rw [this]
      ring
  have hpp := val_mul_integrable hp hw ⟨hp, rfl, rfl⟩ der
  have hpq := val_mul_integrable hp hw hq der
  have hqq := val_mul_integrable hq.wf (hq.wide hw) ⟨hq.wf, rfl, rfl⟩ der
  rw [hq.kn_eq, hq.order, hq.knots] at hqq
  have e2 : (∫ t in p.kn (p.order - 1)..p.kn (p.knots.length - p.order), ∑ d, (val (comb p q 1 e) t der d) ^ 2)
      = (∫ t in p.kn (p.order - 1)..p.kn (p.knots.length - p.order), ∑ d, (val p t der d) ^ 2)
        + 2 * e * (∫ t in p.kn (p.order - 1)..p.kn (p.knots.length - p.order), ∑ d, val p t der d * val q t der d)
        + e ^ 2 * ∫ t in p.kn (p.order - 1)..p.kn (p.knots.length - p.order), ∑ d, (val q t der d) ^ 2 := by
    simp only [pow_two (val _ _ _ _)]
    rw [← intervalIntegral.integral_const_mul, ← intervalIntegral.integral_const_mul,
      ← intervalIntegral.integral_add hpp (hpq.const_mul _), ← intervalIntegral.integral_add (hpp.add (hpq.const_mul _)) (hqq.const_mul _)]
    apply intervalIntegral.integral_congr
    intro t ht
    rw [Set.uIcc_of_le hlohi] at ht
    dsimp only
    rw [mul_sum, mul_sum, ← sum_add_distrib, ← sum_add_distrib]
    refine sum_congr rfl fun d _ => ?_
    rw [val_comb hp hw hq 1 e t ht.1 ht.2 der]
    simp only [Pi.add_apply, Pi.smul_apply, smul_eq_mul]
    ring
  rw [e1, e2]
  ring

theorem fitCost_nonneg (p : BSpline ℝ D) (data : List (ℝ × (Fin D → ℝ))) (lambda : ℝ) (hl : 0 ≤ lambda) (der : ℕ) {lo hi : ℝ} (hlo : lo ≤ hi) :
    0 ≤ fitCost p data lambda der lo hi := by
  unfold fitCost
  refine add_nonneg (List.sum_nonneg fun x hx => ?_)
    (mul_nonneg hl (intervalIntegral.integral_nonneg hlo fun t _ => sum_nonneg fun d _ => sq_nonneg _))
  obtain ⟨o, -, rfl⟩ := List.mem_map.1 hx
  exact sum_nonneg fun d _ => sq_nonneg _

/-- No spline over the same knots has a lower cost. -/
def Minimal (data : List (ℝ × (Fin D → ℝ))) (lambda : ℝ) (der : ℕ) (lo hi : ℝ) (p : BSpline ℝ D) : Prop :=
  ∀ r, SharedKnots p r → fitCost p data lambda der lo hi ≤ fitCost r data lambda der lo hi

theorem fitCost_congr {p r : BSpline ℝ D} (data : List (ℝ × (Fin D → ℝ))) (lambda : ℝ) (der : ℕ) {lo hi : ℝ} (hlo : lo ≤ hi)
    (hdata : ∀ o ∈ data, lo ≤ o.1 ∧ o.1 ≤ hi) (hv : ∀ t, lo ≤ t → t ≤ hi → ∀ m : ℕ, val p t m = val r t m) :
    fitCost p data lambda der lo hi = fitCost r data lambda der lo hi := by
  rw [fitCost_val, fitCost_val]
  congr 1
  · congr 1
    refine List.map_congr_left fun o ho => ?_
    rw [hv o.1 (hdata o ho).1 (hdata o ho).2 0]
  · congr 1
    apply intervalIntegral.integral_congr
    intro t ht
    rw [Set.uIcc_of_le hlo] at ht
    dsimp only
    rw [hv t ht.1 ht.2 der]

theorem minimal_of_lists {p : BSpline ℝ D} (hp : p.WF) (hw : p.WideLast) {data : List (ℝ × (Fin D → ℝ))}
    (hdata : ∀ o ∈ data, p.kn (p.order - 1) ≤ o.1 ∧ o.1 ≤ p.kn (p.knots.length - p.order)) {lambda : ℝ} {der : ℕ}
    (h : ∀ cs, cs.length = p.coeffs.length → fitCost p data lambda der (p.kn (p.order - 1)) (p.kn (p.knots.length - p.order))
      ≤ fitCost (BSpline.mk (K := ℝ) p.order p.knots cs p.basis) data lambda der (p.kn (p.order - 1)) (p.kn (p.knots.length - p.order))) :
    Minimal data lambda der (p.kn (p.order - 1)) (p.kn (p.knots.length - p.order)) p := by
  have hk := hp.order_pos
  have hn := hp.enough
  intro r hr
  have hl := hr.length_eq hp
  have hs : SharedKnots p (BSpline.mk (K := ℝ) p.order p.knots r.coeffs p.basis) := ⟨hp.withCoeffs _ hl, rfl, rfl⟩
  refine (h r.coeffs hl).trans (le_of_eq (fitCost_congr data lambda der (hp.mono _ _ (by omega) (by omega)) hdata fun t t1 t2 m => ?_))
  obtain ⟨w, hwt⟩ := val_weights hp hw t t1 t2
  funext d
  rw [hwt _ _ hs, hwt _ _ hr]
  rfl

theorem minimal_iff {p : BSpline ℝ D} (hp : p.WF) (hw : p.WideLast) (data : List (ℝ × (Fin D → ℝ)))
    (hdata : ∀ o ∈ data, p.kn (p.order - 1) ≤ o.1 ∧ o.1 ≤ p.kn (p.knots.length - p.order)) (lambda : ℝ) (hl : 0 ≤ lambda) (der : ℕ) :
    Minimal data lambda der (p.kn (p.order - 1)) (p.kn (p.knots.length - p.order)) p ↔
      ∀ q, SharedKnots p q → slope data lambda der (p.kn (p.order - 1)) (p.kn (p.knots.length - p.order)) p q = 0 := by
  have hk := hp.order_pos
  have hn := hp.enough
  have hlohi : p.kn (p.order - 1) ≤ p.kn (p.knots.length - p.order) := hp.mono _ _ (by omega) (by omega)
  constructor
  · intro hmin q hq
    set H := fitCost q (zeroed data) lambda der (p.kn (p.order - 1)) (p.kn (p.knots.length - p.order)) with hH
    have hH0 : 0 ≤ H := fitCost_nonneg q _ lambda hl der hlohi
    set G := slope data lambda der (p.kn (p.order - 1)) (p.kn (p.knots.length - p.order)) p q with hG
    have key := hmin (comb p q 1 (-G / (H + 1))) (comb_same hp hq _ _)
    rw [fitCost_expand hp hw hq data hdata] at key
    have h1 : 0 ≤ 2 * (-G / (H + 1)) * G + (-G / (H + 1)) ^ 2 * H := by linarith
    have h2 : 2 * (-G / (H + 1)) * G + (-G / (H + 1)) ^ 2 * H = - (G ^ 2 * (H + 2) / (H + 1) ^ 2) := by
      field_simp
      ring
    rw [h2] at h1
    have h3 : G ^ 2 * (H + 2) / (H + 1) ^ 2 ≤ 0 := by linarith
    by_contra hne
    have : 0 < G ^ 2 * (H + 2) / (H + 1) ^ 2 := by positivity
    linarith
  · intro hst r hr
    have hd : SharedKnots p (comb r p 1 (-1)) := by
      have := comb_same hr.wf (q := p) ⟨hp, hr.order.symm, hr.knots.symm⟩ 1 (-1)
      exact ⟨this.wf, this.order.trans hr.order, this.knots.trans hr.knots⟩
    have e := fitCost_expand hp hw hd data hdata lambda der 1
    rw [hst _ hd] at e
    have h0 := fitCost_nonneg (comb r p 1 (-1)) (zeroed data) lambda hl der hlohi
    have hv : ∀ t, p.kn (p.order - 1) ≤ t → t ≤ p.kn (p.knots.length - p.order) → ∀ m : ℕ, val (comb p (comb r p 1 (-1)) 1 1) t m = val r t m := by
      intro t t1 t2 m
      rw [val_comb hp hw hd 1 1 t t1 t2 m, val_comb hr.wf (hr.wide hw) ⟨hp, hr.order.symm, hr.knots.symm⟩ 1 (-1) t
        (by rw [hr.kn_eq, hr.order]; exact t1) (by rw [hr.kn_eq, hr.order, hr.knots]; exact t2) m]
      funext d
      simp
    rw [fitCost_congr data lambda der hlohi hdata hv] at e
    rw [e]
    linarith

/-- The derivative that the fits penalise. -/
def penalty (order : ℕ) : ℕ := if order = 2 then 1 else 2

/-- **C79**: with a positive weight of the penalty, two different times in the data and no empty segment, at most one spline over given
knots has the minimal cost. -/
theorem C79_unique (p p' : BSpline ℝ D) (hp : p.WF) (hw : p.WideLast) (hp' : SharedKnots p p') (ho : 2 ≤ p.order)
    (hstrict : ∀ i, p.order - 1 ≤ i → i + 1 ≤ p.knots.length - p.order → p.kn i < p.kn (i + 1))
    (data : List (ℝ × (Fin D → ℝ)))
    (hdata : ∀ o ∈ data, p.kn (p.order - 1) ≤ o.1 ∧ o.1 ≤ p.kn (p.knots.length - p.order))
    (hdis : ∃ o ∈ data, ∃ o' ∈ data, o.1 ≠ o'.1) (lambda : ℝ) (hl : 0 < lambda)
    (hmin : Minimal data lambda (penalty p.order) (p.kn (p.order - 1)) (p.kn (p.knots.length - p.order)) p)
    (hmin' : Minimal data lambda (penalty p.order) (p.kn (p.order - 1)) (p.kn (p.knots.length - p.order)) p') :
    p.coeffs = p'.coeffs := by
  have hk := hp.order_pos
  have hn := hp.enough
  have hw' := hp'.wide hw
  set q := comb p p' 1 (-1) with hq
  have hsq : SharedKnots p q := comb_same hp hp' 1 (-1)
  have hsq' : SharedKnots p' q := ⟨hsq.wf, hp'.order.symm, hp'.knots.symm⟩
  have g1 := (minimal_iff hp hw data hdata lambda hl.le _).1 hmin q hsq
  have g2 := (minimal_iff hp'.wf hw' data (by rw [hp'.kn_eq, hp'.order, hp'.knots]; exact hdata) lambda hl.le (penalty p.order)).1
    (by rw [hp'.kn_eq, hp'.order, hp'.knots]; exact hmin') q hsq'
  rw [hp'.kn_eq, hp'.order, hp'.knots] at g2
  have hlohi : p.kn (p.order - 1) ≤ p.kn (p.knots.length - p.order) := hp.mono _ _ (by omega) (by omega)
  have hvq : ∀ t, p.kn (p.order - 1) ≤ t → t ≤ p.kn (p.knots.length - p.order) → ∀ m : ℕ, val q t m = val p t m - val p' t m := by
    intro t t1 t2 m
    rw [hq, val_comb hp hw hp' 1 (-1) t t1 t2 m]
    funext d
    simp
    ring
  have hcost : fitCost q (zeroed data) lambda (penalty p.order) (p.kn (p.order - 1)) (p.kn (p.knots.length - p.order)) = 0 := by
    have e : fitCost q (zeroed data) lambda (penalty p.order) (p.kn (p.order - 1)) (p.kn (p.knots.length - p.order))
        = slope data lambda (penalty p.order) (p.kn (p.order - 1)) (p.kn (p.knots.length - p.order)) p q
          - slope data lambda (penalty p.order) (p.kn (p.order - 1)) (p.kn (p.knots.length - p.order)) p' q := by
      rw [fitCost_val]
      unfold slope
      have e1 : ((zeroed data).map fun o => ∑ d, (val q o.1 0 d - o.2 d) ^ 2).sum
          = (data.map fun o => ∑ d, (val p o.1 0 d - o.2 d) * val q o.1 0 d).sum
            - (data.map fun o => ∑ d, (val p' o.1 0 d - o.2 d) * val q o.1 0 d).sum := by
        clear g1 g2 hmin hmin' hdis
        unfold zeroed
        rw [List.map_map]
        induction data with
        | nil => simp
        | cons o l ih =>
          have ih := ih fun x hx => hdata x (List.mem_cons_of_mem _ hx)
          have ho := hdata o List.mem_cons_self
          simp only [List.map_cons, List.sum_cons, ih, Function.comp_apply, Pi.zero_apply, sub_zero]
          have : ∑ d, val q o.1 0 d ^ 2 = ∑ d, (val p o.1 0 d - o.2 d) * val q o.1 0 d - ∑ d, (val p' o.1 0 d - o.2 d) * val q o.1 0 d := by
            rw [← sum_sub_distrib]
            refine sum_congr rfl fun d _ => ?_
            rw [hvq o.1 ho.1 ho.2 0, Pi.sub_apply]
            ring
          rw [this]
          ring
      have i1 := val_mul_integrable hp hw hsq (penalty p.order)
      have i2 := val_mul_integrable hp'.wf hw' hsq' (penalty p.order)
      rw [hp'.kn_eq, hp'.order, hp'.knots] at i2
      have e2 : (∫ t in p.kn (p.order - 1)..p.kn (p.knots.length - p.order), ∑ d, (val q t (penalty p.order) d) ^ 2)
          = (∫ t in p.kn (p.order - 1)..p.kn (p.knots.length - p.order), ∑ d, val p t (penalty p.order) d * val q t (penalty p.order) d)
            - ∫ t in p.kn (p.order - 1)..p.kn (p.knots.length - p.order), ∑ d, val p' t (penalty p.order) d * val q t (penalty p.order) d := by
        rw [← intervalIntegral.integral_sub i1 i2]
        apply intervalIntegral.integral_congr
        intro t ht
        rw [Set.uIcc_of_le hlohi] at ht
        dsimp only
        rw [← sum_sub_distrib]
        refine sum_congr rfl fun d _ => ?_
        rw [hvq t ht.1 ht.2, Pi.sub_apply]
        ring
      rw [e1, e2]
      ring
    rw [e, g1, g2, sub_zero]
  have hdz : ∀ o ∈ zeroed data, q.kn (q.order - 1) ≤ o.1 ∧ o.1 ≤ q.kn (q.knots.length - q.order) := by
    intro o hoz
    obtain ⟨o', ho', rfl⟩ := List.mem_map.1 hoz
    exact hdata o' ho'
  obtain ⟨a1, a2⟩ := zero_cost_meets hsq.wf (hsq.wide hw) (zeroed data) hdz lambda hl.le (penalty p.order) hcost.le
  set m := if p.order = 2 then 0 else 1 with hm
  have hm1 : penalty p.order = m + 1 := by unfold penalty; rw [hm]; split_ifs <;> rfl
  have hm2 : m ≤ 1 := by rw [hm]; split_ifs <;> omega
  have hm3 : m + 2 ≤ p.order := by rw [hm]; split_ifs <;> omega
  rw [hm1] at a2
  have hdis' : ∃ o ∈ zeroed data, ∃ o' ∈ zeroed data, o.1 ≠ o'.1 := by
    obtain ⟨o, ho, o', ho', hne⟩ := hdis
    exact ⟨_, List.mem_map.2 ⟨o, ho, rfl⟩, _, List.mem_map.2 ⟨o', ho', rfl⟩, hne⟩
  have hline := optimal_line hsq.wf (hsq.wide hw) (zeroed data) hdz m hm2 hm3 (fun _ => 0) (fun d => by simp)
    (fun o ho d => by
      obtain ⟨o', -, rfl⟩ := List.mem_map.1 ho
      simp) a1 hstrict hdis' (fun i i1 i2 d => a2 hl i i1 i2 (hstrict i i1 i2) d)
  refine C76_unique p p' hp hp'.wf hp'.order hp'.knots hstrict (WideLast.wide hp hw) fun t t1 t2 => ?_
  have z := hline t t1 t2 0
  have e1 := evalD_val hp hw t t1 t2 0
  have e2 := evalD_val hp'.wf hw' t (by rw [hp'.kn_eq, hp'.order]; exact t1) (by rw [hp'.kn_eq, hp'.order, hp'.knots]; exact t2) 0
  have e3 := hvq t t1 t2 0
  rw [evalD_val hsq.wf (hsq.wide hw) t t1 t2 0] at z
  have z := Outcome.ok.inj z
  rw [z] at e3
  unfold BSpline.eval
  rw [show (0 : ℤ) = ((0 : ℕ) : ℤ) from rfl, e1, e2]
  refine congrArg Outcome.ok (funext fun d => ?_)
  have := congrFun e3 d
  simp at this
  linarith

/-- A linear map of the data maps the minimal spline. -/
theorem Minimal.map {p : BSpline ℝ D} (hp : p.WF) (hw : p.WideLast) {data : List (ℝ × (Fin D → ℝ))}
    (hdata : ∀ o ∈ data, p.kn (p.order - 1) ≤ o.1 ∧ o.1 ≤ p.kn (p.knots.length - p.order)) {lambda : ℝ} (hl : 0 ≤ lambda) {der : ℕ}
    (h : Minimal data lambda der (p.kn (p.order - 1)) (p.kn (p.knots.length - p.order)) p) (A : Matrix (Fin E) (Fin D) ℝ) :
    Minimal (data.map fun o => (o.1, A.mulVec o.2)) lambda der (p.kn (p.order - 1)) (p.kn (p.knots.length - p.order)) (mapped A p) := by
  have hk := hp.order_pos
  have hn := hp.enough
  have hlohi : p.kn (p.order - 1) ≤ p.kn (p.knots.length - p.order) := hp.mono _ _ (by omega) (by omega)
  have hm := mapped_same hp A
  have hadj : ∀ u v, ∑ e, A.mulVec u e * v e = ∑ d, u d * A.transpose.mulVec v d := by
    intro u v
    have := Matrix.dotProduct_mulVec v A u
    rw [← Matrix.mulVec_transpose] at this
    unfold dotProduct at this
    rw [show ∑ e, A.mulVec u e * v e = ∑ e, v e * A.mulVec u e from sum_congr rfl fun _ _ => mul_comm _ _, this]
    exact sum_congr rfl fun _ _ => mul_comm _ _
  refine (minimal_iff hm.wf (hm.wide hw) _ (fun o ho => ?_) lambda hl der).2 fun q hq => ?_
  · obtain ⟨o', ho', rfl⟩ := List.mem_map.1 ho
    exact hdata o' ho'
  have hpq : SharedKnots p q := ⟨hq.wf, hq.order, hq.knots⟩
  have hqt : SharedKnots p (mapped A.transpose q) := by
    have := mapped_same hq.wf A.transpose
    exact ⟨this.wf, hq.order, hq.knots⟩
  have hvq : ∀ t, p.kn (p.order - 1) ≤ t → t ≤ p.kn (p.knots.length - p.order) → ∀ m : ℕ,
      val (mapped A.transpose q) t m = A.transpose.mulVec (val q t m) := fun t t1 t2 m =>
    val_mapped hq.wf (hpq.wide hw) _ t (by rw [hpq.kn_eq, hpq.order]; exact t1) (by rw [hpq.kn_eq, hpq.order, hpq.knots]; exact t2) m
  have e := (minimal_iff hp hw data hdata lambda hl der).1 h _ hqt
  rw [← e]
  change slope _ lambda der (p.kn (p.order - 1)) (p.kn (p.knots.length - p.order)) _ q = _
  unfold slope
  congr 1
  · rw [List.map_map]
    congr 1
    refine List.map_congr_left fun o ho => ?_
    have ho := hdata o ho
    simp only [Function.comp_apply]
    rw [hvq o.1 ho.1 ho.2, val_mapped hp hw A o.1 ho.1 ho.2, ← hadj,
      show (fun d => val p o.1 0 d - o.2 d) = val p o.1 0 - o.2 from rfl, Matrix.mulVec_sub]
    rfl
  · congr 1
    apply intervalIntegral.integral_congr
    intro t ht
    rw [Set.uIcc_of_le hlohi] at ht
    dsimp only
    rw [hvq t ht.1 ht.2, val_mapped hp hw A t ht.1 ht.2, hadj]

/-- What the initialisations from data compute. -/
theorem fit_minimal (solve : Solver ℝ) (hsolve : SolvesSemidefinite solve) (s : BSpline ℝ D) (data : List (ℝ × (Fin D → ℝ))) (n : ℕ)
    (hin : FitInput s data n) (lambda : ℝ) (hl : 0 ≤ lambda) :
    ∃ s', s.initSpline3 solve data n lambda = .ok s' ∧ s.initSplineSparse solve data n lambda = .ok s' ∧ s'.WF ∧
      UniformOn s' s.order n (firstTime data) (lastTime data) ∧
      Minimal data lambda (penalty s'.order) (s'.kn (s'.order - 1)) (s'.kn (s'.knots.length - s'.order)) s' := by
  have hn := hin.segments
  obtain ⟨s1, hp, hwf, h1, h2, h3, h4, h5, h6, h7⟩ := prepareUniform_ok s hin.order data hin.two hin.sorted n hn hin.old hin.lt.le
  have hu1 : UniformOn s1 s.order n (firstTime data) (lastTime data) :=
    ⟨h1, h2, fun i hi => prepareUniform_knots hin.order hp i (by omega)⟩
  obtain ⟨f1, f2, f3, f4⟩ := hu1.facts hwf hn hin.wide
  obtain ⟨s', e1, ⟨x, e2⟩, e3⟩ := fitRegularised_optimal solve hsolve hwf f3 hin.dim _ _ h5 h6 data
    (times_between data hin.sorted) lambda hl
  have hwf' : s'.WF := by rw [e2]; exact withVec_wf hwf x
  have hu : UniformOn s' s.order n (firstTime data) (lastTime data) := by rw [e2]; exact ⟨hu1.order_eq, hu1.length_eq, hu1.kn_eq⟩
  obtain ⟨g1, g2, g3, g4⟩ := hu.facts hwf' hn hin.wide
  have hi3 : s.initSpline3 solve data n lambda = .ok s' := by
    unfold initSpline3
    rw [hp]
    exact e1
  refine ⟨s', hi3, ?_, hwf', hu, minimal_of_lists hwf' g3 (by rw [g1, g2]; exact times_between data hin.sorted) ?_⟩
  · rw [C19_sparse_optimal solve s hin.order hin.dim data hin.two hin.sorted n hn hin.old lambda]
    exact hi3
  · rw [g1, g2]
    have : s1.order = s'.order := by rw [e2]; rfl
    rw [this] at e3
    exact e3

theorem UniformOn.same {s : BSpline ℝ D} {r : BSpline ℝ E} {order n : ℕ} {a b : ℝ} (hr : r.WF) (h : UniformOn s order n a b)
    (h' : UniformOn r order n a b) : SharedKnots s r := by
  refine ⟨hr, h'.order_eq.trans h.order_eq.symm, List.ext_getElem (h'.length_eq.trans h.length_eq.symm) fun i i1 i2 => ?_⟩
  have e1 := h.kn_eq i (by rw [← h.length_eq]; exact i2)
  have e2 := h'.kn_eq i (by rw [← h'.length_eq]; exact i1)
  unfold kn at e1 e2
  rw [List.getD_eq_getElem?_getD, List.getElem?_eq_getElem i2, Option.getD_some] at e1
  rw [List.getD_eq_getElem?_getD, List.getElem?_eq_getElem i1, Option.getD_some] at e2
  rw [e1, e2]

theorem perm_times {data data' : List (ℝ × (Fin D → ℝ))} (hp : data.Perm data') (hs : (data.map Prod.fst).Pairwise (· ≤ ·))
    (hs' : (data'.map Prod.fst).Pairwise (· ≤ ·)) : data.map Prod.fst = data'.map Prod.fst :=
  (hp.map Prod.fst).eq_of_pairwise (fun _ _ _ _ h1 h2 => le_antisymm h1 h2) hs hs'

theorem fitCost_perm (p : BSpline ℝ D) {data data' : List (ℝ × (Fin D → ℝ))} (hp : data.Perm data') (lambda : ℝ) (der : ℕ) (lo hi : ℝ) :
    fitCost p data lambda der lo hi = fitCost p data' lambda der lo hi := by
  unfold fitCost
  rw [(hp.map _).sum_eq]

/-- **C79**: with a positive weight of the penalty the initialisations from data give, for the same data, the same order, knots and
coefficients: for dense and sparse equations, for every solver that solves positive semidefinite systems, for every spline of the same
order that is initialised, and for every order of observations at the same time. -/
theorem C79_determined (solve solve' : Solver ℝ) (hsolve : SolvesSemidefinite solve) (hsolve' : SolvesSemidefinite solve')
    (s r : BSpline ℝ D) (ho : r.order = s.order) (data data' : List (ℝ × (Fin D → ℝ))) (hperm : data.Perm data') (n : ℕ)
    (hin : FitInput s data n) (hin' : FitInput r data' n) (lambda : ℝ) (hl : 0 < lambda) :
    ∃ s' r', s.initSpline3 solve data n lambda = .ok s' ∧ s.initSplineSparse solve data n lambda = .ok s' ∧
      r.initSpline3 solve' data' n lambda = .ok r' ∧ r.initSplineSparse solve' data' n lambda = .ok r' ∧
      r'.order = s'.order ∧ r'.knots = s'.knots ∧ r'.coeffs = s'.coeffs := by
  obtain ⟨s', a1, a2, a3, a4, a5⟩ := fit_minimal solve hsolve s data n hin lambda hl.le
  obtain ⟨r', b1, b2, b3, b4, b5⟩ := fit_minimal solve' hsolve' r data' n hin' lambda hl.le
  have ht := perm_times hperm hin.sorted hin'.sorted
  have hf : firstTime data' = firstTime data := by unfold firstTime; rw [ht]
  have hla : lastTime data' = lastTime data := by unfold lastTime; rw [ht, hperm.length_eq]
  rw [ho, hf, hla] at b4
  have hsame := a4.same b3 b4
  obtain ⟨g1, g2, g3, g4⟩ := a4.facts a3 hin.segments hin.wide
  refine ⟨s', r', a1, a2, b1, b2, hsame.order, hsame.knots, ?_⟩
  refine (C79_unique s' r' a3 g3 hsame a3.order_pos g4 data (by rw [g1, g2]; exact times_between data hin.sorted) hin.distinct lambda hl a5 ?_).symm
  rw [hsame.kn_eq, hsame.order, hsame.knots] at b5
  intro q hq
  rw [fitCost_perm _ hperm, fitCost_perm _ hperm]
  exact b5 q hq

theorem FitInput.map {s : BSpline ℝ D} {data : List (ℝ × (Fin D → ℝ))} {n : ℕ} (hin : FitInput s data n) (r : BSpline ℝ E)
    (ho : r.order = s.order) (hE : 1 ≤ E) (hold : r.knots.length ≤ n + 2 * r.order - 1) (f : ℝ × (Fin D → ℝ) → Fin E → ℝ) :
    FitInput r (data.map fun o => (o.1, f o)) n ∧ firstTime (data.map fun o => (o.1, f o)) = firstTime data ∧
      lastTime (data.map fun o => (o.1, f o)) = lastTime data := by
  have ht : (data.map fun o => (o.1, f o)).map Prod.fst = data.map Prod.fst := by
    rw [List.map_map]; rfl
  have hf : firstTime (data.map fun o => (o.1, f o)) = firstTime data := by unfold firstTime; rw [ht]
  have hla : lastTime (data.map fun o => (o.1, f o)) = lastTime data := by unfold lastTime; rw [ht, List.length_map]
  exact ⟨⟨by rw [ho]; exact hin.order, hE, by rw [List.length_map]; exact hin.two, by rw [ht]; exact hin.sorted, hin.segments, hold,
    by rw [hf, hla]; exact hin.wide⟩, hf, hla⟩

/-- **C79**, linear maps: if the values of the observations are mapped by a matrix, also to another dimension, the coefficients of the fit
are mapped by this matrix.  In particular each component of the curve is the fit of this component of the data, and the fit of rotated
data is the rotated fit. -/
theorem C79_map (solve solve' : Solver ℝ) (hsolve : SolvesSemidefinite solve) (hsolve' : SolvesSemidefinite solve')
    (s : BSpline ℝ D) (r : BSpline ℝ E) (ho : r.order = s.order) (data : List (ℝ × (Fin D → ℝ))) (n : ℕ)
    (hin : FitInput s data n) (hE : 1 ≤ E) (hold : r.knots.length ≤ n + 2 * r.order - 1) (A : Matrix (Fin E) (Fin D) ℝ)
    (lambda : ℝ) (hl : 0 < lambda) :
    ∃ s' r', s.initSpline3 solve data n lambda = .ok s' ∧ r.initSpline3 solve' (data.map fun o => (o.1, A.mulVec o.2)) n lambda = .ok r' ∧
      r'.order = s'.order ∧ r'.knots = s'.knots ∧ r'.coeffs = s'.coeffs.map A.mulVec := by
  obtain ⟨hin', hf, hla⟩ := hin.map r ho hE hold fun o => A.mulVec o.2
  obtain ⟨s', a1, a2, a3, a4, a5⟩ := fit_minimal solve hsolve s data n hin lambda hl.le
  obtain ⟨r', b1, b2, b3, b4, b5⟩ := fit_minimal solve' hsolve' r _ n hin' lambda hl.le
  rw [ho, hf, hla] at b4
  have hsame := a4.same b3 b4
  obtain ⟨g1, g2, g3, g4⟩ := a4.facts a3 hin.segments hin.wide
  have hdata : ∀ o ∈ data, s'.kn (s'.order - 1) ≤ o.1 ∧ o.1 ≤ s'.kn (s'.knots.length - s'.order) := by
    rw [g1, g2]; exact times_between data hin.sorted
  refine ⟨s', r', a1, b1, hsame.order, hsame.knots, ?_⟩
  have hm := mapped_same a3 A
  have hmr : SharedKnots (mapped A s') r' := ⟨b3, hsame.order, hsame.knots⟩
  refine (C79_unique (mapped A s') r' hm.wf (hm.wide g3) hmr a3.order_pos g4 _ (fun o ho => ?_) hin'.distinct lambda hl
    (a5.map a3 g3 hdata hl.le A) ?_).symm
  · obtain ⟨o', ho', rfl⟩ := List.mem_map.1 ho
    exact hdata o' ho'
  · rw [hsame.kn_eq, hsame.order, hsame.knots] at b5
    exact b5

/-- The two values of an observation of pairs, one after the other. -/
def joined (o : ℝ × (Fin D → ℝ) × (Fin D → ℝ)) : ℝ × (Fin (D + D) → ℝ) := (o.1, Fin.append o.2.1 o.2.2)

/-- The matrix of `(x, y) ↦ a x + b y`. -/
def addMat (D : ℕ) (a b : ℝ) : Matrix (Fin D) (Fin (D + D)) ℝ :=
  fun i => Fin.append (fun j => if i = j then a else 0) (fun j => if i = j then b else 0)

theorem addMat_mulVec (a b : ℝ) (x : Fin (D + D) → ℝ) (i : Fin D) :
    (addMat D a b).mulVec x i = a * x (Fin.castAdd D i) + b * x (Fin.natAdd D i) := by
  unfold Matrix.mulVec dotProduct addMat
  rw [Fin.sum_univ_add]
  simp only [Fin.append_left, Fin.append_right, ite_mul, zero_mul, sum_ite_eq, mem_univ, if_true]

/-- **C79**, linearity: the fit of `a y + b z` has the coefficients `a c + b d`, where `c` and `d` are those of the fits of `y` and of `z`. -/
theorem C79_linear (solve : Solver ℝ) (hsolve : SolvesSemidefinite solve) (s : BSpline ℝ D)
    (data : List (ℝ × (Fin D → ℝ) × (Fin D → ℝ))) (n : ℕ)
    (hin : FitInput s (data.map fun o => (o.1, o.2.1)) n) (a b : ℝ) (lambda : ℝ) (hl : 0 < lambda) :
    ∃ s₁ s₂ s₃, s.initSpline3 solve (data.map fun o => (o.1, o.2.1)) n lambda = .ok s₁ ∧
      s.initSpline3 solve (data.map fun o => (o.1, o.2.2)) n lambda = .ok s₂ ∧
      s.initSpline3 solve (data.map fun o => (o.1, a • o.2.1 + b • o.2.2)) n lambda = .ok s₃ ∧
      s₁.WF ∧ SharedKnots s₁ s₂ ∧ SharedKnots s₁ s₃ ∧ s₃.coeffs = (comb s₁ s₂ a b).coeffs := by
  have hD := hin.dim
  set s0 : BSpline ℝ (D + D) := { order := s.order, knots := [], coeffs := [], basis := [] } with hs0
  have ht : ∀ {F : ℕ} (f : ℝ × (Fin D → ℝ) × (Fin D → ℝ) → Fin F → ℝ),
      (data.map fun o => (o.1, f o)).map Prod.fst = (data.map fun o => (o.1, o.2.1)).map Prod.fst := by
    intro F f
    rw [List.map_map, List.map_map]
    rfl
  have hf : firstTime (data.map joined) = firstTime (data.map fun o => (o.1, o.2.1)) := by
    unfold firstTime joined; rw [ht]
  have hla : lastTime (data.map joined) = lastTime (data.map fun o => (o.1, o.2.1)) := by
    unfold lastTime joined; rw [ht]; simp only [List.length_map]
  have hin0 : FitInput s0 (data.map joined) n := by
    refine ⟨hin.order, by omega, ?_, ?_, hin.segments, ?_, by rw [hf, hla]; exact hin.wide⟩
    · rw [List.length_map]; simpa using hin.two
    · unfold joined; rw [ht]; exact hin.sorted
    · change 0 ≤ _; omega
  have key : ∀ x y : ℝ, ((data.map joined).map fun o => (o.1, (addMat D x y).mulVec o.2))
      = data.map fun o => (o.1, x • o.2.1 + y • o.2.2) := by
    intro x y
    rw [List.map_map]
    refine List.map_congr_left fun o _ => ?_
    refine Prod.ext rfl (funext fun i => ?_)
    change (addMat D x y).mulVec (Fin.append o.2.1 o.2.2) i = _
    rw [addMat_mulVec, Fin.append_left, Fin.append_right]
    rfl
  have run : ∀ x y : ℝ, ∃ s' r', s0.initSpline3 solve (data.map joined) n lambda = .ok s' ∧
      s.initSpline3 solve (data.map fun o => (o.1, x • o.2.1 + y • o.2.2)) n lambda = .ok r' ∧
      r'.order = s'.order ∧ r'.knots = s'.knots ∧ r'.coeffs = s'.coeffs.map (addMat D x y).mulVec := by
    intro x y
    have := C79_map solve solve hsolve hsolve s0 s rfl (data.map joined) n hin0 hD hin.old (addMat D x y) lambda hl
    rwa [key] at this
  obtain ⟨q, s₁, q1, p1, x1, y1, z1⟩ := run 1 0
  obtain ⟨q', s₂, q2, p2, x2, y2, z2⟩ := run 0 1
  obtain ⟨q'', s₃, q3, p3, x3, y3, z3⟩ := run a b
  rw [q1] at q2 q3
  obtain rfl := Outcome.ok.inj q2
  obtain rfl := Outcome.ok.inj q3
  have k1 : (fun o : ℝ × (Fin D → ℝ) × (Fin D → ℝ) => (o.1, (1 : ℝ) • o.2.1 + (0 : ℝ) • o.2.2)) = fun o => (o.1, o.2.1) := by
    funext o; simp
  have k2 : (fun o : ℝ × (Fin D → ℝ) × (Fin D → ℝ) => (o.1, (0 : ℝ) • o.2.1 + (1 : ℝ) • o.2.2)) = fun o => (o.1, o.2.2) := by
    funext o; simp
  rw [k1] at p1
  rw [k2] at p2
  have wf : ∀ {u : BSpline ℝ D} {f : ℝ × (Fin D → ℝ) × (Fin D → ℝ) → Fin D → ℝ},
      s.initSpline3 solve (data.map fun o => (o.1, f o)) n lambda = .ok u → u.WF := by
    intro u f hu
    have hf' : firstTime (data.map fun o => (o.1, f o)) = firstTime (data.map fun o => (o.1, o.2.1)) := by
      unfold firstTime; rw [ht]
    have hla' : lastTime (data.map fun o => (o.1, f o)) = lastTime (data.map fun o => (o.1, o.2.1)) := by
      unfold lastTime; rw [ht]; simp only [List.length_map]
    obtain ⟨v, v1, -, v2, -⟩ := fit_minimal solve hsolve s (data.map fun o => (o.1, f o)) n
      ⟨hin.order, hD, by simpa using hin.two, by rw [ht]; exact hin.sorted, hin.segments, hin.old, by rw [hf', hla']; exact hin.wide⟩
      lambda hl.le
    rw [hu] at v1
    rw [Outcome.ok.inj v1]
    exact v2
  refine ⟨s₁, s₂, s₃, p1, p2, p3, wf p1, ⟨wf p2, x2.trans x1.symm, y2.trans y1.symm⟩, ⟨wf p3, x3.trans x1.symm, y3.trans y1.symm⟩, ?_⟩
  unfold comb
  simp only
  rw [z1, z2, z3, List.zipWith_map, List.zipWith_self]
  refine List.map_congr_left fun c _ => ?_
  funext i
  simp only [Pi.add_apply, Pi.smul_apply, smul_eq_mul, addMat_mulVec]
  ring

/-- **C79**, motions of the data: adding to the observations a polynomial that the penalty does not see (a line for orders from three on, a
constant for order two) adds this polynomial to the curve, with all derivatives. -/
theorem C79_translate (solve : Solver ℝ) (hsolve : SolvesSemidefinite solve) (s : BSpline ℝ D)
    (data : List (ℝ × (Fin D → ℝ))) (n : ℕ) (hin : FitInput s data n) (P : Fin D → ℝ[X]) (hP : ∀ d, (P d).natDegree < penalty s.order)
    (lambda : ℝ) (hl : 0 < lambda) :
    ∃ s' r', s.initSpline3 solve data n lambda = .ok s' ∧
      s.initSpline3 solve (data.map fun o => (o.1, fun d => o.2 d + (P d).eval o.1)) n lambda = .ok r' ∧
      ∀ t, firstTime data ≤ t → t ≤ lastTime data → ∀ der : ℕ, ∃ v, s'.evalD t der = .ok v ∧
        r'.evalD t der = .ok fun d => v d + (derivative^[der] (P d)).eval t := by
  have hpo : penalty s.order ≤ s.order := by
    have := hin.order
    unfold penalty
    split_ifs <;> omega
  have m1 : ((data.map fun o => (o.1, o.2, fun d => (P d).eval o.1)).map fun o : ℝ × (Fin D → ℝ) × (Fin D → ℝ) => (o.1, o.2.1)) = data := by
    rw [List.map_map]
    exact List.map_id data
  have m2 : ((data.map fun o => (o.1, o.2, fun d => (P d).eval o.1)).map fun o : ℝ × (Fin D → ℝ) × (Fin D → ℝ) => (o.1, o.2.2))
      = data.map fun o => (o.1, fun d => (P d).eval o.1) := by
    rw [List.map_map]
    rfl
  have m3 : ((data.map fun o => (o.1, o.2, fun d => (P d).eval o.1)).map
      fun o : ℝ × (Fin D → ℝ) × (Fin D → ℝ) => (o.1, (1 : ℝ) • o.2.1 + (1 : ℝ) • o.2.2))
      = data.map fun o => (o.1, fun d => o.2 d + (P d).eval o.1) := by
    rw [List.map_map]
    refine List.map_congr_left fun o _ => ?_
    refine Prod.ext rfl (funext fun d => ?_)
    simp
  obtain ⟨s₁, s₂, s₃, e1, e2, e3, wf, k2, k3, hc⟩ := C79_linear solve hsolve s (data.map fun o => (o.1, o.2, fun d => (P d).eval o.1)) n
    (by rw [m1]; exact hin) 1 1 lambda hl
  rw [m1] at e1
  rw [m2] at e2
  rw [m3] at e3
  obtain ⟨hin2, hf, hla⟩ := hin.map s rfl hin.dim hin.old fun o d => (P d).eval o.1
  obtain ⟨u, u1, -, u2, u3, -, u4⟩ := C76_fit solve hsolve s _ n hin2 lambda hl.le P (fun d => (hP d).trans_le hpo) (Or.inr hP)
    (fun o ho d => by
      obtain ⟨o', -, rfl⟩ := List.mem_map.1 ho
      rfl)
  rw [e2] at u1
  obtain rfl := Outcome.ok.inj u1
  rw [hf, hla] at u4
  obtain ⟨w, w1, -, w2, w3, -⟩ := fit_minimal solve hsolve s data n hin lambda hl.le
  rw [e1] at w1
  obtain rfl := Outcome.ok.inj w1
  obtain ⟨g1, g2, g3, g4⟩ := w3.facts wf hin.segments hin.wide
  refine ⟨s₁, s₃, e1, e3, fun t t1 t2 der => ?_⟩
  have t1' : s₁.kn (s₁.order - 1) ≤ t := by rw [g1]; exact t1
  have t2' : t ≤ s₁.kn (s₁.knots.length - s₁.order) := by rw [g2]; exact t2
  refine ⟨val s₁ t der, evalD_val wf g3 t t1' t2' der, ?_⟩
  rw [evalD_val k3.wf (k3.wide g3) t (by rw [k3.kn_eq, k3.order]; exact t1') (by rw [k3.kn_eq, k3.order, k3.knots]; exact t2') der]
  refine congrArg Outcome.ok ?_
  have hv : val s₃ t der = val (comb s₁ s₂ 1 1) t der := by
    obtain ⟨wt, hwt⟩ := val_weights wf g3 t t1' t2'
    funext d
    rw [hwt _ _ k3, hwt _ _ (comb_same wf k2 1 1)]
    unfold col
    rw [hc]
  rw [hv, val_comb wf g3 k2 1 1 t t1' t2' der]
  have hz : val s₂ t der = fun d => (derivative^[der] (P d)).eval t := by
    unfold val
    rw [u4 hl t t1 t2 der]
    rfl
  rw [hz]
  funext d
  simp

/-- **C79** for knots given by the caller: the result does not depend on the solver, on the spline before or on the order of observations at
the same time, and it is mapped by a matrix with the data (`A = 1` for the same data). -/
theorem C79_knots (solve solve' : Solver ℝ) (hsolve : SolvesSemidefinite solve) (hsolve' : SolvesSemidefinite solve')
    (s : BSpline ℝ D) (r : BSpline ℝ E) (ho : 2 ≤ s.order) (hor : r.order = s.order) (hD : 1 ≤ D) (hE : 1 ≤ E)
    (data data' : List (ℝ × (Fin D → ℝ))) (hperm : data.Perm data') (hlen : 2 ≤ data.length)
    (hs : (data.map Prod.fst).Pairwise (· ≤ ·)) (hs' : (data'.map Prod.fst).Pairwise (· ≤ ·)) (knots : List ℝ) (hks : knots.Pairwise (· ≤ ·))
    (hkl : 2 * s.order ≤ knots.length) (hold : s.knots.length ≤ knots.length) (hold' : r.knots.length ≤ knots.length)
    (hwide : 1 / 10 ^ 10 ≤ knots.getD (knots.length - s.order) 0 - knots.getD (knots.length - s.order - 1) 0)
    (hstrict : ∀ i, s.order - 1 ≤ i → i + 1 ≤ knots.length - s.order → knots.getD i 0 < knots.getD (i + 1) 0)
    (hin : ∀ o ∈ data, knots.getD (s.order - 1) 0 ≤ o.1 ∧ o.1 ≤ knots.getD (knots.length - s.order) 0)
    (hdis : ∃ o ∈ data, ∃ o' ∈ data, o.1 ≠ o'.1) (A : Matrix (Fin E) (Fin D) ℝ) (lambda : ℝ) (hl : 0 < lambda) :
    ∃ s' r', s.initSplineSparseKnots solve data knots lambda = .ok s' ∧
      r.initSplineSparseKnots solve' (data'.map fun o => (o.1, A.mulVec o.2)) knots lambda = .ok r' ∧
      s'.order = s.order ∧ r'.order = s.order ∧ s'.knots = knots ∧ r'.knots = knots ∧ r'.coeffs = s'.coeffs.map A.mulVec := by
  have hm : (data'.map fun o => (o.1, A.mulVec o.2)).map Prod.fst = data'.map Prod.fst := by rw [List.map_map]; rfl
  obtain ⟨s', a1, a2, a3, a4, a5⟩ := C19_given_knots_optimal solve hsolve s ho hD data hlen hs knots hks hkl hold hwide hin lambda hl.le
  obtain ⟨r', b1, b2, b3, b4, b5⟩ := C19_given_knots_optimal solve' hsolve' r (by omega) hE (data'.map fun o => (o.1, A.mulVec o.2))
    (by rw [List.length_map, ← hperm.length_eq]; exact hlen) (by rw [hm]; exact hs') knots hks (by rw [hor]; exact hkl) hold'
    (by rw [hor]; exact hwide) (fun o ho => by
      obtain ⟨o', ho', rfl⟩ := List.mem_map.1 ho
      rw [hor]
      exact hin o' (hperm.mem_iff.2 ho')) lambda hl.le
  have hsame : SharedKnots s' r' := ⟨b2, b3.trans (hor.trans a3.symm), b4.trans a4.symm⟩
  have hkn : ∀ i, s'.kn i = knots.getD i 0 := fun i => by unfold kn; rw [a4]
  have hw : s'.WideLast := by
    intro a b hab
    obtain ⟨i, i1, i2, rfl, rfl, i3⟩ := timeIntervalOf_eq a2 hab
    unfold numValidTimeSegments numValidTimeSegmentsOf at i3
    rw [a3, a4] at i3
    have e : i = knots.length - s.order - 1 := by omega
    subst e
    rw [hkn, hkn, show knots.length - s.order - 1 + 1 = knots.length - s.order by omega]
    exact hwide
  have hdata : ∀ o ∈ data, s'.kn (s'.order - 1) ≤ o.1 ∧ o.1 ≤ s'.kn (s'.knots.length - s'.order) := by
    rw [hkn, hkn, a3, a4]; exact hin
  have hst : ∀ i, s'.order - 1 ≤ i → i + 1 ≤ s'.knots.length - s'.order → s'.kn i < s'.kn (i + 1) := by
    intro i i1 i2
    rw [hkn, hkn]
    exact hstrict i (by rw [← a3]; exact i1) (by rw [← a3, ← a4]; exact i2)
  have m1 : Minimal data lambda (penalty s'.order) (s'.kn (s'.order - 1)) (s'.kn (s'.knots.length - s'.order)) s' := by
    refine minimal_of_lists a2 hw hdata fun cs hcs => ?_
    rw [hkn, hkn]
    have := a5 cs hcs
    rw [← a3] at this
    rw [show knots.length = s'.knots.length by rw [a4]] at this
    exact this
  have m2 : Minimal (data'.map fun o => (o.1, A.mulVec o.2)) lambda (penalty r'.order) (r'.kn (r'.order - 1)) (r'.kn (r'.knots.length - r'.order)) r' := by
    refine minimal_of_lists b2 (hsame.wide hw) (fun o ho => ?_) fun cs hcs => ?_
    · obtain ⟨o', ho', rfl⟩ := List.mem_map.1 ho
      rw [hsame.kn_eq, hsame.order, hsame.knots]
      exact hdata o' (hperm.mem_iff.2 ho')
    · rw [hsame.kn_eq, hkn, hkn]
      have := b5 cs hcs
      rw [← b3] at this
      rw [show knots.length = r'.knots.length by rw [b4]] at this
      exact this
  refine ⟨s', r', a1, b1, a3, b3.trans hor, a4, b4, ?_⟩
  have hma := mapped_same a2 A
  have hmr : SharedKnots (mapped A s') r' := ⟨b2, hsame.order, hsame.knots⟩
  refine (C79_unique (mapped A s') r' hma.wf (hma.wide hw) hmr a2.order_pos hst (data.map fun o => (o.1, A.mulVec o.2)) (fun o ho => ?_) ?_ lambda hl
    (m1.map a2 hw hdata hl.le A) ?_).symm
  · obtain ⟨o', ho', rfl⟩ := List.mem_map.1 ho
    exact hdata o' ho'
  · obtain ⟨o, ho, o', ho', hne⟩ := hdis
    exact ⟨_, List.mem_map.2 ⟨o, ho, rfl⟩, _, List.mem_map.2 ⟨o', ho', rfl⟩, hne⟩
  · rw [hsame.kn_eq, hsame.order, hsame.knots] at m2
    intro q hq
    rw [fitCost_perm _ (hperm.map _), fitCost_perm _ (hperm.map _)]
    exact m2 q hq

/-- The spline with the knots `a x + b`. -/
theorem Minimal.time {p p' : BSpline ℝ D} (hp : p.WF) (hw : p.WideLast) (hp' : p'.WF) (hw' : p'.WideLast) (a b : ℝ) (ha : 0 < a)
    (ho : p'.order = p.order) (hkn : p'.knots = p.knots.map fun x => a * x + b) (hc : p'.coeffs = p.coeffs)
    {data : List (ℝ × (Fin D → ℝ))}
    (hdata : ∀ o ∈ data, p.kn (p.order - 1) ≤ o.1 ∧ o.1 ≤ p.kn (p.knots.length - p.order)) {lambda : ℝ} {der : ℕ} (hder : 1 ≤ der)
    (h : Minimal data lambda der (p.kn (p.order - 1)) (p.kn (p.knots.length - p.order)) p) :
    Minimal (data.map fun o => (a * o.1 + b, o.2)) (lambda * a ^ (2 * der - 1)) der (p'.kn (p'.order - 1)) (p'.kn (p'.knots.length - p'.order)) p' := by
  have hk := hp.order_pos
  have hn := hp.enough
  have hlohi : p.kn (p.order - 1) ≤ p.kn (p.knots.length - p.order) := hp.mono _ _ (by omega) (by omega)
  have hlen : p'.knots.length = p.knots.length := by rw [hkn, List.length_map]
  have hkf : ∀ m, m < p.knots.length → p'.kn m = a * p.kn m + b := by
    intro m hm
    unfold kn
    rw [hkn]
    simp [List.getD_eq_getElem?_getD, hm]
  have hlo : p'.kn (p'.order - 1) = a * p.kn (p.order - 1) + b := by rw [ho]; exact hkf _ (by omega)
  have hhi : p'.kn (p'.knots.length - p'.order) = a * p.kn (p.knots.length - p.order) + b := by rw [ho, hlen]; exact hkf _ (by omega)
  -- the cost in the new time of a spline with the coefficients of a spline in the old time
  have cost : ∀ r r' : BSpline ℝ D, SharedKnots p r → SharedKnots p' r' → r'.coeffs = r.coeffs →
      fitCost r' (data.map fun o => (a * o.1 + b, o.2)) (lambda * a ^ (2 * der - 1)) der (p'.kn (p'.order - 1)) (p'.kn (p'.knots.length - p'.order))
        = fitCost r data lambda der (p.kn (p.order - 1)) (p.kn (p.knots.length - p.order)) := by
    intro r r' hr hr' hcr
    have hv : ∀ t, p.kn (p.order - 1) ≤ t → t ≤ p.kn (p.knots.length - p.order) → ∀ (m : ℕ) (d : Fin D),
        val r' (a * t + b) m d = val r t m d / a ^ m := by
      intro t t1 t2 m d
      have t1' : a * p.kn (p.order - 1) + b ≤ a * t + b := by nlinarith
      have t2' : a * t + b ≤ a * p.kn (p.knots.length - p.order) + b := by nlinarith
      have A1 := (evalD_repro hr.wf (hr.wide hw) m t (by rw [hr.kn_eq, hr.order]; exact t1) (by rw [hr.kn_eq, hr.order, hr.knots]; exact t2)).1
      have A2 := (evalD_repro hr'.wf (hr'.wide hw') m (a * t + b) (by rw [hr'.kn_eq, hr'.order, hlo]; exact t1')
        (by rw [hr'.kn_eq, hr'.order, hr'.knots, hhi]; exact t2')).1
      have := C18_time_scaling r r' hr.wf hr'.wf a b ha (hr'.order.trans (ho.trans hr.order.symm)) (by rw [hr'.knots, hr.knots, hkn]) hcr t A1 A2 m
      unfold val
      rw [this, evalD_val hr.wf (hr.wide hw) t (by rw [hr.kn_eq, hr.order]; exact t1) (by rw [hr.kn_eq, hr.order, hr.knots]; exact t2)]
      rfl
    rw [fitCost_val, fitCost_val, hlo, hhi]
    congr 1
    · rw [List.map_map]
      congr 1
      refine List.map_congr_left fun o ho => ?_
      refine sum_congr rfl fun d _ => ?_
      change (val r' (a * o.1 + b) 0 d - o.2 d) ^ 2 = _
      rw [hv o.1 (hdata o ho).1 (hdata o ho).2, pow_zero, div_one]
    · have e1 := intervalIntegral.integral_comp_mul_add (a := p.kn (p.order - 1)) (b := p.kn (p.knots.length - p.order))
        (fun t => ∑ d, (val r' t der d) ^ 2) ha.ne' b
      have e2 : (∫ t in p.kn (p.order - 1)..p.kn (p.knots.length - p.order), ∑ d, (val r' (a * t + b) der d) ^ 2)
          = (∫ t in p.kn (p.order - 1)..p.kn (p.knots.length - p.order), ∑ d, (val r t der d) ^ 2) / a ^ (2 * der) := by
        rw [← intervalIntegral.integral_div]
        apply intervalIntegral.integral_congr
        intro t ht
        rw [Set.uIcc_of_le hlohi] at ht
        dsimp only
        rw [sum_div]
        refine sum_congr rfl fun d _ => ?_
        rw [hv t ht.1 ht.2, div_pow, ← pow_mul, mul_comm der 2]
      rw [e1, smul_eq_mul] at e2
      have e3 : (∫ t in a * p.kn (p.order - 1) + b..a * p.kn (p.knots.length - p.order) + b, ∑ d, (val r' t der d) ^ 2)
          = a * ((∫ t in p.kn (p.order - 1)..p.kn (p.knots.length - p.order), ∑ d, (val r t der d) ^ 2) / a ^ (2 * der)) := by
        rw [← e2]
        field_simp
      rw [e3]
      obtain ⟨k, hk⟩ : ∃ k, 2 * der = k + 1 := ⟨2 * der - 1, by omega⟩
      rw [hk, Nat.add_sub_cancel, pow_succ]
      field_simp
  intro r' hr'
  have hl' : r'.coeffs.length = p.coeffs.length := by rw [hr'.length_eq hp', hc]
  have hr : SharedKnots p { p with coeffs := r'.coeffs } := ⟨hp.withCoeffs _ hl', rfl, rfl⟩
  rw [cost p p' ⟨hp, rfl, rfl⟩ ⟨hp', rfl, rfl⟩ hc, cost _ r' hr hr' rfl]
  exact h _ hr

/-- **C79**, time: if the times of the data are changed to `a t + b` (another unit, another start) and the weight of the penalty to
`lambda a^(2m-1)`, where `m` is the penalised derivative, the coefficients stay and the knots are changed like the times.  For a shift the
weight stays. -/
theorem C79_time (solve solve' : Solver ℝ) (hsolve : SolvesSemidefinite solve) (hsolve' : SolvesSemidefinite solve')
    (s : BSpline ℝ D) (data : List (ℝ × (Fin D → ℝ))) (n : ℕ)
    (hin : FitInput s data n) (a b : ℝ) (ha : 0 < a) (hin' : FitInput s (data.map fun o => (a * o.1 + b, o.2)) n) (lambda : ℝ) (hl : 0 < lambda) :
    ∃ s' r', s.initSpline3 solve data n lambda = .ok s' ∧
      s.initSpline3 solve' (data.map fun o => (a * o.1 + b, o.2)) n (lambda * a ^ (2 * penalty s.order - 1)) = .ok r' ∧
      r'.order = s'.order ∧ r'.knots = s'.knots.map (fun x => a * x + b) ∧ r'.coeffs = s'.coeffs := by
  have hl' : 0 < lambda * a ^ (2 * penalty s.order - 1) := by positivity
  have two := hin.two
  have hlt := hin.lt
  obtain ⟨s', a1, a2, a3, a4, a5⟩ := fit_minimal solve hsolve s data n hin lambda hl.le
  obtain ⟨r', b1, b2, b3, b4, b5⟩ := fit_minimal solve' hsolve' s _ n hin' _ hl'.le
  obtain ⟨g1, g2, g3, g4⟩ := a4.facts a3 hin.segments hin.wide
  obtain ⟨f1, f2, f3, f4⟩ := b4.facts b3 hin'.segments hin'.wide
  have hm : (data.map fun o => (a * o.1 + b, o.2)).map Prod.fst = (data.map Prod.fst).map fun t => a * t + b := by
    rw [List.map_map, List.map_map]; rfl
  have hf : firstTime (data.map fun o => (a * o.1 + b, o.2)) = a * firstTime data + b := by
    unfold firstTime
    rw [hm, List.getD_eq_getElem?_getD, List.getD_eq_getElem?_getD, List.getElem?_map,
      List.getElem?_eq_getElem (l := data.map Prod.fst) (by simp; omega)]
    rfl
  have hla : lastTime (data.map fun o => (a * o.1 + b, o.2)) = a * lastTime data + b := by
    unfold lastTime
    rw [hm, List.getD_eq_getElem?_getD, List.getD_eq_getElem?_getD, List.getElem?_map, List.length_map,
      List.getElem?_eq_getElem (l := data.map Prod.fst) (by simp; omega)]
    rfl
  have hkn : r'.knots = s'.knots.map fun x => a * x + b := by
    refine List.ext_getElem (by rw [List.length_map, b4.length_eq, a4.length_eq]) fun i i1 i2 => ?_
    rw [List.length_map] at i2
    have e1 := a4.kn_eq i (by rw [← a4.length_eq]; exact i2)
    have e2 := b4.kn_eq i (by rw [← b4.length_eq]; exact i1)
    unfold kn at e1 e2
    rw [List.getD_eq_getElem?_getD, List.getElem?_eq_getElem i2, Option.getD_some] at e1
    rw [List.getD_eq_getElem?_getD, List.getElem?_eq_getElem i1, Option.getD_some] at e2
    rw [List.getElem_map, e1, e2, hf, hla]
    have : (n : ℝ) ≠ 0 := by have := hin.segments; positivity
    field_simp
    ring
  have hor : r'.order = s'.order := b4.order_eq.trans a4.order_eq.symm
  have hlen : s'.coeffs.length = r'.coeffs.length := by
    have c1 := a3.coeffs_len
    have c2 := b3.coeffs_len
    rw [hor, hkn, List.length_map] at c2
    omega
  refine ⟨s', r', a1, b1, hor, hkn, ?_⟩
  have hq : SharedKnots r' { r' with coeffs := s'.coeffs } := ⟨b3.withCoeffs _ hlen, rfl, rfl⟩
  have hpen : 1 ≤ penalty s'.order := by unfold penalty; split_ifs <;> omega
  refine C79_unique r' { r' with coeffs := s'.coeffs } b3 f3 hq b3.order_pos f4 _ (by rw [f1, f2]; exact times_between _ hin'.sorted) hin'.distinct _ hl' b5 ?_
  have := Minimal.time a3 g3 hq.wf (hq.wide f3) a b ha hor hkn rfl (by rw [g1, g2]; exact times_between data hin.sorted) hpen a5
  rw [a4.order_eq] at this
  rw [show penalty r'.order = penalty s.order by rw [b4.order_eq]]
  exact this

/-! ### Examples -/

/-- Three observations in the plane, with penalty: the second component of the fit is the fit of the second components, for two solvers and
two initial splines. -/
example : ∃ s' r', (⟨4, [], [], []⟩ : BSpline ℝ 2).initSpline3 choiceSolver [(0, ![1, 5]), (1, ![3, 2]), (4, ![9, 7])] 2 7 = .ok s' ∧
    (⟨4, [3, 4], [], []⟩ : BSpline ℝ 1).initSpline3 choiceSolver [(0, ![5]), (1, ![2]), (4, ![7])] 2 7 = .ok r' ∧
    r'.coeffs = s'.coeffs.map fun c => ![c 1] := by
  obtain ⟨s', r', h1, h2, -, -, h3⟩ := C79_map choiceSolver choiceSolver choiceSolver_semidefinite choiceSolver_semidefinite
    (⟨4, [], [], []⟩ : BSpline ℝ 2) (⟨4, [3, 4], [], []⟩ : BSpline ℝ 1) rfl [(0, ![1, 5]), (1, ![3, 2]), (4, ![9, 7])] 2
    ⟨by norm_num, by norm_num, by norm_num, by norm_num, by norm_num, by norm_num, by norm_num [firstTime, lastTime]⟩ le_rfl (by decide)
    !![0, 1] 7 (by norm_num)
  have e : ∀ c : Fin 2 → ℝ, (!![0, 1] : Matrix (Fin 1) (Fin 2) ℝ).mulVec c = ![c 1] := by
    intro c
    funext i
    fin_cases i
    simp [Matrix.mulVec, dotProduct]
  rw [show Matrix.mulVec !![(0 : ℝ), 1] = fun c : Fin 2 → ℝ => ![c 1] from funext e] at h3
  simp only [e] at h2
  exact ⟨s', r', h1, h2, h3⟩

/-- Two observations at the same time, given in either order. -/
example : ∃ s' r', (⟨3, [], [], []⟩ : BSpline ℝ 1).initSpline3 choiceSolver [(0, ![1]), (0, ![3]), (4, ![9])] 2 7 = .ok s' ∧
    (⟨3, [8], [], []⟩ : BSpline ℝ 1).initSplineSparse choiceSolver [(0, ![3]), (0, ![1]), (4, ![9])] 2 7 = .ok r' ∧ r'.coeffs = s'.coeffs := by
  obtain ⟨s', r', h1, -, -, h2, -, -, h3⟩ := C79_determined choiceSolver choiceSolver choiceSolver_semidefinite choiceSolver_semidefinite
    (⟨3, [], [], []⟩ : BSpline ℝ 1) (⟨3, [8], [], []⟩ : BSpline ℝ 1) rfl [(0, ![1]), (0, ![3]), (4, ![9])] [(0, ![3]), (0, ![1]), (4, ![9])]
    (List.Perm.swap _ _ _) 2
    ⟨by norm_num, by norm_num, by norm_num, by norm_num, by norm_num, by norm_num, by norm_num [firstTime, lastTime]⟩
    ⟨by norm_num, by norm_num, by norm_num, by norm_num, by norm_num, by norm_num, by norm_num [firstTime, lastTime]⟩ 7 (by norm_num)
  exact ⟨s', r', h1, h2, h3⟩

/-- The same data with times in milliseconds. -/
example : ∃ s' r', (⟨4, [], [], []⟩ : BSpline ℝ 1).initSpline3 choiceSolver [(0, ![1]), (1, ![3]), (4, ![-2])] 2 7 = .ok s' ∧
    (⟨4, [], [], []⟩ : BSpline ℝ 1).initSpline3 choiceSolver [(0, ![1]), (1000, ![3]), (4000, ![-2])] 2 7000000000 = .ok r' ∧
    r'.coeffs = s'.coeffs := by
  obtain ⟨s', r', h1, h2, -, -, h3⟩ := C79_time choiceSolver choiceSolver choiceSolver_semidefinite choiceSolver_semidefinite
    (⟨4, [], [], []⟩ : BSpline ℝ 1) [(0, ![1]), (1, ![3]), (4, ![-2])] 2
    ⟨by norm_num, by norm_num, by norm_num, by norm_num, by norm_num, by norm_num, by norm_num [firstTime, lastTime]⟩ 1000 0 (by norm_num)
    ⟨by norm_num, by norm_num, by norm_num, by norm_num, by norm_num, by norm_num, by norm_num [firstTime, lastTime]⟩ 7 (by norm_num)
  refine ⟨s', r', h1, ?_, h3⟩
  rw [← h2]
  norm_num [penalty]

/-- Adding the line `2 t + 1` to the data adds it to the curve. -/
example : ∃ s' r', (⟨4, [], [], []⟩ : BSpline ℝ 1).initSpline3 choiceSolver [(0, ![1]), (1, ![3]), (4, ![-2])] 2 7 = .ok s' ∧
    (⟨4, [], [], []⟩ : BSpline ℝ 1).initSpline3 choiceSolver [(0, ![2]), (1, ![6]), (4, ![7])] 2 7 = .ok r' ∧
    ∃ v, s'.evalD 3 1 = .ok v ∧ r'.evalD 3 1 = .ok fun d => v d + 2 := by
  obtain ⟨s', r', h1, h2, h3⟩ := C79_translate choiceSolver choiceSolver_semidefinite
    (⟨4, [], [], []⟩ : BSpline ℝ 1) [(0, ![1]), (1, ![3]), (4, ![-2])] 2
    ⟨by norm_num, by norm_num, by norm_num, by norm_num, by norm_num, by norm_num, by norm_num [firstTime, lastTime]⟩
    (fun _ => C 2 * X + C 1) (fun d => lt_of_le_of_lt natDegree_linear_le (by norm_num [penalty])) 7 (by norm_num)
  have e : ([((0 : ℝ), (![1] : Fin 1 → ℝ)), (1, ![3]), (4, ![-2])].map fun o => (o.1, fun d => o.2 d + (C (2 : ℝ) * X + C 1).eval o.1))
      = [(0, ![2]), (1, ![6]), (4, ![7])] := by
    simp only [List.map_cons, List.map_nil, List.cons.injEq, Prod.mk.injEq, true_and, and_true]
    refine ⟨?_, ?_, ?_⟩ <;> (funext d; fin_cases d; norm_num)
  rw [e] at h2
  obtain ⟨v, v1, v2⟩ := h3 3 (by norm_num [firstTime]) (by norm_num [lastTime]) 1
  refine ⟨s', r', h1, h2, v, v1, ?_⟩
  rw [show ((1 : ℕ) : ℤ) = 1 from rfl] at v2
  rw [v2]
  congr 1
  funext d
  simp

/-- Uneven knots given by the caller, values mirrored. -/
example : ∃ s' r', (⟨3, [], [], []⟩ : BSpline ℝ 1).initSplineSparseKnots choiceSolver
      [(1, ![1]), (2, ![8]), (4, ![4])] [-1, 0, 1, 2, 5, 7, 8] 3 = .ok s' ∧
    (⟨3, [], [], []⟩ : BSpline ℝ 1).initSplineSparseKnots choiceSolver
      [(1, ![-1]), (2, ![-8]), (4, ![-4])] [-1, 0, 1, 2, 5, 7, 8] 3 = .ok r' ∧ r'.coeffs = s'.coeffs.map fun c => -c := by
  obtain ⟨s', r', h1, h2, -, -, -, -, h3⟩ := C79_knots choiceSolver choiceSolver choiceSolver_semidefinite choiceSolver_semidefinite
    (⟨3, [], [], []⟩ : BSpline ℝ 1) (⟨3, [], [], []⟩ : BSpline ℝ 1) (by decide) rfl le_rfl le_rfl [(1, ![1]), (2, ![8]), (4, ![4])] _
    (List.Perm.refl _) (by decide) (by norm_num) (by norm_num) [-1, 0, 1, 2, 5, 7, 8] (by norm_num) (by decide) (by decide) (by decide) (by norm_num)
    (by
      intro i h1 h2
      change 2 ≤ i at h1
      change i + 1 ≤ 4 at h2
      obtain rfl | rfl : i = 2 ∨ i = 3 := by omega
      all_goals norm_num)
    (by simp only [List.mem_cons, List.not_mem_nil, or_false]; rintro o (rfl | rfl | rfl) <;> norm_num)
    ⟨(1, ![1]), by simp, (2, ![8]), by simp, by norm_num⟩ (-1) 3 (by norm_num)
  have e : ∀ c : Fin 1 → ℝ, (-1 : Matrix (Fin 1) (Fin 1) ℝ).mulVec c = -c := by
    intro c
    rw [Matrix.neg_mulVec, Matrix.one_mulVec]
  rw [show Matrix.mulVec (-1 : Matrix (Fin 1) (Fin 1) ℝ) = fun c => -c from funext e] at h3
  simp only [e] at h2
  refine ⟨s', r', h1, ?_, h3⟩
  rw [← h2]
  simp

end Verif
