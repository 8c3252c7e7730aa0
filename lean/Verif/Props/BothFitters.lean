import Verif.Props.FitUnique
import Verif.Props.UniformFit
import Verif.Props.Euclidean

/-!
# Property C99: the two implementations of fitting agree

The library fits splines to data twice: `BSpline::initSpline3`, `initSplineSparse` and `initSplineSparseKnots` on one side, `BSplineFitter`
for Euclidean manifold splines on the other.
-/

set_option linter.unusedSectionVars false

namespace Verif

open Finset Polynomial BSpline MeasureTheory

variable {D : ℕ}

/-- A plain spline and a manifold spline with the same order, knots and coefficients. -/
structure SameSpline (b : BSpline ℝ D) (m : MSpline ℝ (Fin D → ℝ)) : Prop where
  order : m.order = b.order
  knots : m.keys = b.knots
  coeffs : m.verts.take b.coeffs.length = b.coeffs

theorem SameSpline.kn {b : BSpline ℝ D} {m : MSpline ℝ (Fin D → ℝ)} (h : SameSpline b m) : m.kn = b.kn := by
  funext j
  unfold MSpline.kn BSpline.kn
  rw [h.knots]

theorem SameSpline.vert {b : BSpline ℝ D} {m : MSpline ℝ (Fin D → ℝ)} (h : SameSpline b m) (j : ℕ) (hj : j < b.coeffs.length) (d : Fin D) :
    m.vert j d = b.col j d := by
  unfold MSpline.vert BSpline.col
  rw [← h.coeffs, List.getD_eq_getElem?_getD, List.getD_eq_getElem?_getD, List.getElem?_take, if_pos hj]

/-- They have the same values and derivatives. -/
theorem SameSpline.eval {b : BSpline ℝ D} {m : MSpline ℝ (Fin D → ℝ)} (h : SameSpline b m) (hb : b.WF) (hwide : b.WideLast) (hm : m.MWF)
    (he : m.state = .evaluable) (t : ℝ) (t1 : b.kn (b.order - 1) ≤ t) (t2 : t ≤ b.kn (b.knots.length - b.order)) (der : ℕ) :
    m.euclideanEvalD none t der = b.evalD t der := by
  have hk := hb.order_pos
  have hn := hb.enough
  obtain ⟨-, i, hi, hev⟩ := evalD_repro hb hwide der t t1 t2
  have hi' : m.InSeg t i := by
    have g1 := hi.lower
    have g2 := hi.upper
    refine ⟨by rw [h.order]; omega, by rw [h.order, h.knots]; omega, by rw [h.kn]; exact hi.left, ?_⟩
    rw [h.kn, h.order, h.knots]
    rcases hi.right with g3 | ⟨g3, g4⟩
    · exact Or.inl g3
    · exact Or.inr ⟨g3, by omega⟩
  rw [hev, MSpline.euclideanEvalD_eq hm he hi' none der (by simp)]
  congr 1
  funext d
  unfold BSpline.segPoly MSpline.segSum
  have hlen : m.keys.length - m.order = b.coeffs.length := by
    have := hb.coeffs_len
    rw [h.order, h.knots]
    omega
  rw [hlen, iterate_derivative_sum, eval_finsetSum, Finset.sum_apply]
  refine sum_congr rfl fun j hj => ?_
  rw [iterate_derivative_C_mul, eval_mul, eval_C, h.order, h.kn, mul_comm, Pi.smul_apply, smul_eq_mul, h.vert j (mem_range.1 hj)]

theorem SameSpline.cost {b : BSpline ℝ D} {m : MSpline ℝ (Fin D → ℝ)} (h : SameSpline b m) (hb : b.WF) (hwide : b.WideLast) (hm : m.MWF)
    (he : m.state = .evaluable) (data : List (ℝ × (Fin D → ℝ)))
    (hdata : ∀ o ∈ data, b.kn (b.order - 1) ≤ o.1 ∧ o.1 ≤ b.kn (b.knots.length - b.order)) (lambda : ℝ) :
    m.fitterCost data none lambda (b.kn (b.order - 1)) (b.kn (b.knots.length - b.order))
      = fitCost b data lambda 2 (b.kn (b.order - 1)) (b.kn (b.knots.length - b.order)) := by
  have hk := hb.order_pos
  have hn := hb.enough
  have hlohi : b.kn (b.order - 1) ≤ b.kn (b.knots.length - b.order) := hb.mono _ _ (by omega) (by omega)
  unfold MSpline.fitterCost fitCost
  congr 1
  · rw [← List.sum_ofFn]
    congr 1
    apply List.ext_getElem (by simp)
    intro i i1 i2
    simp only [List.getElem_ofFn, List.getElem_map]
    refine sum_congr rfl fun d _ => ?_
    have hi : i < data.length := by simpa using i2
    have ho := hdata data[i] (List.getElem_mem _)
    have e : m.euclideanEval data[i].1 = b.eval data[i].1 := h.eval hb hwide hm he _ ho.1 ho.2 0
    simp only [MSpline.weightOf, one_mul]
    rw [← e]
    rfl
  · congr 1
    apply intervalIntegral.integral_congr
    intro t ht
    rw [Set.uIcc_of_le hlohi] at ht
    dsimp only
    have e : m.euclideanEvalD none t 2 = b.evalD t ((2 : ℕ) : ℤ) := h.eval hb hwide hm he t ht.1 ht.2 2
    rw [e]

/-- The plain spline with the vertices of a manifold spline over the same knots. -/
def plain (b : BSpline ℝ D) (v : ℕ → Fin D → ℝ) : BSpline ℝ D := BSpline.mk (K := ℝ) b.order b.knots ((List.range b.coeffs.length).map v) b.basis

theorem plain_shared {b : BSpline ℝ D} (hb : b.WF) (v : ℕ → Fin D → ℝ) : SharedKnots b (plain b v) :=
  ⟨hb.withCoeffs _ (by simp), rfl, rfl⟩

theorem plain_same {b : BSpline ℝ D} (hb : b.WF) {s : MSpline ℝ (Fin D → ℝ)} (ho : s.order = b.order) (hkn : s.keys = b.knots)
    (v : ℕ → Fin D → ℝ) : SameSpline (plain b v) (s.withVerts v) := by
  have hk := hb.order_pos
  refine ⟨ho, (MSpline.withVerts_keys s v).trans hkn, ?_⟩
  have hlen := hb.coeffs_len
  have hsl : s.segs.length = b.knots.length := by rw [← hkn, MSpline.keys_length]
  apply List.ext_getElem?
  intro j
  unfold plain MSpline.verts MSpline.withVerts
  dsimp only
  rw [List.getElem?_take]
  simp only [List.length_map, List.length_range, List.getElem?_map, List.getElem?_mapIdx]
  by_cases hj : j < b.coeffs.length
  · rw [if_pos hj, List.getElem?_eq_getElem (by rw [hsl]; omega), List.getElem?_eq_getElem (by simpa using hj)]
    simp
  · rw [if_neg hj, List.getElem?_eq_none (by simpa using hj)]
    rfl

/-- If the first time lies in the first and the last time in the last segment all vertices are free, and what the fitter has computed is
minimal among all splines with these knots. -/
theorem fitter_minimal {b : BSpline ℝ D} (hb : b.WF) (hwide : b.WideLast) {s : MSpline ℝ (Fin D → ℝ)} (hs : s.MWF)
    (he : s.state = .evaluable) (ho : s.order = b.order) (hkn : s.keys = b.knots) (data : List (ℝ × (Fin D → ℝ)))
    (hdata : ∀ o ∈ data, b.kn (b.order - 1) ≤ o.1 ∧ o.1 ≤ b.kn (b.knots.length - b.order)) (lambda : ℝ) (v : ℕ → Fin D → ℝ) (i0 il : ℕ)
    (h0 : i0 + 1 ≤ b.order) (hl : b.knots.length - b.order ≤ il + 1)
    (hmin : ∀ v' : ℕ → Fin D → ℝ, (∀ j, ¬ (i0 + 1 - b.order ≤ j ∧ j ≤ il) → v' j = v j) →
      (s.withVerts v).fitterCost data none lambda (b.kn (b.order - 1)) (b.kn (b.knots.length - b.order))
        ≤ (s.withVerts v').fitterCost data none lambda (b.kn (b.order - 1)) (b.kn (b.knots.length - b.order))) :
    Minimal data lambda 2 (b.kn (b.order - 1)) (b.kn (b.knots.length - b.order)) (plain b v) := by
  have hk := hb.order_pos
  have hn := hb.enough
  have hlen := hb.coeffs_len
  have hp := plain_shared hb v
  have hcost : ∀ w, (s.withVerts w).fitterCost data none lambda (b.kn (b.order - 1)) (b.kn (b.knots.length - b.order))
      = fitCost (plain b w) data lambda 2 (b.kn (b.order - 1)) (b.kn (b.knots.length - b.order)) := fun w =>
    (plain_same hb ho hkn w).cost (plain_shared hb w).wf ((plain_shared hb w).wide hwide) (MSpline.withVerts_mwf hs w) he data hdata lambda
  have key := minimal_of_lists (p := plain b v) hp.wf (hp.wide hwide) (data := data) hdata (lambda := lambda) (der := 2) fun cs hcs => ?_
  · exact key
  have hcs' : cs.length = b.coeffs.length := by simpa [plain] using hcs
  set v' : ℕ → Fin D → ℝ := fun j => if j < b.coeffs.length then cs.getD j 0 else v j with hv'
  have e : BSpline.mk (K := ℝ) (plain b v).order (plain b v).knots cs (plain b v).basis = plain b v' := by
    unfold plain
    dsimp only
    congr 1
    apply List.ext_getElem (by simpa using hcs')
    intro j j1 j2
    have hj : j < b.coeffs.length := by rw [← hcs']; exact j1
    simp [hv', hj, List.getD_eq_getElem?_getD, List.getElem?_eq_getElem j1]
  rw [e]
  change fitCost (plain b v) data lambda 2 (b.kn (b.order - 1)) (b.kn (b.knots.length - b.order))
    ≤ fitCost (plain b v') data lambda 2 (b.kn (b.order - 1)) (b.kn (b.knots.length - b.order))
  rw [← hcost, ← hcost]
  refine hmin v' fun j hj => ?_
  rw [hv']
  dsimp only
  rw [if_neg (by omega)]

/-- The cost of the result is that of the plain spline with its knots and coefficients, and both are minimal: they have the same cost. -/
theorem fitters_equal_cost {b : BSpline ℝ D} (hb : b.WF) {data : List (ℝ × (Fin D → ℝ))} {lambda : ℝ} {der : ℕ} {lo hi : ℝ}
    (v : ℕ → Fin D → ℝ) (h1 : Minimal data lambda der lo hi b) (h2 : Minimal data lambda der lo hi (plain b v)) :
    fitCost (plain b v) data lambda der lo hi = fitCost b data lambda der lo hi :=
  le_antisymm (h2 b ⟨hb, rfl, rfl⟩) (h1 _ (plain_shared hb v))

theorem plain_coeffs {b : BSpline ℝ D} {s : MSpline ℝ (Fin D → ℝ)} {v : ℕ → Fin D → ℝ} (h : SameSpline (plain b v) (s.withVerts v))
    (hc : b.coeffs = (plain b v).coeffs) : SameSpline b (s.withVerts v) :=
  ⟨h.order, h.knots, by rw [hc]; exact h.coeffs⟩

theorem zip_data (data : List (ℝ × (Fin D → ℝ))) : (data.map Prod.fst).zip (data.map Prod.snd) = data := by
  induction data with
  | nil => rfl
  | cons o l ih => simp [ih]

theorem firstTime_head {data : List (ℝ × (Fin D → ℝ))} (h : 1 ≤ data.length) : (data.map Prod.fst).head? = some (firstTime data) := by
  cases data with
  | nil => simp at h
  | cons o l => rfl

theorem lastTime_getLast {data : List (ℝ × (Fin D → ℝ))} (h : 1 ≤ data.length) : (data.map Prod.fst).getLast? = some (lastTime data) := by
  unfold lastTime
  rw [List.getLast?_eq_getElem?, List.getD_eq_getElem?_getD, List.length_map, List.getElem?_eq_getElem (by simp; omega)]
  rfl

/-- The regularised fits of both implementations have minimal cost among the splines with the same knots. -/
theorem both_minimal (dense : Bool) (solve solve' : Solver ℝ) (hsolve : SolvesSemidefinite solve) (hsolve' : SolvesSemidefinite solve')
    (s : BSpline ℝ D) (data : List (ℝ × (Fin D → ℝ))) (n : ℕ) (hin : FitInput s data n) (lambda : ℝ) (hl : 0 ≤ lambda) :
    ∃ (b : BSpline ℝ D) (m : MSpline ℝ (Fin D → ℝ)) (v : ℕ → Fin D → ℝ), s.initSpline3 solve data n lambda = .ok b ∧
      s.initSplineSparse solve data n lambda = .ok b ∧
      (MSpline.create s.order).initUniformFitTimes dense solve' id (euclidean ℝ (Fin D → ℝ)) (fieldPolicy ℝ) (data.map Prod.fst)
        (data.map Prod.snd) n lambda = (.ok (), m.withVerts v) ∧ b.WF ∧ b.WideLast ∧ b.kn (b.order - 1) = firstTime data ∧
      b.kn (b.knots.length - b.order) = lastTime data ∧
      (∀ i, b.order - 1 ≤ i → i + 1 ≤ b.knots.length - b.order → b.kn i < b.kn (i + 1)) ∧ b.order = s.order ∧
      m.MWF ∧ m.state = .evaluable ∧ m.order = b.order ∧ m.keys = b.knots ∧
      Minimal data lambda (penalty b.order) (b.kn (b.order - 1)) (b.kn (b.knots.length - b.order)) b ∧
      Minimal data lambda 2 (b.kn (b.order - 1)) (b.kn (b.knots.length - b.order)) (plain b v) := by
  have two := hin.two
  have hn := hin.segments
  have hlt := hin.lt
  have ho := hin.order
  have hbt := times_between data hin.sorted
  obtain ⟨b, a1, a2, a3, a4, a5⟩ := fit_minimal solve hsolve s data n hin lambda hl
  obtain ⟨g1, g2, g3, g4⟩ := a4.facts a3 hn hin.wide
  have t0 := firstTime_head (data := data) (by omega)
  have tl := lastTime_getLast (data := data) (by omega)
  have hb : ∀ t ∈ data.map Prod.fst, firstTime data ≤ t ∧ t ≤ lastTime data := by
    intro t ht
    obtain ⟨o, ho, rfl⟩ := List.mem_map.1 ht
    exact hbt o ho
  obtain ⟨m, v, i0, il, r1, r2, r3, r4, r5, r6, r7, r8, r9⟩ := MSpline.C74_uniform dense solve' hsolve' s.order (by omega) hin.dim
    (firstTime data) (lastTime data) hlt n hn (data.map Prod.fst) (data.map Prod.snd) _ _ (by simp) (by simpa using two) t0 tl hb le_rfl le_rfl
    lambda hl
  obtain ⟨hm, -⟩ := r6.mwf (by omega)
  have hord : m.order = b.order := by rw [r2, a4.order_eq]
  have hkn : m.keys = b.knots := by
    apply List.ext_getElem (by rw [r4, a4.length_eq])
    intro i i1 i2
    have e1 := r5 i (by rw [← r4]; exact i1)
    have e2 := a4.kn_eq i (by rw [← r4]; exact i1)
    rw [List.getElem?_eq_getElem i1, Option.some.injEq] at e1
    unfold BSpline.kn at e2
    rw [List.getD_eq_getElem?_getD, List.getElem?_eq_getElem i2, Option.getD_some] at e2
    rw [e1, e2]
    ring
  have hknn : m.kn = b.kn := by funext j; unfold MSpline.kn BSpline.kn; rw [hkn]
  have hk := a3.order_pos
  have hen := a3.enough
  refine ⟨b, m, v, a1, a2, ?_, a3, g3, g1, g2, g4, a4.order_eq, hm, r3, hord, hkn, a5, ?_⟩
  · unfold MSpline.initUniformFitTimes
    rw [if_neg (by simp; omega), t0, tl]
    exact r1
  · refine fitter_minimal a3 g3 hm r3 hord hkn data (by rw [g1, g2]; exact hbt) lambda v i0 il ?_ ?_ ?_
    · by_contra hc
      have := r7.left
      rw [hknn, ← g1] at this
      have h1 := r7.upper
      rw [hord, hkn] at h1
      have h2 : m.kn (b.order - 1) < m.kn i0 := hm.strict (by omega) (by rw [hkn]; omega)
      rw [hknn] at h2
      exact absurd this (not_le.2 h2)
    · by_contra hc
      have h1 := r8.right
      rw [hknn, ← g2] at h1
      rcases h1 with h1 | ⟨-, h1⟩
      · have : m.kn (il + 1) ≤ m.kn (b.knots.length - b.order) := hm.mono _ _ (by omega) (by rw [hkn]; omega)
        rw [hknn] at this
        exact absurd h1 (not_lt.2 this)
      · rw [hord, hkn] at h1
        omega
    · rw [g1, g2, a4.order_eq]
      rw [zip_data] at r9
      exact r9

/-- **C99**: for orders from three on and with a regularisation the initialisations of a plain spline and of a Euclidean manifold spline
from the same data, for the same order, number of segments and weight, give the same knots and the same coefficients, and so the same
values and derivatives at all times; whatever solvers and backend are used.  Missing: order two, see `C99_order_two_violated`. -/
theorem C99_uniform_partial (dense : Bool) (solve solve' : Solver ℝ) (hsolve : SolvesSemidefinite solve) (hsolve' : SolvesSemidefinite solve')
    (s : BSpline ℝ D) (ho : 3 ≤ s.order) (data : List (ℝ × (Fin D → ℝ))) (n : ℕ) (hin : FitInput s data n) (lambda : ℝ) (hl : 0 < lambda) :
    ∃ (b : BSpline ℝ D) (m : MSpline ℝ (Fin D → ℝ)), s.initSpline3 solve data n lambda = .ok b ∧
      s.initSplineSparse solve data n lambda = .ok b ∧
      (MSpline.create s.order).initUniformFitTimes dense solve' id (euclidean ℝ (Fin D → ℝ)) (fieldPolicy ℝ) (data.map Prod.fst)
        (data.map Prod.snd) n lambda = (.ok (), m) ∧ SameSpline b m ∧
      ∀ t, firstTime data ≤ t → t ≤ lastTime data → ∀ der : ℕ, ∃ x, b.evalD t der = .ok x ∧ m.euclideanEvalD none t der = .ok x := by
  obtain ⟨b, m, v, h1, h2, h3, hb, hw, lo, hi, hst, hbo, hm, he, hord, hkn, m1, m2⟩ := both_minimal dense solve solve' hsolve hsolve' s data n
    hin lambda hl.le
  have hp : penalty b.order = 2 := by unfold penalty; rw [if_neg (by omega)]
  have hdata : ∀ o ∈ data, b.kn (b.order - 1) ≤ o.1 ∧ o.1 ≤ b.kn (b.knots.length - b.order) := by
    rw [lo, hi]; exact times_between data hin.sorted
  have hc := C79_unique b (plain b v) hb hw (plain_shared hb v) hb.order_pos hst data hdata hin.distinct lambda hl m1 (by rw [hp]; exact m2)
  have hsame := plain_coeffs (plain_same hb hord hkn v) hc
  refine ⟨b, m.withVerts v, h1, h2, h3, hsame, fun t t1 t2 der => ⟨_, evalD_val hb hw t (by rw [lo]; exact t1) (by rw [hi]; exact t2) der, ?_⟩⟩
  rw [hsame.eval hb hw (MSpline.withVerts_mwf hm v) he t (by rw [lo]; exact t1) (by rw [hi]; exact t2) der]
  exact evalD_val hb hw t (by rw [lo]; exact t1) (by rw [hi]; exact t2) der

/-- **C99** without a regularisation the coefficients may differ, as they are not determined by the data; but the sum of the squared
residuals is the same, and with a regularisation so is the cost. -/
theorem C99_cost (dense : Bool) (solve solve' : Solver ℝ) (hsolve : SolvesSemidefinite solve) (hsolve' : SolvesSemidefinite solve')
    (s : BSpline ℝ D) (data : List (ℝ × (Fin D → ℝ))) (n : ℕ) (hin : FitInput s data n) (lambda : ℝ) (hl : 0 ≤ lambda)
    (ho : 3 ≤ s.order ∨ lambda = 0) :
    ∃ (b : BSpline ℝ D) (m : MSpline ℝ (Fin D → ℝ)), s.initSpline3 solve data n lambda = .ok b ∧
      (MSpline.create s.order).initUniformFitTimes dense solve' id (euclidean ℝ (Fin D → ℝ)) (fieldPolicy ℝ) (data.map Prod.fst)
        (data.map Prod.snd) n lambda = (.ok (), m) ∧ m.keys = b.knots ∧
      m.fitterCost data none lambda (firstTime data) (lastTime data) = fitCost b data lambda 2 (firstTime data) (lastTime data) := by
  obtain ⟨b, m, v, h1, h2, h3, hb, hw, lo, hi, hst, hbo, hm, he, hord, hkn, m1, m2⟩ := both_minimal dense solve solve' hsolve hsolve' s data n
    hin lambda hl
  have hdata : ∀ o ∈ data, b.kn (b.order - 1) ≤ o.1 ∧ o.1 ≤ b.kn (b.knots.length - b.order) := by
    rw [lo, hi]; exact times_between data hin.sorted
  refine ⟨b, m.withVerts v, h1, h3, (MSpline.withVerts_keys m v).trans hkn, ?_⟩
  have m1' : Minimal data lambda 2 (b.kn (b.order - 1)) (b.kn (b.knots.length - b.order)) b := by
    rcases ho with ho | rfl
    · have hp : penalty b.order = 2 := by unfold penalty; rw [if_neg (by omega)]
      rw [hp] at m1
      exact m1
    · intro r hr
      have := m1 r hr
      unfold fitCost at this ⊢
      simpa using this
  have e := (plain_same hb hord hkn v).cost (plain_shared hb v).wf ((plain_shared hb v).wide hw) (MSpline.withVerts_mwf hm v) he data hdata lambda
  have e2 := fitters_equal_cost hb v m1' m2
  rw [← lo, ← hi, ← e2]
  exact e

/-- **C99** is violated for order two: the plain class penalises the first derivative, the manifold class the second, which is zero.  For
data on any straight line that is not constant the manifold spline passes through all data, the plain spline does not, whatever the weight. -/
theorem C99_order_two_violated (dense : Bool) (solve solve' : Solver ℝ) (hsolve : SolvesSemidefinite solve)
    (hsolve' : SolvesSemidefinite solve') (s : BSpline ℝ D) (ho : s.order = 2) (times : List ℝ) (p q : Fin D → ℝ) (hq : q ≠ 0) (n : ℕ)
    (hin : FitInput s (times.map fun t => (t, fun d => p d + q d * t)) n) (lambda : ℝ) (hl : 0 < lambda) :
    ∃ (b : BSpline ℝ D) (m : MSpline ℝ (Fin D → ℝ)), s.initSpline3 solve (times.map fun t => (t, fun d => p d + q d * t)) n lambda = .ok b ∧
      (MSpline.create 2).initUniformFitTimes dense solve' id (euclidean ℝ (Fin D → ℝ)) (fieldPolicy ℝ) times
        (times.map fun t d => p d + q d * t) n lambda = (.ok (), m) ∧ m.keys = b.knots ∧
      (∀ t ∈ times, m.euclideanEval t = .ok fun d => p d + q d * t) ∧
      ∃ t ∈ times, b.eval t ≠ .ok fun d => p d + q d * t := by
  set data := times.map fun t => (t, fun d => p d + q d * t) with hd
  have two := hin.two
  obtain ⟨b, m, v, h1, h2, h3, hb, hw, lo, hi, hst, hbo, hm, he, hord, hkn, m1, m2⟩ := both_minimal dense solve solve' hsolve hsolve' s data n
    hin lambda hl.le
  have hdata : ∀ o ∈ data, b.kn (b.order - 1) ≤ o.1 ∧ o.1 ≤ b.kn (b.knots.length - b.order) := by
    rw [lo, hi]; exact times_between data hin.sorted
  have f1 : data.map Prod.fst = times := by rw [hd, List.map_map]; simp [Function.comp_def]
  have f2 : data.map Prod.snd = times.map fun t d => p d + q d * t := by rw [hd, List.map_map]; rfl
  have t0 := firstTime_head (data := data) (by omega)
  have tl := lastTime_getLast (data := data) (by omega)
  rw [f1] at t0 tl
  obtain ⟨m', c1, -, -, c4, -⟩ := MSpline.C74_line dense solve' hsolve' 2 le_rfl hin.dim n hin.segments times p q _ _
    (by simpa [hd] using two) t0 tl hin.lt (fun t ht => times_between data hin.sorted (t, _) (List.mem_map.2 ⟨t, ht, rfl⟩)) lambda hl.le
  rw [ho, f1, f2] at h3
  have hmm : m' = m.withVerts v := by
    rw [h3] at c1
    exact (Prod.mk.inj c1).2.symm
  refine ⟨b, m.withVerts v, h1, h3, (MSpline.withVerts_keys m v).trans hkn, by rw [← hmm]; exact c4, ?_⟩
  by_contra hall
  push Not at hall
  have hp : penalty b.order = 1 := by unfold penalty; rw [if_pos (by omega)]
  rw [hp] at m1
  have hev : ∀ o ∈ data, b.eval o.1 = .ok o.2 := by
    intro o ho
    obtain ⟨t, ht, rfl⟩ := List.mem_map.1 ho
    exact hall t ht
  have e := (minimal_iff hb hw data hdata lambda hl.le 1).1 m1 b ⟨hb, rfl, rfl⟩
  have hz : fitCost b [] lambda 1 (b.kn (b.order - 1)) (b.kn (b.knots.length - b.order)) = 0 := by
    rw [← e, fitCost_val]
    unfold slope
    congr 1
    · symm
      apply List.sum_eq_zero
      intro x hx
      obtain ⟨o, ho, rfl⟩ := List.mem_map.1 hx
      refine sum_eq_zero fun d _ => ?_
      have : val b o.1 0 = o.2 := by
        unfold val
        have := hev o ho
        unfold BSpline.eval at this
        rw [show ((0 : ℕ) : ℤ) = 0 from rfl, this]
        rfl
      rw [this, sub_self, zero_mul]
    · congr 1
      apply intervalIntegral.integral_congr
      intro t _
      exact sum_congr rfl fun d _ => sq _
  obtain ⟨-, z⟩ := zero_cost_meets hb hw [] (by simp) lambda hl.le 1 hz.le
  have z := fun i i1 i2 => z hl i i1 i2 (hst i i1 i2)
  have hk := hb.order_pos
  have hen := hb.enough
  have hline := optimal_line hb hw data hdata 0 (by omega) (by omega) (fun d => C (p d) + C (q d) * X)
    (fun d => lt_of_le_of_lt (by compute_degree) (by norm_num : 1 < 2))
    (fun o ho d => by
      obtain ⟨t, ht, rfl⟩ := List.mem_map.1 ho
      simp) hev hst hin.distinct z (b.kn (b.order - 1)) le_rfl (hb.mono _ _ (by omega) (by omega)) 1
  obtain ⟨-, i, hi, hz'⟩ := evalD_repro hb hw 1 (b.kn (b.order - 1)) le_rfl (hb.mono _ _ (by omega) (by omega))
  rw [hz', Outcome.ok.injEq] at hline
  apply hq
  funext d
  have := congrFun hline d
  rw [z i hi.lower hi.upper d] at this
  simpa using this.symm

/-! ### Knots given by the caller -/

/-- Data for a fit with given knots: strictly increasing knots, two different times in the valid interval, the last segment not tiny. -/
structure KnotsInput (s : BSpline ℝ D) (data : List (ℝ × (Fin D → ℝ))) (knots : List ℝ) (resolver : Option (Resolver ℝ)) : Prop where
  order : 2 ≤ s.order
  dim : 1 ≤ D
  sorted : (data.map Prod.fst).Pairwise (· ≤ ·)
  lt : firstTime data < lastTime data
  increasing : knots.Pairwise (· < ·)
  enough : 2 * s.order ≤ knots.length
  old : s.knots.length ≤ knots.length
  wide : 1 / 10 ^ 10 ≤ knots.getD (knots.length - s.order) 0 - knots.getD (knots.length - s.order - 1) 0
  inside : ∀ o ∈ data, knots.getD (s.order - 1) 0 ≤ o.1 ∧ o.1 ≤ knots.getD (knots.length - s.order) 0
  /-- a resolver of the generator numbers the knots -/
  resolves : ∀ rs, resolver = some rs → ∃ r : ℤ, ∀ t ∈ data.map Prod.fst, ∀ j, MSpline.LastKnot knots t j → rs t = .ok (r + j)

theorem KnotsInput.two {s : BSpline ℝ D} {data : List (ℝ × (Fin D → ℝ))} {knots : List ℝ} {resolver : Option (Resolver ℝ)}
    (h : KnotsInput s data knots resolver) : 2 ≤ data.length := by
  by_contra hc
  have hlt := h.lt
  unfold firstTime lastTime at hlt
  rw [show data.length - 1 = 0 by omega] at hlt
  exact lt_irrefl _ hlt

theorem KnotsInput.distinct {s : BSpline ℝ D} {data : List (ℝ × (Fin D → ℝ))} {knots : List ℝ} {resolver : Option (Resolver ℝ)}
    (h : KnotsInput s data knots resolver) : ∃ o ∈ data, ∃ o' ∈ data, o.1 ≠ o'.1 := by
  have two := h.two
  have h1 := List.mem_of_mem_head? (firstTime_head (data := data) (by omega))
  have h2 := List.mem_of_mem_getLast? (lastTime_getLast (data := data) (by omega))
  obtain ⟨o, ho, e⟩ := List.mem_map.1 h1
  obtain ⟨o', ho', e'⟩ := List.mem_map.1 h2
  exact ⟨o, ho, o', ho', by rw [e, e']; exact h.lt.ne⟩

theorem both_knots (dense : Bool) (solve solve' : Solver ℝ) (hsolve : SolvesSemidefinite solve) (hsolve' : SolvesSemidefinite solve')
    (s : BSpline ℝ D) (data : List (ℝ × (Fin D → ℝ))) (knots : List ℝ) (resolver : Option (Resolver ℝ))
    (hin : KnotsInput s data knots resolver) (lambda : ℝ) (hl : 0 ≤ lambda) :
    ∃ (b : BSpline ℝ D) (m : MSpline ℝ (Fin D → ℝ)) (v : ℕ → Fin D → ℝ) (i0 il : ℕ),
      s.initSplineSparseKnots solve data knots lambda = .ok b ∧
      MSpline.fitInit dense solve' id (euclidean ℝ (Fin D → ℝ)) knots resolver (data.map Prod.fst) (data.map Prod.snd) lambda
        (MSpline.create s.order) = (.ok (), m.withVerts v) ∧ b.WF ∧ b.WideLast ∧ b.order = s.order ∧ b.knots = knots ∧
      (∀ o ∈ data, b.kn (b.order - 1) ≤ o.1 ∧ o.1 ≤ b.kn (b.knots.length - b.order)) ∧
      (∀ i, b.order - 1 ≤ i → i + 1 ≤ b.knots.length - b.order → b.kn i < b.kn (i + 1)) ∧
      m.MWF ∧ m.state = .evaluable ∧ m.order = b.order ∧ m.keys = b.knots ∧ m.InSeg (firstTime data) i0 ∧ m.InSeg (lastTime data) il ∧
      Minimal data lambda (penalty b.order) (b.kn (b.order - 1)) (b.kn (b.knots.length - b.order)) b ∧
      (i0 + 1 ≤ b.order → b.knots.length - b.order ≤ il + 1 →
        Minimal data lambda 2 (b.kn (b.order - 1)) (b.kn (b.knots.length - b.order)) (plain b v)) ∧
      ∀ j, ¬ (i0 + 1 - s.order ≤ j ∧ j ≤ il) → v j = 0 := by
  have two := hin.two
  have ho := hin.order
  have hkl := hin.enough
  obtain ⟨b, a1, a2, a3, a4, a5⟩ := C19_given_knots_optimal solve hsolve s ho hin.dim data two hin.sorted knots
    (hin.increasing.imp fun h => h.le) hkl hin.old hin.wide hin.inside lambda hl
  have hkn : ∀ i, b.kn i = knots.getD i 0 := fun i => by unfold BSpline.kn; rw [a4]
  have hw : b.WideLast := by
    intro x y hxy
    obtain ⟨i, i1, i2, rfl, rfl, i3⟩ := timeIntervalOf_eq a2 hxy
    unfold numValidTimeSegments numValidTimeSegmentsOf at i3
    rw [a3, a4] at i3
    have e : i = knots.length - s.order - 1 := by omega
    subst e
    rw [hkn, hkn, show knots.length - s.order - 1 + 1 = knots.length - s.order by omega]
    exact hin.wide
  have hdata : ∀ o ∈ data, b.kn (b.order - 1) ≤ o.1 ∧ o.1 ≤ b.kn (b.knots.length - b.order) := by
    rw [hkn, hkn, a3, a4]; exact hin.inside
  have hget : ∀ i, i < knots.length → knots[i]? = some (b.kn i) := fun i hi => by
    rw [hkn, List.getD_eq_getElem?_getD, List.getElem?_eq_getElem hi]; rfl
  have t0 := firstTime_head (data := data) (by omega)
  have tl := lastTime_getLast (data := data) (by omega)
  have hbt := times_between data hin.sorted
  have hb : ∀ t ∈ data.map Prod.fst, firstTime data ≤ t ∧ t ≤ lastTime data := by
    intro t ht
    obtain ⟨o, ho, rfl⟩ := List.mem_map.1 ht
    exact hbt o ho
  obtain ⟨of, hof, eof⟩ := List.mem_map.1 (List.mem_of_mem_head? t0)
  obtain ⟨ol, hol, eol⟩ := List.mem_map.1 (List.mem_of_mem_getLast? tl)
  obtain ⟨m, v, i0, il, r1, r2, r3, r4, r5, r6, r7, r8, r9⟩ := MSpline.C38_init_optimal dense solve' hsolve' s.order (by omega) hin.dim knots
    hin.increasing hkl (b.kn (b.order - 1)) (b.kn (b.knots.length - b.order)) (by rw [a3]; exact hget _ (by omega))
    (by rw [a3, a4]; exact hget _ (by omega)) resolver (data.map Prod.fst) (data.map Prod.snd) _ _ (by simp) (by simpa using two)
    hin.resolves t0 tl hb (by rw [← eof]; exact (hdata of hof).1) (by rw [← eol]; exact (hdata ol hol).2) lambda hl
  obtain ⟨hm, -⟩ := r4.mwf (by omega)
  have hkn' : m.keys = b.knots := r1.trans a4.symm
  refine ⟨b, m, v, i0, il, a1, r7, a2, hw, a3, a4, hdata, fun i i1 i2 => ?_, hm, r3, r2.trans a3.symm, hkn', r5, r6, ?_, fun h0 hl' => ?_, r9⟩
  · rw [a3] at i1 i2
    rw [a4] at i2
    have : m.kn i < m.kn (i + 1) := hm.strict (by omega) (by rw [r1]; omega)
    rwa [show m.kn = b.kn by funext j; unfold MSpline.kn BSpline.kn; rw [hkn']] at this
  · refine minimal_of_lists a2 hw hdata fun cs hcs => ?_
    rw [hkn, hkn]
    have := a5 cs hcs
    rw [← a3] at this
    rw [show knots.length = b.knots.length by rw [a4]] at this
    exact this
  · refine fitter_minimal a2 hw hm r3 (r2.trans a3.symm) hkn' data hdata lambda v i0 il h0 hl' ?_
    rw [zip_data] at r8
    rw [a3] at r8 ⊢
    exact r8

/-- **C99** for given knots: if the data begin in the first and end in the last segment of the valid interval both implementations give the
same coefficients, values and derivatives.  Missing: order two and data that do not reach the ends, see `C99_ends_violated`. -/
theorem C99_knots_partial (dense : Bool) (solve solve' : Solver ℝ) (hsolve : SolvesSemidefinite solve) (hsolve' : SolvesSemidefinite solve')
    (s : BSpline ℝ D) (ho : 3 ≤ s.order) (data : List (ℝ × (Fin D → ℝ))) (knots : List ℝ) (resolver : Option (Resolver ℝ))
    (hin : KnotsInput s data knots resolver) (hfirst : firstTime data < knots.getD s.order 0)
    (hlast : knots.getD (knots.length - s.order - 1) 0 ≤ lastTime data) (lambda : ℝ) (hl : 0 < lambda) :
    ∃ (b : BSpline ℝ D) (m : MSpline ℝ (Fin D → ℝ)), s.initSplineSparseKnots solve data knots lambda = .ok b ∧
      MSpline.fitInit dense solve' id (euclidean ℝ (Fin D → ℝ)) knots resolver (data.map Prod.fst) (data.map Prod.snd) lambda
        (MSpline.create s.order) = (.ok (), m) ∧ b.knots = knots ∧ SameSpline b m ∧
      ∀ t, knots.getD (s.order - 1) 0 ≤ t → t ≤ knots.getD (knots.length - s.order) 0 → ∀ der : ℕ, ∃ x, b.evalD t der = .ok x ∧
        m.euclideanEvalD none t der = .ok x := by
  obtain ⟨b, m, v, i0, il, h1, h2, hb, hw, hbo, hbk, hdata, hst, hm, he, hord, hkn, s0, sl, m1, m2, -⟩ := both_knots dense solve solve' hsolve
    hsolve' s data knots resolver hin lambda hl.le
  have hk := hb.order_pos
  have hen := hb.enough
  have hgd : ∀ i, knots.getD i 0 = b.kn i := fun i => by unfold BSpline.kn; rw [hbk]
  have hmk : m.kn = b.kn := by funext j; unfold MSpline.kn BSpline.kn; rw [hkn]
  have hp : penalty b.order = 2 := by unfold penalty; rw [if_neg (by omega)]
  have m2 := m2 (by
    by_contra hc
    have h3 := s0.upper
    rw [hord, hkn] at h3
    have : m.kn s.order ≤ m.kn i0 := hm.mono _ _ (by omega) (by rw [hkn]; omega)
    rw [hmk] at this
    rw [hgd] at hfirst
    have h4 := s0.left
    rw [hmk] at h4
    linarith) (by
    by_contra hc
    rw [hgd, ← hbo, show knots.length = b.knots.length by rw [hbk]] at hlast
    rcases sl.right with h3 | ⟨-, h3⟩
    · have : m.kn (il + 1) ≤ m.kn (b.knots.length - b.order - 1) := hm.mono _ _ (by omega) (by rw [hkn]; omega)
      rw [hmk] at this h3
      linarith
    · rw [hord, hkn] at h3
      omega)
  have hc := C79_unique b (plain b v) hb hw (plain_shared hb v) hb.order_pos hst data hdata hin.distinct lambda hl m1 (by rw [hp]; exact m2)
  have hsame := plain_coeffs (plain_same hb hord hkn v) hc
  rw [show knots.length = b.knots.length by rw [hbk], hgd, hgd, ← hbo]
  refine ⟨b, m.withVerts v, h1, by rw [hbo]; exact h2, hbk, hsame, fun t t1 t2 der => ⟨_, evalD_val hb hw t t1 t2 der, ?_⟩⟩
  rw [hsame.eval hb hw (MSpline.withVerts_mwf hm v) he t t1 t2 der]
  exact evalD_val hb hw t t1 t2 der

theorem plain_const {b : BSpline ℝ D} (hb : b.WF) (hw : b.WideLast) (c : Fin D → ℝ) (t : ℝ) (t1 : b.kn (b.order - 1) ≤ t)
    (t2 : t ≤ b.kn (b.knots.length - b.order)) : (plain b fun _ => c).eval t = .ok c := by
  have hp := plain_shared hb fun _ => c
  have := (C52_straight_lines (plain b fun _ => c) hp.wf c 0 (fun j hj d => by
    have hj' : j < b.coeffs.length := by simpa [plain] using hj
    simp [BSpline.col, plain, List.getD_eq_getElem?_getD, hj']) t
    (admissible_of_wide t (WideLast.wide hp.wf (hp.wide hw)) t1 t2)).1
  rw [this]
  simp

/-- **C99** is violated when the data do not begin in the first segment of the valid interval: the manifold fitter leaves the vertices that
no data depend on at zero, and so, with a regularisation, loses what the plain class finds.  For data that are all the same point, not
zero, the plain spline is this point everywhere, the manifold spline is not. -/
theorem C99_ends_violated (dense : Bool) (solve solve' : Solver ℝ) (hsolve : SolvesSemidefinite solve) (hsolve' : SolvesSemidefinite solve')
    (s : BSpline ℝ D) (times : List ℝ) (c : Fin D → ℝ) (hc : c ≠ 0) (knots : List ℝ) (resolver : Option (Resolver ℝ))
    (hin : KnotsInput s (times.map fun t => (t, c)) knots resolver)
    (hfirst : knots.getD s.order 0 ≤ firstTime (times.map fun t => (t, c))) (lambda : ℝ) (hl : 0 < lambda) :
    ∃ (b : BSpline ℝ D) (m : MSpline ℝ (Fin D → ℝ)), s.initSplineSparseKnots solve (times.map fun t => (t, c)) knots lambda = .ok b ∧
      MSpline.fitInit dense solve' id (euclidean ℝ (Fin D → ℝ)) knots resolver times (times.map fun _ => c) lambda
        (MSpline.create s.order) = (.ok (), m) ∧ b.knots = knots ∧ m.keys = knots ∧
      (∀ t, knots.getD (s.order - 1) 0 ≤ t → t ≤ knots.getD (knots.length - s.order) 0 → b.eval t = .ok c) ∧
      ∃ t, knots.getD (s.order - 1) 0 ≤ t ∧ t ≤ knots.getD (knots.length - s.order) 0 ∧ m.euclideanEval t ≠ .ok c := by
  set data := times.map fun t => (t, c) with hd
  obtain ⟨b, m, v, i0, il, h1, h2, hb, hw, hbo, hbk, hdata, hst, hm, he, hord, hkn, s0, sl, m1, m2, hv⟩ := both_knots dense solve solve' hsolve
    hsolve' s data knots resolver hin lambda hl.le
  have hk := hb.order_pos
  have hen := hb.enough
  have hgd : ∀ i, knots.getD i 0 = b.kn i := fun i => by unfold BSpline.kn; rw [hbk]
  have hmk : m.kn = b.kn := by funext j; unfold MSpline.kn BSpline.kn; rw [hkn]
  have f1 : data.map Prod.fst = times := by rw [hd, List.map_map]; simp [Function.comp_def]
  have f2 : data.map Prod.snd = times.map fun _ => c := by rw [hd, List.map_map]; rfl
  rw [f1, f2] at h2
  rw [show knots.length = b.knots.length by rw [hbk], hgd, hgd, ← hbo]
  refine ⟨b, m.withVerts v, h1, by rw [hbo]; exact h2, hbk, by rw [MSpline.withVerts_keys, hkn, hbk], fun t t1 t2 => ?_, ?_⟩
  · obtain ⟨b', c1, -, -, -, -, c6⟩ := C76_fit_knots solve hsolve s hin.order hin.dim data hin.two hin.sorted knots
      (hin.increasing.imp fun h => h.le) hin.enough hin.old hin.wide hin.inside lambda hl.le (fun d => C (c d))
      (fun d => by rw [natDegree_C]; have := hin.order; omega)
      (Or.inr fun d => by rw [natDegree_C]; split_ifs <;> norm_num)
      (fun o ho d => by
        obtain ⟨t, ht, rfl⟩ := List.mem_map.1 ho
        simp)
    rw [h1, Outcome.ok.injEq] at c1
    subst c1
    have := c6 hl (fun i i1 i2 => by rw [hgd, hgd]; exact hst i (by omega) (by rw [hbo, hbk]; exact i2)) hin.distinct t
      (by rw [hgd, ← hbo]; exact t1) (by rw [hgd, ← hbo, show knots.length = b.knots.length by rw [hbk]]; exact t2) 0
    unfold BSpline.eval
    rw [show (0 : ℤ) = ((0 : ℕ) : ℤ) from rfl, this]
    simp
  · by_contra hall
    push Not at hall
    have h0 : v 0 = 0 := by
      refine hv 0 fun hj => ?_
      have h3 : i0 + 1 ≤ s.order := by omega
      have h4 := s0.lower
      rw [hord] at h4
      rw [hgd] at hfirst
      have h5 : i0 + 1 = s.order := by omega
      rcases s0.right with h6 | ⟨h6, h7⟩
      · rw [h5, hmk] at h6
        linarith
      · have h8 := hin.lt
        have h9 := hdata
        obtain ⟨o, ho, e⟩ := List.mem_map.1 (List.mem_of_mem_getLast? (lastTime_getLast (data := data) (by have := hin.two; omega)))
        have h10 := (hdata o ho).2
        rw [hmk] at h6
        rw [e] at h10
        rw [hord, hkn] at h7
        rw [show b.knots.length - b.order = i0 + 1 by omega] at h10
        linarith
    have hp := plain_shared hb v
    have hs := plain_same hb hord hkn v
    have hc' := plain_shared hb fun _ => c
    have hu := C76_unique (plain b v) (plain b fun _ => c) hp.wf hc'.wf rfl rfl hst (WideLast.wide hp.wf (hp.wide hw)) fun t t1 t2 => by
      rw [plain_const hb hw c t t1 t2, ← hall t t1 t2]
      exact (hs.eval hp.wf (hp.wide hw) (MSpline.withVerts_mwf hm v) he t t1 t2 0).symm
    have hpos : 0 < b.coeffs.length := by have := hb.coeffs_len; omega
    have := congrArg (fun l : List (Fin D → ℝ) => l.getD 0 0) hu
    simp [plain, List.getD_eq_getElem?_getD, hpos] at this
    exact hc (this.symm.trans h0)

/-! ### Examples -/

/-- Three observations, cubic splines with two segments. -/
example : ∃ b m, (⟨4, [], [], []⟩ : BSpline ℝ 1).initSpline3 choiceSolver [(0, ![1]), (1, ![3]), (4, ![-2])] 2 7 = .ok b ∧
    (MSpline.create 4).initUniformFitTimes true choiceSolver id (euclidean ℝ (Fin 1 → ℝ)) (fieldPolicy ℝ) [0, 1, 4] [![1], ![3], ![-2]] 2 7
      = (.ok (), m) ∧ SameSpline b m ∧ ∃ x, b.evalD 3 1 = .ok x ∧ m.euclideanEvalD none 3 1 = .ok x := by
  obtain ⟨b, m, h1, -, h2, h3, h4⟩ := C99_uniform_partial true choiceSolver choiceSolver choiceSolver_semidefinite choiceSolver_semidefinite
    (⟨4, [], [], []⟩ : BSpline ℝ 1) (by norm_num) [(0, ![1]), (1, ![3]), (4, ![-2])] 2
    ⟨by norm_num, by norm_num, by norm_num, by norm_num, by norm_num, by norm_num, by norm_num [firstTime, lastTime]⟩ 7 (by norm_num)
  exact ⟨b, m, h1, h2, h3, h4 3 (by norm_num [firstTime]) (by norm_num [lastTime]) 1⟩

/-- The same without regularisation: the sum of squared residuals agrees. -/
example : ∃ (b : BSpline ℝ 1) (m : MSpline ℝ (Fin 1 → ℝ)),
    (⟨2, [], [], []⟩ : BSpline ℝ 1).initSpline3 choiceSolver [(0, ![1]), (1, ![3]), (4, ![-2])] 1 0 = .ok b ∧
    m.fitterCost [(0, ![1]), (1, ![3]), (4, ![-2])] none 0 0 4 = fitCost b [(0, ![1]), (1, ![3]), (4, ![-2])] 0 2 0 4 := by
  obtain ⟨b, m, h1, -, -, h2⟩ := C99_cost true choiceSolver choiceSolver choiceSolver_semidefinite choiceSolver_semidefinite
    (⟨2, [], [], []⟩ : BSpline ℝ 1) [(0, ![1]), (1, ![3]), (4, ![-2])] 1
    ⟨by norm_num, by norm_num, by norm_num, by norm_num, by norm_num, by norm_num, by norm_num [firstTime, lastTime]⟩ 0 le_rfl (Or.inr rfl)
  exact ⟨b, m, h1, h2⟩

/-- Order two and the points 1, 3 and 9 of a line. -/
example : ∃ (b : BSpline ℝ 1) (m : MSpline ℝ (Fin 1 → ℝ)),
    (⟨2, [], [], []⟩ : BSpline ℝ 1).initSpline3 choiceSolver ([0, 1, 4].map fun t => (t, fun _ => 1 + 2 * t)) 1 7 = .ok b ∧
    m.euclideanEval 4 = .ok (fun _ => 1 + 2 * 4) ∧ ∃ t ∈ [0, 1, 4], b.eval t ≠ .ok fun _ => 1 + 2 * t := by
  obtain ⟨b, m, h1, -, -, h2, h3⟩ := C99_order_two_violated true choiceSolver choiceSolver choiceSolver_semidefinite choiceSolver_semidefinite
    (⟨2, [], [], []⟩ : BSpline ℝ 1) rfl [0, 1, 4] (fun _ => 1) (fun _ => 2) (fun h => by have := congrFun h 0; norm_num at this) 1
    ⟨by norm_num, by norm_num, by norm_num, by norm_num, by norm_num, by norm_num, by norm_num [firstTime, lastTime]⟩ 7 (by norm_num)
  exact ⟨b, m, h1, h2 4 (by simp), h3⟩

/-- Uneven knots given by the caller. -/
example : ∃ b m, (⟨3, [], [], []⟩ : BSpline ℝ 1).initSplineSparseKnots choiceSolver [(3, ![1]), (4, ![2]), (7, ![5])] [0, 1, 2, 5, 8, 9, 11] 7
      = .ok b ∧
    MSpline.fitInit false choiceSolver id (euclidean ℝ (Fin 1 → ℝ)) [0, 1, 2, 5, 8, 9, 11] none [3, 4, 7] [![1], ![2], ![5]] 7 (MSpline.create 3)
      = (.ok (), m) ∧ SameSpline b m := by
  obtain ⟨b, m, h1, h2, -, h3, -⟩ := C99_knots_partial false choiceSolver choiceSolver choiceSolver_semidefinite choiceSolver_semidefinite
    (⟨3, [], [], []⟩ : BSpline ℝ 1) (by norm_num) [(3, ![1]), (4, ![2]), (7, ![5])] [0, 1, 2, 5, 8, 9, 11] none
    ⟨by norm_num, by norm_num, by norm_num, by norm_num [firstTime, lastTime], by simp only [List.pairwise_cons, List.mem_cons, List.not_mem_nil]; norm_num, by norm_num, by norm_num, by norm_num,
      by norm_num, by simp⟩ (by norm_num [firstTime]) (by norm_num [lastTime]) 7 (by norm_num)
  exact ⟨b, m, h1, h2, h3⟩

/-- The point 4 at two times in the second segment. -/
example : ∃ (b : BSpline ℝ 1) (m : MSpline ℝ (Fin 1 → ℝ)),
    (⟨3, [], [], []⟩ : BSpline ℝ 1).initSplineSparseKnots choiceSolver ([6, 7].map fun t => (t, ![4])) [0, 1, 2, 5, 8, 9, 11] 7 = .ok b ∧
    b.eval 2 = .ok ![4] ∧ m.keys = [0, 1, 2, 5, 8, 9, 11] ∧ ∃ t, 2 ≤ t ∧ t ≤ 8 ∧ m.euclideanEval t ≠ .ok ![4] := by
  obtain ⟨b, m, h1, -, -, h2, h3, h4⟩ := C99_ends_violated false choiceSolver choiceSolver choiceSolver_semidefinite choiceSolver_semidefinite
    (⟨3, [], [], []⟩ : BSpline ℝ 1) [6, 7] ![4] (fun h => by have := congrFun h 0; norm_num at this) [0, 1, 2, 5, 8, 9, 11] none
    ⟨by norm_num, by norm_num, by norm_num, by norm_num [firstTime, lastTime], by simp only [List.pairwise_cons, List.mem_cons, List.not_mem_nil]; norm_num, by norm_num, by norm_num, by norm_num,
      by norm_num, by simp⟩ (by norm_num [firstTime]) 7 (by norm_num)
  exact ⟨b, m, h1, h3 2 (by simp) (by simp; norm_num), h2, by simpa using h4⟩

end Verif
