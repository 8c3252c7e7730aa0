import Verif.Props.FitContinuousManifold

/-!
# Properties C119 and C120, the fitter of the manifold splines with given knots

The data begin in the first and end in the last segment of the valid interval; otherwise the fitter does not minimise the cost, see
`C99_ends_violated`.
-/

set_option linter.unusedSectionVars false

namespace Verif

open Finset BSpline

variable {D : ℕ}

/-- What the fitter needs of the data are the times. -/
theorem KnotsInput.congr {s : BSpline ℝ D} {data data' : List (ℝ × (Fin D → ℝ))} {knots : List ℝ} {resolver : Option (Resolver ℝ)}
    (h : KnotsInput s data knots resolver) (e : data'.map Prod.fst = data.map Prod.fst) :
    KnotsInput s data' knots resolver ∧ firstTime data' = firstTime data ∧ lastTime data' = lastTime data := by
  have hlen : data'.length = data.length := by
    have := congrArg List.length e
    simpa using this
  have e1 : firstTime data' = firstTime data := by
    unfold firstTime
    rw [e]
  have e2 : lastTime data' = lastTime data := by
    unfold lastTime
    rw [e, hlen]
  refine ⟨⟨h.order, h.dim, by rw [e]; exact h.sorted, by rw [e1, e2]; exact h.lt, h.increasing, h.enough, h.old, h.wide, fun o ho => ?_,
    by rw [e]; exact h.resolves⟩, e1, e2⟩
  have hm : o.1 ∈ data.map Prod.fst := by
    rw [← e]
    exact List.mem_map.2 ⟨o, ho, rfl⟩
  obtain ⟨o', ho', e3⟩ := List.mem_map.1 hm
  rw [← e3]
  exact h.inside o' ho'

theorem KnotsInput.given {s : BSpline ℝ D} {data : List (ℝ × (Fin D → ℝ))} {knots : List ℝ} {resolver : Option (Resolver ℝ)}
    (h : KnotsInput s data knots resolver) : GivenKnots s data knots :=
  ⟨h.order, h.dim, h.two, h.sorted, h.increasing.imp fun h => h.le, h.enough, h.old, h.wide, h.inside⟩

/-- **C119**, the fitter of the manifold splines in Euclidean space with given knots: from order three on the curve approaches the best line with growing
weight. -/
theorem C119_fitter_knots (s : BSpline ℝ D) (ho : 3 ≤ s.order) (data : List (ℝ × (Fin D → ℝ))) (knots : List ℝ) (resolver : Option (Resolver ℝ))
    (hin : KnotsInput s data knots resolver) (hfirst : firstTime data < knots.getD s.order 0)
    (hlast : knots.getD (knots.length - s.order - 1) 0 ≤ lastTime data) (c v : Fin D → ℝ) (hb : Spec.BestLine False data c v) (t : ℝ)
    (h1 : knots.getD (s.order - 1) 0 ≤ t) (h2 : t ≤ knots.getD (knots.length - s.order) 0) :
    ∃ C : ℝ, 0 ≤ C ∧ ∀ (dense : Bool) (solve : Solver ℝ) (lambda : ℝ), SolvesSemidefinite solve → 0 < lambda →
      ∃ (m : MSpline ℝ (Fin D → ℝ)) (x : Fin D → ℝ), MSpline.fitInit dense solve id (euclidean ℝ (Fin D → ℝ)) knots resolver (data.map Prod.fst)
          (data.map Prod.snd) lambda (MSpline.create s.order) = (.ok (), m) ∧ m.euclideanEvalD none t (0 : ℕ) = .ok x ∧
        ∀ d, |x d - (c d + v d * t)| ≤ C / √lambda := by
  obtain ⟨s₀, -, -, -, -, -, -, a3, g3, a4, a5, -, g4, -⟩ := both_knots true choiceSolver choiceSolver choiceSolver_semidefinite choiceSolver_semidefinite s
    data knots resolver hin 1 zero_le_one
  have hgd : ∀ i, s₀.kn i = knots.getD i 0 := fun i => by unfold BSpline.kn; rw [a5]
  have g1 : s₀.kn (s₀.order - 1) = knots.getD (s.order - 1) 0 := by rw [hgd, a4]
  have g2 : s₀.kn (s₀.knots.length - s₀.order) = knots.getD (knots.length - s.order) 0 := by rw [hgd, a4, a5]
  obtain ⟨o₁, ho₁, o₂, ho₂, hne⟩ := hin.distinct
  obtain ⟨C, hC0, hC⟩ := C119_best_line data s₀ a3 g3 g4 _ _ ((tMin_eq a3).trans (congrArg _ g1)) ((tMax_eq a3).trans (congrArg _ g2)) hin.inside o₁ o₂ ho₁
    ho₂ hne c v ⟨fun h => by rw [a4] at h; omega, fun c' v' _ => hb.2 c' v' fun h => h.elim⟩ t h1 h2
  refine ⟨C, hC0, fun dense solve lambda hsolve hl => ?_⟩
  obtain ⟨b, m, b1, b3, b4, -, b5⟩ := C99_knots_partial dense choiceSolver solve choiceSolver_semidefinite hsolve s ho data knots resolver hin hfirst hlast
    lambda hl
  obtain ⟨b', -, -, -, -, c1, -, -, -, c2, -⟩ := both_knots dense choiceSolver solve choiceSolver_semidefinite hsolve s data knots resolver hin lambda hl.le
  obtain rfl : b' = b := Outcome.ok.inj (c1.symm.trans b1)
  obtain ⟨x, x1, x2⟩ := b5 t h1 h2 0
  refine ⟨m, x, b3, x2, fun d => ?_⟩
  have := hC lambda b' hl ⟨choiceSolver, s, choiceSolver_semidefinite, .inr ⟨knots, hin.given, b1⟩⟩ (c2.trans a4.symm) (b4.trans a5.symm) d
  have e : b'.eval t = .ok x := x1
  rw [e] at this
  exact this

/-- **C120**, the fitter of the manifold splines in Euclidean space with given knots: from order three on the value and each derivative at each valid time
are Lipschitz in the data values, with one constant for all weights from a positive one on. -/
theorem C120_fitter_knots (s : BSpline ℝ D) (ho : 3 ≤ s.order) (data₀ : List (ℝ × (Fin D → ℝ))) (knots : List ℝ) (resolver : Option (Resolver ℝ))
    (hin : KnotsInput s data₀ knots resolver) (hfirst : firstTime data₀ < knots.getD s.order 0)
    (hlast : knots.getD (knots.length - s.order - 1) 0 ≤ lastTime data₀) (l₀ : ℝ) (hl₀ : 0 < l₀) (t : ℝ)
    (h1 : knots.getD (s.order - 1) 0 ≤ t) (h2 : t ≤ knots.getD (knots.length - s.order) 0) (der : ℕ) :
    ∃ C : ℝ, 0 ≤ C ∧ ∀ (dense dense' : Bool) (solve solve' : Solver ℝ) (data : List (ℝ × (Fin D → ℝ) × (Fin D → ℝ))) (lambda : ℝ),
      SolvesSemidefinite solve → SolvesSemidefinite solve' → data.map Prod.fst = data₀.map Prod.fst → l₀ ≤ lambda →
      ∃ (m m' : MSpline ℝ (Fin D → ℝ)) (x x' : Fin D → ℝ),
        MSpline.fitInit dense solve id (euclidean ℝ (Fin D → ℝ)) knots resolver (data.map Prod.fst) (data.map fun o => o.2.1) lambda
          (MSpline.create s.order) = (.ok (), m) ∧
        MSpline.fitInit dense' solve' id (euclidean ℝ (Fin D → ℝ)) knots resolver (data.map Prod.fst) (data.map fun o => o.2.2) lambda
          (MSpline.create s.order) = (.ok (), m') ∧
        m.euclideanEvalD none t der = .ok x ∧ m'.euclideanEvalD none t der = .ok x' ∧ ∀ d, |x d - x' d| ≤ C * √(Spec.change data) := by
  obtain ⟨s₀, -, -, -, -, -, -, a3, g3, a4, a5, -, g4, -⟩ := both_knots true choiceSolver choiceSolver choiceSolver_semidefinite choiceSolver_semidefinite s
    data₀ knots resolver hin 1 zero_le_one
  have hgd : ∀ i, s₀.kn i = knots.getD i 0 := fun i => by unfold BSpline.kn; rw [a5]
  have g1 : s₀.kn (s₀.order - 1) = knots.getD (s.order - 1) 0 := by rw [hgd, a4]
  have g2 : s₀.kn (s₀.knots.length - s₀.order) = knots.getD (knots.length - s.order) 0 := by rw [hgd, a4, a5]
  obtain ⟨o₁, ho₁, o₂, ho₂, hne⟩ := hin.distinct
  obtain ⟨C, hC0, hC⟩ := C120_regularised s₀ a3 g3 g4 _ _ ((tMin_eq a3).trans (congrArg _ g1)) ((tMax_eq a3).trans (congrArg _ g2)) o₁.1 o₂.1 hne
    (hin.inside o₁ ho₁) (hin.inside o₂ ho₂) l₀ hl₀ t h1 h2 der
  refine ⟨C, hC0, fun dense dense' solve solve' data lambda hsolve hsolve' htimes hll => ?_⟩
  have hl : 0 < lambda := lt_of_lt_of_le hl₀ hll
  have key : ∀ (f : ℝ × (Fin D → ℝ) × (Fin D → ℝ) → Fin D → ℝ) (dense : Bool) (solve : Solver ℝ), SolvesSemidefinite solve →
      ∃ (b : BSpline ℝ D) (m : MSpline ℝ (Fin D → ℝ)) (x : Fin D → ℝ), FitResult (data.map fun o => (o.1, f o)) lambda b ∧ b.order = s₀.order ∧
        b.knots = s₀.knots ∧
        MSpline.fitInit dense solve id (euclidean ℝ (Fin D → ℝ)) knots resolver (data.map Prod.fst) (data.map f) lambda
          (MSpline.create s.order) = (.ok (), m) ∧ m.euclideanEvalD none t der = .ok x ∧ b.evalD t der = .ok x := by
    intro f dense solve hsolve
    obtain ⟨i1, f1, l1⟩ := hin.congr (data' := data.map fun o => (o.1, f o)) (by rw [← htimes, List.map_map]; rfl)
    obtain ⟨b, m, b1, b3, b4, -, b5⟩ := C99_knots_partial dense choiceSolver solve choiceSolver_semidefinite hsolve s ho _ knots resolver i1
      (by rw [f1]; exact hfirst) (by rw [l1]; exact hlast) lambda hl
    obtain ⟨b', -, -, -, -, c1, -, -, -, c2, -⟩ := both_knots dense choiceSolver solve choiceSolver_semidefinite hsolve s _ knots resolver i1 lambda hl.le
    obtain rfl : b' = b := Outcome.ok.inj (c1.symm.trans b1)
    obtain ⟨x, x1, x2⟩ := b5 t h1 h2 der
    refine ⟨b', m, x, ⟨choiceSolver, s, choiceSolver_semidefinite, .inr ⟨knots, i1.given, b1⟩⟩, c2.trans a4.symm, b4.trans a5.symm, ?_, x2, x1⟩
    rw [List.map_map, List.map_map] at b3
    exact b3
  obtain ⟨b, m, x, b1, b2, b2', b3, b4, b5⟩ := key (fun o => o.2.1) dense solve hsolve
  obtain ⟨b', m', x', c1, c2, c2', c3, c4, c5⟩ := key (fun o => o.2.2) dense' solve' hsolve'
  refine ⟨m, m', x, x', b3, c3, b4, c4, fun d => ?_⟩
  have := hC data lambda b b' (by rw [htimes]; exact List.mem_map.2 ⟨o₁, ho₁, rfl⟩) (by rw [htimes]; exact List.mem_map.2 ⟨o₂, ho₂, rfl⟩) hll b1 c1 b2 b2' c2
    c2' d
  rw [b5, c5] at this
  exact this

/-- **C119**, the fitter of the manifold splines in Euclidean space with given knots, small weights: from order three on and if the data determine the
curve without a penalty, with falling weight the value and each derivative at each time approach those of the fit of a plain spline without a penalty. -/
theorem C119_fitter_knots_small (solve₀ : Solver ℝ) (hsolve₀ : SolvesSemidefinite solve₀) (s : BSpline ℝ D) (ho : 3 ≤ s.order)
    (data : List (ℝ × (Fin D → ℝ))) (knots : List ℝ) (resolver : Option (Resolver ℝ))
    (hin : KnotsInput s data knots resolver) (hfirst : firstTime data < knots.getD s.order 0)
    (hlast : knots.getD (knots.length - s.order - 1) 0 ≤ lastTime data)
    (hint : Verif.Spec.Interlaced s.order (fun i => knots.getD i 0) (knots.length - s.order) (data.map Prod.fst)) (t : ℝ)
    (h1 : knots.getD (s.order - 1) 0 ≤ t) (h2 : t ≤ knots.getD (knots.length - s.order) 0) (der : ℕ) :
    ∃ s₀ x₀, s.initSplineSparseKnots solve₀ data knots 0 = .ok s₀ ∧ s₀.evalD t der = .ok x₀ ∧ ∃ C : ℝ, 0 ≤ C ∧
      ∀ (dense : Bool) (solve : Solver ℝ) (lambda : ℝ), SolvesSemidefinite solve → 0 < lambda →
      ∃ (m : MSpline ℝ (Fin D → ℝ)) (x : Fin D → ℝ), MSpline.fitInit dense solve id (euclidean ℝ (Fin D → ℝ)) knots resolver (data.map Prod.fst)
          (data.map Prod.snd) lambda (MSpline.create s.order) = (.ok (), m) ∧ m.euclideanEvalD none t der = .ok x ∧
        ∀ d, |x d - x₀ d| ≤ C * √lambda := by
  obtain ⟨s₀, -, -, -, -, a1, -, a3, g3, a4, a5, -, -⟩ := both_knots true solve₀ choiceSolver hsolve₀ choiceSolver_semidefinite s
    data knots resolver hin 0 le_rfl
  have hgd : ∀ i, s₀.kn i = knots.getD i 0 := fun i => by unfold BSpline.kn; rw [a5]
  have g1 : s₀.kn (s₀.order - 1) = knots.getD (s.order - 1) 0 := by rw [hgd, a4]
  have g2 : s₀.kn (s₀.knots.length - s₀.order) = knots.getD (knots.length - s.order) 0 := by rw [hgd, a4, a5]
  have hst : StrictKnots s₀ := fun i j hij hj => by
    rw [a5] at hj
    rw [hgd, hgd, List.getD_eq_getElem?_getD, List.getD_eq_getElem?_getD, List.getElem?_eq_getElem (hij.trans hj), List.getElem?_eq_getElem hj]
    exact List.pairwise_iff_getElem.1 hin.increasing i j _ hj hij
  have hlen : s₀.coeffs.length = knots.length - s.order := by
    have := a3.coeffs_len
    rw [a4, a5] at this
    omega
  have e₀ := evalD_val a3 g3 t (by rw [g1]; exact h1) (by rw [g2]; exact h2) der
  obtain ⟨C, hC0, hC⟩ := C119_small data s₀ ⟨solve₀, s, hsolve₀, .inr ⟨knots, hin.given, a1⟩⟩ hst
    (by rw [hlen, a4, show s₀.kn = fun i => knots.getD i 0 from funext hgd]; exact hint) _ _ ((tMin_eq a3).trans (congrArg _ g1))
    ((tMax_eq a3).trans (congrArg _ g2)) t h1 h2 der
  refine ⟨s₀, _, a1, e₀, C, hC0, fun dense solve lambda hsolve hl => ?_⟩
  obtain ⟨b, m, b1, b3, b4, -, b5⟩ := C99_knots_partial dense choiceSolver solve choiceSolver_semidefinite hsolve s ho data knots resolver hin hfirst hlast
    lambda hl
  obtain ⟨b', -, -, -, -, c1, -, -, -, c2, -⟩ := both_knots dense choiceSolver solve choiceSolver_semidefinite hsolve s data knots resolver hin lambda hl.le
  obtain rfl : b' = b := Outcome.ok.inj (c1.symm.trans b1)
  obtain ⟨x, x1, x2⟩ := b5 t h1 h2 der
  refine ⟨m, x, b3, x2, fun d => ?_⟩
  have := hC lambda b' hl.le ⟨choiceSolver, s, choiceSolver_semidefinite, .inr ⟨knots, hin.given, b1⟩⟩ (c2.trans a4.symm) (b4.trans a5.symm) d
  rw [x1] at this
  exact this

/-! ### Examples -/

theorem example_knots_input (y : ℝ) : KnotsInput (⟨3, [], [], []⟩ : BSpline ℝ 1) [(3, ![1]), (4, ![y]), (7, ![5])] [0, 1, 2, 5, 8, 9, 11] none :=
  ⟨by norm_num, by norm_num, by norm_num, by norm_num [firstTime, lastTime], by simp only [List.pairwise_cons, List.mem_cons, List.not_mem_nil]; norm_num,
    by norm_num, by norm_num, by norm_num, by norm_num, by simp⟩

/-- Three points that are not on a line, uneven knots. -/
example : ∃ C : ℝ, 0 ≤ C ∧ ∀ lambda : ℝ, 0 < lambda → ∃ (m : MSpline ℝ (Fin 1 → ℝ)) (x : Fin 1 → ℝ),
    MSpline.fitInit false choiceSolver id (euclidean ℝ (Fin 1 → ℝ)) [0, 1, 2, 5, 8, 9, 11] none [3, 4, 7] [![1], ![3], ![5]] lambda (MSpline.create 3) =
      (.ok (), m) ∧ m.euclideanEvalD none 5 (0 : ℕ) = .ok x ∧ |x 0 - 43 / 13| ≤ C / √lambda := by
  obtain ⟨C, h0, hC⟩ := C119_fitter_knots (⟨3, [], [], []⟩ : BSpline ℝ 1) (by norm_num) _ _ none (example_knots_input 3) (by norm_num [firstTime])
    (by norm_num [lastTime]) ![-17 / 13] ![12 / 13] ⟨fun h => h.elim, fun c' v' _ => by
      simp only [List.map_cons, List.map_nil, List.sum_cons, List.sum_nil, univ_unique, sum_singleton, Fin.default_eq_zero, Matrix.cons_val_fin_one]
      nlinarith [sq_nonneg (c' 0 + 17 / 13 + (v' 0 - 12 / 13) * 3), sq_nonneg (c' 0 + 17 / 13 + (v' 0 - 12 / 13) * 4),
        sq_nonneg (c' 0 + 17 / 13 + (v' 0 - 12 / 13) * 7)]⟩ 5 (by norm_num) (by norm_num)
  refine ⟨C, h0, fun lambda hl => ?_⟩
  obtain ⟨m, x, a1, a2, a3⟩ := hC false choiceSolver lambda choiceSolver_semidefinite hl
  refine ⟨m, x, a1, a2, ?_⟩
  have := a3 0
  norm_num at this
  exact this

/-- The slope at the time 5 for falling weight, uneven knots. -/
example : ∃ (s₀ : BSpline ℝ 1) (x₀ : Fin 1 → ℝ),
    (⟨3, [], [], []⟩ : BSpline ℝ 1).initSplineSparseKnots choiceSolver [(3, ![1]), (4, ![3]), (6, ![-2]), (7, ![5])] [0, 1, 2, 5, 8, 9, 11] 0 = .ok s₀ ∧
    s₀.evalD 5 (1 : ℕ) = .ok x₀ ∧ ∃ C : ℝ, 0 ≤ C ∧ ∀ lambda : ℝ, 0 < lambda → ∃ (m : MSpline ℝ (Fin 1 → ℝ)) (x : Fin 1 → ℝ),
    MSpline.fitInit false choiceSolver id (euclidean ℝ (Fin 1 → ℝ)) [0, 1, 2, 5, 8, 9, 11] none [3, 4, 6, 7] [![1], ![3], ![-2], ![5]] lambda
      (MSpline.create 3) = (.ok (), m) ∧ m.euclideanEvalD none 5 (1 : ℕ) = .ok x ∧ |x 0 - x₀ 0| ≤ C * √lambda := by
  obtain ⟨s₀, x₀, a1, a2, C, h0, hC⟩ := C119_fitter_knots_small choiceSolver choiceSolver_semidefinite (⟨3, [], [], []⟩ : BSpline ℝ 1) (by norm_num)
    [(3, ![1]), (4, ![3]), (6, ![-2]), (7, ![5])] [0, 1, 2, 5, 8, 9, 11] none
    ⟨by norm_num, by norm_num, by norm_num, by norm_num [firstTime, lastTime], by simp only [List.pairwise_cons, List.mem_cons, List.not_mem_nil]; norm_num,
      by norm_num, by norm_num, by norm_num, by norm_num, by simp⟩ (by norm_num [firstTime]) (by norm_num [lastTime])
    ⟨fun j => [3, 4, 6, 7].getD j 0, fun j hj => by
      simp only [List.length_cons, List.length_nil] at hj
      have : j < 3 := by omega
      interval_cases j <;> norm_num, fun j hj => by
      simp only [List.length_cons, List.length_nil] at hj
      have : j < 4 := by omega
      interval_cases j <;> norm_num⟩ 5 (by norm_num) (by norm_num) 1
  refine ⟨s₀, x₀, a1, a2, C, h0, fun lambda hl => ?_⟩
  obtain ⟨m, x, b1, b2, b3⟩ := hC false choiceSolver lambda choiceSolver_semidefinite hl
  exact ⟨m, x, b1, b2, b3 0⟩

/-- The slope at the time 6, weights from 1 on, one fit with each backend. -/
example : ∃ C : ℝ, 0 ≤ C ∧ ∀ (lambda a b : ℝ), 1 ≤ lambda → ∃ (m m' : MSpline ℝ (Fin 1 → ℝ)) (x x' : Fin 1 → ℝ),
    MSpline.fitInit true choiceSolver id (euclidean ℝ (Fin 1 → ℝ)) [0, 1, 2, 5, 8, 9, 11] none [3, 4, 7] [![1], ![a], ![5]] lambda (MSpline.create 3) =
      (.ok (), m) ∧
    MSpline.fitInit false choiceSolver id (euclidean ℝ (Fin 1 → ℝ)) [0, 1, 2, 5, 8, 9, 11] none [3, 4, 7] [![1], ![b], ![5]] lambda (MSpline.create 3) =
      (.ok (), m') ∧ m.euclideanEvalD none 6 (1 : ℕ) = .ok x ∧ m'.euclideanEvalD none 6 (1 : ℕ) = .ok x' ∧ |x 0 - x' 0| ≤ C * |a - b| := by
  obtain ⟨C, h0, hC⟩ := C120_fitter_knots (⟨3, [], [], []⟩ : BSpline ℝ 1) (by norm_num) _ _ none (example_knots_input 3) (by norm_num [firstTime])
    (by norm_num [lastTime]) 1 one_pos 6 (by norm_num) (by norm_num) 1
  refine ⟨C, h0, fun lambda a b hl => ?_⟩
  obtain ⟨m, m', x, x', a1, a2, a3, a4, a5⟩ := hC true false choiceSolver choiceSolver [(3, ![1], ![1]), (4, ![a], ![b]), (7, ![5], ![5])] lambda
    choiceSolver_semidefinite choiceSolver_semidefinite rfl hl
  refine ⟨m, m', x, x', a1, a2, a3, a4, ?_⟩
  have := a5 0
  unfold Spec.change at this
  simp only [List.map_cons, List.map_nil, List.sum_cons, List.sum_nil, univ_unique, sum_singleton, Fin.default_eq_zero, Matrix.cons_val_fin_one, sub_self,
    add_zero, zero_add, ne_eq, OfNat.ofNat_ne_zero, not_false_eq_true, zero_pow, Real.sqrt_sq_eq_abs] at this
  exact this

end Verif
