import Verif.Props.FitContinuousKnots
import Verif.Props.FitLimitManifold

/-!
# Property C120, the fitter of the manifold splines
-/

set_option linter.unusedSectionVars false

namespace Verif

open Finset BSpline

variable {D : ℕ}

/-- **C120**, the fitter of the manifold splines in Euclidean space: from order three on the value and each derivative at each valid time are Lipschitz in
the data values, with one constant for all weights from a positive one on, either backend and any two solvers. -/
theorem C120_fitter (s : BSpline ℝ D) (ho : 3 ≤ s.order) (data₀ : List (ℝ × (Fin D → ℝ))) (n : ℕ) (hin : FitInput s data₀ n) (l₀ : ℝ) (hl₀ : 0 < l₀) (t : ℝ)
    (h1 : firstTime data₀ ≤ t) (h2 : t ≤ lastTime data₀) (der : ℕ) :
    ∃ C : ℝ, 0 ≤ C ∧ ∀ (dense dense' : Bool) (solve solve' : Solver ℝ) (data : List (ℝ × (Fin D → ℝ) × (Fin D → ℝ))) (lambda : ℝ),
      SolvesSemidefinite solve → SolvesSemidefinite solve' → data.map Prod.fst = data₀.map Prod.fst → l₀ ≤ lambda →
      ∃ (m m' : MSpline ℝ (Fin D → ℝ)) (x x' : Fin D → ℝ),
        (MSpline.create s.order).initUniformFitTimes dense solve id (euclidean ℝ (Fin D → ℝ)) (fieldPolicy ℝ) (data.map Prod.fst)
          (data.map fun o => o.2.1) n lambda = (.ok (), m) ∧
        (MSpline.create s.order).initUniformFitTimes dense' solve' id (euclidean ℝ (Fin D → ℝ)) (fieldPolicy ℝ) (data.map Prod.fst)
          (data.map fun o => o.2.2) n lambda = (.ok (), m') ∧
        m.euclideanEvalD none t der = .ok x ∧ m'.euclideanEvalD none t der = .ok x' ∧ ∀ d, |x d - x' d| ≤ C * √(Spec.change data) := by
  obtain ⟨s₀, -, -, a3, a4, -⟩ := fit_minimal choiceSolver choiceSolver_semidefinite s data₀ n hin 1 zero_le_one
  obtain ⟨g1, g2, g3, g4⟩ := a4.facts a3 hin.segments hin.wide
  obtain ⟨o₁, ho₁, o₂, ho₂, hne⟩ := hin.distinct
  obtain ⟨C, hC0, hC⟩ := C120_regularised s₀ a3 g3 g4 (firstTime data₀) (lastTime data₀) ((tMin_eq a3).trans (congrArg _ g1))
    ((tMax_eq a3).trans (congrArg _ g2)) o₁.1 o₂.1 hne (times_between data₀ hin.sorted o₁ ho₁) (times_between data₀ hin.sorted o₂ ho₂) l₀ hl₀ t h1 h2 der
  refine ⟨C, hC0, fun dense dense' solve solve' data lambda hsolve hsolve' htimes hll => ?_⟩
  have hl : 0 < lambda := lt_of_lt_of_le hl₀ hll
  have key : ∀ (f : ℝ × (Fin D → ℝ) × (Fin D → ℝ) → Fin D → ℝ) (dense : Bool) (solve : Solver ℝ), SolvesSemidefinite solve →
      ∃ (b : BSpline ℝ D) (m : MSpline ℝ (Fin D → ℝ)) (x : Fin D → ℝ), FitResult (data.map fun o => (o.1, f o)) lambda b ∧ SharedKnots s₀ b ∧
        (MSpline.create s.order).initUniformFitTimes dense solve id (euclidean ℝ (Fin D → ℝ)) (fieldPolicy ℝ) (data.map Prod.fst)
          (data.map f) n lambda = (.ok (), m) ∧ m.euclideanEvalD none t der = .ok x ∧ b.evalD t der = .ok x := by
    intro f dense solve hsolve
    obtain ⟨i1, f1, l1⟩ := fitInput_congr (data' := data.map fun o => (o.1, f o)) hin (by rw [← htimes, List.map_map]; rfl)
    obtain ⟨b, m, b1, -, b3, -, b5⟩ := C99_uniform_partial dense choiceSolver solve choiceSolver_semidefinite hsolve s ho _ n i1 lambda hl
    obtain ⟨b', c1, -, c3, c4, -⟩ := fit_minimal choiceSolver choiceSolver_semidefinite s _ n i1 lambda hl.le
    obtain rfl : b' = b := Outcome.ok.inj (c1.symm.trans b1)
    rw [f1, l1] at c4 b5
    obtain ⟨x, x1, x2⟩ := b5 t h1 h2 der
    refine ⟨b', m, x, ⟨choiceSolver, _, choiceSolver_semidefinite, .inl ⟨n, i1, .inl b1⟩⟩, a4.same c3 c4, ?_, x2, x1⟩
    rw [List.map_map, List.map_map] at b3
    exact b3
  obtain ⟨b, m, x, b1, b2, b3, b4, b5⟩ := key (fun o => o.2.1) dense solve hsolve
  obtain ⟨b', m', x', c1, c2, c3, c4, c5⟩ := key (fun o => o.2.2) dense' solve' hsolve'
  refine ⟨m, m', x, x', b3, c3, b4, c4, fun d => ?_⟩
  have := hC data lambda b b' (by rw [htimes]; exact List.mem_map.2 ⟨o₁, ho₁, rfl⟩) (by rw [htimes]; exact List.mem_map.2 ⟨o₂, ho₂, rfl⟩) hll b1 c1 b2.order
    b2.knots c2.order c2.knots d
  rw [b5, c5] at this
  exact this

/-- The slope at the time 3, weights from 1 on, one fit with each backend. -/
example : ∃ C : ℝ, 0 ≤ C ∧ ∀ (lambda a b : ℝ), 1 ≤ lambda → ∃ (m m' : MSpline ℝ (Fin 1 → ℝ)) (x x' : Fin 1 → ℝ),
    (MSpline.create 3).initUniformFitTimes true choiceSolver id (euclidean ℝ (Fin 1 → ℝ)) (fieldPolicy ℝ) [0, 1, 2, 4] [![1], ![a], ![-2], ![5]] 2 lambda =
      (.ok (), m) ∧
    (MSpline.create 3).initUniformFitTimes false choiceSolver id (euclidean ℝ (Fin 1 → ℝ)) (fieldPolicy ℝ) [0, 1, 2, 4] [![1], ![b], ![-2], ![5]] 2 lambda =
      (.ok (), m') ∧ m.euclideanEvalD none 3 (1 : ℕ) = .ok x ∧ m'.euclideanEvalD none 3 (1 : ℕ) = .ok x' ∧ |x 0 - x' 0| ≤ C * |a - b| := by
  have hf : firstTime ([(0, ![1]), (1, ![3]), (2, ![-2]), (4, ![5])] : List (ℝ × (Fin 1 → ℝ))) = 0 := by simp [firstTime]
  have hla : lastTime ([(0, ![1]), (1, ![3]), (2, ![-2]), (4, ![5])] : List (ℝ × (Fin 1 → ℝ))) = 4 := by simp [lastTime]
  have hin : FitInput (⟨3, [], [], []⟩ : BSpline ℝ 1) [(0, ![1]), (1, ![3]), (2, ![-2]), (4, ![5])] 2 :=
    ⟨by norm_num, by norm_num, by simp, by norm_num, by norm_num, by simp, by rw [hf, hla]; norm_num⟩
  obtain ⟨C, h0, hC⟩ := C120_fitter _ le_rfl _ 2 hin 1 one_pos 3 (by rw [hf]; norm_num) (by rw [hla]; norm_num) 1
  refine ⟨C, h0, fun lambda a b hl => ?_⟩
  obtain ⟨m, m', x, x', a1, a2, a3, a4, a5⟩ := hC true false choiceSolver choiceSolver
    [(0, ![1], ![1]), (1, ![a], ![b]), (2, ![-2], ![-2]), (4, ![5], ![5])] lambda choiceSolver_semidefinite choiceSolver_semidefinite rfl hl
  refine ⟨m, m', x, x', a1, a2, a3, a4, ?_⟩
  have := a5 0
  unfold Spec.change at this
  simp only [List.map_cons, List.map_nil, List.sum_cons, List.sum_nil, univ_unique, sum_singleton, Fin.default_eq_zero, Matrix.cons_val_fin_one, sub_self,
    add_zero, zero_add, ne_eq, OfNat.ofNat_ne_zero, not_false_eq_true, zero_pow, Real.sqrt_sq_eq_abs] at this
  exact this

end Verif
