import Verif.Props.FitLimit
import Verif.Props.BothFitters

/-!
# Property C119, the fitter of the manifold splines
-/

set_option linter.unusedSectionVars false

namespace Verif

open Finset BSpline

variable {D : ℕ}

/-- **C119**, the fitter of the manifold splines in Euclidean space: from order three on the curve approaches the best line with growing weight, with
either backend and any solver. -/
theorem C119_fitter (s : BSpline ℝ D) (ho : 3 ≤ s.order) (data : List (ℝ × (Fin D → ℝ))) (n : ℕ) (hin : FitInput s data n) (c v : Fin D → ℝ)
    (hb : Spec.BestLine False data c v) (t : ℝ) (h1 : firstTime data ≤ t) (h2 : t ≤ lastTime data) :
    ∃ C : ℝ, 0 ≤ C ∧ ∀ (dense : Bool) (solve : Solver ℝ) (lambda : ℝ), SolvesSemidefinite solve → 0 < lambda →
      ∃ (m : MSpline ℝ (Fin D → ℝ)) (x : Fin D → ℝ), (MSpline.create s.order).initUniformFitTimes dense solve id (euclidean ℝ (Fin D → ℝ))
          (fieldPolicy ℝ) (data.map Prod.fst) (data.map Prod.snd) n lambda = (.ok (), m) ∧ m.euclideanEvalD none t (0 : ℕ) = .ok x ∧
        ∀ d, |x d - (c d + v d * t)| ≤ C / √lambda := by
  obtain ⟨s₀, -, -, a3, a4, -⟩ := fit_minimal choiceSolver choiceSolver_semidefinite s data n hin 1 zero_le_one
  obtain ⟨g1, g2, g3, g4⟩ := a4.facts a3 hin.segments hin.wide
  obtain ⟨o₁, ho₁, o₂, ho₂, hne⟩ := hin.distinct
  obtain ⟨C, hC0, hC⟩ := C119_best_line data s₀ a3 g3 g4 (firstTime data) (lastTime data) ((tMin_eq a3).trans (congrArg _ g1))
    ((tMax_eq a3).trans (congrArg _ g2)) (times_between data hin.sorted) o₁ o₂ ho₁ ho₂ hne c v
    ⟨fun h => by rw [a4.order_eq] at h; omega, fun c' v' _ => hb.2 c' v' fun h => h.elim⟩ t h1 h2
  refine ⟨C, hC0, fun dense solve lambda hsolve hl => ?_⟩
  obtain ⟨b, m, b1, -, b3, -, b5⟩ := C99_uniform_partial dense choiceSolver solve choiceSolver_semidefinite hsolve s ho data n hin lambda hl
  obtain ⟨b', c1, -, c3, c4, -⟩ := fit_minimal choiceSolver choiceSolver_semidefinite s data n hin lambda hl.le
  obtain rfl : b' = b := Outcome.ok.inj (c1.symm.trans b1)
  have hsh : SharedKnots s₀ b' := a4.same c3 c4
  obtain ⟨x, x1, x2⟩ := b5 t h1 h2 0
  refine ⟨m, x, b3, x2, fun d => ?_⟩
  have := hC lambda b' hl ⟨choiceSolver, _, choiceSolver_semidefinite, .inl ⟨n, hin, .inl b1⟩⟩ hsh.order hsh.knots d
  have e : b'.eval t = .ok x := x1
  rw [e] at this
  exact this

/-- **C119**, the fitter of the manifold splines in Euclidean space, small weights: from order three on and if the data determine the curve without a
penalty, with falling weight the value and each derivative at each time approach those of the fit of a plain spline without a penalty, at least as fast as
the square root of the weight. -/
theorem C119_fitter_small (solve₀ : Solver ℝ) (hsolve₀ : SolvesSemidefinite solve₀) (s : BSpline ℝ D) (ho : 3 ≤ s.order) (data : List (ℝ × (Fin D → ℝ)))
    (n : ℕ) (hin : FitInput s data n)
    (hint : Verif.Spec.Interlaced s.order (Spec.evenKnot s.order n (firstTime data) (lastTime data)) (n + s.order - 1) (data.map Prod.fst)) (t : ℝ)
    (h1 : firstTime data ≤ t) (h2 : t ≤ lastTime data) (der : ℕ) :
    ∃ s₀ x₀, s.initSpline3 solve₀ data n 0 = .ok s₀ ∧ s₀.evalD t der = .ok x₀ ∧ ∃ C : ℝ, 0 ≤ C ∧ ∀ (dense : Bool) (solve : Solver ℝ) (lambda : ℝ),
      SolvesSemidefinite solve → 0 < lambda →
      ∃ (m : MSpline ℝ (Fin D → ℝ)) (x : Fin D → ℝ), (MSpline.create s.order).initUniformFitTimes dense solve id (euclidean ℝ (Fin D → ℝ))
          (fieldPolicy ℝ) (data.map Prod.fst) (data.map Prod.snd) n lambda = (.ok (), m) ∧ m.euclideanEvalD none t der = .ok x ∧
        ∀ d, |x d - x₀ d| ≤ C * √lambda := by
  obtain ⟨s₀, a1, -, a3, a4, -⟩ := fit_minimal solve₀ hsolve₀ s data n hin 0 le_rfl
  obtain ⟨g1, g2, g3, -⟩ := a4.facts a3 hin.segments hin.wide
  have hn0 : (0 : ℝ) < n := by exact_mod_cast hin.segments
  have e₀ := evalD_val a3 g3 t (by rw [g1]; exact h1) (by rw [g2]; exact h2) der
  obtain ⟨C, hC0, hC⟩ := C119_small data s₀ ⟨solve₀, _, hsolve₀, .inl ⟨n, hin, .inl a1⟩⟩ (a4.strict (div_pos (sub_pos.2 hin.lt) hn0))
    ((a4.interlaced a3 _).2 hint) (firstTime data) (lastTime data) ((tMin_eq a3).trans (congrArg _ g1)) ((tMax_eq a3).trans (congrArg _ g2)) t h1 h2 der
  refine ⟨s₀, _, a1, e₀, C, hC0, fun dense solve lambda hsolve hl => ?_⟩
  obtain ⟨b, m, b1, -, b3, -, b5⟩ := C99_uniform_partial dense choiceSolver solve choiceSolver_semidefinite hsolve s ho data n hin lambda hl
  obtain ⟨b', c1, -, c3, c4, -⟩ := fit_minimal choiceSolver choiceSolver_semidefinite s data n hin lambda hl.le
  obtain rfl : b' = b := Outcome.ok.inj (c1.symm.trans b1)
  have hsh : SharedKnots s₀ b' := a4.same c3 c4
  obtain ⟨x, x1, x2⟩ := b5 t h1 h2 der
  refine ⟨m, x, b3, x2, fun d => ?_⟩
  have := hC lambda b' hl.le ⟨choiceSolver, _, choiceSolver_semidefinite, .inl ⟨n, hin, .inl b1⟩⟩ hsh.order hsh.knots d
  rw [x1] at this
  exact this

/-- The slope at the time 3 for falling weight. -/
example : ∃ (s₀ : BSpline ℝ 1) (x₀ : Fin 1 → ℝ), (⟨3, [], [], []⟩ : BSpline ℝ 1).initSpline3 choiceSolver [(0, ![1]), (1, ![3]), (2, ![-2]), (4, ![5])] 2 0 = .ok s₀ ∧
    s₀.evalD 3 (1 : ℕ) = .ok x₀ ∧ ∃ C : ℝ, 0 ≤ C ∧ ∀ lambda : ℝ, 0 < lambda → ∃ (m : MSpline ℝ (Fin 1 → ℝ)) (x : Fin 1 → ℝ),
    (MSpline.create 3).initUniformFitTimes true choiceSolver id (euclidean ℝ (Fin 1 → ℝ)) (fieldPolicy ℝ) [0, 1, 2, 4] [![1], ![3], ![-2], ![5]] 2 lambda =
      (.ok (), m) ∧ m.euclideanEvalD none 3 (1 : ℕ) = .ok x ∧ |x 0 - x₀ 0| ≤ C * √lambda := by
  have hf : firstTime ([(0, ![1]), (1, ![3]), (2, ![-2]), (4, ![5])] : List (ℝ × (Fin 1 → ℝ))) = 0 := by simp [firstTime]
  have hla : lastTime ([(0, ![1]), (1, ![3]), (2, ![-2]), (4, ![5])] : List (ℝ × (Fin 1 → ℝ))) = 4 := by simp [lastTime]
  have hin : FitInput (⟨3, [], [], []⟩ : BSpline ℝ 1) [(0, ![1]), (1, ![3]), (2, ![-2]), (4, ![5])] 2 :=
    ⟨by norm_num, by norm_num, by simp, by norm_num, by norm_num, by simp, by rw [hf, hla]; norm_num⟩
  obtain ⟨s₀, x₀, a1, a2, C, h0, hC⟩ := C119_fitter_small choiceSolver choiceSolver_semidefinite _ le_rfl _ 2 hin
    (by rw [hf, hla]; exact example_interlaced) 3 (by rw [hf]; norm_num) (by rw [hla]; norm_num) 1
  refine ⟨s₀, x₀, a1, a2, C, h0, fun lambda hl => ?_⟩
  obtain ⟨m, x, b1, b2, b3⟩ := hC true choiceSolver lambda choiceSolver_semidefinite hl
  exact ⟨m, x, b1, b2, b3 0⟩

/-- Four points that are not on a line. -/
example : ∃ C : ℝ, 0 ≤ C ∧ ∀ lambda : ℝ, 0 < lambda → ∃ (m : MSpline ℝ (Fin 1 → ℝ)) (x : Fin 1 → ℝ),
    (MSpline.create 3).initUniformFitTimes true choiceSolver id (euclidean ℝ (Fin 1 → ℝ)) (fieldPolicy ℝ) [0, 1, 2, 4] [![1], ![3], ![-2], ![5]] 2 lambda =
      (.ok (), m) ∧ m.euclideanEvalD none 2 (0 : ℕ) = .ok x ∧ |x 0 - 68 / 35| ≤ C / √lambda := by
  have hf : firstTime ([(0, ![1]), (1, ![3]), (2, ![-2]), (4, ![5])] : List (ℝ × (Fin 1 → ℝ))) = 0 := by simp [firstTime]
  have hla : lastTime ([(0, ![1]), (1, ![3]), (2, ![-2]), (4, ![5])] : List (ℝ × (Fin 1 → ℝ))) = 4 := by simp [lastTime]
  have hin : FitInput (⟨3, [], [], []⟩ : BSpline ℝ 1) [(0, ![1]), (1, ![3]), (2, ![-2]), (4, ![5])] 2 :=
    ⟨by norm_num, by norm_num, by simp, by norm_num, by norm_num, by simp, by rw [hf, hla]; norm_num⟩
  obtain ⟨C, h0, hC⟩ := C119_fitter _ le_rfl _ 2 hin ![2 / 5] ![27 / 35] ⟨fun h => h.elim, fun c' v' _ => example_best.2 c' v' (by norm_num)⟩ 2
    (by rw [hf]; norm_num) (by rw [hla]; norm_num)
  refine ⟨C, h0, fun lambda hl => ?_⟩
  obtain ⟨m, x, a1, a2, a3⟩ := hC true choiceSolver lambda choiceSolver_semidefinite hl
  refine ⟨m, x, a1, a2, ?_⟩
  have := a3 0
  norm_num at this
  exact this

end Verif
