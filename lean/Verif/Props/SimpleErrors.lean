import Verif.Model.SimpleErrors
import Verif.Props.PoseExpressions
import Verif.Props.MotionErrorFactory

/-!
# Expressions of plain splines and the simple error term (C68)
-/

set_option linter.unusedSectionVars false

namespace Verif.SimpleErrors

open Verif.Pose BSpline

/-- **C68**, expression: whenever the curve has a value at the time, the expression can be made; it takes the active coefficients, each once;
its value is the curve's; its Jacobian blocks concern exactly its variables and are the derivative of its value. -/
theorem C68_expression {D : ℕ} (b : BSpline ℝ D) (t : ℝ) (der : ℤ) (v : Fin D → ℝ) (hv : b.evalD t der = .ok v) :
    ∃ n em, toExpression b t der = .ok n ∧ n.dvs.Nodup ∧ n.dvs.length = b.order ∧ n.value b = .ok v ∧
      n.jacobians b = .ok em ∧ em.map Prod.fst = n.dvs ∧
      ∀ δ : List ℝ, δ.length = b.coefficientVector.length →
        HasDerivAt (fun ε => (n.value (moved b δ ε)).getD 0) (emissionEffect em δ) 0 := by
  obtain ⟨r, hr, rfl⟩ := jacobian_of_value (b := b) hv
  obtain ⟨lo, h1, h2, -⟩ := active_eq hr
  refine ⟨⟨linSpacedIdx b.order lo, t, der⟩, emitBlocks D (linSpacedIdx b.order lo) (fun (i : Fin D) q => r.jacobian i q), ?_, ?_, ?_, hv,
    ?_, emitBlocks_fst _ _ _, fun δ hδ => ?_⟩
  · unfold toExpression VectorNode.create
    rw [h1, Outcome.bind_ok, if_neg (by simp)]
  · unfold linSpacedIdx
    refine List.Nodup.map ?_ List.nodup_range
    intro x y h
    simpa using h
  · simp [linSpacedIdx]
  · unfold VectorNode.jacobians
    dsimp only
    rw [hr, Outcome.bind_ok, if_pos (by simp [linSpacedIdx])]
  · rw [emit_effect, ← h2]
    refine hasDerivAt_congr (line_hasDerivAt r.value (effect (fun (i : Fin D) q => r.jacobian i q) r.indices δ)) (fun ε => ?_) rfl
    unfold VectorNode.value
    rw [moved_evalD b t der r hr δ hδ ε]
    rfl

/-- **C68**, dimension check: a node for vectors of length `D` is only made for a spline with `D` rows. -/
theorem C68_dimension (D rows : ℕ) (order : ℤ) (dvs : List ℕ) (t : ℝ) :
    (∃ n, VectorNode.create D rows order dvs t = .ok n) ↔ rows = D := by
  unfold VectorNode.create
  by_cases h : rows = D <;> simp [h]

/-- **C68**, error term: the error is the curve's value minus the measurement and depends affinely on the coefficients, with the emitted
Jacobian as its linear part; the returned cost is its square, whose derivative is twice the error times the change of the error. -/
theorem C68_error (b : BSpline ℝ 1) (t : ℝ) (der : ℤ) (v y : Fin 1 → ℝ) (hv : b.evalD t der = .ok v) :
    ∃ n em, toExpression b t der = .ok n ∧
      SimpleError.evaluateError ⟨n, y⟩ b = .ok (v - y, (v 0 - y 0) ^ 2) ∧
      SimpleError.jacobians ⟨n, y⟩ b = .ok em ∧ em.map Prod.fst = n.dvs ∧
      ∀ δ : List ℝ, δ.length = b.coefficientVector.length →
        (∀ ε : ℝ, SimpleError.evaluateError ⟨n, y⟩ (moved b δ ε) =
          .ok (v - y + ε • emissionEffect em δ, (v 0 - y 0 + ε * emissionEffect em δ 0) ^ 2)) ∧
        HasDerivAt (fun ε => ((SimpleError.evaluateError ⟨n, y⟩ (moved b δ ε)).getD 0).2)
          (2 * (v 0 - y 0) * emissionEffect em δ 0) 0 := by
  obtain ⟨r, hr, rfl⟩ := jacobian_of_value (b := b) hv
  obtain ⟨lo, h1, h2, -⟩ := active_eq hr
  have aff : ∀ δ : List ℝ, δ.length = b.coefficientVector.length → ∀ ε : ℝ,
      SimpleError.evaluateError ⟨⟨linSpacedIdx b.order lo, t, der⟩, y⟩ (moved b δ ε) =
        .ok (r.value - y + ε • emissionEffect (emitBlocks 1 (linSpacedIdx b.order lo) (fun (i : Fin 1) q => r.jacobian i q)) δ,
          (r.value 0 - y 0 +
            ε * emissionEffect (emitBlocks 1 (linSpacedIdx b.order lo) (fun (i : Fin 1) q => r.jacobian i q)) δ 0) ^ 2) := by
    intro δ hδ ε
    unfold SimpleError.evaluateError VectorNode.value
    dsimp only
    rw [moved_evalD b t der r hr δ hδ ε, emit_effect, ← h2, Outcome.map_ok]
    refine congrArg Outcome.ok (Prod.ext ?_ ?_)
    · funext i
      simp
      ring
    · simp
      ring
  refine ⟨⟨linSpacedIdx b.order lo, t, der⟩, emitBlocks 1 (linSpacedIdx b.order lo) (fun (i : Fin 1) q => r.jacobian i q), ?_, ?_, ?_,
    emitBlocks_fst _ _ _, fun δ hδ => ⟨aff δ hδ, ?_⟩⟩
  · unfold toExpression VectorNode.create
    rw [h1, Outcome.bind_ok, if_neg (by simp)]
  · unfold SimpleError.evaluateError VectorNode.value
    dsimp only
    rw [hv, Outcome.map_ok]
    refine congrArg Outcome.ok (Prod.ext rfl ?_)
    simp
    ring
  · unfold SimpleError.jacobians VectorNode.jacobians
    dsimp only
    rw [hr, Outcome.bind_ok, if_pos (by simp [linSpacedIdx])]
  · set E := emissionEffect (emitBlocks 1 (linSpacedIdx b.order lo) (fun (i : Fin 1) q => r.jacobian i q)) δ 0 with hE
    have hd : HasDerivAt (fun ε : ℝ => (r.value 0 - y 0 + ε * E) ^ 2) (2 * (r.value 0 - y 0) * E) 0 := by
      have := (((hasDerivAt_id' (0 : ℝ)).mul_const E).const_add (r.value 0 - y 0)).pow 2
      exact this.congr_deriv (by simp)
    refine hd.congr_of_eventuallyEq (Filter.Eventually.of_forall fun ε => ?_)
    dsimp only
    rw [aff δ hδ ε, Outcome.getD_ok]

/-- Not vacuous: on the curve of constant value one, a measurement of three gives the error -2 and the cost 4. -/
example : ∃ n, toExpression exOnes (5 / 2) 0 = .ok n ∧ SimpleError.evaluateError ⟨n, ![3]⟩ exOnes = .ok (![1] - ![3], 4) := by
  obtain ⟨n, em, h1, h2, -⟩ := C68_error exOnes (5 / 2) 0 ![1] ![3] (exOnes_eval (5 / 2) (by norm_num) (by norm_num))
  refine ⟨n, h1, h2.trans (congrArg Outcome.ok (Prod.ext rfl ?_))⟩
  simp
  norm_num

example : ¬ ∃ n, VectorNode.create 2 3 0 [] (0 : ℝ) = .ok n := by
  rw [C68_dimension]
  decide

end Verif.SimpleErrors
