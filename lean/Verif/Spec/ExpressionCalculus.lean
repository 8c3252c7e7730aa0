import Verif.Model.OptExpressions
import Mathlib.Algebra.BigOperators.Group.Finset.Basic
import Mathlib.Algebra.Module.Defs

/-!
# What the Jacobians collected from an expression say about a joint change of the design variables
-/

namespace Verif

open Finset

variable {K : Type*} [Semiring K] {R : Type*} [AddCommMonoid R] [Module K R]

/-- A matrix, given by its columns, times the vector of the numbers `u 0`, `u 1`, … -/
def applyCols (cols : List R) (u : ℕ → K) : R := ∑ k ∈ range cols.length, u k • cols.getD k 0

/-- The change of the expression if design variable `v` changes by the vector `δ v`. -/
def totalChange (J : List (ExprVar K × List R)) (δ : ExprVar K → ℕ → K) : R := (J.map fun e => applyCols e.2 (δ e.1)).sum

/-- The change of the time. -/
def TimeNode.change (τ : TimeNode K) (δ : ExprVar K → ℕ → K) : K := (τ.rows.map fun r => applyCols r.2 (δ (.time r.1))).sum

end Verif
