import Mathlib.Algebra.Order.Field.Basic
import Mathlib.Algebra.BigOperators.Group.Finset.Basic

/-!
# Specification: the Cox–de Boor recursion

Textbook definition of B-spline basis functions and B-spline curves, written without any
reference to the model.  Division by zero is zero, the usual convention for repeated knots.
-/

namespace Verif.Spec

open Finset

variable {K : Type*} [Field K] [LinearOrder K]

/-- Basis function number `j` of degree `p` for the knots `kn`: degree zero is the indicator function
of the half open interval `[kn j, kn (j+1))`. -/
def N (kn : ℕ → K) : ℕ → ℕ → K → K
  | 0, j, t => if kn j ≤ t ∧ t < kn (j + 1) then 1 else 0
  | (p + 1), j, t =>
      (t - kn j) / (kn (j + p + 1) - kn j) * N kn p j t
        + (kn (j + p + 2) - t) / (kn (j + p + 2) - kn (j + 1)) * N kn p (j + 1) t

/-- The left-continuous variant: degree zero is the indicator function of `(kn j, kn (j+1)]`.
It has the same values as `N` except at knots, where it is the limit from the left. -/
def NLeft (kn : ℕ → K) : ℕ → ℕ → K → K
  | 0, j, t => if kn j < t ∧ t ≤ kn (j + 1) then 1 else 0
  | (p + 1), j, t =>
      (t - kn j) / (kn (j + p + 1) - kn j) * NLeft kn p j t
        + (kn (j + p + 2) - t) / (kn (j + p + 2) - kn (j + 1)) * NLeft kn p (j + 1) t

/-- The B-spline curve of order `k` (degree `k - 1`) with coefficients `c`, one component. -/
def curve (k : ℕ) (kn : ℕ → K) (c : List K) (t : K) : K :=
  ∑ j ∈ range c.length, N kn (k - 1) j t * c.getD j 0

/-- The left-continuous B-spline curve. -/
def curveLeft (k : ℕ) (kn : ℕ → K) (c : List K) (t : K) : K :=
  ∑ j ∈ range c.length, NLeft kn (k - 1) j t * c.getD j 0

end Verif.Spec
