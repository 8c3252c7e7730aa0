import Verif.Model.Outcome
import Mathlib.Algebra.BigOperators.Group.Finset.Basic
import Mathlib.Algebra.Field.Basic
import Mathlib.Algebra.Module.Basic
import Mathlib.Analysis.SpecialFunctions.Pow.Real

/-!
# Model: numerical integration rules and quadratic integral error terms

`bsplines/include/bsplines/NumericIntegrator.hpp`, `aslam_splines/include/aslam/backend/QuadraticIntegralError.hpp`.

Simplifications: `double` is a field; debug assertions are compiled out; a rule with a single point divides by zero in the code
(infinite step), all theorems ask for at least two points.  `int` is unbounded.
-/

namespace Verif

/-- The two algorithms of NumericIntegrator.hpp 84-87. -/
inductive Rule
  | simpson
  | trapezoidal
  deriving DecidableEq

/-- The number of points used for `n` requested points: constructors 68 and 77. -/
def Rule.numPoints : Rule → ℤ → ℤ
  | .simpson, n => n + 1 - n.tmod 2
  | .trapezoidal, n => n

/-- `maxIndex`, 29. -/
def Rule.maxIndex (r : Rule) (n : ℤ) : ℤ := r.numPoints n - 1

section

variable {K : Type*} [Field K]

/-- `stepSize`, 55. -/
def Rule.stepSize (r : Rule) (a b : K) (n : ℤ) : K := (b - a) / ((r.maxIndex n : ℤ) : K)

/-- `getIntegrationScalar`, 58. -/
def Rule.point (r : Rule) (a b : K) (n : ℤ) (i : ℤ) : K :=
  if i = r.maxIndex n then b else a + r.stepSize a b n * (i : K)

/-- `getValueFactor`, 69 and 78, with `atBounds`, 59. -/
def Rule.valueFactor (r : Rule) (n : ℤ) (i : ℤ) : K :=
  if i = 0 ∨ i = r.maxIndex n then 1 / 2
  else match r with
    | .simpson => if i.tmod 2 = 1 then 2 else 1
    | .trapezoidal => 1

/-- `getCommonFactor`, 70 and 79. -/
def Rule.commonFactor (r : Rule) (a b : K) (n : ℤ) : K :=
  match r with
  | .simpson => r.stepSize a b n * 2 / 3
  | .trapezoidal => r.stepSize a b n

variable [DecidableEq K] {V : Type*} [AddCommGroup V] [Module K V]

/-- `integrateFunctor`, 139-157: the first point, then the loop over the others, then the common factor. -/
def integrateFunctor (r : Rule) (a b : K) (f : K → V) (n : ℤ) (zero : V) : V :=
  if a = b then zero
  else
    let sum0 := (r.valueFactor n 0 : K) • f (r.point a b n 0)
    let sum := (List.range (r.maxIndex n).toNat).foldl
      (fun s (i : ℕ) => s + if (r.valueFactor n ((i : ℤ) + 1) : K) = 1 then f (r.point a b n ((i : ℤ) + 1))
        else (r.valueFactor n ((i : ℤ) + 1) : K) • f (r.point a b n ((i : ℤ) + 1))) sum0
    r.commonFactor a b n • sum

/-- `evalFunctorIntegralNumerically`, DiffManifoldBSplineImpl.hpp 723-729: swapped bounds change the sign. -/
def evalFunctorIntegral [LinearOrder K] (r : Rule) (t1 t2 : K) (f : K → V) (n : ℤ) : V :=
  if t1 > t2 then - integrateFunctor r t2 t1 f n 0 else integrateFunctor r t1 t2 f n 0

/-- `addQuadraticIntegralErrorTerms`, QuadraticIntegralError.hpp 65-78: the arguments (time, factor) the error term factory is
called with, in order. -/
def quadraticErrorTerms (r : Rule) (a b : K) (n : ℤ) : Outcome (List (K × K)) :=
  if a = b then .ok []
  else if 0 > r.maxIndex n then .throws
  else .ok ((List.range ((r.maxIndex n).toNat + 1)).map fun i : ℕ =>
    (r.point a b n i, r.commonFactor a b n * r.valueFactor n i))

end

/-- C++ `sqrt`: no number for a negative argument. -/
noncomputable def cppSqrt (x : ℝ) : Option ℝ := if x < 0 then none else some (Real.sqrt x)

/-- `addQuadraticIntegralExpressionErrorTerms`, QuadraticIntegralError.hpp 100-109: each error term is
`sqrtInvR * sqrt(f) * E(t)`; `none` stands for NaN. -/
noncomputable def expressionErrors {m D : ℕ} (r : Rule) (a b : ℝ) (n : ℤ) (E : ℝ → Fin D → ℝ)
    (sqrtInvR : Fin m → Fin D → ℝ) : Outcome (List (Option (Fin m → ℝ))) :=
  (quadraticErrorTerms r a b n).map fun l => l.map fun tf =>
    (cppSqrt tf.2).map fun s => fun i => ∑ j, (sqrtInvR i j * s) * E tf.1 j

end Verif
