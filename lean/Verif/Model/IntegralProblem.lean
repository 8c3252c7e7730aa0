import Verif.Model.Integrator
import Verif.Model.SimpleErrors

/-!
# Model: adding the error terms of an integral to an optimisation problem

`aslam_splines/include/aslam/backend/QuadraticIntegralError.hpp` 35-44 and 65-115, and the functions of the Python module,
`aslam_splines_python/src/QuadraticIntegralError.cpp` 17-61.  `Model/Integrator` gives the times and factors; here the calls of the factory
are steps that may throw, and the problem is changed between them.

Simplifications: a problem is the list of its error terms, `addErrorTerm` appends and does not throw (external package); the factory is a
function of its arguments; who deletes the error terms is left out.  `double` is a field, except that the factor of a rule with a single point,
`(b - a) / 0` times something positive, is no finite number.  `int` is unbounded.
-/

namespace Verif
namespace IntegralProblem

/-- What a call leaves: the error terms of the problem and how the call ended. -/
structure Call (E : Type*) where
  problem : List E
  result : Outcome Unit
  deriving DecidableEq

section

variable {K : Type*} [Field K] [DecidableEq K] {E : Type*}

/-- `commonFactor * valueFactor`, QuadraticIntegralError.hpp 73-76.  The step is `(b - a) / maxIndex` (NumericIntegrator.hpp 55); `none`: not a
finite number. -/
def termFactor (r : Rule) (a b : K) (n i : ℤ) : Option K :=
  if r.maxIndex n = 0 then none else some (r.commonFactor a b n * r.valueFactor n i)

/-- The loop, QuadraticIntegralError.hpp 74-77, with `k` points to come from index `i` on: a factory that throws ends it. -/
def addLoop (r : Rule) (a b : K) (n : ℤ) (factory : K → Option K → Outcome E) : ℕ → ℕ → List E → Call E
  | 0, _, P => ⟨P, .ok ()⟩
  | k + 1, i, P =>
    match factory (r.point a b n i) (termFactor r a b n i) with
    | .ok e => addLoop r a b n factory k (i + 1) (P ++ [e])
    | .throws => ⟨P, .throws⟩
    | .ub => ⟨P, .ub⟩

/-- `addQuadraticIntegralErrorTerms`, QuadraticIntegralError.hpp 65-78. -/
def addErrorTerms (r : Rule) (a b : K) (n : ℤ) (factory : K → Option K → Outcome E) (P : List E) : Call E :=
  if a = b then ⟨P, .ok ()⟩
  else if 0 > r.maxIndex n then ⟨P, .throws⟩
  else addLoop r a b n factory ((r.maxIndex n).toNat + 1) 0 P

end

/-- An expression error term: the expression and the root of the inverse covariance; `none`: entries that are not finite numbers. -/
structure ExprTerm (X : Type*) (m D : ℕ) where
  expr : X
  root : Option (Fin m → Fin D → ℝ)

/-- The factory of `addQuadraticIntegralExpressionErrorTerms`, QuadraticIntegralError.hpp 104-106:
`toErrorTermSqrt(expressionFactory(t), sqrtInvR * sqrt(f))`. -/
noncomputable def expressionTerm {X : Type*} {m D : ℕ} (factory : ℝ → Outcome X) (W : Fin m → Fin D → ℝ) (t : ℝ) (f : Option ℝ) :
    Outcome (ExprTerm X m D) :=
  (factory t).map fun x => ⟨x, (f.bind cppSqrt).map fun s i j => W i j * s⟩

/-- What a Python callable does: it raises an exception, or returns an expression of the wanted type, or another object. -/
inductive PyResult (X : Type*)
  | raised
  | value (x : X)
  | other

/-- `ExpressionFactoryAdapter::operator()`, QuadraticIntegralError.cpp (Python) 24-26: `extract` throws for other objects. -/
def extract {X : Type*} : PyResult X → Outcome X
  | .raised => .throws
  | .value x => .ok x
  | .other => .throws

/-- `addQuadraticIntegralExpressionErrorTermsToProblem…`, QuadraticIntegralError.cpp (Python) 17-32, with the default rule,
QuadraticIntegralError.hpp 112-115. -/
noncomputable def addToProblem {X : Type*} {m D : ℕ} (a b : ℝ) (n : ℤ) (callable : ℝ → PyResult X) (W : Fin m → Fin D → ℝ)
    (P : List (ExprTerm X m D)) : Call (ExprTerm X m D) :=
  addErrorTerms .simpson a b n (expressionTerm (fun t => extract (callable t)) W) P

end IntegralProblem
end Verif
