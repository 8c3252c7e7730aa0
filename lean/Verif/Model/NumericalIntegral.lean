import Verif.Model.Integrator
import Verif.Model.EuclideanSpline

/-!
# Model: numerical integration along a manifold spline

`DiffManifoldBSplineImpl.hpp` 698-729: `evalIntegralNumerically` and `evalFunctorIntegralNumerically`, with `integrateFunctor` of
`NumericIntegrator.hpp` 139-157 for an integrand that may throw.  The evaluation at a time outside the valid range throws and ends the loop.

Simplifications: those of `Model/Integrator`.
-/

namespace Verif

section

variable {K : Type*} [Field K] [DecidableEq K] {V : Type*} [AddCommGroup V] [Module K V]

/-- `integrateFunctor`, NumericIntegrator.hpp 139-157, with an integrand that may throw. -/
def integrateThrowing (r : Rule) (a b : K) (f : K → Outcome V) (n : ℤ) (zero : V) : Outcome V :=
  if a = b then .ok zero
  else
    ((List.range (r.maxIndex n).toNat).foldl
      (fun acc (i : ℕ) => acc.bind fun s => (f (r.point a b n ((i : ℤ) + 1))).map fun v =>
        s + if (r.valueFactor n ((i : ℤ) + 1) : K) = 1 then v else (r.valueFactor n ((i : ℤ) + 1) : K) • v)
      ((f (r.point a b n 0)).map fun v => (r.valueFactor n 0 : K) • v)).map fun sum => r.commonFactor a b n • sum

end

variable {K : Type*} [Field K] [LinearOrder K] {P : Type*} [AddCommGroup P] [Module K P]

/-- `evalFunctorIntegralNumerically`, DiffManifoldBSplineImpl.hpp 723-729, for any functor; the algorithm is the default one. -/
def functorIntegralNumerically (f : K → Outcome P) (t1 t2 : K) (n : ℤ) : Outcome P :=
  if t1 > t2 then (integrateThrowing .simpson t2 t1 f n 0).map fun v => -v else integrateThrowing .simpson t1 t2 f n 0

/-- `evalIntegralNumerically`, DiffManifoldBSplineImpl.hpp 707-710, with `EvalFunctor` 697-705, of a Euclidean spline. -/
def MSpline.integralNumerically (s : MSpline K P) (t1 t2 : K) (n : ℤ) : Outcome P :=
  functorIntegralNumerically s.euclideanEval t1 t2 n

end Verif
