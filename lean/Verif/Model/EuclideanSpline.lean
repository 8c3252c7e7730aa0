import Verif.Model.ManifoldSpline
import Mathlib.Algebra.Module.Basic
import Mathlib.Algebra.BigOperators.GroupWithZero.Action

/-!
# Model of the Euclidean manifold spline

Source: `/repo/bsplines/include/bsplines/implementation/EuclideanBSplineImpl.hpp` (lines cited as `Impl`),
`/repo/bsplines/include/bsplines/manifolds/EuclideanSpace.hpp`.

Points are elements of a module `P` over the scalars.  Simplification: the loop over the control vertices steps its iterator once
more after the last vertex; for the first valid segment this decrements the iterator of the first map element, which the standard
leaves undefined although the result is never used.  The model omits that last step.
-/

namespace Verif

open Finset

/-- `EuclideanSpace`: every point is in the manifold, `exp` adds and `log` subtracts (manifolds/EuclideanSpace.hpp). -/
def euclidean (K P : Type*) [Field K] [AddCommGroup P] [Module K P] : Mfd K P P where
  isIn _ := true
  default := 0
  log a b := b - a
  exp p v := p + v
  scale v c := c • v

namespace MSpline
variable {K : Type*} [Field K] [LinearOrder K] {P : Type*} [AddCommGroup P] [Module K P]

/-- The control vertices read backwards from an iterator, in reading order (Impl 24-43, positions `last`). -/
def readVerticesBack (s : MSpline K P) : ℕ → Iter K → Outcome (List P)
  | 0, _ => .ok []
  | 1, it => (s.segAt it).bind fun g => .ok [g.vertex]
  | (n + 2), it => (s.segAt it).bind fun g => (itDec s.keys it).bind fun it' => (s.readVerticesBack (n + 1) it').bind fun ps =>
      .ok (g.vertex :: ps)

/-- `computeControlVertexSequenceLinearCombinationInto<last, …>`, Impl 22-44: coefficients from the last to the first.  `acc` is
the previous value of the result for `AddOrSet_add` and zero for `AddOrSet_set`. -/
def linCombLast (s : MSpline K P) (it : Iter K) (w : ℕ → K) (acc : P) : Outcome P :=
  (s.readVerticesBack s.order it).bind fun vs =>
    .ok ((List.range s.order).foldl (fun r j => r + w (s.order - 1 - j) • vs.getD j 0) acc)

/-- `computeControlVertexSequenceLinearCombinationInto<first, …>`, Impl 22-44. -/
def linCombFirst (s : MSpline K P) (it : Iter K) (w : ℕ → K) (acc : P) : Outcome P :=
  (s.readVertices s.order it).bind fun vs =>
    .ok ((List.range s.order).foldl (fun r j => r + w j • vs.getD j 0) acc)

/-- `Evaluator::evalD`, Impl 102-116; `maxDer` is the template argument (`none` for dynamic). -/
def euclideanEvalD (s : MSpline K P) (maxDer : Option ℕ) (t : K) (der : ℤ) : Outcome P :=
  (s.evaluatorAt t).bind fun e =>
    if der < 0 then .throws
    else if maxDer.any (fun m => decide ((m : ℤ) < der)) then .throws
    else if der < s.order then (s.localBi e der.toNat).bind fun w => s.linCombLast e.ti w 0
    else .ok 0

/-- `Evaluator::eval`, Impl 95-100. -/
def euclideanEval (s : MSpline K P) (t : K) : Outcome P := s.euclideanEvalD none t 0

/-- `Evaluator::computeVInto`, DiffManifoldBSplineImpl.hpp 847-861. -/
def evalV (k : ℕ) (len rel : K) : ℕ → K := fun i => if 0 < len ∧ i < k then rel ^ (i + 1) / ((i : K) + 1) else 0

/-- `computeLocalViInto(v, localVi, it)`, DiffManifoldBSplineImpl.hpp 899-903. -/
def localVi (s : MSpline K P) (v : ℕ → K) (it : Iter K) : Outcome (ℕ → K) :=
  (s.segAt it).bind fun g =>
    match g.basis with
    | none => .ub
    | some B => .ok (BSpline.transposeMul s.order B v)

/-- The tolerance `1e-16` of `evalIntegral`. -/
def eulerTol : K := 1 / 10 ^ 16

/-- A remainder of `evalIntegral`, Impl 60-64 and 83-87, with the sign of the contribution. -/
def integralRemainder (s : MSpline K P) (sign : K) (e : Evaluator K) (acc : P) : Outcome P :=
  if eulerTol < e.len ∧ eulerTol < e.rel then
    (s.localVi (evalV s.order e.len e.rel) e.ti).bind fun v => s.linCombFirst e.firstIt (fun i => sign * e.len * v i) acc
  else .ok acc

/-- The loop over the central segments, Impl 74-78; `n` bounds the number of rounds. -/
def integralCentral (s : MSpline K P) (end_ : Iter K) : ℕ → Iter K → P → Outcome P
  | 0, _, _ => .ub
  | (n + 1), it, acc =>
    if it = end_ then .ok acc
    else (s.localVi (fun i => 1 / ((i : K) + 1)) it).bind fun v => (s.segmentLength it).bind fun len =>
      (s.linCombLast it (fun i => len * v i) acc).bind fun acc' => (itInc s.keys it).bind fun it' =>
        s.integralCentral end_ n it' acc'

/-- `evalIntegral` for ordered bounds, Impl 46-89. -/
def euclideanIntegralOrdered (s : MSpline K P) (t1 t2 : K) : Outcome P :=
  if t1 = t2 then .ok 0
  else (s.evaluatorAt t1).bind fun e1 => (s.integralRemainder (-1) e1 0).bind fun acc =>
    (s.evaluatorAt t2).bind fun e2 => (s.integralCentral e2.ti (s.segs.length + 1) e1.ti acc).bind fun acc' =>
      s.integralRemainder 1 e2 acc'

/-- `evalIntegral`, Impl 46-89. -/
def euclideanIntegral (s : MSpline K P) (t1 t2 : K) : Outcome P :=
  if t2 < t1 then (s.euclideanIntegralOrdered t2 t1).map (fun p => -p) else s.euclideanIntegralOrdered t1 t2

end MSpline
end Verif
