import Verif.Model.RoundingEval
import Verif.Model.EuclideanSpline
import Verif.Model.QuaternionSpline

/-!
# Model: evaluation of manifold splines in floating point

The basis matrices, the weights and the values of `bsplines/include/bsplines/implementation/DiffManifoldBSplineImpl.hpp` (cited as `Impl`) and
`EuclideanBSplineImpl.hpp` there, and the updates of quaternions of `manifolds/LieGroup.hpp` and `UnitQuaternionManifoldImpl.hpp`, once more with
the result of every operation rounded.

Simplifications: those of `Model/Rounding` and `Model/RoundingEval`; times are of type `double` (`SimpleTypeTimePolicy<double>`), so that comparisons
and the lookup are exact.  The basis matrices of a spline are computed here from its knots all at once.  The functions of the external package
`sm_kinematics` (product, exponential and logarithm of quaternions) and the norm of Eigen are parameters with error bounds (`QuatFloat`).
-/

namespace Verif

namespace Rounding

open Quaternion

variable {K : Type*} [Field K] [LinearOrder K] {R : Rounding K} (S : Summation R) (P : Power R) {X V : Type*}

/-- `M(getSplineOrder(), relevantKnots)`, Impl 385, 392-476. -/
def localM (order : ℕ) (window : List K) : Mat K := basisM S (fun j => window.getD j 0) (order - 1) order

/-- The basis matrices of a spline in floating point, Impl 355-389: those that are there, each from the `2 order` knots around its segment. -/
def withFloatBasis (s : MSpline K X) : MSpline K X :=
  { s with segs := s.segs.mapIdx fun b g =>
      { g with basis := g.basis.map fun _ => localM S s.order ((s.keys.drop (b + 1 - s.order)).take (2 * s.order)) } }

variable (R) in
/-- `computeSegmentLength`, Impl 479-488. -/
def segmentLength (s : MSpline K X) (it : Iter K) : Outcome K :=
  match it with
  | none => .ok 0
  | some x => (moveIter s.keys it none 1).bind fun nx =>
    match nx with
    | none => .ub
    | some y => .ok (R.sub y x)

variable (R) in
/-- The evaluator's constructor, Impl 733-743. -/
def evaluatorAt (s : MSpline K X) (t : K) : Outcome (MSpline.Evaluator K) :=
  match s.state with
  | .constructing => .throws
  | .evaluable =>
    (s.getSegmentIterator t).bind fun ti =>
    (s.firstRelevantByLast ti).bind fun fi =>
    (moveIter s.keys ti none 1).bind fun e =>
    (R.segmentLength s ti).bind fun len =>
    match ti with
    | none => .ub
    | some x => .ok ⟨ti, fi, e, len, if len = 0 then 0 else R.div (R.sub t x) len⟩

/-- `Evaluator::computeUInto`, Impl 826-845. -/
def evalU (k : ℕ) (len rel : K) (der : ℕ) : ℕ → K := fun i =>
  if 0 < len then
    (if der ≤ i ∧ i < k then R.mul (R.mul (R.div 1 (P.pow len der)) (R.powers rel (i - der))) (dmul i der : K) else 0)
  else 0

/-- `computeLocalBiInto`, Impl 775-782, with `fastMultiplyAtransposedTimesBInto`, 498-505. -/
def localBi (s : MSpline K X) (e : MSpline.Evaluator K) (der : ℕ) : Outcome (ℕ → K) :=
  (s.segAt e.ti).bind fun g =>
    match g.basis with
    | none => .ub
    | some B => .ok (transposeMul S s.order B (evalU P s.order e.len e.rel der))

variable (R) in
/-- `computeLocalCumulativeBiInto`, Impl 785-810: `sum` starts at zero and runs from the last entry down. -/
def cumulativeOf (k : ℕ) (bi : ℕ → K) (der : ℕ) : ℕ → K := fun i =>
  if i = 0 then (if der = 0 then 1 else 0)
  else R.add (bi i) (((List.range (k - 1 - i)).map fun j => bi (k - 1 - j)).foldl R.add 0)

/-- `getLocalCumulativeBi`, Impl 872-895, 924-927. -/
def localCumulativeBi (s : MSpline K X) (e : MSpline.Evaluator K) (der : ℕ) : Outcome (ℕ → K) :=
  (localBi S P s e der).map fun bi => R.cumulativeOf s.order bi der

variable (R) in
/-- `computeControlVertexSequenceLinearCombinationInto<last, AddOrSet_set>`, EuclideanBSplineImpl.hpp 22-44. -/
def linCombLast {D : ℕ} (s : MSpline K (Fin D → K)) (it : Iter K) (w : ℕ → K) : Outcome (Fin D → K) :=
  (s.readVerticesBack s.order it).bind fun vs => .ok fun d =>
    (List.range (s.order - 1)).foldl (fun r j => R.add r (R.mul (w (s.order - 1 - (j + 1))) (vs.getD (j + 1) 0 d)))
      (R.mul (w (s.order - 1)) (vs.getD 0 0 d))

/-- `Evaluator::evalD` of `EuclideanBSpline`, EuclideanBSplineImpl.hpp 102-116, for derivative orders the evaluator allows. -/
def euclideanEvalD {D : ℕ} (s : MSpline K (Fin D → K)) (t : K) (der : ℕ) : Outcome (Fin D → K) :=
  (R.evaluatorAt s t).bind fun e =>
    if der < s.order then (localBi S P s e der).bind fun w => R.linCombLast s e.ti w
    else .ok 0

/-- `evalGeneric`, Impl 943-966; what the manifold does is `M`. -/
def evalGeneric (M : Mfd K X V) (s : MSpline K X) (t : K) : Outcome X :=
  (R.evaluatorAt s t).bind fun e => (localCumulativeBi S P s e 0).bind fun w =>
    (s.readVertices s.order e.firstIt).bind fun vs =>
      match vs with
      | [] => .ub
      | c :: cs => .ok (MSpline.genericLoop M w 1 c c cs)

end Rounding

open Quaternion

/-- The external quaternion functions in floating point: `qplus`, `axisAngle2quat` and `quat2AxisAngle` of `sm_kinematics` and the norm of Eigen.
The bounds of the errors are part of the assumptions: relative ones for the product and the norm, where numbers below `1 / 4` count as `1 / 4` because
of underflow, and an absolute one for the exponential of vectors not longer than `range`. -/
structure QuatFloat where
  mult : ℍ[ℝ] → ℍ[ℝ] → ℍ[ℝ]
  exp : V3 → ℍ[ℝ]
  log : ℍ[ℝ] → V3
  norm : ℍ[ℝ] → ℝ
  multErr : ℝ
  expErr : ℝ
  normErr : ℝ
  range : ℝ
  range_nonneg : 0 ≤ range
  mult_err : ∀ a b, ‖mult a b - qplus a b‖ ≤ multErr * max (‖a‖ * ‖b‖) (1 / 4)
  exp_err : ∀ v, norm3 v ≤ range → ‖exp v - axisAngle2quat v‖ ≤ expErr
  norm_err : ∀ q, |norm q - ‖q‖| ≤ normErr * max ‖q‖ (1 / 4)

namespace QuatFloat

variable (R : Rounding ℝ) (F : QuatFloat)

/-- The unit quaternion manifold in floating point: `UnitQuaternionManifoldImpl.hpp` 20-59, 88-99.  `quatInv` changes signs, which is exact; the division
`pt /= pt.norm()` divides each entry. -/
noncomputable def group : LieGrp ℍ[ℝ] V3 where
  identity := 1
  mult := F.mult
  invert := quatInv
  expAtId := F.exp
  logAtId := F.log
  isIn q := decide (|R.sub (F.norm q) 1| < R.rnd (1 / 10 ^ 9))
  project q := ⟨R.div q.re (F.norm q), R.div q.imI (F.norm q), R.div q.imJ (F.norm q), R.div q.imK (F.norm q)⟩

/-- The manifold of a quaternion spline; `scaleVectorInPlace` (DiffManifold.hpp 104) multiplies each entry. -/
noncomputable def toMfd : Mfd ℝ ℍ[ℝ] V3 := { (LieGrp.toMfd (K := ℝ) (F.group R)) with scale := fun v c i => R.mul (v i) c }

/-- The value of a quaternion spline, UnitQuaternionBSplineImpl.hpp 127-130. -/
noncomputable def eval {R : Rounding ℝ} (S : Rounding.Summation R) (P : Rounding.Power R) (F : QuatFloat) (s : MSpline ℝ ℍ[ℝ]) (t : ℝ) :
    Outcome ℍ[ℝ] :=
  Rounding.evalGeneric S P (F.toMfd R) s t

end QuatFloat

end Verif
