import Verif.Model.QuaternionSpline
import Verif.Model.EuclideanSpline
import Mathlib.LinearAlgebra.Matrix.Notation

/-!
# Model of the Jacobians of manifold splines with respect to their control vertices

Source: `/repo/bsplines/include/bsplines/implementation/UnitQuaternionBSplineImpl.hpp` (cited as `Impl`),
`/repo/bsplines/include/bsplines/manifolds/implementation/UnitQuaternionManifoldImpl.hpp` (cited as `Mfd`) and
`/repo/bsplines/include/bsplines/implementation/EuclideanBSplineImpl.hpp` (cited as `Eucl`).

A `dmatrix_t` (four rows, three columns) is the list of its columns, each a quaternion.  Of the external package `sm_kinematics` the
following is assumed: `quatPlus q` and `quatOPlus q` are the matrices of the maps `p ↦ qplus q p` and `p ↦ qplus p q`; `quat2r q`
is the rotation `v ↦ w` with `quatV w = q ⊕ quatV v ⊕ q⁻¹`.  `expDiffMat` (`S`, Mfd 66-69) and `logDiffMat` (`LByVec`, Mfd 71-74) are
parameters.
-/

namespace Verif

open Quaternion Finset

/-- A real three by three matrix. -/
abbrev M33 := Matrix (Fin 3) (Fin 3) ℝ

/-- `dmatrix_t`: the columns. -/
abbrev DMat := Fin 3 → ℍ[ℝ]

/-- `sm::kinematics::quatPlus(q)`, as a map. -/
def quatPlus (q : ℍ[ℝ]) : ℍ[ℝ] → ℍ[ℝ] := fun p => qplus q p

/-- `sm::kinematics::quatOPlus(q)`, as a map. -/
def quatOPlus (q : ℍ[ℝ]) : ℍ[ℝ] → ℍ[ℝ] := fun p => qplus p q

/-- A four by four matrix times a `dmatrix_t`. -/
def mapCols (A : ℍ[ℝ] → ℍ[ℝ]) (M : DMat) : DMat := fun k => A (M k)

/-- `V() * A` for a three by three matrix. -/
noncomputable def vMat (A : M33) : DMat := fun k => quatV fun r => A r k

/-- `sm::kinematics::quat2r`. -/
noncomputable def quat2r (q : ℍ[ℝ]) : M33 := fun r k => 2 * qeps (qplus (qplus q (quatV (Pi.single k 1))) (quatInv q)) r

/-- `sm::kinematics::crossMx`. -/
def crossMat (v : V3) : M33 := !![0, -v 2, v 1; v 2, 0, -v 0; -v 1, v 0, 0]

namespace MSpline

/-- `getLocalRiPoint(i)`, Impl 48-50. -/
def QCache.getRi (c : QCache) (i : ℕ) : Outcome ℍ[ℝ] :=
  match i with
  | 0 => .ub
  | i + 1 => match c.ri[i]? with
    | none => .ub
    | some r => .ok r

/-- `getLocalPhiVector(i)`, Impl 45-47. -/
def QCache.getPhi (c : QCache) (i : ℕ) : Outcome V3 :=
  match i with
  | 0 => .ub
  | i + 1 => match c.phi[i]? with
    | none => .ub
    | some r => .ok r

/-- `getLocalControlVertex(i)`, Impl 51-53. -/
def QCache.getVertex (c : QCache) (i : ℕ) : Outcome ℍ[ℝ] :=
  match c.verts[i]? with
  | none => .ub
  | some r => .ok r

/-- `getRiQuaternionProduct`, Impl 194-207. -/
def riProduct (c : QCache) (first last : ℕ) : Outcome ℍ[ℝ] :=
  if first = last then .ok 1
  else (List.range (last - (first + 1))).foldl (fun acc k => acc.bind fun a => (c.getRi (first + 1 + k)).map fun r => qplus a r)
    (c.getRi first)

/-- `getPhiVectorJacobian`, Impl 209-213, for `1 ≤ i`. -/
noncomputable def phiVectorJacobian (L : V3 → M33) (c : QCache) (i : ℕ) : Outcome M33 :=
  (c.getPhi i).bind fun phi => (c.getVertex (i - 1)).bind fun p => .ok (L phi * quat2r (quatInv p))

/-- `getRiDJacobian(cache, derivativeOrder, i)`, Impl 236-276. -/
noncomputable def riDJacobian (S L : V3 → M33) (s : MSpline ℝ ℍ[ℝ]) (e : Evaluator ℝ) (c : QCache) (der i : ℕ) : Outcome DMat :=
  (c.getRi i).bind fun r => (c.getPhi i).bind fun phi => (phiVectorJacobian L c i).bind fun pj =>
  (s.localCumulativeBi e 0).bind fun w =>
  let j0 : DMat := mapCols (quatOPlus r) (vMat (S (w i • phi) * (w i • pj)))
  let vPhiJac := vMat pj
  let phiQuad := quatV phi
  let phiRiJac : DMat := mapCols (quatOPlus r) vPhiJac + mapCols (quatPlus phiQuad) j0
  match der with
  | 0 => .ok j0
  | 1 => (s.localCumulativeBi e 1).bind fun w1 => .ok (w1 i • phiRiJac)
  | 2 => (s.localCumulativeBi e 1).bind fun w1 => (s.localCumulativeBi e 2).bind fun w2 =>
    let tmp := (w1 i * w1 i) • phiQuad + (w2 i : ℍ[ℝ])
    .ok (mapCols (quatPlus tmp) phiRiJac + mapCols (quatOPlus (qplus phiQuad r)) ((w1 i * w1 i) • vPhiJac))
  | _ => .throws

/-- `isJacobianZero`, Impl 216-220. -/
def isJacobianZero (i j : ℕ) : Prop := i ≠ j ∧ j + 1 ≠ i

instance (i j : ℕ) : Decidable (isJacobianZero i j) := instDecidableAnd

/-- `getJacobianSignum`, Impl 222-226. -/
def jacobianSignum (i j : ℕ) : ℝ := if i = j then 1 else -1

/-- `getRiDJacobian(cache, derivativeOrder, i, j)`, Impl 228-234. -/
noncomputable def riDJacobianOf (S L : V3 → M33) (s : MSpline ℝ ℍ[ℝ]) (e : Evaluator ℝ) (c : QCache) (der i j : ℕ) : Outcome DMat :=
  if isJacobianZero i j then .ok 0
  else (s.riDJacobian S L e c der i).map fun M => jacobianSignum i j • M

/-- `evalJacobianDRecursiveProductRest`, Impl 278-297, with `rem = getNumVectors() − i`. -/
noncomputable def jacobianRest (S L : V3 → M33) (s : MSpline ℝ ℍ[ℝ]) (e : Evaluator ℝ) (c : QCache) (j : ℕ) :
    ℕ → ℕ → ℕ → Outcome DMat
  | 0, der, factor =>
    if ¬ isJacobianZero (s.order - 1) j then
      (s.riDJacobianOf S L e c der (s.order - 1) j).map fun M => ((factor / der.factorial : ℕ) : ℝ) • M
    else .ok 0
  | (rem + 1), der, factor =>
    let i := s.order - 1 - (rem + 1)
    (s.evalRiD e c 0 i).bind fun r0 =>
    (s.jacobianRest S L e c j rem der factor).bind fun p0 =>
    (if ¬ isJacobianZero i j then
      (s.productRest e c rem der factor).bind fun q => (s.riDJacobianOf S L e c 0 i j).bind fun M =>
        .ok (mapCols (quatPlus r0) p0 + mapCols (quatOPlus q) M)
    else .ok (mapCols (quatPlus r0) p0)).bind fun start =>
    (List.range der).foldl (fun acc d => acc.bind fun a =>
      (if ¬ isJacobianZero i j then
        (s.productRest e c rem (der - (d + 1)) (factor / (d + 1).factorial)).bind fun q =>
        (s.riDJacobianOf S L e c (d + 1) i j).bind fun M => .ok (a + mapCols (quatOPlus q) M)
      else .ok a).bind fun a' =>
      (s.evalRiD e c (d + 1) i).bind fun r =>
      (s.jacobianRest S L e c j rem (der - (d + 1)) (factor / (d + 1).factorial)).bind fun p =>
        .ok (a' + mapCols (quatPlus r) p)) (.ok start)

/-- The loop of `evalJacobianDRecursive`, Impl 375-383: the blocks from the `j`-th on, `n` are left. -/
noncomputable def jacobianDLoop (S L : V3 → M33) (s : MSpline ℝ ℍ[ℝ]) (e : Evaluator ℝ) (c : QCache) (der : ℕ) :
    ℕ → ℕ → Outcome (List DMat)
  | 0, _ => .ok []
  | n + 1, j =>
    (c.getVertex 0).bind fun v =>
    (if j = 0 then (s.productRest e c (s.order - 1 - 1) der der.factorial).map fun q => mapCols (quatOPlus (qplus v q)) (vMat 1)
      else .ok 0).bind fun b =>
    (s.jacobianRest S L e c j (s.order - 1 - 1) der der.factorial).bind fun M =>
    (s.jacobianDLoop S L e c der n (j + 1)).map fun bs => (b + mapCols (quatPlus v) M) :: bs

/-- `evalJacobianDRecursive`, Impl 361-384.  For order one the recursion starts past its end and reads outside the empty arrays of the
cache. -/
noncomputable def evalJacobianDRecursive (lg : ℍ[ℝ] → V3) (S L : V3 → M33) (s : MSpline ℝ ℍ[ℝ]) (e : Evaluator ℝ) (der : ℤ) :
    Outcome (List DMat) :=
  if der < 0 then .throws
  else (s.qcache lg e).bind fun c =>
    if s.order - 1 = 0 then .ub else s.jacobianDLoop S L e c der.toNat s.order 0

/-- The loop of `evalJacobian`, Impl 399-422: `prev` is what the variables `riProduct` and `riQuaternionJacobian` hold. -/
noncomputable def jacobianLoop (S L : V3 → M33) (s : MSpline ℝ ℍ[ℝ]) (e : Evaluator ℝ) (c : QCache) :
    ℕ → ℕ → (ℍ[ℝ] → ℍ[ℝ]) × DMat → Outcome (List DMat)
  | 0, _, _ => .ok []
  | n + 1, j, prev =>
    (c.getVertex 0).bind fun v =>
    (if j = 0 then (riProduct c 1 s.order).map fun q => mapCols (quatOPlus (qplus v q)) (vMat 1) else .ok 0).bind fun b =>
    let b' := if j ≠ 0 then b + mapCols prev.1 prev.2 else b
    if j ≠ s.order - 1 then
      (s.riDJacobian S L e c 0 (j + 1)).bind fun M =>
      (if j = 0 then .ok v else (riProduct c 1 (j + 1)).map fun q => qplus v q).bind fun a =>
      (if j + 2 ≠ s.order then (riProduct c (j + 2) s.order).map fun q => fun p => quatPlus a (quatOPlus q p)
        else .ok (quatPlus a)).bind fun A =>
      (s.jacobianLoop S L e c n (j + 1) (A, M)).map fun bs => (b' - mapCols A M) :: bs
    else (s.jacobianLoop S L e c n (j + 1) prev).map fun bs => b' :: bs

/-- `evalJacobian(jacobian)`, Impl 386-423. -/
noncomputable def evalJacobianValue (lg : ℍ[ℝ] → V3) (S L : V3 → M33) (s : MSpline ℝ ℍ[ℝ]) (e : Evaluator ℝ) : Outcome (List DMat) :=
  (s.qcache lg e).bind fun c => s.jacobianLoop S L e c s.order 0 (id, 0)

/-- `evalJacobian(derivativeOrder, jacobian)`, Impl 345-359, on an evaluator for time `t`: one block for each relevant control
vertex. -/
noncomputable def quatEvalJacobian (lg : ℍ[ℝ] → V3) (S L : V3 → M33) (s : MSpline ℝ ℍ[ℝ]) (t : ℝ) (der : ℤ) : Outcome (List DMat) :=
  (s.evaluatorAt t).bind fun e => if der = 0 then s.evalJacobianValue lg S L e else s.evalJacobianDRecursive lg S L e der

/-- The rows of a block that belong to the vector part, as a matrix. -/
def epsRows (M : DMat) : M33 := fun r k => qeps (M k) r

/-- The row of a block that belongs to the scalar part. -/
def etaRow (M : DMat) : V3 := fun k => qeta (M k)

/-- One block of the matrix of Impl 448-452; `q` and `dq` are the blocks of the Jacobians of the value `v` and the derivative `d`. -/
def angularBlock (v d : ℍ[ℝ]) (q dq : DMat) : M33 :=
  (2 : ℝ) • (Matrix.vecMulVec (qeps d) (etaRow q) + qeta v • epsRows dq - Matrix.vecMulVec (qeps v) (etaRow dq) - qeta d • epsRows q
    - crossMat (qeps v) * epsRows dq + crossMat (qeps d) * epsRows q)

/-- `evalAngularDerivativeJacobian<IDerivativeOrder>`, Impl 425-453. -/
noncomputable def evalAngularJacobian (lg : ℍ[ℝ] → V3) (S L : V3 → M33) (s : MSpline ℝ ℍ[ℝ]) (t : ℝ) (der : ℕ) : Outcome (List M33) :=
  (s.quatEvalD lg t der).bind fun d => (s.quatEvalD lg t 0).bind fun v =>
  (s.quatEvalJacobian lg S L t der).bind fun dq => (s.quatEvalJacobian lg S L t 0).bind fun q =>
    .ok (List.zipWith (angularBlock v d) q dq)

/-- `Evaluator::evalJacobian` of a Euclidean spline, Eucl 112-134: the factor of the identity matrix in each block.  `maxDer` is the
template argument `IMaximalDerivativeOrder`, if it is not dynamic. -/
def euclideanEvalJacobian {K : Type*} [Field K] [LinearOrder K] {P : Type*} (s : MSpline K P) (maxDer : Option ℕ) (t : K) (der : ℤ) :
    Outcome (List K) :=
  (s.evaluatorAt t).bind fun e =>
    if der < 0 then .throws
    else if maxDer.any (fun m => decide ((m : ℤ) < der)) then .throws
    else (s.localBi e der.toNat).map fun w => (List.range s.order).map w

end MSpline
end Verif
