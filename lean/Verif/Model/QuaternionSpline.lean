import Verif.Model.LieGroup
import Mathlib.Analysis.Quaternion
import Mathlib.Analysis.SpecialFunctions.Trigonometric.Basic

/-!
# Model of the unit quaternion manifold and of the unit quaternion spline

Source: `/repo/bsplines/include/bsplines/manifolds/implementation/UnitQuaternionManifoldImpl.hpp` (cited as `Mfd`) and
`/repo/bsplines/include/bsplines/implementation/UnitQuaternionBSplineImpl.hpp` (cited as `Impl`).

A point `[x y z w]` is the Mathlib quaternion with real part `w` and imaginary parts `x y z`; its Euclidean norm is the quaternion
norm.  The quaternion functions of the external package `sm_kinematics` are assumed to be exactly: `qplus` the product with vector
part `ηa εb + ηb εa − εa × εb`, `quatInv` the conjugate, `quatIdentity` the one, `quatV` half the embedding of vectors,
`axisAngle2quat a` the quaternion `(a sin(|a|/2)/|a|, cos(|a|/2))`.  Nothing is assumed about the logarithm `quat2AxisAngle`: it is the
parameter `lg`.

The model is that of a build without debug assertions; `factorial` is exact (no overflow, which needs derivative orders over 12).
-/

namespace Verif

open Quaternion Finset

/-- `tangent_vector_t`. -/
abbrev V3 := Fin 3 → ℝ

/-- `sm::kinematics::qeps`: the vector part. -/
def qeps (q : ℍ[ℝ]) : V3 := ![q.imI, q.imJ, q.imK]

/-- `sm::kinematics::qeta`: the scalar part. -/
def qeta (q : ℍ[ℝ]) : ℝ := q.re

/-- Eigen's `cross`. -/
def cross3 (a b : V3) : V3 := ![a 1 * b 2 - a 2 * b 1, a 2 * b 0 - a 0 * b 2, a 0 * b 1 - a 1 * b 0]

/-- `sm::kinematics::qplus`. -/
def qplus (a b : ℍ[ℝ]) : ℍ[ℝ] where
  re := a.re * b.re - a.imI * b.imI - a.imJ * b.imJ - a.imK * b.imK
  imI := a.re * b.imI + b.re * a.imI - (a.imJ * b.imK - a.imK * b.imJ)
  imJ := a.re * b.imJ + b.re * a.imJ - (a.imK * b.imI - a.imI * b.imK)
  imK := a.re * b.imK + b.re * a.imK - (a.imI * b.imJ - a.imJ * b.imI)

/-- `sm::kinematics::quatInv`. -/
def quatInv (q : ℍ[ℝ]) : ℍ[ℝ] := ⟨q.re, -q.imI, -q.imJ, -q.imK⟩

/-- `V() * vec`, Mfd 61-64 (`quatV`). -/
noncomputable def quatV (v : V3) : ℍ[ℝ] := ⟨0, v 0 / 2, v 1 / 2, v 2 / 2⟩

/-- The Euclidean norm of a vector. -/
noncomputable def norm3 (v : V3) : ℝ := Real.sqrt (v 0 ^ 2 + v 1 ^ 2 + v 2 ^ 2)

/-- `sm::kinematics::axisAngle2quat`. -/
noncomputable def axisAngle2quat (v : V3) : ℍ[ℝ] :=
  let na := Real.sin (norm3 v / 2) / norm3 v
  ⟨Real.cos (norm3 v / 2), v 0 * na, v 1 * na, v 2 * na⟩

/-- The unit quaternion manifold, Mfd 20-59 and 88-99. -/
noncomputable def quatGroup (lg : ℍ[ℝ] → V3) : LieGrp ℍ[ℝ] V3 where
  identity := 1
  mult := qplus
  invert := quatInv
  expAtId := axisAngle2quat
  logAtId := lg
  isIn q := decide (|‖q‖ - 1| < 1 / 10 ^ 9)
  project q := (‖q‖)⁻¹ • q

namespace MSpline

/-- `CalculationCache`, Impl 32-73: the logarithms, the points `r_i`, and the control vertices. -/
structure QCache where
  phi : List V3
  ri : List ℍ[ℝ]
  verts : List ℍ[ℝ]

/-- The loop of the constructor of `CalculationCache`, Impl 64-71; `k + 1` is the index of the weight. -/
noncomputable def qcacheLoop (lg : ℍ[ℝ] → V3) (w : ℕ → ℝ) : ℕ → ℍ[ℝ] → List ℍ[ℝ] → List (V3 × ℍ[ℝ])
  | _, _, [] => []
  | k, last, c :: cs =>
    let phi := (quatGroup lg).log last c
    (phi, (quatGroup lg).expAtId (w (k + 1) • phi)) :: qcacheLoop lg w (k + 1) c cs

/-- The constructor of `CalculationCache`, Impl 58-72. -/
noncomputable def qcache (lg : ℍ[ℝ] → V3) (s : MSpline ℝ ℍ[ℝ]) (e : Evaluator ℝ) : Outcome QCache :=
  (s.readVertices s.order e.firstIt).bind fun vs => (s.localCumulativeBi e 0).bind fun w =>
    match vs with
    | [] => .ub
    | c :: cs => let l := qcacheLoop lg w 0 c cs
      .ok ⟨l.map Prod.fst, l.map Prod.snd, vs⟩

/-- `evalRiD`, Impl 81-119, for `1 ≤ i`. -/
noncomputable def evalRiD (s : MSpline ℝ ℍ[ℝ]) (e : Evaluator ℝ) (c : QCache) (der i : ℕ) : Outcome ℍ[ℝ] :=
  match der with
  | 0 => match c.ri[i - 1]? with
    | none => .ub
    | some r => .ok r
  | 1 => match c.phi[i - 1]?, c.ri[i - 1]? with
    | some phi, some r => (s.localCumulativeBi e 1).bind fun w1 => .ok (qplus (quatV (w1 i • phi)) r)
    | _, _ => .ub
  | 2 => match c.phi[i - 1]?, c.ri[i - 1]? with
    | some phi, some r => (s.localCumulativeBi e 1).bind fun w1 => (s.localCumulativeBi e 2).bind fun w2 =>
      let phiQuad := quatV phi
      let tmp2 := (w1 i * w1 i) • phiQuad + (w2 i : ℍ[ℝ])
      .ok (qplus phiQuad (qplus r tmp2))
    | _, _ => .ub
  | 3 => match c.phi[i - 1]?, c.ri[i - 1]? with
    | some phi, some r => (s.localCumulativeBi e 1).bind fun w1 => (s.localCumulativeBi e 2).bind fun w2 =>
      (s.localCumulativeBi e 3).bind fun w3 =>
      let phiQuad := quatV phi
      let tmp2 := (w1 i * w1 i) • phiQuad + (w2 i : ℍ[ℝ])
      let tmp3 := (2 * w1 i * w2 i) • phiQuad + (w3 i : ℍ[ℝ])
      .ok (qplus phiQuad (qplus r (qplus (w1 i • phiQuad) tmp2 + tmp3)))
    | _, _ => .ub
  | _ => .throws

/-- `evalDRecursiveProductRest`, Impl 179-192, with `rem = getNumVectors() − i`; the divisions are integer divisions. -/
noncomputable def productRest (s : MSpline ℝ ℍ[ℝ]) (e : Evaluator ℝ) (c : QCache) : ℕ → ℕ → ℕ → Outcome ℍ[ℝ]
  | 0, der, factor => (s.evalRiD e c der (s.order - 1)).map fun q => ((factor / der.factorial : ℕ) : ℝ) • q
  | (rem + 1), der, factor =>
    (s.evalRiD e c 0 (s.order - 1 - (rem + 1))).bind fun r =>
    (s.productRest e c rem der factor).bind fun p =>
    (List.range der).foldl (fun acc d => acc.bind fun a =>
      (s.evalRiD e c (d + 1) (s.order - 1 - (rem + 1))).bind fun r' =>
      (s.productRest e c rem (der - (d + 1)) (factor / (d + 1).factorial)).bind fun p' => .ok (a + qplus r' p'))
      (.ok (qplus r p))

/-- `evalDRecursive`, Impl 324-331.  For order one there is no `r_1`: the recursion starts past its end condition and reads outside
the arrays. -/
noncomputable def evalDRecursive (lg : ℍ[ℝ] → V3) (s : MSpline ℝ ℍ[ℝ]) (e : Evaluator ℝ) (der : ℤ) : Outcome ℍ[ℝ] :=
  (s.qcache lg e).bind fun c =>
    if s.order - 1 = 0 then .ub
    else if der < 0 then .throws
    else (s.productRest e c (s.order - 1 - 1) der.toNat der.toNat.factorial).bind fun p =>
      match c.verts with
      | [] => .ub
      | v :: _ => .ok (qplus v p)

/-- The loop of `evalD1Special`, Impl 171-175: `n` steps are left, `i` is the loop index. -/
noncomputable def d1Loop (s : MSpline ℝ ℍ[ℝ]) (e : Evaluator ℝ) (c : QCache) : ℕ → ℕ → ℍ[ℝ] → ℍ[ℝ] → Outcome (ℍ[ℝ] × ℍ[ℝ])
  | 0, _, A, sum => .ok (A, sum)
  | (n + 1), i, A, sum =>
    (s.evalRiD e c 1 i).bind fun r1 => (s.evalRiD e c 0 i).bind fun r0 =>
      s.d1Loop e c n (i + 1) (qplus A r0) (sum + qplus (qplus A r1) (quatInv (qplus A r0)))

/-- `evalD1Special`, Impl 145-177. -/
noncomputable def evalD1Special (lg : ℍ[ℝ] → V3) (s : MSpline ℝ ℍ[ℝ]) (e : Evaluator ℝ) : Outcome ℍ[ℝ] :=
  (s.qcache lg e).bind fun c => (s.d1Loop e c (s.order - 1) 1 1 0).bind fun r =>
    match c.verts with
    | [] => .ub
    | v :: _ => .ok (qplus v (qplus r.2 r.1))

/-- `eval` and `evalD`, Impl 127-143, on an evaluator for time `t`. -/
noncomputable def quatEvalD (lg : ℍ[ℝ] → V3) (s : MSpline ℝ ℍ[ℝ]) (t : ℝ) (der : ℤ) : Outcome ℍ[ℝ] :=
  if der = 0 then s.evalGeneric (quatGroup lg).toMfd t
  else (s.evaluatorAt t).bind fun e => if der = 1 then s.evalD1Special lg e else s.evalDRecursive lg e der

/-- The vector `tmp` of `evalAngularDerivative`, Impl 305-309: `d` a derivative, `v` the value. -/
noncomputable def angularTmp (v d : ℍ[ℝ]) : V3 := fun i => qeta v * qeps d i - qeta d * qeps v i - cross3 (qeps v) (qeps d) i

/-- `evalAngularDerivative<IDerivativeOrder>`, Impl 299-322. -/
noncomputable def evalAngularDerivative (lg : ℍ[ℝ] → V3) (s : MSpline ℝ ℍ[ℝ]) (t : ℝ) (der : ℕ) : Outcome V3 :=
  (s.quatEvalD lg t der).bind fun d => (s.quatEvalD lg t 0).bind fun v =>
    if der = 3 then (s.quatEvalD lg t 1).bind fun d1 => (s.quatEvalD lg t 2).bind fun d2 =>
      .ok fun i => 2 * (angularTmp v d i + qeta d1 * qeps d2 i - qeta d2 * qeps d1 i - cross3 (qeps d1) (qeps d2) i)
    else .ok fun i => 2 * angularTmp v d i

/-- `evalAngularVelocity`, Impl 333-337. -/
noncomputable def evalAngularVelocity (lg : ℍ[ℝ] → V3) (s : MSpline ℝ ℍ[ℝ]) (t : ℝ) : Outcome V3 := s.evalAngularDerivative lg t 1

/-- `evalAngularAcceleration`, Impl 339-343. -/
noncomputable def evalAngularAcceleration (lg : ℍ[ℝ] → V3) (s : MSpline ℝ ℍ[ℝ]) (t : ℝ) : Outcome V3 := s.evalAngularDerivative lg t 2

end MSpline
end Verif
