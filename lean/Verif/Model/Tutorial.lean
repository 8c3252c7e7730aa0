import Verif.Model.OptExpressions
import Verif.Model.EuclideanSpline
import Verif.Model.ManifoldConstant

/-!
# Model: the tutorial program

Source: `/repo/aslam_backend_bsplines_tutorial/src/exampleBST.cpp` (cited as `main`), `ErrorTermPriorBST.cpp` (cited as `Prior`) and
`ErrorTermMotionBST.cpp` (cited as `Motion`) in the same directory.

Modelled is everything up to the call of the optimiser, `main` 21-131, and the error terms.  External classes: a
`ScalarExpression` made with `-` and `/` has the value and, by the sum and quotient rules, the Jacobians of the expression written;
`toErrorTerm(e, invR)` and `evaluateChiSquaredError` have the cost `e * invR * e`.  The random numbers are parameters.
-/

namespace Verif
namespace Tutorial

variable {R : Type*} [Field R] [LinearOrder R] [FloorRing R]

/-- The values `sm::random::normal()` returns for the odometry, the measurements and the wall, `main` 53, 72, 97. -/
structure Noise (R : Type*) where
  odometry : ℕ → R
  measurement : ℕ → R
  wall : R

/-- `true_u_k[k]`, `main` 43-47. -/
def trueU (_ : ℕ) : R := 1

/-- `u_k[k]`, `main` 50-54. -/
def odometry (ν : Noise R) (k : ℕ) : R := trueU k + 1 / 10 * ν.odometry k

/-- `true_x_k[k]`, `main` 60-65. -/
def trueX : ℕ → R
  | 0 => 10
  | k + 1 => trueX k + trueU (k + 1)

/-- `x_k[k]`, `main` 59-65. -/
def initialX (ν : Noise R) : ℕ → R
  | 0 => 10
  | k + 1 => initialX ν k + odometry ν (k + 1)

/-- `y_k[k]`, `main` 69-73. -/
def measured (ν : Noise R) (k : ℕ) : R := 5 / trueX k + 1 / 100 * ν.measurement k

/-- The design variables: a segment of the spline, named by its knot, and the wall. -/
inductive Var (R : Type*)
  | seg (k : R)
  | wall
  deriving DecidableEq

/-- The error terms with their inverse variances. -/
inductive Term (R : Type*)
  | prior (hat invR : R)
  | motion (k : ℕ) (u invR : R)
  | observation (k : ℕ) (y invR : R)

/-- The problem handed to the optimiser. -/
structure Problem (R : Type*) where
  spline : MSpline R (Fin 1 → R)
  wall : R
  dvs : List (Var R)
  terms : List (Term R)

/-- The terms in the order they are added, `main` 107-129. -/
def terms (ν : Noise R) (K : ℕ) : List (Term R) :=
  .prior (trueX 0) (1 / (1 / 100 * (1 / 100))) ::
    (List.range K).flatMap fun k =>
      [.motion k (odometry ν k) (1 / (1 / 10 * (1 / 10))), .observation k (measured ν k) (1 / (1 / 100 * (1 / 100)))]

/-- The spline object, `main` 78-87: constructed, then `initConstantUniformSpline(0, K, K, initPoint)` (DiffManifoldBSplineImpl 252-257),
whose last step is the overriding `init` of `OPTBSpline`. -/
def initialised (ν : Noise R) (K : ℤ) : Outcome Unit × OptWorld R (Fin 1 → R) :=
  let w := (OptWorld.create 0 4 OptWorld.empty).2
  match IntervalGen.create 4 (0 : R) (K : R) K with
  | .ok g => w.call (euclidean R (Fin 1 → R)) 0 (.initConstant (g.knots (fieldPolicy R)) fun _ => initialX ν 0)
  | .throws => (.throws, w)
  | .ub => (.ub, w)

/-- `main` 30-131.  A vector of negative size is `std::length_error` (43), access to the first element of an empty vector is undefined
(59).  The wall starts at `true_w` (101); the noisy value of line 97 is only printed. -/
def build (ν : Noise R) (K : ℤ) : Outcome (Problem R) :=
  if K < 0 then .throws else if K = 0 then .ub else
  match initialised ν K with
  | (.ok (), w) => match w.base.view 0 with
    | some s => .ok ⟨s, 5, (w.dvs 0).map (fun x => Var.seg x.2) ++ [.wall], terms ν K.toNat⟩
    | none => .ub
  | (.throws, _) => .throws
  | (.ub, _) => .ub

/-- The time expression of a constant time: it has no design variables and its value is not used. -/
def noTime : TimeNode R := ⟨0, []⟩

/-- Value of `getExpressionFactoryAt<m>(t).getValueExpression(d)`. -/
def value (s : MSpline R (Fin 1 → R)) (m : ℕ) (t : R) (d : ℕ) : Outcome (Fin 1 → R) :=
  (nodeValue s noTime (.constTime t) fun c => s.euclideanEvalD (some m) c d).1

/-- The error: `Prior` 27-37, `Motion` 7 and 28-35, `main` 128. -/
def Term.error (s : MSpline R (Fin 1 → R)) (w : R) : Term R → Outcome R
  | .prior hat _ => (value s 0 0 0).map fun x => x 0 - hat
  | .motion k u _ => (value s 1 k 1).map fun v => u - v 0
  | .observation k y _ => (value s 1 k 0).map fun x => w / x 0 - y

/-- The inverse variance: `Prior` 8-11, `Motion` 10-13, `main` 128. -/
def Term.invR : Term R → R
  | .prior _ r => r
  | .motion _ _ r => r
  | .observation _ _ r => r

/-- The cost. -/
def Term.cost (s : MSpline R (Fin 1 → R)) (w : R) (e : Term R) : Outcome R := (e.error s w).map fun x => x * (e.invR * x)

/-- A variable of a spline expression at a constant time. -/
def ofExpr : ExprVar R → Option (Var R)
  | .seg k => some (.seg k)
  | .time _ => none

/-- The Jacobian of a value expression multiplied with a number. -/
def splineJacobians (s : MSpline R (Fin 1 → R)) (m : ℕ) (t : R) (d : ℕ) (c : R) : Outcome (List (Var R × List R)) :=
  (euclideanValueJacobians s (some m) noTime (.constTime t) d fun v : Fin 1 → R => c * v 0).1.map fun J =>
    J.filterMap fun b => (ofExpr b.1).map fun v => (v, b.2)

/-- The Jacobians: `Prior` 41-44, `Motion` 39-42, `main` 128. -/
def Term.jacobians (s : MSpline R (Fin 1 → R)) (w : R) : Term R → Outcome (List (Var R × List R))
  | .prior _ _ => splineJacobians s 0 0 0 1
  | .motion k _ _ => splineJacobians s 1 k 1 (-1)
  | .observation k _ _ => (value s 1 k 0).bind fun x =>
      (splineJacobians s 1 k 0 (-(w / (x 0 * x 0)))).map fun J => (Var.wall, [1 / x 0]) :: J

/-- The design variables a term announces: `Prior` 13-16, `Motion` 15-18, `main` 128. -/
def Term.designVariables (s : MSpline R (Fin 1 → R)) : Term R → Outcome (List (Var R))
  | .prior _ _ => ((FactoryData.constTime (0 : R)).designVariables s noTime).map fun l => l.filterMap ofExpr
  | .motion k _ _ => ((FactoryData.constTime (k : R)).designVariables s noTime).map fun l => l.filterMap ofExpr
  | .observation k _ _ => ((FactoryData.constTime (k : R)).designVariables s noTime).map fun l => Var.wall :: l.filterMap ofExpr

end Tutorial
end Verif
