import Verif.Model.MotionError
import Verif.Model.SplineVariables
import Mathlib.Analysis.Real.Sqrt

/-!
# Model of the factory of motion error terms

Source: `/repo/bsplines/src/BSpline.cpp` 1502-1507 and
`/repo/aslam_splines/include/aslam/backend/implementation/BSplineMotionErrorFactory.hpp`.

`Eigen::jacobiSvd` is a parameter: a function from the size and the matrix to the left singular vectors and the singular values.
`MarginalizationPriorErrorTerm` (external package) is modelled by the three arguments of its constructor.
-/

namespace Verif

open Finset BSpline

/-- `jacobiSvd(Eigen::ComputeFullU)`: `matrixU()` and `singularValues()` of the leading `n × n` block. -/
abbrev SvdSolver := ℕ → Mat ℝ → Mat ℝ × (ℕ → ℝ)

/-- `BSpline::segmentIntegral`, BSpline.cpp 1502-1507: `(U * diag(sqrt(σ)))ᵀ`. -/
noncomputable def BSpline.segmentIntegral {D : ℕ} (svd : SvdSolver) (s : BSpline ℝ D) (seg : ℤ) (W : Mat ℝ) (der : ℕ) : Outcome (Mat ℝ) :=
  (s.segmentQuadraticIntegral W seg der).map fun Q =>
    let x := svd (s.order * D) Q
    fun r c => x.1 c r * √(x.2 r)

/-- The arguments of the constructor of `MarginalizationPriorErrorTerm`: design variables, `d` and `R`. -/
structure PriorTerm (D : ℕ) where
  dvs : List (MappedVar ℝ D)
  d : ℕ → ℝ
  R : Mat ℝ

/-- The loop `dvs.push_back(splineDv.designVariable(idxs[i]))`, BSplineMotionErrorFactory.hpp 18-20. -/
def collectVars {K : Type*} {D : ℕ} (v : SplineVars K D) : List ℕ → Outcome (List (MappedVar K D))
  | [] => .ok []
  | i :: is => (v.designVariable i).bind fun x => (collectVars v is).bind fun xs => .ok (x :: xs)

/-- One pass of the loop, BSplineMotionErrorFactory.hpp 12-22. -/
noncomputable def motionTerm {D : ℕ} (svd : SvdSolver) (v : SplineVars ℝ D) (W : Mat ℝ) (o seg : ℕ) : Outcome (PriorTerm D) :=
  (v.spline.segmentIntegral svd seg W (MotionError.toInt o).toNat).bind fun R =>
  (v.spline.segmentCoefficientVector seg).bind fun c =>
  (v.spline.segmentVvCoefficientVectorIndices seg).bind fun idxs =>
  (collectVars v idxs).bind fun dvs =>
    .ok { dvs := dvs, d := fun r => ∑ q ∈ range (v.spline.order * D), R r q * c.getD q 0, R := R }

/-- The loop over the first `n` segments. -/
noncomputable def motionTerms {D : ℕ} (svd : SvdSolver) (v : SplineVars ℝ D) (W : Mat ℝ) (o : ℕ) : ℕ → Outcome (List (PriorTerm D))
  | 0 => .ok []
  | n + 1 => (motionTerms svd v W o n).bind fun ts => (motionTerm svd v W o n).bind fun t => .ok (ts ++ [t])

/-- `addMotionErrorTerms`, BSplineMotionErrorFactory.hpp 6-26: the error terms added to the problem, in order.  (`unsigned int` to `int` as in
`MotionError`; the derivative order is not reduced.) -/
noncomputable def addMotionErrorTerms {D : ℕ} (svd : SvdSolver) (v : SplineVars ℝ D) (W : Mat ℝ) (o : ℕ) : Outcome (List (PriorTerm D)) :=
  motionTerms svd v W o v.spline.numValidTimeSegments

end Verif
