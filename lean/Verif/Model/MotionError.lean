import Verif.Model.BSplineFit

/-!
# Model of the motion error term

Source: `/repo/aslam_splines/include/aslam/backend/implementation/BSplineMotionError.hpp`.

The error term keeps a sparse block matrix `Q` computed from the spline at construction and a pointer to the spline; its value and its
Hessian use the coefficients at the time of the call.  Simplifications: the spline is not given more or fewer coefficients after the error
term is constructed (the pointers to the design variables would dangle; a different number is undefined behaviour here);
`sparse_block_matrix` (external package) is a partial map from block positions to blocks, and `multiply` adds the product
of the stored blocks with the vector.
-/

namespace Verif

open Finset BSpline

/-- `BSplineMotionError`: the matrix `_Q` and the number of coefficients (design variables). -/
structure MotionError (K : Type*) where
  Q : SparseBlocks K
  blocks : ℕ

/-- A design variable as the solver sees it: whether it is active, and the number of its block. -/
structure SolverVar where
  active : Bool
  blockIndex : ℕ

namespace MotionError

variable {K : Type*} [Field K] [LinearOrder K] {D : ℕ}

/-- `(int)errorTermOrder` for a 32 bit `unsigned int`. -/
def toInt (n : ℕ) : ℤ := if n < 2 ^ 31 then n else (n : ℤ) - 2 ^ 32

/-- The derivative order after the check, BSplineMotionError.hpp 31-36.  The assignment goes through `unsigned int`, and the call
converts to `int` again. -/
def effectiveOrder (splineOrder errorTermOrder : ℕ) : ℤ :=
  if (splineOrder : ℤ) ≤ toInt errorTermOrder ∧ 2 ≤ splineOrder then (splineOrder : ℤ) - 1 else toInt errorTermOrder

/-- Constructors and `initialize`, BSplineMotionError.hpp 8-58 (a negative derivative order acts like zero, see
`segmentQuadraticIntegral`). -/
def create (s : BSpline K D) (W : Mat K) (errorTermOrder : ℕ) : Outcome (MotionError K) :=
  (s.curveQuadraticIntegralSparse W (effectiveOrder s.order errorTermOrder).toNat).map fun Q =>
    { Q := Q, blocks := s.coeffs.length }

/-- The default constructor argument: accelerations, line 12. -/
def createDefault (s : BSpline K D) (W : Mat K) : Outcome (MotionError K) := create s W 2

/-- `Q * c` for the stacked coefficients. -/
def times (D : ℕ) (m : MotionError K) (c : ℕ → K) : ℕ → K := fun p =>
  ∑ q ∈ range (m.blocks * D), sparseDense D m.Q p q * c q

/-- `evaluateErrorImplementation`, BSplineMotionError.hpp 60-78. -/
def evaluate (m : MotionError K) (s : BSpline K D) : Outcome K :=
  if s.coeffs.length = m.blocks then
    let c := fun p => s.coefficientVector.getD p 0
    .ok (∑ p ∈ range (m.blocks * D), c p * m.times D c p)
  else .ub

/-- `*Hblock += *Qblock` for the block at `(a, b)`, allocated (as zero) if missing. -/
def addAt (H : SparseBlocks K) (a b : ℕ) (B : Mat K) : SparseBlocks K := fun a' b' =>
  if a' = a ∧ b' = b then some (fun r c => ((H a b).getD (fun _ _ => 0)) r c + B r c) else H a' b'

/-- The inner loop over `j`, BSplineMotionError.hpp 134-151, for the first `n` design variables. -/
def hessianInner (m : MotionError K) (vars : ℕ → SolverVar) (i : ℕ) : ℕ → SparseBlocks K → SparseBlocks K
  | 0, H => H
  | n + 1, H =>
    let H' := hessianInner m vars i n H
    if (vars n).active then
      match m.Q i n with
      | none => H'
      | some B => addAt H' (vars n).blockIndex (vars i).blockIndex B
    else H'

/-- `colBaseOfBlock(b)`: the sum of the dimensions of the blocks before. -/
def colBase (dims : ℕ → ℕ) (b : ℕ) : ℕ := ∑ a ∈ range b, dims a

/-- The outer loop over `i`, BSplineMotionError.hpp 122-156, for the first `n` design variables; `b_u` is `Q * c`. -/
def hessianOuter (D : ℕ) (m : MotionError K) (vars : ℕ → SolverVar) (dims : ℕ → ℕ) (bu : ℕ → K) :
    ℕ → SparseBlocks K × (ℕ → K) → SparseBlocks K × (ℕ → K)
  | 0, x => x
  | n + 1, x =>
    let x' := hessianOuter D m vars dims bu n x
    if (vars n).active then
      let base := colBase dims (vars n).blockIndex
      (hessianInner m vars n (n + 1) x'.1,
        fun p => if base ≤ p ∧ p < base + D then x'.2 p - bu (n * D + (p - base)) else x'.2 p)
    else x'

/-- `buildHessianImplementation`, BSplineMotionError.hpp 92-166: `dims` are the dimensions of the blocks of the Hessian, those of the design
variables of the spline being `D`. -/
def buildHessian (m : MotionError K) (s : BSpline K D) (vars : ℕ → SolverVar) (dims : ℕ → ℕ) (H : SparseBlocks K) (rhs : ℕ → K) :
    Outcome (SparseBlocks K × (ℕ → K)) :=
  if s.coeffs.length = m.blocks then
    .ok (hessianOuter D m vars dims (m.times D (fun p => s.coefficientVector.getD p 0)) m.blocks (H, rhs))
  else .ub

/-- `rhs()`, BSplineMotionError.hpp 169-181. -/
def rhs (m : MotionError K) (s : BSpline K D) : Outcome (ℕ → K) :=
  if s.coeffs.length = m.blocks then .ok (m.times D (fun p => -s.coefficientVector.getD p 0)) else .ub

end MotionError
end Verif
