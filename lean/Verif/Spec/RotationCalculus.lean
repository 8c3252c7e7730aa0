import Verif.Model.ManifoldJacobian
import Mathlib.Analysis.Calculus.Deriv.Pi

/-!
# What `expDiffMat` and `logDiffMat` of `sm_kinematics` have to be

`S` is the derivative of the exponential and `L` the derivative of the logarithm, both written as rotation rates on the left of the
library's product.
-/

namespace Verif

open Quaternion

/-- Along every differentiable curve of vectors, `S` turns the velocity into the rotation rate of the exponential. -/
def ExpDiff (S : V3 → M33) : Prop :=
  ∀ (φ : ℝ → V3) (φ' : V3) (x : ℝ), HasDerivAt φ φ' x →
    HasDerivAt (fun y => axisAngle2quat (φ y)) (qplus (quatV ((S (φ x)).mulVec φ')) (axisAngle2quat (φ x))) x

/-- Along every differentiable curve of unit quaternions through `q`, `L` turns the rotation rate into the velocity of the
logarithm. -/
def LogDiffAt (lg : ℍ[ℝ] → V3) (L : V3 → M33) (q : ℍ[ℝ]) : Prop :=
  ∀ (p : ℝ → ℍ[ℝ]) (w : V3) (x : ℝ), p x = q → (∀ y, ‖p y‖ = 1) → HasDerivAt p (qplus (quatV w) q) x →
    HasDerivAt (fun y => lg (p y)) ((L (lg q)).mulVec w) x

/-- A `dmatrix_t` times a vector. -/
noncomputable def DMat.app (M : DMat) (u : V3) : ℍ[ℝ] := ∑ k, u k • M k

/-- The spline with the control vertex `p` number `j` replaced by `f j p`. -/
def MSpline.moved {K P : Type*} (s : MSpline K P) (f : ℕ → P → P) : MSpline K P :=
  ⟨s.order, s.segs.mapIdx fun j g => ⟨g.knot, f j g.vertex, g.basis⟩, s.state, s.iters⟩

end Verif
