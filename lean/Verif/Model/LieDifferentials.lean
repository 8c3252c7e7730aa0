import Verif.Model.ManifoldJacobian
import Mathlib.Analysis.Normed.Operator.ContinuousLinearMap

/-!
# Model of the differentials of Lie group manifolds

Source: `/repo/bsplines/include/bsplines/manifolds/LieGroup.hpp` (cited as `LieGroup`),
`/repo/bsplines/include/bsplines/manifolds/implementation/LieGroupImpl.hpp` (`Impl`), `UnitQuaternionManifoldImpl.hpp` (`Mfd`) and
`EuclideanSpaceImpl.hpp` (`Eucl`) beside it.

A matrix is the linear map it stands for; the product of matrices is composition.  `quatExpJacobian` and `quatLogJacobian2` of
`sm_kinematics` are parameters.
-/

namespace Verif

open Quaternion

/-- What a concrete group supplies beside `LieGrp`: `dMultL`, `dexpAtId`, `dlogAtId`. -/
structure LieDiff (P V : Type*) [NormedAddCommGroup P] [NormedSpace ℝ P] [NormedAddCommGroup V] [NormedSpace ℝ V] where
  dMultL : P → Bool → P →L[ℝ] P
  dexpAtId : V → V →L[ℝ] P
  dlogAtId : P → P →L[ℝ] V

namespace LieDiff
variable {P V : Type*} [NormedAddCommGroup P] [NormedSpace ℝ P] [NormedAddCommGroup V] [NormedSpace ℝ V]

/-- `dCanonicalMult`, LieGroup 82; the canonical connection is `LEFT`, LieGroup 68. -/
def dCanonicalMult (d : LieDiff P V) (m : P) : P →L[ℝ] P := d.dMultL m false

/-- `dexp(Into)`, Impl 58-72. -/
def dexp (d : LieDiff P V) (p : P) (v : V) : V →L[ℝ] P := (d.dCanonicalMult p).comp (d.dexpAtId v)

/-- `dlog(Into)`, Impl 101-113. -/
def dlog (d : LieDiff P V) (G : LieGrp P V) (a b : P) : P →L[ℝ] V :=
  (d.dlogAtId (G.canonicalMult (G.invert a) b)).comp (d.dCanonicalMult (G.invert a))

/-- `DiffManifoldPointUpdateTraits::minimalDifferenceAndJacobian`, LieGroup 41-47. -/
def minimalDifferenceAndJacobian (d : LieDiff P V) (G : LieGrp P V) (xHat x : P) : V × (V →L[ℝ] V) :=
  let invertedXHat := G.invert xHat
  let quot := G.mult x invertedXHat
  (G.logAtId quot, (d.dlogAtId quot).comp ((d.dMultL quot true).comp (d.dexpAtId 0)))

end LieDiff

theorem qplus_mul (a b : ℍ[ℝ]) : qplus a b = b * a := by
  ext <;> simp [qplus] <;> ring

/-- `dMultL` of the unit quaternions, Mfd 27-31. -/
noncomputable def quatDMultL (m : ℍ[ℝ]) (opposite : Bool) : ℍ[ℝ] →L[ℝ] ℍ[ℝ] :=
  LinearMap.toContinuousLinearMap
    { toFun := if !opposite then quatPlus m else quatOPlus m
      map_add' := by
        intro a b
        cases opposite <;> simp [quatPlus, quatOPlus, qplus_mul, add_mul, mul_add]
      map_smul' := by
        intro c a
        cases opposite <;> simp [quatPlus, quatOPlus, qplus_mul] }

/-- The unit quaternions, Mfd 76-85; `E` is `quatExpJacobian`, `L` is `quatLogJacobian2`. -/
noncomputable def quatDiff (E : V3 → V3 →L[ℝ] ℍ[ℝ]) (L : ℍ[ℝ] → ℍ[ℝ] →L[ℝ] V3) : LieDiff ℍ[ℝ] V3 where
  dMultL := quatDMultL
  dexpAtId v := E v
  dlogAtId q := L q

/-- `Identity(rows, cols)`: ones where the row is the column. -/
def identityMat (rows cols : ℕ) : Matrix (Fin rows) (Fin cols) ℝ := fun i j => if (i : ℕ) = j then 1 else 0

/-- The Euclidean space: `dMultL`, Eucl 27-31, `dexpAtIdInto`, 64-67, `dlogAtIdInto`, 49-52.  Each result is an identity of the size
of the matrix given, which `dexpAtId` and `dlogAtId` make point size times dimension (Impl 50-56, 94-99). -/
noncomputable def euclideanDiff (D : ℕ) : LieDiff (Fin D → ℝ) (Fin D → ℝ) where
  dMultL _ _ := LinearMap.toContinuousLinearMap (Matrix.toLin' (identityMat D D))
  dexpAtId _ := LinearMap.toContinuousLinearMap (Matrix.toLin' (identityMat D D))
  dlogAtId _ := LinearMap.toContinuousLinearMap (Matrix.toLin' (identityMat D D))

/-- `dexpInto` of the Euclidean space, Eucl 69-72, into the matrix that `dexp` makes (Impl 66-72). -/
noncomputable def euclideanDexp (D : ℕ) (_p _v : Fin D → ℝ) : (Fin D → ℝ) →L[ℝ] (Fin D → ℝ) :=
  LinearMap.toContinuousLinearMap (Matrix.toLin' (identityMat D D))

/-- `dlogInto` of the Euclidean space, Eucl 44-47, into the matrix that `dlog` makes (Impl 108-113). -/
noncomputable def euclideanDlog (D : ℕ) (_a _b : Fin D → ℝ) : (Fin D → ℝ) →L[ℝ] (Fin D → ℝ) :=
  LinearMap.toContinuousLinearMap (Matrix.toLin' (identityMat D D))

/-- A matrix given at run time. -/
structure DynMat where
  rows : ℕ
  cols : ℕ
  entry : ℕ → ℕ → ℝ

/-- `minimalDifference` of a vertex from a matrix given, LieGroup 36-39, with the check of its size. -/
def minimalDifferenceChecked {P V : Type*} (G : LieGrp P V) (pointSize : ℕ) (asPoint : (ℕ → ℝ) → P) (xHat : DynMat) (x : P) : Outcome V :=
  if ¬(xHat.rows = pointSize ∧ xHat.cols = 1) then .throws
  else .ok (G.minimalDifference (asPoint fun i => xHat.entry i 0) x)

/-- `minimalDifferenceAndJacobian` of a vertex from a matrix given, LieGroup 41-47, with the check of its size. -/
def LieDiff.minimalDifferenceAndJacobianChecked {P V : Type*} [NormedAddCommGroup P] [NormedSpace ℝ P] [NormedAddCommGroup V] [NormedSpace ℝ V]
    (d : LieDiff P V) (G : LieGrp P V) (pointSize : ℕ) (asPoint : (ℕ → ℝ) → P) (xHat : DynMat) (x : P) :
    Outcome (V × (V →L[ℝ] V)) :=
  if ¬(xHat.rows = pointSize ∧ xHat.cols = 1) then .throws
  else .ok (d.minimalDifferenceAndJacobian G (asPoint fun i => xHat.entry i 0) x)

end Verif
