import Verif.Model.ManifoldSpline

/-!
# Model of the Lie group manifolds

Source: `/repo/bsplines/include/bsplines/manifolds/LieGroup.hpp` (cited as `LieGroup`) and
`/repo/bsplines/include/bsplines/manifolds/implementation/LieGroupImpl.hpp` (cited as `Impl`).

The template class is parametrised by what the concrete group supplies.
-/

namespace Verif

/-- What a concrete group supplies: `getIdentity`, `mult`, `invert`, `expAtId`, `logAtId`, `isInManifold`,
`projectIntoManifold`. -/
structure LieGrp (P V : Type*) where
  identity : P
  mult : P → P → P
  invert : P → P
  expAtId : V → P
  logAtId : P → V
  isIn : P → Bool
  project : P → P

namespace LieGrp
variable {K P V : Type*}

/-- `multIntoCO`, LieGroup 77, Impl 22-28. -/
def multCO (G : LieGrp P V) (a b : P) (opposite : Bool) : P := if opposite then G.mult b a else G.mult a b

/-- `canonicalMult(Into)`, LieGroup 79-80; the canonical connection is `LEFT`, LieGroup 68. -/
def canonicalMult (G : LieGrp P V) (m p : P) : P := G.multCO m p false

/-- `expInto`, Impl 30-34. -/
def exp (G : LieGrp P V) (p : P) (v : V) : P := G.canonicalMult p (G.expAtId v)

/-- `logInto`, Impl 88-92. -/
def log (G : LieGrp P V) (a b : P) : V := G.logAtId (G.canonicalMult (G.invert a) b)

/-- The group as the manifold of a spline; the default point is the identity (Impl 16-20), tangent vectors are scaled by
`scaleVectorInPlace` (DiffManifold.hpp 104). -/
def toMfd [SMul K V] (G : LieGrp P V) : Mfd K P V where
  isIn := G.isIn
  default := G.identity
  log := G.log
  exp := G.exp
  scale v c := c • v

/-- `DiffManifoldPointUpdateTraits::update`, LieGroup 30-34. -/
def update (G : LieGrp P V) (p : P) (v : V) : P := G.project (G.mult (G.expAtId v) p)

/-- `DiffManifoldPointUpdateTraits::minimalDifference`, LieGroup 36-39 (the size check is a matter of types here). -/
def minimalDifference (G : LieGrp P V) (xHat x : P) : V := G.logAtId (G.mult x (G.invert xHat))

end LieGrp
end Verif
