import Verif.Model.EvaluatorBuffers
import Verif.Props.ManifoldLife

/-!
# Model: an evaluator that outlives changes of its spline

An evaluator (DiffManifoldBSplineImpl.hpp 731-753, cited as Impl) holds a reference to its spline, iterators into the segment map and
weights computed by its constructor.  Expression nodes keep evaluators while the optimiser changes the control vertices and while segments
are appended (OPTBSpline.hpp 189-204, OPTBSplineImpl.hpp 71-87).  Here queries on one evaluator alternate with changes of the spline.

Simplification: iterators are keys (`Model/ManifoldSpline`): elements of a `std::map` do not move.
-/

namespace Verif.MSpline

variable {K : Type} [Field K] [LinearOrder K] {P V : Type}

/-- Writing control vertices through iterators or design variables: `SegmentData::setControlVertex`, DiffManifoldBSpline.hpp 72,
`updateImplementation`, `revertUpdateImplementation`, `setParametersImplementation`, OPTBSpline.hpp 77-98.  The vertex at knot `x` is
replaced by `f x` of it. -/
def writeVertices (f : K → P → P) (s : MSpline K P) : MSpline K P :=
  { s with segs := s.segs.map fun g => { g with vertex := f g.knot g.vertex } }

/-- What can happen to a spline while an evaluator lives. -/
inductive Change (K P : Type)
  | call (c : Call K P)
  | write (f : K → P → P)

/-- Run a change; exceptions are caught. -/
def Change.run (M : Mfd K P V) : Change K P → MSpline K P → MSpline K P
  | .call c, s => (c.run M s).2
  | .write f, s => s.writeVertices f

/-- The changes that append segments. -/
def Change.isAppend : Change K P → Prop
  | .call (.append _ _) => True
  | _ => False

/-- A query on the evaluator or a change of the spline. -/
inductive Event (K P α : Type)
  | query (q : α)
  | change (c : Change K P)

/-- The answers of one evaluator with its buffers in the course of a program.  `ask` runs a query on the spline as it is then. -/
def session {α β : Type} (M : Mfd K P V) (ask : MSpline K P → α → BufM K β) : List (Event K P α) → MSpline K P → Buffers K → List (Outcome β)
  | [], _, _ => []
  | .query q :: es, s, b => (ask s q b).1 :: session M ask es s (ask s q b).2
  | .change c :: es, s, b => session M ask es (c.run M s) b

end Verif.MSpline
