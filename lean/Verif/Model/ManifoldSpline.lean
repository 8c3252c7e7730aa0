import Verif.Model.BSpline
import Verif.Model.Knots
import Mathlib.Data.List.Basic
import Mathlib.Order.Interval.Finset.Nat

/-!
# Model of `bsplines::DiffManifoldBSpline` (container, life cycle, evaluator)

Source: `/repo/bsplines/include/bsplines/DiffManifoldBSpline.hpp` (declaration, lines cited as `.hpp`),
`/repo/bsplines/include/bsplines/implementation/DiffManifoldBSplineImpl.hpp` (lines cited as `Impl`),
`/repo/bsplines/include/bsplines/implementation/DiffManifoldBSplineTools.hpp`.

Simplifications, valid for the whole file:

* Times and durations are elements of the field `K` of the scalars.  (An integer clock embeds into it: the code only subtracts
  times exactly and divides two durations as `double`.)  No rounding.
* The `std::map` from time to segment data is the list of its entries in key order.  An iterator into it is the key of its
  element, `none` for `end()`; this is stable under insertion, like the C++ iterators.  Nothing is ever erased.
* A basis matrix that has been allocated but not written is `none`; reading it is undefined behaviour.
* The iterators `_firstRelevantSegment`, `_begin`, `_end` before initialisation are `none` (reading them is undefined behaviour).
* A call is a function from the state to an outcome and the state left behind, also if an exception is thrown.
* The point type `P` and the manifold operations are parameters.
-/

namespace Verif

open Finset

/-- `SegmentData`, .hpp 62-85, with its key in the map. -/
structure Seg (K P : Type*) where
  knot : K
  vertex : P
  basis : Option (Mat K)

/-- An iterator of the segment map: the key it points to, `none` for `end()`. -/
abbrev Iter (K : Type*) := Option K

/-- `internal::state::SplineState`. -/
inductive SplineState
  | constructing
  | evaluable
  deriving DecidableEq, Repr

/-- The three iterators of .hpp 427. -/
structure Iters (K : Type*) where
  first : Iter K
  begin_ : Iter K
  end_ : Iter K

/-- The data members, .hpp 423-427. -/
structure MSpline (K P : Type*) where
  order : ℕ
  segs : List (Seg K P)
  state : SplineState
  iters : Option (Iters K)

/-- What the spline uses of its manifold: `isInManifold`, `getDefaultPoint`, `logInto`, `expInto` and the scaling of tangent
vectors (`scaleVectorInPlace`). -/
structure Mfd (K P V : Type*) where
  isIn : P → Bool
  default : P
  log : P → P → V
  exp : P → V → P
  scale : V → K → V

/-! ### Iterators -/

section Iterators
variable {K : Type*} [DecidableEq K]

/-- Position of an iterator in the key sequence. -/
def itPos (ks : List K) : Iter K → ℕ
  | none => ks.length
  | some x => ks.idxOf x

/-- `++it`; undefined at `end()`. -/
def itInc (ks : List K) (it : Iter K) : Outcome (Iter K) :=
  if itPos ks it < ks.length then .ok ks[itPos ks it + 1]? else .ub

/-- `--it`; undefined at the first element. -/
def itDec (ks : List K) (it : Iter K) : Outcome (Iter K) :=
  if itPos ks it = 0 then .ub else .ok ks[itPos ks it - 1]?

/-- The forward loop of `moveIterator`, Tools 21-28. -/
def moveFwd (ks : List K) (limit : Iter K) : ℕ → Iter K → Outcome (Iter K)
  | 0, it => .ok it
  | (n + 1), it => if it = limit then .ok it else (itInc ks it).bind (moveFwd ks limit n)

/-- The backward loop of `moveIterator`, Tools 29-36. -/
def moveBwd (ks : List K) (limit : Iter K) : ℕ → Iter K → Outcome (Iter K)
  | 0, it => .ok it
  | (n + 1), it => if it = limit then .ok it else (itDec ks it).bind (moveBwd ks limit n)

/-- `moveIterator` / `getMovedIterator`, Tools 15-47 (the returned count is not used by the spline). -/
def moveIter (ks : List K) (it limit : Iter K) (steps : ℤ) : Outcome (Iter K) :=
  if steps = 0 then .ok it
  else if steps > 0 then moveFwd ks limit steps.toNat it
  else moveBwd ks limit (-steps).toNat it

end Iterators

namespace MSpline

variable {K : Type*} [Field K] [LinearOrder K] {P V : Type*}

/-- The keys of the segment map. -/
def keys (s : MSpline K P) : List K := s.segs.map (·.knot)

/-- `std::map::begin()`. -/
def absBegin (s : MSpline K P) : Iter K := s.keys[0]?

/-- `std::map::insert`: no effect if the key is present. -/
def mapInsert (x : Seg K P) : List (Seg K P) → List (Seg K P)
  | [] => [x]
  | y :: ys => if x.knot < y.knot then x :: y :: ys else if x.knot = y.knot then y :: ys else y :: mapInsert x ys

/-- The segment an iterator points to. -/
def segAt (s : MSpline K P) : Iter K → Outcome (Seg K P)
  | none => .ub
  | some x => match s.segs.find? (fun g => decide (g.knot = x)) with
    | some g => .ok g
    | none => .ub

/-- The constructor, .hpp 185. -/
def create (order : ℕ) : MSpline K P := ⟨order, [], .constructing, none⟩

/-- `addKnot`, Impl 76-79 (public, no state check). -/
def addKnot (M : Mfd K P V) (t : K) (s : MSpline K P) : MSpline K P :=
  { s with segs := mapInsert ⟨t, M.default, none⟩ s.segs }

/-- `addControlVertex`, Impl 81-85 (public, no state check). -/
def addControlVertex (M : Mfd K P V) (t : K) (p : P) (s : MSpline K P) : Outcome Unit × MSpline K P :=
  if M.isIn p then (.ok (), { s with segs := mapInsert ⟨t, p, none⟩ s.segs }) else (.throws, s)

/-- `getNumValidTimeSegments`, Impl 508-512. -/
def numValidTimeSegments (s : MSpline K P) : ℕ := s.segs.length + 1 - 2 * s.order

/-- `getNumControlVertices`, Impl 515-519. -/
def numControlVertices (s : MSpline K P) : Outcome ℕ :=
  match s.state with
  | .constructing => .throws
  | .evaluable => .ok (s.numValidTimeSegments + s.order - 1)

/-- `initIterators`, Impl 113-118. -/
def initIterators (s : MSpline K P) : Outcome (Iters K) :=
  (moveIter s.keys s.absBegin none ((s.order : ℤ) - 1)).bind fun b =>
  (moveIter s.keys none s.absBegin (-(s.order : ℤ))).bind fun e =>
    .ok ⟨s.absBegin, b, e⟩

/-- The first loop of `initializeBasisMatrices`, Impl 369-379: collects knots, dereferencing the iterator before it is compared
with `end`.  `c` counts up, `n` is the number of rounds left. -/
def collectKnots (ks : List K) (order : ℕ) (basisIt : Iter K) : ℕ → ℕ → Iter K → List K → Outcome (List K × Iter K)
  | _, 0, it, acc => .ok (acc, it)
  | c, (n + 1), it, acc =>
    match it with
    | none => .ub
    | some x =>
      if c + 1 = order ∧ basisIt ≠ it then .throws
      else (itInc ks it).bind fun it' => collectKnots ks order basisIt (c + 1) n it' (acc ++ [x])

/-- Write a basis matrix through an iterator. -/
def writeBasis (segs : List (Seg K P)) (x : K) (B : Mat K) : List (Seg K P) :=
  segs.map fun g => if g.knot = x then { g with basis := some B } else g

/-- `M`, Impl 392-444, for the deque `window` of `2 * order` knots (`i = order - 1`); the recursion and `d_0`, `d_1` (447-476)
are those of `BSpline`. -/
def localM (order : ℕ) (window : List K) : Mat K := basisM (fun j => window.getD j 0) (order - 1) order

/-- The second loop of `initializeBasisMatrices`, Impl 382-388; `rest` are the knots from `currentKnotIt` on. -/
def basisLoop (ks : List K) (order : ℕ) (endIt : Iter K) :
    List K → Iter K → List K → List (Seg K P) → Outcome (List (Seg K P))
  | [], _, _, segs => .ok segs
  | x :: rest, basisIt, window, segs =>
    if basisIt = endIt then .ok segs
    else match basisIt with
      | none => .ub
      | some b =>
        let window' := window ++ [x]
        let segs' := writeBasis segs b (localM order window')
        (itInc ks basisIt).bind fun basisIt' => basisLoop ks order endIt rest basisIt' (window'.drop 1) segs'

/-- `initializeBasisMatrices(currentKnotIt, currentBasisMatrixIt)`, Impl 360-389; `endIt` is the member `_end`. -/
def initBasis (s : MSpline K P) (endIt knotIt basisIt : Iter K) : Outcome (List (Seg K P)) :=
  (collectKnots s.keys s.order basisIt 0 (2 * s.order - 1) knotIt []).bind fun (window, it) =>
    basisLoop s.keys s.order endIt (s.keys.drop (itPos s.keys it)) basisIt window s.segs

/-- `init`, Impl 99-110. -/
def init (s : MSpline K P) : Outcome Unit × MSpline K P :=
  match s.state with
  | .evaluable => (.throws, s)
  | .constructing =>
    if s.numValidTimeSegments < 1 then (.throws, s)
    else match s.initIterators with
      | .throws => (.throws, s)
      | .ub => (.ub, s)
      | .ok its =>
        match s.initBasis its.end_ its.first its.begin_ with
        | .throws => (.throws, { s with iters := some its })
        | .ub => (.ub, s)
        | .ok segs => (.ok (), { s with segs := segs, iters := some its, state := .evaluable })

/-- Run `f` for each element until one call does not return normally. -/
def forEach {σ α : Type*} (f : α → σ → Outcome Unit × σ) : List α → σ → Outcome Unit × σ
  | [], s => (.ok (), s)
  | a :: as, s => match f a s with
    | (.ok (), s') => forEach f as s'
    | (o, s') => (o, s')

/-- Sequencing of calls. -/
def andThen {σ : Type*} (f g : σ → Outcome Unit × σ) (s : σ) : Outcome Unit × σ :=
  match f s with
  | (.ok (), s') => g s'
  | (o, s') => (o, s')

/-- `assertConstructing`, Impl 93-97. -/
def assertConstructing (s : MSpline K P) : Outcome Unit × MSpline K P :=
  match s.state with
  | .constructing => (.ok (), s)
  | .evaluable => (.throws, s)

/-- A call that cannot fail. -/
def total {σ : Type*} (f : σ → σ) (s : σ) : Outcome Unit × σ := (.ok (), f s)

/-- `addKnots`, Impl 121-129. -/
def addKnots (M : Mfd K P V) (ts : List K) (s : MSpline K P) : Outcome Unit × MSpline K P :=
  andThen assertConstructing (forEach (fun t => total (addKnot M t)) ts) s

/-- `addKnotsAndControlVertices`, Impl 131-140; `cs` are the columns. -/
def addKnotsAndControlVertices (M : Mfd K P V) (ts : List K) (cs : List P) (s : MSpline K P) : Outcome Unit × MSpline K P :=
  andThen assertConstructing (fun s =>
    if cs.length ≠ ts.length then (.throws, s)
    else forEach (fun tp : K × P => addControlVertex M tp.1 tp.2) (ts.zip cs) s) s

/-- `initWithKnotsAndControlVertices`, Impl 142-158. -/
def initWithKnotsAndControlVertices (M : Mfd K P V) (ts : List K) (cs : List P) (s : MSpline K P) :
    Outcome Unit × MSpline K P :=
  andThen assertConstructing (fun s =>
    if cs.length + s.order ≠ ts.length then (.throws, s)
    else andThen (forEach (fun tp : K × P => addControlVertex M tp.1 tp.2) (ts.zip cs))
      (andThen (forEach (fun t => total (addKnot M t)) (ts.drop cs.length)) init) s) s

/-- `initWithKnots`, Impl 160-171. -/
def initWithKnots (M : Mfd K P V) (ts : List K) (s : MSpline K P) : Outcome Unit × MSpline K P :=
  andThen assertConstructing (fun s =>
    if ts.length < 2 * s.order then (.throws, s)
    else andThen (forEach (fun t => total (addKnot M t)) ts) init s) s

/-- `initConstantSpline`, Impl 240-250; `ts` are the knots the generator delivers (the loop `while hasNextKnot`, see `Drain`).
The size check of the constant is omitted (a point always has a component). -/
def initConstantSpline (M : Mfd K P V) (ts : List K) (c : P) (s : MSpline K P) : Outcome Unit × MSpline K P :=
  andThen assertConstructing (andThen (forEach (fun t => addControlVertex M t c) ts) init) s

/-- `getMinTime`, Impl 530-534. -/
def getMinTime (s : MSpline K P) : Outcome K :=
  match s.iters with
  | some ⟨_, some x, _⟩ => .ok x
  | _ => .ub

/-- `getMaxTime`, Impl 536-540. -/
def getMaxTime (s : MSpline K P) : Outcome K :=
  match s.iters with
  | some ⟨_, _, some x⟩ => .ok x
  | _ => .ub

/-- Write a control vertex through an iterator. -/
def writeVertex (segs : List (Seg K P)) (x : K) (p : P) : List (Seg K P) :=
  segs.map fun g => if g.knot = x then { g with vertex := p } else g

/-- The loop of `appendSegments`, Impl 278-296, over the new knots; `cur` is `currentValidEnd`. -/
def appendLoop (M : Mfd K P V) (value : Option P) :
    List K → Iter K → Iter K → MSpline K P → Outcome (Iter K × MSpline K P)
  | [], _, cur, s => .ok (cur, s)
  | t :: ts, it, cur, s =>
    let s1 := s.addKnot M t
    (itInc s1.keys cur).bind fun cur' =>
      match value with
      | none => appendLoop M value ts it cur' s1
      | some v =>
        match it with
        | none => .ub
        | some x =>
          let s2 := { s1 with segs := writeVertex s1.segs x v }
          (itInc s2.keys it).bind fun it' => appendLoop M value ts it' cur' s2

/-- `appendSegments`, Impl 267-308; `ts` are the knots taken from the generator (`numSegments` many, or until its end).  The
generator is assumed to support appending (all but the interval generator do). -/
def appendSegments (M : Mfd K P V) (ts : List K) (value : Option P) (s : MSpline K P) : Outcome K × MSpline K P :=
  match s.state, s.iters with
  | .constructing, _ => (.throws, s)
  | .evaluable, none => (.ub, s)
  | .evaluable, some its =>
    match moveIter s.keys none s.absBegin (-(s.order : ℤ)) with
    | .ub => (.ub, s)
    | .throws => (.throws, s)
    | .ok it =>
      if its.end_ ≠ it then (.throws, s)
      else match appendLoop M value ts it its.end_ s with
        | .ub => (.ub, s)
        | .throws => (.throws, s)
        | .ok (cur, s1) =>
          if its.end_ = cur then (s1.getMaxTime, s1)
          else match (moveIter s1.keys its.end_ s.absBegin (-1)).bind fun formerLast =>
              (moveIter s1.keys formerLast s.absBegin (-((s.order : ℤ) - 1))).bind fun firstIt =>
                s1.initBasis cur firstIt formerLast with
            | .ub => (.ub, s)
            | .throws => (.throws, { s1 with iters := some { its with end_ := cur } })
            | .ok segs =>
              let s2 : MSpline K P := ⟨s1.order, segs, s1.state, some { its with end_ := cur }⟩
              (s2.getMaxTime, s2)

/-- `appendSegmentsUniformly`, Impl 310-323, for a fixed number of segments: the knots come from a delta generator started at the
last but one knot and moved on by two. -/
def appendSegmentsUniformly (M : Mfd K P V) (n : ℕ) (value : Option P) (s : MSpline K P) : Outcome K × MSpline K P :=
  match (moveIter s.keys none s.absBegin (-1)).bind fun it =>
      (moveIter s.keys it s.absBegin (-1)).bind fun it' => .ok (it, it') with
  | .ok (some atEnd, some beforeEnd) =>
    let g := (DeltaGen.create (s.order : ℤ) beforeEnd 0 (atEnd - beforeEnd) true).jump 2
    appendSegments M ((List.range n).map fun j => (g.jump j).next.1) value s
  | .ok _ => (.ub, s)
  | .ub => (.ub, s)
  | .throws => (.throws, s)

/-! ### Lookup and evaluation -/

/-- `getSegmentIterator`, Impl 618-637. -/
def getSegmentIterator (s : MSpline K P) (t : K) : Outcome (Iter K) :=
  s.getMinTime.bind fun tmin => s.getMaxTime.bind fun tmax =>
    if t < tmin then .throws
    else if tmax < t then .throws
    else if t = tmax then itDec s.keys (some tmax)
    else itDec s.keys (s.keys[upperBoundIdx s.keys t]?)
where
  /-- `std::map::upper_bound` -/
  upperBoundIdx (ks : List K) (t : K) : ℕ := ks.findIdx (fun x => decide (t < x))

/-- `getFirstRelevantSegmentByLast`, Impl 653-664. -/
def firstRelevantByLast (s : MSpline K P) (it : Iter K) : Outcome (Iter K) :=
  moveIter s.keys it s.absBegin (-((s.order : ℤ) - 1))

/-- `computeSegmentLength`, Impl 479-488. -/
def segmentLength (s : MSpline K P) (it : Iter K) : Outcome K :=
  match it with
  | none => .ok 0
  | some x => (moveIter s.keys it none 1).bind fun nx =>
    match nx with
    | none => .ub
    | some y => .ok (y - x)

/-- What the evaluator's constructor stores, Impl 731-743. -/
structure Evaluator (K : Type*) where
  ti : Iter K
  firstIt : Iter K
  endIt : Iter K
  len : K
  rel : K

/-- The evaluator's constructor, Impl 733-743 (the weights are computed on demand here), with `AssertInitializedSpline`. -/
def evaluatorAt (s : MSpline K P) (t : K) : Outcome (Evaluator K) :=
  match s.state with
  | .constructing => .throws
  | .evaluable =>
    (s.getSegmentIterator t).bind fun ti =>
    (s.firstRelevantByLast ti).bind fun fi =>
    (moveIter s.keys ti none 1).bind fun e =>
    (s.segmentLength ti).bind fun len =>
    match ti with
    | none => .ub
    | some x => .ok ⟨ti, fi, e, len, if len = 0 then 0 else (t - x) / len⟩

/-- `Evaluator::computeUInto`, Impl 826-845 (`dmul`, 813-823, is that of `BSpline`). -/
def evalU (k : ℕ) (len rel : K) (der : ℕ) : ℕ → K := fun i =>
  if 0 < len then (if der ≤ i ∧ i < k then 1 / len ^ der * rel ^ (i - der) * (dmul i der : K) else 0) else 0

/-- `computeLocalBiInto`, Impl 775-782, with `fastMultiplyAtransposedTimesBInto`, 498-505. -/
def localBi (s : MSpline K P) (e : Evaluator K) (der : ℕ) : Outcome (ℕ → K) :=
  (s.segAt e.ti).bind fun g =>
    match g.basis with
    | none => .ub
    | some B => .ok (BSpline.transposeMul s.order B (evalU s.order e.len e.rel der))

/-- `computeLocalCumulativeBiInto`, Impl 785-810. -/
def cumulativeOf (k : ℕ) (bi : ℕ → K) (der : ℕ) : ℕ → K := fun i =>
  if i = 0 then (if der = 0 then 1 else 0) else bi i + ∑ j ∈ Ico (i + 1) k, bi j

/-- `getLocalCumulativeBi`, Impl 872-895, 924-927. -/
def localCumulativeBi (s : MSpline K P) (e : Evaluator K) (der : ℕ) : Outcome (ℕ → K) :=
  (s.localBi e der).map fun bi => cumulativeOf s.order bi der

/-- The control vertices read by an evaluation loop: `n` vertices from the iterator on. -/
def readVertices (s : MSpline K P) : ℕ → Iter K → Outcome (List P)
  | 0, _ => .ok []
  | (n + 1), it => (s.segAt it).bind fun g => (itInc s.keys it).bind fun it' => (s.readVertices n it').bind fun ps =>
      .ok (g.vertex :: ps)

/-- The loop of `evalGeneric`, Impl 954-964: `last` is the previous control vertex, `p` the accumulated point. -/
def genericLoop [DecidableEq K] (M : Mfd K P V) (w : ℕ → K) : ℕ → P → P → List P → P
  | _, _, p, [] => p
  | i, last, p, c :: cs =>
    genericLoop M w (i + 1) c (if w i = 0 then p else M.exp p (M.scale (M.log last c) (w i))) cs

/-- `evalGeneric`, Impl 943-966. -/
def evalGeneric (M : Mfd K P V) (s : MSpline K P) (t : K) : Outcome P :=
  (s.evaluatorAt t).bind fun e => (s.localCumulativeBi e 0).bind fun w =>
    (s.readVertices s.order e.firstIt).bind fun vs =>
      match vs with
      | [] => .ub
      | c :: cs => .ok (genericLoop M w 1 c c cs)

/-! ### Bulk updates -/

/-- The loop of `manipulateControlVertices`, Impl 235-237: `n` vertices are left, `i` is the index given to the manipulator;
`rest` are the keys from the iterator to the absolute end. -/
def manipulateLoop (f : ℕ → P → P) : List K → ℕ → ℕ → List (Seg K P) → List (Seg K P)
  | [], _, _, segs => segs
  | _ :: _, _, 0, segs => segs
  | x :: rest, i, (n + 1), segs =>
    manipulateLoop f rest (i + 1) n (segs.map fun g => if g.knot = x then { g with vertex := f i g.vertex } else g)

/-- `manipulateControlVertices`, Impl 226-238. -/
def manipulateControlVertices (f : ℕ → P → P) (n : ℕ) (t : K) (offset : ℤ) (s : MSpline K P) : Outcome Unit × MSpline K P :=
  match s.numControlVertices.bind fun nv =>
      if nv < n then .throws
      else (s.getSegmentIterator t).bind fun it => (s.firstRelevantByLast it).bind fun fi =>
        match s.iters with
        | none => .ub
        | some its => moveIter s.keys fi (if offset > 0 then its.end_ else its.begin_) offset with
  | .ub => (.ub, s)
  | .throws => (.throws, s)
  | .ok it => (.ok (), { s with segs := manipulateLoop f (s.keys.drop (itPos s.keys it)) 0 n s.segs })

/-- `manipulateControlVertices` without a time, Impl 220-224: starts at the minimum time, which is read before the state is
checked. -/
def manipulateFromStart (f : ℕ → P → P) (n : ℕ) (offset : ℤ) (s : MSpline K P) : Outcome Unit × MSpline K P :=
  match s.getMinTime with
  | .ok t => s.manipulateControlVertices f n t offset
  | .throws => (.throws, s)
  | .ub => (.ub, s)

end MSpline
end Verif
