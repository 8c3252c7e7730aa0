import Verif.Model.ManifoldObjects
import Verif.Model.BSplineFit
import Mathlib.Algebra.Module.Pi

/-!
# Model of `bsplines::BSplineFitter`

Source: `/repo/bsplines/include/bsplines/implementation/BSplineFitterImpl.hpp`.

Simplifications:

* The dense and the sparse backend store the same matrices; the sparse one differs in one branch, see `regSegment`.  The solver is a
  parameter.
* Debug assertions are compiled out.
* A block or an array element outside its bounds is undefined behaviour; it is checked for all rows before the matrices are used.
* The loop over the fixed vertices in `addCurveQuadraticIntegralDiagTo` (493-498) reads only the fixed ones and steps its iterator
  once more after the last one; the model reads all of them and omits the last step (see `Model/EuclideanSpline`).
-/

namespace Verif

open Finset

variable {K : Type*} [Field K] [LinearOrder K] {D : ℕ}

/-- A `KnotIndexResolver`: knot index for a time. -/
abbrev Resolver (K : Type*) := K → Outcome ℤ

/-- `std::map::insert` for the map of `MapKnotIndexResolver`, 63-67: an existing key is kept. -/
def resolverInsert (x : K × ℤ) : List (K × ℤ) → List (K × ℤ)
  | [] => [x]
  | y :: ys => if x.1 < y.1 then x :: y :: ys else if x.1 = y.1 then y :: ys else y :: resolverInsert x ys

/-- `MapKnotIndexResolver::getKnotIndexAtTime`, 66: the element before the upper bound; undefined if there is none. -/
def mapResolver (m : List (K × ℤ)) : Resolver K := fun t =>
  match (m.takeWhile fun x => decide (x.1 ≤ t)).getLast? with
  | none => .ub
  | some x => .ok x.2

/-- `checkTimesBounds`, 69-79. -/
def timesBounded (times : List K) : Bool :=
  match times.head?, times.getLast? with
  | some a, some b => decide (times.length ≤ 1) || times.all fun t => decide (a ≤ t) && decide (t ≤ b)
  | _, _ => true

/-- What the loop 372-409 computes for one point: the column of the first relevant vertex, the weighted weights of the vertices, and
the weighted point. -/
structure FitRow (K : Type*) (D : ℕ) where
  col : ℤ
  bi : ℕ → K
  target : Fin D → K

/-- The constraint matrix, 366, 389-394; `k` is the spline order. -/
def fitMatrix (k : ℕ) (rows : List (FitRow K D)) : Mat K := fun r q =>
  match rows[r / D]? with
  | none => 0
  | some R =>
    let j : ℤ := ((q / D : ℕ) : ℤ) - R.col
    if r % D = q % D ∧ 0 ≤ j ∧ j < k then R.bi j.toNat else 0

/-- Is vertex number `j` of a row moved to the right hand side, 395-400? -/
def FitRow.captured (R : FitRow K D) (offsets : Bool) (j : ℕ) : Bool := decide (R.col + (j : ℤ) < 0) || offsets

/-- The right hand side, 367, 395-407; `current` are the captured vertices. -/
def fitVector (k fix : ℕ) (offsets : Bool) (current : List (Fin D → K)) (rows : List (FitRow K D)) : ℕ → K := fun r =>
  match rows[r / D]? with
  | none => 0
  | some R =>
    if h : r % D < D then
      R.target ⟨r % D, h⟩ -
        ∑ j ∈ range k, if R.captured offsets j then current.getD ((fix : ℤ) + R.col + j).toNat 0 ⟨r % D, h⟩ * R.bi j else 0
    else 0

/-- Are all accesses for a row inside the matrix (`n` block columns) and inside the array of captured vertices? -/
def FitRow.inside (R : FitRow K D) (k n fix : ℕ) (offsets : Bool) (captured : ℕ) : Bool :=
  (List.range k).all fun (j : ℕ) =>
    decide (R.col + (j : ℤ) < n) &&
      (!R.captured offsets j || (decide (0 ≤ (fix : ℤ) + R.col + j) && decide ((fix : ℤ) + R.col + j < captured)))

namespace MSpline

/-- `computeDiiInto`, DiffManifoldBSplineImpl.hpp 573-589. -/
def segDii (dt : K) : Mat K := fun i j => if j = i + 1 then ((i : K) + 1) * (if 0 < dt then 1 / dt else 0) else 0

/-- `computeViInto`, DiffManifoldBSplineImpl.hpp 593-615. -/
def segVi (dt : K) : Mat K := fun r c => 1 / (((r + c : ℕ) : K) + 1) * dt

/-- `addOrSetSegmentQuadraticIntegralDiag`, 508-547, with `computeMiInto`, 564-577; the same weight in all dimensions (416). -/
def segForm (s : MSpline K (Fin D → K)) (weight : K) (it : Iter K) (der : ℕ) : Outcome (Mat K) :=
  s.getMinTime.bind fun tmin => s.getMaxTime.bind fun tmax =>
    match it with
    | none => .ub
    | some x =>
      if x < tmin ∨ tmax ≤ x then .throws
      else (s.segmentLength it).bind fun dt => (s.segAt it).bind fun g =>
        match g.basis with
        | none => .ub
        | some B =>
          let V := BSpline.derivV s.order (segDii dt) (segVi dt) der
          let WV : Mat K := fun p q => if p / s.order = q / s.order then weight * V (p % s.order) (q % s.order) else 0
          let M : Mat K := fun row col => BSpline.Bij s.order B (col / D) row (col % D)
          .ok (matMul (D * s.order) (matMul (D * s.order) (matT M) WV) M)

/-- The part of `Q`, shifted by `br` blocks, that falls into blocks `left ≤ … < left + num`, 480. -/
def addOverlap (D : ℕ) (A : Mat K) (Q : Mat K) (br left num : ℤ) : Mat K := fun p q =>
  A p q + if (left ≤ ((p / D : ℕ) : ℤ) ∧ ((p / D : ℕ) : ℤ) < left + num) ∧ (left ≤ ((q / D : ℕ) : ℤ) ∧ ((q / D : ℕ) : ℤ) < left + num)
    then Q ((p : ℤ) - br * D).toNat ((q : ℤ) - br * D).toNat else 0

/-- Is vertex `i` of the segment fixed, 491-494? -/
def fixedVertex (n k : ℕ) (br : ℤ) (i : ℕ) : Bool :=
  decide (min (n : ℤ) (k + br) - 1 - br + 1 ≤ i) || decide ((i : ℤ) ≤ -br - 1)

/-- Subtract the effect of the fixed vertices, 481-500; `vs` are the vertices of the segment from the last to the first. -/
def subtractFixed (n k : ℕ) (b : ℕ → K) (Q : Mat K) (br left num : ℤ) (vs : List (Fin D → K)) : ℕ → K := fun p =>
  b p + if left ≤ ((p / D : ℕ) : ℤ) ∧ ((p / D : ℕ) : ℤ) < left + num then
    -∑ i ∈ range k, (if fixedVertex n k br i then ∑ d : Fin D, Q ((p : ℤ) - br * D).toNat (i * D + d) * vs.getD (k - 1 - i) 0 d else 0)
  else 0

/-- One round of the loop of `addCurveQuadraticIntegralDiagTo`, 465-502; `n` is the number of free vertices. -/
def regSegment (dense : Bool) (s : MSpline K (Fin D → K)) (weight : K) (n : ℕ) (br : ℤ) (it : Iter K) (Ab : Mat K × (ℕ → K)) :
    Outcome (Mat K × (ℕ → K)) :=
  (s.segForm weight it 2).bind fun Q =>
    if dense ∧ 0 ≤ br ∧ br ≤ (n : ℤ) - s.order then .ok (addBlock Ab.1 (br.toNat * D) (s.order * D) Q, Ab.2)
    else
      let left := max 0 br
      let right := min (n : ℤ) (s.order + br) - 1
      let num := right - left + 1
      if 0 < num then
        if num ≠ s.order then
          (s.readVerticesBack s.order it).bind fun vs =>
            .ok (addOverlap D Ab.1 Q br left num, subtractFixed n s.order Ab.2 Q br left num vs)
        else .ok (addOverlap D Ab.1 Q br left num, Ab.2)
      else .ok Ab

/-- The loop, 461-503, over the segments with the given keys. -/
def regLoop (dense : Bool) (s : MSpline K (Fin D → K)) (weight : K) (n : ℕ) : List K → ℤ → Mat K × (ℕ → K) → Outcome (Mat K × (ℕ → K))
  | [], _, Ab => .ok Ab
  | x :: xs, br, Ab => (s.regSegment dense weight n br (some x) Ab).bind (regLoop dense s weight n xs (br + 1))

/-- The regularisation, 414-426. -/
def regularise (dense : Bool) (s : MSpline K (Fin D → K)) (lambda : K) (n fix : ℕ) (t0 tl : K) (Ab : Mat K × (ℕ → K)) :
    Outcome (Mat K × (ℕ → K)) :=
  if lambda = 0 then .ok Ab
  else
    match s.iters with
    | none => .ub
    | some its =>
      (s.getSegmentIterator t0).bind fun start => (s.getSegmentIterator tl).bind fun end_ =>
        let moveCount : ℤ := (fix : ℤ) - ((s.order : ℤ) - 1)
        (moveIter s.keys start (if moveCount < 0 then its.begin_ else end_) moveCount).bind fun start' =>
        let movedCount : ℤ := (itPos s.keys start' : ℤ) - itPos s.keys start
        (moveIter s.keys end_ its.end_ s.order).bind fun end' =>
          if moveCount - movedCount ≤ 0 then
            if itPos s.keys start' ≤ itPos s.keys end' then
              s.regLoop dense lambda n ((s.keys.take (itPos s.keys end')).drop (itPos s.keys start')) movedCount Ab
            else .ub
          else .ok Ab

/-- The loop over the points, 372-409. -/
def fitRows (s : MSpline K (Fin D → K)) (resolver : Resolver K) (tmax : K) (indexOffset : ℤ) (weights : Option (ℕ → K)) :
    List (K × (Fin D → K)) → ℕ → Outcome (List (FitRow K D))
  | [], _ => .ok []
  | (t, p) :: rest, i =>
    let weight : K := match weights with | none => 1 | some w => w i
    (resolver t).bind fun idx => (s.evaluatorAt t).bind fun e => (s.localBi e 0).bind fun bi =>
      (fitRows s resolver tmax indexOffset weights rest (i + 1)).bind fun rows =>
        .ok (⟨idx - indexOffset - ((s.order : ℤ) - 1) - (if t = tmax then 1 else 0), fun j => bi j * weight, fun d => p d * weight⟩ :: rows)

/-- `calcFittedControlVertices`, 325-441; `project` is `projectIntoManifold`. -/
def calcFitted (dense : Bool) (solve : Solver K) (project : (Fin D → K) → Fin D → K) (resolver : Resolver K)
    (data : List (K × (Fin D → K))) (weights : Option (ℕ → K)) (lambda : K) (fix : ℕ) (offsets : Bool) (s : MSpline K (Fin D → K)) :
    Outcome Unit × MSpline K (Fin D → K) :=
  if offsets ∧ lambda ≠ 0 then (.throws, s)
  else
    match data.head?, data.getLast? with
    | some (t0, _), some (tl, _) =>
      let r := s.getMaxTime.bind fun tmax => (resolver t0).bind fun i0 => (resolver tl).bind fun il =>
        let indexOffset : ℤ := i0 - ((s.order : ℤ) - 1) - (if t0 = tmax then 1 else 0) + fix
        let num : ℤ := il - indexOffset + 1 - (if tl = tmax then 1 else 0)
        if num ≤ 0 then .ok (0, fun _ => 0)
        else
          let n := num.toNat
          let captured := if offsets then fix + n else fix
          ((if captured = 0 then .ok [] else
            (s.getSegmentIterator t0).bind fun it => (s.firstRelevantByLast it).bind (s.readVertices captured)) : Outcome _).bind fun current =>
          (s.fitRows resolver tmax indexOffset weights data 0).bind fun rows =>
            if rows.all fun R => R.inside s.order n fix offsets captured then
              let A := fitMatrix s.order rows
              let b := fitVector s.order fix offsets current rows
              (s.regularise dense lambda n fix t0 tl (gram (data.length * D) A, transposeVec (data.length * D) A b)).bind fun Ab =>
                .ok (n, solve (n * D) Ab.1 Ab.2)
            else .ub
      match r with
      | .ub => (.ub, s)
      | .throws => (.throws, s)
      | .ok (n, c) =>
        if n = 0 then (.ok (), s)
        else if offsets then s.manipulateControlVertices (fun i v => project fun d => v d + c (i * D + d)) n t0 fix
        else s.setControlVertices D project (n * D) 1 (fun i _ => c i) t0 fix
    | _, _ => (.ub, s)

/-- The keys the loop 129-134 visits: from the first relevant segment on, until one is after the last time. -/
def fitKnots (s : MSpline K (Fin D → K)) (t0 tl : K) : Outcome (List K) :=
  (s.getSegmentIterator t0).bind fun it => (s.firstRelevantByLast it).bind fun fi =>
    .ok ((s.keys.drop (itPos s.keys fi)).takeWhile fun x => decide (x ≤ tl))

/-- The map filled by the loop, 127-134. -/
def fitMap (ks : List K) : List (K × ℤ) :=
  (ks.foldl (fun (m : List (K × ℤ) × ℤ) x => (resolverInsert (x, m.2) m.1, m.2 + 1)) ([], 0)).1

/-- The assertions at the start of `fitSpline`, 115-125: first and last time. -/
def fitGuard (times : List K) (numPoints : ℕ) (s : MSpline K (Fin D → K)) : Outcome (K × K) :=
  match s.state with
  | .constructing => .throws
  | .evaluable =>
    if numPoints < 1 then .throws
    else if times.length ≠ numPoints then .throws
    else if timesBounded times = false then .throws
    else
      match times.head?, times.getLast?, s.getMinTime, s.getMaxTime with
      | some t0, some tl, .ok tmin, .ok tmax => if t0 < tmin then .throws else if tmax < tl then .throws else .ok (t0, tl)
      | _, _, _, _ => .ub

/-- `fitSpline`, 115-137.  (The `addKnot` of an existing knot in line 132 does nothing.) -/
def fitSpline (dense : Bool) (solve : Solver K) (project : (Fin D → K) → Fin D → K) (times : List K) (points : List (Fin D → K))
    (lambda : K) (fix : ℕ) (weights : Option (ℕ → K)) (offsets : Bool) (s : MSpline K (Fin D → K)) :
    Outcome Unit × MSpline K (Fin D → K) :=
  match (s.fitGuard times points.length).bind fun t => s.fitKnots t.1 t.2 with
  | .ok ks => s.calcFitted dense solve project (mapResolver (fitMap ks)) (times.zip points) weights lambda fix offsets
  | .throws => (.throws, s)
  | .ub => (.ub, s)

/-- `initSpline`, 84-112; `knots` are the knots taken from the generator, `resolver` its index resolver if it has one. -/
def fitInit (dense : Bool) (solve : Solver K) (project : (Fin D → K) → Fin D → K) (M : Mfd K (Fin D → K) (Fin D → K)) (knots : List K)
    (resolver : Option (Resolver K)) (times : List K) (points : List (Fin D → K)) (lambda : K) (s : MSpline K (Fin D → K)) :
    Outcome Unit × MSpline K (Fin D → K) :=
  match s.state with
  | .evaluable => (.throws, s)
  | .constructing =>
    if times.length ≠ points.length then (.throws, s)
    else if points.length < 2 then (.throws, s)
    else if timesBounded times = false then (.throws, s)
    else andThen (addKnots M knots) (andThen init
      (calcFitted dense solve project (resolver.getD (mapResolver (fitMap knots))) (times.zip points) none lambda 0 false)) s

/-! ### Extending -/

/-- The loop of `getNumberOfRelevantControlVertices`, 139-147, over the keys from the first relevant segment on: the keys visited
before the first one not before `upTo`.  Running past the last key is undefined. -/
def relevantKeys (upTo : K) : List K → Outcome (List K)
  | [] => .ub
  | x :: xs => if x < upTo then (relevantKeys upTo xs).map (x :: ·) else .ok []

/-- The data handed to `fitSpline`, 182-210: times, points and weights.  The vectors are enlarged to the number of relevant vertices
before the new measurements are copied behind; elements in between are zero times and unset points (`none`).  `weights` has one
element per retained sample; reading behind it is undefined (`none`). -/
structure FitData (K : Type*) (D : ℕ) where
  times : List K
  points : List (Option (Fin D → K))
  weights : List (Option K)

/-- The retained samples of the loop 189-200: the knots following the visited ones, not before the minimum time, and the curve
there. -/
def retained (s : MSpline K (Fin D → K)) (tmin : K) : List K → Outcome (List (K × (Fin D → K)))
  | [] => .ok []
  | x :: xs => (itInc s.keys (some x)).bind fun it =>
      match it with
      | none => .ub
      | some t =>
        if tmin ≤ t then (s.euclideanEval t).bind fun p => (retained s tmin xs).map ((t, p) :: ·)
        else retained s tmin xs

/-- Lines 182-208 of `extendAndFitSpline`. -/
def extendData (s : MSpline K (Fin D → K)) (oldMax : K) (times : List K) (points : List (Fin D → K)) (percent : K) :
    Outcome (FitData K D) :=
  match times.head? with
  | none => .ub
  | some t0 =>
    (s.getSegmentIterator t0).bind fun it => (s.firstRelevantByLast it).bind fun fi =>
    (relevantKeys oldMax (s.keys.drop (itPos s.keys fi))).bind fun visited =>
    s.getMinTime.bind fun tmin => (s.retained tmin visited).bind fun old =>
      let gap := visited.length - old.length
      .ok ⟨old.map Prod.fst ++ List.replicate gap 0 ++ times,
        old.map (fun x => some x.2) ++ List.replicate gap none ++ points.map some,
        List.replicate old.length (some (percent / (100 - percent))) ++ List.replicate gap none ++ points.map fun _ => some 1⟩

/-- `extendAndFitSpline`, 151-212.  `ts` are the knots the generator delivers after `extendBeyondTime`; `percent` is
`honorCurrentValuePercentage`.  The evaluation of the curve is that of a Euclidean spline. -/
def extendAndFit (dense : Bool) (solve : Solver K) (project : (Fin D → K) → Fin D → K) (M : Mfd K (Fin D → K) (Fin D → K)) (ts : List K)
    (times : List K) (points : List (Fin D → K)) (lambda : K) (percent : ℕ) (offsets : Bool) (s : MSpline K (Fin D → K)) :
    Outcome Unit × MSpline K (Fin D → K) :=
  if points.length < 1 then (.throws, s)
  else if times.length ≠ points.length then (.throws, s)
  else if 100 < percent then (.throws, s)
  else match times.head?, times.getLast?, s.getMaxTime with
    | some t0, some tl, .ok oldMax =>
      let r := if oldMax < tl then ((s.appendSegments M ts none).1.map fun _ => (), (s.appendSegments M ts none).2) else (.ok (), s)
      match r with
      | (.ok (), s1) =>
        if percent = 0 then s1.fitSpline dense solve project times points lambda 0 none offsets
        else if percent = 100 then
          if oldMax < tl then
            match (s1.getSegmentIterator t0).bind fun it => (s1.firstRelevantByLast it).bind fun fi =>
                relevantKeys oldMax (s1.keys.drop (itPos s1.keys fi)) with
            | .ok visited => s1.fitSpline dense solve project times points lambda visited.length none offsets
            | .throws => (.throws, s1)
            | .ub => (.ub, s1)
          else (.ok (), s1)
        else match s1.extendData oldMax times points percent with
          | .ok d =>
            if d.points.all Option.isSome ∧ d.weights.all Option.isSome then
              s1.fitSpline dense solve project d.times (d.points.map fun p => p.getD 0) lambda 0
                (some fun i => ((d.weights.getD i none).getD 1)) offsets
            else match s1.fitGuard d.times d.points.length with
              | .throws => (.throws, s1)
              | _ => (.ub, s1)
          | .throws => (.throws, s1)
          | .ub => (.ub, s1)
      | (.throws, s1) => (.throws, s1)
      | (.ub, s1) => (.ub, s1)
    | _, _, _ => (.ub, s)

end MSpline

end Verif
