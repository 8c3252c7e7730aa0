import Verif.Model.BSplineFit
import Verif.Model.ManifoldSpline
import Verif.Model.Knots

/-!
# Model: what a call that throws leaves behind

The other models of `bsplines::BSpline` say which spline a call returns and nothing about the spline if the call throws.  Here the same
calls are written with the object they change: the result is how the call ends and the members of the object at that moment.  A caller that
catches the exception goes on with this object.

Sources: `/repo/bsplines/src/BSpline.cpp` (lines given at each definition) and `/repo/bsplines/include/bsplines/KnotArithmetics.hpp` 158-198.

Simplifications: those of `Model/BSplineFit`.  Allocation failures are not modelled.  What undefined behaviour leaves behind is not specified
(the model keeps the object of that moment).
-/

namespace Verif

namespace BSpline

variable {K : Type*} [Field K] [LinearOrder K] {D : ℕ}

/-- A function that checks everything before it changes the object: an exception leaves the object as it is.  These are
`setKnotsAndCoefficients` (36-56), `setCoefficientVector` (503-510), `setCoefficientMatrix` (523-528), `setLocalCoefficientVector`
(749-759), `initConstantSpline` (1718-1743, whose last statement is `setKnotsAndCoefficients`) and a write through `vvCoefficientVector`
(1751-1755); in each the members are assigned after the last check. -/
def assign (s : BSpline K D) (o : Outcome (BSpline K D)) : Outcome Unit × BSpline K D :=
  match o with
  | .ok s' => (.ok (), s')
  | .throws => (.throws, s)
  | .ub => (.ub, s)

/-- The part of `initSpline` after `setKnotsAndCoefficients`, BSpline.cpp 575-639, on the object `s1` of that moment. -/
def finishInit (solve : Solver K) (t0 t1 : K) (p0 p1 : Fin D → K) (s1 : BSpline K D) : Outcome (BSpline K D) :=
  s1.tMin.bind fun tmin =>
  s1.tMax.bind fun tmax =>
  (s1.blockRows (fun _ => .ok 0) (initConstraints s1.order tmin tmax (t1 - t0) p0 p1)).bind fun rows =>
    let nC := numCoefficientsRequired s1.order 1
    let n := nC * D
    let m := (nC + nC % 2) * D
    let A := rowsMat n rows
    let b := rowsVec rows
    if m = n then s1.setSolved solve n A b
    else s1.setSolved solve n (gram m A) (transposeVec m A b)

/-- `initSpline`, BSpline.cpp 551-640. -/
def initSplineObj (solve : Solver K) (t0 t1 : K) (p0 p1 : Fin D → K) (s : BSpline K D) : Outcome Unit × BSpline K D :=
  if t1 ≤ t0 then (.throws, s)
  else MSpline.andThen
    (fun s => assign s (s.setKnotsAndCoefficients (uniformKnots s.order (numKnotsRequired s.order 1) t0 (t1 - t0))
      (List.replicate (numCoefficientsRequired s.order 1) 0)))
    (fun s1 => assign s1 (s1.finishInit solve t0 t1 p0 p1)) s

/-- The part of `initSpline2` after `setKnotsAndCoefficients`, BSpline.cpp 794-844. -/
def finishInit2 (solve : Solver K) (data : List (K × (Fin D → K))) (lambda : K) (s1 : BSpline K D) : Outcome (BSpline K D) :=
  let knots := (List.range (s1.knots.length + 2 - 2 * s1.order)).map (fun i => s1.kn (s1.order - 1 + i))
  let cs : List (Constraint K D) := knots.map (fun t => ⟨t, 2, lambda, 0⟩) ++ dataConstraints data
  (s1.blockRows s1.firstIndex cs).bind fun rows =>
    let n := s1.coeffs.length * D
    let m := (s1.knots.length - 2 * s1.order + 2 + data.length) * D
    let A := rowsMat (s1.order * D) rows
    s1.setSolved solve n (gram m A) (transposeVec m A (rowsVec rows))

/-- `initSpline2`, BSpline.cpp 762-845. -/
def initSpline2Obj (solve : Solver K) (data : List (K × (Fin D → K))) (numSegments : ℤ) (lambda : K) (s : BSpline K D) :
    Outcome Unit × BSpline K D :=
  MSpline.andThen (fun s => assign s (s.prepareUniform data numSegments)) (fun s1 => assign s1 (s1.finishInit2 solve data lambda)) s

/-- `initSpline3`, BSpline.cpp 1090-1164. -/
def initSpline3Obj (solve : Solver K) (data : List (K × (Fin D → K))) (numSegments : ℤ) (lambda : K) (s : BSpline K D) :
    Outcome Unit × BSpline K D :=
  MSpline.andThen (fun s => assign s (s.prepareUniform data numSegments)) (fun s1 => assign s1 (s1.fitRegularised solve data lambda)) s

/-- `initSplineSparse`, BSpline.cpp 966-1086. -/
def initSplineSparseObj (solve : Solver K) (data : List (K × (Fin D → K))) (numSegments : ℤ) (lambda : K) (s : BSpline K D) :
    Outcome Unit × BSpline K D :=
  MSpline.andThen (fun s => assign s (s.prepareUniform data numSegments))
    (fun s1 => assign s1 (s1.fitRegularisedSparse solve data lambda)) s

/-- `initSplineSparseKnots`, BSpline.cpp 848-963: line 872 replaces the spline, the data times are looked up afterwards. -/
def initSplineSparseKnotsObj (solve : Solver K) (data : List (K × (Fin D → K))) (knots : List K) (lambda : K) (s : BSpline K D) :
    Outcome Unit × BSpline K D :=
  if data.length < 2 then (.throws, s)
  else if timesSorted (data.map Prod.fst) = false then (.throws, s)
  else if knots.length < s.order then (.ub, s)
  else MSpline.andThen
    (fun s => assign s (s.setKnotsAndCoefficients knots (List.replicate (knots.length - s.order) 0)))
    (fun s1 => assign s1 (s1.fitRegularisedSparse solve data lambda)) s

/-- What `addCurveSegment` and `addCurveSegment2` compute before they change the spline, BSpline.cpp 644-661, 1169-1186: the number of
segments, the value at the end and the index `km1`; the knots up to `km1 + 1` are kept. -/
def beforeExtend (s : BSpline K D) (t : K) : Outcome (ℕ × (Fin D → K) × ℕ) :=
  s.tMax.bind fun tmax =>
  if t ≤ tmax then .throws else
  (s.timeIntervalOf ((s.numValidTimeSegments : ℤ) - 1)).bind fun (a, b) =>
  (s.eval b).bind fun p0 =>
  (s.computeTIndex a).bind fun (_, km1) => .ok (s.numValidTimeSegments, p0, km1)

/-- The part of `addCurveSegment` after `setKnotsAndCoefficients`, BSpline.cpp 680-735. -/
def finishAppend (solve : Solver K) (nt : ℕ) (p0 p1 : Fin D → K) (s1 : BSpline K D) : Outcome (BSpline K D) :=
  (s1.timeIntervalOf nt).bind fun (t0, t1) =>
  let off := D * (s1.order - 2)
  (s1.localCoefficientVector t0).bind fun loc =>
  let fixed := fun q => loc.getD q 0
  (s1.phi t0 0).bind fun P0 =>
  (s1.phi t1 0).bind fun P1 =>
    let rows := [endRow off 1 P0 p0 fixed true, endRow off 1 P1 p1 fixed true]
    .ok (s1.storeLastTwo (solve (2 * D) (rowsMat (2 * D) rows) (rowsVec rows)))

/-- `addCurveSegment`, BSpline.cpp 642-737. -/
def addCurveSegmentObj (solve : Solver K) (t : K) (p1 junk : Fin D → K) (s : BSpline K D) : Outcome Unit × BSpline K D :=
  match s.beforeExtend t with
  | .throws => (.throws, s)
  | .ub => (.ub, s)
  | .ok (nt, p0, km1) =>
    MSpline.andThen (fun s => assign s (s.setKnotsAndCoefficients (s.extendedKnots km1 t) (s.coeffs ++ [junk])))
      (fun s1 => assign s1 (s1.finishAppend solve nt p0 p1)) s

/-- The part of `addCurveSegment2` after `setKnotsAndCoefficients`, BSpline.cpp 1205-1271. -/
def finishAppend2 (solve : Solver K) (nt : ℕ) (p0 p1 : Fin D → K) (lambda : K) (s1 : BSpline K D) : Outcome (BSpline K D) :=
  (s1.timeIntervalOf nt).bind fun (t0, t1) =>
  let off := D * (s1.order - 2)
  (s1.localCoefficientVector t0).bind fun loc =>
  let fixed := fun q => loc.getD q 0
  (s1.phi t0 0).bind fun P0 =>
  (s1.phi t1 0).bind fun P1 =>
  (s1.phi t0 2).bind fun A0 =>
  (s1.phi t1 2).bind fun A1 =>
    let rows := [endRow off 1 P0 p0 fixed true, endRow off 1 P1 p1 fixed true,
      endRow off lambda A0 0 fixed false, endRow off lambda A1 0 fixed false]
    let A := rowsMat (2 * D) rows
    .ok (s1.storeLastTwo (solve (2 * D) (gram (4 * D) A) (transposeVec (4 * D) A (rowsVec rows))))

/-- `addCurveSegment2`, BSpline.cpp 1167-1273. -/
def addCurveSegment2Obj (solve : Solver K) (t : K) (p1 : Fin D → K) (lambda : K) (junk : Fin D → K) (s : BSpline K D) :
    Outcome Unit × BSpline K D :=
  match s.beforeExtend t with
  | .throws => (.throws, s)
  | .ub => (.ub, s)
  | .ok (nt, p0, km1) =>
    MSpline.andThen (fun s => assign s (s.setKnotsAndCoefficients (s.extendedKnots km1 t) (s.coeffs ++ [junk])))
      (fun s1 => assign s1 (s1.finishAppend2 solve nt p0 p1 lambda)) s

/-- The calls that change a spline. -/
inductive Mutation (K : Type*) (D : ℕ)
  | setKnots (knots : List K) (coeffs : List (Fin D → K))
  | init (t0 t1 : K) (p0 p1 : Fin D → K)
  | init2 (data : List (K × (Fin D → K))) (numSegments : ℤ) (lambda : K)
  | init3 (data : List (K × (Fin D → K))) (numSegments : ℤ) (lambda : K)
  | initSparse (data : List (K × (Fin D → K))) (numSegments : ℤ) (lambda : K)
  | initSparseKnots (data : List (K × (Fin D → K))) (knots : List K) (lambda : K)
  | initConstant (tmin tmax : K) (numSegments : ℤ) (constant : Fin D → K)
  | append (t : K) (p junk : Fin D → K)
  | append2 (t : K) (p : Fin D → K) (lambda : K) (junk : Fin D → K)
  | remove
  | setVector (c : List K)
  | setMatrix (cs : List (Fin D → K))
  | setLocal (t : K) (c : List K)
  | setVv (i : ℤ) (v : Fin D → K)

/-- Run a call on an object. -/
def Mutation.run (solve : Solver K) : Mutation K D → BSpline K D → Outcome Unit × BSpline K D
  | .setKnots knots coeffs, s => assign s (s.setKnotsAndCoefficients knots coeffs)
  | .init t0 t1 p0 p1, s => s.initSplineObj solve t0 t1 p0 p1
  | .init2 data n lambda, s => s.initSpline2Obj solve data n lambda
  | .init3 data n lambda, s => s.initSpline3Obj solve data n lambda
  | .initSparse data n lambda, s => s.initSplineSparseObj solve data n lambda
  | .initSparseKnots data knots lambda, s => s.initSplineSparseKnotsObj solve data knots lambda
  | .initConstant tmin tmax n c, s => assign s (s.initConstantSpline tmin tmax n c)
  | .append t p junk, s => s.addCurveSegmentObj solve t p junk
  | .append2 t p lambda junk, s => s.addCurveSegment2Obj solve t p lambda junk
  | .remove, s => (.ok (), s.removeCurveSegment)
  | .setVector c, s => assign s (s.setCoefficientVector c)
  | .setMatrix cs, s => assign s (s.setCoefficientMatrix cs)
  | .setLocal t c, s => assign s (s.setLocalCoefficientVector t c)
  | .setVv i v, s => assign s (s.setVvCoefficientVector i v)

/-- A program that makes calls one after the other and catches the exception of each. -/
def runCatching (solve : Solver K) : List (Mutation K D) → BSpline K D → Outcome Unit × BSpline K D
  | [], s => (.ok (), s)
  | c :: cs, s =>
    match c.run solve s with
    | (.ok (), s') => runCatching solve cs s'
    | (.throws, s') => runCatching solve cs s'
    | (.ub, s') => (.ub, s')

end BSpline

/-! ### `DeltaFreeKnotGenerator::extendBeyondTime` -/

variable {T : Type*} [CommRing T] [LinearOrder T]

/-- `extendBeyondTime` with `getExtendedEndTime`, KnotArithmetics.hpp 158-161, 180-198, with the object: the knots before `time` are taken
off the queue (186-189) before it is checked (190-192) whether enough are left. -/
def FreeGen.extendBeyondObj (time : T) (g : FreeGen T) : Outcome Unit × FreeGen T :=
  if g.predefined.length < 1 then (.ok (), { g with beyond := addScaledDuration time g.delta (g.splineOrder - 1) })
  else match popBefore time g.predefined with
    | .ub => (.ub, g)
    | .throws => (.throws, g)
    | .ok q =>
      match q[(g.splineOrder - 1).toNat]? with
      | none => (.throws, { g with predefined := q })
      | some k => (.ok (), { g with beyond := k, predefined := q })

end Verif
