import Verif.Model.Dimensions
import Verif.Props.Exceptions

/-!
# C95: vectors and matrices of the wrong size are rejected

The calls of `bsplines::BSpline` with arguments of any size (`Model/Dimensions`) are compared with the calls of the models with a fixed
dimension, which all other properties are about.
-/

set_option linter.unusedSectionVars false

namespace Verif

open BSpline

namespace DSpline

variable {K : Type*} [Field K] [LinearOrder K]

/-! ### Specification -/

/-- The dimension an initialising call asks for: the rows of the matrix or the length of the vectors it is given. -/
def Call.newDim : Call K → Option ℕ
  | .setKnots _ m => some m.rows
  | .init _ _ p0 _ => some p0.length
  | .init2 _ points _ _ => some points.rows
  | .init3 _ points _ _ => some points.rows
  | .initSparse _ points _ _ => some points.rows
  | .initSparseKnots _ points _ _ => some points.rows
  | .initConstant _ _ _ c => some c.length
  | _ => none

/-- The sizes of the arguments are those of a call for dimension `D`. -/
def Call.Fits (D : ℕ) : Call K → Prop
  | .setKnots _ m => m.rows = D
  | .init _ _ p0 p1 => p0.length = D ∧ p1.length = D
  | .init2 times points _ _ => points.rows = D ∧ points.cols = times.length
  | .init3 times points _ _ => points.rows = D ∧ points.cols = times.length
  | .initSparse times points _ _ => points.rows = D ∧ points.cols = times.length
  | .initSparseKnots times points _ _ => points.rows = D ∧ points.cols = times.length
  | .initConstant _ _ _ c => c.length = D
  | .append _ p _ => p.length = D
  | .append2 _ p _ _ => p.length = D
  | .setMatrix m => m.rows = D
  | .setVv _ v => v.length = D
  | .remove => True
  | .setVector _ => True
  | .setLocal _ _ => True

instance (D : ℕ) (c : Call K) : Decidable (c.Fits D) := by
  cases c <;> unfold Call.Fits <;> infer_instance

/-- The columns of a matrix as vectors of dimension `D`. -/
def matColumns (D : ℕ) (m : EigenMat K) : List (Fin D → K) := List.ofFn fun (j : Fin m.cols) (i : Fin D) => m.entry i j

/-- A list of numbers as a vector of dimension `D`. -/
def entries (D : ℕ) (v : List K) : Fin D → K := fun i => (v[(i : ℕ)]?).getD 0

/-- The same call with arguments whose sizes are fixed by their types. -/
def Call.typed (D : ℕ) : Call K → Mutation K D
  | .setKnots knots m => .setKnots knots (matColumns D m)
  | .init t0 t1 p0 p1 => .init t0 t1 (entries D p0) (entries D p1)
  | .init2 times points n lambda => .init2 (times.zip (matColumns D points)) n lambda
  | .init3 times points n lambda => .init3 (times.zip (matColumns D points)) n lambda
  | .initSparse times points n lambda => .initSparse (times.zip (matColumns D points)) n lambda
  | .initSparseKnots times points knots lambda => .initSparseKnots (times.zip (matColumns D points)) knots lambda
  | .initConstant tmin tmax n c => .initConstant tmin tmax n (entries D c)
  | .append t p junk => .append t (entries D p) (entries D junk)
  | .append2 t p lambda junk => .append2 t (entries D p) lambda (entries D junk)
  | .remove => .remove
  | .setVector c => .setVector c
  | .setMatrix m => .setMatrix (matColumns D m)
  | .setLocal t c => .setLocal t c
  | .setVv i v => .setVv i (entries D v)

/-- The spline with other coefficients, possibly of another dimension. -/
def withCoeffs (s : DSpline K) {D : ℕ} (cs : List (Fin D → K)) : BSpline K D :=
  BSpline.mk (K := K) s.spline.order s.spline.knots cs s.spline.basis

/-- A call on `s` (result `x`) goes like a call on a spline `b` of dimension `D` (result `r`): it ends in the same way, and unless it
stopped before it changed anything, with the same spline. -/
def Like {D : ℕ} (s : DSpline K) (b : BSpline K D) (x : Outcome Unit × DSpline K) (r : Outcome Unit × BSpline K D) : Prop :=
  x.1 = r.1 ∧ ((r.1 ≠ .ok () ∧ r.2 = b ∧ x.2 = s) ∨ x.2 = ⟨D, r.2⟩)

/-! ### Lemmas -/

/-- The same in the words of the model. -/
def Call.read (D : ℕ) : Call K → Mutation K D
  | .setKnots knots m => .setKnots knots (m.columns D)
  | .init t0 t1 p0 p1 => .init t0 t1 (vecOf D p0) (vecOf D p1)
  | .init2 times points n lambda => .init2 (pairsOf D times points) n lambda
  | .init3 times points n lambda => .init3 (pairsOf D times points) n lambda
  | .initSparse times points n lambda => .initSparse (pairsOf D times points) n lambda
  | .initSparseKnots times points knots lambda => .initSparseKnots (pairsOf D times points) knots lambda
  | .initConstant tmin tmax n c => .initConstant tmin tmax n (vecOf D c)
  | .append t p junk => .append t (vecOf D p) (vecOf D junk)
  | .append2 t p lambda junk => .append2 t (vecOf D p) lambda (vecOf D junk)
  | .remove => .remove
  | .setVector c => .setVector c
  | .setMatrix m => .setMatrix (m.columns D)
  | .setLocal t c => .setLocal t c
  | .setVv i v => .setVv i (vecOf D v)

theorem columns_eq (D : ℕ) (m : EigenMat K) : m.columns D = matColumns D m := by
  unfold EigenMat.columns matColumns
  apply List.ext_getElem <;> simp

theorem vecOf_eq (D : ℕ) (v : List K) : vecOf D v = entries D v := by
  funext i
  simp [vecOf, entries, List.getD_eq_getElem?_getD]

theorem typed_eq (D : ℕ) (c : Call K) : c.typed D = c.read D := by
  cases c <;> simp [Call.typed, Call.read, pairsOf, columns_eq, vecOf_eq]

@[simp] theorem columns_length (m : EigenMat K) (D : ℕ) : (m.columns D).length = m.cols := by simp [EigenMat.columns]

theorem columns_zero (D n : ℕ) : (EigenMat.zero D n : EigenMat K).columns D = List.replicate n 0 := by
  unfold EigenMat.columns EigenMat.zero
  apply List.ext_getElem <;> simp
  intro i hi
  rfl

theorem columns_constant (c : List K) (n : ℕ) : (EigenMat.constant c n).columns c.length = List.replicate n (vecOf c.length c) := by
  unfold EigenMat.columns EigenMat.constant
  apply List.ext_getElem
  · simp
  · intro i h1 h2
    rw [List.getElem_map, List.getElem_replicate]
    rfl

theorem pairs_length {D : ℕ} {times : List K} {points : EigenMat K} (h : points.cols = times.length) :
    (pairsOf D times points).length = times.length := by simp [pairsOf, h]

theorem pairs_times {D : ℕ} {times : List K} {points : EigenMat K} (h : points.cols = times.length) :
    (pairsOf D times points).map Prod.fst = times := by
  unfold pairsOf
  rw [List.map_fst_zip]
  simp [h]

theorem set_like (s : DSpline K) (knots : List K) (m : EigenMat K) (cs : List (Fin m.rows → K)) :
    s.setKnotsAndCoefficients knots m =
      ((s.withCoeffs cs).setKnotsAndCoefficients knots (m.columns m.rows)).map fun b => ⟨m.rows, b⟩ := by
  unfold setKnotsAndCoefficients BSpline.setKnotsAndCoefficients
  have h : (s.withCoeffs cs).verifyKnotSequence knots = s.spline.verifyKnotSequence knots := rfl
  rw [h]
  rcases s.spline.verifyKnotSequence knots with _ | _ | _
  · simp only [Outcome.bind_ok, columns_length]
    have ho : (s.withCoeffs cs).order = s.spline.order := rfl
    rw [ho]
    split_ifs <;> rfl
  · rfl
  · rfl

theorem assign_like {D : ℕ} {s : DSpline K} {b : BSpline K D} {o : Outcome (DSpline K)} {p : Outcome (BSpline K D)}
    (h : o = p.map fun b => ⟨D, b⟩) : Like s b (s.assign o) (BSpline.assign b p) := by
  subst h
  rcases p with _ | _ | _
  · exact ⟨rfl, Or.inr rfl⟩
  · exact ⟨rfl, Or.inl ⟨by simp [BSpline.assign], rfl, rfl⟩⟩
  · exact ⟨rfl, Or.inl ⟨by simp [BSpline.assign], rfl, rfl⟩⟩

theorem twoSteps_like {D : ℕ} {s : DSpline K} {b : BSpline K D} {o : DSpline K → Outcome (DSpline K)}
    {p : BSpline K D → Outcome (BSpline K D)} (g : (D : ℕ) → BSpline K D → Outcome (BSpline K D))
    (h : o s = (p b).map fun b => ⟨D, b⟩) :
    Like s b (MSpline.andThen (fun s => s.assign (o s)) (fun s1 => s1.lift fun b => BSpline.assign b (g s1.dim b)) s)
      (MSpline.andThen (fun s => BSpline.assign s (p s)) (fun s1 => BSpline.assign s1 (g D s1)) b) := by
  unfold MSpline.andThen
  simp only [h]
  rcases p b with b1 | _ | _
  · exact ⟨rfl, Or.inr rfl⟩
  · exact ⟨rfl, Or.inl ⟨by simp [BSpline.assign], rfl, rfl⟩⟩
  · exact ⟨rfl, Or.inl ⟨by simp [BSpline.assign], rfl, rfl⟩⟩

theorem prepare_like (s : DSpline K) (times : List K) (points : EigenMat K) (h : points.cols = times.length) (n : ℤ)
    (cs : List (Fin points.rows → K)) :
    s.prepareUniform times points n =
      ((s.withCoeffs cs).prepareUniform (pairsOf points.rows times points) n).map fun b => ⟨points.rows, b⟩ := by
  unfold prepareUniform BSpline.prepareUniform
  rw [if_neg (by simp [h]), pairs_length h, pairs_times h]
  split_ifs
  · rfl
  · rfl
  · rfl
  · have := set_like s (uniformKnots s.spline.order (numKnotsRequired s.spline.order n.toNat) (times.getD 0 0)
      ((times.getD (times.length - 1) 0 - times.getD 0 0) / (n.toNat : K)))
      (EigenMat.zero points.rows (numCoefficientsRequired s.spline.order n.toNat)) cs
    have e : (EigenMat.zero points.rows (numCoefficientsRequired s.spline.order n.toNat) : EigenMat K).columns
      (EigenMat.zero (K := K) points.rows (numCoefficientsRequired s.spline.order n.toNat)).rows = _ :=
      columns_zero points.rows (numCoefficientsRequired s.spline.order n.toNat)
    rw [e] at this
    exact this

/-! ### C95 -/

/-- **C95**: an initialising call with points of dimension `D'`, on a spline of any dimension, ends as the call for dimension `D'` does on a
spline with the same order and knots; the coefficients `cs` the spline would have had do not matter, and the dimension becomes `D'`. -/
theorem C95_redimension (solve : Solver K) (c : Call K) (s : DSpline K) (D' : ℕ) (hd : c.newDim = some D') (hf : c.Fits D')
    (cs : List (Fin D' → K)) : Like s (s.withCoeffs cs) (c.run solve s) ((c.typed D').run solve (s.withCoeffs cs)) := by
  rw [typed_eq]
  cases c with
  | setKnots knots m =>
    obtain rfl : m.rows = D' := hf
    exact assign_like (set_like s knots m cs)
  | init t0 t1 p0 p1 =>
    obtain ⟨rfl, h1⟩ := hf
    show Like s _ (s.initSpline solve t0 t1 p0 p1) ((s.withCoeffs cs).initSplineObj solve t0 t1 _ _)
    unfold initSpline initSplineObj
    rw [if_neg (by simp [h1])]
    split_ifs with ht
    · exact ⟨rfl, Or.inl ⟨by simp, rfl, rfl⟩⟩
    · refine twoSteps_like (D := p0.length) (fun D b => b.finishInit solve t0 t1 (vecOf D p0) (vecOf D p1)) ?_
      have := set_like s (uniformKnots s.spline.order (numKnotsRequired s.spline.order 1) t0 (t1 - t0))
        (EigenMat.zero p0.length (numCoefficientsRequired s.spline.order 1)) cs
      have e : (EigenMat.zero p0.length (numCoefficientsRequired s.spline.order 1) : EigenMat K).columns
        (EigenMat.zero (K := K) p0.length (numCoefficientsRequired s.spline.order 1)).rows = _ :=
        columns_zero p0.length (numCoefficientsRequired s.spline.order 1)
      rw [e] at this
      exact this
  | init2 times points n lambda =>
    obtain ⟨rfl, h1⟩ := hf
    exact twoSteps_like (fun D b => b.finishInit2 solve (pairsOf D times points) lambda) (prepare_like s times points h1 n cs)
  | init3 times points n lambda =>
    obtain ⟨rfl, h1⟩ := hf
    exact twoSteps_like (fun D b => b.fitRegularised solve (pairsOf D times points) lambda) (prepare_like s times points h1 n cs)
  | initSparse times points n lambda =>
    obtain ⟨rfl, h1⟩ := hf
    exact twoSteps_like (fun D b => b.fitRegularisedSparse solve (pairsOf D times points) lambda) (prepare_like s times points h1 n cs)
  | initSparseKnots times points knots lambda =>
    obtain ⟨rfl, h1⟩ := hf
    show Like s _ (s.initSplineSparseKnots solve times points knots lambda)
      ((s.withCoeffs cs).initSplineSparseKnotsObj solve (pairsOf points.rows times points) knots lambda)
    unfold initSplineSparseKnots initSplineSparseKnotsObj
    rw [if_neg (by simp [h1]), pairs_length h1, pairs_times h1]
    have ho : (s.withCoeffs cs).order = s.spline.order := rfl
    rw [ho]
    split_ifs
    · exact ⟨rfl, Or.inl ⟨by simp, rfl, rfl⟩⟩
    · exact ⟨rfl, Or.inl ⟨by simp, rfl, rfl⟩⟩
    · exact ⟨rfl, Or.inl ⟨by simp, rfl, rfl⟩⟩
    · refine twoSteps_like (D := points.rows) (fun D b => b.fitRegularisedSparse solve (pairsOf D times points) lambda) ?_
      have := set_like s knots (EigenMat.zero points.rows (knots.length - s.spline.order)) cs
      have e : (EigenMat.zero points.rows (knots.length - s.spline.order) : EigenMat K).columns
        (EigenMat.zero (K := K) points.rows (knots.length - s.spline.order)).rows = _ :=
        columns_zero points.rows (knots.length - s.spline.order)
      rw [e] at this
      exact this
  | initConstant tmin tmax n c =>
    obtain rfl : c.length = D' := hf
    refine assign_like ?_
    unfold initConstantSpline BSpline.initConstantSpline
    split_ifs
    · rfl
    · rfl
    · rfl
    · have := set_like s (linSpaced (numKnotsRequired s.spline.order n.toNat)
        (tmin - ((s.spline.order : K) - 1) * ((tmax - tmin) / (n.toNat : K)))
        (tmax + ((s.spline.order : K) - 1) * ((tmax - tmin) / (n.toNat : K))))
        (EigenMat.constant c (numCoefficientsRequired s.spline.order n.toNat)) cs
      have e : (EigenMat.constant c (numCoefficientsRequired s.spline.order n.toNat)).columns
        (EigenMat.constant c (numCoefficientsRequired s.spline.order n.toNat)).rows = _ :=
        columns_constant c (numCoefficientsRequired s.spline.order n.toNat)
      rw [e] at this
      exact this
  | _ => simp [Call.newDim] at hd

theorem checkAppend_fits {s : DSpline K} {t : K} {p : List K} (h : p.length = s.dim) :
    s.checkAppend t p = s.spline.tMax.bind fun tmax => if t ≤ tmax then .throws else .ok () := by
  unfold checkAppend
  simp [h]

theorem checked_append {D : ℕ} (s : BSpline K D) (t : K) (p : List K) (h : p.length = D)
    (f : (D : ℕ) → BSpline K D → Outcome Unit × BSpline K D)
    (h1 : ∀ o : Outcome Unit, o ≠ .ok () → (s.tMax.bind fun tmax => if t ≤ tmax then .throws else .ok ()) = o → f D s = (o, s)) :
    MSpline.andThen (fun s : DSpline K => (s.checkAppend t p, s)) (fun s => s.lift (f s.dim)) ⟨D, s⟩ = ((f D s).1, ⟨D, (f D s).2⟩) := by
  have hc := checkAppend_fits (s := ⟨D, s⟩) (t := t) h
  unfold MSpline.andThen
  simp only [hc]
  rcases hq : (s.tMax.bind fun tmax => if t ≤ tmax then .throws else .ok ()) with _ | _ | _
  · rfl
  · rw [h1 _ (by simp) hq]
  · rw [h1 _ (by simp) hq]

theorem beforeExtend_checks {D : ℕ} {s : BSpline K D} {t : K} {o : Outcome Unit} (h : o ≠ .ok ())
    (hq : (s.tMax.bind fun tmax => if t ≤ tmax then .throws else .ok ()) = o) :
    (o = .throws ∧ s.beforeExtend t = .throws) ∨ (o = .ub ∧ s.beforeExtend t = .ub) := by
  unfold beforeExtend
  rcases hm : s.tMax with tmax | _ | _
  · rw [hm] at hq
    simp only [Outcome.bind_ok] at hq ⊢
    split_ifs at hq ⊢
    · exact Or.inl ⟨hq.symm, rfl⟩
    · exact absurd hq.symm h
  · rw [hm] at hq
    exact Or.inl ⟨hq.symm, rfl⟩
  · rw [hm] at hq
    exact Or.inr ⟨hq.symm, rfl⟩

/-- **C95**: a call whose sizes fit the dimension of the spline is the call of the model with that dimension fixed; all that is proved
there holds. -/
theorem C95_fits (solve : Solver K) (c : Call K) (D : ℕ) (s : BSpline K D) (hf : c.Fits D) :
    c.run solve ⟨D, s⟩ = (((c.typed D).run solve s).1, ⟨D, ((c.typed D).run solve s).2⟩) := by
  rw [typed_eq]
  rcases hd : c.newDim with _ | D'
  · cases c with
    | append t p junk =>
      refine checked_append s t p hf (fun D b => b.addCurveSegmentObj solve t (vecOf D p) (vecOf D junk)) ?_
      intro o ho hq
      unfold addCurveSegmentObj
      rcases beforeExtend_checks ho hq with ⟨rfl, h⟩ | ⟨rfl, h⟩ <;> rw [h]
    | append2 t p lambda junk =>
      refine checked_append s t p hf (fun D b => b.addCurveSegment2Obj solve t (vecOf D p) lambda (vecOf D junk)) ?_
      intro o ho hq
      unfold addCurveSegment2Obj
      rcases beforeExtend_checks ho hq with ⟨rfl, h⟩ | ⟨rfl, h⟩ <;> rw [h]
    | remove => rfl
    | setVector c => rfl
    | setLocal t c => rfl
    | setMatrix m =>
      obtain rfl : m.rows = D := hf
      show DSpline.assign _ (setCoefficientMatrix _ m) = ((BSpline.assign s (s.setCoefficientMatrix (m.columns m.rows))).1, _)
      have h : (⟨m.rows, s⟩ : DSpline K).setCoefficientMatrix m = (s.setCoefficientMatrix (m.columns m.rows)).map fun b => ⟨m.rows, b⟩ := by
        unfold setCoefficientMatrix BSpline.setCoefficientMatrix
        simp only [columns_length, ne_eq, not_true, if_false]
        split_ifs <;> rfl
      rw [h]
      rcases hq : s.setCoefficientMatrix (m.columns m.rows) with _ | _ | _ <;>
        simp [Call.read, Mutation.run, hq, DSpline.assign, BSpline.assign]
    | setVv i v =>
      have hv : v.length = D := hf
      show (if i < 0 ∨ (s.coeffs.length : ℤ) ≤ i then ((.throws, ⟨D, s⟩) : Outcome Unit × DSpline K)
        else if v.length ≠ D then (.ub, ⟨D, s⟩) else _) = _
      simp only [Call.read, Mutation.run, setVvCoefficientVector, DSpline.lift]
      rw [if_neg (c := v.length ≠ D) (by simp [hv])]
      split_ifs <;> rfl
    | _ => simp [Call.newDim] at hd
  · have hD : D' = D := by
      cases c with
      | setKnots knots m => exact (Option.some.inj hd).symm.trans hf
      | init t0 t1 p0 p1 => exact (Option.some.inj hd).symm.trans hf.1
      | init2 times points n lambda => exact (Option.some.inj hd).symm.trans hf.1
      | init3 times points n lambda => exact (Option.some.inj hd).symm.trans hf.1
      | initSparse times points n lambda => exact (Option.some.inj hd).symm.trans hf.1
      | initSparseKnots times points knots lambda => exact (Option.some.inj hd).symm.trans hf.1
      | initConstant tmin tmax n c => exact (Option.some.inj hd).symm.trans hf
      | _ => simp [Call.newDim] at hd
    subst hD
    rw [← typed_eq]
    have h : Like ⟨D', s⟩ s (c.run solve ⟨D', s⟩) ((c.typed D').run solve s) := C95_redimension solve c ⟨D', s⟩ D' hd hf s.coeffs
    obtain ⟨h1, ⟨_, h3, h4⟩ | h2⟩ := h
    · exact Prod.ext h1 (by rw [h4, h3])
    · exact Prod.ext h1 h2

/-- **C95**: a call whose sizes do not fit throws and leaves the spline as it is: an initialising call whose vectors and matrices do not fit
each other, and another call whose argument does not have the dimension of the spline. -/
theorem C95_rejected_partial (solve : Solver K) (c : Call K) (s : DSpline K) (hf : ¬ c.Fits (c.newDim.getD s.dim))
    (hc : ∀ i v, c ≠ .setVv i v) : c.run solve s = (.throws, s) := by
  have happ : ∀ (t : K) (p : List K) (g : DSpline K → Outcome Unit × DSpline K), p.length ≠ s.dim →
      MSpline.andThen (fun s : DSpline K => (s.checkAppend t p, s)) g s = (.throws, s) := by
    intro t p g h
    have : s.checkAppend t p = .throws := by
      unfold checkAppend tMax
      split_ifs
      · rfl
      · simp only [Outcome.bind_ok]
        split_ifs <;> first | rfl | contradiction
    unfold MSpline.andThen
    simp only [this]
  have hprep : ∀ (times : List K) (points : EigenMat K) (n : ℤ) (g : DSpline K → Outcome Unit × DSpline K), points.cols ≠ times.length →
      MSpline.andThen (fun s : DSpline K => s.assign (s.prepareUniform times points n)) g s = (.throws, s) := by
    intro times points n g h
    have : s.prepareUniform times points n = .throws := by
      unfold prepareUniform
      rw [if_pos (fun e => h e.symm)]
    unfold MSpline.andThen
    simp only [this]
    rfl
  cases c with
  | setKnots knots m => exact absurd rfl hf
  | init t0 t1 p0 p1 =>
    show s.initSpline solve t0 t1 p0 p1 = _
    unfold initSpline
    rw [if_pos]
    intro h
    exact hf ⟨rfl, h.symm⟩
  | init2 times points n lambda => exact hprep times points n _ fun h => hf ⟨rfl, h⟩
  | init3 times points n lambda => exact hprep times points n _ fun h => hf ⟨rfl, h⟩
  | initSparse times points n lambda => exact hprep times points n _ fun h => hf ⟨rfl, h⟩
  | initSparseKnots times points knots lambda =>
    show s.initSplineSparseKnots solve times points knots lambda = _
    unfold initSplineSparseKnots
    rw [if_pos]
    intro h
    exact hf ⟨rfl, h.symm⟩
  | initConstant tmin tmax n c => exact absurd rfl hf
  | append t p junk => exact happ t p _ hf
  | append2 t p lambda junk => exact happ t p _ hf
  | remove => exact absurd trivial hf
  | setVector c => exact absurd trivial hf
  | setMatrix m =>
    show s.assign (s.setCoefficientMatrix m) = _
    unfold setCoefficientMatrix
    rw [if_pos (fun h => hf h.symm)]
    rfl
  | setLocal t c => exact absurd trivial hf
  | setVv i v => exact absurd rfl (hc i v)

/-- **C95**: stacked coefficients and matrices with the wrong number of coefficients throw and leave the spline as it is. -/
theorem C95_stacked (solve : Solver K) (s : DSpline K) :
    (∀ c : List K, c.length ≠ s.dim * s.spline.coeffs.length → (Call.setVector c).run solve s = (.throws, s)) ∧
    (∀ (t : K) (c : List K), c.length ≠ s.spline.order * s.dim → (Call.setLocal t c).run solve s = (.throws, s)) ∧
    (∀ m : EigenMat K, m.cols ≠ s.spline.coeffs.length → (Call.setMatrix m).run solve s = (.throws, s)) ∧
    (∀ (knots : List K) (m : EigenMat K), m.cols + s.spline.order ≠ knots.length → 2 ≤ s.spline.order →
      (Call.setKnots knots m).run solve s = (.throws, s) ∨ (Call.setKnots knots m).run solve s = (.ub, s)) := by
  refine ⟨fun c h => ?_, fun t c h => ?_, fun m h => ?_, fun knots m h ho => ?_⟩
  · show s.lift (fun b => BSpline.assign b (b.setCoefficientVector c)) = _
    simp only [lift, setCoefficientVector]
    rw [if_neg h]
    rfl
  · show s.lift (fun b => BSpline.assign b (b.setLocalCoefficientVector t c)) = _
    simp only [lift, setLocalCoefficientVector]
    rw [if_neg h]
    rfl
  · show s.assign (s.setCoefficientMatrix m) = _
    unfold setCoefficientMatrix
    split_ifs with h1 h2
    · rfl
    · rfl
    · exact absurd (not_not.1 h2).symm h
  · show s.assign (s.setKnotsAndCoefficients knots m) = _ ∨ s.assign (s.setKnotsAndCoefficients knots m) = _
    unfold setKnotsAndCoefficients verifyKnotSequence
    by_cases h1 : knots.length < minimumKnotsRequired s.spline.order
    · rw [if_pos h1]
      exact Or.inl rfl
    · rw [if_neg h1]
      rcases verifyLoop knots 1 (s.spline.knots.length - 1) with _ | _ | _
      · rw [Outcome.bind_ok, if_neg]
        · exact Or.inl rfl
        · unfold minimumKnotsRequired numKnotsRequired numCoefficientsRequired at h1
          unfold numCoefficientsRequired numValidTimeSegmentsOf
          omega
      · exact Or.inl rfl
      · exact Or.inr rfl

/-- **C95**: only initialising calls change the dimension, and one that returns makes it the dimension of its points. -/
theorem C95_dimension (solve : Solver K) (c : Call K) (s : DSpline K) :
    (c.newDim = none → (c.run solve s).2.dim = s.dim) ∧
    (∀ D', c.newDim = some D' → ((c.run solve s).2.dim = D' ∨ (c.run solve s).2 = s) ∧
      ((c.run solve s).1 = .ok () → (c.run solve s).2.dim = D')) := by
  constructor
  · intro h
    have happ : ∀ (t : K) (p : List K) (f : (s : DSpline K) → BSpline K s.dim → Outcome Unit × BSpline K s.dim),
        (MSpline.andThen (fun s : DSpline K => (s.checkAppend t p, s)) (fun s => s.lift (f s)) s).2.dim = s.dim := by
      intro t p f
      unfold MSpline.andThen
      dsimp only
      rcases s.checkAppend t p with _ | _ | _ <;> rfl
    cases c with
    | append t p junk => exact happ t p _
    | append2 t p lambda junk => exact happ t p _
    | remove => rfl
    | setVector c => rfl
    | setLocal t c => rfl
    | setMatrix m =>
      show (s.assign (s.setCoefficientMatrix m)).2.dim = _
      unfold setCoefficientMatrix
      split_ifs with h1 h2
      · rfl
      · rfl
      · exact (not_not.1 h1).symm
    | setVv i v =>
      show (if i < 0 ∨ (s.spline.coeffs.length : ℤ) ≤ i then ((.throws, s) : Outcome Unit × DSpline K)
        else if v.length ≠ s.dim then (.ub, s) else _).2.dim = _
      split_ifs <;> rfl
    | _ => simp [Call.newDim] at h
  · intro D' h
    by_cases hf : c.Fits D'
    · obtain ⟨h1, ⟨h2, _, h4⟩ | h2⟩ := C95_redimension solve c s D' h hf []
      · exact ⟨Or.inr h4, fun h5 => absurd (h1 ▸ h5) h2⟩
      · rw [h2]
        exact ⟨Or.inl rfl, fun _ => rfl⟩
    · have hc : ∀ i v, c ≠ .setVv i v := by
        rintro i v rfl
        simp [Call.newDim] at h
      have := C95_rejected_partial solve c s (by rw [h]; exact hf) hc
      rw [this]
      exact ⟨Or.inr rfl, fun h => by simp at h⟩

/-- No call of the program asks for a dimension other than `D` with fitting arguments, and vectors written through
`vvCoefficientVector` have dimension `D`. -/
def KeepsDim (D : ℕ) (cs : List (Call K)) : Prop :=
  ∀ c ∈ cs, (∀ D', c.newDim = some D' → c.Fits D' → D' = D) ∧ (∀ i v, c = .setVv i v → v.length = D)

/-- **C95**: a program with arguments of any sizes that catches all exceptions goes like the program of those calls alone whose sizes fit,
in the model with a fixed dimension. -/
theorem C95_program (solve : Solver K) (D : ℕ) : ∀ (cs : List (Call K)) (s : BSpline K D), KeepsDim D cs →
    runCatching solve cs ⟨D, s⟩ =
      ((BSpline.runCatching solve ((cs.filter fun c => c.Fits D).map (Call.typed D)) s).1,
        ⟨D, (BSpline.runCatching solve ((cs.filter fun c => c.Fits D).map (Call.typed D)) s).2⟩)
  | [], s, _ => rfl
  | c :: cs, s, h => by
    have ih := fun s => C95_program solve D cs s fun c hc => h c (by simp [hc])
    by_cases hf : c.Fits D
    · unfold runCatching
      rw [C95_fits solve c D s hf]
      rw [List.filter_cons_of_pos (by simpa using hf), List.map_cons]
      unfold BSpline.runCatching
      rcases (c.typed D).run solve s with ⟨_ | _ | _, s'⟩
      · exact ih s'
      · exact ih s'
      · rfl
    · rw [List.filter_cons_of_neg (by simpa using hf)]
      have hr : c.run solve ⟨D, s⟩ = (.throws, ⟨D, s⟩) := by
        refine C95_rejected_partial solve c ⟨D, s⟩ ?_ ?_
        · rcases hd : c.newDim with _ | D'
          · exact hf
          · intro hf'
            have e := (h c (by simp)).1 D' hd hf'
            exact hf (e ▸ hf')
        · rintro i v rfl
          exact hf ((h _ (by simp)).2 i v rfl)
      unfold runCatching
      rw [hr]
      exact ih s

/-! ### Integrals -/

theorem segments_eq (s : DSpline K) (W : EigenMat K) (hr : W.rows = s.dim) (hc : W.cols = s.dim) (seg : ℤ) (der : ℕ) :
    s.segmentQuadraticIntegral W seg der = s.spline.segmentQuadraticIntegral W.entry seg der := by
  unfold segmentQuadraticIntegral BSpline.segmentQuadraticIntegral
  rw [if_neg (c := W.rows ≠ s.dim) (by simp [hr]), if_neg (c := W.cols ≠ s.dim) (by simp [hc])]
  split_ifs <;> rfl

theorem segmentsDiag_eq (s : DSpline K) (w : List K) (h : w.length = s.dim) (seg : ℤ) (der : ℕ) :
    s.segmentQuadraticIntegralDiag w seg der = s.spline.segmentQuadraticIntegralDiag (fun d => w.getD d 0) seg der := by
  unfold segmentQuadraticIntegralDiag BSpline.segmentQuadraticIntegralDiag
  rw [if_neg (c := w.length ≠ s.dim) (by simp [h])]
  split_ifs <;> rfl

theorem sumSparse_throws {D : ℕ} (s : BSpline K D) (f : ℕ → Outcome (Mat K)) (h : f 0 = .throws) : ∀ n, 0 < n → s.sumSparse f n = .throws
  | 1, _ => by simp [sumSparse, h]
  | n + 2, _ => by
    rw [sumSparse, sumSparse_throws s f h (n + 1) (by omega)]
    rfl

/-- **C95**: the quadratic integrals with a weight matrix of the dimension of the spline are those of the model with a fixed dimension, and
with a matrix of other sizes they throw.  (The sparse one looks at the matrix only if there is a segment.) -/
theorem C95_weights (s : DSpline K) (hd : s.dim ≠ 0) (W : EigenMat K) (der : ℕ) :
    (W.rows = s.dim ∧ W.cols = s.dim →
      (∀ seg, s.segmentQuadraticIntegral W seg der = s.spline.segmentQuadraticIntegral W.entry seg der) ∧
      s.curveQuadraticIntegral W der = s.spline.curveQuadraticIntegral W.entry der ∧
      s.curveQuadraticIntegralSparse W der = s.spline.curveQuadraticIntegralSparse W.entry der) ∧
    (¬ (W.rows = s.dim ∧ W.cols = s.dim) →
      (∀ seg, s.segmentQuadraticIntegral W seg der = .throws) ∧ s.curveQuadraticIntegral W der = .throws ∧
      (0 < s.spline.numValidTimeSegments → s.curveQuadraticIntegralSparse W der = .throws)) := by
  constructor
  · rintro ⟨hr, hc⟩
    refine ⟨fun seg => segments_eq s W hr hc seg der, ?_, ?_⟩
    · unfold curveQuadraticIntegral BSpline.curveQuadraticIntegral
      rw [if_neg (by simp [hr]), if_neg (by simp [hc])]
      simp only [segments_eq s W hr hc]
    · unfold curveQuadraticIntegralSparse BSpline.curveQuadraticIntegralSparse
      rw [if_neg hd]
      simp only [segments_eq s W hr hc]
  · intro h
    have hseg : ∀ seg, s.segmentQuadraticIntegral W seg der = .throws := by
      intro seg
      unfold segmentQuadraticIntegral
      split_ifs with h1 h2 h3
      · rfl
      · rfl
      · rfl
      · exact absurd ⟨not_not.1 h2, not_not.1 h3⟩ h
    refine ⟨hseg, ?_, fun hn => ?_⟩
    · unfold curveQuadraticIntegral
      split_ifs with h2 h3
      · rfl
      · rfl
      · exact absurd ⟨not_not.1 h2, not_not.1 h3⟩ h
    · unfold curveQuadraticIntegralSparse
      rw [if_neg hd]
      exact sumSparse_throws _ _ (hseg _) _ hn

/-- **C95**: the same for weights on the diagonal. -/
theorem C95_diagonal_weights (s : DSpline K) (hd : s.dim ≠ 0) (w : List K) (der : ℕ) :
    (w.length = s.dim →
      (∀ seg, s.segmentQuadraticIntegralDiag w seg der = s.spline.segmentQuadraticIntegralDiag (fun d => w.getD d 0) seg der) ∧
      s.curveQuadraticIntegralDiag w der = s.spline.curveQuadraticIntegralDiag (fun d => w.getD d 0) der ∧
      s.curveQuadraticIntegralDiagSparse w der = s.spline.curveQuadraticIntegralDiagSparse (fun d => w.getD d 0) der) ∧
    (w.length ≠ s.dim →
      (∀ seg, s.segmentQuadraticIntegralDiag w seg der = .throws) ∧ s.curveQuadraticIntegralDiag w der = .throws ∧
      (0 < s.spline.numValidTimeSegments → s.curveQuadraticIntegralDiagSparse w der = .throws)) := by
  constructor
  · intro h
    refine ⟨fun seg => segmentsDiag_eq s w h seg der, ?_, ?_⟩
    · unfold curveQuadraticIntegralDiag BSpline.curveQuadraticIntegralDiag
      rw [if_neg (by simp [h])]
      simp only [segmentsDiag_eq s w h]
    · unfold curveQuadraticIntegralDiagSparse BSpline.curveQuadraticIntegralDiagSparse
      rw [if_neg hd]
      simp only [segmentsDiag_eq s w h]
  · intro h
    have hseg : ∀ seg, s.segmentQuadraticIntegralDiag w seg der = .throws := by
      intro seg
      unfold segmentQuadraticIntegralDiag
      split_ifs
      · rfl
      · rfl
    refine ⟨hseg, ?_, fun hn => ?_⟩
    · unfold curveQuadraticIntegralDiag
      rw [if_pos h]
    · unfold curveQuadraticIntegralDiagSparse
      rw [if_neg hd]
      exact sumSparse_throws _ _ (hseg _) _ hn

/-! ### Witnesses -/

/-- A spline of order two fresh from the constructor. -/
def fresh : DSpline ℚ := ⟨0, ⟨2, [], [], []⟩⟩

/-- Two points with two components: (1, 5) and (2, 7). -/
def twoPoints : EigenMat ℚ := ⟨2, 2, fun i j => if i = 0 then 1 + j else 5 + 2 * j⟩

/-- The segment from (1, 5) at time 1 to (2, 7) at time 2. -/
def planeLine : BSpline ℚ 2 := initializeBasisMatrices ⟨2, [0, 1, 2, 3], [![1, 5], ![2, 7]], []⟩

/-- **C95** is violated for vectors without entries: they pass all checks of `initSpline2`, `initSpline3` and `initSplineSparse`, which then read
the first index of an empty vector; only `initConstantSpline` rejects them.  The sparse integral of a spline fresh from the constructor
never returns. -/
theorem C95_violated (solve : Solver ℚ) :
    ((Call.init2 [0, 1] ⟨0, 2, fun _ _ => 0⟩ 1 1).run solve fresh).1 = .ub ∧
    ((Call.init3 [0, 1] ⟨0, 2, fun _ _ => 0⟩ 1 1).run solve fresh).1 = .ub ∧
    ((Call.initSparse [0, 1] ⟨0, 2, fun _ _ => 0⟩ 1 1).run solve fresh).1 = .ub ∧
    ((Call.initConstant 0 1 1 []).run solve fresh).1 = .throws ∧
    DSpline.create 2 = .ok fresh ∧ fresh.curveQuadraticIntegralSparse ⟨0, 0, fun _ _ => 0⟩ 1 = .ub := by
  have hp : ∀ (points : EigenMat ℚ) (g : (D : ℕ) → BSpline ℚ D → Outcome (BSpline ℚ D)) (f : (D : ℕ) → BSpline ℚ D → Outcome Unit)
      (_ : ∀ D b, f D b = .ub → g D b = .ub),
      ((fresh.prepareUniform [0, 1] points 1).bind fun s1 => f s1.dim s1.spline) = .ub →
      (MSpline.andThen (fun s => s.assign (s.prepareUniform [0, 1] points 1))
        (fun s1 => s1.lift fun b => BSpline.assign b (g s1.dim b)) fresh).1 = .ub := by
    intro points g f hg h
    unfold MSpline.andThen
    dsimp only
    rcases hq : fresh.prepareUniform [0, 1] points 1 with s1 | _ | _
    · rw [hq] at h
      simp only [DSpline.assign, lift, hg _ _ h, BSpline.assign]
    · rw [hq] at h
      simp at h
    · rfl
  refine ⟨?_, ?_, ?_, ?_, rfl, rfl⟩
  · refine hp _ (fun D b => b.finishInit2 solve (pairsOf D [0, 1] _) 1) (fun D b => (b.blockRows b.firstIndex
      (((List.range (b.knots.length + 2 - 2 * b.order)).map (fun i => b.kn (b.order - 1 + i))).map (fun t => ⟨t, 2, 1, 0⟩) ++
        dataConstraints (pairsOf D [0, 1] ⟨0, 2, fun _ _ => 0⟩))).map fun _ => ()) ?_ (by decide +kernel)
    intro D b h
    unfold finishInit2
    dsimp only
    revert h
    generalize b.blockRows _ _ = x
    rcases x with _ | _ | _ <;> simp
  · refine hp _ (fun D b => b.fitRegularised solve (pairsOf D [0, 1] _) 1) (fun D b => (b.blockRows b.firstIndex
      (dataConstraints (pairsOf D [0, 1] ⟨0, 2, fun _ _ => 0⟩))).map fun _ => ()) ?_ (by decide +kernel)
    intro D b h
    unfold fitRegularised
    dsimp only
    revert h
    generalize b.blockRows _ _ = x
    rcases x with _ | _ | _ <;> simp
  · refine hp _ (fun D b => b.fitRegularisedSparse solve (pairsOf D [0, 1] _) 1) (fun D b =>
      (b.blockRows (fun t => (b.firstIndex t).map (fun o => o / D * D))
      (dataConstraints (pairsOf D [0, 1] ⟨0, 2, fun _ _ => 0⟩))).map fun _ => ()) ?_ (by decide +kernel)
    intro D b h
    unfold fitRegularisedSparse
    dsimp only
    revert h
    generalize b.blockRows _ _ = x
    rcases x with _ | _ | _ <;> simp
  · show (fresh.assign (fresh.initConstantSpline 0 1 1 [])).1 = .throws
    have : fresh.initConstantSpline 0 1 1 [] = .throws := by
      unfold initConstantSpline
      rw [if_neg (by decide), if_neg (by decide), if_pos (by decide)]
    rw [this]
    rfl

/-- `C95_redimension` for a spline fresh from the constructor: the dimension becomes two. -/
example (solve : Solver ℚ) : (Call.setKnots [0, 1, 2, 3] twoPoints).newDim = some 2 ∧ (Call.setKnots [0, 1, 2, 3] twoPoints).Fits 2 ∧
    ((Call.setKnots [0, 1, 2, 3] twoPoints).run solve fresh).1 = .ok () ∧
    ((Call.setKnots [0, 1, 2, 3] twoPoints).run solve fresh).2.dim = 2 := by
  have h : ((Call.setKnots [0, 1, 2, 3] twoPoints).run solve fresh).1 = .ok () := by
    obtain ⟨h1, -⟩ := C95_redimension solve (.setKnots [0, 1, 2, 3] twoPoints) fresh 2 rfl rfl []
    rw [h1]
    have h : ((fresh.withCoeffs (D := 2) []).setKnotsAndCoefficients [0, 1, 2, 3] (twoPoints.columns 2)).map (fun _ => ()) = .ok () := by
      decide +kernel
    show (BSpline.assign (fresh.withCoeffs (D := 2) []) ((fresh.withCoeffs (D := 2) []).setKnotsAndCoefficients [0, 1, 2, 3] (twoPoints.columns 2))).1 = _
    revert h
    generalize (fresh.withCoeffs (D := 2) []).setKnotsAndCoefficients [0, 1, 2, 3] (twoPoints.columns 2) = x
    rcases x with _ | _ | _ <;> simp [BSpline.assign]
  exact ⟨rfl, rfl, h, ((C95_dimension solve _ _).2 2 rfl).2 h⟩

/-- `C95_fits` and `C95_rejected_partial`: a point of the plane can be appended, a number or a point of space cannot. -/
example (solve : Solver ℚ) : (Call.append (3 : ℚ) [3, 9] []).Fits 2 ∧
    (Call.append 3 [3, 9] []).run solve ⟨2, planeLine⟩ =
      ((planeLine.addCurveSegmentObj solve 3 (vecOf 2 [3, 9]) (vecOf 2 [])).1,
        ⟨2, (planeLine.addCurveSegmentObj solve 3 (vecOf 2 [3, 9]) (vecOf 2 [])).2⟩) ∧
    (Call.append 3 [3] []).run solve ⟨2, planeLine⟩ = (.throws, ⟨2, planeLine⟩) ∧
    (Call.append 3 [3, 9, 0] []).run solve ⟨2, planeLine⟩ = (.throws, ⟨2, planeLine⟩) :=
  ⟨rfl, C95_fits solve _ 2 planeLine rfl, C95_rejected_partial solve _ _ (show ¬ 1 = 2 by decide) (by simp),
    C95_rejected_partial solve _ _ (show ¬ 3 = 2 by decide) (by simp)⟩

/-- `C95_program`: two calls with wrong sizes and one that fits. -/
example (solve : Solver ℚ) : (runCatching solve [.append 3 [3] [], .setVector [1, 2, 3, 4], .init 0 1 [0] [1, 2]] ⟨2, planeLine⟩).1 = .ok () ∧
    (runCatching solve [.append 3 [3] [], .setVector [1, 2, 3, 4], .init 0 1 [0] [1, 2]] ⟨2, planeLine⟩).2.dim = 2 := by
  rw [C95_program solve 2 _ planeLine (by
    intro c hc
    simp only [List.mem_cons, List.not_mem_nil, or_false] at hc
    rcases hc with rfl | rfl | rfl
    · simp [Call.newDim]
    · simp [Call.newDim]
    · refine ⟨fun D' _ hf => ?_, by simp⟩
      exact absurd (hf.1.trans hf.2.symm) (by decide))]
  refine ⟨?_, rfl⟩
  rfl

/-- `C95_weights`: a weight matrix for space is rejected by a spline of the plane. -/
example : (⟨2, planeLine⟩ : DSpline ℚ).curveQuadraticIntegral ⟨3, 3, fun i j => if i = j then 1 else 0⟩ 1 = .throws ∧
    ((⟨2, planeLine⟩ : DSpline ℚ).curveQuadraticIntegral ⟨2, 2, fun i j => if i = j then 1 else 0⟩ 1).map (fun Q => Q 0 2) = .ok (-1) :=
  ⟨((C95_weights ⟨2, planeLine⟩ (by decide) _ 1).2 (by decide)).2.1, by decide +kernel⟩

/-- `C95_diagonal_weights`: the same on the diagonal. -/
example : (⟨2, planeLine⟩ : DSpline ℚ).curveQuadraticIntegralDiag [1] 1 = .throws ∧
    ((⟨2, planeLine⟩ : DSpline ℚ).curveQuadraticIntegralDiag [1, 3] 1).map (fun Q => Q 1 3) = .ok (-3) :=
  ⟨((C95_diagonal_weights ⟨2, planeLine⟩ (by decide) _ 1).2 (by decide)).2.1, by decide +kernel⟩

/-- `C95_stacked`: three numbers are not the coefficients of a line in the plane. -/
example (solve : Solver ℚ) : (Call.setVector [1, 2, 3]).run solve ⟨2, planeLine⟩ = (.throws, ⟨2, planeLine⟩) :=
  (C95_stacked solve ⟨2, planeLine⟩).1 _ (by decide)

end DSpline
end Verif
