import Verif.Props.Quaternion
import Verif.Props.State
import Verif.Props.Quadratic
import Verif.Props.Euclidean
import Verif.Props.Pose
import Verif.Props.OptUpdate
import Verif.Lemmas.PoseRotation

/-!
# C100: scaling, shifting and reversing time
-/

set_option linter.unusedSectionVars false

namespace Verif.MSpline

open Finset Polynomial Quaternion

section Field
variable {K P V : Type*} [Field K] [LinearOrder K] [IsStrictOrderedRing K]

/-- `s'` has the control vertices of `s` and its knots in other units of time: `t` becomes `a t + b`. -/
structure InOtherUnits (a b : K) (s s' : MSpline K P) : Prop where
  order : s'.order = s.order
  keys : s'.keys = s.keys.map fun x => a * x + b
  verts : s'.verts.take (s.keys.length - s.order) = s.verts.take (s.keys.length - s.order)

variable {a b : K} {s s' : MSpline K P}

theorem InOtherUnits.length (hu : InOtherUnits a b s s') : s'.keys.length = s.keys.length := by rw [hu.keys, List.length_map]

theorem InOtherUnits.kn (hu : InOtherUnits a b s s') {m : ℕ} (hm : m < s.keys.length) : s'.kn m = a * s.kn m + b := by
  unfold MSpline.kn
  rw [hu.keys]
  rw [List.getD_eq_getElem?_getD, List.getD_eq_getElem?_getD, List.getElem?_map, List.getElem?_eq_getElem hm]
  rfl

theorem InOtherUnits.vert? (hu : InOtherUnits a b s s') {j : ℕ} (hj : j < s.keys.length - s.order) :
    (MSpline.verts s')[j]? = (MSpline.verts s)[j]? := by
  have e := congrArg (fun l => l[j]?) hu.verts
  simp only [List.getElem?_take, if_pos hj] at e
  exact e

theorem InOtherUnits.segVerts (hu : InOtherUnits a b s s') {i : ℕ} (h1 : s.order - 1 ≤ i) (h2 : i < s.keys.length - s.order) :
    ((MSpline.verts s').drop (i + 1 - s.order)).take s.order = ((MSpline.verts s).drop (i + 1 - s.order)).take s.order := by
  apply List.ext_getElem?
  intro j
  rw [List.getElem?_take, List.getElem?_take]
  split
  · rw [List.getElem?_drop, List.getElem?_drop, hu.vert? (by omega)]
  · rfl

theorem InOtherUnits.inSeg (hu : InOtherUnits a b s s') (ho : 1 ≤ s.order) (ha : 0 < a) {t : K} {i : ℕ} (hi : s.InSeg t i) :
    s'.InSeg (a * t + b) i := by
  have h2 := hi.upper
  refine ⟨by rw [hu.order]; exact hi.lower, by rw [hu.order, hu.length]; exact h2, ?_, ?_⟩
  · rw [hu.kn (by omega)]
    have := mul_le_mul_of_nonneg_left hi.left ha.le
    linarith
  · rw [hu.kn (by omega), hu.length, hu.order]
    rcases hi.right with h | ⟨h, h'⟩
    · left
      have := mul_lt_mul_of_pos_left h ha
      linarith
    · right
      exact ⟨by rw [h], h'⟩

theorem InOtherUnits.outside (hu : InOtherUnits a b s s') (hw : s.MWF) (he : s.state = .evaluable) (ha : 0 < a) {t : K}
    (ht : t < s.kn (s.order - 1) ∨ s.kn (s.keys.length - s.order) < t) :
    a * t + b < s'.kn (s'.order - 1) ∨ s'.kn (s'.keys.length - s'.order) < a * t + b := by
  have hn := hw.enough he
  have hp := hw.order_pos
  rw [hu.order, hu.length, hu.kn (by omega), hu.kn (by omega)]
  rcases ht with h | h
  · left
    have := mul_lt_mul_of_pos_left h ha
    linarith
  · right
    have := mul_lt_mul_of_pos_left h ha
    linarith

theorem InOtherUnits.piece (hu : InOtherUnits a b s s') (ha : 0 < a) (i p j : ℕ) (hj : j + p + 1 < s.keys.length) :
    Verif.piece s.kn i p j = (Verif.piece s'.kn i p j).comp (C a * X + C b) :=
  piece_scale s.kn s'.kn a b ha s.keys.length i (fun _ hm => hu.kn hm) p j hj

theorem InOtherUnits.piece_deriv (hu : InOtherUnits a b s s') (ha : 0 < a) (i p j : ℕ) (hj : j + p + 1 < s.keys.length) (d : ℕ) (t : K) :
    (derivative^[d] (Verif.piece s'.kn i p j)).eval (a * t + b) = (a ^ d)⁻¹ * (derivative^[d] (Verif.piece s.kn i p j)).eval t := by
  rw [hu.piece ha i p j hj, iterate_derivative_comp_linear]
  simp only [eval_mul, eval_C, eval_comp, eval_add, eval_X]
  have : a ^ d ≠ 0 := pow_ne_zero _ ha.ne'
  field_simp

/-- C100: the valid interval is in the other units, too. -/
theorem C100_interval (M : Mfd K P V) (order : ℕ) (ho : 1 ≤ order) (s s' : MSpline K P) (h : RegularReach M order s)
    (h' : RegularReach M order s') (he : s.state = .evaluable) (he' : s'.state = .evaluable) (a b : K)
    (hu : InOtherUnits a b s s') :
    s'.getMinTime = s.getMinTime.map (fun t => a * t + b) ∧ s'.getMaxTime = s.getMaxTime.map (fun t => a * t + b) := by
  obtain ⟨hw, rfl⟩ := h.mwf ho
  obtain ⟨hw', -⟩ := h'.mwf ho
  have hn := hw.enough he
  rw [getMinTime_eq hw he, getMinTime_eq hw' he', getMaxTime_eq hw he, getMaxTime_eq hw' he', hu.order, hu.length, hu.kn (by omega),
    hu.kn (by omega)]
  exact ⟨rfl, rfl⟩

/-- C100: on every manifold the curve in the other units takes the same values; times are invalid for both or for none. -/
theorem C100_value (M : Mfd K P V) (order : ℕ) (ho : 1 ≤ order) (s s' : MSpline K P) (h : RegularReach M order s)
    (h' : RegularReach M order s') (he : s.state = .evaluable) (he' : s'.state = .evaluable) (a b : K) (ha : 0 < a)
    (hu : InOtherUnits a b s s') (t : K) : s'.evalGeneric M (a * t + b) = s.evalGeneric M t := by
  obtain ⟨hw, rfl⟩ := h.mwf ho
  obtain ⟨hw', -⟩ := h'.mwf ho
  rcases evaluable_total hw he t with ⟨i, hi⟩ | ht
  · have h1 := hi.lower
    have h2 := hi.upper
    obtain ⟨p, e, c⟩ := evalGeneric_segCurve hw he M hi
    obtain ⟨p', e', c'⟩ := evalGeneric_segCurve hw' he' M (hu.inSeg ho ha hi)
    rw [e, e']
    congr 1
    have : segCurve M s'.order s'.kn s'.verts i (a * t + b) = segCurve M s.order s.kn s.verts i t := by
      unfold segCurve
      rw [hu.order, hu.segVerts (by omega) (by omega)]
      cases hv : (s.verts.drop (i + 1 - s.order)).take s.order with
      | nil => rfl
      | cons c cs =>
        have hl : cs.length + 1 ≤ s.order := by
          have : (c :: cs).length ≤ s.order := by rw [← hv, List.length_take]; omega
          simpa using this
        simp only [Option.some.injEq]
        refine genericLoop_congr M _ _ _ 1 _ _ fun j h3 h4 => ?_
        rw [cumulativeOf_eq _ _ _ (by omega) (by omega), cumulativeOf_eq _ _ _ (by omega) (by omega)]
        refine sum_congr rfl fun x hx => ?_
        have := mem_Ico.1 hx
        have := hu.piece_deriv ha i (s.order - 1) (i + 1 - s.order + x) (by omega) 0 t
        simpa using this
    rw [this, c] at c'
    exact (Option.some.inj c').symm
  · unfold evalGeneric
    rw [evaluatorAt_throws hw t (Or.inr ht), evaluatorAt_throws hw' _ (Or.inr (hu.outside hw he ha ht))]
    rfl

end Field

section Euclidean
variable {K P : Type*} [Field K] [LinearOrder K] [IsStrictOrderedRing K] [AddCommGroup P] [Module K P]

/-- C100: derivatives of order `d` of a Euclidean spline are divided by `a ^ d`. -/
theorem C100_euclidean (order : ℕ) (ho : 1 ≤ order) (s s' : MSpline K P) (h : RegularReach (euclidean K P) order s)
    (h' : RegularReach (euclidean K P) order s') (he : s.state = .evaluable) (he' : s'.state = .evaluable) (a b : K) (ha : 0 < a)
    (hu : InOtherUnits a b s s') (t : K) (der : ℕ) :
    s'.euclideanEvalD none (a * t + b) der = (s.euclideanEvalD none t der).map fun v => (a ^ der)⁻¹ • v := by
  obtain ⟨hw, rfl⟩ := h.mwf ho
  obtain ⟨hw', -⟩ := h'.mwf ho
  have hn := hw.enough he
  rcases evaluable_total hw he t with ⟨i, hi⟩ | ht
  · rw [euclideanEvalD_eq hw he hi none der (by simp), euclideanEvalD_eq hw' he' (hu.inSeg ho ha hi) none der (by simp), Outcome.map_ok]
    congr 1
    unfold segSum
    rw [hu.length, hu.order, smul_sum]
    refine sum_congr rfl fun j hj => ?_
    have := mem_range.1 hj
    rw [hu.piece_deriv ha i _ j (by omega), mul_smul]
    have h1 := hi.lower
    have h2 := hi.upper
    unfold vert
    rw [List.getD_eq_getElem?_getD, List.getD_eq_getElem?_getD, hu.vert? (by omega)]
  · unfold euclideanEvalD
    rw [evaluatorAt_throws hw t (Or.inr ht), evaluatorAt_throws hw' _ (Or.inr (hu.outside hw he ha ht))]
    rfl

end Euclidean

section Real
variable {P : Type*} [NormedAddCommGroup P] [NormedSpace ℝ P] [CompleteSpace P]

/-- C100: integrals of a Euclidean spline are multiplied by `a`, away from the tolerances of the program. -/
theorem C100_integral (order : ℕ) (ho : 1 ≤ order) (s s' : MSpline ℝ P) (h : RegularReach (euclidean ℝ P) order s)
    (h' : RegularReach (euclidean ℝ P) order s') (he : s.state = .evaluable) (he' : s'.state = .evaluable) (a b : ℝ) (ha : 0 < a)
    (hu : InOtherUnits a b s s') (tmin tmax : ℝ) (hmin : s.getMinTime = .ok tmin) (hmax : s.getMaxTime = .ok tmax) (t1 t2 : ℝ)
    (h1 : tmin ≤ t1 ∧ t1 ≤ tmax) (h2 : tmin ≤ t2 ∧ t2 ≤ tmax) (c1 : s.Clear t1) (c2 : s.Clear t2) (c1' : s'.Clear (a * t1 + b))
    (c2' : s'.Clear (a * t2 + b)) :
    s'.euclideanIntegral (a * t1 + b) (a * t2 + b) = (s.euclideanIntegral t1 t2).map fun v => a • v := by
  obtain ⟨hm1, hm2⟩ := C100_interval _ order ho s s' h h' he he' a b hu
  rw [hmin, Outcome.map_ok] at hm1
  rw [hmax, Outcome.map_ok] at hm2
  obtain ⟨v, e, -, hv, -⟩ := C54_integral order ho s h he tmin tmax hmin hmax t1 t2 h1 h2
  have mono : ∀ {x y : ℝ}, x ≤ y → a * x + b ≤ a * y + b := fun hxy => by
    have := mul_le_mul_of_nonneg_left hxy ha.le
    linarith
  obtain ⟨v', e', -, hv', -⟩ := C54_integral order ho s' h' he' _ _ hm1 hm2 (a * t1 + b) (a * t2 + b) ⟨mono h1.1, mono h1.2⟩
    ⟨mono h2.1, mono h2.2⟩
  rw [e, e', Outcome.map_ok, hv c1 c2, hv' c1' c2', ← intervalIntegral.smul_integral_comp_mul_add]
  congr 2
  refine intervalIntegral.integral_congr fun x _ => ?_
  have := C100_euclidean order ho s s' h h' he he' a b ha hu x 0
  simp only [pow_zero, inv_one, one_smul, Nat.cast_zero] at this
  have hid : ∀ o : Outcome P, o.map (fun v => v) = o := fun o => by cases o <;> rfl
  rw [hid] at this
  show (s'.euclideanEval (a * x + b)).getD 0 = (s.euclideanEval x).getD 0
  unfold euclideanEval
  rw [this]

end Real

section Quat

theorem factors_scale (β β' : ℕ → ℝ[X]) (a b x : ℝ) : ∀ (φs : List V3) (k : ℕ),
    (∀ j, k < j → j ≤ k + φs.length → (β' j).eval (a * x + b) = (β j).eval x) →
    dProd ((factorsFrom β' k φs).map fun f e => f e (a * x + b)) 0 = dProd ((factorsFrom β k φs).map fun f e => f e x) 0
  | [], _, _ => rfl
  | φ :: φs, k, h => by
    simp only [factorsFrom, List.map_cons]
    rw [dProd_zero, dProd_zero, factors_scale β β' a b x φs (k + 1) fun j h1 h2 => h j (by omega) (by simp at h2 ⊢; omega)]
    simp only [rD, Function.iterate_zero, id]
    rw [h (k + 1) (by omega) (by simp)]

theorem segQ_scale (lg : ℍ[ℝ] → V3) {s s' : MSpline ℝ ℍ[ℝ]} {a b : ℝ} (ha : 0 < a) (hu : InOtherUnits a b s s') {i : ℕ}
    (hlo : s.order ≤ i + 1) (hup : i + s.order < s.keys.length) (hpos : 1 ≤ s.order) {c : ℍ[ℝ]} {cs : List ℍ[ℝ]} (hl : cs.length + 1 ≤ s.order) :
    ∀ d, d ≤ 3 → ∀ x, s'.segQ lg i c cs d (a * x + b) = (a ^ d)⁻¹ • s.segQ lg i c cs d x := by
  intro d
  induction d with
  | zero =>
    intro _ x
    rw [pow_zero, inv_one, one_smul]
    unfold segQ segFactors
    rw [factors_scale (s.betaPoly i) (s'.betaPoly i) a b x]
    intro j h1 h2
    rw [phiList_length] at h2
    unfold betaPoly
    rw [eval_finsetSum, eval_finsetSum, hu.order]
    refine sum_congr rfl fun y hy => ?_
    have := mem_Ico.1 hy
    have := hu.piece_deriv ha i (s.order - 1) (i + 1 - s.order + y) (by omega) 0 x
    simpa using this
  | succ d ih =>
    intro hd x
    have h1 : HasDerivAt (fun x => s'.segQ lg i c cs d (a * x + b)) (a • s'.segQ lg i c cs (d + 1) (a * x + b)) x := by
      have hin : HasDerivAt (fun x : ℝ => a * x + b) a x := by
        simpa using ((hasDerivAt_id x).const_mul a).add_const b
      exact (s'.segQ_deriv lg i c cs (a * x + b) d (by omega)).scomp x hin
    have h2 : HasDerivAt (fun x => s'.segQ lg i c cs d (a * x + b)) ((a ^ d)⁻¹ • s.segQ lg i c cs (d + 1) x) x := by
      rw [show (fun x => s'.segQ lg i c cs d (a * x + b)) = fun x => (a ^ d)⁻¹ • s.segQ lg i c cs d x from funext fun x => ih (by omega) x]
      exact (s.segQ_deriv lg i c cs x d (by omega)).fun_const_smul _
    have h3 := h1.unique h2
    rw [pow_succ, mul_inv, mul_comm (a ^ d)⁻¹, mul_smul, ← h3, smul_smul, inv_mul_cancel₀ ha.ne', one_smul]

theorem quatEvalD_throws (lg : ℍ[ℝ] → V3) {s : MSpline ℝ ℍ[ℝ]} {t : ℝ} (h : s.evaluatorAt t = .throws) (d : ℤ) :
    s.quatEvalD lg t d = .throws := by
  unfold quatEvalD evalGeneric
  rw [h]
  split <;> rfl

/-- C100: derivatives of order `d` of a quaternion spline are divided by `a ^ d` (as far as the program computes them, C29). -/
theorem C100_quaternion (lg : ℍ[ℝ] → V3) (order : ℕ) (ho : 1 ≤ order) (s s' : MSpline ℝ ℍ[ℝ])
    (h : RegularReach (quatGroup lg).toMfd order s) (h' : RegularReach (quatGroup lg).toMfd order s') (he : s.state = .evaluable)
    (he' : s'.state = .evaluable) (a b : ℝ) (ha : 0 < a) (hu : InOtherUnits a b s s') (t : ℝ) (d : ℕ) (hd : d ≤ 1 ∨ 2 ≤ order ∧ d ≤ 3) :
    s'.quatEvalD lg (a * t + b) d = (s.quatEvalD lg t d).map fun q => (a ^ d)⁻¹ • q := by
  obtain ⟨hw, rfl⟩ := h.mwf ho
  obtain ⟨hw', -⟩ := h'.mwf ho
  rcases evaluable_total hw he t with ⟨i, hi⟩ | ht
  · obtain ⟨c, cs, hv⟩ := segVerts_exists hw hi
    have hl := segVerts_length hi hv
    rw [quatEvalD_segQ lg hw he hi hv d hd, quatEvalD_segQ lg hw' he' (hu.inSeg ho ha hi) (c := c) (cs := cs)
      (by rw [hu.order, hu.segVerts (by have := hi.lower; omega) (by have := hi.upper; omega)]; exact hv) d (by rw [hu.order]; exact hd), Outcome.map_ok,
      segQ_scale lg ha hu hi.lower hi.upper ho (by omega) d (by omega)]
  · rw [quatEvalD_throws lg (evaluatorAt_throws hw t (Or.inr ht)), quatEvalD_throws lg (evaluatorAt_throws hw' _ (Or.inr (hu.outside hw he ha ht)))]
    rfl

/-- C100: angular velocities are divided by `a`, angular accelerations by `a ^ 2`. -/
theorem C100_angular (lg : ℍ[ℝ] → V3) (order : ℕ) (ho : 1 ≤ order) (s s' : MSpline ℝ ℍ[ℝ])
    (h : RegularReach (quatGroup lg).toMfd order s) (h' : RegularReach (quatGroup lg).toMfd order s') (he : s.state = .evaluable)
    (he' : s'.state = .evaluable) (a b : ℝ) (ha : 0 < a) (hu : InOtherUnits a b s s') (t : ℝ) :
    s'.evalAngularVelocity lg (a * t + b) = (s.evalAngularVelocity lg t).map (fun w => a⁻¹ • w) ∧
    (2 ≤ order → s'.evalAngularAcceleration lg (a * t + b) = (s.evalAngularAcceleration lg t).map (fun w => (a ^ 2)⁻¹ • w)) := by
  have key : ∀ d, (d ≤ 1 ∨ 2 ≤ order ∧ d ≤ 2) →
      s'.evalAngularDerivative lg (a * t + b) d = (s.evalAngularDerivative lg t d).map (fun w => (a ^ d)⁻¹ • w) := by
    intro d hd
    obtain ⟨hw, rfl⟩ := h.mwf ho
    obtain ⟨hw', -⟩ := h'.mwf ho
    rcases evaluable_total hw he t with ⟨i, hi⟩ | ht
    · obtain ⟨c, cs, hv⟩ := segVerts_exists hw hi
      have hl := segVerts_length hi hv
      rw [evalAngular_segQ lg hw he hi hv d hd, evalAngular_segQ lg hw' he' (hu.inSeg ho ha hi) (c := c) (cs := cs)
        (by rw [hu.order, hu.segVerts (by have := hi.lower; omega) (by have := hi.upper; omega)]; exact hv) d (by rw [hu.order]; exact hd), Outcome.map_ok,
        segQ_scale lg ha hu hi.lower hi.upper ho (by omega) d (by omega), segQ_scale lg ha hu hi.lower hi.upper ho (by omega) 0 (by omega),
        pow_zero, inv_one, one_smul, mul_smul_comm, map_smul]
    · unfold evalAngularDerivative
      rw [quatEvalD_throws lg (evaluatorAt_throws hw t (Or.inr ht)),
        quatEvalD_throws lg (evaluatorAt_throws hw' _ (Or.inr (hu.outside hw he ha ht)))]
      rfl
  refine ⟨?_, fun h2 => key 2 (Or.inr ⟨h2, le_rfl⟩)⟩
  have := key 1 (Or.inl le_rfl)
  rw [pow_one] at this
  exact this

end Quat

end Verif.MSpline

namespace Verif

open Finset Polynomial

section Reverse
variable {K : Type*} [Field K] [LinearOrder K] [IsStrictOrderedRing K]

/-- Basis polynomials of knots in the reverse order. -/
theorem piece_reverse (kn kn' : ℕ → K) (c : K) (n i : ℕ) (hi : i + 2 ≤ n) (h : ∀ m, m < n → kn' m = c - kn (n - 1 - m)) :
    ∀ p j, j + p + 1 < n → piece kn' (n - 2 - i) p (n - 2 - p - j) = (piece kn i p j).comp (C (-1) * X + C c)
  | 0, j, hj => by
    simp only [piece]
    by_cases hij : j = i
    · subst hij
      simp
    · rw [if_neg (by omega), if_neg hij, zero_comp]
  | (p + 1), j, hj => by
    simp only [piece]
    have e1 : n - 2 - (p + 1) - j = n - 2 - p - (j + 1) := by omega
    have e2 : n - 2 - p - (j + 1) + 1 = n - 2 - p - j := by omega
    have k1 : kn' (n - 2 - p - (j + 1) + p + 1) = c - kn (j + 1) := by rw [h _ (by omega)]; congr 2; omega
    have k2 : kn' (n - 2 - p - (j + 1)) = c - kn (j + p + 2) := by rw [h _ (by omega)]; congr 2; omega
    have k3 : kn' (n - 2 - p - (j + 1) + p + 2) = c - kn j := by rw [h _ (by omega)]; congr 2; omega
    have k4 : kn' (n - 2 - p - j) = c - kn (j + p + 1) := by rw [h _ (by omega)]; congr 2; omega
    rw [e1, e2, k1, k2, k3, k4, piece_reverse kn kn' c n i hi h p (j + 1) (by omega), piece_reverse kn kn' c n i hi h p j (by omega)]
    simp only [add_comp, mul_comp, sub_comp, C_comp, X_comp, C_sub, C_neg, C_1]
    have d1 : c - kn (j + 1) - (c - kn (j + p + 2)) = kn (j + p + 2) - kn (j + 1) := by ring
    have d2 : c - kn j - (c - kn (j + p + 1)) = kn (j + p + 1) - kn j := by ring
    rw [d1, d2]
    ring

end Reverse

namespace BSpline
section
variable {K : Type*} [Field K] [LinearOrder K] [IsStrictOrderedRing K] {D : ℕ}

/-- `s'` is `s` run backwards: `t` becomes `c - t`. -/
structure Backwards (c : K) (s s' : BSpline K D) : Prop where
  order : s'.order = s.order
  knots : s'.knots = (s.knots.map fun x => c - x).reverse
  coeffs : s'.coeffs = s.coeffs.reverse

theorem Backwards.length {c : K} {s s' : BSpline K D} (hb : Backwards c s s') : s'.knots.length = s.knots.length := by
  rw [hb.knots, List.length_reverse, List.length_map]

theorem Backwards.kn {c : K} {s s' : BSpline K D} (hb : Backwards c s s') {m : ℕ} (hm : m < s.knots.length) :
    s'.kn m = c - s.kn (s.knots.length - 1 - m) := by
  unfold BSpline.kn
  rw [hb.knots, List.getD_eq_getElem?_getD, List.getD_eq_getElem?_getD, List.getElem?_reverse (by simpa using hm), List.length_map,
    List.getElem?_map, List.getElem?_eq_getElem (by omega)]
  rfl

theorem Backwards.col {c : K} {s s' : BSpline K D} (hb : Backwards c s s') {j : ℕ} (hj : j < s.coeffs.length) :
    s'.col (s.coeffs.length - 1 - j) = s.col j := by
  unfold BSpline.col
  rw [hb.coeffs, List.getD_eq_getElem?_getD, List.getD_eq_getElem?_getD, List.getElem?_reverse (by omega)]
  congr 2
  omega

/-- C100: the spline run backwards has the same values, and its derivatives of odd order change their sign; at all times but inner
knots, where the derivatives from the right become those from the left. -/
theorem C100_backwards (s s' : BSpline K D) (h : s.WF) (h' : s'.WF) (c : K) (hb : Backwards c s s') (lo hi : K) (hlo : s.tMin = .ok lo)
    (hhi : s.tMax = .ok hi) (t : K) (ht : s.Admissible t) (ht' : s'.Admissible (c - t)) (hin : t ∉ s.knots ∨ t = lo ∨ t = hi) (der : ℕ) :
    s'.evalD (c - t) der = (s.evalD t der).map fun v d => (-1) ^ der * v d := by
  have hk := h.order_pos
  have hn := h.enough
  have hcl := h.coeffs_len
  rw [tMin_eq h, Outcome.ok.injEq] at hlo
  rw [tMax_eq h, Outcome.ok.injEq] at hhi
  obtain ⟨i, -, hi⟩ := lookup h t ht
  have hu := hi.upper
  have hl := hi.lower
  have hi' : s'.InSegment (c - t) (s.knots.length - 2 - i) := by
    have e1 : s.knots.length - 1 - (s.knots.length - 2 - i) = i + 1 := by omega
    have e2 : s.knots.length - 1 - (s.knots.length - 2 - i + 1) = i := by omega
    refine ⟨by rw [hb.order]; omega, by rw [hb.order, hb.length]; omega, ?_, ?_, ?_⟩
    · rw [hb.kn (by omega), hb.kn (by omega), e1, e2]
      have := hi.pos
      linarith
    · rw [hb.kn (by omega), e1]
      have := hi.le
      linarith
    · rw [hb.kn (by omega), e2, hb.order, hb.length]
      rcases hi.left.lt_or_eq with h1 | h1
      · left; linarith
      · right
        refine ⟨by rw [h1], ?_⟩
        have hlast : i = s.order - 1 := by
          rcases hin with h2 | h2 | h2
          · refine absurd ?_ h2
            rw [← h1]
            unfold BSpline.kn
            rw [List.getD_eq_getElem?_getD, List.getElem?_eq_getElem (by omega)]
            exact List.getElem_mem _
          · by_contra hne
            have a1 := h.mono s.order i (by omega) (by omega)
            obtain ⟨-, -, h3⟩ := ht'
            rw [hb.order, hb.length, hb.kn (by omega), hb.kn (by omega)] at h3
            rw [show s.knots.length - 1 - (s.knots.length - s.order) = s.order - 1 by omega,
              show s.knots.length - 1 - (s.knots.length - s.order - 1) = s.order by omega] at h3
            have htol : (0 : K) < snapTol := by unfold snapTol; positivity
            rcases h3 with h3 | ⟨-, h3⟩ <;> linarith
          · have a1 := h.mono (i + 1) (s.knots.length - s.order) (by omega) (by omega)
            have a2 := hi.pos
            linarith
        omega
  unfold evalD
  rw [if_neg (by omega), if_neg (by omega)]
  simp only [Int.toNat_natCast]
  rw [evalDNat_of_inSegment h' ht' hi', evalDNat_of_inSegment h ht hi]
  simp only [Outcome.map_ok]
  congr 1
  funext d
  have hcl' : s'.coeffs.length = s.coeffs.length := by rw [hb.coeffs, List.length_reverse]
  rw [hcl', hb.order, mul_sum, ← sum_range_reflect]
  refine sum_congr rfl fun j hj => ?_
  have hj' := mem_range.1 hj
  rw [hb.col hj']
  have e := piece_reverse s.kn s'.kn c s.knots.length i (by omega) (fun m hm => hb.kn hm) (s.order - 1) j (by omega)
  rw [show s.knots.length - 2 - (s.order - 1) - j = s.coeffs.length - 1 - j by omega] at e
  rw [e, iterate_derivative_comp_linear]
  simp only [eval_mul, eval_C, eval_comp, eval_add, eval_X]
  rw [show (-1 : K) * (c - t) + c = t by ring]
  ring

end

section Real
variable {D : ℕ}

/-- `s'` has the coefficients of `s` and its knots in other units of time: `t` becomes `a t + b`. -/
structure InOtherUnits {K : Type*} [Field K] (a b : K) (s s' : BSpline K D) : Prop where
  order : s'.order = s.order
  knots : s'.knots = s.knots.map fun x => a * x + b
  coeffs : s'.coeffs = s.coeffs

theorem InOtherUnits.bounds {a b : ℝ} {s s' : BSpline ℝ D} (hu : InOtherUnits a b s s') (h : s.WF) (h' : s'.WF) {lo hi : ℝ}
    (hlo : s.tMin = .ok lo) (hhi : s.tMax = .ok hi) : s'.tMin = .ok (a * lo + b) ∧ s'.tMax = .ok (a * hi + b) := by
  have hk := h.order_pos
  have hn := h.enough
  have hkn : ∀ m, m < s.knots.length → s'.kn m = a * s.kn m + b := by
    intro m hm
    unfold BSpline.kn
    rw [hu.knots, List.getD_eq_getElem?_getD, List.getD_eq_getElem?_getD, List.getElem?_map, List.getElem?_eq_getElem hm]
    rfl
  rw [tMin_eq h, Outcome.ok.injEq] at hlo
  rw [tMax_eq h, Outcome.ok.injEq] at hhi
  rw [tMin_eq h', tMax_eq h', hu.order, hu.knots, List.length_map, hkn _ (by omega), hkn _ (by omega), hlo, hhi]
  exact ⟨rfl, rfl⟩

theorem InOtherUnits.evalD {a b : ℝ} (ha : 0 < a) {s s' : BSpline ℝ D} (hu : InOtherUnits a b s s') (h : s.WF) (h' : s'.WF)
    (hw : s.WideLast) (hw' : s'.WideLast) {lo hi : ℝ} (hlo : s.tMin = .ok lo) (hhi : s.tMax = .ok hi) {t : ℝ} (h1 : lo ≤ t) (h2 : t ≤ hi)
    (der : ℕ) : s'.evalD (a * t + b) der = (s.evalD t der).map fun v d => v d / a ^ der := by
  obtain ⟨e1, e2⟩ := hu.bounds h h' hlo hhi
  rw [tMin_eq h, Outcome.ok.injEq] at hlo
  rw [tMax_eq h, Outcome.ok.injEq] at hhi
  rw [tMin_eq h', Outcome.ok.injEq] at e1
  rw [tMax_eq h', Outcome.ok.injEq] at e2
  refine C18_time_scaling s s' h h' a b ha hu.order hu.knots hu.coeffs t (admissible_of_wide _ (WideLast.wide h hw) (by rw [hlo]; exact h1) (by rw [hhi]; exact h2))
    (admissible_of_wide _ (WideLast.wide h' hw') ?_ ?_) der
  · rw [e1]
    have := mul_le_mul_of_nonneg_left h1 ha.le
    linarith
  · rw [e2]
    have := mul_le_mul_of_nonneg_left h2 ha.le
    linarith

/-- C100: integrals are multiplied by `a`, away from the tolerances of the program. -/
theorem C100_plain_integral (s s' : BSpline ℝ D) (h : s.WF) (h' : s'.WF) (hw : s.WideLast) (hw' : s'.WideLast) (a b : ℝ) (ha : 0 < a)
    (hu : InOtherUnits a b s s') (lo hi : ℝ) (hlo : s.tMin = .ok lo) (hhi : s.tMax = .ok hi) (t1 t2 : ℝ) (h1 : lo ≤ t1 ∧ t1 ≤ hi)
    (h2 : lo ≤ t2 ∧ t2 ≤ hi) (c1 : NotTiny s t1) (c2 : NotTiny s t2) (c1' : NotTiny s' (a * t1 + b)) (c2' : NotTiny s' (a * t2 + b)) :
    s'.evalIntegral (a * t1 + b) (a * t2 + b) = (s.evalIntegral t1 t2).map fun v d => a * v d := by
  obtain ⟨e1, e2⟩ := hu.bounds h h' hlo hhi
  have mono : ∀ {x y : ℝ}, x ≤ y → a * x + b ≤ a * y + b := fun hxy => by
    have := mul_le_mul_of_nonneg_left hxy ha.le
    linarith
  obtain ⟨v, e, hv⟩ := C08_integral s h hw lo hi hlo hhi t1 t2 h1 h2
  obtain ⟨v', e', hv'⟩ := C08_integral s' h' hw' _ _ e1 e2 (a * t1 + b) (a * t2 + b) ⟨mono h1.1, mono h1.2⟩ ⟨mono h2.1, mono h2.2⟩
  rw [e, e', Outcome.map_ok]
  congr 1
  funext d
  rw [(hv d).2.1 c1 c2, (hv' d).2.1 c1' c2', ← intervalIntegral.smul_integral_comp_mul_add, smul_eq_mul]
  congr 1
  refine intervalIntegral.integral_congr fun x hx => ?_
  have hx' : lo ≤ x ∧ x ≤ hi := by
    rcases le_total t1 t2 with hle | hle
    · rw [Set.uIcc_of_le hle] at hx
      exact ⟨h1.1.trans hx.1, hx.2.trans h2.2⟩
    · rw [Set.uIcc_of_ge hle] at hx
      exact ⟨h2.1.trans hx.1, hx.2.trans h1.2⟩
  have := hu.evalD ha h h' hw hw' hlo hhi hx'.1 hx'.2 0
  simp only [pow_zero, div_one, Nat.cast_zero] at this
  have hid : ∀ o : Outcome (Fin D → ℝ), o.map (fun v d => v d) = o := fun o => by cases o <;> rfl
  rw [hid] at this
  show (s'.eval (a * x + b)).getD 0 d = (s.eval x).getD 0 d
  unfold BSpline.eval
  rw [this]

/-- C100: the quadratic cost of the derivative of order `d` is multiplied by `a / (a ^ d) ^ 2`. -/
theorem C100_cost (s s' : BSpline ℝ D) (h : s.WF) (h' : s'.WF) (hw : s.WideLast) (hw' : s'.WideLast) (a b : ℝ) (ha : 0 < a)
    (hu : InOtherUnits a b s s') (W : Mat ℝ) (hW : AcceptedWeight D W) (der : ℕ) :
    ∃ Q Q', s.curveQuadraticIntegral W der = .ok Q ∧ s'.curveQuadraticIntegral W der = .ok Q' ∧
      (∑ p ∈ range (s.coeffs.length * D), ∑ q ∈ range (s.coeffs.length * D),
        s.coefficientVector.getD p 0 * Q' p q * s.coefficientVector.getD q 0) = a / (a ^ der) ^ 2 *
      ∑ p ∈ range (s.coeffs.length * D), ∑ q ∈ range (s.coeffs.length * D),
        s.coefficientVector.getD p 0 * Q p q * s.coefficientVector.getD q 0 := by
  have hlo := tMin_eq h
  have hhi := tMax_eq h
  set lo := s.kn (s.order - 1) with hlo'
  set hi := s.kn (s.knots.length - s.order) with hhi'
  have hle : lo ≤ hi := h.mono _ _ (by have := h.enough; omega) (by have := h.enough; have := h.order_pos; omega)
  obtain ⟨e1, e2⟩ := hu.bounds h h' hlo hhi
  obtain ⟨Q, hQ, eQ⟩ := C09_quadratic_integral s h hw W hW der lo hi hlo hhi
  obtain ⟨Q', hQ', eQ'⟩ := C09_quadratic_integral s' h' hw' W hW der _ _ e1 e2
  refine ⟨Q, Q', hQ, hQ', ?_⟩
  have hcv : s'.coefficientVector = s.coefficientVector := by unfold coefficientVector col; rw [hu.coeffs]
  rw [hcv, hu.coeffs] at eQ'
  rw [eQ, eQ', ← intervalIntegral.smul_integral_comp_mul_add, smul_eq_mul, div_eq_mul_inv, mul_assoc,
    ← intervalIntegral.integral_const_mul ((a ^ der) ^ 2)⁻¹]
  congr 1
  refine intervalIntegral.integral_congr fun x hx => ?_
  rw [Set.uIcc_of_le hle] at hx
  have := hu.evalD ha h h' hw hw' hlo hhi hx.1 hx.2 der
  simp only [this]
  have hn : a ^ der ≠ 0 := pow_ne_zero _ ha.ne'
  rw [mul_sum]
  refine sum_congr rfl fun d _ => ?_
  rw [mul_sum]
  refine sum_congr rfl fun e _ => ?_
  cases s.evalD x der with
  | ok v =>
    simp only [Outcome.map_ok, Outcome.getD]
    field_simp
  | throws => simp [Outcome.map, Outcome.getD]
  | ub => simp [Outcome.map, Outcome.getD]

end Real
end BSpline

namespace Pose
variable {K : Type*} [Field K] [LinearOrder K] [IsStrictOrderedRing K]

/-- C100: in the other units a pose spline takes the same poses, its velocities are divided by `a`, its accelerations by `a ^ 2`. -/
theorem C100_pose (s s' : Pose K) (h : s.spline.WF) (h' : s'.spline.WF) (a b : K) (ha : 0 < a) (hr : s'.rotation = s.rotation)
    (hu : BSpline.InOtherUnits a b s.spline s'.spline) (t : K) (ht : s.spline.Admissible t) (ht' : s'.spline.Admissible (a * t + b)) :
    s'.transformation (a * t + b) = s.transformation t ∧ s'.inverseTransformation (a * t + b) = s.inverseTransformation t ∧
    s'.linearVelocity (a * t + b) = (s.linearVelocity t).map (fun v => a⁻¹ • v) ∧
    s'.linearVelocityBodyFrame (a * t + b) = (s.linearVelocityBodyFrame t).map (fun v => a⁻¹ • v) ∧
    s'.angularVelocity (a * t + b) = (s.angularVelocity t).map (fun v => a⁻¹ • v) ∧
    s'.angularVelocityBodyFrame (a * t + b) = (s.angularVelocityBodyFrame t).map (fun v => a⁻¹ • v) ∧
    s'.linearAcceleration (a * t + b) = (s.linearAcceleration t).map (fun v => (a ^ 2)⁻¹ • v) ∧
    s'.linearAccelerationBodyFrame (a * t + b) = (s.linearAccelerationBodyFrame t).map (fun v => (a ^ 2)⁻¹ • v) ∧
    s'.angularAccelerationBodyFrame (a * t + b) = (s.angularAccelerationBodyFrame t).map (fun v => (a ^ 2)⁻¹ • v) := by
  have key := fun der => C18_time_scaling s.spline s'.spline h h' a b ha hu.order hu.knots hu.coeffs t ht ht' der
  have e0 := key 0
  have e1 := key 1
  have e2 := key 2
  simp only [pow_zero, div_one, pow_one, Nat.cast_zero, Nat.cast_one, Nat.cast_ofNat] at e0 e1 e2
  have hid : ∀ o : Outcome (Fin 6 → K), o.map (fun v d => v d) = o := fun o => by cases o <;> rfl
  rw [hid] at e0
  have hhead : ∀ (v : Fin 6 → K) (x : K), head (fun d => v d / x) = x⁻¹ • head v := fun v x => by
    funext i
    simp [head, div_eq_inv_mul]
  have htail : ∀ (v : Fin 6 → K) (x : K), tail (fun d => v d / x) = x⁻¹ • tail v := fun v x => by
    funext i
    simp [tail, div_eq_inv_mul]
  unfold transformation inverseTransformation linearVelocity linearVelocityBodyFrame angularVelocity angularVelocityBodyFrame
    linearAcceleration linearAccelerationBodyFrame angularAccelerationBodyFrame BSpline.eval
  rw [e0, e1, e2, hr]
  cases s.spline.evalD t 0 <;> cases s.spline.evalD t 1 <;> cases s.spline.evalD t 2 <;>
    simp [Outcome.map, Outcome.bind, hhead, htail, Matrix.mulVec_smul]

end Pose
end Verif

namespace Verif.MSpline

open Finset Polynomial Quaternion

section Backwards
variable {K P : Type*} [Field K] [LinearOrder K] [IsStrictOrderedRing K]

/-- `s'` is `s` run backwards: `t` becomes `c - t`, and the control vertices in use are in the reverse order. -/
structure Backwards (c : K) (s s' : MSpline K P) : Prop where
  order : s'.order = s.order
  keys : s'.keys = (s.keys.map fun x => c - x).reverse
  verts : s'.verts.take (s.keys.length - s.order) = (s.verts.take (s.keys.length - s.order)).reverse

variable {c : K} {s s' : MSpline K P}

theorem Backwards.length (hb : Backwards c s s') : s'.keys.length = s.keys.length := by
  rw [hb.keys, List.length_reverse, List.length_map]

theorem Backwards.kn (hb : Backwards c s s') {m : ℕ} (hm : m < s.keys.length) : s'.kn m = c - s.kn (s.keys.length - 1 - m) := by
  unfold MSpline.kn
  rw [hb.keys, List.getD_eq_getElem?_getD, List.getD_eq_getElem?_getD, List.getElem?_reverse (by simpa using hm), List.length_map,
    List.getElem?_map, List.getElem?_eq_getElem (by omega)]
  rfl

theorem Backwards.vert [AddCommGroup P] (hb : Backwards c s s') {j : ℕ} (hj : j < s.keys.length - s.order) :
    s'.vert (s.keys.length - s.order - 1 - j) = s.vert j := by
  have hl : s.verts.length = s.keys.length := by rw [keys_length]; simp [MSpline.verts]
  have hlen : (s.verts.take (s.keys.length - s.order)).length = s.keys.length - s.order := by rw [List.length_take, hl]; omega
  have e := congrArg (fun l => l[s.keys.length - s.order - 1 - j]?) hb.verts
  simp only [List.getElem?_take] at e
  rw [if_pos (by omega), List.getElem?_reverse (by rw [hlen]; omega), hlen, List.getElem?_take, if_pos (by omega)] at e
  unfold MSpline.vert
  rw [List.getD_eq_getElem?_getD, List.getD_eq_getElem?_getD, e]
  congr 2
  omega

/-- C100: a Euclidean manifold spline run backwards has the same values, and its derivatives of odd order change their sign; at all
times but inner knots. -/
theorem C100_euclidean_backwards [AddCommGroup P] [Module K P] (order : ℕ) (ho : 1 ≤ order) (s s' : MSpline K P)
    (h : RegularReach (euclidean K P) order s) (h' : RegularReach (euclidean K P) order s') (he : s.state = .evaluable)
    (he' : s'.state = .evaluable) (c : K) (hb : Backwards c s s') (tmin tmax : K) (hmin : s.getMinTime = .ok tmin)
    (hmax : s.getMaxTime = .ok tmax) (t : K) (h1 : tmin ≤ t) (h2 : t ≤ tmax) (hin : t ∉ s.keys ∨ t = tmin ∨ t = tmax) (der : ℕ) :
    s'.euclideanEvalD none (c - t) der = (s.euclideanEvalD none t der).map fun v => ((-1 : K) ^ der) • v := by
  obtain ⟨hw, rfl⟩ := h.mwf ho
  obtain ⟨hw', -⟩ := h'.mwf ho
  have hn := hw.enough he
  rw [getMinTime_eq hw he, Outcome.ok.injEq] at hmin
  rw [getMaxTime_eq hw he, Outcome.ok.injEq] at hmax
  subst hmin hmax
  obtain ⟨i, hi, -⟩ := getSegmentIterator_ok hw he t h1 h2
  have hu := hi.upper
  have hl := hi.lower
  have hi' : s'.InSeg (c - t) (s.keys.length - 2 - i) := by
    have e1 : s.keys.length - 1 - (s.keys.length - 2 - i) = i + 1 := by omega
    have e2 : s.keys.length - 1 - (s.keys.length - 2 - i + 1) = i := by omega
    refine ⟨by rw [hb.order]; omega, by rw [hb.order, hb.length]; omega, ?_, ?_⟩
    · rw [hb.kn (by omega), e1]
      have := hi.right_le
      linarith
    · rw [hb.kn (by omega), e2, hb.order, hb.length]
      rcases hi.left.lt_or_eq with h3 | h3
      · left; linarith
      · right
        refine ⟨by rw [h3], ?_⟩
        have hlast : i = s.order - 1 := by
          rcases hin with h4 | h4 | h4
          · refine absurd ?_ h4
            rw [← h3]
            unfold MSpline.kn
            rw [List.getD_eq_getElem?_getD, List.getElem?_eq_getElem (by omega)]
            exact List.getElem_mem _
          · by_contra hne
            have := hw.strict (show s.order - 1 < i by omega) (by omega)
            linarith
          · have := hw.strict (show i < s.keys.length - s.order by omega) (by omega)
            linarith
        omega
  rw [euclideanEvalD_eq hw he hi none der (by simp), euclideanEvalD_eq hw' he' hi' none der (by simp), Outcome.map_ok]
  congr 1
  unfold segSum
  rw [hb.length, hb.order, smul_sum, ← sum_range_reflect]
  refine sum_congr rfl fun j hj => ?_
  have hj' := mem_range.1 hj
  rw [hb.vert hj']
  have e := piece_reverse s.kn s'.kn c s.keys.length i (by omega) (fun m hm => hb.kn hm) (s.order - 1) j (by omega)
  rw [show s.keys.length - 2 - (s.order - 1) - j = s.keys.length - s.order - 1 - j by omega] at e
  rw [e, iterate_derivative_comp_linear]
  simp only [eval_mul, eval_C, eval_comp, eval_add, eval_X]
  rw [show (-1 : K) * (c - t) + c = t by ring, mul_smul]

end Backwards

section NotReversible

theorem quatLog_of_imag {q : ℍ[ℝ]} (h0 : q.re = 0) (h1 : norm3 (qeps q) = 1) : quatLog q = Real.pi • qeps q := by
  unfold quatLog
  rw [h0, h1, Real.arccos_zero]
  congr 1
  ring

theorem axisAngle_half {v : V3} (hv : norm3 v = 1) (β : ℝ) (hβ : 0 < β) :
    axisAngle2quat (β • Real.pi • v) = ⟨Real.cos (β * Real.pi / 2), v 0 * Real.sin (β * Real.pi / 2), v 1 * Real.sin (β * Real.pi / 2),
      v 2 * Real.sin (β * Real.pi / 2)⟩ := by
  have hn : norm3 (β • Real.pi • v) = β * Real.pi := by
    rw [smul_smul, norm3_smul, hv, mul_one, abs_of_pos (mul_pos hβ Real.pi_pos)]
  have hne : β * Real.pi ≠ 0 := (mul_pos hβ Real.pi_pos).ne'
  unfold axisAngle2quat
  simp only [hn, Pi.smul_apply, smul_eq_mul]
  ext <;> simp <;> field_simp

/-- The quaternion `j i`. -/
noncomputable def quatJI : ℍ[ℝ] := ⟨0, 0, 0, -1⟩

theorem norm_quatJI : ‖quatJI‖ = 1 := norm_of_normSq (by rw [Quaternion.normSq_def']; norm_num [quatJI])

/-- A quaternion given by its coordinates. -/
noncomputable def mkq (a b c d : ℝ) : ℍ[ℝ] := ⟨a, b, c, d⟩

theorem mkq_mul (a b c d a' b' c' d' : ℝ) : mkq a b c d * mkq a' b' c' d' =
    mkq (a * a' - b * b' - c * c' - d * d') (a * b' + b * a' + c * d' - d * c') (a * c' - b * d' + c * a' + d * b')
      (a * d' + b * c' - c * b' + d * a') := by
  ext
  · exact Quaternion.re_mul _ _
  · exact Quaternion.imI_mul _ _
  · exact Quaternion.imJ_mul _ _
  · exact Quaternion.imK_mul _ _

theorem mkq_star (a b c d : ℝ) : star (mkq a b c d) = mkq a (-b) (-c) (-d) := by
  ext
  · exact Quaternion.re_star _
  · exact Quaternion.imI_star _
  · exact Quaternion.imJ_star _
  · exact Quaternion.imK_star _

theorem mkq_neg (a b c d : ℝ) : -mkq a b c d = mkq (-a) (-b) (-c) (-d) := rfl

theorem one_mkq : (1 : ℍ[ℝ]) = mkq 1 0 0 0 := by ext <;> rfl

/-- A turn by a fraction of a half turn. -/
theorem backTurn (x y z : ℝ) (h : x ^ 2 + y ^ 2 + z ^ 2 = 1) (q : ℍ[ℝ]) (hq : q = mkq 0 x y z) (β : ℝ) (hβ : 0 < β) :
    axisAngle2quat (β • quatLog q) = mkq (Real.cos (β * Real.pi / 2)) (x * Real.sin (β * Real.pi / 2)) (y * Real.sin (β * Real.pi / 2))
      (z * Real.sin (β * Real.pi / 2)) := by
  subst hq
  have hn : norm3 (qeps (mkq 0 x y z)) = 1 := by
    have : norm3 (qeps (mkq 0 x y z)) = Real.sqrt (x ^ 2 + y ^ 2 + z ^ 2) := by
      simp [norm3, qeps, mkq]
    rw [this, h, Real.sqrt_one]
  rw [quatLog_of_imag rfl hn, axisAngle_half hn β hβ]
  rfl

/-- The curve at the middle of its only segment, for three control vertices. -/
theorem middle_value (s : MSpline ℝ ℍ[ℝ]) (h : RegularReach (quatGroup quatLog).toMfd 3 s) (he : s.state = .evaluable)
    (hk : s.keys = [0, 1, 2, 3, 4, 5]) (a b c : ℍ[ℝ]) (hv : s.verts.take 3 = [a, b, c]) :
    s.evalGeneric (quatGroup quatLog).toMfd (5 / 2) =
      .ok (axisAngle2quat ((1 / 8 : ℝ) • quatLog (c * star b)) * (axisAngle2quat ((7 / 8 : ℝ) • quatLog (b * star a)) * a)) := by
  obtain ⟨hw, ho⟩ := h.mwf (by norm_num)
  have hkn : ∀ m, s.kn m = [0, 1, 2, 3, 4, 5].getD m (0 : ℝ) := fun m => by unfold MSpline.kn; rw [hk]
  have hi : s.InSeg (5 / 2) 2 := by
    refine ⟨by rw [ho], by rw [ho, hk]; simp, ?_, Or.inl ?_⟩ <;> rw [hkn] <;> norm_num
  obtain ⟨w, x, xs, hw1, hv1, e⟩ := evalGeneric_eq hw he (quatGroup quatLog).toMfd hi
  rw [ho] at hw1 hv1 e
  rw [show (2 + 1 - 3 : ℕ) = 0 from rfl, List.drop_zero, hv, List.cons.injEq] at hv1
  obtain ⟨rfl, rfl⟩ := hv1
  have w1 : w 1 = 3 / 4 := by
    rw [hw1 1 (by norm_num)]
    norm_num [piece, hkn]
  have w2 : w 2 = 1 / 8 := by
    rw [hw1 2 (by norm_num)]
    norm_num [piece, hkn]
  have c1 : cumulativeOf 3 w 0 1 = 7 / 8 := by
    rw [cumulativeOf_eq _ _ _ (by norm_num) (by norm_num), show Ico 1 3 = {1, 2} from rfl, sum_pair (by norm_num), w1, w2]
    norm_num
  have c2 : cumulativeOf 3 w 0 2 = 1 / 8 := by
    rw [cumulativeOf_eq _ _ _ (by norm_num) (by norm_num), show Ico 2 3 = {2} from rfl, sum_singleton, w2]
  rw [e]
  simp only [genericLoop, c1, c2]
  rw [if_neg (by norm_num), if_neg (by norm_num)]
  show Outcome.ok (qplus (qplus a _) _) = _
  rw [qplus_eq, qplus_eq]
  show Outcome.ok (axisAngle2quat ((1 / 8 : ℝ) • (quatGroup quatLog).log b c) * (axisAngle2quat ((7 / 8 : ℝ) • (quatGroup quatLog).log a b) * a)) = _
  rw [log_quatGroup, log_quatGroup]

/-- Quaternion splines cannot be run backwards: with the knots and the control vertices in the reverse order the curve passes other
rotations. -/
theorem C100_quaternion_not_reversible : ∃ (s s' : MSpline ℝ ℍ[ℝ]) (c t tmin tmax : ℝ) (q q' : ℍ[ℝ]),
    RegularReach (quatGroup quatLog).toMfd 3 s ∧ RegularReach (quatGroup quatLog).toMfd 3 s' ∧ s.state = .evaluable ∧
    s'.state = .evaluable ∧ Backwards c s s' ∧ (∀ v ∈ s.verts.take 3, ‖v‖ = 1) ∧ s.getMinTime = .ok tmin ∧ s.getMaxTime = .ok tmax ∧
    tmin < t ∧ t < tmax ∧ t ∉ s.keys ∧ s.evalGeneric (quatGroup quatLog).toMfd t = .ok q ∧
    s'.evalGeneric (quatGroup quatLog).toMfd (c - t) = .ok q' ∧ q' ≠ q ∧ q' ≠ -q := by
  have hts : ([0, 1, 2, 3, 4, 5] : List ℝ).Pairwise (· < ·) := by simp [List.pairwise_cons]; norm_num
  obtain ⟨s, h1, h2, h3, h4, h5, h6, h7⟩ := quat_spline_exists quatLog 3 (by norm_num) [0, 1, 2, 3, 4, 5] [1, quatI, quatJI] hts rfl
    (by simp) (by simp [norm_quatI, norm_quatJI])
  obtain ⟨s', h1', h2', h3', h4', h5', -⟩ := quat_spline_exists quatLog 3 (by norm_num) [0, 1, 2, 3, 4, 5] [quatJI, quatI, 1] hts rfl
    (by simp) (by simp [norm_quatI, norm_quatJI])
  have h5 : s.verts.take 3 = [1, quatI, quatJI] := h5
  have h5' : s'.verts.take 3 = [quatJI, quatI, 1] := h5'
  have ho := (h1.mwf (by norm_num)).2
  have ho' := (h1'.mwf (by norm_num)).2
  have hb : Backwards 5 s s' := by
    refine ⟨by rw [ho, ho'], by rw [h3, h3']; norm_num, ?_⟩
    rw [h3, ho]
    show s'.verts.take 3 = (s.verts.take 3).reverse
    rw [h5, h5']
    rfl
  have e := middle_value s h1 h2 h3 _ _ _ h5
  have e' := middle_value s' h1' h2' h3' _ _ _ h5'
  refine ⟨s, s', 5, 5 / 2, 2, 3, _, axisAngle2quat ((1 / 8 : ℝ) • quatLog (1 * star quatI)) * (axisAngle2quat ((7 / 8 : ℝ) • quatLog (quatI * star quatJI)) * quatJI),
    h1, h1', h2, h2', hb, ?_, h6, h7, by norm_num, by norm_num, by rw [h3]; norm_num, e, ?_, ?_, ?_⟩
  · rw [h5]; simp [norm_quatI, norm_quatJI]
  · rw [show (5 : ℝ) - 5 / 2 = 5 / 2 by norm_num]; exact e'
  all_goals
    have l1 : quatJI * star quatI = mkq 0 0 1 0 := by
      rw [show quatJI = mkq 0 0 0 (-1) from rfl, show quatI = mkq 0 1 0 0 from rfl, mkq_star, mkq_mul]; norm_num
    have l2 : quatI * star 1 = mkq 0 1 0 0 := by
      rw [show quatI = mkq 0 1 0 0 from rfl, one_mkq, mkq_star, mkq_mul]; norm_num
    have l3 : 1 * star quatI = mkq 0 (-1) 0 0 := by
      rw [show quatI = mkq 0 1 0 0 from rfl, one_mkq, mkq_star, mkq_mul]; norm_num
    have l4 : quatI * star quatJI = mkq 0 0 (-1) 0 := by
      rw [show quatJI = mkq 0 0 0 (-1) from rfl, show quatI = mkq 0 1 0 0 from rfl, mkq_star, mkq_mul]; norm_num
    have c7 : Real.cos (7 / 8 * Real.pi / 2) = Real.sin (1 / 8 * Real.pi / 2) := by
      rw [← Real.cos_pi_div_two_sub]; congr 1; ring
    have s7 : Real.sin (7 / 8 * Real.pi / 2) = Real.cos (1 / 8 * Real.pi / 2) := by
      rw [← Real.sin_pi_div_two_sub]; congr 1; ring
    have hs : 0 < Real.sin (1 / 8 * Real.pi / 2) := Real.sin_pos_of_pos_of_lt_pi (by positivity) (by have := Real.pi_pos; linarith)
    have hc : 0 < Real.cos (1 / 8 * Real.pi / 2) := Real.cos_pos_of_mem_Ioo ⟨by have := Real.pi_pos; linarith, by have := Real.pi_pos; linarith⟩
    rw [backTurn 0 1 0 (by norm_num) _ l1 _ (by norm_num), backTurn 1 0 0 (by norm_num) _ l2 _ (by norm_num),
      backTurn (-1) 0 0 (by norm_num) _ l3 _ (by norm_num), backTurn 0 (-1) 0 (by norm_num) _ l4 _ (by norm_num), c7, s7, one_mkq,
      show quatJI = mkq 0 0 0 (-1) from rfl, mkq_mul, mkq_mul, mkq_mul, mkq_mul]
    first | rw [mkq_neg] | skip
    intro hq
    have h0 := congrArg QuaternionAlgebra.re hq
    have hJ := congrArg QuaternionAlgebra.imJ hq
    simp [mkq] at h0 hJ
    nlinarith [mul_pos hs hc, mul_pos hs hs]

end NotReversible

end Verif.MSpline

/-! ### Not vacuous -/

namespace Verif.BSpline

/-- The example spline in other units, `t` becoming `2 t + 1`. -/
noncomputable def exScaled : BSpline ℝ 1 :=
  initializeBasisMatrices ⟨4, [1, 3, 3, 5, 7, 7, 9, 13, 15, 17], [![1], ![5], ![-2], ![0], ![3], ![1]], []⟩

theorem exScaled_wf : exScaled.WF := initializeBasisMatrices_wf _ (by decide) (by norm_num) (by decide) (by decide)

theorem exScaled_wide : exScaled.WideLast := by
  intro a b hab
  have : exScaled.timeIntervalOf ((exScaled.numValidTimeSegments : ℤ) - 1) = .ok (7, 9) := rfl
  rw [this] at hab
  obtain ⟨rfl, rfl⟩ := Prod.mk.inj (Outcome.ok.inj hab)
  norm_num

theorem exScaled_units : InOtherUnits 2 1 exReal exScaled :=
  ⟨rfl, by show [(1 : ℝ), 3, 3, 5, 7, 7, 9, 13, 15, 17] = List.map _ [0, 1, 1, 2, 3, 3, 4, 6, 7, 8]; norm_num, rfl⟩

theorem segs_of {s : BSpline ℝ 1} (h : s.WF) (ho : s.order = 4) (hl : s.knots.length = 10) (seg : ℤ) (a b : ℝ)
    (hab : s.timeIntervalOf seg = .ok (a, b)) : ∃ i, 3 ≤ i ∧ i < 6 ∧ a = s.kn i ∧ b = s.kn (i + 1) := by
  obtain ⟨i, h1, h2, rfl, rfl, -⟩ := timeIntervalOf_eq h hab
  exact ⟨i, by omega, by omega, rfl, rfl⟩

example : exScaled.evalIntegral 6 8 = (exReal.evalIntegral (5 / 2) (7 / 2)).map fun v d => 2 * v d := by
  have := C100_plain_integral exReal exScaled exReal_wf exScaled_wf exReal_wide exScaled_wide 2 1 (by norm_num) exScaled_units 2 4 rfl rfl
    (5 / 2) (7 / 2) (by norm_num) (by norm_num) ?_ ?_ ?_ ?_
  · norm_num at this ⊢
    exact this
  · intro seg a b hab h1 h2
    obtain ⟨i, h3, h4, rfl, rfl⟩ := segs_of exReal_wf rfl rfl seg a b hab
    right
    interval_cases i <;> revert h1 h2 <;> norm_num [BSpline.kn, exReal, initializeBasisMatrices]
  · intro seg a b hab h1 h2
    obtain ⟨i, h3, h4, rfl, rfl⟩ := segs_of exReal_wf rfl rfl seg a b hab
    right
    interval_cases i <;> revert h1 h2 <;> norm_num [BSpline.kn, exReal, initializeBasisMatrices]
  · intro seg a b hab h1 h2
    obtain ⟨i, h3, h4, rfl, rfl⟩ := segs_of exScaled_wf rfl rfl seg a b hab
    right
    interval_cases i <;> revert h1 h2 <;> norm_num [BSpline.kn, exScaled, initializeBasisMatrices]
  · intro seg a b hab h1 h2
    obtain ⟨i, h3, h4, rfl, rfl⟩ := segs_of exScaled_wf rfl rfl seg a b hab
    right
    interval_cases i <;> revert h1 h2 <;> norm_num [BSpline.kn, exScaled, initializeBasisMatrices]

example := C100_cost exReal exScaled exReal_wf exScaled_wf exReal_wide exScaled_wide 2 1 (by norm_num) exScaled_units (fun _ _ => 3)
  (by intro r _ c _; norm_num) 2

/-- The example spline run backwards. -/
noncomputable def exBack : BSpline ℝ 1 :=
  initializeBasisMatrices ⟨4, [0, 1, 2, 4, 5, 5, 6, 7, 7, 8], [![1], ![3], ![0], ![-2], ![5], ![1]], []⟩

theorem exBack_wf : exBack.WF := initializeBasisMatrices_wf _ (by decide) (by norm_num) (by decide) (by decide)

theorem exBack_backwards : Backwards 8 exReal exBack :=
  ⟨rfl, by show [(0 : ℝ), 1, 2, 4, 5, 5, 6, 7, 7, 8] = (List.map _ [0, 1, 1, 2, 3, 3, 4, 6, 7, 8]).reverse; norm_num, rfl⟩

example (der : ℕ) : exBack.evalD (8 - 5 / 2) der = (exReal.evalD (5 / 2) der).map fun v d => (-1) ^ der * v d := by
  refine C100_backwards exReal exBack exReal_wf exBack_wf 8 exBack_backwards 2 4 rfl rfl (5 / 2) ⟨?_, ?_, .inl ?_⟩ ⟨?_, ?_, .inr ⟨?_, ?_⟩⟩ (.inl ?_) der
  all_goals norm_num [BSpline.kn, exReal, exBack, initializeBasisMatrices, snapTol]

end Verif.BSpline

namespace Verif.MSpline
open Quaternion

example : ∃ s s' : MSpline ℝ ℝ, RegularReach (euclidean ℝ ℝ) 2 s ∧ RegularReach (euclidean ℝ ℝ) 2 s' ∧
    s.getMinTime = .ok 1 ∧ s.getMaxTime = .ok 4 ∧ s'.getMinTime = .ok 12 ∧ s'.getMaxTime = .ok 21 ∧
    ∀ t der, s'.euclideanEvalD none (3 * t + 9) (der : ℕ) = (s.euclideanEvalD none t der).map fun v => ((3 : ℝ) ^ der)⁻¹ • v := by
  obtain ⟨s, -, h1, h2, h3, -, h5, h6, h7⟩ := C55_init_with_vertices (euclidean ℝ ℝ) 2 (by norm_num) [0, 1, 2, 4, 5] [7, -1, 2]
    (by simp [List.pairwise_cons]; norm_num) rfl (by simp) (by simp [euclidean])
  obtain ⟨s', -, h1', h2', h3', -, h5', h6', h7'⟩ := C55_init_with_vertices (euclidean ℝ ℝ) 2 (by norm_num) [9, 12, 15, 21, 24] [7, -1, 2]
    (by simp [List.pairwise_cons]; norm_num) rfl (by simp) (by simp [euclidean])
  have ho := (h1.mwf (by norm_num)).2
  have ho' := (h1'.mwf (by norm_num)).2
  refine ⟨s, s', h1, h1', h6, h7, h6', h7', fun t der => C100_euclidean 2 (by norm_num) s s' h1 h1' h2 h2' 3 9 (by norm_num)
    ⟨by rw [ho, ho'], by rw [h3, h3']; norm_num, ?_⟩ t der⟩
  rw [h3, ho]
  exact h5'.trans h5.symm

example : ∃ s s' : MSpline ℝ ℍ[ℝ], RegularReach (quatGroup quatLog).toMfd 3 s ∧ RegularReach (quatGroup quatLog).toMfd 3 s' ∧
    s.getMinTime = .ok 2 ∧ s.getMaxTime = .ok 3 ∧ s'.getMinTime = .ok 5 ∧ s'.getMaxTime = .ok 7 ∧
    ∀ t, s'.evalAngularVelocity quatLog (2 * t + 1) = (s.evalAngularVelocity quatLog t).map fun w => (2 : ℝ)⁻¹ • w := by
  obtain ⟨s, h1, h2, h3, -, h5, h6, h7⟩ := quat_spline_exists quatLog 3 (by norm_num) [0, 1, 2, 3, 4, 5] [1, quatI, quatJI]
    (by simp [List.pairwise_cons]; norm_num) rfl (by simp) (by simp [norm_quatI, norm_quatJI])
  obtain ⟨s', h1', h2', h3', -, h5', h6', h7'⟩ := quat_spline_exists quatLog 3 (by norm_num) [1, 3, 5, 7, 9, 11] [1, quatI, quatJI]
    (by simp [List.pairwise_cons]; norm_num) rfl (by simp) (by simp [norm_quatI, norm_quatJI])
  have ho := (h1.mwf (by norm_num)).2
  have ho' := (h1'.mwf (by norm_num)).2
  refine ⟨s, s', h1, h1', h6, h7, h6', h7', fun t => (C100_angular quatLog 3 (by norm_num) s s' h1 h1' h2 h2' 2 1 (by norm_num)
    ⟨by rw [ho, ho'], by rw [h3, h3']; norm_num, ?_⟩ t).1⟩
  rw [h3, ho]
  exact h5'.trans h5.symm

end Verif.MSpline

namespace Verif.Pose

/-- A pose spline and the same in other units. -/
noncomputable def exPose (ks : List ℝ) : Pose ℝ :=
  ⟨BSpline.initializeBasisMatrices ⟨3, ks, [![1, 2, 3, 0, 0, 1], ![0, 1, 5, 1, 0, 1], ![2, 0, 0, 0, 1, 0], ![2, 1, 0, 0, 1, 1]], []⟩, rodrigues ℝ⟩

example : (exPose [1, 3, 5, 7, 9, 11, 13]).linearVelocity (2 * 3 + 1) = ((exPose [0, 1, 2, 3, 4, 5, 6]).linearVelocity 3).map fun v => (2 : ℝ)⁻¹ • v := by
  refine (C100_pose (exPose [0, 1, 2, 3, 4, 5, 6]) (exPose [1, 3, 5, 7, 9, 11, 13]) (BSpline.initializeBasisMatrices_wf _ (by decide) (by norm_num) (by decide) (by decide))
    (BSpline.initializeBasisMatrices_wf _ (by decide) (by norm_num) (by decide) (by decide)) 2 1 (by norm_num) rfl
    ⟨rfl, by show [(1 : ℝ), 3, 5, 7, 9, 11, 13] = List.map _ [0, 1, 2, 3, 4, 5, 6]; norm_num, rfl⟩ 3 ⟨?_, ?_, .inl ?_⟩ ⟨?_, ?_, .inl ?_⟩).2.2.1
  all_goals norm_num [exPose, BSpline.kn, BSpline.initializeBasisMatrices, BSpline.snapTol]

end Verif.Pose
