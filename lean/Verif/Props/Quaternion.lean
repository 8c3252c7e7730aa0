import Verif.Lemmas.Quaternion
import Mathlib.Analysis.Calculus.Deriv.Pi

/-!
# C29, C30: derivatives of quaternion splines, angular velocity and acceleration
-/

set_option linter.unusedSectionVars false

namespace Verif.MSpline

open Finset Polynomial Quaternion

/-- The `d`-th derivative of the curve of segment `i`. -/
noncomputable def segQ (lg : ℍ[ℝ] → V3) (s : MSpline ℝ ℍ[ℝ]) (i : ℕ) (c : ℍ[ℝ]) (cs : List ℍ[ℝ]) (d : ℕ) (x : ℝ) : ℍ[ℝ] :=
  dProd ((s.segFactors lg i c cs).map fun f e => f e x) d * c

theorem segQ_deriv (lg : ℍ[ℝ] → V3) (s : MSpline ℝ ℍ[ℝ]) (i : ℕ) (c : ℍ[ℝ]) (cs : List ℍ[ℝ]) (t : ℝ) (d : ℕ) (hd : d < 3) :
    HasDerivAt (s.segQ lg i c cs d) (s.segQ lg i c cs (d + 1) t) t :=
  (hasDerivAt_dProd 3 t (s.segFactors lg i c cs) (fun f hf => factorsFrom_deriv _ t _ 0 f hf) d hd).mul_const c

theorem segVerts_exists {s : MSpline ℝ ℍ[ℝ]} (h : s.MWF) {t : ℝ} {i : ℕ} (hi : s.InSeg t i) :
    ∃ c cs, (s.verts.drop (i + 1 - s.order)).take s.order = c :: cs := by
  have h1 := hi.lower
  have h2 := hi.upper
  have h3 := h.order_pos
  rw [keys_length] at h2
  have hv : i + 1 - s.order < s.verts.length := by simp [verts]; omega
  exact ⟨_, _, by rw [← List.cons_getElem_drop_succ (h := hv), List.take_cons (by omega)]⟩

/-- On segment `i` all derivative queries are the derivatives of the curve of the segment. -/
theorem quatEvalD_segQ (lg : ℍ[ℝ] → V3) {s : MSpline ℝ ℍ[ℝ]} (h : s.MWF) (he : s.state = .evaluable) {t : ℝ} {i : ℕ} (hi : s.InSeg t i)
    {c : ℍ[ℝ]} {cs : List ℍ[ℝ]} (hv : (s.verts.drop (i + 1 - s.order)).take s.order = c :: cs) (d : ℕ)
    (hd : d ≤ 1 ∨ 2 ≤ s.order ∧ d ≤ 3) : s.quatEvalD lg t d = .ok (s.segQ lg i c cs d t) := by
  unfold quatEvalD
  rcases Nat.eq_zero_or_pos d with rfl | hpos
  · obtain ⟨w, c', cs', hw, hv', hev⟩ := evalGeneric_eq h he (quatGroup lg).toMfd hi
    rw [hv, List.cons.injEq] at hv'
    obtain ⟨rfl, rfl⟩ := hv'
    have hl := segVerts_length hi hv
    rw [if_pos Nat.cast_zero, hev]
    congr 1
    refine genericLoop_quat lg _ (s.betaPoly i) t cs 0 c c fun j h1 h2 => ?_
    rw [cumulativeOf_eq _ _ _ (by omega) (by omega), betaPoly, eval_finsetSum]
    refine sum_congr rfl fun x hx => hw x ?_
    have := mem_Ico.1 hx
    omega
  · rw [if_neg (by omega), evaluatorAt_eq h he hi, Outcome.bind_ok]
    rcases Nat.lt_or_ge 1 d with h1 | h1
    · rw [if_neg (by omega), evalDRecursive_eq lg h he hi hv (by omega) d (by omega)]
      rfl
    · have : d = 1 := by omega
      subst this
      rw [if_pos Nat.cast_one, evalD1Special_eq lg h he hi hv]
      rfl

/-- Inside a segment all nearby times belong to the same segment. -/
theorem eventually_inSeg {K P : Type*} [Field K] [LinearOrder K] [IsStrictOrderedRing K] {s : MSpline K P} {t : K} {i : ℕ}
    (ho : 1 ≤ s.order) (hi : s.InSeg t i) (ht : t ∉ s.keys) : s.kn i < t ∧ t < s.kn (i + 1) ∧ ∀ x, s.kn i < x → x < s.kn (i + 1) → s.InSeg x i := by
  have h1 := hi.upper
  have h2 := hi.lower
  have hmem : ∀ j, j < s.keys.length → s.kn j ∈ s.keys := fun j hj => List.mem_of_getElem? (kn_getElem s hj)
  refine ⟨lt_of_le_of_ne hi.left ?_, lt_of_le_of_ne hi.right_le ?_, fun x hx1 hx2 => ⟨hi.lower, hi.upper, hx1.le, Or.inl hx2⟩⟩
  · rintro rfl; exact ht (hmem i (by omega))
  · rintro rfl
    exact ht (hmem _ (by omega))

theorem inSeg_nhds {P : Type*} {s : MSpline ℝ P} {t : ℝ} {i : ℕ} (ho : 1 ≤ s.order) (hi : s.InSeg t i) (ht : t ∉ s.keys) :
    ∀ᶠ x in nhds t, s.InSeg x i := by
  obtain ⟨h1, h2, h3⟩ := eventually_inSeg ho hi ht
  filter_upwards [Ioo_mem_nhds h1 h2] with x hx
  exact h3 x hx.1 hx.2

/-- C29: inside the segments, the first, second and third derivative queries of a quaternion spline of order two or more succeed
and are the derivatives of the query one order below.  (What is missing: order one, see `C29_order_one_undefined`.) -/
theorem C29_derivatives_partial (lg : ℍ[ℝ] → V3) (order : ℕ) (ho : 2 ≤ order) (s : MSpline ℝ ℍ[ℝ])
    (h : RegularReach (quatGroup lg).toMfd order s) (he : s.state = .evaluable) (tmin tmax : ℝ) (hmin : s.getMinTime = .ok tmin)
    (hmax : s.getMaxTime = .ok tmax) (t : ℝ) (h1 : tmin ≤ t) (h2 : t ≤ tmax) (ht : t ∉ s.keys) (d : ℕ) (hd : d < 3) :
    ∃ v, s.quatEvalD lg t (d + 1) = .ok v ∧ HasDerivAt (fun x => (s.quatEvalD lg x d).getD 0) v t := by
  obtain ⟨hw, rfl⟩ := h.mwf (by omega)
  rw [getMinTime_eq hw he, Outcome.ok.injEq] at hmin
  rw [getMaxTime_eq hw he, Outcome.ok.injEq] at hmax
  subst hmin hmax
  obtain ⟨i, hi, -⟩ := getSegmentIterator_ok hw he t h1 h2
  obtain ⟨c, cs, hv⟩ := segVerts_exists hw hi
  refine ⟨_, quatEvalD_segQ lg hw he hi hv (d + 1) (Or.inr ⟨ho, by omega⟩), ?_⟩
  refine (segQ_deriv lg s i c cs t d hd).congr_of_eventuallyEq ?_
  filter_upwards [inSeg_nhds (by omega) hi ht] with x hx
  rw [quatEvalD_segQ lg hw he hx hv d (Or.inr ⟨ho, by omega⟩)]
  rfl

/-- C29: at knots the queries are the derivatives from the right, and at the end of the curve from the left. -/
theorem C29_one_sided_partial (lg : ℍ[ℝ] → V3) (order : ℕ) (ho : 2 ≤ order) (s : MSpline ℝ ℍ[ℝ])
    (h : RegularReach (quatGroup lg).toMfd order s) (he : s.state = .evaluable) (tmin tmax : ℝ) (hmin : s.getMinTime = .ok tmin)
    (hmax : s.getMaxTime = .ok tmax) (d : ℕ) (hd : d < 3) :
    (∀ t, tmin ≤ t → t < tmax → ∃ v, s.quatEvalD lg t (d + 1) = .ok v ∧
      HasDerivWithinAt (fun x => (s.quatEvalD lg x d).getD 0) v (Set.Ici t) t) ∧
    ∃ v, s.quatEvalD lg tmax (d + 1) = .ok v ∧ HasDerivWithinAt (fun x => (s.quatEvalD lg x d).getD 0) v (Set.Iic tmax) tmax := by
  obtain ⟨hw, rfl⟩ := h.mwf (by omega)
  rw [getMinTime_eq hw he, Outcome.ok.injEq] at hmin
  rw [getMaxTime_eq hw he, Outcome.ok.injEq] at hmax
  subst hmin hmax
  have hn := hw.enough he
  have key : ∀ t S, s.kn (s.order - 1) ≤ t → t ≤ s.kn (s.keys.length - s.order) → t ∈ S →
      (∀ i, s.InSeg t i → ∀ᶠ x in nhdsWithin t S, s.InSeg x i) →
      ∃ v, s.quatEvalD lg t (d + 1) = .ok v ∧ HasDerivWithinAt (fun x => (s.quatEvalD lg x d).getD 0) v S t := by
    intro t S h1 h2 hmem hev
    obtain ⟨i, hi, -⟩ := getSegmentIterator_ok hw he t h1 h2
    obtain ⟨c, cs, hv⟩ := segVerts_exists hw hi
    refine ⟨_, quatEvalD_segQ lg hw he hi hv (d + 1) (Or.inr ⟨ho, by omega⟩), ?_⟩
    refine ((segQ_deriv lg s i c cs t d hd).hasDerivWithinAt).congr_of_eventuallyEq ?_ ?_
    · filter_upwards [hev i hi] with x hx
      rw [quatEvalD_segQ lg hw he hx hv d (Or.inr ⟨ho, by omega⟩)]
      rfl
    · rw [quatEvalD_segQ lg hw he hi hv d (Or.inr ⟨ho, by omega⟩)]
      rfl
  constructor
  · intro t h1 h2
    refine key t _ h1 h2.le (Set.mem_Ici.2 le_rfl) fun i hi => ?_
    have hlt : t < s.kn (i + 1) := by
      rcases hi.right with h3 | ⟨h3, h4⟩
      · exact h3
      · rw [h3, show i + 1 = s.keys.length - s.order by omega] at h2
        exact absurd h2 (lt_irrefl _)
    filter_upwards [Ico_mem_nhdsGE hlt] with x hx
    exact ⟨hi.lower, hi.upper, hi.left.trans hx.1, Or.inl hx.2⟩
  · refine key _ _ (hw.mono _ _ (by omega) (by omega)) le_rfl (Set.mem_Iic.2 le_rfl) fun i hi => ?_
    have h3 := hi.upper
    have hlast : i + 1 + s.order = s.keys.length := by
      by_contra hne
      rcases hi.right with h4 | h4
      · have := hw.mono (i + 1) (s.keys.length - s.order) (by omega) (by omega)
        exact absurd h4 (not_lt.2 this)
      · exact hne h4.2
    have e : s.keys.length - s.order = i + 1 := by omega
    have hlt := hi.lt hw
    rw [e] at hi ⊢
    filter_upwards [Ioc_mem_nhdsLE hlt] with x hx
    rcases eq_or_lt_of_le hx.2 with h5 | h5
    · exact ⟨hi.lower, hi.upper, hx.1.le, Or.inr ⟨h5, hlast⟩⟩
    · exact ⟨hi.lower, hi.upper, hx.1.le, Or.inl h5⟩

/-- C29: the special routine for the first derivative agrees with the general recursive one at all times. -/
theorem C29_special_agrees (lg : ℍ[ℝ] → V3) (order : ℕ) (ho : 2 ≤ order) (s : MSpline ℝ ℍ[ℝ])
    (h : RegularReach (quatGroup lg).toMfd order s) (t : ℝ) :
    ((s.evaluatorAt t).bind fun e => s.evalD1Special lg e) = (s.evaluatorAt t).bind fun e => s.evalDRecursive lg e 1 := by
  obtain ⟨hw, rfl⟩ := h.mwf (by omega)
  rcases hst : s.state with _ | _
  · rw [evaluatorAt_throws hw t (Or.inl hst)]; rfl
  · rcases evaluable_total hw hst t with ⟨i, hi⟩ | ht
    · obtain ⟨c, cs, hv⟩ := segVerts_exists hw hi
      rw [evaluatorAt_eq hw hst hi, Outcome.bind_ok, Outcome.bind_ok, evalD1Special_eq lg hw hst hi hv]
      exact (evalDRecursive_eq lg hw hst hi hv ho 1 (by omega)).symm
    · rw [evaluatorAt_throws hw t (Or.inr ht)]; rfl

/-- C29: the recursive routine also computes the value, and agrees there with the generic evaluation. -/
theorem C29_recursive_value (lg : ℍ[ℝ] → V3) (order : ℕ) (ho : 2 ≤ order) (s : MSpline ℝ ℍ[ℝ])
    (h : RegularReach (quatGroup lg).toMfd order s) (t : ℝ) :
    s.quatEvalD lg t 0 = (s.evaluatorAt t).bind fun e => s.evalDRecursive lg e 0 := by
  obtain ⟨hw, rfl⟩ := h.mwf (by omega)
  have h0 : s.quatEvalD lg t 0 = s.evalGeneric (quatGroup lg).toMfd t := by unfold quatEvalD; rw [if_pos rfl]
  rcases hst : s.state with _ | _
  · rw [h0]; unfold evalGeneric; rw [evaluatorAt_throws hw t (Or.inl hst)]; rfl
  · rcases evaluable_total hw hst t with ⟨i, hi⟩ | ht
    · obtain ⟨c, cs, hv⟩ := segVerts_exists hw hi
      have e1 := quatEvalD_segQ lg hw hst hi hv 0 (Or.inl (by omega))
      rw [evaluatorAt_eq hw hst hi, Outcome.bind_ok]
      rw [show ((0 : ℕ) : ℤ) = 0 from rfl] at e1
      rw [e1]
      exact (evalDRecursive_eq lg hw hst hi hv ho 0 (by omega)).symm
    · rw [h0]; unfold evalGeneric; rw [evaluatorAt_throws hw t (Or.inr ht)]; rfl

theorem productRest_throws (s : MSpline ℝ ℍ[ℝ]) (e : Evaluator ℝ) (c : QCache) (der : ℕ) (hd : 4 ≤ der)
    (hR : ∀ j, 1 ≤ j → j < s.order → ∃ r, s.evalRiD e c 0 j = .ok r) : ∀ (rem F : ℕ), rem < s.order - 1 →
    s.productRest e c rem der F = .throws
  | 0, F, h => by
    unfold productRest
    have : s.evalRiD e c der (s.order - 1) = .throws := by
      obtain ⟨m, rfl⟩ : ∃ m, der = m + 4 := ⟨der - 4, by omega⟩
      rfl
    rw [this]; rfl
  | rem + 1, F, h => by
    unfold productRest
    obtain ⟨r, hr⟩ := hR (s.order - 1 - (rem + 1)) (by omega) (by omega)
    rw [hr, Outcome.bind_ok, productRest_throws s e c der hd hR rem F (by omega)]
    rfl

/-- C29: derivatives above the third and negative ones are rejected with an exception. -/
theorem C29_unsupported_rejected (lg : ℍ[ℝ] → V3) (order : ℕ) (ho : 2 ≤ order) (s : MSpline ℝ ℍ[ℝ])
    (h : RegularReach (quatGroup lg).toMfd order s) (t : ℝ) (der : ℤ) (hd : der < 0 ∨ 4 ≤ der) : s.quatEvalD lg t der = .throws := by
  obtain ⟨hw, rfl⟩ := h.mwf (by omega)
  unfold quatEvalD
  rw [if_neg (by omega)]
  rcases hst : s.state with _ | _
  · rw [evaluatorAt_throws hw t (Or.inl hst)]; rfl
  · rcases evaluable_total hw hst t with ⟨i, hi⟩ | ht
    · obtain ⟨c, cs, hv⟩ := segVerts_exists hw hi
      rw [evaluatorAt_eq hw hst hi, Outcome.bind_ok, if_neg (by omega)]
      unfold evalDRecursive
      rw [qcache_eq lg hw hst hi hv, Outcome.bind_ok, if_neg (by omega)]
      rcases hd with hd | hd
      · rw [if_pos hd]
      · rw [if_neg (by omega), productRest_throws s _ _ _ (by omega) ?_ _ _ (by omega)]
        · rfl
        · intro j h1 h2
          have hl := segVerts_length hi hv
          obtain ⟨m, rfl⟩ : ∃ m, j = m + 1 := ⟨j - 1, by omega⟩
          exact ⟨_, evalRiD_eq lg hw hst hi hv m (by omega) 0 (by omega)⟩
    · rw [evaluatorAt_throws hw t (Or.inr ht)]; rfl

/-- C29 is violated for order one: the curve is constant on segments, but the second and third derivative queries read outside the
empty arrays of the cache. -/
theorem C29_order_one_undefined (lg : ℍ[ℝ] → V3) (s : MSpline ℝ ℍ[ℝ]) (h : RegularReach (quatGroup lg).toMfd 1 s)
    (he : s.state = .evaluable) (tmin tmax : ℝ) (hmin : s.getMinTime = .ok tmin)
    (hmax : s.getMaxTime = .ok tmax) (t : ℝ) (h1 : tmin ≤ t) (h2 : t ≤ tmax) :
    s.quatEvalD lg t 1 = .ok 0 ∧ s.quatEvalD lg t 2 = .ub ∧ s.quatEvalD lg t 3 = .ub := by
  obtain ⟨hw, ho⟩ := h.mwf (by omega)
  rw [getMinTime_eq hw he, Outcome.ok.injEq] at hmin
  rw [getMaxTime_eq hw he, Outcome.ok.injEq] at hmax
  subst hmin hmax
  obtain ⟨i, hi, -⟩ := getSegmentIterator_ok hw he t h1 h2
  obtain ⟨c, cs, hv⟩ := segVerts_exists hw hi
  have hl := segVerts_length hi hv
  have hcs : cs = [] := List.length_eq_zero_iff.1 (by omega)
  have hub : ∀ d, s.evalDRecursive lg (s.evaluatorOf t i) d = .ub := by
    intro d
    unfold evalDRecursive
    rw [qcache_eq lg hw he hi hv, Outcome.bind_ok, if_pos (by omega)]
  refine ⟨?_, ?_, ?_⟩
  · have := quatEvalD_segQ lg hw he hi hv 1 (Or.inl le_rfl)
    rw [show ((1 : ℕ) : ℤ) = 1 from rfl] at this
    rw [this]
    simp [segQ, segFactors, hcs, phiList, factorsFrom, dProd]
  · unfold quatEvalD
    rw [if_neg (by omega), evaluatorAt_eq hw he hi, Outcome.bind_ok, if_neg (by omega), hub]
  · unfold quatEvalD
    rw [if_neg (by omega), evaluatorAt_eq hw he hi, Outcome.bind_ok, if_neg (by omega), hub]

/-! ### Angular velocity -/

/-- Twice the vector part, as a linear map. -/
noncomputable def angL : ℍ[ℝ] →ₗ[ℝ] V3 where
  toFun q := fun i => 2 * qeps q i
  map_add' a b := by
    funext i
    fin_cases i <;> simp [qeps] <;> ring
  map_smul' r a := by
    funext i
    fin_cases i <;> simp [qeps] <;> ring

theorem angularTmp_eq (v d : ℍ[ℝ]) : angularTmp v d = qeps (star v * d) := by
  funext i
  fin_cases i <;> simp [angularTmp, qeps, qeta, cross3] <;> ring

theorem angL_star_self (q : ℍ[ℝ]) : angL (star q * q) = 0 := by
  rw [Quaternion.star_mul_self]
  funext i
  fin_cases i <;> simp [angL, qeps]

theorem hasDerivAt_angL {f : ℝ → ℍ[ℝ]} {f' : ℍ[ℝ]} {t : ℝ} (h : HasDerivAt f f' t) :
    HasDerivAt (fun x => angL (f x)) (angL f') t :=
  ((LinearMap.toContinuousLinearMap angL).hasFDerivAt.comp_hasDerivAt t h)

/-- The conjugate, as a linear map. -/
noncomputable def starL : ℍ[ℝ] →ₗ[ℝ] ℍ[ℝ] where
  toFun q := star q
  map_add' a b := star_add a b
  map_smul' r a := by ext <;> simp

theorem hasDerivAt_star {f : ℝ → ℍ[ℝ]} {f' : ℍ[ℝ]} {t : ℝ} (h : HasDerivAt f f' t) :
    HasDerivAt (fun x => star (f x)) (star f') t :=
  ((LinearMap.toContinuousLinearMap starL).hasFDerivAt.comp_hasDerivAt t h)

theorem quatV_angL (q : ℍ[ℝ]) (h : q.re = 0) : quatV (angL q) = q := by
  ext <;> simp [angL, qeps, h]

theorem angL_quatV (v : V3) : angL (quatV v) = v := by
  funext i
  fin_cases i <;> simp [angL, qeps] <;> ring

theorem evalAngular_segQ (lg : ℍ[ℝ] → V3) {s : MSpline ℝ ℍ[ℝ]} (h : s.MWF) (he : s.state = .evaluable) {t : ℝ} {i : ℕ} (hi : s.InSeg t i)
    {c : ℍ[ℝ]} {cs : List ℍ[ℝ]} (hv : (s.verts.drop (i + 1 - s.order)).take s.order = c :: cs) (d : ℕ)
    (hd : d ≤ 1 ∨ 2 ≤ s.order ∧ d ≤ 2) :
    s.evalAngularDerivative lg t d = .ok (angL (star (s.segQ lg i c cs 0 t) * s.segQ lg i c cs d t)) := by
  unfold evalAngularDerivative
  have e0 := quatEvalD_segQ lg h he hi hv 0 (Or.inl (by omega))
  rw [Nat.cast_zero] at e0
  rw [quatEvalD_segQ lg h he hi hv d (by omega), Outcome.bind_ok, e0, Outcome.bind_ok, if_neg (by omega)]
  congr 1
  rw [angularTmp_eq]
  rfl

theorem evalAngular_three (lg : ℍ[ℝ] → V3) {s : MSpline ℝ ℍ[ℝ]} (h : s.MWF) (he : s.state = .evaluable) {t : ℝ} {i : ℕ} (hi : s.InSeg t i)
    {c : ℍ[ℝ]} {cs : List ℍ[ℝ]} (hv : (s.verts.drop (i + 1 - s.order)).take s.order = c :: cs) (ho : 2 ≤ s.order) :
    s.evalAngularDerivative lg t 3 = .ok (angL (star (s.segQ lg i c cs 1 t) * s.segQ lg i c cs 2 t +
      star (s.segQ lg i c cs 0 t) * s.segQ lg i c cs 3 t)) := by
  unfold evalAngularDerivative
  have e0 := quatEvalD_segQ lg h he hi hv 0 (Or.inl (by omega))
  have e1 := quatEvalD_segQ lg h he hi hv 1 (Or.inl (by omega))
  have e2 := quatEvalD_segQ lg h he hi hv 2 (Or.inr ⟨ho, by omega⟩)
  have e3 := quatEvalD_segQ lg h he hi hv 3 (Or.inr ⟨ho, by omega⟩)
  rw [Nat.cast_zero] at e0
  rw [Nat.cast_one] at e1
  rw [Nat.cast_ofNat] at e2
  rw [e3, Outcome.bind_ok, e0, Outcome.bind_ok, if_pos rfl, e1, Outcome.bind_ok, e2, Outcome.bind_ok]
  congr 1
  funext j
  have := congrFun (angularTmp_eq (s.segQ lg i c cs 1 t) (s.segQ lg i c cs 2 t)) j
  rw [angularTmp_eq, map_add]
  show _ = 2 * qeps _ j + 2 * qeps _ j
  rw [← this]
  simp only [angularTmp]
  ring

theorem segQ_unit (lg : ℍ[ℝ] → V3) (s : MSpline ℝ ℍ[ℝ]) (i : ℕ) (c : ℍ[ℝ]) (cs : List ℍ[ℝ]) (hc : ‖c‖ = 1) (x : ℝ) :
    ‖s.segQ lg i c cs 0 x‖ = 1 := by
  have key : ∀ (φs : List V3) (k : ℕ), ‖dProd ((factorsFrom (s.betaPoly i) k φs).map fun f e => f e x) 0‖ = 1 := by
    intro φs
    induction φs with
    | nil => intro k; simp [factorsFrom, dProd]
    | cons φ φs ih =>
      intro k
      simp only [factorsFrom, List.map_cons]
      rw [dProd_zero, norm_mul, ih, norm_rD_zero, _root_.mul_one]
  unfold segQ segFactors
  rw [norm_mul, key, hc, _root_.mul_one]

/-- For a differentiable curve of unit quaternions `star q * q'` has no real part. -/
theorem unit_curve_re {q : ℝ → ℍ[ℝ]} {q' : ℍ[ℝ]} {t : ℝ} (h : HasDerivAt q q' t) (hu : ∀ x, ‖q x‖ = 1) : (star (q t) * q').re = 0 := by
  have h1 : HasDerivAt (fun x => star (q x) * q x) (star q' * q t + star (q t) * q') t := (hasDerivAt_star h).fun_mul h
  have h2 : (fun x => star (q x) * q x) = fun _ => (1 : ℍ[ℝ]) := by
    funext x
    exact unit_star_mul (hu x)
  rw [h2] at h1
  have h3 := h1.unique (hasDerivAt_const t (1 : ℍ[ℝ]))
  have h4 : (star q' * q t + star (q t) * q').re = 0 := by rw [h3]; rfl
  simp only [Quaternion.re_add, Quaternion.re_mul, Quaternion.re_star, Quaternion.imI_star, Quaternion.imJ_star, Quaternion.imK_star] at h4 ⊢
  linarith

/-- C30: inside the segments of a spline with unit quaternions as control vertices, the angular velocity query returns the one and
only `w` such that the derivative of the curve is `½ w q` (`quatV w` is half the embedding of `w`, `qplus` the library's product). -/
theorem C30_angular_velocity (lg : ℍ[ℝ] → V3) (order : ℕ) (ho : 1 ≤ order) (s : MSpline ℝ ℍ[ℝ])
    (h : RegularReach (quatGroup lg).toMfd order s) (he : s.state = .evaluable) (nv : ℕ) (hnv : s.numControlVertices = .ok nv)
    (hverts : ∀ v ∈ s.verts.take nv, ‖v‖ = 1) (tmin tmax : ℝ) (hmin : s.getMinTime = .ok tmin)
    (hmax : s.getMaxTime = .ok tmax) (t : ℝ) (h1 : tmin ≤ t) (h2 : t ≤ tmax) (ht : t ∉ s.keys) :
    ∃ w, s.evalAngularVelocity lg t = .ok w ∧ ∀ w', w' = w ↔
      HasDerivAt (fun x => (s.quatEvalD lg x 0).getD 0) (qplus (quatV w') ((s.quatEvalD lg t 0).getD 0)) t := by
  obtain ⟨hw, rfl⟩ := h.mwf (by omega)
  rw [numControlVertices_eq hw he, Outcome.ok.injEq] at hnv
  rw [getMinTime_eq hw he, Outcome.ok.injEq] at hmin
  rw [getMaxTime_eq hw he, Outcome.ok.injEq] at hmax
  subst hmin hmax
  obtain ⟨i, hi, -⟩ := getSegmentIterator_ok hw he t h1 h2
  obtain ⟨c, cs, hv⟩ := segVerts_exists hw hi
  have hc : ‖c‖ = 1 := hverts c (segVerts_mem hi nv hnv.symm hv c (by simp))
  have hev : ∀ x, s.InSeg x i → s.quatEvalD lg x 0 = .ok (s.segQ lg i c cs 0 x) := by
    intro x hx
    have := quatEvalD_segQ lg hw he hx hv 0 (Or.inl (by omega))
    rwa [Nat.cast_zero] at this
  have hder : HasDerivAt (fun x => (s.quatEvalD lg x 0).getD 0) (s.segQ lg i c cs 1 t) t := by
    refine (segQ_deriv lg s i c cs t 0 (by omega)).congr_of_eventuallyEq ?_
    filter_upwards [inSeg_nhds (by omega) hi ht] with x hx
    rw [hev x hx]
    rfl
  refine ⟨_, evalAngular_segQ lg hw he hi hv 1 (Or.inl le_rfl), fun w' => ?_⟩
  rw [hev t hi, qplus_eq]
  show _ ↔ HasDerivAt _ (s.segQ lg i c cs 0 t * quatV w') t
  set q := s.segQ lg i c cs 0 t with hq
  set q' := s.segQ lg i c cs 1 t with hq'
  have hqu : ‖q‖ = 1 := segQ_unit lg s i c cs hc t
  have hre : (star q * q').re = 0 := unit_curve_re (q := s.segQ lg i c cs 0) (segQ_deriv lg s i c cs t 0 (by omega)) (segQ_unit lg s i c cs hc)
  constructor
  · rintro rfl
    rw [quatV_angL _ hre, ← mul_assoc, unit_mul_star hqu, _root_.one_mul]
    exact hder
  · intro hd
    have e := hd.unique hder
    rw [← e, ← mul_assoc, unit_star_mul hqu, _root_.one_mul, angL_quatV]

/-- C30: inside the segments the angular acceleration query is the time derivative of the angular velocity query, and the query for
the third derivative is the time derivative of the angular acceleration query.  (What is missing: order one, see
`C30_order_one_undefined`.) -/
theorem C30_angular_acceleration_partial (lg : ℍ[ℝ] → V3) (order : ℕ) (ho : 2 ≤ order) (s : MSpline ℝ ℍ[ℝ])
    (h : RegularReach (quatGroup lg).toMfd order s) (he : s.state = .evaluable) (tmin tmax : ℝ) (hmin : s.getMinTime = .ok tmin)
    (hmax : s.getMaxTime = .ok tmax) (t : ℝ) (h1 : tmin ≤ t) (h2 : t ≤ tmax) (ht : t ∉ s.keys) :
    (∃ a, s.evalAngularAcceleration lg t = .ok a ∧ HasDerivAt (fun x => (s.evalAngularVelocity lg x).getD 0) a t) ∧
    ∃ j, s.evalAngularDerivative lg t 3 = .ok j ∧ HasDerivAt (fun x => (s.evalAngularAcceleration lg x).getD 0) j t := by
  obtain ⟨hw, rfl⟩ := h.mwf (by omega)
  rw [getMinTime_eq hw he, Outcome.ok.injEq] at hmin
  rw [getMaxTime_eq hw he, Outcome.ok.injEq] at hmax
  subst hmin hmax
  obtain ⟨i, hi, -⟩ := getSegmentIterator_ok hw he t h1 h2
  obtain ⟨c, cs, hv⟩ := segVerts_exists hw hi
  have d0 := segQ_deriv lg s i c cs t 0 (by omega)
  have d1 := segQ_deriv lg s i c cs t 1 (by omega)
  have d2 := segQ_deriv lg s i c cs t 2 (by omega)
  constructor
  · refine ⟨_, evalAngular_segQ lg hw he hi hv 2 (Or.inr ⟨ho, le_rfl⟩), ?_⟩
    have := hasDerivAt_angL ((hasDerivAt_star d0).fun_mul d1)
    rw [map_add, angL_star_self, zero_add] at this
    refine this.congr_of_eventuallyEq ?_
    filter_upwards [inSeg_nhds (by omega) hi ht] with x hx
    unfold evalAngularVelocity
    rw [evalAngular_segQ lg hw he hx hv 1 (Or.inl le_rfl)]
    rfl
  · refine ⟨_, evalAngular_three lg hw he hi hv ho, ?_⟩
    refine (hasDerivAt_angL ((hasDerivAt_star d0).fun_mul d2)).congr_of_eventuallyEq ?_
    filter_upwards [inSeg_nhds (by omega) hi ht] with x hx
    unfold evalAngularAcceleration
    rw [evalAngular_segQ lg hw he hx hv 2 (Or.inr ⟨ho, le_rfl⟩)]
    rfl

/-- C30 is violated for order one: the angular velocity is zero, but the angular acceleration query has no defined result. -/
theorem C30_order_one_undefined (lg : ℍ[ℝ] → V3) (s : MSpline ℝ ℍ[ℝ]) (h : RegularReach (quatGroup lg).toMfd 1 s)
    (he : s.state = .evaluable) (tmin tmax : ℝ) (hmin : s.getMinTime = .ok tmin)
    (hmax : s.getMaxTime = .ok tmax) (t : ℝ) (h1 : tmin ≤ t) (h2 : t ≤ tmax) :
    s.evalAngularVelocity lg t = .ok 0 ∧ s.evalAngularAcceleration lg t = .ub := by
  obtain ⟨e1, e2, -⟩ := C29_order_one_undefined lg s h he tmin tmax hmin hmax t h1 h2
  constructor
  · obtain ⟨hw, ho⟩ := h.mwf (by omega)
    rw [getMinTime_eq hw he, Outcome.ok.injEq] at hmin
    rw [getMaxTime_eq hw he, Outcome.ok.injEq] at hmax
    subst hmin hmax
    obtain ⟨i, hi, -⟩ := getSegmentIterator_ok hw he t h1 h2
    obtain ⟨c, cs, hv⟩ := segVerts_exists hw hi
    have e3 := quatEvalD_segQ lg hw he hi hv 1 (Or.inl le_rfl)
    rw [Nat.cast_one, e1, Outcome.ok.injEq] at e3
    unfold evalAngularVelocity
    rw [evalAngular_segQ lg hw he hi hv 1 (Or.inl le_rfl), ← e3, mul_zero, map_zero]
  · unfold evalAngularAcceleration evalAngularDerivative
    rw [show ((2 : ℕ) : ℤ) = 2 from rfl, e2]
    rfl

/-- C29 and C30 apply to a spline of order two through three different rotations. -/
example (lg : ℍ[ℝ] → V3) : ∃ s : MSpline ℝ ℍ[ℝ], s.verts.take 3 = demoQuats ∧
    (∃ v, s.quatEvalD lg (3 / 2) 3 = .ok v ∧ HasDerivAt (fun x => (s.quatEvalD lg x 2).getD 0) v (3 / 2)) ∧
    (∃ w, s.evalAngularVelocity lg (3 / 2) = .ok w ∧
      HasDerivAt (fun x => (s.quatEvalD lg x 0).getD 0) (qplus (quatV w) ((s.quatEvalD lg (3 / 2) 0).getD 0)) (3 / 2)) ∧
    ∃ a, s.evalAngularAcceleration lg (3 / 2) = .ok a ∧ HasDerivAt (fun x => (s.evalAngularVelocity lg x).getD 0) a (3 / 2) := by
  obtain ⟨s, g1, g2, g3, g4, g5, g6, g7⟩ := quat_spline_exists lg 2 (by norm_num) [0, 1, 2, 3, 4] demoQuats (by
    simp [List.pairwise_cons]; norm_num) rfl (by decide) demoQuats_unit
  have ht : (3 / 2 : ℝ) ∉ s.keys := by rw [g3]; norm_num
  obtain ⟨w, hw1, hw2⟩ := C30_angular_velocity lg 2 (by norm_num) s g1 g2 3 g4 (by
    rw [show (3 : ℕ) = demoQuats.length from rfl, g5]; exact demoQuats_unit) 1 3 g6 g7 (3 / 2) (by norm_num) (by norm_num) ht
  exact ⟨s, g5, C29_derivatives_partial lg 2 le_rfl s g1 g2 1 3 g6 g7 (3 / 2) (by norm_num) (by norm_num) ht 2 (by norm_num),
    ⟨w, hw1, (hw2 w).1 rfl⟩,
    (C30_angular_acceleration_partial lg 2 le_rfl s g1 g2 1 3 g6 g7 (3 / 2) (by norm_num) (by norm_num) ht).1⟩

/-- The violation for order one occurs. -/
example (lg : ℍ[ℝ] → V3) : ∃ s : MSpline ℝ ℍ[ℝ], RegularReach (quatGroup lg).toMfd 1 s ∧ s.verts.take 3 = demoQuats ∧
    s.quatEvalD lg (3 / 2) 2 = .ub ∧ s.evalAngularAcceleration lg (3 / 2) = .ub := by
  obtain ⟨s, g1, g2, g3, g4, g5, g6, g7⟩ := quat_spline_exists lg 1 (by norm_num) [0, 1, 2, 3] demoQuats (by
    simp [List.pairwise_cons]; norm_num) rfl (by decide) demoQuats_unit
  exact ⟨s, g1, g5, (C29_order_one_undefined lg s g1 g2 0 3 g6 g7 (3 / 2) (by norm_num) (by norm_num)).2.1,
    (C30_order_one_undefined lg s g1 g2 0 3 g6 g7 (3 / 2) (by norm_num) (by norm_num)).2⟩

end Verif.MSpline
