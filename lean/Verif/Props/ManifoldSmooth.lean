import Verif.Lemmas.QuaternionKnots
import Verif.Props.QuaternionJacobian
import Verif.Props.Euclidean

/-!
# C70: manifold splines are smooth across their knots
-/

set_option linter.unusedSectionVars false

namespace Verif.MSpline

open Finset Polynomial Quaternion

/-- The logarithm undoes the exponential for the steps between successive control vertices. -/
def LogInverse (lg : ℍ[ℝ] → V3) (s : MSpline ℝ ℍ[ℝ]) (nv : ℕ) : Prop :=
  ∀ j a b, j + 1 < nv → s.verts[j]? = some a → s.verts[j + 1]? = some b →
    axisAngle2quat (lg (qplus (quatInv a) b)) = qplus (quatInv a) b

/-- The `d`-th derivative of the curve of segment `i`, for all `i`. -/
noncomputable def windowQ (lg : ℍ[ℝ] → V3) (s : MSpline ℝ ℍ[ℝ]) (d i : ℕ) (x : ℝ) : ℍ[ℝ] :=
  s.segQ lg i (((s.verts.drop (i + 1 - s.order)).take s.order).headD 0) ((s.verts.drop (i + 1 - s.order)).take s.order).tail d x

theorem windowQ_eq (lg : ℍ[ℝ] → V3) {s : MSpline ℝ ℍ[ℝ]} {i : ℕ} {c : ℍ[ℝ]} {cs : List ℍ[ℝ]}
    (hv : (s.verts.drop (i + 1 - s.order)).take s.order = c :: cs) (d : ℕ) (x : ℝ) : s.windowQ lg d i x = s.segQ lg i c cs d x := by
  unfold windowQ
  rw [hv]
  rfl

theorem quatEvalD_windowQ (lg : ℍ[ℝ] → V3) {s : MSpline ℝ ℍ[ℝ]} (h : s.MWF) (he : s.state = .evaluable) (ho : 2 ≤ s.order) {t : ℝ} {i : ℕ}
    (hi : s.InSeg t i) (d : ℕ) (hd : d ≤ 3) : s.quatEvalD lg t d = .ok (s.windowQ lg d i t) := by
  obtain ⟨c, cs, hv⟩ := segVerts_exists h hi
  rw [windowQ_eq lg hv, quatEvalD_segQ lg h he hi hv d (Or.inr ⟨ho, hd⟩)]

theorem windowQ_deriv (lg : ℍ[ℝ] → V3) (s : MSpline ℝ ℍ[ℝ]) (i : ℕ) (t : ℝ) (d : ℕ) (hd : d < 3) :
    HasDerivAt (s.windowQ lg d i) (s.windowQ lg (d + 1) i t) t := segQ_deriv lg s i _ _ t d hd

theorem continuous_rD (β : ℝ[X]) (φ : ℍ[ℝ]) (e : ℕ) : Continuous fun x => rD (fun n => (derivative^[n] β).eval x) φ e := by
  have hb : ∀ n, Continuous fun x => (derivative^[n] β).eval x := fun n =>
    continuous_iff_continuousAt.2 fun t => ((derivative^[n] β).hasDerivAt t).continuousAt
  have h0 : Continuous fun x => NormedSpace.exp ((derivative^[0] β).eval x • φ) :=
    continuous_iff_continuousAt.2 fun t => (hasDerivAt_exp_poly β φ t).continuousAt
  match e with
  | 0 => exact h0
  | 1 => exact h0.mul ((hb 1).smul continuous_const)
  | 2 => exact h0.mul (((hb 2).smul continuous_const).add (((hb 1).pow 2).smul continuous_const))
  | 3 =>
    exact h0.mul ((((hb 3).smul continuous_const).add (((continuous_const.mul (hb 1)).mul (hb 2)).smul continuous_const)).add
      (((hb 1).pow 3).smul continuous_const))
  | e + 4 => exact continuous_const

theorem continuous_factors (β : ℕ → ℝ[X]) : ∀ (φs : List V3) (k d : ℕ),
    Continuous fun x => dProd ((factorsFrom β k φs).map fun f e => f e x) d
  | [], k, d => by simp only [factorsFrom, List.map_nil, dProd]; exact continuous_const
  | φ :: φs, k, d => by
    simp only [factorsFrom, List.map_cons, dProd]
    exact continuous_finsetSum _ fun ij _ => ((continuous_factors β φs (k + 1) ij.2).mul (continuous_rD _ _ _)).const_smul _

theorem windowQ_continuous (lg : ℍ[ℝ] → V3) (s : MSpline ℝ ℍ[ℝ]) (d i : ℕ) : Continuous (s.windowQ lg d i) :=
  (continuous_factors _ _ _ _).mul continuous_const

/-- The curves of neighbouring segments meet with all derivatives up to `order - 2`. -/
theorem windowQ_joined (lg : ℍ[ℝ] → V3) {s : MSpline ℝ ℍ[ℝ]} (h : s.MWF) (hverts : ∀ v ∈ s.verts.take (s.keys.length - s.order), ‖v‖ = 1)
    (hlog : s.LogInverse lg (s.keys.length - s.order)) {d : ℕ} (hd : d + 2 ≤ s.order) : s.Joined (s.windowQ lg d) := by
  intro i h1 h2
  obtain ⟨a, b, cs, n, hl, ha, hb, w1, w2⟩ := windows h1 h2 (by omega)
  rw [windowQ_eq lg w1, windowQ_eq lg w2, segQ_left lg h h1 h2 hd hl, segQ_right lg h h1 h2 hd hl]
  have hl' := hlog (i + 1 - s.order) a b (by omega) ha (by rw [show i + 1 - s.order + 1 = i + 2 - s.order by omega]; exact hb)
  rw [qplus_eq, quatInv_eq] at hl'
  have hua : ‖a‖ = 1 := hverts a (List.mem_of_getElem? (i := i + 1 - s.order) (by rw [List.getElem?_take_of_lt (by omega)]; exact ha))
  rw [hl', mul_assoc b, unit_star_mul hua, _root_.mul_one]

/-- C70: on its whole valid range the curve of a quaternion spline and its derivatives up to the order `order - 2` (and 3, what the code
supports) are continuous, knots included. -/
theorem C70_quaternion_continuous (lg : ℍ[ℝ] → V3) (order : ℕ) (s : MSpline ℝ ℍ[ℝ])
    (h : RegularReach (quatGroup lg).toMfd order s) (he : s.state = .evaluable) (nv : ℕ) (hnv : s.numControlVertices = .ok nv)
    (hverts : ∀ v ∈ s.verts.take nv, ‖v‖ = 1) (hlog : s.LogInverse lg nv) (tmin tmax : ℝ) (hmin : s.getMinTime = .ok tmin)
    (hmax : s.getMaxTime = .ok tmax) (d : ℕ) (hd : d + 2 ≤ order) (hd3 : d ≤ 3) :
    (∀ t ∈ Set.Icc tmin tmax, ∃ v, s.quatEvalD lg t d = .ok v) ∧
    ContinuousOn (fun x => (s.quatEvalD lg x d).getD 0) (Set.Icc tmin tmax) := by
  obtain ⟨hw, rfl⟩ := h.mwf (by omega)
  rw [numControlVertices_eq hw he, Outcome.ok.injEq] at hnv
  rw [getMinTime_eq hw he, Outcome.ok.injEq] at hmin
  rw [getMaxTime_eq hw he, Outcome.ok.injEq] at hmax
  subst hmin hmax hnv
  refine ⟨fun t ht => ?_, ?_⟩
  · obtain ⟨i, hi, -⟩ := getSegmentIterator_ok hw he t ht.1 ht.2
    exact ⟨_, quatEvalD_windowQ lg hw he (by omega) hi d hd3⟩
  · refine glue_continuousOn hw he _ (s.windowQ lg d) (fun x i hi => ?_) (s.windowQ_continuous lg d) (windowQ_joined lg hw hverts hlog hd)
    rw [quatEvalD_windowQ lg hw he (by omega) hi d hd3]
    rfl

/-- C70: at every time inside the valid range, knots included, the query for the derivative `d + 1 ≤ order - 2` is the two sided
derivative of the query for the derivative `d`. -/
theorem C70_quaternion_derivative (lg : ℍ[ℝ] → V3) (order : ℕ) (s : MSpline ℝ ℍ[ℝ])
    (h : RegularReach (quatGroup lg).toMfd order s) (he : s.state = .evaluable) (nv : ℕ) (hnv : s.numControlVertices = .ok nv)
    (hverts : ∀ v ∈ s.verts.take nv, ‖v‖ = 1) (hlog : s.LogInverse lg nv) (tmin tmax : ℝ) (hmin : s.getMinTime = .ok tmin)
    (hmax : s.getMaxTime = .ok tmax) (t : ℝ) (h1 : tmin < t) (h2 : t < tmax) (d : ℕ) (hd : d + 3 ≤ order) (hd3 : d < 3) :
    ∃ v, s.quatEvalD lg t (d + 1) = .ok v ∧ HasDerivAt (fun x => (s.quatEvalD lg x d).getD 0) v t := by
  obtain ⟨hw, rfl⟩ := h.mwf (by omega)
  rw [numControlVertices_eq hw he, Outcome.ok.injEq] at hnv
  rw [getMinTime_eq hw he, Outcome.ok.injEq] at hmin
  rw [getMaxTime_eq hw he, Outcome.ok.injEq] at hmax
  subst hmin hmax hnv
  obtain ⟨i, hi, -⟩ := getSegmentIterator_ok hw he t h1.le h2.le
  refine ⟨_, quatEvalD_windowQ lg hw he (by omega) hi (d + 1) (by omega), ?_⟩
  refine glue_hasDerivAt hw _ (s.windowQ lg d) (s.windowQ lg (d + 1)) (fun x i hi => ?_) (fun i x => s.windowQ_deriv lg i x d hd3)
    (windowQ_joined lg hw hverts hlog (by omega)) (windowQ_joined lg hw hverts hlog (by omega)) hi h1 h2
  rw [quatEvalD_windowQ lg hw he (by omega) hi d (by omega)]
  rfl

/-- C70: for every knot in between, the curve is continuous there exactly if the exponential of the logarithm leads from the control
vertex that goes out of use to its successor.  The condition on the logarithm in the other theorems is needed. -/
theorem C70_continuous_iff (lg : ℍ[ℝ] → V3) (order : ℕ) (ho : 2 ≤ order) (s : MSpline ℝ ℍ[ℝ])
    (h : RegularReach (quatGroup lg).toMfd order s) (he : s.state = .evaluable) (m : ℕ) (h1 : order ≤ m)
    (h2 : m + order < s.keys.length) (τ : ℝ) (hτ : s.keys[m]? = some τ) (a b : ℍ[ℝ]) (ha : s.verts[m - order]? = some a)
    (hb : s.verts[m - order + 1]? = some b) :
    ContinuousAt (fun x => (s.quatEvalD lg x 0).getD 0) τ ↔ (quatGroup lg).exp a ((quatGroup lg).log a b) = b := by
  obtain ⟨hw, rfl⟩ := h.mwf (by omega)
  obtain ⟨i, rfl⟩ : ∃ i, m = i + 1 := ⟨m - 1, by omega⟩
  obtain ⟨a', b', cs, n, hl, ha', hb', w1, w2⟩ := windows h1 h2 ho
  rw [ha, Option.some.injEq] at ha'
  rw [show i + 1 - s.order + 1 = i + 2 - s.order by omega, hb', Option.some.injEq] at hb
  subst ha' hb
  have hkn : s.kn (i + 1) = τ := by
    have := kn_getElem s (show i + 1 < s.keys.length by omega)
    rw [hτ] at this
    exact (Option.some.inj this).symm
  subst hkn
  rw [glue_continuousAt_iff hw _ (s.windowQ lg 0) (fun x j hj => ?_) (s.windowQ_continuous lg 0) h1 h2, windowQ_eq lg w1, windowQ_eq lg w2,
    segQ_left lg hw h1 h2 (by omega) hl, segQ_right lg hw h1 h2 (by omega) hl]
  · have hu : ‖s.knotProd lg i b' cs 0‖ = 1 := norm_factors _ _ _ _
    have hne : s.knotProd lg i b' cs 0 ≠ 0 := by
      intro h0
      rw [h0, norm_zero] at hu
      exact zero_ne_one hu
    have hexp : (quatGroup lg).exp a ((quatGroup lg).log a b') = axisAngle2quat (lg (b' * star a)) * a := by
      rw [log_quatGroup]
      show qplus a _ = _
      rw [qplus_eq]
      rfl
    rw [hexp]
    exact mul_right_inj' hne
  · have := quatEvalD_windowQ lg hw he ho hj 0 (by omega)
    rw [Nat.cast_zero] at this
    rw [this]
    rfl

/-- C70: for orders from 3 the angular velocity is continuous and at every time inside the range, knots included, the rate of rotation;
for orders from 4 the angular acceleration is continuous and everywhere the derivative of the angular velocity. -/
theorem C70_angular (lg : ℍ[ℝ] → V3) (order : ℕ) (s : MSpline ℝ ℍ[ℝ])
    (h : RegularReach (quatGroup lg).toMfd order s) (he : s.state = .evaluable) (nv : ℕ) (hnv : s.numControlVertices = .ok nv)
    (hverts : ∀ v ∈ s.verts.take nv, ‖v‖ = 1) (hlog : s.LogInverse lg nv) (tmin tmax : ℝ) (hmin : s.getMinTime = .ok tmin)
    (hmax : s.getMaxTime = .ok tmax) :
    (3 ≤ order → ContinuousOn (fun x => (s.evalAngularVelocity lg x).getD 0) (Set.Icc tmin tmax) ∧
      ∀ t, tmin < t → t < tmax → ∃ w q, s.evalAngularVelocity lg t = .ok w ∧ s.quatEvalD lg t 0 = .ok q ∧
        HasDerivAt (fun x => (s.quatEvalD lg x 0).getD 0) (qplus (quatV w) q) t) ∧
    (4 ≤ order → ContinuousOn (fun x => (s.evalAngularAcceleration lg x).getD 0) (Set.Icc tmin tmax) ∧
      ∀ t, tmin < t → t < tmax → ∃ a, s.evalAngularAcceleration lg t = .ok a ∧
        HasDerivAt (fun x => (s.evalAngularVelocity lg x).getD 0) a t) := by
  have hang : ∀ d, d = 1 ∨ d = 2 → d + 2 ≤ order → s.MWF → s.order = order → ∀ x i, s.InSeg x i →
      s.evalAngularDerivative lg x d = .ok (angL (star (s.windowQ lg 0 i x) * s.windowQ lg d i x)) := by
    intro d hd ho hw hord x i hi
    obtain ⟨c, cs, hv⟩ := segVerts_exists hw hi
    rw [windowQ_eq lg hv, windowQ_eq lg hv]
    exact evalAngular_segQ lg hw he hi hv d (by omega)
  have hcont : ∀ d i, Continuous fun x => angL (star (s.windowQ lg 0 i x) * s.windowQ lg d i x) := fun d i =>
    (LinearMap.continuous_of_finiteDimensional angL).comp
      ((continuous_star.comp (s.windowQ_continuous lg 0 i)).mul (s.windowQ_continuous lg d i))
  constructor
  · intro ho
    obtain ⟨hw, hord⟩ := h.mwf (by omega)
    rw [numControlVertices_eq hw he, Outcome.ok.injEq] at hnv
    rw [getMinTime_eq hw he, Outcome.ok.injEq] at hmin
    rw [getMaxTime_eq hw he, Outcome.ok.injEq] at hmax
    subst hmin hmax hnv
    have j0 := windowQ_joined lg hw hverts hlog (d := 0) (by omega)
    have j1 := windowQ_joined lg hw hverts hlog (d := 1) (by omega)
    constructor
    · refine glue_continuousOn hw he _ (fun i x => angL (star (s.windowQ lg 0 i x) * s.windowQ lg 1 i x)) (fun x i hi => ?_)
        (hcont 1) (fun i b1 b2 => ?_)
      · unfold evalAngularVelocity
        rw [hang 1 (Or.inl rfl) (by omega) hw hord x i hi]
        rfl
      · simp only [j0 i b1 b2, j1 i b1 b2]
    · intro t h1 h2
      obtain ⟨i, hi, -⟩ := getSegmentIterator_ok hw he t h1.le h2.le
      obtain ⟨c, cs, hv⟩ := segVerts_exists hw hi
      have hc : ‖c‖ = 1 := hverts c (segVerts_mem hi _ rfl hv c (by simp))
      have e0 := quatEvalD_windowQ lg hw he (by omega) hi 0 (by omega)
      rw [Nat.cast_zero] at e0
      refine ⟨_, _, hang 1 (Or.inl rfl) (by omega) hw hord t i hi, e0, ?_⟩
      have hder := glue_hasDerivAt hw (fun x => (s.quatEvalD lg x 0).getD 0) (s.windowQ lg 0) (s.windowQ lg 1) (fun x i hi => by
        have := quatEvalD_windowQ lg hw he (by omega) hi 0 (by omega)
        rw [Nat.cast_zero] at this
        rw [this]; rfl) (fun i x => s.windowQ_deriv lg i x 0 (by omega)) j0 j1 hi h1 h2
      refine hder.congr_deriv ?_
      rw [qplus_eq, windowQ_eq lg hv, windowQ_eq lg hv]
      have hqu := segQ_unit lg s i c cs hc t
      have hre := unit_curve_re (q := s.segQ lg i c cs 0) (segQ_deriv lg s i c cs t 0 (by omega)) (segQ_unit lg s i c cs hc)
      rw [quatV_angL _ hre, ← mul_assoc, unit_mul_star hqu, _root_.one_mul]
  · intro ho
    obtain ⟨hw, hord⟩ := h.mwf (by omega)
    rw [numControlVertices_eq hw he, Outcome.ok.injEq] at hnv
    rw [getMinTime_eq hw he, Outcome.ok.injEq] at hmin
    rw [getMaxTime_eq hw he, Outcome.ok.injEq] at hmax
    subst hmin hmax hnv
    have j0 := windowQ_joined lg hw hverts hlog (d := 0) (by omega)
    have j1 := windowQ_joined lg hw hverts hlog (d := 1) (by omega)
    have j2 := windowQ_joined lg hw hverts hlog (d := 2) (by omega)
    constructor
    · refine glue_continuousOn hw he _ (fun i x => angL (star (s.windowQ lg 0 i x) * s.windowQ lg 2 i x)) (fun x i hi => ?_)
        (hcont 2) (fun i b1 b2 => ?_)
      · unfold evalAngularAcceleration
        rw [hang 2 (Or.inr rfl) (by omega) hw hord x i hi]
        rfl
      · simp only [j0 i b1 b2, j2 i b1 b2]
    · intro t h1 h2
      obtain ⟨i, hi, -⟩ := getSegmentIterator_ok hw he t h1.le h2.le
      refine ⟨_, hang 2 (Or.inr rfl) (by omega) hw hord t i hi, ?_⟩
      refine glue_hasDerivAt hw _ (fun i x => angL (star (s.windowQ lg 0 i x) * s.windowQ lg 1 i x))
        (fun i x => angL (star (s.windowQ lg 0 i x) * s.windowQ lg 2 i x)) (fun x i hi => ?_) (fun i x => ?_) (fun i b1 b2 => ?_)
        (fun i b1 b2 => ?_) hi h1 h2
      · unfold evalAngularVelocity
        rw [hang 1 (Or.inl rfl) (by omega) hw hord x i hi]
        rfl
      · have := hasDerivAt_angL ((hasDerivAt_star (s.windowQ_deriv lg i x 0 (by omega))).fun_mul (s.windowQ_deriv lg i x 1 (by omega)))
        rwa [map_add, angL_star_self, zero_add] at this
      · simp only [j0 i b1 b2, j1 i b1 b2]
      · simp only [j0 i b1 b2, j2 i b1 b2]

/-! ### Euclidean splines -/

section Euclidean

variable {P : Type*} [NormedAddCommGroup P] [NormedSpace ℝ P]

theorem segSum_deriv (s : MSpline ℝ P) (i d : ℕ) (t : ℝ) : HasDerivAt (s.segSum i d) (s.segSum i (d + 1) t) t := by
  unfold segSum
  refine HasDerivAt.fun_sum fun j _ => ?_
  have := (derivative^[d] (piece s.kn i (s.order - 1) j)).hasDerivAt t
  rw [← Function.iterate_succ_apply' derivative] at this
  exact this.smul_const _

theorem segSum_joined {s : MSpline ℝ P} (h : s.MWF) {d : ℕ} (hd : d + 2 ≤ s.order) : s.Joined fun i => s.segSum i d := by
  intro i h1 h2
  unfold segSum
  refine sum_congr rfl fun j hj => ?_
  have := mem_range.1 hj
  rw [piece_joined h h2 hd (by omega)]

/-- C70: the curve of a Euclidean manifold spline and its derivatives up to the order `order - 2` are continuous on the whole valid
range. -/
theorem C70_euclidean_continuous (order : ℕ) (s : MSpline ℝ P) (h : RegularReach (euclidean ℝ P) order s) (he : s.state = .evaluable)
    (tmin tmax : ℝ) (hmin : s.getMinTime = .ok tmin) (hmax : s.getMaxTime = .ok tmax) (d : ℕ) (hd : d + 2 ≤ order) :
    (∀ t ∈ Set.Icc tmin tmax, ∃ v, s.euclideanEvalD none t d = .ok v) ∧
    ContinuousOn (fun x => (s.euclideanEvalD none x d).getD 0) (Set.Icc tmin tmax) := by
  obtain ⟨hw, rfl⟩ := h.mwf (by omega)
  rw [getMinTime_eq hw he, Outcome.ok.injEq] at hmin
  rw [getMaxTime_eq hw he, Outcome.ok.injEq] at hmax
  subst hmin hmax
  refine ⟨fun t ht => ?_, ?_⟩
  · obtain ⟨i, hi, -⟩ := getSegmentIterator_ok hw he t ht.1 ht.2
    exact ⟨_, euclideanEvalD_eq hw he hi none d (by simp)⟩
  · refine glue_continuousOn hw he _ (fun i => s.segSum i d) (fun x i hi => ?_)
      (fun i => continuous_iff_continuousAt.2 fun x => (s.segSum_deriv i d x).continuousAt) (segSum_joined hw hd)
    rw [euclideanEvalD_eq hw he hi none d (by simp)]
    rfl

/-- C70: at every time inside the valid range at which the curve is smooth enough (for `d + 3 ≤ order` all, otherwise all but the knots) the
query for the derivative `d + 1` is the two sided derivative of the query for the derivative `d`. -/
theorem C70_euclidean_derivative (order : ℕ) (ho : 1 ≤ order) (s : MSpline ℝ P) (h : RegularReach (euclidean ℝ P) order s)
    (he : s.state = .evaluable) (tmin tmax : ℝ) (hmin : s.getMinTime = .ok tmin) (hmax : s.getMaxTime = .ok tmax) (t : ℝ) (h1 : tmin < t)
    (h2 : t < tmax) (d : ℕ) (hd : d + 3 ≤ order ∨ t ∉ s.keys) :
    ∃ v, s.euclideanEvalD none t (d + 1) = .ok v ∧ HasDerivAt (fun x => (s.euclideanEvalD none x d).getD 0) v t := by
  obtain ⟨hw, rfl⟩ := h.mwf ho
  rw [getMinTime_eq hw he, Outcome.ok.injEq] at hmin
  rw [getMaxTime_eq hw he, Outcome.ok.injEq] at hmax
  subst hmin hmax
  obtain ⟨i, hi, -⟩ := getSegmentIterator_ok hw he t h1.le h2.le
  have hev : ∀ x j, s.InSeg x j → (s.euclideanEvalD none x d).getD 0 = s.segSum j d x := by
    intro x j hj
    rw [euclideanEvalD_eq hw he hj none d (by simp)]
    rfl
  have e1 := euclideanEvalD_eq hw he hi none (d + 1) (by simp)
  push_cast at e1
  refine ⟨_, e1, ?_⟩
  rcases hd with hd | hd
  · exact glue_hasDerivAt hw _ (fun i => s.segSum i d) (fun i => s.segSum i (d + 1)) hev (fun i x => s.segSum_deriv i d x)
      (segSum_joined hw (by omega)) (segSum_joined hw (by omega)) hi h1 h2
  · refine (s.segSum_deriv i d t).congr_of_eventuallyEq ?_
    filter_upwards [inSeg_nhds ho hi hd] with x hx
    exact hev x i hx

end Euclidean

/-! ### Examples -/

noncomputable def wave : List ℍ[ℝ] := [1, quatI, quatIJ, quatI, quatIJ]

theorem wave_unit : ∀ c ∈ wave, ‖c‖ = 1 := by
  intro c hc
  simp only [wave, List.mem_cons, List.not_mem_nil, or_false] at hc
  rcases hc with rfl | rfl | rfl | rfl | rfl
  exacts [norm_one, norm_quatI, norm_quatIJ, norm_quatI, norm_quatIJ]

theorem step_inverse {a b : ℍ[ℝ]} (na : ‖a‖ = 1) (nb : ‖b‖ = 1) (h1 : -1 < (b * star a).re) (h2 : (b * star a).re < 1) :
    axisAngle2quat (arcLog (qplus (quatInv a) b)) = qplus (quatInv a) b := by
  rw [qplus_eq, quatInv_eq]
  exact exp_arcLog (by rw [norm_mul, norm_star, na, nb, _root_.mul_one]) h1 h2

theorem wave_log {s : MSpline ℝ ℍ[ℝ]} (g5 : s.verts.take 5 = wave) : s.LogInverse arcLog 5 := by
  intro j a b hj ha hb
  have hv : ∀ j, j < 5 → s.verts[j]? = wave[j]? := by
    intro j hj
    rw [← g5, List.getElem?_take_of_lt hj]
  rw [hv j (by omega)] at ha
  rw [hv (j + 1) hj] at hb
  have na := wave_unit a (List.mem_of_getElem? ha)
  have nb := wave_unit b (List.mem_of_getElem? hb)
  have hre : -1 < (b * star a).re ∧ (b * star a).re < 1 := by
    obtain rfl | rfl | rfl | rfl : j = 0 ∨ j = 1 ∨ j = 2 ∨ j = 3 := by omega
    all_goals
      simp only [wave, List.getElem?_cons_zero, List.getElem?_cons_succ, Option.some.injEq] at ha hb
      subst ha hb
      rw [Quaternion.re_mul]
      simp only [Quaternion.re_star, Quaternion.imI_star, Quaternion.imJ_star, Quaternion.imK_star]
      norm_num [quatI, quatIJ]
  exact step_inverse na nb hre.1 hre.2

/-- C70 applies to a spline of order four through five rotations, at the knot 4 in the middle of its range. -/
example : ∃ s : MSpline ℝ ℍ[ℝ], s.verts.take 5 = wave ∧ (4 : ℝ) ∈ s.keys ∧
    (∀ d : ℕ, d ≤ 2 → ContinuousOn (fun x => (s.quatEvalD arcLog x d).getD 0) (Set.Icc 3 5)) ∧
    (∃ v, s.quatEvalD arcLog 4 2 = .ok v ∧ HasDerivAt (fun x => (s.quatEvalD arcLog x 1).getD 0) v 4) ∧
    (∃ a, s.evalAngularAcceleration arcLog 4 = .ok a ∧ HasDerivAt (fun x => (s.evalAngularVelocity arcLog x).getD 0) a 4) := by
  obtain ⟨s, g1, g2, g3, g4, g5, g6, g7⟩ := quat_spline_exists arcLog 4 (by norm_num) [0, 1, 2, 3, 4, 5, 6, 7, 8] wave (by
    simp [List.pairwise_cons]; norm_num) rfl (by decide) wave_unit
  have g5' : s.verts.take 5 = wave := g5
  have hu : ∀ v ∈ s.verts.take 5, ‖v‖ = 1 := by rw [g5']; exact wave_unit
  refine ⟨s, g5', by rw [g3]; norm_num, fun d hd => ?_, ?_, ?_⟩
  · exact (C70_quaternion_continuous arcLog 4 s g1 g2 5 g4 hu (wave_log g5') 3 5 g6 g7 d (by omega) (by omega)).2
  · exact C70_quaternion_derivative arcLog 4 s g1 g2 5 g4 hu (wave_log g5') 3 5 g6 g7 4 (by norm_num) (by norm_num) 1 (by norm_num)
      (by norm_num)
  · exact ((C70_angular arcLog 4 s g1 g2 5 g4 hu (wave_log g5') 3 5 g6 g7).2 le_rfl).2 4 (by norm_num) (by norm_num)

/-- With a logarithm that has the wrong sign for one step the curve jumps at the knot where that step ends. -/
example : ∃ (lg : ℍ[ℝ] → V3) (s : MSpline ℝ ℍ[ℝ]), RegularReach (quatGroup lg).toMfd 2 s ∧ s.verts.take 3 = demoQuats ∧
    s.getMinTime = .ok 1 ∧ s.getMaxTime = .ok 3 ∧ ¬ ContinuousAt (fun x => (s.quatEvalD lg x 0).getD 0) 2 := by
  refine ⟨fun q => arcLog (-q), ?_⟩
  obtain ⟨s, g1, g2, g3, g4, g5, g6, g7⟩ := quat_spline_exists (fun q => arcLog (-q)) 2 (by norm_num) [0, 1, 2, 3, 4] demoQuats (by
    simp [List.pairwise_cons]; norm_num) rfl (by decide) demoQuats_unit
  have hv : ∀ j, j < 3 → s.verts[j]? = demoQuats[j]? := by
    intro j hj
    have : (s.verts.take 3)[j]? = demoQuats[j]? := by rw [show (3 : ℕ) = demoQuats.length from rfl, g5]
    rwa [List.getElem?_take_of_lt hj] at this
  refine ⟨s, g1, g5, g6, g7, ?_⟩
  rw [C70_continuous_iff _ 2 le_rfl s g1 g2 2 le_rfl (by rw [g3]; decide) 2 (by rw [g3]; rfl) 1 quatI (by rw [hv _ (by norm_num)]; rfl)
    (by rw [hv _ (by norm_num)]; rfl), log_quatGroup]
  show ¬ qplus 1 (axisAngle2quat (arcLog (-(quatI * star 1)))) = quatI
  rw [star_one, _root_.mul_one, exp_arcLog (by rw [norm_neg, norm_quatI]) (by rw [Quaternion.re_neg]; norm_num [quatI])
    (by rw [Quaternion.re_neg]; norm_num [quatI]), qplus_eq, _root_.mul_one]
  intro hc
  have := congrArg QuaternionAlgebra.imI hc
  rw [Quaternion.imI_neg] at this
  norm_num [quatI] at this

/-- C70 for Euclidean splines applies at a knot. -/
example : ∃ s : MSpline ℝ ℝ, s.verts.take 4 = [1, -2, 5, 7] ∧ (3 : ℝ) ∈ s.keys ∧
    ContinuousOn (fun x => (s.euclideanEvalD none x 1).getD 0) (Set.Icc 2 4) ∧
    ∃ v, s.euclideanEvalD none 3 1 = .ok v ∧ HasDerivAt (fun x => (s.euclideanEvalD none x 0).getD 0) v 3 := by
  obtain ⟨s, -, g1, g2, g3, g4, g5, g6, g7⟩ := C55_init_with_vertices (euclidean ℝ ℝ) 3 (by norm_num) [0, 1, 2, 3, 4, 5, 6] [1, -2, 5, 7] (by
    simp [List.pairwise_cons]; norm_num) rfl (by decide) (fun _ _ => rfl)
  refine ⟨s, g5, by rw [g3]; norm_num, (C70_euclidean_continuous 3 s g1 g2 2 4 g6 g7 1 (by norm_num)).2, ?_⟩
  exact C70_euclidean_derivative 3 (by norm_num) s g1 g2 2 4 g6 g7 3 (by norm_num) (by norm_num) 0 (Or.inl le_rfl)

end Verif.MSpline
