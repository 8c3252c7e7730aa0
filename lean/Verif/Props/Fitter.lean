import Verif.Lemmas.Fitter
import Verif.Props.FitterExtend
import Verif.Props.Euclidean

/-!
# C38: the fitter minimises the weighted cost
-/

set_option linter.unusedSectionVars false

namespace Verif.MSpline

open Finset Polynomial BSpline MeasureTheory

/-! ### The form of one segment -/

theorem local_derivative {K : Type*} [Field K] [LinearOrder K] [IsStrictOrderedRing K] (kn : ℕ → K) (n i k : ℕ) (hm : MonoBelow kn n)
    (hlt : kn i < kn (i + 1)) (hk : 1 ≤ k) (h1 : k ≤ i + 1) (h2 : i + k < n) (y : ℕ → K) (der : ℕ) (t : K) :
    (polyOf k ((dop k (1 / (kn (i + 1) - kn i)))^[der] (fun r => ∑ j ∈ range k, basisM kn i k r j * y j))).eval
        ((t - kn i) / (kn (i + 1) - kn i))
      = ∑ c ∈ range k, (derivative^[der] (piece kn i (k - 1) (i + 1 - k + c))).eval t * y c := by
  have hw : kn (i + 1) - kn i ≠ 0 := (sub_pos.2 hlt).ne'
  have e1 : polyOf k (fun r => ∑ j ∈ range k, basisM kn i k r j * y j)
      = (∑ c ∈ range k, C (y c) * piece kn i (k - 1) (i + 1 - k + c)).comp (C (kn (i + 1) - kn i) * X + C (kn i)) := by
    have e2 : polyOf k (fun r => ∑ j ∈ range k, basisM kn i k r j * y j) = ∑ j ∈ range k, C (y j) * colPoly kn i k j := by
      unfold polyOf colPoly
      simp only [map_sum, sum_mul, mul_sum]
      rw [sum_comm]
      refine sum_congr rfl fun j hj => sum_congr rfl fun r hr => ?_
      rw [C_mul]
      ring
    rw [e2, Polynomial.sum_comp]
    refine sum_congr rfl fun c hc => ?_
    have hc := mem_range.1 hc
    have := colPoly_eq_piece kn n i hm hlt (k - 1) c (by omega) (by omega) (by omega)
    rw [show k - 1 + 1 = k by omega, show i - (k - 1) + c = i + 1 - k + c by omega] at this
    rw [this, mul_comp, C_comp]
  rw [polyOf_dop_iter, e1, iterate_derivative_comp_linear, iterate_derivative_sum]
  simp only [iterate_derivative_C_mul, eval_mul, eval_C, eval_comp, eval_add, eval_X, eval_finsetSum]
  rw [← mul_assoc, ← mul_pow, one_div, inv_mul_cancel₀ hw, one_pow, one_mul]
  have e3 : (kn (i + 1) - kn i) * ((t - kn i) / (kn (i + 1) - kn i)) + kn i = t := by
    field_simp
    ring
  rw [e3]
  exact sum_congr rfl fun c _ => mul_comm _ _

variable {D : ℕ}

/-- Component `d` of the second derivative on interval `i` for stacked local vertices `x`. -/
noncomputable def localAcc (s : MSpline ℝ (Fin D → ℝ)) (i : ℕ) (x : ℕ → ℝ) (d : ℕ) (t : ℝ) : ℝ :=
  ∑ c ∈ range s.order, (derivative^[2] (piece s.kn i (s.order - 1) (i + 1 - s.order + c))).eval t * x (c * D + d)

theorem localAcc_continuous (s : MSpline ℝ (Fin D → ℝ)) (i : ℕ) (x : ℕ → ℝ) (d : ℕ) : Continuous (s.localAcc i x d) :=
  continuous_finsetSum _ fun _ _ => (Polynomial.continuous _).mul continuous_const

theorem segForm_ok {s : MSpline ℝ (Fin D → ℝ)} (h : s.MWF) (he : s.state = .evaluable) (weight : ℝ) (i : ℕ) (h1 : s.order ≤ i + 1)
    (h2 : i + s.order < s.keys.length) :
    ∃ Q, s.segForm weight s.keys[i]? 2 = .ok Q ∧ ∀ x y, bil (s.order * D) Q x y
      = ∑ d ∈ range D, weight * ∫ t in s.kn i..s.kn (i + 1), s.localAcc i x d t * s.localAcc i y d t := by
  have hk := h.order_pos
  have hlt : s.kn i < s.kn (i + 1) := h.strict (by omega) (by omega)
  have hil : i < s.segs.length := by rw [keys_length] at h2; omega
  have hg := List.getElem?_eq_getElem hil
  unfold segForm
  rw [getMinTime_eq h he, Outcome.bind_ok, getMaxTime_eq h he, Outcome.bind_ok]
  have hki := kn_getElem s (show i < s.keys.length by omega)
  rw [hki]
  dsimp only
  rw [if_neg (by
    push Not
    exact ⟨h.mono _ _ (by omega) (by omega), h.strict (by omega) (by omega)⟩), ← hki, segmentLength_eq h (by omega), Outcome.bind_ok,
    segAt_eq h hg, Outcome.bind_ok, h.basis_eq he i _ h1 h2 hg]
  refine ⟨_, rfl, fun x y => ?_⟩
  rw [bil_congruence]
  have hW : (fun p q : ℕ => if p / s.order = q / s.order then
        weight * derivV s.order (segDii (s.kn (i + 1) - s.kn i)) (segVi (s.kn (i + 1) - s.kn i)) 2 (p % s.order) (q % s.order) else 0)
      = fun p q : ℕ => (fun d e : ℕ => if d = e then weight else 0) (p / s.order) (q / s.order) *
        derivV s.order (segDii (s.kn (i + 1) - s.kn i)) (segVi (s.kn (i + 1) - s.kn i)) 2 (p % s.order) (q % s.order) := by
    funext p q
    dsimp only
    split_ifs <;> simp
  rw [hW, bil_kron D s.order (fun d e : ℕ => if d = e then weight else 0)]
  refine sum_congr rfl fun d hd => ?_
  rw [Finset.sum_eq_single d (fun e _ hne => by rw [if_neg (fun h => hne h.symm), zero_mul])
    (fun hh => absurd hd hh), if_pos rfl]
  congr 1
  have hd := mem_range.1 hd
  rw [bil_congr_vec _ _ _ (fun r => ∑ j ∈ range s.order, basisM s.kn i s.order r j * x (j * D + d)) _
    (fun r => ∑ j ∈ range s.order, basisM s.kn i s.order r j * y (j * D + d))
    (fun r hr => Mi_mul s.order _ x d r hr hd) (fun r hr => Mi_mul s.order _ y d r hr hd)]
  have hV := derivV_bil s.order (if 0 < s.kn (i + 1) - s.kn i then 1 / (s.kn (i + 1) - s.kn i) else 0)
    (segVi (s.kn (i + 1) - s.kn i)) 2 (fun r => ∑ j ∈ range s.order, basisM s.kn i s.order r j * x (j * D + d))
    (fun r => ∑ j ∈ range s.order, basisM s.kn i s.order r j * y (j * D + d))
  refine hV.trans ?_
  rw [if_pos (sub_pos.2 hlt)]
  refine (bil_hilbert s.order _ _ _ _ hlt).trans ?_
  refine intervalIntegral.integral_congr fun t _ => ?_
  rw [local_derivative s.kn s.keys.length i s.order h.mono hlt hk h1 h2,
    local_derivative s.kn s.keys.length i s.order h.mono hlt hk h1 h2]
  rfl

/-- The regularisation of one segment. -/
noncomputable def segEnergy (s : MSpline ℝ (Fin D → ℝ)) (lambda : ℝ) (i : ℕ) (w : ℕ → ℕ → ℝ) : ℝ :=
  ∑ d ∈ range D, lambda * ∫ t in s.kn i..s.kn (i + 1), s.curveVal w i 2 t d ^ 2

theorem localAcc_locV (s : MSpline ℝ (Fin D → ℝ)) (i : ℕ) (w : ℕ → ℕ → ℝ) (d : ℕ) (hd : d < D) (t : ℝ) :
    s.localAcc i (locV D (i + 1 - s.order) w) d t = s.curveVal w i 2 t d := by
  unfold localAcc curveVal locV
  refine sum_congr rfl fun c _ => ?_
  rw [stack_div c d hd, stack_mod c d hd]

theorem segEnergy_spec {s : MSpline ℝ (Fin D → ℝ)} (h : s.MWF) (he : s.state = .evaluable) (lambda : ℝ) (i : ℕ)
    (h1 : s.order ≤ i + 1) (h2 : i + s.order < s.keys.length) :
    ∃ Q, s.segForm lambda s.keys[i]? 2 = .ok Q ∧ (∀ x y, bil (s.order * D) Q x y = bil (s.order * D) Q y x) ∧
      ∀ w, bil (s.order * D) Q (locV D (i + 1 - s.order) w) (locV D (i + 1 - s.order) w) = s.segEnergy lambda i w := by
  obtain ⟨Q, hQ, hb⟩ := segForm_ok h he lambda i h1 h2
  refine ⟨Q, hQ, fun x y => ?_, fun w => ?_⟩
  · rw [hb, hb]
    refine sum_congr rfl fun d _ => ?_
    congr 1
    exact intervalIntegral.integral_congr fun t _ => mul_comm _ _
  · rw [hb]
    unfold segEnergy
    refine sum_congr rfl fun d hd => ?_
    congr 1
    refine intervalIntegral.integral_congr fun t _ => ?_
    rw [localAcc_locV s i w d (mem_range.1 hd), sq]

theorem segEnergy_local (s : MSpline ℝ (Fin D → ℝ)) (hk : 1 ≤ s.order) (lambda : ℝ) (i : ℕ) (w w' : ℕ → ℕ → ℝ) (h1 : s.order ≤ i + 1)
    (hw : ∀ j, i + 1 - s.order ≤ j → j < i + 1 → w j = w' j) : s.segEnergy lambda i w = s.segEnergy lambda i w' := by
  unfold segEnergy
  refine sum_congr rfl fun d _ => ?_
  congr 1
  refine intervalIntegral.integral_congr fun t _ => ?_
  congr 1
  unfold curveVal
  refine sum_congr rfl fun c hc => ?_
  have := mem_range.1 hc
  rw [hw _ (by omega) (by omega)]

/-! ### The cost -/

/-- The spline with other control vertices. -/
def withVerts {K : Type*} (s : MSpline K (Fin D → K)) (v : ℕ → Fin D → K) : MSpline K (Fin D → K) :=
  ⟨s.order, s.segs.mapIdx fun j g => ⟨g.knot, v j, g.basis⟩, s.state, s.iters⟩

/-- The cost of a spline: weighted squares of the residuals plus `lambda` times the integral of the squared second derivative.  The
weight multiplies the residual, so it enters the cost squared. -/
noncomputable def fitterCost (s : MSpline ℝ (Fin D → ℝ)) (data : List (ℝ × (Fin D → ℝ))) (weights : Option (ℕ → ℝ)) (lambda tmin tmax : ℝ) :
    ℝ :=
  ∑ m : Fin data.length, ∑ d : Fin D, (weightOf weights m * ((s.euclideanEval data[m].1).getD 0 d - data[m].2 d)) ^ 2
    + lambda * ∫ t in tmin..tmax, ∑ d : Fin D, ((s.euclideanEvalD none t 2).getD 0 d) ^ 2

section withVerts
variable {K : Type*} [Field K] [LinearOrder K] [IsStrictOrderedRing K]

theorem withVerts_keys (s : MSpline K (Fin D → K)) (v : ℕ → Fin D → K) : (s.withVerts v).keys = s.keys := by
  unfold withVerts keys
  dsimp only
  apply List.ext_getElem?
  intro j
  rw [List.getElem?_map, List.getElem?_map, List.getElem?_mapIdx, Option.map_map]
  rfl

theorem withVerts_kn (s : MSpline K (Fin D → K)) (v : ℕ → Fin D → K) : (s.withVerts v).kn = s.kn := by
  unfold kn
  rw [withVerts_keys]

theorem withVerts_vert (s : MSpline K (Fin D → K)) (v : ℕ → Fin D → K) (j : ℕ) (hj : j < s.keys.length) :
    (s.withVerts v).vert j = v j := by
  rw [keys_length] at hj
  unfold vert verts withVerts
  dsimp only
  rw [List.getD_eq_getElem?_getD, List.getElem?_map, List.getElem?_mapIdx, List.getElem?_eq_getElem hj]
  rfl

theorem withVerts_mwf {s : MSpline K (Fin D → K)} (h : s.MWF) (v : ℕ → Fin D → K) : (s.withVerts v).MWF := by
  refine ⟨h.order_pos, by rw [withVerts_keys]; exact h.sorted, fun he => ?_, fun he => ?_, fun he j g h1 h2 hg => ?_⟩
  · rw [withVerts_keys]; exact h.enough he
  · rw [withVerts_keys]; exact h.iters_eq he
  · rw [withVerts_keys] at h2
    rw [withVerts_kn]
    unfold withVerts at hg
    dsimp only at hg
    rw [List.getElem?_mapIdx, Option.map_eq_some_iff] at hg
    obtain ⟨g0, hg0, rfl⟩ := hg
    exact h.basis_eq he j g0 h1 h2 hg0

theorem withVerts_eval {s : MSpline K (Fin D → K)} (h : s.MWF) (he : s.state = .evaluable) (v : ℕ → Fin D → K) (w : ℕ → ℕ → K)
    (hvw : ∀ j d, j < s.keys.length → w j (d : Fin D) = v j d) {t : K} {i : ℕ}
    (hi : s.InSeg t i) (der : ℕ) :
    ∃ p, (s.withVerts v).euclideanEvalD none t der = .ok p ∧ ∀ d : Fin D, p d = s.curveVal w i der t d := by
  have hw := withVerts_mwf h v
  have l1 := hi.lower
  have l2 := hi.upper
  have hk := h.order_pos
  have hi' : (s.withVerts v).InSeg t i := by
    refine ⟨hi.lower, ?_, ?_, ?_⟩
    · rw [withVerts_keys]; exact hi.upper
    · rw [withVerts_kn]; exact hi.left
    · rw [withVerts_kn, withVerts_keys]; exact hi.right
  refine ⟨_, euclideanEvalD_eq hw he hi' none der (by simp), fun d => ?_⟩
  rw [← segSum_local hw hi'.lower hi'.upper der t, Finset.sum_apply]
  unfold curveVal
  rw [withVerts_kn]
  refine sum_congr rfl fun c hc => ?_
  have hc := mem_range.1 hc
  rw [Pi.smul_apply, smul_eq_mul]
  have e : (s.withVerts v).order = s.order := rfl
  rw [e]
  rw [withVerts_vert s v _ (by omega), hvw _ d (by omega)]

end withVerts

theorem curveVal_continuous (s : MSpline ℝ (Fin D → ℝ)) (w : ℕ → ℕ → ℝ) (i der d : ℕ) : Continuous fun t => s.curveVal w i der t d :=
  continuous_finsetSum _ fun _ _ => (Polynomial.continuous _).mul continuous_const

/-- The cost in terms of pieces. -/
theorem cost_eq {s : MSpline ℝ (Fin D → ℝ)} (h : s.MWF) (he : s.state = .evaluable) (v : ℕ → Fin D → ℝ) (w : ℕ → ℕ → ℝ)
    (hvw : ∀ j d, j < s.keys.length → w j (d : Fin D) = v j d) (data : List (ℝ × (Fin D → ℝ))) (idx : ℝ → ℕ)
    (hidx : ∀ x ∈ data, s.InSeg x.1 (idx x.1)) (weights : Option (ℕ → ℝ)) (lambda : ℝ) :
    (s.withVerts v).fitterCost data weights lambda (s.kn (s.order - 1)) (s.kn (s.keys.length - s.order))
      = ∑ m : Fin data.length, ∑ d : Fin D,
          (weightOf weights m * (s.curveVal w (idx data[m].1) 0 data[m].1 d - data[m].2 d)) ^ 2
        + ∑ i ∈ Ico (s.order - 1) (s.keys.length - s.order), s.segEnergy lambda i w := by
  have hk := h.order_pos
  have hn := h.enough he
  unfold fitterCost
  congr 1
  · refine sum_congr rfl fun m _ => sum_congr rfl fun d _ => ?_
    obtain ⟨p, hp, hp'⟩ := withVerts_eval h he v w hvw (hidx data[m] (List.getElem_mem _)) 0
    have : (s.withVerts v).euclideanEval data[m].1 = .ok p := hp
    rw [this, Outcome.getD_ok, hp']
  · have := (pieces_integral (kn := s.kn) (lo := s.order - 1) (hi := s.keys.length - s.order)
      (g := fun t => ∑ d : Fin D, (((s.withVerts v).euclideanEvalD none t 2).getD 0 d) ^ 2)
      (P := fun i t => ∑ d : Fin D, s.curveVal w i 2 t d ^ 2)
      (fun i => continuous_finsetSum _ fun d _ => (curveVal_continuous s w i 2 d).pow 2)
      (fun i _ h2 => h.mono i (i + 1) (by omega) (by omega))
      (by
        intro i h1 h2 x hx1 hx2
        have hi : s.InSeg x i := ⟨by omega, by omega, hx1.le, Or.inl hx2⟩
        obtain ⟨p, hp, hp'⟩ := withVerts_eval h he v w hvw hi 2
        have hp2 : (s.withVerts v).euclideanEvalD none x 2 = .ok p := hp
        rw [hp2, Outcome.getD_ok]
        exact sum_congr rfl fun d _ => by rw [hp'])
      (s.keys.length - s.order) (by omega) le_rfl).2
    rw [this, mul_sum]
    refine sum_congr rfl fun i _ => ?_
    unfold segEnergy
    rw [intervalIntegral.integral_finsetSum
      (f := fun (d : Fin D) (t : ℝ) => s.curveVal w i 2 t d ^ 2)
      (fun d _ => ((curveVal_continuous s w i 2 d).pow 2).intervalIntegrable _ _), mul_sum,
      Finset.sum_range fun d => lambda * ∫ t in s.kn i..s.kn (i + 1), s.curveVal w i 2 t d ^ 2]


/-! ### What the fitter writes -/

section write
variable {K : Type*} [Field K] [LinearOrder K] [IsStrictOrderedRing K]

theorem manipulate_withVerts {s : MSpline K (Fin D → K)} (h : s.MWF) (he : s.state = .evaluable) {t : K} {i : ℕ} (hi : s.InSeg t i)
    (n fix : ℕ) (hn : i + 1 - s.order + fix + n ≤ s.keys.length - s.order) (f : ℕ → (Fin D → K) → Fin D → K) :
    s.manipulateControlVertices f n t fix = (.ok (), s.withVerts fun j =>
      if i + 1 - s.order + fix ≤ j ∧ j < i + 1 - s.order + fix + n then f (j - (i + 1 - s.order + fix)) (s.vert j) else s.vert j) := by
  rw [manipulate_nonneg h he hi n (by omega), show min (i + 1 - s.order + fix) (s.keys.length - s.order) = i + 1 - s.order + fix by omega]
  congr 1
  unfold withVerts
  congr 1
  apply List.ext_getElem?
  intro j
  rw [(manipulateLoop_spec f h.nodup n (i + 1 - s.order + fix) 0 s.segs rfl (by omega)).2 j, List.getElem?_mapIdx]
  rcases hj : s.segs[j]? with _ | g
  · rfl
  · have hv : s.vert j = g.vertex := by
      unfold vert verts
      rw [List.getD_eq_getElem?_getD, List.getElem?_map, hj]
      rfl
    rw [Option.map_some, Option.map_some]
    beta_reduce
    rw [hv, zero_add]
    split_ifs <;> rfl

/-- The solution vector as a stacked column is decoded vertex by vertex, also for one-dimensional points. -/
theorem set_stacked (hD : 1 ≤ D) (n : ℕ) (hn : 1 ≤ n) (c : ℕ → K) (t : K) (offset : ℤ) (s : MSpline K (Fin D → K)) :
    ∃ f : ℕ → (Fin D → K) → Fin D → K, (∀ i < n, ∀ x, f i x = fun d : Fin D => c (i * D + d)) ∧
      s.setControlVertices D id (n * D) 1 (fun i _ => c i) t offset = s.manipulateControlVertices f n t offset := by
  rcases Nat.lt_or_ge 1 D with h2 | h2
  · obtain ⟨f, h1, h3⟩ := C31_layouts D n h2 hn (fun i d => c (i * D + d)) id t offset s (fun i _ => c i) (n * D) 1
      (Or.inr (Or.inr (Or.inr ⟨rfl, rfl, fun i _ r => rfl⟩)))
    exact ⟨f, fun i hi x => h1 i hi x, h3⟩
  · obtain rfl : D = 1 := by omega
    refine ⟨fun i _ => id fun r : Fin 1 => decodeEntry 1 (fun i _ => c i) (if n * 1 = 1 then .columns else .rows) i r, fun i hi x => ?_, ?_⟩
    · funext d
      obtain rfl : d = 0 := Subsingleton.elim _ _
      by_cases h1 : n * 1 = 1
      · obtain rfl : i = 0 := by omega
        rw [if_pos h1]
        rfl
      · rw [if_neg h1]
        show c i = _
        congr 1
        simp
    · unfold setControlVertices decodeShape
      rw [if_pos rfl]
      dsimp only
      rw [mul_one (n * 1), mul_one n]
      split
      · rename_i s' heq
        rw [if_pos, heq]
        rw [List.all_eq_true]
        intro i hi
        have := List.mem_range.1 hi
        by_cases h1 : n = 1
        · rw [if_pos h1]
          simp only [decodeInside, decide_eq_true_eq]
          omega
        · rw [if_neg h1]
          simp only [decodeInside, decide_eq_true_eq]
          exact ⟨this, trivial⟩
      · rfl

end write

/-! ### The system that is solved -/

section system
variable {K : Type*} [Field K] [LinearOrder K] [IsStrictOrderedRing K]

/-- The residual of one row when offsets are fitted. -/
theorem residual_offsets {s : MSpline K (Fin D → K)} (n base fix : ℕ) (first : ℕ) (hbase : base = first + fix)
    (current : List (Fin D → K)) (hcur : ∀ c, c < fix + n → current.getD c 0 = s.vert (first + c))
    (rows : List (FitRow K D)) (m i : ℕ) (R : FitRow K D) (hR : rows[m]? = some R) (hk : s.order ≤ i + 1)
    (hcol : R.col = ((i + 1 - s.order : ℕ) : ℤ) - base) (hfirst : first ≤ i + 1 - s.order) (hin : i < base + n) (t w : K) (p : Fin D → K)
    (hbi : ∀ j < s.order, R.bi j = (piece s.kn i (s.order - 1) (i + 1 - s.order + j)).eval t * w)
    (htar : ∀ d, R.target d = p d * w) (x : ℕ → K) (d : Fin D) :
    mulV (n * D) (fitMatrix s.order rows) x (m * D + d) - fitVector s.order fix true current rows (m * D + d)
      = w * (s.curveVal (fullV n base D (fun q => x q + s.vertN (base + q / D) (q % D)) s.vertN) i 0 t d - p d) := by
  have e1 : mulV (n * D) (fitMatrix s.order rows) x (m * D + d)
      = ∑ j ∈ range s.order, if 0 ≤ (j : ℤ) + R.col ∧ (j : ℤ) + R.col < n then R.bi j * x (((j : ℤ) + R.col).toNat * D + d) else 0 := by
    unfold mulV
    rw [sum_stacked, ← sum_shift_blocks n s.order R.col fun j c => R.bi j * x (c * D + d)]
    refine sum_congr rfl fun c hc => ?_
    rw [Finset.sum_eq_single (d : ℕ)]
    · unfold fitMatrix
      rw [stack_div m d d.2, hR]
      dsimp only
      rw [stack_mod m d d.2, stack_mod c d d.2, stack_div c d d.2]
      by_cases hc : R.col ≤ (c : ℤ) ∧ (c : ℤ) < R.col + s.order
      · rw [if_pos hc, if_pos ⟨rfl, by omega, by omega⟩]
      · rw [if_neg hc, if_neg (fun h => hc ⟨by omega, by omega⟩), zero_mul]
    · intro q hq hne
      unfold fitMatrix
      rw [stack_div m d d.2, hR]
      dsimp only
      rw [stack_mod m d d.2, stack_mod c q (mem_range.1 hq), if_neg (fun h => hne h.1.symm), zero_mul]
    · intro hh; exact absurd (mem_range.2 d.2) hh
  have e2 : fitVector s.order fix true current rows (m * D + d)
      = p d * w - ∑ j ∈ range s.order, current.getD ((fix : ℤ) + R.col + j).toNat 0 d * R.bi j := by
    unfold fitVector
    rw [stack_div m d d.2, hR]
    dsimp only
    rw [dif_pos (by rw [stack_mod m d d.2]; exact d.2)]
    have : (⟨(m * D + d) % D, by rw [stack_mod m d d.2]; exact d.2⟩ : Fin D) = d := Fin.ext (stack_mod m d d.2)
    rw [this, htar]
    congr 1
    refine sum_congr rfl fun j _ => ?_
    unfold FitRow.captured
    rw [Bool.or_true, if_pos rfl]
  rw [e1, e2]
  unfold curveVal
  rw [mul_sub, mul_sum, ← sub_add, sub_add_eq_add_sub, ← sum_add_distrib, mul_comm w (p d)]
  congr 1
  refine sum_congr rfl fun j hj => ?_
  have hj := mem_range.1 hj
  simp only [Function.iterate_zero, id]
  rw [hcur _ (by omega), show first + ((fix : ℤ) + R.col + j).toNat = i + 1 - s.order + j by omega, hbi j hj]
  unfold fullV
  by_cases hc : (j : ℤ) + R.col < 0
  · rw [if_neg (by omega), if_neg (by omega), vertN_fin]
    ring
  · rw [if_pos (by omega), if_pos (by omega)]
    beta_reduce
    rw [stack_div _ _ d.2, stack_mod _ _ d.2, show ((j : ℤ) + R.col).toNat = i + 1 - s.order + j - base by omega,
      show base + (i + 1 - s.order + j - base) = i + 1 - s.order + j by omega, vertN_fin]
    ring

/-- What the fitter is called with: times in the valid range, the first and the last being the extreme ones in terms of segments, and
an index resolver that counts knots from some origin. -/
structure FitInput (s : MSpline K (Fin D → K)) (resolver : Resolver K) (data : List (K × (Fin D → K))) (t0 tl : K) (i0 il : ℕ)
    (idx : K → ℕ) (r : ℤ) : Prop where
  first : ∃ p, data.head? = some (t0, p)
  last : ∃ p, data.getLast? = some (tl, p)
  seg : ∀ x ∈ data, s.InSeg x.1 (idx x.1)
  res : ∀ x ∈ data, resolver x.1 = .ok (r + idx x.1 + if x.1 = s.kn (s.keys.length - s.order) then 1 else 0)
  i0_eq : i0 = idx t0
  il_eq : il = idx tl
  lower : ∀ x ∈ data, i0 ≤ idx x.1
  upper : ∀ x ∈ data, idx x.1 ≤ il

/-- The shape of a run of the fitter with at least one free vertex. -/
theorem calcFitted_run {s : MSpline K (Fin D → K)} (h : s.MWF) (he : s.state = .evaluable) (dense : Bool) (solve : Solver K)
    {resolver : Resolver K} {data : List (K × (Fin D → K))} {t0 tl : K} {i0 il : ℕ} {idx : K → ℕ} {r : ℤ}
    (hin : s.FitInput resolver data t0 tl i0 il idx r) (weights : Option (ℕ → K)) (lambda : K) (fix : ℕ) (offsets : Bool)
    (hoff : offsets = true → lambda = 0) (hfree : i0 + 1 - s.order + fix ≤ il) :
    ∃ rows current,
      (∀ c, c < (if offsets then fix + (il + 1 - (i0 + 1 - s.order + fix)) else fix) → current.getD c 0 = s.vert (i0 + 1 - s.order + c)) ∧
      (∀ (m : ℕ) (x : K × (Fin D → K)), data[m]? = some x → ∃ R, rows[m]? = some R ∧
        R.col = ((idx x.1 + 1 - s.order : ℕ) : ℤ) - ((i0 + 1 - s.order + fix : ℕ) : ℤ) ∧
        (∀ j < s.order, R.bi j = (piece s.kn (idx x.1) (s.order - 1) (idx x.1 + 1 - s.order + j)).eval x.1 * weightOf weights m) ∧
        ∀ d, R.target d = x.2 d * weightOf weights m) ∧
      ∀ Ab, s.regularise dense lambda (il + 1 - (i0 + 1 - s.order + fix)) fix t0 tl
          (gram (data.length * D) (fitMatrix s.order rows),
            transposeVec (data.length * D) (fitMatrix s.order rows) (fitVector s.order fix offsets current rows)) = .ok Ab →
        s.calcFitted dense solve id resolver data weights lambda fix offsets =
          if offsets then s.manipulateControlVertices
            (fun i v => fun d : Fin D => v d + solve ((il + 1 - (i0 + 1 - s.order + fix)) * D) Ab.1 Ab.2 (i * D + d))
            (il + 1 - (i0 + 1 - s.order + fix)) t0 fix
          else s.setControlVertices D id ((il + 1 - (i0 + 1 - s.order + fix)) * D) 1
            (fun i _ => solve ((il + 1 - (i0 + 1 - s.order + fix)) * D) Ab.1 Ab.2 i) t0 fix := by
  have hk := h.order_pos
  obtain ⟨p0, hp0⟩ := hin.first
  obtain ⟨pl, hpl⟩ := hin.last
  have m0 : (t0, p0) ∈ data := List.mem_of_mem_head? hp0
  have ml : (tl, pl) ∈ data := List.mem_of_mem_getLast? hpl
  have s0 := hin.seg _ m0
  have sl := hin.seg _ ml
  have r0 := hin.res _ m0
  have rl := hin.res _ ml
  have hle := hin.upper _ m0
  dsimp only at s0 sl r0 rl hle
  rw [← hin.i0_eq] at s0 r0 hle
  rw [← hin.il_eq] at sl rl
  have l1 := s0.lower
  have l2 := sl.upper
  have ll := sl.lower
  set base := i0 + 1 - s.order + fix with hbase
  obtain ⟨rows, f1, f2, f3⟩ := fitRows_ok h he resolver (s.kn (s.keys.length - s.order)) (r + base) weights idx r data 0
    (fun x hx => ⟨hin.seg x hx, hin.res x hx⟩)
  set captured := if offsets then fix + (il + 1 - base) else fix with hcap
  have hcapl : i0 + 1 - s.order + captured ≤ s.segs.length := by
    rw [← keys_length]
    rw [hcap]
    split_ifs <;> omega
  set current : List (Fin D → K) := if captured = 0 then [] else (s.verts.drop (i0 + 1 - s.order)).take captured with hcur
  have hcol : ∀ (m : ℕ) (x : K × (Fin D → K)), data[m]? = some x → ∃ R, rows[m]? = some R ∧
        R.col = ((idx x.1 + 1 - s.order : ℕ) : ℤ) - ((base : ℕ) : ℤ) ∧
        (∀ j < s.order, R.bi j = (piece s.kn (idx x.1) (s.order - 1) (idx x.1 + 1 - s.order + j)).eval x.1 * weightOf weights m) ∧
        ∀ d, R.target d = x.2 d * weightOf weights m := by
    intro m x hx
    obtain ⟨R, q1, q2, q3, q4⟩ := f3 m x hx
    have hl := (hin.seg x (List.mem_of_getElem? hx)).lower
    rw [Nat.zero_add] at q3 q4
    exact ⟨R, q1, by omega, q3, q4⟩
  refine ⟨rows, current, fun c hc => ?_, hcol, fun Ab hAb => ?_⟩
  · rw [hcur, if_neg (by omega), List.getD_eq_getElem?_getD, List.getElem?_take, if_pos hc, List.getElem?_drop]
    rfl
  · unfold calcFitted
    rw [if_neg (by rintro ⟨h1, h2⟩; exact h2 (hoff h1)), hp0, hpl]
    dsimp only
    rw [getMaxTime_eq h he, Outcome.bind_ok, r0, Outcome.bind_ok, rl, Outcome.bind_ok]
    have e1 : r + (i0 : ℤ) + (if t0 = s.kn (s.keys.length - s.order) then 1 else 0) - ((s.order : ℤ) - 1)
        - (if t0 = s.kn (s.keys.length - s.order) then 1 else 0) + fix = r + base := by omega
    rw [e1]
    have e2 : r + (il : ℤ) + (if tl = s.kn (s.keys.length - s.order) then 1 else 0) - (r + base) + 1
        - (if tl = s.kn (s.keys.length - s.order) then 1 else 0) = ((il + 1 - base : ℕ) : ℤ) := by omega
    rw [e2, if_neg (by omega), Int.toNat_natCast, ← hcap]
    have e3 : (if captured = 0 then Outcome.ok [] else
        (s.getSegmentIterator t0).bind fun it => (s.firstRelevantByLast it).bind (s.readVertices captured)) = .ok current := by
      rw [hcur]
      split_ifs with hc
      · rfl
      · rw [segIter_at h he s0, Outcome.bind_ok, firstRelevant_at h l1 (by omega), Outcome.bind_ok, readVertices_eq h _ _ hcapl]
    rw [e3, Outcome.bind_ok, f1, Outcome.bind_ok, if_pos, hAb, Outcome.bind_ok]
    · dsimp only
      rw [if_neg (by omega)]
      rfl
    · rw [List.all_eq_true]
      intro R hR
      obtain ⟨m, hm, rfl⟩ := List.getElem_of_mem hR
      have hml : m < data.length := by omega
      obtain ⟨R', q1, q2, -, -⟩ := hcol m data[m] (List.getElem?_eq_getElem hml)
      rw [List.getElem?_eq_getElem hm, Option.some.injEq] at q1
      subst q1
      have b1 := hin.lower _ (List.getElem_mem hml)
      have b2 := hin.upper _ (List.getElem_mem hml)
      have b3 := (hin.seg _ (List.getElem_mem hml)).lower
      unfold FitRow.inside
      rw [List.all_eq_true]
      intro j hj
      have hj := List.mem_range.1 hj
      unfold FitRow.captured
      rw [Bool.and_eq_true, Bool.or_eq_true, Bool.and_eq_true, Bool.not_eq_true', decide_eq_true_eq, decide_eq_true_eq, decide_eq_true_eq]
      refine ⟨by omega, ?_⟩
      rw [hcap]
      by_cases ho : offsets = true
      · right
        rw [if_pos ho]
        omega
      · rw [if_neg ho, Bool.or_eq_false_iff, decide_eq_false_iff_not, Bool.eq_false_iff]
        by_cases hc : (rows[m]).col + (j : ℤ) < 0
        · right; omega
        · left; exact ⟨hc, ho⟩

/-- Normal equations of a quadratic function bounded below. -/
theorem solve_minimises (solve : Solver K) (hsolve : SolvesSemidefinite solve) (n : ℕ) (T : Mat K) (b : ℕ → K)
    (hsym : ∀ x y, bil n T x y = bil n T y x) (cost : (ℕ → K) → K) (c : K)
    (hF : ∀ x, bil n T x x - 2 * ∑ p ∈ range n, x p * b p = cost x - c) (h0 : ∀ x, 0 ≤ cost x) (y : ℕ → K) :
    cost (solve n T b) ≤ cost y := by
  have hb : ∀ x, -c ≤ bil n T x x - 2 * ∑ p ∈ range n, x p * b p := fun x => by rw [hF]; linarith [h0 x]
  have hpsd := quad_psd n T b (-c) hb
  have hx := hsolve n T b (mat_symm_of_bil n T hsym) hpsd (quad_solvable n T b (-c) hb)
  have := quad_optimal n T b _ hsym hpsd hx y
  rw [hF, hF] at this
  linarith

theorem gram_cost (m n : ℕ) (A : Mat K) (b x : ℕ → K) :
    bil n (gram m A) x x - 2 * ∑ p ∈ range n, x p * transposeVec m A b p
      = ∑ r ∈ range m, (mulV n A x r - b r) ^ 2 - ∑ r ∈ range m, b r ^ 2 := by
  rw [bil_gram, dot_transposeVec, mul_sum, ← sum_sub_distrib, ← sum_sub_distrib]
  exact sum_congr rfl fun r _ => by ring

end system


/-! ### Optimality -/

/-- The cost in terms of pieces. -/
noncomputable def costN (s : MSpline ℝ (Fin D → ℝ)) (data : List (ℝ × (Fin D → ℝ))) (idx : ℝ → ℕ) (weights : Option (ℕ → ℝ)) (lambda : ℝ)
    (w : ℕ → ℕ → ℝ) : ℝ :=
  ∑ m : Fin data.length, ∑ d : Fin D, (weightOf weights m * (s.curveVal w (idx data[m].1) 0 data[m].1 d - data[m].2 d)) ^ 2
    + ∑ i ∈ Ico (s.order - 1) (s.keys.length - s.order), s.segEnergy lambda i w

theorem costN_nonneg {s : MSpline ℝ (Fin D → ℝ)} (h : s.MWF) (data : List (ℝ × (Fin D → ℝ))) (idx : ℝ → ℕ)
    (weights : Option (ℕ → ℝ)) (lambda : ℝ) (hl : 0 ≤ lambda) (w : ℕ → ℕ → ℝ) : 0 ≤ s.costN data idx weights lambda w := by
  unfold costN
  refine add_nonneg (sum_nonneg fun m _ => sum_nonneg fun d _ => sq_nonneg _) (sum_nonneg fun i hi => sum_nonneg fun d _ => ?_)
  have hk := h.order_pos
  have := mem_Ico.1 hi
  exact mul_nonneg hl (intervalIntegral.integral_nonneg (h.mono i (i + 1) (by omega) (by omega)) fun t _ => sq_nonneg _)

/-- The regularised normal equations, up to a constant. -/
theorem regularise_cost {s : MSpline ℝ (Fin D → ℝ)} (h : s.MWF) (he : s.state = .evaluable) (dense : Bool) (lambda t0 tl : ℝ)
    (i0 il : ℕ) (h0 : s.InSeg t0 i0) (hl : s.InSeg tl il) (hle : i0 ≤ il) (fix : ℕ) (hfix : fix = 0 ∨ lambda = 0) (A : Mat ℝ) (b : ℕ → ℝ)
    (hA : ∀ x y, bil ((il + 1 - (i0 + 1 - s.order + fix)) * D) A x y = bil ((il + 1 - (i0 + 1 - s.order + fix)) * D) A y x) :
    ∃ A' b' c, s.regularise dense lambda (il + 1 - (i0 + 1 - s.order + fix)) fix t0 tl (A, b) = .ok (A', b') ∧
      (∀ x y, bil ((il + 1 - (i0 + 1 - s.order + fix)) * D) A' x y = bil ((il + 1 - (i0 + 1 - s.order + fix)) * D) A' y x) ∧
      ∀ x (o : ℕ → ℝ), (lambda = 0 ∨ ∀ p, o p = 0) →
        bil ((il + 1 - (i0 + 1 - s.order + fix)) * D) A' x x - 2 * ∑ p ∈ range ((il + 1 - (i0 + 1 - s.order + fix)) * D), x p * b' p
        = bil ((il + 1 - (i0 + 1 - s.order + fix)) * D) A x x - 2 * ∑ p ∈ range ((il + 1 - (i0 + 1 - s.order + fix)) * D), x p * b p +
          (∑ j ∈ Ico (s.order - 1) (s.keys.length - s.order),
            s.segEnergy lambda j (fullV (il + 1 - (i0 + 1 - s.order + fix)) (i0 + 1 - s.order + fix) D (fun q => x q + o q) s.vertN) - c) := by
  have hk := h.order_pos
  have z : lambda = 0 → ∀ i w, s.segEnergy lambda i w = 0 := by
    intro hz i w
    unfold segEnergy
    exact sum_eq_zero fun d _ => by rw [hz, zero_mul]
  by_cases hz : lambda = 0
  · refine ⟨A, b, 0, ?_, hA, fun x o _ => ?_⟩
    · unfold regularise
      rw [if_pos hz]
    · rw [sum_eq_zero fun j _ => z hz j _]
      ring
  · obtain rfl : fix = 0 := hfix.resolve_right hz
    have l1 := h0.lower
    obtain ⟨A', b', c, r1, r2, r3⟩ := regularise_ok h he dense lambda t0 tl i0 il h0 hl hle (s.segEnergy lambda)
      (fun i h1 h2 => segEnergy_spec h he lambda i h1 h2) (fun i w w' h1 hw => segEnergy_local s hk lambda i w w' h1 hw)
      (fun hz i w _ _ => z hz i w) A b (il + 1 - (i0 + 1 - s.order + 0)) (by omega) hA
    refine ⟨A', b', c, r1, r2, fun x o ho => ?_⟩
    have : (fun q => x q + o q) = x := by
      funext q
      rw [ho.resolve_left hz q, add_zero]
    rw [this, r3]
    rfl

theorem calcFitted_optimal {s : MSpline ℝ (Fin D → ℝ)} (h : s.MWF) (he : s.state = .evaluable) (hD : 1 ≤ D) (dense : Bool)
    (solve : Solver ℝ) (hsolve : SolvesSemidefinite solve)
    {resolver : Resolver ℝ} {data : List (ℝ × (Fin D → ℝ))} {t0 tl : ℝ} {i0 il : ℕ} {idx : ℝ → ℕ} {r : ℤ}
    (hin : s.FitInput resolver data t0 tl i0 il idx r) (weights : Option (ℕ → ℝ)) (lambda : ℝ) (hl : 0 ≤ lambda) (fix : ℕ)
    (hfix : fix = 0 ∨ lambda = 0) (offsets : Bool) (hoff : offsets = true → lambda = 0) :
    ∃ v, s.calcFitted dense solve id resolver data weights lambda fix offsets = (.ok (), s.withVerts v) ∧
      (∀ j, ¬ (i0 + 1 - s.order + fix ≤ j ∧ j ≤ il) → v j = s.vert j) ∧
      ∀ v' : ℕ → Fin D → ℝ, (∀ j, ¬ (i0 + 1 - s.order + fix ≤ j ∧ j ≤ il) → v' j = s.vert j) →
        (s.withVerts v).fitterCost data weights lambda (s.kn (s.order - 1)) (s.kn (s.keys.length - s.order))
          ≤ (s.withVerts v').fitterCost data weights lambda (s.kn (s.order - 1)) (s.kn (s.keys.length - s.order)) := by
  have hk := h.order_pos
  obtain ⟨p0, hp0⟩ := hin.first
  obtain ⟨pl, hpl⟩ := hin.last
  have m0 : (t0, p0) ∈ data := List.mem_of_mem_head? hp0
  have ml : (tl, pl) ∈ data := List.mem_of_mem_getLast? hpl
  have s0 := hin.seg _ m0
  have sl := hin.seg _ ml
  have hle := hin.upper _ m0
  have r0 := hin.res _ m0
  have rl := hin.res _ ml
  dsimp only at s0 sl hle r0 rl
  rw [← hin.i0_eq] at s0 hle r0
  rw [← hin.il_eq] at sl rl
  have l1 := s0.lower
  have l2 := sl.upper
  by_cases hfree : i0 + 1 - s.order + fix ≤ il
  · obtain ⟨rows, current, hcur, hrows, hrun⟩ := calcFitted_run h he dense solve hin weights lambda fix offsets hoff hfree
    set base := i0 + 1 - s.order + fix with hbase
    set n := il + 1 - base with hn
    set A := fitMatrix s.order rows with hA
    set b := fitVector s.order fix offsets current rows with hb
    -- the shift between unknowns and vertices
    set o : ℕ → ℝ := fun q => if offsets then s.vertN (base + q / D) (q % D) else 0 with ho
    obtain ⟨A', b', c, q1, q2, q3⟩ := regularise_cost h he dense lambda t0 tl i0 il s0 sl hle fix hfix (gram (data.length * D) A)
      (transposeVec (data.length * D) A b) (fun x y => by
        rw [bil_gram, bil_gram]
        exact sum_congr rfl fun r _ => mul_comm _ _)
    rw [← hbase, ← hn] at q1 q2 q3
    have hres : ∀ x, ∑ r ∈ range (data.length * D), (mulV (n * D) A x r - b r) ^ 2
        = ∑ m : Fin data.length, ∑ d : Fin D,
          (weightOf weights m * (s.curveVal (fullV n base D (fun q => x q + o q) s.vertN) (idx data[m].1) 0 data[m].1 d
            - data[m].2 d)) ^ 2 := by
      intro x
      rw [sum_stacked, Finset.sum_range]
      refine sum_congr rfl fun m _ => ?_
      rw [Finset.sum_range]
      refine sum_congr rfl fun d _ => ?_
      obtain ⟨R, a1, a2, a3, a4⟩ := hrows m data[m] (List.getElem?_eq_getElem m.2)
      have b1 := hin.lower _ (List.getElem_mem m.2)
      have b2 := hin.upper _ (List.getElem_mem m.2)
      have b3 := (hin.seg _ (List.getElem_mem m.2)).lower
      congr 1
      by_cases hof : offsets = true
      · rw [if_pos hof] at hcur
        have e : (fun q => x q + o q) = fun q => x q + s.vertN (base + q / D) (q % D) := by
          funext q
          rw [ho]
          dsimp only
          rw [if_pos hof]
        rw [e, hb, hof]
        exact residual_offsets n base fix _ hbase current hcur rows m _ R a1 b3 a2 (by omega)
          (by
            have : idx data[m].1 ≤ il := b2
            omega) _ _ _ a3 a4 x d
      · rw [if_neg hof] at hcur
        have e : (fun q => x q + o q) = x := by
          funext q
          rw [ho]
          dsimp only
          rw [if_neg hof, add_zero]
        have hof' : offsets = false := by simpa using hof
        rw [e, hb, hof']
        exact residual_eq n base fix _ hbase current hcur rows m _ R a1 b3 a2 (by omega)
          (by
            have : idx data[m].1 ≤ il := b2
            omega) _ _ _ a3 a4 x d
    have hF : ∀ x, bil (n * D) A' x x - 2 * ∑ p ∈ range (n * D), x p * b' p
        = s.costN data idx weights lambda (fullV n base D (fun q => x q + o q) s.vertN)
          - (c + ∑ r ∈ range (data.length * D), b r ^ 2) := by
      intro x
      rw [q3 x o (by
        by_cases hof : offsets = true
        · exact Or.inl (hoff hof)
        · right
          intro p
          rw [ho]
          dsimp only
          rw [if_neg hof]), gram_cost, hres]
      unfold costN
      ring
    have hmin := solve_minimises solve hsolve (n * D) A' b' q2
      (fun x => s.costN data idx weights lambda (fullV n base D (fun q => x q + o q) s.vertN)) _ hF
      (fun x => costN_nonneg h data idx weights lambda hl _)
    set z := solve (n * D) A' b' with hz
    set v : ℕ → Fin D → ℝ := fun j d => fullV n base D (fun q => z q + o q) s.vertN j d with hv
    refine ⟨v, ?_, fun j hj => ?_, fun v' hv' => ?_⟩
    · rw [hrun _ q1]
      dsimp only
      rw [← hz]
      have hfits : i0 + 1 - s.order + fix + n ≤ s.keys.length - s.order := by omega
      by_cases hof : offsets = true
      · rw [if_pos hof, manipulate_withVerts h he s0 n fix hfits, ← hbase]
        congr 2
        funext j d
        rw [hv]
        unfold fullV
        dsimp only
        split_ifs with hj
        · rw [ho]
          dsimp only
          rw [if_pos hof, stack_div _ _ d.2, stack_mod _ _ d.2, show base + (j - base) = j by omega, vertN_fin, add_comm]
        · rw [vertN_fin]
      · rw [if_neg hof]
        obtain ⟨f, g1, g2⟩ := set_stacked hD n (by omega) z t0 fix s
        rw [g2, manipulate_withVerts h he s0 n fix hfits, ← hbase]
        congr 2
        funext j
        funext d
        rw [hv]
        unfold fullV
        dsimp only
        split_ifs with hj
        · rw [g1 _ (by omega), ho]
          dsimp only
          rw [if_neg hof, add_zero]
        · rw [vertN_fin]
    · funext d
      rw [hv]
      dsimp only
      unfold fullV
      rw [if_neg (by omega), vertN_fin]
    · set y : ℕ → ℝ := fun q => (if hq : q % D < D then v' (base + q / D) ⟨q % D, hq⟩ else 0) - o q with hy
      have h1 := hmin y
      rw [cost_eq h he v (fullV n base D (fun q => z q + o q) s.vertN) (fun j d _ => rfl) data idx hin.seg,
        cost_eq h he v' (fullV n base D (fun q => y q + o q) s.vertN) (fun j d _ => ?_) data idx hin.seg]
      · exact h1
      · unfold fullV
        split_ifs with hj
        · rw [hy]
          dsimp only
          rw [sub_add_cancel, dif_pos (by rw [stack_mod _ _ d.2]; exact d.2)]
          have e : (⟨((j - base) * D + d) % D, by rw [stack_mod _ _ d.2]; exact d.2⟩ : Fin D) = d := Fin.ext (stack_mod _ _ d.2)
          rw [e, stack_div _ _ d.2, show base + (j - base) = j by omega]
        · rw [vertN_fin, hv' j (by omega)]
  · -- no free vertex
    refine ⟨s.vert, ?_, fun j _ => rfl, fun v' hv' => ?_⟩
    · have e : s.withVerts s.vert = s := by
        unfold withVerts
        obtain ⟨o, segs, st, its⟩ := s
        dsimp only
        congr 1
        apply List.ext_getElem?
        intro j
        rw [List.getElem?_mapIdx]
        rcases hj : segs[j]? with _ | g
        · rfl
        · rw [Option.map_some]
          congr 1
          unfold vert verts
          dsimp only
          rw [List.getD_eq_getElem?_getD, List.getElem?_map, hj]
          rfl
      rw [e]
      unfold calcFitted
      rw [if_neg (by rintro ⟨h1, h2⟩; exact h2 (hoff h1)), hp0, hpl]
      dsimp only
      rw [getMaxTime_eq h he, Outcome.bind_ok, r0, Outcome.bind_ok, rl, Outcome.bind_ok, if_pos (by omega)]
      rfl
    · have e : ∀ j, v' j = s.vert j := fun j => hv' j (by omega)
      rw [funext e]


/-! ### The index resolver -/

/-- Knot number `j` is the last one not after `t`. -/
def LastKnot {K : Type*} [LinearOrder K] (ks : List K) (t : K) (j : ℕ) : Prop :=
  (∃ x, ks[j]? = some x ∧ x ≤ t) ∧ ∀ y, ks[j + 1]? = some y → t < y

section resolver
variable {K : Type*} [Field K] [LinearOrder K] [IsStrictOrderedRing K]

theorem resolverInsert_last (x : K × ℤ) : ∀ m : List (K × ℤ), (∀ y ∈ m, y.1 < x.1) → resolverInsert x m = m ++ [x]
  | [], _ => rfl
  | y :: ys, h => by
    have hy := h y (by simp)
    unfold resolverInsert
    rw [if_neg hy.not_gt, if_neg hy.ne', resolverInsert_last x ys fun z hz => h z (by simp [hz])]
    rfl

theorem fitMap_fold : ∀ (ks : List K) (m : List (K × ℤ)) (c : ℤ), ks.Pairwise (· < ·) → (∀ y ∈ m, ∀ x ∈ ks, y.1 < x) →
    (ks.foldl (fun (m : List (K × ℤ) × ℤ) x => (resolverInsert (x, m.2) m.1, m.2 + 1)) (m, c)).1
      = m ++ ks.mapIdx fun i x => (x, c + i)
  | [], m, c, _, _ => by simp
  | x :: xs, m, c, hs, hm => by
    rw [List.foldl_cons, resolverInsert_last _ _ fun y hy => hm y hy x (by simp), fitMap_fold xs _ _ (List.pairwise_cons.1 hs).2]
    · rw [List.mapIdx_cons, List.append_assoc, List.singleton_append]
      congr 2
      · simp
      · apply List.ext_getElem?
        intro j
        rw [List.getElem?_mapIdx, List.getElem?_mapIdx]
        rcases xs[j]? with _ | y
        · rfl
        · simp only [Option.map_some]
          congr 2
          push_cast
          ring
    · intro y hy z hz
      rcases List.mem_append.1 hy with hy | hy
      · exact hm y hy z (by simp [hz])
      · rw [List.mem_singleton] at hy
        rw [hy]
        exact (List.pairwise_cons.1 hs).1 z hz

theorem takeWhile_take {α : Type*} (f : α → Bool) (l : List α) (n : ℕ) (hn : n ≤ l.length) (h1 : ∀ (i : ℕ) (x : α), i < n → l[i]? = some x → f x = true)
    (h2 : ∀ x, l[n]? = some x → f x = false) : l.takeWhile f = l.take n := by
  induction n generalizing l with
  | zero =>
    rcases l with _ | ⟨x, l⟩
    · rfl
    · rw [List.takeWhile_cons, h2 x rfl]
      rfl
  | succ n ih =>
    rcases l with _ | ⟨x, l⟩
    · simp at hn
    · rw [List.takeWhile_cons, h1 0 x (by omega) rfl, List.take_succ_cons]
      simp only [if_true]
      rw [ih l (by simpa using hn) (fun i y hi hy => h1 (i + 1) y (by omega) (by simpa using hy)) (fun y hy => h2 y (by simpa using hy))]

theorem LastKnot.takeWhile {ks : List K} (hs : ks.Pairwise (· < ·)) {t : K} {j : ℕ} (h : LastKnot ks t j) :
    ks.takeWhile (fun x => decide (x ≤ t)) = ks.take (j + 1) := by
  obtain ⟨⟨x, hx, hxt⟩, h2⟩ := h
  have hj : j < ks.length := (List.getElem?_eq_some_iff.1 hx).1
  refine takeWhile_take _ _ _ hj (fun i y hi hy => ?_) (fun y hy => ?_)
  · rw [decide_eq_true_eq]
    refine le_trans ?_ hxt
    rcases Nat.lt_or_ge i j with h | h
    · obtain ⟨hi', rfl⟩ := List.getElem?_eq_some_iff.1 hy
      obtain ⟨_, rfl⟩ := List.getElem?_eq_some_iff.1 hx
      exact (List.pairwise_iff_getElem.1 hs i j hi' hj h).le
    · obtain rfl : i = j := by omega
      rw [hx] at hy
      cases hy
      exact le_refl _
  · rw [decide_eq_false_iff_not]
    exact not_le.2 (h2 y hy)

theorem mapResolver_fitMap {ks : List K} (hs : ks.Pairwise (· < ·)) {t : K} {j : ℕ} (h : LastKnot ks t j) :
    mapResolver (fitMap ks) t = .ok j := by
  have hm : fitMap ks = ks.mapIdx fun i x => (x, (i : ℤ)) := by
    unfold fitMap
    rw [fitMap_fold ks [] 0 hs (by simp)]
    simp
  have ht := h.takeWhile hs
  obtain ⟨⟨x, hx, hxt⟩, h2⟩ := h
  have hj : j < ks.length := (List.getElem?_eq_some_iff.1 hx).1
  have hw : ((ks.mapIdx fun i x => (x, (i : ℤ))).takeWhile fun x => decide (x.1 ≤ t)) = (ks.mapIdx fun i x => (x, (i : ℤ))).take (j + 1) := by
    refine takeWhile_take _ _ _ (by simpa using hj) (fun i y hi hy => ?_) (fun y hy => ?_)
    · rw [List.getElem?_mapIdx, Option.map_eq_some_iff] at hy
      obtain ⟨z, hz, rfl⟩ := hy
      have : z ∈ ks.takeWhile (fun x => decide (x ≤ t)) := by
        rw [ht]
        exact List.mem_of_getElem? (i := i) (by rw [List.getElem?_take, if_pos hi]; exact hz)
      exact (List.all_eq_true.1 List.all_takeWhile) z this
    · rw [List.getElem?_mapIdx, Option.map_eq_some_iff] at hy
      obtain ⟨z, hz, rfl⟩ := hy
      rw [decide_eq_false_iff_not]
      exact not_le.2 (h2 z hz)
  unfold mapResolver
  rw [hm, hw, List.getLast?_eq_getElem?, List.length_take, List.length_mapIdx, List.getElem?_take, if_pos (by omega),
    List.getElem?_mapIdx, show min (j + 1) ks.length - 1 = j by omega, hx]
  rfl

theorem InSeg.lastKnot {P : Type*} {s : MSpline K P} (h : s.MWF) (he : s.state = .evaluable) {t : K} {i : ℕ} (hi : s.InSeg t i) :
    LastKnot s.keys t (i + if t = s.kn (s.keys.length - s.order) then 1 else 0) := by
  have hk := h.order_pos
  have hn := h.enough he
  have l1 := hi.lower
  have l2 := hi.upper
  by_cases ht : t = s.kn (s.keys.length - s.order)
  · rw [if_pos ht]
    have hr := hi.right
    have e : i + 1 = s.keys.length - s.order := by
      rcases hr with hr | hr
      · exfalso
        rw [ht] at hr
        exact absurd hr (not_lt.2 (h.mono _ _ (by omega) (by omega)))
      · omega
    refine ⟨⟨_, kn_getElem s (by omega), by rw [e, ht]⟩, fun y hy => ?_⟩
    obtain ⟨hl, -⟩ := List.getElem?_eq_some_iff.1 hy
    rw [kn_getElem s hl] at hy
    cases hy
    rw [ht]
    exact h.strict (by omega) (by omega)
  · rw [if_neg ht, Nat.add_zero]
    refine ⟨⟨_, kn_getElem s (by omega), hi.left⟩, fun y hy => ?_⟩
    rw [kn_getElem s (by omega)] at hy
    cases hy
    rcases hi.right with hr | hr
    · exact hr
    · exfalso
      apply ht
      rw [hr.1]
      congr 1
      omega

/-- The knots the fitter collects, and the resolver built from them. -/
theorem fitKnots_resolver {s : MSpline K (Fin D → K)} (h : s.MWF) (he : s.state = .evaluable) {t0 tl : K} {i0 il : ℕ}
    (h0 : s.InSeg t0 i0) (hl : s.InSeg tl il) :
    ∃ ks, s.fitKnots t0 tl = .ok ks ∧ ∀ t i, s.InSeg t i → i0 ≤ i → t ≤ tl →
      mapResolver (fitMap ks) t = .ok (-((i0 + 1 - s.order : ℕ) : ℤ) + i + if t = s.kn (s.keys.length - s.order) then 1 else 0) := by
  have hk := h.order_pos
  have l1 := h0.lower
  have l2 := h0.upper
  refine ⟨_, by
    unfold fitKnots
    rw [segIter_at h he h0, Outcome.bind_ok, firstRelevant_at h l1 (by omega), Outcome.bind_ok, itPos_at h.nodup (by omega)], ?_⟩
  set f := i0 + 1 - s.order with hf
  have hlast := hl.lastKnot h he
  set ml := il + if tl = s.kn (s.keys.length - s.order) then 1 else 0 with hml
  have hsd : (s.keys.drop f).Pairwise (· < ·) := h.sorted.sublist (List.drop_sublist _ _)
  intro t i hi hi0 htl
  have hlt := hi.lastKnot h he
  set mt := i + if t = s.kn (s.keys.length - s.order) then 1 else 0 with hmt
  have hsub : ((s.keys.drop f).takeWhile fun x => decide (x ≤ tl)).Pairwise (· < ·) := hsd.sublist (List.takeWhile_sublist _)
  have hL : LastKnot ((s.keys.drop f).takeWhile fun x => decide (x ≤ tl)) t (mt - f) := by
    have hfm : f ≤ mt := by omega
    obtain ⟨⟨x, hx, hxt⟩, h2⟩ := hlt
    have hxd : (s.keys.drop f)[mt - f]? = some x := by
      rw [List.getElem?_drop, show f + (mt - f) = mt by omega]
      exact hx
    -- membership in the prefix
    have hpre : ∀ (j : ℕ) (y : K), ((s.keys.drop f).takeWhile fun x => decide (x ≤ tl))[j]? = some y → (s.keys.drop f)[j]? = some y := by
      intro j y hy
      have := (List.takeWhile_prefix (fun x => decide (x ≤ tl)) (l := s.keys.drop f))
      obtain ⟨r, hr⟩ := this
      have hjl := (List.getElem?_eq_some_iff.1 hy).1
      rw [← hr, List.getElem?_append_left hjl]
      exact hy
    refine ⟨⟨x, ?_, hxt⟩, fun y hy => h2 y ?_⟩
    · have hll : LastKnot (s.keys.drop f) tl (ml - f) ∨ ml < f := by
        rcases Nat.lt_or_ge ml f with hc | hc
        · exact Or.inr hc
        · left
          obtain ⟨⟨z, hz, hzt⟩, h3⟩ := hlast
          refine ⟨⟨z, by rw [List.getElem?_drop, show f + (ml - f) = ml by omega]; exact hz, hzt⟩, fun y hy => h3 y ?_⟩
          rw [List.getElem?_drop, show f + (ml - f + 1) = ml + 1 by omega] at hy
          exact hy
      have hmm : mt ≤ ml := by
        by_contra hc
        push Not at hc
        obtain ⟨hxl, hxe⟩ := List.getElem?_eq_some_iff.1 hx
        have hml1 : ml + 1 < s.keys.length := by omega
        have h4 := hlast.2 _ (List.getElem?_eq_getElem hml1)
        have h5 : s.keys[ml + 1] ≤ s.keys[mt] := by
          rcases Nat.lt_or_ge (ml + 1) mt with h6 | h6
          · exact (List.pairwise_iff_getElem.1 h.sorted (ml + 1) mt hml1 hxl h6).le
          · have : ml + 1 = mt := by omega
            simp only [this, le_refl]
        rw [hxe] at h5
        exact absurd (lt_of_lt_of_le h4 (le_trans h5 (le_trans hxt htl))) (lt_irrefl _)
      rcases hll with hll | hc
      · rw [hll.takeWhile hsd, List.getElem?_take, if_pos (by omega)]
        exact hxd
      · omega
    · have := hpre _ _ hy
      rw [List.getElem?_drop, show f + (mt - f + 1) = mt + 1 by omega] at this
      exact this
  rw [mapResolver_fitMap hsub hL]
  congr 1
  have : f ≤ mt := by omega
  push_cast [Nat.cast_sub this]
  rw [hmt]
  push_cast
  split_ifs <;> ring

theorem InSeg.le_of_le {P : Type*} {s : MSpline K P} (h : s.MWF) {t t' : K} {i i' : ℕ} (hi : s.InSeg t i) (hi' : s.InSeg t' i')
    (ht : t ≤ t') : i ≤ i' := by
  have hk := h.order_pos
  have l1 := hi.upper
  have l2 := hi'.upper
  by_contra hc
  push Not at hc
  rcases hi'.right with hr | hr
  · have h1 : s.kn (i' + 1) ≤ s.kn i := h.mono _ _ (by omega) (by omega)
    exact absurd (lt_of_lt_of_le hr h1) (not_lt.2 (le_trans hi.left ht))
  · omega

end resolver

/-- The interval of a time, if it has one. -/
noncomputable def intervalOf (s : MSpline ℝ (Fin D → ℝ)) (t : ℝ) : ℕ := by
  classical exact if h : ∃ i, s.InSeg t i then h.choose else 0

theorem intervalOf_spec {s : MSpline ℝ (Fin D → ℝ)} {t : ℝ} {i : ℕ} (h : s.InSeg t i) : s.InSeg t (s.intervalOf t) := by
  have he : ∃ i, s.InSeg t i := ⟨i, h⟩
  unfold intervalOf
  rw [dif_pos he]
  exact he.choose_spec

theorem timesBounded_of {times : List ℝ} {t0 tl : ℝ} (h0 : times.head? = some t0) (hl : times.getLast? = some tl)
    (hb : ∀ t ∈ times, t0 ≤ t ∧ t ≤ tl) : timesBounded times = true := by
  unfold timesBounded
  rw [h0, hl]
  dsimp only
  rw [Bool.or_eq_true]
  right
  rw [List.all_eq_true]
  intro t ht
  rw [Bool.and_eq_true, decide_eq_true_eq, decide_eq_true_eq]
  exact hb t ht

theorem fitGuard_ok {s : MSpline ℝ (Fin D → ℝ)} (h : s.MWF) (he : s.state = .evaluable) {times : List ℝ} {t0 tl : ℝ} {i0 il : ℕ}
    (ht0 : times.head? = some t0) (htl : times.getLast? = some tl) (hb : ∀ t ∈ times, t0 ≤ t ∧ t ≤ tl)
    (h0 : s.InSeg t0 i0) (hl : s.InSeg tl il) (n : ℕ) (hn : times.length = n) : s.fitGuard times n = .ok (t0, tl) := by
  unfold fitGuard
  rw [he]
  dsimp only
  have hne : times ≠ [] := by rintro rfl; simp at ht0
  have := List.length_pos_iff.2 hne
  rw [if_neg (by omega), if_neg (by omega), timesBounded_of ht0 htl hb, if_neg (by simp), ht0, htl, getMinTime_eq h he, getMaxTime_eq h he]
  dsimp only
  rw [if_neg (not_lt.2 (h0.range h).1), if_neg (not_lt.2 (hl.range h).2)]

theorem fit_input {s : MSpline ℝ (Fin D → ℝ)} (h : s.MWF) (he : s.state = .evaluable) {times : List ℝ} {points : List (Fin D → ℝ)} {t0 tl : ℝ}
    {i0 il : ℕ} (hlen : times.length = points.length)
    (ht0 : times.head? = some t0) (htl : times.getLast? = some tl) (hb : ∀ t ∈ times, t0 ≤ t ∧ t ≤ tl)
    (h0 : s.InSeg t0 i0) (hl : s.InSeg tl il) (resolver : Resolver ℝ) (r : ℤ)
    (hres : ∀ t i, t ∈ times → s.InSeg t i → i0 ≤ i → t ≤ tl →
      resolver t = .ok (r + i + if t = s.kn (s.keys.length - s.order) then 1 else 0)) :
    s.FitInput resolver (times.zip points) t0 tl i0 il s.intervalOf r := by
  have hseg : ∀ t ∈ times, s.InSeg t (s.intervalOf t) := by
    intro t ht
    obtain ⟨b1, b2⟩ := hb t ht
    rcases evaluable_total h he t with ⟨i, hi⟩ | hout
    · exact intervalOf_spec hi
    · exfalso
      have c1 := (h0.range h).1
      have c2 := (hl.range h).2
      rcases hout with hout | hout
      · exact absurd (lt_of_lt_of_le hout c1) (not_lt.2 b1)
      · exact absurd (lt_of_le_of_lt c2 hout) (not_lt.2 b2)
  have hmem : ∀ x ∈ times.zip points, x.1 ∈ times := fun x hx => (List.of_mem_zip hx).1
  have e0 : i0 = s.intervalOf t0 := h0.unique h (hseg t0 (List.mem_of_mem_head? ht0))
  have el : il = s.intervalOf tl := hl.unique h (hseg tl (List.mem_of_mem_getLast? htl))
  have hlow : ∀ t ∈ times, i0 ≤ s.intervalOf t := fun t ht => h0.le_of_le h (hseg t ht) (hb t ht).1
  refine ⟨?_, ?_, fun x hx => hseg _ (hmem x hx), fun x hx => ?_, e0, el, fun x hx => hlow _ (hmem x hx),
    fun x hx => (hseg _ (hmem x hx)).le_of_le h hl (hb _ (hmem x hx)).2⟩
  · rcases times with _ | ⟨a, l⟩
    · simp at ht0
    · rcases points with _ | ⟨p, q⟩
      · simp at hlen
      · rw [List.head?_cons, Option.some.injEq] at ht0
        exact ⟨p, by rw [← ht0]; rfl⟩
  · have hne : times ≠ [] := by rintro rfl; simp at ht0
    have hpos := List.length_pos_iff.2 hne
    rw [List.getLast?_eq_getElem?] at htl
    have hpl : times.length - 1 < points.length := by omega
    refine ⟨points[times.length - 1], ?_⟩
    rw [List.getLast?_eq_getElem?, List.length_zip, ← hlen, Nat.min_self, List.getElem?_zip_eq_some]
    exact ⟨htl, List.getElem?_eq_getElem hpl⟩
  · have hx' := hmem x hx
    exact hres _ _ hx' (hseg _ hx') (hlow _ hx') (hb _ hx').2


/-! ### The theorems -/

/-- C38 (partial: no regularisation together with fixed vertices, see `C38_fixed_regularised_wrong`).  Let the times, none before the
first and none after the last, lie in the valid range, the first in knot interval `i0` and the last in `il`.  The free vertices are those
relevant for the times without the first `fix` ones.  Then the fit succeeds, changes no other vertex, and its cost is not larger than
that of any other choice of the free vertices; also if offsets are computed instead of vertices; with both backends. -/
theorem C38_optimal_partial (dense : Bool) (solve : Solver ℝ) (hsolve : SolvesSemidefinite solve) (order : ℕ) (ho : 1 ≤ order) (hD : 1 ≤ D)
    (s : MSpline ℝ (Fin D → ℝ)) (hr : RegularReach (euclidean ℝ (Fin D → ℝ)) order s) (he : s.state = .evaluable) (tmin tmax : ℝ)
    (hmin : s.getMinTime = .ok tmin) (hmax : s.getMaxTime = .ok tmax) (times : List ℝ) (points : List (Fin D → ℝ)) (t0 tl : ℝ)
    (hlen : times.length = points.length) (ht0 : times.head? = some t0) (htl : times.getLast? = some tl)
    (hb : ∀ t ∈ times, t0 ≤ t ∧ t ≤ tl) (i0 il : ℕ) (h0 : s.InSeg t0 i0) (hl : s.InSeg tl il) (weights : Option (ℕ → ℝ)) (lambda : ℝ)
    (hlam : 0 ≤ lambda) (fix : ℕ) (hfix : fix = 0 ∨ lambda = 0) (offsets : Bool) (hoff : offsets = true → lambda = 0) :
    ∃ v, s.fitSpline dense solve id times points lambda fix weights offsets = (.ok (), s.withVerts v) ∧
      (∀ j, ¬ (i0 + 1 - order + fix ≤ j ∧ j ≤ il) → v j = s.vert j) ∧
      ∀ v' : ℕ → Fin D → ℝ, (∀ j, ¬ (i0 + 1 - order + fix ≤ j ∧ j ≤ il) → v' j = s.vert j) →
        (s.withVerts v).fitterCost (times.zip points) weights lambda tmin tmax
          ≤ (s.withVerts v').fitterCost (times.zip points) weights lambda tmin tmax := by
  obtain ⟨h, rfl⟩ := hr.mwf ho
  rw [getMinTime_eq h he, Outcome.ok.injEq] at hmin
  rw [getMaxTime_eq h he, Outcome.ok.injEq] at hmax
  subst hmin hmax
  obtain ⟨ks, k1, k2⟩ := fitKnots_resolver h he h0 hl
  have hin := fit_input h he hlen ht0 htl hb h0 hl (mapResolver (fitMap ks)) _ fun t i _ h1 h2 h3 => k2 t i h1 h2 h3
  obtain ⟨v, v1, v2, v3⟩ := calcFitted_optimal h he hD dense solve hsolve hin weights lambda hlam fix hfix offsets hoff
  refine ⟨v, ?_, v2, v3⟩
  unfold fitSpline
  rw [fitGuard_ok h he ht0 htl hb h0 hl points.length hlen, Outcome.bind_ok, k1]
  exact v1

/-- C38: what is not accepted: no points, unequal numbers, times outside the first and the last one, times outside the valid range,
offsets together with a regularisation, a spline under construction.  The spline is left as it was. -/
theorem C38_rejects {K : Type*} [Field K] [LinearOrder K] [IsStrictOrderedRing K] (dense : Bool) (solve : Solver K)
    (project : (Fin D → K) → Fin D → K) (order : ℕ) (ho : 1 ≤ order) (s : MSpline K (Fin D → K))
    (hr : RegularReach (euclidean K (Fin D → K)) order s) (times : List K) (points : List (Fin D → K)) (lambda : K) (fix : ℕ)
    (weights : Option (ℕ → K)) (offsets : Bool)
    (hbad : s.state = .constructing ∨ points = [] ∨ times.length ≠ points.length ∨
      (∃ t ∈ times, ∃ t0 tl, times.head? = some t0 ∧ times.getLast? = some tl ∧ (t < t0 ∨ tl < t)) ∨
      (∃ t0 tmin, times.head? = some t0 ∧ s.getMinTime = .ok tmin ∧ t0 < tmin) ∨
      ∃ tl tmax, times.getLast? = some tl ∧ s.getMaxTime = .ok tmax ∧ tmax < tl) :
    s.fitSpline dense solve project times points lambda fix weights offsets = (.throws, s) := by
  obtain ⟨h, rfl⟩ := hr.mwf ho
  have key : s.fitGuard times points.length = .throws := by
    unfold fitGuard
    rcases hst : s.state with _ | _
    · rfl
    · dsimp only
      by_cases h1 : points.length < 1
      · rw [if_pos h1]
      rw [if_neg h1]
      by_cases h2 : times.length ≠ points.length
      · rw [if_pos h2]
      rw [if_neg h2]
      by_cases h3 : timesBounded times = false
      · rw [if_pos h3]
      rw [if_neg h3]
      push Not at h2
      have hne : times ≠ [] := by rintro rfl; simp at h2; omega
      rw [List.head?_eq_some_head hne, List.getLast?_eq_some_getLast hne, getMinTime_eq h hst, getMaxTime_eq h hst]
      dsimp only
      rcases hbad with hb | hb | hb | ⟨t, ht, t0, tl, b1, b2, b3⟩ | ⟨t0, tmin, b1, b2, b3⟩ | ⟨tl, tmax, b1, b2, b3⟩
      · rw [hst] at hb; cases hb
      · rw [hb] at h1; simp at h1
      · exact absurd h2 hb
      · exfalso
        apply h3
        rw [← Bool.not_eq_true]
        intro hc
        unfold timesBounded at hc
        rw [b1, b2] at hc
        dsimp only at hc
        rw [Bool.or_eq_true] at hc
        rcases hc with hc | hc
        · rw [decide_eq_true_eq] at hc
          rcases times with _ | ⟨a, _ | ⟨b, l⟩⟩
          · exact hne rfl
          · simp only [List.mem_singleton, List.head?_cons, Option.some.injEq, List.getLast?_singleton] at ht b1 b2
            rw [ht, ← b1, ← b2] at b3
            rcases b3 with b3 | b3 <;> exact absurd b3 (lt_irrefl _)
          · simp at hc
        · have := List.all_eq_true.1 hc t ht
          rw [Bool.and_eq_true, decide_eq_true_eq, decide_eq_true_eq] at this
          rcases b3 with b3 | b3
          · exact absurd this.1 (not_le.2 b3)
          · exact absurd this.2 (not_le.2 b3)
      · rw [List.head?_eq_some_head hne, Option.some.injEq] at b1
        rw [getMinTime_eq h hst, Outcome.ok.injEq] at b2
        rw [b1, b2, if_pos b3]
      · rw [List.getLast?_eq_some_getLast hne, Option.some.injEq] at b1
        rw [getMaxTime_eq h hst, Outcome.ok.injEq] at b2
        rw [b1, b2]
        split_ifs <;> rfl
  unfold fitSpline
  rw [key]
  rfl

/-- The curve of `fitDemo` has no second derivative. -/
theorem fitDemo_straight (t : ℚ) (ht : (2 : ℚ) ≤ t) (ht' : t ≤ 5) : fitDemo.euclideanEvalD none t 2 = .ok 0 := by
  obtain ⟨h, ho⟩ := fitDemo_reach.mwf (by omega)
  have he : fitDemo.state = .evaluable := by decide +kernel
  have hlen : fitDemo.keys.length = 8 := by decide +kernel
  rcases evaluable_total h he t with ⟨i, hi⟩ | hc
  · have l1 := hi.lower
    have l2 := hi.upper
    rw [ho] at l1
    rw [ho, hlen] at l2
    have hk : fitDemo.InSeg (fitDemo.kn i) i := ⟨hi.lower, hi.upper, le_refl _, Or.inl (h.strict (by omega) (by omega))⟩
    have e : fitDemo.euclideanEvalD none t 2 = fitDemo.euclideanEvalD none (fitDemo.kn i) 2 := by
      show fitDemo.euclideanEvalD none t ((2 : ℕ) : ℤ) = fitDemo.euclideanEvalD none (fitDemo.kn i) ((2 : ℕ) : ℤ)
      rw [euclideanEvalD_eq h he hi none 2 (by simp), euclideanEvalD_eq h he hk none 2 (by simp),
        ← segSum_local h hi.lower hi.upper, ← segSum_local h hi.lower hi.upper]
      congr 1
      refine sum_congr rfl fun c _ => ?_
      congr 1
      have hd : (derivative^[2] (piece fitDemo.kn i (fitDemo.order - 1) (i + 1 - fitDemo.order + c))).natDegree ≤ 0 := by
        refine (natDegree_iterate_derivative _ 2).trans ?_
        have := piece_natDegree fitDemo.kn i (fitDemo.order - 1) (i + 1 - fitDemo.order + c)
        rw [ho] at this ⊢
        omega
      rw [eq_C_of_natDegree_le_zero hd, eval_C, eval_C]
    rw [e]
    obtain rfl | rfl | rfl : i = 2 ∨ i = 3 ∨ i = 4 := by omega
    all_goals decide +kernel
  · exfalso
    have e1 : fitDemo.kn (fitDemo.order - 1) = 2 := by decide +kernel
    have e2 : fitDemo.kn (fitDemo.keys.length - fitDemo.order) = 5 := by decide +kernel
    rw [e1, e2] at hc
    rcases hc with hc | hc
    · exact absurd hc (not_lt.2 ht)
    · exact absurd hc (not_lt.2 ht')

/-- C38 is violated when some vertices are fixed and there is a regularisation: its terms are added to the equations of the wrong
vertices.  The spline `fitDemo` passes through the only data point and has no second derivative, so its cost is zero.  Fitting it with two
fixed vertices (the single equation being solved exactly) moves it off the point. -/
theorem C38_fixed_regularised_wrong (dense : Bool) :
    let r := fitDemo.fitSpline dense (fun _ A b _ => b 0 / A 0 0) id [7 / 2] [![2]] 1 2 none false
    fitDemo.euclideanEval (7 / 2) = .ok ![2] ∧ (∀ t : ℚ, 2 ≤ t → t ≤ 5 → fitDemo.euclideanEvalD none t 2 = .ok 0) ∧
      r.1 = .ok () ∧ r.2.keys = fitDemo.keys ∧ (r.2.euclideanEval (7 / 2)).map (fun p => p 0) = .ok (114 / 65) := by
  refine ⟨by decide +kernel, fitDemo_straight, ?_⟩
  cases dense <;> decide +kernel


/-! ### Initial fit -/

section build
variable {K : Type*} [Field K] [LinearOrder K] [IsStrictOrderedRing K] {P V : Type*}

theorem addKnots_keys (M : Mfd K P V) : ∀ (ts : List K) (s : MSpline K P), (s.keys ++ ts).Pairwise (· < ·) →
    ∃ s' : MSpline K P, forEach (fun t => total (addKnot M t)) ts s = (.ok (), s') ∧ s'.keys = s.keys ++ ts
  | [], s, _ => ⟨s, rfl, by simp⟩
  | t :: ts, s, h => by
    have hlt : ∀ x ∈ s.keys, x < t := fun x hx => (List.pairwise_append.1 h).2.2 x hx t (by simp)
    have hkey : (s.addKnot M t).keys = s.keys ++ [t] := by unfold keys; rw [keys_addKnot M s t hlt]; simp
    obtain ⟨s', r1, r2⟩ := addKnots_keys M ts (s.addKnot M t) (by rw [hkey]; simpa using h)
    refine ⟨s', ?_, by rw [r2, hkey]; simp⟩
    unfold forEach total
    exact r1

/-- A new spline has the default vertex everywhere. -/
theorem addKnots_default (M : Mfd K P V) : ∀ (ts : List K) (s : MSpline K P), (∀ g ∈ s.segs, g.vertex = M.default) →
    ∀ g ∈ (forEach (fun t => total (addKnot M t)) ts s).2.segs, g.vertex = M.default
  | [], _, h => h
  | t :: ts, s, h => by
    unfold forEach total
    exact addKnots_default M ts (s.addKnot M t) (mapInsert_all (fun g => g.vertex = M.default) _ rfl _ h)

/-- A spline with the given knots. -/
theorem build_ok (M : Mfd K P V) (order : ℕ) (ho : 1 ≤ order) (knots : List K) (hs : knots.Pairwise (· < ·)) (hn : 2 * order ≤ knots.length) :
    ∃ s1 s2 : MSpline K P, (create order).addKnots M knots = (.ok (), s1) ∧ s1.init = (.ok (), s2) ∧ s2.keys = knots ∧
      s2.state = .evaluable ∧ RegularReach M order s2 ∧ ∀ g ∈ s2.segs, g.vertex = M.default := by
  obtain ⟨s1, r1, r2⟩ := addKnots_keys M knots (create order : MSpline K P) (by simpa [create, keys] using hs)
  have hk : s1.keys = knots := by rw [r2]; simp [create, keys]
  have ha : (create order : MSpline K P).addKnots M knots = (.ok (), s1) := by
    unfold addKnots
    rw [assertConstructing_constructing rfl]
    exact r1
  have hr1 : RegularReach M order s1 := by
    have := RegularReach.call (M := M) (order := order) (Call.addKnots knots) .create trivial
    have e : ((Call.addKnots knots).run M (create order : MSpline K P)).2 = s1 := congrArg Prod.snd ha
    rwa [e] at this
  obtain ⟨hw, ho'⟩ := hr1.mwf ho
  have hc : s1.state = .constructing := by
    have := addKnotsLoop_state M knots (create order : MSpline K P)
    rw [r1] at this
    exact this
  obtain ⟨segs', q1, q2, -, q3⟩ := init_ok hw hc (by rw [hk, ho']; exact hn)
  have hdef : ∀ g ∈ s1.segs, g.vertex = M.default := by
    have := addKnots_default M knots (create order : MSpline K P) (by simp [create])
    rwa [r1] at this
  refine ⟨s1, _, ha, q1, by rw [← hk, ← q2]; rfl, rfl, ?_, fun g hg => ?_⟩
  rotate_left
  · obtain ⟨j, hj⟩ := List.mem_iff_getElem?.1 hg
    rw [q3 j, Option.map_eq_some_iff] at hj
    obtain ⟨g0, h0, rfl⟩ := hj
    have := hdef g0 (List.mem_of_getElem? h0)
    split_ifs <;> exact this
  have := RegularReach.call (M := M) (order := order) Call.init hr1 trivial
  have e : (Call.init.run M s1).2 = _ := congrArg Prod.snd q1
  rwa [e] at this

end build

/-- C38: initialising a spline from points.  The knots come from a generator, strictly increasing; a resolver of the generator must
number them; without one a map is built.  The result has these knots and, among all splines with these knots differing in the vertices
relevant for the times, minimal cost.  The other vertices are zero. -/
theorem C38_init_optimal (dense : Bool) (solve : Solver ℝ) (hsolve : SolvesSemidefinite solve) (order : ℕ) (ho : 1 ≤ order) (hD : 1 ≤ D)
    (knots : List ℝ) (hs : knots.Pairwise (· < ·)) (hn : 2 * order ≤ knots.length) (tmin tmax : ℝ) (hmin : knots[order - 1]? = some tmin)
    (hmax : knots[knots.length - order]? = some tmax) (resolver : Option (Resolver ℝ))
    (times : List ℝ) (points : List (Fin D → ℝ)) (t0 tl : ℝ) (hlen : times.length = points.length) (hnum : 2 ≤ points.length)
    (hres : ∀ rs, resolver = some rs → ∃ r : ℤ, ∀ t ∈ times, ∀ j, LastKnot knots t j → rs t = .ok (r + j))
    (ht0 : times.head? = some t0) (htl : times.getLast? = some tl) (hb : ∀ t ∈ times, t0 ≤ t ∧ t ≤ tl) (h0 : tmin ≤ t0) (hl : tl ≤ tmax)
    (lambda : ℝ) (hlam : 0 ≤ lambda) :
    ∃ (s : MSpline ℝ (Fin D → ℝ)) (v : ℕ → Fin D → ℝ) (i0 il : ℕ), s.keys = knots ∧ s.order = order ∧ s.state = .evaluable ∧
      RegularReach (euclidean ℝ (Fin D → ℝ)) order s ∧ s.InSeg t0 i0 ∧ s.InSeg tl il ∧
      fitInit dense solve id (euclidean ℝ (Fin D → ℝ)) knots resolver times points lambda (create order) = (.ok (), s.withVerts v) ∧
      (∀ v' : ℕ → Fin D → ℝ, (∀ j, ¬ (i0 + 1 - order ≤ j ∧ j ≤ il) → v' j = v j) →
        (s.withVerts v).fitterCost (times.zip points) none lambda tmin tmax
          ≤ (s.withVerts v').fitterCost (times.zip points) none lambda tmin tmax) ∧
      ∀ j, ¬ (i0 + 1 - order ≤ j ∧ j ≤ il) → v j = 0 := by
  obtain ⟨s1, s, b1, b2, b3, b4, b5, b6⟩ := build_ok (euclidean ℝ (Fin D → ℝ)) order ho knots hs hn
  obtain ⟨h, rfl⟩ := b5.mwf ho
  subst b3
  have k1 : s.kn (s.order - 1) = tmin := by
    rw [kn_getElem s (by omega), Option.some.injEq] at hmin; exact hmin
  have k2 : s.kn (s.keys.length - s.order) = tmax := by
    rw [kn_getElem s (by omega), Option.some.injEq] at hmax; exact hmax
  have hseg : ∀ t, tmin ≤ t → t ≤ tmax → ∃ i, s.InSeg t i := by
    intro t h1 h2
    rcases evaluable_total h b4 t with hi | hc
    · exact hi
    · exfalso
      rw [k1, k2] at hc
      rcases hc with hc | hc
      · exact absurd hc (not_lt.2 h1)
      · exact absurd hc (not_lt.2 h2)
  have m0 := hb t0 (List.mem_of_mem_head? ht0)
  obtain ⟨i0, s0⟩ := hseg t0 h0 (le_trans m0.2 hl)
  obtain ⟨il, sl⟩ := hseg tl (le_trans h0 m0.2) hl
  have hR : ∃ r : ℤ, ∀ t ∈ times, ∀ j, LastKnot s.keys t j → (resolver.getD (mapResolver (fitMap s.keys))) t = .ok (r + j) := by
    rcases hr : resolver with _ | rs
    · refine ⟨0, fun t _ j hj => ?_⟩
      rw [Option.getD_none, mapResolver_fitMap hs hj, zero_add]
    · obtain ⟨r, hr'⟩ := hres rs hr
      exact ⟨r, fun t ht j hj => by rw [Option.getD_some]; exact hr' t ht j hj⟩
  obtain ⟨r, hr⟩ := hR
  have hin := fit_input h b4 hlen ht0 htl hb s0 sl (resolver.getD (mapResolver (fitMap s.keys))) r fun t i ht h1 _ _ => by
    rw [hr t ht _ (h1.lastKnot h b4)]
    congr 1
    push_cast
    split_ifs <;> ring
  obtain ⟨v, v1, v2, v3⟩ := calcFitted_optimal h b4 hD dense solve hsolve hin none lambda hlam 0 (Or.inl rfl) false (by simp)
  rw [Nat.add_zero, k1, k2] at v3
  rw [Nat.add_zero] at v2
  refine ⟨s, v, i0, il, rfl, rfl, b4, b5, s0, sl, ?_, fun v' hv' => v3 v' fun j hj => (hv' j hj).trans (v2 j hj), fun j hj => ?_⟩
  rotate_left
  · rw [v2 j hj]
    unfold vert verts
    rw [List.getD_eq_getElem?_getD, List.getElem?_map]
    rcases hg : s.segs[j]? with _ | g
    · rfl
    · exact b6 g (List.mem_of_getElem? hg)
  unfold fitInit
  have hc : (create s.order : MSpline ℝ (Fin D → ℝ)).state = .constructing := rfl
  rw [hc]
  dsimp only
  rw [if_neg (by omega), if_neg (by omega), timesBounded_of ht0 htl hb, if_neg (by simp)]
  unfold andThen
  rw [b1]
  dsimp only
  rw [b2]
  exact v1

/-- Not vacuous: order 3, seven knots, two points. -/
example : ∃ (s : MSpline ℝ (Fin 1 → ℝ)) (v : ℕ → Fin 1 → ℝ) (i0 il : ℕ), s.keys = [0, 1, 2, 3, 4, 5, 6] ∧ s.order = 3 ∧ s.state = .evaluable ∧
      RegularReach (euclidean ℝ (Fin 1 → ℝ)) 3 s ∧ s.InSeg 2 i0 ∧ s.InSeg 4 il ∧
      fitInit true choiceSolver id (euclidean ℝ (Fin 1 → ℝ)) [0, 1, 2, 3, 4, 5, 6] none [2, 4] [![1], ![5]] 1 (create 3)
        = (.ok (), s.withVerts v) ∧
      (∀ v' : ℕ → Fin 1 → ℝ, (∀ j, ¬ (i0 + 1 - 3 ≤ j ∧ j ≤ il) → v' j = v j) →
        (s.withVerts v).fitterCost ([2, 4].zip [![1], ![5]]) none 1 2 4 ≤ (s.withVerts v').fitterCost ([2, 4].zip [![1], ![5]]) none 1 2 4) ∧
      ∀ j, ¬ (i0 + 1 - 3 ≤ j ∧ j ≤ il) → v j = 0 :=
  C38_init_optimal true choiceSolver choiceSolver_semidefinite 3 (by omega) (by omega) [0, 1, 2, 3, 4, 5, 6]
    (by simp only [List.pairwise_cons, List.mem_cons, List.not_mem_nil]; norm_num) (by simp) 2 4 (by simp) (by simp) none [2, 4] [![1], ![5]] 2 4 rfl (by simp)
    (by simp) rfl rfl (by simp; norm_num) le_rfl le_rfl 1 (by norm_num)

/-- Not vacuous: such a spline fitted again to three points, with one fixed vertex and without regularisation. -/
example : ∃ s : MSpline ℝ (Fin 1 → ℝ), RegularReach (euclidean ℝ (Fin 1 → ℝ)) 3 s ∧ s.state = .evaluable ∧
    ∃ v, s.fitSpline false choiceSolver id [2, 5 / 2, 3] [![1], ![2], ![5]] 0 1 none true = (.ok (), s.withVerts v) ∧ v 0 = s.vert 0 := by
  obtain ⟨s1, s, b1, b2, b3, b4, b5, -⟩ := build_ok (euclidean ℝ (Fin 1 → ℝ)) 3 (by omega) ([0, 1, 2, 3, 4, 5, 6] : List ℝ)
    (by simp only [List.pairwise_cons, List.mem_cons, List.not_mem_nil]; norm_num) (by simp)
  obtain ⟨h, ho⟩ := b5.mwf (by omega)
  have hk : ∀ j : ℕ, s.kn j = ([0, 1, 2, 3, 4, 5, 6] : List ℝ).getD j 0 := fun j => by unfold kn; rw [b3]
  have h0 : s.InSeg 2 2 := ⟨by omega, by rw [b3, ho]; simp, by rw [hk]; simp, Or.inl (by rw [hk]; simp; norm_num)⟩
  have hl : s.InSeg 3 3 := ⟨by omega, by rw [b3, ho]; simp, by rw [hk]; simp, Or.inl (by rw [hk]; simp; norm_num)⟩
  obtain ⟨v, v1, v2, -⟩ := C38_optimal_partial false choiceSolver choiceSolver_semidefinite 3 (by omega) (by omega) s b5 b4 _ _
    (getMinTime_eq h b4) (getMaxTime_eq h b4) [2, 5 / 2, 3] [![1], ![2], ![5]] 2 3 rfl rfl rfl (by simp; norm_num) 2 3 h0 hl none 0 le_rfl 1
    (Or.inr rfl) true (fun _ => rfl)
  exact ⟨s, b5, b4, v, v1, v2 0 (by omega)⟩

end Verif.MSpline
