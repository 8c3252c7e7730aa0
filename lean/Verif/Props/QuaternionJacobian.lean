import Verif.Lemmas.QuaternionJacobian
import Mathlib.Analysis.SpecialFunctions.Trigonometric.InverseDeriv
import Mathlib.Analysis.SpecialFunctions.Sqrt

/-!
# C61, C62: Jacobians of quaternion splines with respect to the control vertices
-/

set_option linter.unusedSectionVars false

namespace Verif.MSpline

open Finset Polynomial Quaternion

theorem update_unit (lg : ℍ[ℝ] → V3) {q : ℍ[ℝ]} (hq : ‖q‖ = 1) (v : V3) : (quatGroup lg).update q v = q * axisAngle2quat v := by
  show (‖qplus (axisAngle2quat v) q‖)⁻¹ • qplus (axisAngle2quat v) q = _
  rw [qplus_eq, norm_mul, hq, norm_axisAngle2quat, _root_.mul_one, inv_one, one_smul]

theorem hasDerivAt_update (lg : ℍ[ℝ] → V3) {q : ℍ[ℝ]} (hq : ‖q‖ = 1) (v : V3) :
    HasDerivAt (fun x : ℝ => (quatGroup lg).update q (x • v)) (q * quatV v) 0 := by
  simp only [update_unit lg hq, axisAngle2quat_eq, quatV_smul]
  have := (hasDerivAt_exp_smul_const (𝕂 := ℝ) (quatV v) (0 : ℝ)).const_mul q
  rw [zero_smul, NormedSpace.exp_zero, _root_.one_mul] at this
  exact this

theorem update_zero (lg : ℍ[ℝ] → V3) {q : ℍ[ℝ]} (hq : ‖q‖ = 1) : (quatGroup lg).update q 0 = q := by
  rw [update_unit lg hq, axisAngle2quat_eq]
  have : quatV (0 : V3) = 0 := by ext <;> simp
  rw [this, NormedSpace.exp_zero, _root_.mul_one]

/-- What an evaluator of a well formed spline is. -/
theorem evaluatorAt_inv {s : MSpline ℝ ℍ[ℝ]} (h : s.MWF) {t : ℝ} {e : Evaluator ℝ} (he : s.evaluatorAt t = .ok e) :
    s.state = .evaluable ∧ ∃ i, s.InSeg t i ∧ e = s.evaluatorOf t i := by
  rcases hst : s.state with _ | _
  · rw [evaluatorAt_throws h t (Or.inl hst)] at he; cases he
  · rcases evaluable_total h hst t with ⟨i, hi⟩ | ht
    · rw [evaluatorAt_eq h hst hi, Outcome.ok.injEq] at he
      exact ⟨rfl, i, hi, he.symm⟩
    · rw [evaluatorAt_throws h t (Or.inr ht)] at he; cases he

theorem keys_inj {s : MSpline ℝ ℍ[ℝ]} (h : s.MWF) {a b : ℕ} (ha : a < s.keys.length) (hab : s.keys[a]? = s.keys[b]?) : a = b :=
  (List.getElem?_inj ha h.nodup).1 hab

theorem segVerts_getElem {s : MSpline ℝ ℍ[ℝ]} {a n : ℕ} {c : ℍ[ℝ]} {cs : List ℍ[ℝ]} (hv : (s.verts.drop a).take n = c :: cs) (j : ℕ)
    (hj : j < (c :: cs).length) : s.verts[a + j]? = some (c :: cs)[j] := by
  have hn : j < n := by
    have := congrArg List.length hv
    rw [List.length_take] at this
    omega
  have : ((s.verts.drop a).take n)[j]? = some (c :: cs)[j] := by rw [hv]; exact List.getElem?_eq_getElem hj
  rw [List.getElem?_take_of_lt hn, List.getElem?_drop] at this
  exact this

/-- The blocks of the program on a segment. -/
theorem quatEvalJacobian_eq (lg : ℍ[ℝ] → V3) (S L : V3 → M33) {s : MSpline ℝ ℍ[ℝ]} (h : s.MWF) (he : s.state = .evaluable) {t : ℝ} {i : ℕ}
    (hi : s.InSeg t i) {c : ℍ[ℝ]} {cs : List ℍ[ℝ]} (hv : (s.verts.drop (i + 1 - s.order)).take s.order = c :: cs) (p : ℕ → ℍ[ℝ])
    (hp : ∀ j (hj : j < (c :: cs).length), (c :: cs)[j] = p j) (d : ℕ) (hd : d = 0 ∨ 2 ≤ s.order ∧ d ≤ 2) :
    ∃ (J : List DMat) (M : ℕ → ℕ → DMat), s.quatEvalJacobian lg S L t d = .ok J ∧ J.length = s.order ∧
      (∀ m, m + 1 < s.order → ∀ d, d ≤ 2 → ∀ v, DMat.app (M m d) v =
        rJ S (fun n => (derivative^[n] (s.betaPoly i (m + 1))).eval t) (lg (p (m + 1) * star (p m)))
          ((segPJ lg L p m).mulVec v) d) ∧
      ∀ (j : ℕ) (hj : j < J.length) (v : V3), DMat.app J[j] v = blockJ (s.segR lg i p t) M (p 0) d j v := by
  have hl := segVerts_length hi hv
  set C : QCache := ⟨phiList lg c cs, (s.segFactors lg i c cs).map fun f => f 0 t, c :: cs⟩ with hC
  set M : ℕ → ℕ → DMat := fun m d => (s.riDJacobian S L (s.evaluatorOf t i) C d (m + 1)).getD 0 with hM
  have hMo : ∀ m, m < cs.length → ∀ d, d ≤ 2 → s.riDJacobian S L (s.evaluatorOf t i) C d (m + 1) = .ok (M m d) ∧
      ∀ v, DMat.app (M m d) v = rJ S (fun n => (derivative^[n] (s.betaPoly i (m + 1))).eval t) (lg (p (m + 1) * star (p m)))
          ((segPJ lg L p m).mulVec v) d := by
    intro m hm d hd
    obtain ⟨N, hN, hNu⟩ := riDJacobian_eq lg S L h he hi hv p hp m hm d hd
    have : M m d = N := by rw [hM]; simp only []; rw [hN]; rfl
    rw [this]
    exact ⟨hN, hNu⟩
  have hfac := segFactors_eq lg s i c cs p t (by omega) hp
  have hRl : (s.segR lg i p t).length = s.order - 1 := by simp [segR]
  have hslen : (s.segFactors lg i c cs).length = cs.length := by unfold segFactors; rw [factorsFrom_length, phiList_length]
  have hRe : ∀ (j : ℕ) (hj : j < (s.segR lg i p t).length) (der : ℕ),
      (s.segR lg i p t)[j] der = ((s.segFactors lg i c cs)[j]'(by omega)) der t := by
    intro j hj der
    have : (s.segR lg i p t)[j]? = ((s.segFactors lg i c cs).map fun f e => f e t)[j]? := by rw [hfac]
    rw [List.getElem?_eq_getElem hj, List.getElem?_map, List.getElem?_eq_getElem (by omega : j < (s.segFactors lg i c cs).length),
      Option.map_some, Option.some.injEq] at this
    rw [this]
  have hR : ∀ (j : ℕ) (hj : j < (s.segR lg i p t).length) (der : ℕ), der ≤ 3 →
      s.evalRiD (s.evaluatorOf t i) C der (j + 1) = .ok ((s.segR lg i p t)[j] der) := by
    intro j hj der hder
    rw [hRe]
    exact evalRiD_eq lg h he hi hv j (by omega) der hder
  have hv0 : C.getVertex 0 = .ok (p 0) := by
    have := hp 0 (by simp)
    rw [← this]
    rfl
  have hRi : ∀ (j : ℕ) (hj : j < (s.segR lg i p t).length), C.getRi (j + 1) = .ok ((s.segR lg i p t)[j] 0) := by
    intro j hj
    rw [hRe]
    simp only [QCache.getRi, hC]
    rw [List.getElem?_map, List.getElem?_eq_getElem (by omega : j < (s.segFactors lg i c cs).length)]
    rfl
  unfold quatEvalJacobian
  rw [evaluatorAt_eq h he hi, Outcome.bind_ok]
  rcases Nat.eq_zero_or_pos d with rfl | hpos
  · rw [if_pos Nat.cast_zero]
    unfold evalJacobianValue
    rw [qcache_eq lg h he hi hv, Outcome.bind_ok]
    obtain ⟨J, hJ, hJl, hJu⟩ := jacobianLoop_eq S L s (s.evaluatorOf t i) C (s.segR lg i p t) M (by omega) hRi
      (fun j hj => (hMo j (by omega) 0 (by omega)).1) (p 0) hv0 s.order 0 (id, 0) (by omega) (fun h => absurd h (by omega))
    exact ⟨J, M, hJ, hJl, fun m hm d hd => (hMo m (by omega) d hd).2, fun j hj v => by rw [hJu, Nat.zero_add]⟩
  · obtain ⟨ho, hd2⟩ : 2 ≤ s.order ∧ d ≤ 2 := by rcases hd with h | h <;> omega
    rw [if_neg (by exact_mod_cast hpos.ne')]
    unfold evalJacobianDRecursive
    rw [if_neg (by omega), qcache_eq lg h he hi hv, Outcome.bind_ok, if_neg (by omega), Int.toNat_natCast]
    obtain ⟨J, hJ, hJl, hJu⟩ := jacobianDLoop_eq S L s (s.evaluatorOf t i) C (s.segR lg i p t) M hRl ho hR
      (fun j hj => fun d hd => (hMo j (by omega) d hd).1) (p 0) hv0 d hd2 s.order 0
    exact ⟨J, M, hJ, hJl, fun m hm d hd => (hMo m (by omega) d hd).2, fun j hj v => by rw [hJu, Nat.zero_add]⟩

/-- The core of C61 and C62. -/
theorem jacobian_core (lg : ℍ[ℝ] → V3) (S L : V3 → M33) (hS : ExpDiff S) {s : MSpline ℝ ℍ[ℝ]} (h : s.MWF) (he : s.state = .evaluable)
    {t : ℝ} {i : ℕ} (hi : s.InSeg t i)
    (hunit : ∀ j, j < s.order → ∀ q, s.verts[i + 1 - s.order + j]? = some q → ‖q‖ = 1)
    (hL : ∀ j, j + 1 < s.order → ∀ a b, s.verts[i + 1 - s.order + j]? = some a → s.verts[i + 1 - s.order + (j + 1)]? = some b →
      LogDiffAt lg L (qplus (quatInv a) b)) (d : ℕ) (hd : d = 0 ∨ 2 ≤ s.order ∧ d ≤ 2) :
    ∃ J, s.quatEvalJacobian lg S L t d = .ok J ∧ J.length = s.order ∧
      ∀ u : ℕ → V3, ∃ f : ℝ → ℍ[ℝ], (∀ x, (s.moved fun m p => (quatGroup lg).update p (x • u m)).quatEvalD lg t d = .ok (f x)) ∧
        s.quatEvalD lg t d = .ok (f 0) ∧
        HasDerivAt f (∑ j ∈ range s.order, DMat.app (J.getD j 0) (u (i + 1 - s.order + j))) 0 ∧ (d = 0 → ∀ x, ‖f x‖ = 1) := by
  obtain ⟨c, cs, hv⟩ := segVerts_exists h hi
  have hl := segVerts_length hi hv
  have hge := segVerts_getElem hv
  set q : ℕ → ℍ[ℝ] := fun j => (c :: cs).getD j 0 with hq
  have hqe : ∀ j (hj : j < (c :: cs).length), (c :: cs)[j] = q j := by
    intro j hj
    rw [hq]
    simp only []
    rw [List.getD_eq_getElem?_getD, List.getElem?_eq_getElem hj, Option.getD_some]
  have hqu : ∀ j, j < s.order → ‖q j‖ = 1 := by
    intro j hj
    have hj' : j < (c :: cs).length := by simp; omega
    rw [← hqe j hj']
    exact hunit j hj _ (hge j hj')
  obtain ⟨J, M, hJ, hJl, hM, hJu⟩ := quatEvalJacobian_eq lg S L h he hi hv q hqe d hd
  refine ⟨J, hJ, hJl, fun u => ?_⟩
  set p : ℕ → ℝ → ℍ[ℝ] := fun j x => (quatGroup lg).update (q j) (x • u (i + 1 - s.order + j)) with hp
  have hp0 : ∀ j, j < s.order → p j 0 = q j := by
    intro j hj
    rw [hp]
    simp only [zero_smul]
    exact update_zero lg (hqu j hj)
  have hpn : ∀ j, j < s.order → ∀ y, ‖p j y‖ = 1 := by
    intro j hj y
    rw [hp]
    simp only []
    rw [update_unit lg (hqu j hj), norm_mul, hqu j hj, norm_axisAngle2quat, _root_.mul_one]
  have hval : ∀ x, (s.moved fun m p => (quatGroup lg).update p (x • u m)).quatEvalD lg t d =
      .ok (dProd (s.segR lg i (fun j => p j x) t) d * p 0 x) := by
    intro x
    set s' := s.moved fun m p => (quatGroup lg).update p (x • u m) with hs'
    have hw' : s'.MWF := moved_mwf h _
    have hi' : s'.InSeg t i := moved_inSeg hi _
    obtain ⟨c', cs', hv'⟩ := segVerts_exists hw' hi'
    have hl' := segVerts_length hi' hv'
    have hord : s'.order = s.order := rfl
    have hpe : ∀ j (hj : j < (c' :: cs').length), (c' :: cs')[j] = p j x := by
      intro j hj
      have h1 := segVerts_getElem hv' j hj
      rw [hs', moved_verts] at h1
      have hj' : j < (c :: cs).length := by simp at hj ⊢; omega
      have h2 := hge j hj'
      have hord2 : (s.moved fun m p => (quatGroup lg).update p (x • u m)).order = s.order := rfl
      rw [hord2, h2, Option.map_some, Option.some.injEq, hqe j hj'] at h1
      exact h1.symm
    have e1 := quatEvalD_segQ lg hw' he hi' hv' d (by rcases hd with rfl | ⟨h1, h2⟩; · left; omega
                                                      · right; exact ⟨h1, by omega⟩)
    rw [e1]
    unfold segQ
    rw [segFactors_eq lg s' i c' cs' (fun j => p j x) t (by omega) hpe]
    have e2 : s'.segR lg i (fun j => p j x) t = s.segR lg i (fun j => p j x) t := by
      unfold segR
      simp only [hs', moved_betaPoly]
      rfl
    rw [e2, ← hpe 0 (by simp)]
    rfl
  have hseg0 : s.segR lg i (fun j => p j 0) t = s.segR lg i q t := by
    unfold segR
    refine List.map_congr_left fun m hm => ?_
    rw [List.mem_range] at hm
    beta_reduce
    rw [hp0 m (by omega), hp0 (m + 1) (by omega)]
  have ho := h.order_pos
  refine ⟨fun x => dProd (s.segR lg i (fun j => p j x) t) d * p 0 x, hval, ?_, ?_, ?_⟩
  · have e1 := quatEvalD_segQ lg h he hi hv d (by rcases hd with rfl | ⟨h1, h2⟩; · left; omega
                                                  · right; exact ⟨h1, by omega⟩)
    rw [e1]
    unfold segQ
    rw [segFactors_eq lg s i c cs q t (by omega) hqe]
    simp only []
    rw [hseg0, hp0 0 (by omega), ← hqe 0 (by simp)]
    rfl
  · have hlog : ∀ m, m + 1 < s.order → LogDiffAt lg L (p (m + 1) 0 * star (p m 0)) := by
      intro m hm
      rw [hp0 (m + 1) hm, hp0 m (by omega)]
      have h1 := hL m hm (q m) (q (m + 1)) (by rw [← hqe m (by simp; omega)]; exact hge m _)
        (by rw [← hqe (m + 1) (by simp; omega)]; exact hge (m + 1) _)
      rwa [qplus_eq, quatInv_eq] at h1
    have key := hasDerivAt_segR hS s i t p (fun j => u (i + 1 - s.order + j)) 0 (fun j hj => ⟨hpn j hj, by
      rw [hp0 j hj]; exact hasDerivAt_update lg (hqu j hj) _⟩) hlog M (by
      intro m hm d hd v
      rw [hM m hm d hd v, hp0 m (by omega), hp0 (m + 1) hm]
      unfold segPJ
      beta_reduce
      rw [hp0 m (by omega), hp0 (m + 1) hm]) ho d (by rcases hd with rfl | ⟨-, h2⟩ <;> omega)
    refine key.congr_deriv (sum_congr rfl fun j hj => ?_)
    have hj' : j < J.length := by rw [hJl]; exact mem_range.1 hj
    rw [List.getD_eq_getElem?_getD, List.getElem?_eq_getElem hj', Option.getD_some, hJu j hj', hseg0, hp0 0 (by omega)]
  · rintro rfl x
    have key : ∀ (ps : List (ℕ → ℍ[ℝ])), (∀ f ∈ ps, ‖f 0‖ = 1) → ‖dProd ps 0‖ = 1 := by
      intro ps
      induction ps with
      | nil => intro _; simp [dProd]
      | cons f fs ih =>
        intro hf
        rw [dProd_zero, norm_mul, ih (fun g hg => hf g (by simp [hg])), hf f (by simp), _root_.mul_one]
    simp only []
    rw [norm_mul, hpn 0 (by omega) x, _root_.mul_one]
    refine key _ fun f hf => ?_
    unfold segR at hf
    rw [List.mem_map] at hf
    obtain ⟨m, -, rfl⟩ := hf
    exact norm_rD_zero _ _

/-- C61: the blocks of the Jacobian of the value (any order) or of the first or second derivative (order two or more) at time `t`, applied
to the tangent vectors `u` by which the relevant control vertices are updated, give the derivative of the queried quantity; no
other control vertex matters.  `first` is the position of the first relevant control vertex of the evaluator.  (What is missing:
derivatives for order one, see `C61_order_one_undefined`.) -/
theorem C61_jacobian_partial (lg : ℍ[ℝ] → V3) (S L : V3 → M33) (hS : ExpDiff S) (order : ℕ) (ho : 1 ≤ order) (s : MSpline ℝ ℍ[ℝ])
    (h : RegularReach (quatGroup lg).toMfd order s) (t : ℝ) (e : Evaluator ℝ) (he : s.evaluatorAt t = .ok e) (first : ℕ)
    (hf : first < s.keys.length) (hfirst : e.firstIt = s.keys[first]?)
    (hunit : ∀ j, j < order → ∀ q, s.verts[first + j]? = some q → ‖q‖ = 1)
    (hL : ∀ j, j + 1 < order → ∀ a b, s.verts[first + j]? = some a → s.verts[first + (j + 1)]? = some b →
      LogDiffAt lg L (qplus (quatInv a) b)) (d : ℕ) (hd : d = 0 ∨ 2 ≤ order ∧ d ≤ 2) :
    ∃ J, s.quatEvalJacobian lg S L t d = .ok J ∧ J.length = order ∧
      ∀ u : ℕ → V3, ∃ f : ℝ → ℍ[ℝ], (∀ x, (s.moved fun m p => (quatGroup lg).update p (x • u m)).quatEvalD lg t d = .ok (f x)) ∧
        s.quatEvalD lg t d = .ok (f 0) ∧
        HasDerivAt f (∑ j ∈ range order, DMat.app (J.getD j 0) (u (first + j))) 0 := by
  obtain ⟨hw, rfl⟩ := h.mwf ho
  obtain ⟨hst, i, hi, rfl⟩ := evaluatorAt_inv hw he
  have hfi : first = i + 1 - s.order := keys_inj hw hf hfirst.symm
  subst hfi
  obtain ⟨J, h1, h2, h3⟩ := jacobian_core lg S L hS hw hst hi hunit hL d hd
  refine ⟨J, h1, h2, fun u => ?_⟩
  obtain ⟨f, g1, g2, g3, -⟩ := h3 u
  exact ⟨f, g1, g2, g3⟩

/-- C61: with distinct single control vertices: a control vertex that is not relevant has no influence, the `j`-th relevant one has the
`j`-th block as its derivative. -/
theorem C61_single_vertex_partial (lg : ℍ[ℝ] → V3) (S L : V3 → M33) (hS : ExpDiff S) (order : ℕ) (ho : 1 ≤ order) (s : MSpline ℝ ℍ[ℝ])
    (h : RegularReach (quatGroup lg).toMfd order s) (t : ℝ) (e : Evaluator ℝ) (he : s.evaluatorAt t = .ok e) (first : ℕ)
    (hf : first < s.keys.length) (hfirst : e.firstIt = s.keys[first]?)
    (hunit : ∀ j, j < order → ∀ q, s.verts[first + j]? = some q → ‖q‖ = 1)
    (hL : ∀ j, j + 1 < order → ∀ a b, s.verts[first + j]? = some a → s.verts[first + (j + 1)]? = some b →
      LogDiffAt lg L (qplus (quatInv a) b)) (d : ℕ) (hd : d = 0 ∨ 2 ≤ order ∧ d ≤ 2) (k : ℕ) (v : V3) :
    ∃ J, s.quatEvalJacobian lg S L t d = .ok J ∧
      HasDerivAt (fun x : ℝ => ((s.moved fun m p => (quatGroup lg).update p (x • (if m = k then v else 0))).quatEvalD lg t d).getD 0)
        (if first ≤ k ∧ k < first + order then DMat.app (J.getD (k - first) 0) v else 0) 0 := by
  obtain ⟨J, h1, h2, h3⟩ := C61_jacobian_partial lg S L hS order ho s h t e he first hf hfirst hunit hL d hd
  refine ⟨J, h1, ?_⟩
  obtain ⟨f, g1, -, g3⟩ := h3 fun m => if m = k then v else 0
  have hfun : (fun x : ℝ => ((s.moved fun m p => (quatGroup lg).update p (x • (if m = k then v else 0))).quatEvalD lg t d).getD 0) = f := by
    funext x
    rw [g1 x]
    rfl
  rw [hfun]
  refine g3.congr_deriv ?_
  have hz : ∀ M : DMat, DMat.app M 0 = 0 := fun M => by simp [DMat.app]
  split
  · rename_i hk
    rw [sum_eq_single_of_mem (k - first) (mem_range.2 (by omega)), if_pos (by omega)]
    intro j hj hne
    rw [if_neg (by omega), hz]
  · rename_i hk
    refine sum_eq_zero fun j hj => ?_
    rw [mem_range] at hj
    rw [if_neg (by omega), hz]

/-- C61 is violated for order one: the derivatives of the curve are zero there, but their Jacobians have no defined result. -/
theorem C61_order_one_undefined (lg : ℍ[ℝ] → V3) (S L : V3 → M33) (s : MSpline ℝ ℍ[ℝ]) (h : RegularReach (quatGroup lg).toMfd 1 s) (t : ℝ)
    (e : Evaluator ℝ) (he : s.evaluatorAt t = .ok e) (d : ℤ) (hd : 1 ≤ d) :
    s.quatEvalD lg t 1 = .ok 0 ∧ s.quatEvalJacobian lg S L t d = .ub := by
  obtain ⟨hw, ho⟩ := h.mwf le_rfl
  obtain ⟨hst, i, hi, rfl⟩ := evaluatorAt_inv hw he
  obtain ⟨c, cs, hv⟩ := segVerts_exists hw hi
  obtain ⟨r1, r2⟩ := hi.range hw
  refine ⟨(C29_order_one_undefined lg s h hst _ _ (getMinTime_eq hw hst) (getMaxTime_eq hw hst) t r1 r2).1, ?_⟩
  unfold quatEvalJacobian
  rw [he, Outcome.bind_ok, if_neg (by omega)]
  unfold evalJacobianDRecursive
  rw [if_neg (by omega), qcache_eq lg hw hst hi hv, Outcome.bind_ok, if_pos (by omega)]

theorem riDJacobian_throws (S L : V3 → M33) (s : MSpline ℝ ℍ[ℝ]) (e : Evaluator ℝ) (c : QCache) (k d : ℕ) (N : DMat)
    (h : s.riDJacobian S L e c 0 k = .ok N) : s.riDJacobian S L e c (d + 3) k = .throws := by
  unfold riDJacobian at h ⊢
  obtain ⟨r, h1, h⟩ := Outcome.bind_eq_ok.1 h
  obtain ⟨phi, h2, h⟩ := Outcome.bind_eq_ok.1 h
  obtain ⟨pj, h3, h⟩ := Outcome.bind_eq_ok.1 h
  obtain ⟨w, h4, -⟩ := Outcome.bind_eq_ok.1 h
  rw [h1, h2, h3, h4]
  rfl

theorem foldl_ok (X : ℕ → DMat → Outcome DMat) (start : DMat) : ∀ n, (∀ d, d < n → ∀ a, ∃ a', X d a = .ok a') →
    ∃ a', (List.range n).foldl (fun (acc : Outcome DMat) (d : ℕ) => acc.bind fun a => X d a) (.ok start) = .ok a'
  | 0, _ => ⟨start, rfl⟩
  | n + 1, h => by
    obtain ⟨a, ha⟩ := foldl_ok X start n (fun d hd => h d (by omega))
    obtain ⟨a', ha'⟩ := h n (by omega) a
    exact ⟨a', by rw [List.range_succ, List.foldl_append, ha]; exact ha'⟩

theorem jacobianRest_skip (S L : V3 → M33) (s : MSpline ℝ ℍ[ℝ]) (e : Evaluator ℝ) (c : QCache)
    (hR : ∀ j, 1 ≤ j → j < s.order → ∀ der, der ≤ 3 → ∃ r, s.evalRiD e c der j = .ok r) :
    ∀ (rem : ℕ), rem + 2 < s.order → ∀ der F, der ≤ 3 → ∃ N, s.jacobianRest S L e c 0 rem der F = .ok N
  | 0, h, der, F, _ => by
    unfold jacobianRest
    have hz : isJacobianZero (s.order - 1) 0 := ⟨by omega, by omega⟩
    rw [if_neg (not_not.2 hz)]
    exact ⟨0, rfl⟩
  | rem + 1, h, der, F, hd => by
    have hz : isJacobianZero (s.order - 1 - (rem + 1)) 0 := ⟨by omega, by omega⟩
    have IH := jacobianRest_skip S L s e c hR rem (by omega)
    unfold jacobianRest
    obtain ⟨r0, hr0⟩ := hR (s.order - 1 - (rem + 1)) (by omega) (by omega) 0 (by omega)
    obtain ⟨p0, hp0⟩ := IH der F hd
    simp only [hr0, hp0, Outcome.bind_ok]
    rw [if_neg (not_not.2 hz), Outcome.bind_ok]
    refine foldl_ok _ _ der fun d hdd a => ?_
    rw [if_neg (not_not.2 hz), Outcome.bind_ok]
    obtain ⟨r, hr⟩ := hR (s.order - 1 - (rem + 1)) (by omega) (by omega) (d + 1) (by omega)
    obtain ⟨p, hp⟩ := IH (der - (d + 1)) (F / (d + 1).factorial) (by omega)
    rw [hr, Outcome.bind_ok, hp, Outcome.bind_ok]
    exact ⟨_, rfl⟩

theorem jacobianRest_three (S L : V3 → M33) (s : MSpline ℝ ℍ[ℝ]) (e : Evaluator ℝ) (c : QCache) (ho : 2 ≤ s.order)
    (hR : ∀ j, 1 ≤ j → j < s.order → ∀ der, der ≤ 3 → ∃ r, s.evalRiD e c der j = .ok r)
    (hP : ∀ rem der F, rem < s.order - 1 → der ≤ 3 → der.factorial ∣ F → ∃ q, s.productRest e c rem der F = .ok q)
    (hM : ∀ d, d ≤ 2 → ∃ N, s.riDJacobian S L e c d 1 = .ok N) :
    s.jacobianRest S L e c 0 (s.order - 1 - 1) 3 6 = .throws := by
  have hz : ¬ isJacobianZero 1 0 := fun h => h.2 rfl
  have h3 : s.riDJacobianOf S L e c 3 1 0 = .throws := by
    obtain ⟨N, hN⟩ := hM 0 (by omega)
    unfold riDJacobianOf
    rw [if_neg hz, riDJacobian_throws S L s e c 1 0 N hN]
    rfl
  have h2 : ∀ d, d ≤ 2 → ∃ N, s.riDJacobianOf S L e c d 1 0 = .ok N := by
    intro d hd
    obtain ⟨N, hN⟩ := hM d hd
    unfold riDJacobianOf
    rw [if_neg hz, hN]
    exact ⟨_, rfl⟩
  rcases Nat.lt_or_ge 2 s.order with h | h
  · obtain ⟨rem, hrem⟩ : ∃ rem, s.order - 1 - 1 = rem + 1 := ⟨s.order - 1 - 1 - 1, by omega⟩
    rw [hrem]
    unfold jacobianRest
    have e1 : s.order - 1 - (rem + 1) = 1 := by omega
    rw [e1]
    obtain ⟨r0, hr0⟩ := hR 1 le_rfl (by omega) 0 (by omega)
    obtain ⟨p0, hp0⟩ := jacobianRest_skip S L s e c hR rem (by omega) 3 6 le_rfl
    obtain ⟨q0, hq0⟩ := hP rem 3 6 (by omega) le_rfl (by decide)
    obtain ⟨M0, hM0⟩ := h2 0 (by omega)
    simp only [hr0, hp0, hq0, hM0, Outcome.bind_ok]
    rw [if_pos hz, Outcome.bind_ok]
    rw [show List.range 3 = List.range 2 ++ [2] from rfl, List.foldl_append]
    obtain ⟨a, ha⟩ := foldl_ok (fun d a =>
      (if ¬ isJacobianZero 1 0 then
        (s.productRest e c rem (3 - (d + 1)) (6 / (d + 1).factorial)).bind fun q =>
        (s.riDJacobianOf S L e c (d + 1) 1 0).bind fun M => .ok (a + mapCols (quatOPlus q) M)
      else .ok a).bind fun a' =>
      (s.evalRiD e c (d + 1) 1).bind fun r =>
      (s.jacobianRest S L e c 0 rem (3 - (d + 1)) (6 / (d + 1).factorial)).bind fun p =>
        .ok (a' + mapCols (quatPlus r) p)) (mapCols (quatPlus r0) p0 + mapCols (quatOPlus q0) M0) 2 (by
      intro d hd a
      have hdiv : (3 - (d + 1)).factorial ∣ 6 / (d + 1).factorial := by
        interval_cases d <;> decide
      obtain ⟨q, hq⟩ := hP rem (3 - (d + 1)) (6 / (d + 1).factorial) (by omega) (by omega) hdiv
      obtain ⟨M, hM⟩ := h2 (d + 1) (by omega)
      obtain ⟨r, hr⟩ := hR 1 le_rfl (by omega) (d + 1) (by omega)
      obtain ⟨p, hp⟩ := jacobianRest_skip S L s e c hR rem (by omega) (3 - (d + 1)) (6 / (d + 1).factorial) (by omega)
      simp only [hq, hM, hr, hp, Outcome.bind_ok]
      rw [if_pos hz, Outcome.bind_ok]
      exact ⟨_, rfl⟩)
    rw [ha]
    simp only [List.foldl_cons, List.foldl_nil, Outcome.bind_ok]
    obtain ⟨q, hq⟩ := hP rem (3 - (2 + 1)) (6 / (2 + 1).factorial) (by omega) (by omega) (by decide)
    rw [if_pos hz, hq, Outcome.bind_ok, h3]
    rfl
  · have e1 : s.order - 1 = 1 := by omega
    rw [e1, Nat.sub_self]
    unfold jacobianRest
    rw [e1, if_pos hz, h3]
    rfl

/-- C61: Jacobians of derivatives above the second and of negative order are rejected with an exception. -/
theorem C61_unsupported_rejected (lg : ℍ[ℝ] → V3) (S L : V3 → M33) (order : ℕ) (ho : 2 ≤ order) (s : MSpline ℝ ℍ[ℝ])
    (h : RegularReach (quatGroup lg).toMfd order s) (t : ℝ) (der : ℤ) (hd : der < 0 ∨ 3 ≤ der) :
    s.quatEvalJacobian lg S L t der = .throws := by
  obtain ⟨hw, rfl⟩ := h.mwf (by omega)
  unfold quatEvalJacobian
  rcases hst : s.state with _ | _
  · rw [evaluatorAt_throws hw t (Or.inl hst)]; rfl
  rcases evaluable_total hw hst t with ⟨i, hi⟩ | ht
  swap
  · rw [evaluatorAt_throws hw t (Or.inr ht)]; rfl
  obtain ⟨c, cs, hv⟩ := segVerts_exists hw hi
  have hl := segVerts_length hi hv
  rw [evaluatorAt_eq hw hst hi, Outcome.bind_ok, if_neg (by omega)]
  unfold evalJacobianDRecursive
  rcases hd with hd | hd
  · rw [if_pos hd]
  rw [if_neg (by omega), qcache_eq lg hw hst hi hv, Outcome.bind_ok, if_neg (by omega)]
  obtain ⟨n, hn⟩ : ∃ n, s.order = n + 1 := ⟨s.order - 1, by omega⟩
  set C : QCache := ⟨phiList lg c cs, (s.segFactors lg i c cs).map fun f => f 0 t, c :: cs⟩ with hC
  have hR : ∀ j, 1 ≤ j → j < s.order → ∀ der, der ≤ 3 → ∃ r, s.evalRiD (s.evaluatorOf t i) C der j = .ok r := by
    intro j h1 h2 der hder
    obtain ⟨m, rfl⟩ : ∃ m, j = m + 1 := ⟨j - 1, by omega⟩
    exact ⟨_, evalRiD_eq lg hw hst hi hv m (by omega) der hder⟩
  have hexp : s.jacobianDLoop S L (s.evaluatorOf t i) C der.toNat s.order 0 =
      s.jacobianDLoop S L (s.evaluatorOf t i) C der.toNat (n + 1) 0 := by rw [← hn]
  rw [hexp]
  unfold jacobianDLoop
  have hv0 : C.getVertex 0 = .ok c := rfl
  rw [hv0, Outcome.bind_ok, if_pos rfl]
  rcases hd.lt_or_eq with hd4 | hd3
  · rw [productRest_throws s _ C der.toNat (by omega) (fun j h1 h2 => hR j h1 h2 0 (by omega)) _ _ (by omega)]
    rfl
  · have h3 : der.toNat = 3 := by omega
    rw [h3]
    have hslen : (s.segFactors lg i c cs).length = cs.length := by unfold segFactors; rw [factorsFrom_length, phiList_length]
    have hP : ∀ rem der F, rem < s.order - 1 → der ≤ 3 → der.factorial ∣ F → ∃ q, s.productRest (s.evaluatorOf t i) C rem der F = .ok q := by
      intro rem der F h1 h2 h3
      exact ⟨_, productRest_eq s _ C ((s.segFactors lg i c cs).map fun f e => f e t) (by simp [hslen]; omega) (by
        intro j hj der hder
        rw [List.getElem_map]
        exact evalRiD_eq lg hw hst hi hv j (by simp [hslen] at hj; omega) der hder) rem (by simp [hslen]; omega) der F h2 h3⟩
    obtain ⟨q, hq⟩ := hP (s.order - 1 - 1) 3 (Nat.factorial 3) (by omega) le_rfl dvd_rfl
    rw [hq, Outcome.map_ok, Outcome.bind_ok]
    have := jacobianRest_three S L s (s.evaluatorOf t i) C ho hR hP (fun d hd => by
      obtain ⟨N, hN, -⟩ := riDJacobian_eq lg S L hw hst hi hv (fun j => (c :: cs).getD j 0) (by
        intro j hj
        rw [List.getD_eq_getElem?_getD, List.getElem?_eq_getElem hj, Option.getD_some]) 0 (by omega) d hd
      exact ⟨N, hN⟩)
    rw [show Nat.factorial 3 = 6 from rfl, this]
    rfl

theorem angularBlock_app (v d : ℍ[ℝ]) (q dq : DMat) (u : V3) :
    (angularBlock v d q dq).mulVec u = angL (star (DMat.app q u) * d + star v * DMat.app dq u) := by
  funext r
  obtain rfl | rfl | rfl : r = 0 ∨ r = 1 ∨ r = 2 := by
    rcases r with ⟨r, hr⟩
    interval_cases r <;> simp
  all_goals
    simp [angularBlock, Matrix.mulVec, dotProduct, Fin.sum_univ_three, angL, qeps, qeta, DMat.app, epsRows, etaRow, crossMat,
      Matrix.vecMulVec, Matrix.mul_apply, Matrix.vecMul]
    ring

/-- C62: the blocks of the Jacobian of the angular velocity and of the angular acceleration, applied to the tangent vectors `u` by which
the relevant control vertices are updated, give the derivative of that query.  (What is missing: order one.) -/
theorem C62_angular_jacobian_partial (lg : ℍ[ℝ] → V3) (S L : V3 → M33) (hS : ExpDiff S) (order : ℕ) (ho : 2 ≤ order) (s : MSpline ℝ ℍ[ℝ])
    (h : RegularReach (quatGroup lg).toMfd order s) (t : ℝ) (e : Evaluator ℝ) (he : s.evaluatorAt t = .ok e) (first : ℕ)
    (hf : first < s.keys.length) (hfirst : e.firstIt = s.keys[first]?)
    (hunit : ∀ j, j < order → ∀ q, s.verts[first + j]? = some q → ‖q‖ = 1)
    (hL : ∀ j, j + 1 < order → ∀ a b, s.verts[first + j]? = some a → s.verts[first + (j + 1)]? = some b →
      LogDiffAt lg L (qplus (quatInv a) b)) (d : ℕ) (hd : d = 1 ∨ d = 2) :
    ∃ J, s.evalAngularJacobian lg S L t d = .ok J ∧ J.length = order ∧
      ∀ u : ℕ → V3, ∃ f : ℝ → V3, (∀ x, (s.moved fun m p => (quatGroup lg).update p (x • u m)).evalAngularDerivative lg t d = .ok (f x)) ∧
        s.evalAngularDerivative lg t d = .ok (f 0) ∧
        HasDerivAt f (∑ j ∈ range order, (J.getD j 0).mulVec (u (first + j))) 0 := by
  obtain ⟨J0, a1, a2, a3⟩ := C61_jacobian_partial lg S L hS order (by omega) s h t e he first hf hfirst hunit hL 0 (Or.inl rfl)
  obtain ⟨Jd, b1, b2, b3⟩ := C61_jacobian_partial lg S L hS order (by omega) s h t e he first hf hfirst hunit hL d (Or.inr ⟨ho, by omega⟩)
  obtain ⟨f0, -, a5, -⟩ := a3 0
  obtain ⟨fd, -, b5, -⟩ := b3 0
  rw [Nat.cast_zero] at a1 a5
  refine ⟨List.zipWith (angularBlock (f0 0) (fd 0)) J0 Jd, ?_, by simp [a2, b2], fun u => ?_⟩
  · unfold evalAngularJacobian
    rw [b5, Outcome.bind_ok, a5, Outcome.bind_ok, b1, Outcome.bind_ok, a1, Outcome.bind_ok]
  · obtain ⟨g0, c1, c2, c3⟩ := a3 u
    obtain ⟨gd, d1, d2, d3⟩ := b3 u
    rw [Nat.cast_zero] at c2
    have e0 : g0 0 = f0 0 := by rw [a5, Outcome.ok.injEq] at c2; exact c2.symm
    have ed : gd 0 = fd 0 := by rw [b5, Outcome.ok.injEq] at d2; exact d2.symm
    have hval : ∀ (s' : MSpline ℝ ℍ[ℝ]) (v w : ℍ[ℝ]), s'.quatEvalD lg t (0 : ℕ) = .ok v → s'.quatEvalD lg t d = .ok w →
        s'.evalAngularDerivative lg t d = .ok (angL (star v * w)) := by
      intro s' v w h0 h1
      unfold evalAngularDerivative
      rw [Nat.cast_zero] at h0
      rw [h1, Outcome.bind_ok, h0, Outcome.bind_ok, if_neg (by omega), angularTmp_eq]
      rfl
    refine ⟨fun x => angL (star (g0 x) * gd x), fun x => hval _ _ _ (c1 x) (d1 x), hval _ _ _ (by rw [Nat.cast_zero]; exact c2) d2, ?_⟩
    refine (hasDerivAt_angL ((hasDerivAt_star c3).fun_mul d3)).congr_deriv ?_
    rw [e0, ed, star_sum, sum_mul, mul_sum, ← sum_add_distrib, map_sum]
    refine sum_congr rfl fun j hj => ?_
    rw [mem_range] at hj
    rw [← angularBlock_app]
    simp only [List.getD_eq_getElem?_getD]
    rw [List.getElem?_zipWith, List.getElem?_eq_getElem (by omega : j < J0.length), List.getElem?_eq_getElem (by omega : j < Jd.length)]
    rfl

end Verif.MSpline

namespace Verif

open Quaternion Finset MSpline

/-! ### The hypotheses can be met -/

/-- The derivative of the exponential, as a matrix. -/
noncomputable def expDiffMat (φ : V3) : M33 := fun r k =>
  angL (star (axisAngle2quat φ) * fderiv ℝ (NormedSpace.exp : ℍ[ℝ] → ℍ[ℝ]) (quatV φ) (quatV (Pi.single k 1))) r

theorem exp_differentiable (x : ℍ[ℝ]) : DifferentiableAt ℝ (NormedSpace.exp : ℍ[ℝ] → ℍ[ℝ]) x :=
  (NormedSpace.exp_analytic (𝕂 := ℝ) x).differentiableAt

theorem mulVec_of_linear (F : V3 →ₗ[ℝ] V3) (v : V3) : Matrix.mulVec (fun r k => F (Pi.single k 1) r) v = F v := by
  have : v = ∑ k, v k • (Pi.single k 1 : V3) := by
    funext i
    simp [Finset.sum_apply, Pi.single_apply]
  conv_rhs => rw [this]
  rw [map_sum]
  funext r
  simp only [Matrix.mulVec, dotProduct, map_smul, Finset.sum_apply, Pi.smul_apply, smul_eq_mul]
  exact Finset.sum_congr rfl fun k _ => mul_comm _ _

/-- There is a matrix function as `sm_kinematics` should have it for the exponential. -/
theorem expDiff_expDiffMat : ExpDiff expDiffMat := by
  intro φ φ' x h
  set q := axisAngle2quat (φ x) with hq
  set D := fderiv ℝ (NormedSpace.exp : ℍ[ℝ] → ℍ[ℝ]) (quatV (φ x)) with hD
  have h1 : HasDerivAt (fun y => axisAngle2quat (φ y)) (D (quatV φ')) x := by
    simp only [axisAngle2quat_eq]
    exact (exp_differentiable (quatV (φ x))).hasFDerivAt.comp_hasDerivAt x (hasDerivAt_quatV h)
  have hlin : (expDiffMat (φ x)).mulVec φ' = angL (star q * D (quatV φ')) :=
    mulVec_of_linear (angL.comp ((LinearMap.mulLeft ℝ (star q)).comp (D.toLinearMap.comp quatVL))) φ'
  have hre := unit_curve_re h1 (fun y => norm_axisAngle2quat (φ y))
  refine h1.congr_deriv ?_
  rw [hlin, qplus_eq, quatV_angL _ hre, ← mul_assoc, unit_mul_star (norm_axisAngle2quat _), _root_.one_mul]

/-- The derivative of a logarithm, as a matrix. -/
noncomputable def logDiffMat (lg : ℍ[ℝ] → V3) (φ : V3) : M33 := fun r k =>
  fderiv ℝ lg (axisAngle2quat φ) (axisAngle2quat φ * quatV (Pi.single k 1)) r

/-- Wherever a function is a differentiable logarithm it has a matrix function as `sm_kinematics` should have it. -/
theorem logDiffAt_logDiffMat (lg : ℍ[ℝ] → V3) (q : ℍ[ℝ]) (hd : DifferentiableAt ℝ lg q) (hq : axisAngle2quat (lg q) = q) :
    LogDiffAt lg (logDiffMat lg) q := by
  intro p w x hx _ hp
  subst hx
  have h1 : HasDerivAt (fun y => lg (p y)) (fderiv ℝ lg (p x) (qplus (quatV w) (p x))) x := hd.hasFDerivAt.comp_hasDerivAt x hp
  refine h1.congr_deriv ?_
  have e : logDiffMat lg (lg (p x)) = fun r k =>
      ((fderiv ℝ lg (p x)).toLinearMap.comp ((LinearMap.mulLeft ℝ (p x)).comp quatVL)) (Pi.single k 1) r := by
    unfold logDiffMat
    rw [hq]
    rfl
  rw [e, mulVec_of_linear, qplus_eq]
  rfl

/-- A logarithm for rotations other than the identity. -/
noncomputable def arcLog (q : ℍ[ℝ]) : V3 := (Real.arccos q.re / Real.sqrt (1 - q.re ^ 2)) • angL q

/-- The real part, as a linear map. -/
noncomputable def reL : ℍ[ℝ] →ₗ[ℝ] ℝ where
  toFun q := q.re
  map_add' a b := by simp
  map_smul' r a := by simp

theorem arcLog_differentiable {q : ℍ[ℝ]} (h1 : -1 < q.re) (h2 : q.re < 1) : DifferentiableAt ℝ arcLog q := by
  have hre : DifferentiableAt ℝ (fun p : ℍ[ℝ] => p.re) q := (LinearMap.toContinuousLinearMap reL).differentiableAt
  have hang : DifferentiableAt ℝ (fun p : ℍ[ℝ] => angL p) q := (LinearMap.toContinuousLinearMap angL).differentiableAt
  have hpos : 0 < 1 - q.re ^ 2 := by nlinarith
  have hac : DifferentiableAt ℝ (fun p : ℍ[ℝ] => Real.arccos p.re) q :=
    (Real.differentiableAt_arccos.2 ⟨h1.ne', h2.ne⟩).comp q hre
  have hsq : DifferentiableAt ℝ (fun p : ℍ[ℝ] => Real.sqrt (1 - p.re ^ 2)) q := by
    have : DifferentiableAt ℝ (fun p : ℍ[ℝ] => 1 - p.re ^ 2) q := (differentiableAt_const _).sub (hre.pow 2)
    exact this.sqrt hpos.ne'
  have hdiv : DifferentiableAt ℝ (fun p : ℍ[ℝ] => Real.arccos p.re / Real.sqrt (1 - p.re ^ 2)) q := by
    have e : (fun p : ℍ[ℝ] => Real.arccos p.re / Real.sqrt (1 - p.re ^ 2)) =
        (fun p : ℍ[ℝ] => Real.arccos p.re) * (fun p : ℍ[ℝ] => Real.sqrt (1 - p.re ^ 2))⁻¹ := by
      funext p
      exact div_eq_mul_inv _ _
    rw [e]
    exact hac.mul (hsq.inv (Real.sqrt_pos.2 hpos).ne')
  exact hdiv.smul hang

theorem exp_arcLog {q : ℍ[ℝ]} (hq : ‖q‖ = 1) (h1 : -1 < q.re) (h2 : q.re < 1) : axisAngle2quat (arcLog q) = q := by
  have hpos : 0 < 1 - q.re ^ 2 := by nlinarith
  have hn : q.re ^ 2 + q.imI ^ 2 + q.imJ ^ 2 + q.imK ^ 2 = 1 := by
    rw [← Quaternion.normSq_def', Quaternion.normSq_eq_norm_mul_self, hq]; norm_num
  set θ := Real.arccos q.re with hθ
  set sn := Real.sqrt (1 - q.re ^ 2) with hsn
  have hsnpos : 0 < sn := Real.sqrt_pos.2 hpos
  have hsq : sn ^ 2 = 1 - q.re ^ 2 := Real.sq_sqrt hpos.le
  have hθpos : 0 < θ := Real.arccos_pos.2 h2
  have hcos : Real.cos θ = q.re := Real.cos_arccos h1.le h2.le
  have hsin : Real.sin θ = sn := Real.sin_arccos q.re
  have c0 : arcLog q 0 = 2 * θ / sn * q.imI := by simp [arcLog, angL, qeps, ← hθ, ← hsn]; ring
  have c1 : arcLog q 1 = 2 * θ / sn * q.imJ := by simp [arcLog, angL, qeps, ← hθ, ← hsn]; ring
  have c2 : arcLog q 2 = 2 * θ / sn * q.imK := by simp [arcLog, angL, qeps, ← hθ, ← hsn]; ring
  have hnorm : norm3 (arcLog q) = 2 * θ := by
    unfold norm3
    rw [c0, c1, c2]
    have : (2 * θ / sn * q.imI) ^ 2 + (2 * θ / sn * q.imJ) ^ 2 + (2 * θ / sn * q.imK) ^ 2 = (2 * θ) ^ 2 := by
      have e : q.imI ^ 2 + q.imJ ^ 2 + q.imK ^ 2 = sn ^ 2 := by rw [hsq]; linarith
      have : (2 * θ / sn * q.imI) ^ 2 + (2 * θ / sn * q.imJ) ^ 2 + (2 * θ / sn * q.imK) ^ 2 =
          (2 * θ / sn) ^ 2 * (q.imI ^ 2 + q.imJ ^ 2 + q.imK ^ 2) := by ring
      rw [this, e]
      field_simp
    rw [this, Real.sqrt_sq (by linarith)]
  have hhalf : 2 * θ / 2 = θ := by ring
  unfold axisAngle2quat
  simp only []
  rw [hnorm, hhalf, hcos, hsin, c0, c1, c2]
  ext
  · rfl
  · show 2 * θ / sn * q.imI * (sn / (2 * θ)) = q.imI
    field_simp
  · show 2 * θ / sn * q.imJ * (sn / (2 * θ)) = q.imJ
    field_simp
  · show 2 * θ / sn * q.imK * (sn / (2 * θ)) = q.imK
    field_simp

/-- C61 and C62 apply to a spline of order three through three different rotations, with the true derivatives of the exponential and the
logarithm. -/
example : ∃ s : MSpline ℝ ℍ[ℝ], s.verts.take 3 = demoQuats ∧
    (∀ d : ℕ, d ≤ 2 → ∃ J, s.quatEvalJacobian arcLog expDiffMat (logDiffMat arcLog) (5 / 2) d = .ok J ∧ J.length = 3 ∧ ∀ v,
      HasDerivAt (fun x : ℝ => ((s.moved fun m p => (quatGroup arcLog).update p (x • (if m = 1 then v else 0))).quatEvalD arcLog
        (5 / 2) d).getD 0) (DMat.app (J.getD 1 0) v) 0) ∧
    ∃ J, s.evalAngularJacobian arcLog expDiffMat (logDiffMat arcLog) (5 / 2) 2 = .ok J ∧ J.length = 3 := by
  obtain ⟨s, g1, g2, g3, g4, g5, g6, g7⟩ := quat_spline_exists arcLog 3 (by norm_num) [0, 1, 2, 3, 4, 5] demoQuats (by
    simp [List.pairwise_cons]; norm_num) rfl (by decide) demoQuats_unit
  obtain ⟨hw, ho⟩ := g1.mwf (by norm_num)
  have hi : s.InSeg (5 / 2) 2 := by
    refine ⟨by omega, by rw [g3, ho]; decide, ?_, Or.inl ?_⟩ <;> (unfold kn; rw [g3]; norm_num)
  have hev := evaluatorAt_eq hw g2 hi
  have hfirst : (s.evaluatorOf (5 / 2) 2).firstIt = s.keys[0]? := by
    show s.keys[2 + 1 - s.order]? = _
    rw [ho]
  have hv : ∀ j, j < 3 → s.verts[0 + j]? = demoQuats[j]? := by
    intro j hj
    have : (s.verts.take 3)[j]? = demoQuats[j]? := by rw [show (3 : ℕ) = demoQuats.length from rfl, g5]
    rw [List.getElem?_take_of_lt hj] at this
    rw [Nat.zero_add]
    exact this
  have hunit : ∀ j, j < 3 → ∀ q, s.verts[0 + j]? = some q → ‖q‖ = 1 := by
    intro j hj q hq
    rw [hv j hj] at hq
    exact demoQuats_unit q (List.mem_of_getElem? hq)
  have hL : ∀ j, j + 1 < 3 → ∀ a b, s.verts[0 + j]? = some a → s.verts[0 + (j + 1)]? = some b →
      LogDiffAt arcLog (logDiffMat arcLog) (qplus (quatInv a) b) := by
    intro j hj a b ha hb
    have na := hunit j (by omega) a ha
    have nb := hunit (j + 1) hj b hb
    have hn : ‖qplus (quatInv a) b‖ = 1 := by rw [qplus_eq, quatInv_eq, norm_mul, norm_star, na, nb, _root_.mul_one]
    have hre : -1 < (qplus (quatInv a) b).re ∧ (qplus (quatInv a) b).re < 1 := by
      rw [hv j (by omega)] at ha
      rw [hv (j + 1) hj] at hb
      rw [qplus_eq, quatInv_eq]
      obtain rfl | rfl : j = 0 ∨ j = 1 := by omega
      · obtain rfl : (1 : ℍ[ℝ]) = a := by simpa [demoQuats] using ha
        obtain rfl : quatI = b := by simpa [demoQuats] using hb
        rw [Quaternion.re_mul]
        norm_num [quatI]
      · obtain rfl : quatI = a := by simpa [demoQuats] using ha
        obtain rfl : quatIJ = b := by simpa [demoQuats] using hb
        rw [Quaternion.re_mul]
        simp only [Quaternion.re_star, Quaternion.imI_star, Quaternion.imJ_star, Quaternion.imK_star]
        norm_num [quatI, quatIJ]
    exact logDiffAt_logDiffMat arcLog _ (arcLog_differentiable hre.1 hre.2) (exp_arcLog hn hre.1 hre.2)
  refine ⟨s, g5, fun d hd => ?_, ?_⟩
  · obtain ⟨J, e1, e2, -⟩ := C61_jacobian_partial arcLog expDiffMat (logDiffMat arcLog) expDiff_expDiffMat 3 (by norm_num) s g1 (5 / 2) _
      hev 0 (by rw [g3]; decide) hfirst hunit hL d (Or.inr ⟨by norm_num, hd⟩)
    refine ⟨J, e1, e2, fun v => ?_⟩
    obtain ⟨J', f1, f2⟩ := C61_single_vertex_partial arcLog expDiffMat (logDiffMat arcLog) expDiff_expDiffMat 3 (by norm_num) s g1 (5 / 2) _
      hev 0 (by rw [g3]; decide) hfirst hunit hL d (Or.inr ⟨by norm_num, hd⟩) 1 v
    rw [e1, Outcome.ok.injEq] at f1
    subst f1
    exact f2
  · obtain ⟨J, e1, e2, -⟩ := C62_angular_jacobian_partial arcLog expDiffMat (logDiffMat arcLog) expDiff_expDiffMat 3 (by norm_num) s g1 (5 / 2) _
      hev 0 (by rw [g3]; decide) hfirst hunit hL 2 (Or.inr rfl)
    exact ⟨J, e1, e2⟩

/-- `C61_unsupported_rejected` applies to a spline of order three, inside and outside its time interval. -/
example (lg : ℍ[ℝ] → V3) (S L : V3 → M33) : ∃ s : MSpline ℝ ℍ[ℝ], s.verts.take 3 = demoQuats ∧
    s.quatEvalJacobian lg S L (5 / 2) 3 = .throws ∧ s.quatEvalJacobian lg S L 17 (-1) = .throws := by
  obtain ⟨s, g1, g2, g3, g4, g5, g6, g7⟩ := quat_spline_exists lg 3 (by norm_num) [0, 1, 2, 3, 4, 5] demoQuats (by
    simp [List.pairwise_cons]; norm_num) rfl (by decide) demoQuats_unit
  exact ⟨s, g5, C61_unsupported_rejected lg S L 3 (by norm_num) s g1 _ 3 (Or.inr le_rfl),
    C61_unsupported_rejected lg S L 3 (by norm_num) s g1 _ (-1) (Or.inl (by norm_num))⟩

/-- `C61_order_one_undefined` applies to a piecewise constant spline. -/
example (lg : ℍ[ℝ] → V3) (S L : V3 → M33) : ∃ s : MSpline ℝ ℍ[ℝ], s.verts.take 3 = demoQuats ∧
    s.quatEvalD lg (3 / 2) 1 = .ok 0 ∧ s.quatEvalJacobian lg S L (3 / 2) 1 = .ub := by
  obtain ⟨s, g1, g2, g3, g4, g5, g6, g7⟩ := quat_spline_exists lg 1 (by norm_num) [0, 1, 2, 3] demoQuats (by
    simp [List.pairwise_cons]; norm_num) rfl (by decide) demoQuats_unit
  obtain ⟨hw, ho⟩ := g1.mwf (by norm_num)
  have hi : s.InSeg (3 / 2) 1 := by
    refine ⟨by omega, by rw [g3, ho]; decide, ?_, Or.inl ?_⟩ <;> (unfold kn; rw [g3]; norm_num)
  exact ⟨s, g5, C61_order_one_undefined lg S L s g1 _ _ (evaluatorAt_eq hw g2 hi) 1 le_rfl⟩

end Verif
