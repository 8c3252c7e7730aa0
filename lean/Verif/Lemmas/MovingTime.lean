import Verif.Props.QuaternionJacobian

/-!
# Quaternion splines when control vertices and time move together
-/

set_option linter.unusedSectionVars false

namespace Verif.MSpline

open Finset Polynomial Quaternion

theorem quatV_inj {a b : V3} (h : quatV a = quatV b) : a = b := by
  funext r
  have h1 := congrArg QuaternionAlgebra.imI h
  have h2 := congrArg QuaternionAlgebra.imJ h
  have h3 := congrArg QuaternionAlgebra.imK h
  simp at h1 h2 h3
  obtain rfl | rfl | rfl : r = 0 ∨ r = 1 ∨ r = 2 := by
    rcases r with ⟨r, hr⟩
    interval_cases r <;> simp
  all_goals linarith

/-- Along its own axis a rotation turns at the rate of the angle. -/
theorem expDiff_self {S : V3 → M33} (hS : ExpDiff S) (b : ℝ) (φ : V3) : (S (b • φ)).mulVec φ = φ := by
  have h1 := hS (fun y : ℝ => y • φ) φ b (by simpa using (hasDerivAt_id b).smul_const φ)
  have h2 := hasDerivAt_exp_smul_const (𝕂 := ℝ) (quatV φ) b
  simp only [axisAngle2quat_eq, quatV_smul, qplus_eq] at h1
  have h3 := h1.unique h2
  have hn : ‖NormedSpace.exp (b • quatV φ)‖ = 1 := by rw [← quatV_smul, ← axisAngle2quat_eq, norm_axisAngle2quat]
  refine quatV_inj ?_
  have h4 := congrArg (fun z => star (NormedSpace.exp (b • quatV φ)) * z) h3
  simp only [← mul_assoc] at h4
  rw [unit_star_mul hn, _root_.one_mul, _root_.one_mul] at h4
  exact h4

theorem hasDerivAt_rD_timed {S : V3 → M33} (hS : ExpDiff S) (β : ℝ[X]) {φ : ℝ → V3} {φ' : V3} {x : ℝ} (h : HasDerivAt φ φ' x)
    {T : ℝ → ℝ} {T' : ℝ} (hT : HasDerivAt T T' x) (e : ℕ) (he : e ≤ 2) :
    HasDerivAt (fun y => rD (fun n => (derivative^[n] β).eval (T y)) (quatV (φ y)) e)
      (rJ S (fun n => (derivative^[n] β).eval (T x)) (φ x) φ' e +
        T' • rD (fun n => (derivative^[n] β).eval (T x)) (quatV (φ x)) (e + 1)) x := by
  have hV := hasDerivAt_quatV h
  have hb : ∀ n, HasDerivAt (fun y => (derivative^[n] β).eval (T y)) ((derivative^[n + 1] β).eval (T x) * T') x := by
    intro n
    rw [Function.iterate_succ_apply']
    exact ((derivative^[n] β).hasDerivAt (T x)).comp x hT
  set b : ℕ → ℝ := fun n => (derivative^[n] β).eval (T x) with hbd
  have hbx : ∀ n, (derivative^[n] β).eval (T x) = b n := fun n => rfl
  have e0 : HasDerivAt (fun y => NormedSpace.exp ((derivative^[0] β).eval (T y) • quatV (φ y)))
      (rJ S b (φ x) φ' 0 + T' • rD b (quatV (φ x)) 1) x := by
    have := hS (fun y => (derivative^[0] β).eval (T y) • φ y) (b 0 • φ' + (b 1 * T') • φ x) x ((hb 0).smul h)
    simp only [axisAngle2quat_eq, quatV_smul, qplus_eq, hbx] at this
    refine this.congr_deriv ?_
    rw [Matrix.mulVec_add, Matrix.mulVec_smul _ (b 1 * T'), expDiff_self hS]
    have hadd : ∀ a c : V3, quatV (a + c) = quatV a + quatV c := quatVL.map_add
    rw [hadd, quatV_smul]
    simp only [rJ, rD, mul_add, mul_smul_comm, smul_smul]
    rw [mul_comm (b 1) T']
  have hcomm : ∀ r : ℝ, NormedSpace.exp (r • quatV (φ x)) * quatV (φ x) = quatV (φ x) * NormedSpace.exp (r • quatV (φ x)) := by
    intro r
    exact ((Commute.refl (quatV (φ x))).smul_left r).exp_left
  interval_cases e
  · simp only [rD] at e0 ⊢
    exact e0
  · simp only [rD]
    refine (e0.fun_mul ((hb 1).fun_smul hV)).congr_deriv ?_
    simp only [rJ, rD, hbx]
    simp only [mul_add, add_mul, mul_smul_comm, smul_mul_assoc, mul_assoc, smul_add, smul_smul]
    module
  · simp only [rD]
    refine (e0.fun_mul (((hb 2).fun_smul hV).fun_add (((hb 1).fun_pow 2).fun_smul (hV.fun_mul hV)))).congr_deriv ?_
    simp only [rJ, rD, hbx]
    rw [coe_smul_one]
    push_cast
    simp only [mul_add, add_mul, mul_smul_comm, smul_mul_assoc, _root_.mul_one, mul_assoc, smul_add, smul_smul, pow_one]
    module

/-- Leibniz. -/
theorem dProdJ_shift : ∀ (L : List (ℕ → ℍ[ℝ])) (g : ℕ → ℕ → ℍ[ℝ]) (d : ℕ), (∀ (m : ℕ) (hm : m < L.length) (e : ℕ), g m e = L[m] (e + 1)) →
    dProdJ L g d = dProd L (d + 1)
  | [], _, d, _ => by simp [dProdJ, dProd]
  | f :: fs, g, d, hg => by
    simp only [dProdJ, dProd]
    rw [sum_antidiagonal_choose_succ_nsmul (fun i j => dProd fs j * f i) d, ← sum_add_distrib]
    refine sum_congr rfl fun ij hij => ?_
    rw [mem_antidiagonal] at hij
    rw [smul_add, Nat.choose_symm_of_eq_add hij.symm, dProdJ_shift fs (fun m => g (m + 1)) ij.2 (fun m hm e => hg (m + 1) (by simpa using hm) e),
      hg 0 (by simp) ij.1]
    rfl

theorem dProdJ_smul (r : ℝ) : ∀ (L : List (ℕ → ℍ[ℝ])) (g : ℕ → ℕ → ℍ[ℝ]) (d : ℕ), dProdJ L (fun m e => r • g m e) d = r • dProdJ L g d
  | [], _, _ => by simp [dProdJ]
  | f :: fs, g, d => by
    simp only [dProdJ]
    rw [smul_sum]
    refine sum_congr rfl fun ij _ => ?_
    rw [dProdJ_smul r fs (fun m => g (m + 1)) ij.2, smul_mul_assoc, mul_smul_comm, ← smul_add]
    exact smul_comm _ _ _

/-- The derivative of the curve of a segment when the relevant control vertices move with rotation rates `u` and the time with
velocity `T'`. -/
theorem hasDerivAt_segR_timed {lg : ℍ[ℝ] → V3} {S L : V3 → M33} (hS : ExpDiff S) (s : MSpline ℝ ℍ[ℝ]) (i : ℕ) (T : ℝ → ℝ) (T' : ℝ)
    (p : ℕ → ℝ → ℍ[ℝ]) (u : ℕ → V3) (x : ℝ) (hT : HasDerivAt T T' x)
    (hp : ∀ j, j < s.order → (∀ y, ‖p j y‖ = 1) ∧ HasDerivAt (p j) (p j x * quatV (u j)) x)
    (hl : ∀ m, m + 1 < s.order → LogDiffAt lg L (p (m + 1) x * star (p m x))) (M : ℕ → ℕ → DMat)
    (hM : ∀ m, m + 1 < s.order → ∀ d, d ≤ 2 → ∀ v, DMat.app (M m d) v =
      rJ S (fun n => (derivative^[n] (s.betaPoly i (m + 1))).eval (T x)) (lg (p (m + 1) x * star (p m x)))
        ((segPJ lg L (fun j => p j x) m).mulVec v) d) (ho : 1 ≤ s.order) (d : ℕ) (hd : d ≤ 2) :
    HasDerivAt (fun y => dProd (s.segR lg i (fun j => p j y) (T y)) d * p 0 y)
      ((∑ j ∈ range s.order, blockJ (s.segR lg i (fun j => p j x) (T x)) M (p 0 x) d j (u j)) +
        T' • (dProd (s.segR lg i (fun j => p j x) (T x)) (d + 1) * p 0 x)) x := by
  have h0 := hasDerivAt_segR hS s i (T x) p u x hp hl M hM ho d hd
  have hlist : ∀ y, s.segR lg i (fun j => p j y) (T y) = ((List.range (s.order - 1)).map fun m y e =>
      rD (fun n => (derivative^[n] (s.betaPoly i (m + 1))).eval (T y)) (quatV (lg (p (m + 1) y * star (p m y)))) e).map fun f => f y := by
    intro y
    rw [List.map_map]
    rfl
  have hlist0 : ∀ y, s.segR lg i (fun j => p j y) (T x) = ((List.range (s.order - 1)).map fun m y e =>
      rD (fun n => (derivative^[n] (s.betaPoly i (m + 1))).eval (T x)) (quatV (lg (p (m + 1) y * star (p m y)))) e).map fun f => f y := by
    intro y
    rw [List.map_map]
    rfl
  have hphi : ∀ m, m + 1 < s.order → HasDerivAt (fun y => lg (p (m + 1) y * star (p m y)))
      ((segPJ lg L (fun j => p j x) m).mulVec (u (m + 1) - u m)) x := fun m hm =>
    hasDerivAt_phi (hl m hm) (hp m (by omega)).1 (hp (m + 1) hm).1 (hp m (by omega)).2 (hp (m + 1) hm).2
  have h1 := hasDerivAt_dProd_param 2 x ((List.range (s.order - 1)).map fun m y e =>
      rD (fun n => (derivative^[n] (s.betaPoly i (m + 1))).eval (T y)) (quatV (lg (p (m + 1) y * star (p m y)))) e)
      (fun m d => DMat.app (M m d) (u (m + 1) - u m) +
        T' • rD (fun n => (derivative^[n] (s.betaPoly i (m + 1))).eval (T x)) (quatV (lg (p (m + 1) x * star (p m x)))) (d + 1)) (by
    intro m hm e he
    rw [List.length_map, List.length_range] at hm
    simp only [List.getElem_map, List.getElem_range]
    rw [hM m (by omega) e he]
    exact hasDerivAt_rD_timed hS _ (hphi m (by omega)) hT e he) d hd
  have h2 := hasDerivAt_dProd_param 2 x ((List.range (s.order - 1)).map fun m y e =>
      rD (fun n => (derivative^[n] (s.betaPoly i (m + 1))).eval (T x)) (quatV (lg (p (m + 1) y * star (p m y)))) e)
      (fun m d => DMat.app (M m d) (u (m + 1) - u m)) (by
    intro m hm e he
    rw [List.length_map, List.length_range] at hm
    simp only [List.getElem_map, List.getElem_range]
    rw [hM m (by omega) e he]
    exact hasDerivAt_rD_param hS _ (hphi m (by omega)) e he) d hd
  simp only [← hlist] at h1
  simp only [← hlist0] at h2
  have h3 := h2.fun_mul (hp 0 (by omega)).2
  have hu := h3.unique h0
  refine (h1.fun_mul (hp 0 (by omega)).2).congr_deriv ?_
  rw [← hu, dProdJ_add, dProdJ_smul]
  rw [dProdJ_shift (s.segR lg i (fun j => p j x) (T x)) (fun m d => rD (fun n => (derivative^[n] (s.betaPoly i (m + 1))).eval (T x))
    (quatV (lg (p (m + 1) x * star (p m x)))) (d + 1)) d (by
      intro m hm e
      have : (s.segR lg i (fun j => p j x) (T x))[m] = fun e => rD (fun n => (derivative^[n] (s.betaPoly i (m + 1))).eval (T x))
          (quatV (lg (p (m + 1) x * star (p m x)))) e := by
        simp only [segR, List.getElem_map, List.getElem_range]
      rw [this])]
  rw [add_mul, smul_mul_assoc]
  abel

/-- The core of C63: the control vertices and the time move; the time is inside a segment. -/
theorem jacobian_core_timed (lg : ℍ[ℝ] → V3) (S L : V3 → M33) (hS : ExpDiff S) {s : MSpline ℝ ℍ[ℝ]} (h : s.MWF) (he : s.state = .evaluable)
    {t : ℝ} {i : ℕ} (hi : s.InSeg t i) (ht : t ∉ s.keys)
    (hunit : ∀ j, j < s.order → ∀ q, s.verts[i + 1 - s.order + j]? = some q → ‖q‖ = 1)
    (hL : ∀ j, j + 1 < s.order → ∀ a b, s.verts[i + 1 - s.order + j]? = some a → s.verts[i + 1 - s.order + (j + 1)]? = some b →
      LogDiffAt lg L (qplus (quatInv a) b)) (d : ℕ) (hd : d = 0 ∨ 2 ≤ s.order ∧ d ≤ 2) :
    ∃ J D, s.quatEvalJacobian lg S L t d = .ok J ∧ J.length = s.order ∧ s.quatEvalD lg t ((d : ℤ) + 1) = .ok D ∧
      ∀ (u : ℕ → V3) (T : ℝ → ℝ) (T' : ℝ), T 0 = t → HasDerivAt T T' 0 → ∃ f : ℝ → ℍ[ℝ],
        (∀ᶠ x in nhds 0, (s.moved fun m p => (quatGroup lg).update p (x • u m)).quatEvalD lg (T x) d = .ok (f x)) ∧
        s.quatEvalD lg t d = .ok (f 0) ∧
        HasDerivAt f ((∑ j ∈ range s.order, DMat.app (J.getD j 0) (u (i + 1 - s.order + j))) + T' • D) 0 := by
  obtain ⟨c, cs, hv⟩ := segVerts_exists h hi
  have hl := segVerts_length hi hv
  have hge := segVerts_getElem hv
  have ho := h.order_pos
  obtain ⟨k1, k2, k3⟩ := eventually_inSeg ho hi ht
  set q : ℕ → ℍ[ℝ] := fun j => (c :: cs).getD j 0 with hq
  have hqe : ∀ j (hj : j < (c :: cs).length), (c :: cs)[j] = q j := by
    intro j hj
    rw [hq]
    simp only []
    rw [List.getD_eq_getElem?_getD, List.getElem?_eq_getElem hj, Option.getD_some]
  have hqu : ∀ j, j < s.order → ‖q j‖ = 1 := by
    intro j hj
    have hj' : j < (c :: cs).length := by simp; omega
    rw [← hqe j hj']
    exact hunit j hj _ (hge j hj')
  have hdd : ∀ d : ℕ, (d = 0 ∨ 2 ≤ s.order ∧ d ≤ 2) → d ≤ 1 ∨ 2 ≤ s.order ∧ d ≤ 3 := by
    intro d hd
    rcases hd with rfl | ⟨h1, h2⟩
    · left; omega
    · right; exact ⟨h1, by omega⟩
  have hc0 : c = q 0 := hqe 0 (by simp)
  obtain ⟨J, M, hJ, hJl, hM, hJu⟩ := quatEvalJacobian_eq lg S L h he hi hv q hqe d hd
  have hD : s.quatEvalD lg t ((d : ℤ) + 1) = .ok (dProd (s.segR lg i q t) (d + 1) * q 0) := by
    have e1 := quatEvalD_segQ lg h he hi hv (d + 1) (by rcases hd with rfl | ⟨h1, h2⟩; · left; omega
                                                        · right; exact ⟨h1, by omega⟩)
    rw [Nat.cast_add, Nat.cast_one] at e1
    rw [e1]
    unfold segQ
    rw [segFactors_eq lg s i c cs q t (by omega) hqe, hc0]
  refine ⟨J, _, hJ, hJl, hD, fun u T T' hT0 hT => ?_⟩
  set p : ℕ → ℝ → ℍ[ℝ] := fun j x => (quatGroup lg).update (q j) (x • u (i + 1 - s.order + j)) with hp
  have hp0 : ∀ j, j < s.order → p j 0 = q j := by
    intro j hj
    rw [hp]
    simp only [zero_smul]
    exact update_zero lg (hqu j hj)
  have hpn : ∀ j, j < s.order → ∀ y, ‖p j y‖ = 1 := by
    intro j hj y
    rw [hp]
    simp only []
    rw [update_unit lg (hqu j hj), norm_mul, hqu j hj, norm_axisAngle2quat, _root_.mul_one]
  have hval : ∀ x t', s.InSeg t' i → (s.moved fun m p => (quatGroup lg).update p (x • u m)).quatEvalD lg t' d =
      .ok (dProd (s.segR lg i (fun j => p j x) t') d * p 0 x) := by
    intro x t' hi
    set s' := s.moved fun m p => (quatGroup lg).update p (x • u m) with hs'
    have hw' : s'.MWF := moved_mwf h _
    have hi' : s'.InSeg t' i := moved_inSeg hi _
    obtain ⟨c', cs', hv'⟩ := segVerts_exists hw' hi'
    have hl' := segVerts_length hi' hv'
    have hord : s'.order = s.order := rfl
    have hpe : ∀ j (hj : j < (c' :: cs').length), (c' :: cs')[j] = p j x := by
      intro j hj
      have h1 := segVerts_getElem hv' j hj
      rw [hs', moved_verts] at h1
      have hj' : j < (c :: cs).length := by simp at hj ⊢; omega
      have h2 := hge j hj'
      have hord2 : (s.moved fun m p => (quatGroup lg).update p (x • u m)).order = s.order := rfl
      rw [hord2, h2, Option.map_some, Option.some.injEq, hqe j hj'] at h1
      exact h1.symm
    have e1 := quatEvalD_segQ lg hw' he hi' hv' d (hdd d hd)
    rw [e1]
    unfold segQ
    rw [segFactors_eq lg s' i c' cs' (fun j => p j x) t' (by omega) hpe]
    have e2 : s'.segR lg i (fun j => p j x) t' = s.segR lg i (fun j => p j x) t' := by
      unfold segR
      simp only [hs', moved_betaPoly]
      rfl
    rw [e2, ← hpe 0 (by simp)]
    rfl
  have hseg0 : s.segR lg i (fun j => p j 0) t = s.segR lg i q t := by
    unfold segR
    refine List.map_congr_left fun m hm => ?_
    rw [List.mem_range] at hm
    beta_reduce
    rw [hp0 m (by omega), hp0 (m + 1) (by omega)]
  refine ⟨fun x => dProd (s.segR lg i (fun j => p j x) (T x)) d * p 0 x, ?_, ?_, ?_⟩
  · have hTc := hT.continuousAt
    have h1 : ∀ᶠ x in nhds 0, s.kn i < T x := hTc.eventually (by rw [hT0]; exact lt_mem_nhds k1)
    have h2 : ∀ᶠ x in nhds 0, T x < s.kn (i + 1) := hTc.eventually (by rw [hT0]; exact gt_mem_nhds k2)
    filter_upwards [h1, h2] with x h1 h2
    exact hval x (T x) (k3 _ h1 h2)
  · have e1 := quatEvalD_segQ lg h he hi hv d (hdd d hd)
    rw [e1]
    unfold segQ
    rw [segFactors_eq lg s i c cs q t (by omega) hqe]
    simp only []
    rw [hT0, hseg0, hp0 0 (by omega), hc0]
  · have hlog : ∀ m, m + 1 < s.order → LogDiffAt lg L (p (m + 1) 0 * star (p m 0)) := by
      intro m hm
      rw [hp0 (m + 1) hm, hp0 m (by omega)]
      have h1 := hL m hm (q m) (q (m + 1)) (by rw [← hqe m (by simp; omega)]; exact hge m _)
        (by rw [← hqe (m + 1) (by simp; omega)]; exact hge (m + 1) _)
      rwa [qplus_eq, quatInv_eq] at h1
    have key := hasDerivAt_segR_timed hS s i T T' p (fun j => u (i + 1 - s.order + j)) 0 hT (fun j hj => ⟨hpn j hj, by
      rw [hp0 j hj]; exact hasDerivAt_update lg (hqu j hj) _⟩) hlog M (by
      intro m hm d hd v
      rw [hM m hm d hd v, hp0 m (by omega), hp0 (m + 1) hm, hT0]
      unfold segPJ
      beta_reduce
      rw [hp0 m (by omega), hp0 (m + 1) hm]) ho d (by rcases hd with rfl | ⟨-, h2⟩ <;> omega)
    refine key.congr_deriv ?_
    rw [hT0, hseg0, hp0 0 (by omega)]
    refine congrArg (· + _) (sum_congr rfl fun j hj => ?_)
    have hj' : j < J.length := by rw [hJl]; exact mem_range.1 hj
    rw [List.getD_eq_getElem?_getD, List.getElem?_eq_getElem hj', Option.getD_some, hJu j hj']

end Verif.MSpline
