import Verif.Props.Quaternion

/-!
# What happens at the interior knots of a manifold spline
-/

set_option linter.unusedSectionVars false

namespace Verif.MSpline

open Finset Polynomial Quaternion

/-! ### Gluing functions given on the segments -/

section Glue

variable {P : Type*}

/-- Immediately before a time after the start one segment is in use: that of the time itself or, at a knot, the one before. -/
theorem left_seg {s : MSpline ℝ P} (h : s.MWF) {t : ℝ} {i : ℕ} (hi : s.InSeg t i) (ht : s.kn (s.order - 1) < t) :
    ∃ i', s.kn i' < t ∧ (i' = i ∨ (i' + 1 = i ∧ t = s.kn (i' + 1) ∧ s.order ≤ i' + 1 ∧ i' + 1 + s.order < s.keys.length)) ∧
      ∀ x, s.kn i' < x → x < t → s.InSeg x i' := by
  have h1 := hi.lower
  have h2 := hi.upper
  have h3 := h.order_pos
  rcases eq_or_lt_of_le hi.left with h4 | h4
  · have hne : i ≠ s.order - 1 := by rintro rfl; exact absurd ht (by rw [h4]; exact lt_irrefl _)
    obtain ⟨i', rfl⟩ : ∃ i', i = i' + 1 := ⟨i - 1, by omega⟩
    have hlt : s.kn i' < t := by rw [← h4]; exact h.strict (by omega) (by omega)
    refine ⟨i', hlt, Or.inr ⟨rfl, h4.symm, by omega, by omega⟩, fun x hx1 hx2 => ⟨by omega, by omega, hx1.le, Or.inl ?_⟩⟩
    rw [h4]; exact hx2
  · exact ⟨i, h4, Or.inl rfl, fun x hx1 hx2 => ⟨h1, h2, hx1.le, Or.inl (hx2.trans_le hi.right_le)⟩⟩

theorem right_seg {s : MSpline ℝ P} (h : s.MWF) {t : ℝ} {i : ℕ} (hi : s.InSeg t i) (ht : t < s.kn (s.keys.length - s.order)) :
    t < s.kn (i + 1) ∧ ∀ x, t ≤ x → x < s.kn (i + 1) → s.InSeg x i := by
  have hlt : t < s.kn (i + 1) := by
    rcases hi.right with h3 | ⟨h3, h4⟩
    · exact h3
    · rw [h3, show i + 1 = s.keys.length - s.order by omega] at ht
      exact absurd ht (lt_irrefl _)
  exact ⟨hlt, fun x hx1 hx2 => ⟨hi.lower, hi.upper, hi.left.trans hx1, Or.inl hx2⟩⟩

/-- The functions of neighbouring segments have the same value at the knot between them. -/
def Joined {E : Type*} (s : MSpline ℝ P) (g : ℕ → ℝ → E) : Prop :=
  ∀ i, s.order ≤ i + 1 → i + 1 + s.order < s.keys.length → g i (s.kn (i + 1)) = g (i + 1) (s.kn (i + 1))

theorem glue_continuousOn {E : Type*} [TopologicalSpace E] {s : MSpline ℝ P} (h : s.MWF) (he : s.state = .evaluable) (F : ℝ → E)
    (g : ℕ → ℝ → E) (hF : ∀ x i, s.InSeg x i → F x = g i x) (hg : ∀ i, Continuous (g i)) (hj : s.Joined g) :
    ContinuousOn F (Set.Icc (s.kn (s.order - 1)) (s.kn (s.keys.length - s.order))) := by
  intro t ht
  obtain ⟨i, hi, -⟩ := getSegmentIterator_ok h he t ht.1 ht.2
  rw [← Set.Icc_union_Icc_eq_Icc ht.1 ht.2]
  refine ContinuousWithinAt.union ?_ ?_
  · rcases eq_or_lt_of_le ht.1 with h1 | h1
    · rw [h1, Set.Icc_self]; exact continuousWithinAt_singleton
    · obtain ⟨i', a1, a2, a3⟩ := left_seg h hi h1
      have hval : F t = g i' t := by
        rw [hF t i hi]
        rcases a2 with rfl | ⟨rfl, h2, h3, h4⟩
        · rfl
        · have := hj i' h3 h4
          rw [← h2] at this
          exact this.symm
      refine ((hg i').continuousAt.continuousWithinAt (s := Set.Iic t)).congr_of_eventuallyEq ?_ hval |>.mono fun x hx => hx.2
      filter_upwards [Ioc_mem_nhdsLE a1] with x hx
      rcases eq_or_lt_of_le hx.2 with rfl | h5
      · exact hval
      · exact hF x i' (a3 x hx.1 h5)
  · rcases eq_or_lt_of_le ht.2 with h1 | h1
    · rw [h1, Set.Icc_self]; exact continuousWithinAt_singleton
    · obtain ⟨a1, a2⟩ := right_seg h hi h1
      refine ((hg i).continuousAt.continuousWithinAt (s := Set.Ici t)).congr_of_eventuallyEq ?_ (hF t i hi) |>.mono fun x hx => hx.1
      filter_upwards [Ico_mem_nhdsGE a1] with x hx
      exact hF x i (a2 x hx.1 hx.2)

theorem glue_hasDerivAt {E : Type*} [NormedAddCommGroup E] [NormedSpace ℝ E] {s : MSpline ℝ P} (h : s.MWF)
    (F : ℝ → E) (g g' : ℕ → ℝ → E) (hF : ∀ x i, s.InSeg x i → F x = g i x)
    (hg : ∀ i x, HasDerivAt (g i) (g' i x) x) (hj : s.Joined g) (hj' : s.Joined g') {t : ℝ} {i : ℕ} (hi : s.InSeg t i)
    (h1 : s.kn (s.order - 1) < t) (h2 : t < s.kn (s.keys.length - s.order)) : HasDerivAt F (g' i t) t := by
  rw [← hasDerivWithinAt_univ, ← Set.Iic_union_Ici (a := t)]
  refine HasDerivWithinAt.union ?_ ?_
  · obtain ⟨i', a1, a2, a3⟩ := left_seg h hi h1
    have hval : F t = g i' t ∧ g' i t = g' i' t := by
      rw [hF t i hi]
      rcases a2 with rfl | ⟨rfl, h2, h3, h4⟩
      · exact ⟨rfl, rfl⟩
      · have e1 := hj i' h3 h4
        have e2 := hj' i' h3 h4
        rw [← h2] at e1 e2
        exact ⟨e1.symm, e2.symm⟩
    rw [hval.2]
    refine (hg i' t).hasDerivWithinAt.congr_of_eventuallyEq ?_ hval.1
    filter_upwards [Ioc_mem_nhdsLE a1] with x hx
    rcases eq_or_lt_of_le hx.2 with rfl | h5
    · exact hval.1
    · exact hF x i' (a3 x hx.1 h5)
  · obtain ⟨a1, a2⟩ := right_seg h hi h2
    refine (hg i t).hasDerivWithinAt.congr_of_eventuallyEq ?_ (hF t i hi)
    filter_upwards [Ico_mem_nhdsGE a1] with x hx
    exact hF x i (a2 x hx.1 hx.2)

/-- At an interior knot the function is continuous only if the functions of the two segments have the same value there. -/
theorem glue_continuousAt_iff {E : Type*} [TopologicalSpace E] [T2Space E] {s : MSpline ℝ P} (h : s.MWF) (F : ℝ → E)
    (g : ℕ → ℝ → E) (hF : ∀ x i, s.InSeg x i → F x = g i x) (hg : ∀ i, Continuous (g i)) {i : ℕ} (h1 : s.order ≤ i + 1)
    (h2 : i + 1 + s.order < s.keys.length) :
    ContinuousAt F (s.kn (i + 1)) ↔ g i (s.kn (i + 1)) = g (i + 1) (s.kn (i + 1)) := by
  have h3 := h.order_pos
  have a1 : s.kn i < s.kn (i + 1) := h.strict (by omega) (by omega)
  have a2 : s.kn (i + 1) < s.kn (i + 2) := h.strict (by omega) (by omega)
  have hl : ∀ x, s.kn i < x → x < s.kn (i + 1) → F x = g i x := fun x b1 b2 => hF x i ⟨h1, by omega, b1.le, Or.inl b2⟩
  have hr : ∀ x, s.kn (i + 1) ≤ x → x < s.kn (i + 2) → F x = g (i + 1) x := fun x b1 b2 => hF x (i + 1) ⟨by omega, h2, b1, Or.inl b2⟩
  have hval := hr _ le_rfl a2
  constructor
  · intro hc
    have c1 : Filter.Tendsto F (nhdsWithin (s.kn (i + 1)) (Set.Iio (s.kn (i + 1)))) (nhds (g (i + 1) (s.kn (i + 1)))) := by
      rw [← hval]; exact hc.tendsto.mono_left nhdsWithin_le_nhds
    have c2 : Filter.Tendsto F (nhdsWithin (s.kn (i + 1)) (Set.Iio (s.kn (i + 1)))) (nhds (g i (s.kn (i + 1)))) := by
      refine (((hg i).tendsto _).mono_left nhdsWithin_le_nhds).congr' ?_
      filter_upwards [Ioo_mem_nhdsLT a1] with x hx
      exact (hl x hx.1 hx.2).symm
    exact tendsto_nhds_unique c2 c1
  · intro hj
    rw [← continuousWithinAt_univ, ← Set.Iic_union_Ici (a := s.kn (i + 1))]
    refine ContinuousWithinAt.union ?_ ?_
    · refine ((hg i).continuousAt.continuousWithinAt).congr_of_eventuallyEq ?_ (hval.trans hj.symm)
      filter_upwards [Ioc_mem_nhdsLE a1] with x hx
      rcases eq_or_lt_of_le hx.2 with rfl | h5
      · exact hval.trans hj.symm
      · exact hl x hx.1 h5
    · refine ((hg (i + 1)).continuousAt.continuousWithinAt).congr_of_eventuallyEq ?_ hval
      filter_upwards [Ico_mem_nhdsGE a2] with x hx
      exact hr x hx.1 hx.2

/-- The pieces of the basis functions join up to the derivative `order - 2`. -/
theorem piece_joined {s : MSpline ℝ P} (h : s.MWF) {i : ℕ} (h2 : i + 1 + s.order < s.keys.length) {d j : ℕ}
    (hd : d + 2 ≤ s.order) (hjn : j + s.order < s.keys.length) :
    (derivative^[d] (piece s.kn i (s.order - 1) j)).eval (s.kn (i + 1)) =
      (derivative^[d] (piece s.kn (i + 1) (s.order - 1) j)).eval (s.kn (i + 1)) := by
  have h3 := h.order_pos
  exact piece_join_derivative s.kn s.keys.length i 1 h.mono (s.kn (i + 1)) (h.strict (by omega) (by omega))
    (h.strict (by omega) (by omega)) le_rfl (fun l b1 b2 => by rw [show l = i + 1 by omega]) d (s.order - 1) j (by omega) (by omega)

end Glue

/-! ### The weights of quaternion splines at knots -/

theorem beta_joined {s : MSpline ℝ ℍ[ℝ]} (h : s.MWF) {i : ℕ} (h1 : s.order ≤ i + 1) (h2 : i + 1 + s.order < s.keys.length) {d j : ℕ}
    (hd : d + 2 ≤ s.order) (hj : j < s.order) :
    (derivative^[d] (s.betaPoly i (j + 1))).eval (s.kn (i + 1)) = (derivative^[d] (s.betaPoly (i + 1) j)).eval (s.kn (i + 1)) := by
  unfold betaPoly
  rw [iterate_derivative_sum', iterate_derivative_sum', eval_finsetSum, eval_finsetSum]
  rw [sum_Ico_eq_sum_range, sum_Ico_eq_sum_range, show s.order - j = s.order - (j + 1) + 1 by omega, sum_range_succ]
  have hz : (derivative^[d] (piece s.kn (i + 1) (s.order - 1) (i + 1 + 1 - s.order + (j + (s.order - (j + 1)))))).eval (s.kn (i + 1)) = 0 := by
    rw [← piece_joined h h2 hd (by omega), piece_zero_of_lt _ _ _ _ (by omega), iterate_derivative_zero, eval_zero]
  rw [hz, add_zero]
  refine sum_congr rfl fun c hc => ?_
  have := mem_range.1 hc
  rw [show i + 1 + 1 - s.order + (j + c) = i + 1 - s.order + (j + 1 + c) by omega]
  exact piece_joined h h2 hd (by omega)

theorem beta_zero {s : MSpline ℝ ℍ[ℝ]} (h : s.MWF) {i : ℕ} (h1 : s.order ≤ i + 1) (h2 : i + s.order < s.keys.length) :
    s.betaPoly i 0 = 1 := by
  have h3 := h.order_pos
  have e1 := piece_sum_one s.kn s.keys.length i h.mono (h.strict (by omega) (by omega)) (s.order - 1) (by omega) (by omega)
  rw [sum_Ico_eq_sum_range, show i + 1 - (i - (s.order - 1)) = s.order by omega] at e1
  unfold betaPoly
  rw [← e1, Nat.Ico_zero_eq_range]
  exact sum_congr rfl fun c _ => by rw [show i + 1 - s.order = i - (s.order - 1) by omega]

/-! ### Products -/

theorem rD_congr {b b' : ℕ → ℝ} {e : ℕ} (hb : ∀ n, n ≤ e → b n = b' n) (φ : ℍ[ℝ]) : rD b φ e = rD b' φ e := by
  have h0 := hb 0 (by omega)
  match e, hb with
  | 0, _ => simp only [rD, h0]
  | 1, hb => simp only [rD, h0, hb 1 (by omega)]
  | 2, hb => simp only [rD, h0, hb 1 (by omega), hb 2 (by omega)]
  | 3, hb => simp only [rD, h0, hb 1 (by omega), hb 2 (by omega), hb 3 (by omega)]
  | e + 4, _ => simp only [rD]

/-- A factor that is constant to the order considered. -/
theorem rD_const {b : ℕ → ℝ} {e : ℕ} (he : 0 < e) (hb : ∀ n, 0 < n → n ≤ e → b n = 0) (φ : ℍ[ℝ]) : rD b φ e = 0 := by
  match e, he, hb with
  | 1, _, hb => simp [rD, hb 1 (by omega) (by omega)]
  | 2, _, hb => simp [rD, hb 1 (by omega) (by omega), hb 2 (by omega) (by omega)]
  | 3, _, hb => simp [rD, hb 1 (by omega) (by omega), hb 2 (by omega) (by omega), hb 3 (by omega) (by omega)]
  | e + 4, _, _ => simp [rD]

theorem dProd_cons_const {f : ℕ → ℍ[ℝ]} (fs : List (ℕ → ℍ[ℝ])) {d : ℕ} (hf : ∀ e, 0 < e → e ≤ d → f e = 0) :
    dProd (f :: fs) d = dProd fs d * f 0 := by
  rw [dProd, sum_eq_single_of_mem (0, d) (by simp)]
  · simp
  · rintro ⟨a, b⟩ hab hne
    have := mem_antidiagonal.1 hab
    simp only at this
    have ha : a ≠ 0 := by rintro rfl; exact hne (by simp at this; rw [this])
    simp only
    rw [hf a (by omega) (by omega), mul_zero, smul_zero]

theorem dProd_append_one {g : ℕ → ℍ[ℝ]} (hg0 : g 0 = 1) : ∀ (fs : List (ℕ → ℍ[ℝ])) (d : ℕ), (∀ e, 0 < e → e ≤ d → g e = 0) →
    dProd (fs ++ [g]) d = dProd fs d
  | [], d, hg => by
    rw [List.nil_append, dProd_single]
    unfold dProd
    split_ifs with hd
    · rw [hd, hg0]
    · exact hg d (by omega) le_rfl
  | f :: fs, d, hg => by
    rw [List.cons_append]
    unfold dProd
    refine sum_congr rfl fun ij hij => ?_
    have := mem_antidiagonal.1 hij
    rw [dProd_append_one hg0 fs ij.2 fun e e1 e2 => hg e e1 (by omega)]

theorem dProd_factors_congr (β β' : ℕ → ℝ[X]) (t : ℝ) : ∀ (φs : List V3) (k k' d : ℕ),
    (∀ j, j < φs.length → ∀ n, n ≤ d → (derivative^[n] (β (k + j + 1))).eval t = (derivative^[n] (β' (k' + j + 1))).eval t) →
    dProd ((factorsFrom β k φs).map fun f e => f e t) d = dProd ((factorsFrom β' k' φs).map fun f e => f e t) d
  | [], _, _, _, _ => rfl
  | φ :: φs, k, k', d, hb => by
    simp only [factorsFrom, List.map_cons]
    unfold dProd
    refine sum_congr rfl fun ij hij => ?_
    have := mem_antidiagonal.1 hij
    rw [dProd_factors_congr β β' t φs (k + 1) (k' + 1) ij.2 fun j hj n hn => ?_]
    · refine congrArg (fun z => d.choose ij.1 • (_ * z)) (rD_congr (fun n hn => ?_) _)
      exact hb 0 (by simp) n (by omega)
    · have := hb (j + 1) (by simpa using hj) n (by omega)
      rwa [show k + (j + 1) = k + 1 + j by omega, show k' + (j + 1) = k' + 1 + j by omega] at this

theorem factorsFrom_append (β : ℕ → ℝ[X]) : ∀ (φs : List V3) (φ : V3) (k : ℕ), factorsFrom β k (φs ++ [φ]) =
    factorsFrom β k φs ++ [fun e x => rD (fun n => (derivative^[n] (β (k + φs.length + 1))).eval x) (quatV φ) e]
  | [], _, _ => rfl
  | ψ :: φs, φ, k => by
    rw [List.cons_append]
    simp only [factorsFrom]
    rw [factorsFrom_append β φs φ (k + 1), List.cons_append, List.length_cons, show k + 1 + φs.length = k + (φs.length + 1) by omega]

theorem phiList_append (lg : ℍ[ℝ] → V3) : ∀ (cs : List ℍ[ℝ]) (a n : ℍ[ℝ]), ∃ φ, phiList lg a (cs ++ [n]) = phiList lg a cs ++ [φ]
  | [], a, n => ⟨_, rfl⟩
  | c :: cs, a, n => by
    obtain ⟨φ, hφ⟩ := phiList_append lg cs c n
    exact ⟨φ, by rw [List.cons_append]; simp only [phiList]; rw [hφ, List.cons_append]⟩

/-! ### The curve of a quaternion spline at a knot -/

/-- The product the curves of two neighbouring segments share at the knot between them. -/
noncomputable def knotProd (lg : ℍ[ℝ] → V3) (s : MSpline ℝ ℍ[ℝ]) (i : ℕ) (b : ℍ[ℝ]) (cs : List ℍ[ℝ]) (d : ℕ) : ℍ[ℝ] :=
  dProd ((factorsFrom (s.betaPoly (i + 1)) 0 (phiList lg b cs)).map fun f e => f e (s.kn (i + 1))) d

theorem norm_factors (β : ℕ → ℝ[X]) (x : ℝ) : ∀ (φs : List V3) (k : ℕ), ‖dProd ((factorsFrom β k φs).map fun f e => f e x) 0‖ = 1
  | [], k => by simp [factorsFrom, dProd]
  | φ :: φs, k => by
    simp only [factorsFrom, List.map_cons]
    rw [dProd_zero, norm_mul, norm_factors β x φs, norm_rD_zero, _root_.mul_one]

theorem segQ_left (lg : ℍ[ℝ] → V3) {s : MSpline ℝ ℍ[ℝ]} (h : s.MWF) {i : ℕ} (h1 : s.order ≤ i + 1)
    (h2 : i + 1 + s.order < s.keys.length) {d : ℕ} (hd : d + 2 ≤ s.order) {a b : ℍ[ℝ]} {cs : List ℍ[ℝ]} (hl : cs.length + 2 = s.order) :
    s.segQ lg i a (b :: cs) d (s.kn (i + 1)) = s.knotProd lg i b cs d * (axisAngle2quat (lg (b * star a)) * a) := by
  have hbeta : ∀ n, n ≤ d → (derivative^[n] (s.betaPoly i (0 + 1))).eval (s.kn (i + 1)) = if n = 0 then 1 else 0 := by
    intro n hn
    rw [beta_joined h h1 h2 (by omega) (by omega), beta_zero h (by omega) h2]
    split_ifs with h0
    · rw [h0]; simp
    · rw [← C_1, iterate_derivative_C (by omega), eval_zero]
  unfold segQ segFactors
  simp only [phiList, factorsFrom, List.map_cons]
  rw [dProd_cons_const]
  · simp only [rD]
    rw [hbeta 0 (by omega), if_pos rfl, one_smul, ← axisAngle2quat_eq, mul_assoc]
    unfold knotProd
    congr 1
    refine dProd_factors_congr _ _ _ _ _ _ _ fun j hj n hn => ?_
    rw [phiList_length] at hj
    rw [show 0 + 1 + j + 1 = (j + 1) + 1 by omega, show 0 + j + 1 = j + 1 by omega]
    exact beta_joined h h1 h2 (by omega) (by omega)
  · intro e he1 he2
    exact rD_const he1 (fun n n1 n2 => by rw [hbeta n (by omega), if_neg (by omega)]) _

theorem segQ_right (lg : ℍ[ℝ] → V3) {s : MSpline ℝ ℍ[ℝ]} (h : s.MWF) {i : ℕ} (h1 : s.order ≤ i + 1)
    (h2 : i + 1 + s.order < s.keys.length) {d : ℕ} (hd : d + 2 ≤ s.order) {b n : ℍ[ℝ]} {cs : List ℍ[ℝ]} (hl : cs.length + 2 = s.order) :
    s.segQ lg (i + 1) b (cs ++ [n]) d (s.kn (i + 1)) = s.knotProd lg i b cs d * b := by
  have hbeta : ∀ m, m ≤ d → (derivative^[m] (s.betaPoly (i + 1) (0 + cs.length + 1))).eval (s.kn (i + 1)) = 0 := by
    intro m hm
    rw [← beta_joined h h1 h2 (by omega) (by omega)]
    unfold betaPoly
    rw [show 0 + cs.length + 1 + 1 = s.order by omega, Ico_self, sum_empty, iterate_derivative_zero, eval_zero]
  obtain ⟨φ, hφ⟩ := phiList_append lg cs b n
  unfold segQ segFactors knotProd
  rw [hφ, factorsFrom_append, List.map_append, List.map_singleton, phiList_length, dProd_append_one]
  · simp only [rD]
    rw [hbeta 0 (by omega), zero_smul, NormedSpace.exp_zero]
  · intro e he1 he2
    exact rD_const he1 (fun m m1 m2 => hbeta m (by omega)) _

/-- The control vertices of two neighbouring segments. -/
theorem windows {s : MSpline ℝ ℍ[ℝ]} {i : ℕ} (h1 : s.order ≤ i + 1) (h2 : i + 1 + s.order < s.keys.length) (ho : 2 ≤ s.order) :
    ∃ a b cs n, cs.length + 2 = s.order ∧ s.verts[i + 1 - s.order]? = some a ∧ s.verts[i + 2 - s.order]? = some b ∧
      (s.verts.drop (i + 1 - s.order)).take s.order = a :: b :: cs ∧
      (s.verts.drop (i + 1 + 1 - s.order)).take s.order = b :: (cs ++ [n]) := by
  rw [keys_length] at h2
  have hlen : s.verts.length = s.segs.length := by simp [verts]
  obtain ⟨k, hk⟩ : ∃ k, s.order = k + 2 := ⟨s.order - 2, by omega⟩
  obtain ⟨m, hm⟩ : ∃ m, i + 1 - s.order = m := ⟨_, rfl⟩
  rw [hk] at h1 h2 hm ⊢
  have hm2 : i + 1 + 1 - (k + 2) = m + 1 := by omega
  rw [hm, hm2]
  have l1 : m < s.verts.length := by omega
  have l2 : m + 1 < s.verts.length := by omega
  have l3 : m + 2 + k < s.verts.length := by omega
  refine ⟨s.verts[m], s.verts[m + 1], (s.verts.drop (m + 2)).take k, s.verts[m + 2 + k], ?_, List.getElem?_eq_getElem l1,
    List.getElem?_eq_getElem l2, ?_, ?_⟩
  · rw [List.length_take, List.length_drop]; omega
  · rw [← List.cons_getElem_drop_succ (h := l1), ← List.cons_getElem_drop_succ (h := l2)]
    rfl
  · rw [← List.cons_getElem_drop_succ (h := l2), List.take_succ_cons, List.take_succ, List.getElem?_drop,
      List.getElem?_eq_getElem l3]
    rfl

end Verif.MSpline
