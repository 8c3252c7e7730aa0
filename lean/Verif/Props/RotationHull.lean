import Verif.Props.RotationRate
import Mathlib.Analysis.SpecialFunctions.Trigonometric.Bounds

/-!
# Property C103: a quaternion spline stays near its control rotations

The curve of a B-spline in a vector space is a weighted mean of its control points, so it lies in their convex hull (C02).  Rotations have no
such mean.  What remains is a bound of the distance: the angle between the rotation of the spline and any control vertex is at most the mean of
the lengths of the control polygon between that vertex and the others, with the basis functions as weights.
-/

set_option linter.unusedSectionVars false

namespace Verif.MSpline

open Finset Polynomial Quaternion InnerProductGeometry

/-- The length of the polygon of control vertices between the `m`-th and the `l`-th: the sum of half the norms of the logarithms between
neighbours.  The logarithm is a rotation vector, the angle between unit quaternions is half that of the rotation. -/
noncomputable def Spec.polygonLength (lg : ℍ[ℝ] → V3) (v : ℕ → ℍ[ℝ]) (m l : ℕ) : ℝ :=
  ∑ j ∈ Ico (min m l) (max m l), norm3 (lg (qplus (quatInv (v j)) (v (j + 1)))) / 2

/-! ### Angles between unit quaternions -/

theorem angle_unit {p q : ℍ[ℝ]} (hp : ‖p‖ = 1) (hq : ‖q‖ = 1) : angle p q = Real.arccos (p * star q).re := by
  unfold angle
  rw [hp, hq, Quaternion.inner_def, _root_.mul_one, div_one]

theorem angle_mul_right {p q a : ℍ[ℝ]} (hp : ‖p‖ = 1) (hq : ‖q‖ = 1) (ha : ‖a‖ = 1) : angle (p * a) (q * a) = angle p q := by
  rw [angle_unit (by rw [norm_mul, hp, ha, _root_.mul_one]) (by rw [norm_mul, hq, ha, _root_.mul_one]), angle_unit hp hq, star_mul,
    mul_assoc, ← mul_assoc a, unit_mul_star ha, _root_.one_mul]

theorem re_mul_comm (p q : ℍ[ℝ]) : (p * q).re = (q * p).re := by
  simp only [Quaternion.re_mul]
  ring

theorem angle_mul_left {p q a : ℍ[ℝ]} (hp : ‖p‖ = 1) (hq : ‖q‖ = 1) (ha : ‖a‖ = 1) : angle (a * p) (a * q) = angle p q := by
  rw [angle_unit (by rw [norm_mul, hp, ha, _root_.mul_one]) (by rw [norm_mul, hq, ha, _root_.mul_one]), angle_unit hp hq, star_mul,
    mul_assoc, re_mul_comm, mul_assoc, mul_assoc, unit_star_mul ha, _root_.mul_one]

theorem norm3_nonneg (v : V3) : 0 ≤ norm3 v := Real.sqrt_nonneg _

theorem norm_exp_quatV (x : ℝ) (φ : V3) : ‖NormedSpace.exp (x • quatV φ)‖ = 1 := by
  rw [← quatV_smul, ← axisAngle2quat_eq, norm_axisAngle2quat]

theorem arccos_cos_le {x : ℝ} (hx : 0 ≤ x) : Real.arccos (Real.cos x) ≤ x := by
  rcases le_total x Real.pi with h | h
  · rw [Real.arccos_cos hx h]
  · exact (Real.arccos_le_pi _).trans h

theorem angle_exp_le (x y : ℝ) (φ : V3) :
    angle (NormedSpace.exp (x • quatV φ)) (NormedSpace.exp (y • quatV φ)) ≤ |x - y| * (norm3 φ / 2) := by
  rw [angle_unit (norm_exp_quatV x φ) (norm_exp_quatV y φ), star_exp, ← exp_add_smul, Quaternion.exp_of_re_eq_zero _ (by simp)]
  have : ‖(x + -y) • quatV φ‖ = |x - y| * (norm3 φ / 2) := by
    rw [norm_smul, norm_quatV, Real.norm_eq_abs, ← sub_eq_add_neg]
  rw [this]
  have h0 : 0 ≤ |x - y| * (norm3 φ / 2) := by have := norm3_nonneg φ; positivity
  simpa using arccos_cos_le h0

/-- The chord is no longer than the arc. -/
theorem norm_sub_le_angle {p q : ℍ[ℝ]} (hp : ‖p‖ = 1) (hq : ‖q‖ = 1) : ‖p - q‖ ≤ angle p q := by
  have e := norm_sub_sq_real p q
  have hc := cos_angle_mul_norm_mul_norm p q
  rw [hp, hq, _root_.mul_one, _root_.mul_one] at hc
  rw [hp, hq, ← hc] at e
  have h0 := angle_nonneg p q
  have h1 := Real.one_sub_sq_div_two_le_cos (x := angle p q)
  refine abs_le_of_sq_le_sq' ?_ h0 |>.2
  nlinarith

/-! ### The curve of a segment and its control vertices -/

theorem angle_window (lg : ℍ[ℝ] → V3) (β : ℕ → ℝ[X]) (x : ℝ) : ∀ (cs : List ℍ[ℝ]) (a : ℍ[ℝ]) (k : ℕ), ‖a‖ = 1 →
    (∀ j p q, (a :: cs)[j]? = some p → (a :: cs)[j + 1]? = some q → NormedSpace.exp (quatV (lg (q * star p))) = q * star p) →
    ∀ (m : ℕ) (hm : m < (a :: cs).length),
    angle (dProd ((factorsFrom β k (phiList lg a cs)).map fun f e => f e x) 0 * a) (a :: cs)[m] ≤
      ∑ j ∈ range cs.length, (if j < m then |1 - (β (k + j + 1)).eval x| else |(β (k + j + 1)).eval x|) *
        (norm3 ((phiList lg a cs).getD j 0) / 2)
  | [], a, k, ha, _, m, hm => by
    have : a ≠ 0 := by rintro rfl; simp at ha
    have hm : m = 0 := by simpa using hm
    subst hm
    simp [phiList, factorsFrom, dProd, angle_self this]
  | c :: cs, a, k, ha, hch, m, hm => by
    have h0 := hch 0 a c rfl rfl
    have hexp : NormedSpace.exp (quatV (lg (c * star a))) * a = c := by
      rw [h0, mul_assoc, unit_star_mul ha, _root_.mul_one]
    have hn1 := norm_exp_quatV 1 (lg (c * star a))
    rw [one_smul] at hn1
    have hc : ‖c‖ = 1 := by rw [← hexp, norm_mul, hn1, ha, _root_.mul_one]
    have ih := angle_window lg β x cs c (k + 1) hc fun j p q hp hq => hch (j + 1) p q (by simpa using hp) (by simpa using hq)
    have hD := norm_factors β x (phiList lg c cs) (k + 1)
    simp only [phiList, factorsFrom, List.map_cons]
    rw [dProd_zero, List.length_cons, sum_range_succ']
    simp only [rD, Function.iterate_zero, id]
    set D := dProd ((factorsFrom β (k + 1) (phiList lg c cs)).map fun f e => f e x) 0
    set φ := lg (c * star a)
    have he := norm_exp_quatV ((β (k + 1)).eval x) φ
    have hDe : ‖D * NormedSpace.exp ((β (k + 1)).eval x • quatV φ)‖ = 1 := by rw [norm_mul, hD, he, _root_.mul_one]
    match m, hm with
    | 0, _ =>
      have i0 := ih 0 (by simp)
      simp only [List.getElem_cons_zero] at i0 ⊢
      have e1 : angle (D * NormedSpace.exp ((β (k + 1)).eval x • quatV φ) * a) a =
          angle (D * NormedSpace.exp ((β (k + 1)).eval x • quatV φ)) 1 := by
        have := angle_mul_right (q := 1) hDe norm_one ha
        rwa [_root_.one_mul] at this
      have e2 : angle (D * c) c = angle D 1 := by
        have := angle_mul_right (q := 1) hD norm_one hc
        rwa [_root_.one_mul] at this
      have e3 : angle (D * NormedSpace.exp ((β (k + 1)).eval x • quatV φ)) (NormedSpace.exp ((β (k + 1)).eval x • quatV φ)) = angle D 1 := by
        have := angle_mul_right (q := 1) hD norm_one he
        rwa [_root_.one_mul] at this
      have e4 := angle_exp_le ((β (k + 1)).eval x) 0 φ
      rw [zero_smul, NormedSpace.exp_zero, sub_zero] at e4
      have tri := angle_le_angle_add_angle (D * NormedSpace.exp ((β (k + 1)).eval x • quatV φ))
        (NormedSpace.exp ((β (k + 1)).eval x • quatV φ)) 1
      rw [e1]
      rw [e2] at i0
      rw [e3] at tri
      refine tri.trans (add_le_add (i0.trans (le_of_eq (sum_congr rfl fun j _ => ?_))) (by simpa using e4))
      rw [show k + 1 + j + 1 = k + (j + 1) + 1 by omega]
      simp
    | m + 1, hm =>
      have i1 := ih m (by simpa using hm)
      simp only [List.getElem_cons_succ] at i1 ⊢
      have e1 : angle (D * NormedSpace.exp ((β (k + 1)).eval x • quatV φ) * a) (D * c) =
          angle (NormedSpace.exp ((β (k + 1)).eval x • quatV φ)) (NormedSpace.exp ((1 : ℝ) • quatV φ)) := by
        have h1 := norm_exp_quatV 1 φ
        rw [← hexp, one_smul, ← mul_assoc, angle_mul_right hDe (by rw [norm_mul, hD, hn1, _root_.mul_one]) ha,
          angle_mul_left he hn1 hD]
      have e2 := angle_exp_le ((β (k + 1)).eval x) 1 φ
      have tri := angle_le_angle_add_angle (D * NormedSpace.exp ((β (k + 1)).eval x • quatV φ) * a) (D * c) ((c :: cs)[m]'(by simpa using hm))
      rw [e1] at tri
      rw [abs_sub_comm] at e2
      refine tri.trans ((add_le_add e2 i1).trans (le_of_eq ?_))
      rw [add_comm]
      congr 1
      · refine sum_congr rfl fun j _ => ?_
        rw [show k + 1 + j + 1 = k + (j + 1) + 1 by omega]
        simp

/-! ### Lengths of polygons -/

theorem sum_arcs (w len : ℕ → ℝ) (n m : ℕ) (hm : m ≤ n) :
    ∑ j ∈ range n, (if j < m then ∑ l ∈ range (j + 1), w l else ∑ l ∈ Ico (j + 1) (n + 1), w l) * len j =
      ∑ l ∈ range (n + 1), w l * ∑ j ∈ Ico (min m l) (max m l), len j := by
  have e : ∀ l ∈ range (n + 1), w l * ∑ j ∈ Ico (min m l) (max m l), len j =
      ∑ j ∈ range n, if min m l ≤ j ∧ j < max m l then w l * len j else 0 := by
    intro l hl
    have hl := mem_range.1 hl
    rw [mul_sum, ← sum_filter]
    refine sum_congr ?_ fun _ _ => rfl
    ext j
    simp only [mem_Ico, mem_filter, mem_range]
    omega
  rw [sum_congr rfl e, sum_comm]
  refine sum_congr rfl fun j hj => ?_
  have hj := mem_range.1 hj
  split_ifs with hjm
  · rw [sum_mul, ← sum_filter]
    refine sum_congr ?_ fun _ _ => rfl
    ext l
    simp only [mem_filter, mem_range]
    omega
  · rw [sum_mul, ← sum_filter]
    refine sum_congr ?_ fun _ _ => rfl
    ext l
    simp only [mem_filter, mem_range, mem_Ico]
    omega

theorem polygonLength_nonneg (lg : ℍ[ℝ] → V3) (v : ℕ → ℍ[ℝ]) (m l : ℕ) : 0 ≤ Spec.polygonLength lg v m l :=
  sum_nonneg fun _ _ => by have := norm3_nonneg (lg (qplus (quatInv (v ‹_›)) (v (‹_› + 1)))); positivity

theorem polygonLength_comm (lg : ℍ[ℝ] → V3) (v : ℕ → ℍ[ℝ]) (m l : ℕ) : Spec.polygonLength lg v m l = Spec.polygonLength lg v l m := by
  unfold Spec.polygonLength
  rw [min_comm, max_comm]

theorem polygonLength_le (lg : ℍ[ℝ] → V3) (v : ℕ → ℍ[ℝ]) {a b : ℕ} (h : a ≤ b) :
    Spec.polygonLength lg v a b = ∑ j ∈ Ico a b, norm3 (lg (qplus (quatInv (v j)) (v (j + 1)))) / 2 := by
  unfold Spec.polygonLength
  rw [min_eq_left h, max_eq_right h]

theorem polygonLength_add (lg : ℍ[ℝ] → V3) (v : ℕ → ℍ[ℝ]) {a b c : ℕ} (h1 : a ≤ b) (h2 : b ≤ c) :
    Spec.polygonLength lg v a c = Spec.polygonLength lg v a b + Spec.polygonLength lg v b c := by
  rw [polygonLength_le lg v h1, polygonLength_le lg v h2, polygonLength_le lg v (h1.trans h2), sum_Ico_consecutive _ h1 h2]

/-- Along the polygon. -/
theorem angle_polygon (lg : ℍ[ℝ] → V3) (v : ℕ → ℍ[ℝ]) (nv : ℕ) (hu : ∀ j, j < nv → ‖v j‖ = 1)
    (hlog : ∀ j, j + 1 < nv → NormedSpace.exp (quatV (lg (v (j + 1) * star (v j)))) = v (j + 1) * star (v j)) (a : ℕ) :
    ∀ n, a + n < nv → angle (v a) (v (a + n)) ≤ Spec.polygonLength lg v a (a + n)
  | 0, h => by
    have : v a ≠ 0 := by intro h0; have := hu a (by omega); rw [h0, norm_zero] at this; exact zero_ne_one this
    simp [Spec.polygonLength, angle_self this]
  | n + 1, h => by
    have ih := angle_polygon lg v nv hu hlog a n (by omega)
    have tri := angle_le_angle_add_angle (v a) (v (a + n)) (v (a + (n + 1)))
    have hua := hu (a + n) (by omega)
    have step : angle (v (a + n)) (v (a + (n + 1))) ≤ norm3 (lg (qplus (quatInv (v (a + n))) (v (a + n + 1)))) / 2 := by
      have e := hlog (a + n) (by omega)
      have e2 := angle_exp_le 0 1 (lg (v (a + n + 1) * star (v (a + n))))
      rw [zero_smul, NormedSpace.exp_zero, one_smul, e, zero_sub, abs_neg, abs_one, _root_.one_mul] at e2
      have hw : ‖v (a + n + 1) * star (v (a + n))‖ = 1 := by
        rw [norm_mul, norm_star, hua, hu (a + n + 1) (by omega), _root_.mul_one]
      have e3 := angle_mul_right norm_one hw hua
      rw [_root_.one_mul, mul_assoc, unit_star_mul hua, _root_.mul_one] at e3
      rw [qplus_eq, quatInv_eq, show a + (n + 1) = a + n + 1 by omega, e3]
      exact e2
    rw [polygonLength_le lg v (by omega)] at ih ⊢
    rw [← add_assoc, sum_Ico_succ_top (by omega)]
    rw [← add_assoc] at tri step
    linarith

/-! ### The spline -/

/-- On a segment, with the polynomials of the segment as weights. -/
theorem angle_segment (lg : ℍ[ℝ] → V3) {s : MSpline ℝ ℍ[ℝ]} (hw : s.MWF) {t : ℝ} {i : ℕ} (hi : s.InSeg t i)
    {c : ℍ[ℝ]} {cs : List ℍ[ℝ]} (hv : (s.verts.drop (i + 1 - s.order)).take s.order = c :: cs)
    (hu : ∀ j, j < s.keys.length - s.order → ‖s.verts.getD j 0‖ = 1)
    (hlog : ∀ j, j + 1 < s.keys.length - s.order →
      NormedSpace.exp (quatV (lg (s.verts.getD (j + 1) 0 * star (s.verts.getD j 0)))) = s.verts.getD (j + 1) 0 * star (s.verts.getD j 0))
    (M : ℕ) (hM : M < s.keys.length - s.order) :
    angle (s.segQ lg i c cs 0 t) (s.verts.getD M 0) ≤ ∑ l ∈ range (s.keys.length - s.order),
      (piece s.kn i (s.order - 1) l).eval t * Spec.polygonLength lg (fun j => s.verts.getD j 0) M l := by
  have h1 := hi.lower
  have h2 := hi.upper
  have hl := segVerts_length hi hv
  have hlt := hi.lt hw
  have ho := hw.order_pos
  obtain ⟨b, hb⟩ : ∃ b, i + 1 - s.order = b := ⟨_, rfl⟩
  obtain ⟨n, hn⟩ : ∃ n, s.order = n + 1 := ⟨s.order - 1, by omega⟩
  have hget : ∀ j (hj : j < (c :: cs).length), (c :: cs)[j] = s.verts.getD (b + j) 0 := by
    intro j hj
    have := window_getElem hv hl j hj
    rw [hb] at this
    rw [List.getD_eq_getElem?_getD, this, Option.getD_some]
  set v : ℕ → ℍ[ℝ] := fun j => s.verts.getD j 0 with hvd
  set w : ℕ → ℝ := fun l => (piece s.kn i (s.order - 1) (b + l)).eval t with hwd
  have hwn : ∀ l, l ≤ n → 0 ≤ w l := fun l hl' => piece_nonneg s.kn s.keys.length i hw.mono t hi.left hi.right_le _ _ (by omega)
  have hws : ∑ l ∈ range (n + 1), w l = 1 := by
    have hsum := piece_sum_one s.kn s.keys.length i hw.mono hlt n (by omega) (by omega)
    rw [sum_Ico_eq_sum_range, show i + 1 - (i - n) = n + 1 by omega, show i - n = b by omega] at hsum
    have hsum' := congrArg (Polynomial.eval t) hsum
    rw [eval_finsetSum, eval_one] at hsum'
    rw [← hsum']
    exact sum_congr rfl fun l _ => by simp only [hwd]; rw [show s.order - 1 = n by omega]
  have hβ : ∀ j, (s.betaPoly i j).eval t = ∑ l ∈ Ico j (n + 1), w l := by
    intro j
    unfold betaPoly
    rw [eval_finsetSum, hb, hn]
    exact sum_congr rfl fun l _ => by simp only [hwd]; rw [hn]
  have hβ' : ∀ j, j ≤ n → 1 - (s.betaPoly i (j + 1)).eval t = ∑ l ∈ range (j + 1), w l := by
    intro j hj
    rw [hβ, ← hws, ← sum_range_add_sum_Ico w (show j + 1 ≤ n + 1 by omega)]
    ring
  -- inside the window
  have inside : ∀ m, m ≤ n → angle (s.segQ lg i c cs 0 t) (v (b + m)) ≤
      ∑ l ∈ range (n + 1), w l * Spec.polygonLength lg v (b + m) (b + l) := by
    intro m hm
    have hc : ‖c‖ = 1 := by
      have := hget 0 (by simp)
      simp only [List.getElem_cons_zero] at this
      rw [this]
      exact hu _ (by omega)
    have key := angle_window lg (s.betaPoly i) t cs c 0 hc (fun j p q hp hq => by
      obtain ⟨hj, hp⟩ := List.getElem?_eq_some_iff.1 hp
      obtain ⟨hj', hq⟩ := List.getElem?_eq_some_iff.1 hq
      rw [hget] at hp hq
      have := hlog (b + j) (by simp at hj'; omega)
      rw [← hp, ← hq]
      exact this) m (by simp; omega)
    rw [hget] at key
    refine key.trans (le_of_eq ?_)
    rw [show cs.length = n by omega]
    have e : ∀ l ∈ range (n + 1), w l * Spec.polygonLength lg v (b + m) (b + l) =
        w l * ∑ j ∈ Ico (min m l) (max m l), norm3 (lg (qplus (quatInv (v (b + j))) (v (b + j + 1)))) / 2 := by
      intro l _
      congr 1
      unfold Spec.polygonLength
      rw [Nat.add_min_add_left, Nat.add_max_add_left, sum_Ico_eq_sum_range, sum_Ico_eq_sum_range,
        show b + max m l - (b + min m l) = max m l - min m l by omega]
      exact sum_congr rfl fun j _ => by rw [add_assoc b]
    rw [sum_congr rfl e, ← sum_arcs w _ n m hm]
    refine sum_congr rfl fun j hj => ?_
    have hj := mem_range.1 hj
    rw [phiList_getD lg cs c j (by omega), hget, show cs[j] = (c :: cs)[j + 1]'(by simp; omega) from rfl, hget, qplus_eq, quatInv_eq,
      ← add_assoc, Nat.zero_add, hβ' j (by omega), hβ]
    rw [abs_of_nonneg (sum_nonneg fun l hl' => hwn l (by have := mem_range.1 hl'; omega)),
      abs_of_nonneg (sum_nonneg fun l hl' => hwn l (by have := mem_Ico.1 hl'; omega))]
  -- all control vertices
  have total : ∑ l ∈ range (s.keys.length - s.order), (piece s.kn i (s.order - 1) l).eval t * Spec.polygonLength lg v M l =
      ∑ l ∈ range (n + 1), w l * Spec.polygonLength lg v M (b + l) := by
    rw [← sum_subset (s₁ := (range (n + 1)).map (addLeftEmbedding b)) (s₂ := range (s.keys.length - s.order))]
    · rw [sum_map]
      rfl
    · intro l hl'
      obtain ⟨j, hj, rfl⟩ := mem_map.1 hl'
      have := mem_range.1 hj
      simp only [addLeftEmbedding_apply, mem_range]
      omega
    · intro l _ hl'
      have : l < b ∨ b + n < l := by
        by_contra hc
        push Not at hc
        exact hl' (mem_map.2 ⟨l - b, mem_range.2 (by omega), by simp; omega⟩)
      rcases this with h3 | h3
      · rw [piece_zero_of_gt s.kn i _ _ (by omega), eval_zero, zero_mul]
      · rw [piece_zero_of_lt s.kn i _ _ (by omega), eval_zero, zero_mul]
  rw [total]
  have outside : ∀ m A, m ≤ n → (∀ l, l ≤ n → Spec.polygonLength lg v M (b + l) = A + Spec.polygonLength lg v (b + m) (b + l)) →
      angle (v (b + m)) (v M) ≤ A → angle (s.segQ lg i c cs 0 t) (v M) ≤ ∑ l ∈ range (n + 1), w l * Spec.polygonLength lg v M (b + l) := by
    intro m A hm hA ha
    have tri := angle_le_angle_add_angle (s.segQ lg i c cs 0 t) (v (b + m)) (v M)
    have := inside m hm
    have e : ∑ l ∈ range (n + 1), w l * Spec.polygonLength lg v M (b + l) =
        A + ∑ l ∈ range (n + 1), w l * Spec.polygonLength lg v (b + m) (b + l) := by
      rw [sum_congr rfl fun l hl' => by rw [hA l (by have := mem_range.1 hl'; omega), mul_add], sum_add_distrib, ← sum_mul, hws,
        _root_.one_mul]
    rw [e]
    linarith
  rcases Nat.lt_or_ge M b with h3 | h3
  · refine outside 0 (Spec.polygonLength lg v M b) (by omega) (fun l hl' => polygonLength_add lg v h3.le (by omega)) ?_
    rw [angle_comm]
    have := angle_polygon lg v _ hu hlog M (b - M) (by omega)
    rwa [show M + (b - M) = b by omega] at this
  · rcases Nat.lt_or_ge (b + n) M with h4 | h4
    · refine outside n (Spec.polygonLength lg v (b + n) M) le_rfl (fun l hl' => ?_) ?_
      · rw [polygonLength_comm lg v M, polygonLength_comm lg v (b + n) (b + l), add_comm (Spec.polygonLength _ _ _ _)]
        exact polygonLength_add lg v (a := b + l) (b := b + n) (by omega) h4.le
      · have := angle_polygon lg v _ hu hlog (b + n) (M - (b + n)) (by omega)
        rwa [show b + n + (M - (b + n)) = M by omega] at this
    · have := inside (M - b) (by omega)
      rwa [show b + (M - b) = M by omega] at this

/-- The hypotheses in the form of the lemmas. -/
theorem units_getD {s : MSpline ℝ ℍ[ℝ]} {nv : ℕ} (hnv : nv ≤ s.verts.length) (hverts : ∀ v ∈ s.verts.take nv, ‖v‖ = 1)
    (j : ℕ) (hj : j < nv) : ‖s.verts.getD j 0‖ = 1 := by
  rw [List.getD_eq_getElem?_getD, List.getElem?_eq_getElem (by omega), Option.getD_some]
  refine hverts _ (List.mem_of_getElem? (i := j) ?_)
  rw [List.getElem?_take_of_lt hj, List.getElem?_eq_getElem (by omega)]

theorem log_getD (lg : ℍ[ℝ] → V3) {s : MSpline ℝ ℍ[ℝ]} {nv : ℕ} (hnv : nv ≤ s.verts.length) (hlog : s.LogInverse lg nv) (j : ℕ)
    (hj : j + 1 < nv) : NormedSpace.exp (quatV (lg (s.verts.getD (j + 1) 0 * star (s.verts.getD j 0)))) =
      s.verts.getD (j + 1) 0 * star (s.verts.getD j 0) := by
  have := hlog j (s.verts.getD j 0) (s.verts.getD (j + 1) 0) hj
    (by rw [List.getD_eq_getElem?_getD, List.getElem?_eq_getElem (by omega), Option.getD_some])
    (by rw [List.getD_eq_getElem?_getD, List.getElem?_eq_getElem (by omega), Option.getD_some])
  rwa [axisAngle2quat_eq, qplus_eq, quatInv_eq] at this

/-- **C103**: at every valid time the angle between the quaternion of the spline and any control vertex is at most the mean of the lengths of
the control polygon from that vertex to all control vertices, weighted with the Cox–de Boor functions of the knots; at the maximum time with
their limits from the left. -/
theorem C103_near_controls (lg : ℍ[ℝ] → V3) (order : ℕ) (ho : 1 ≤ order) (s : MSpline ℝ ℍ[ℝ])
    (h : RegularReach (quatGroup lg).toMfd order s) (he : s.state = .evaluable) (nv : ℕ) (hnv : s.numControlVertices = .ok nv)
    (hverts : ∀ v ∈ s.verts.take nv, ‖v‖ = 1) (hlog : s.LogInverse lg nv) (tmin tmax : ℝ) (hmin : s.getMinTime = .ok tmin)
    (hmax : s.getMaxTime = .ok tmax) (m : ℕ) (hm : m < nv) :
    (∀ t, tmin ≤ t → t < tmax → ∃ q, s.quatEvalD lg t 0 = .ok q ∧ angle q (s.verts.getD m 0) ≤
      ∑ l ∈ range nv, Spec.N (fun i => s.keys.getD i 0) (order - 1) l t * Spec.polygonLength lg (fun j => s.verts.getD j 0) m l) ∧
    ∃ q, s.quatEvalD lg tmax 0 = .ok q ∧ angle q (s.verts.getD m 0) ≤
      ∑ l ∈ range nv, Spec.NLeft (fun i => s.keys.getD i 0) (order - 1) l tmax * Spec.polygonLength lg (fun j => s.verts.getD j 0) m l := by
  obtain ⟨hw, rfl⟩ := h.mwf ho
  have hn := hw.enough he
  rw [numControlVertices_eq hw he, Outcome.ok.injEq] at hnv
  rw [getMinTime_eq hw he, Outcome.ok.injEq] at hmin
  rw [getMaxTime_eq hw he, Outcome.ok.injEq] at hmax
  subst hnv hmin hmax
  have hvl : s.keys.length - s.order ≤ s.verts.length := by rw [keys_length]; simp [verts]
  have hu := units_getD hvl hverts
  have hlg := log_getD lg hvl hlog
  have hkn : (fun i => s.keys.getD i 0) = s.kn := rfl
  rw [hkn]
  constructor
  · intro t h1 h2
    obtain ⟨i, hi, -⟩ := getSegmentIterator_ok hw he t h1 h2.le
    have l1 := hi.lower
    have l2 := hi.upper
    have hr : t < s.kn (i + 1) := by
      rcases hi.right with h3 | ⟨h3, h4⟩
      · exact h3
      · rw [h3, show i + 1 = s.keys.length - s.order by omega] at h2
        exact absurd h2 (lt_irrefl _)
    obtain ⟨c, cs, hv⟩ := segVerts_exists hw hi
    refine ⟨_, quatEvalD_segQ lg hw he hi hv 0 (Or.inl (by omega)), (angle_segment lg hw hi hv hu hlg m hm).trans (le_of_eq ?_)⟩
    refine sum_congr rfl fun j hj => ?_
    have hj := mem_range.1 hj
    rw [N_eq_piece s.kn i t (s.keys.length - 1) ?_ _ _ (by omega)]
    intro j' hj'
    constructor
    · rintro ⟨g1, g2⟩
      by_contra hc
      rcases Nat.lt_or_ge j' i with h5 | h5
      · exact absurd (g2.trans_le ((hw.mono _ _ (by omega) (by omega)).trans hi.left)) (lt_irrefl _)
      · exact absurd (hr.trans_le ((hw.mono _ _ (by omega) (by omega)).trans g1)) (lt_irrefl _)
    · intro h5; rw [h5]; exact ⟨hi.left, hr⟩
  · obtain ⟨i, hi, -⟩ := getSegmentIterator_ok hw he (s.kn (s.keys.length - s.order)) (hw.mono _ _ (by omega) (by omega)) le_rfl
    have l1 := hi.lower
    have l2 := hi.upper
    have ei : i + 1 = s.keys.length - s.order := by
      rcases hi.right with h1 | h1
      · exact absurd h1 (not_lt.2 (hw.mono _ _ (by omega) (by omega)))
      · omega
    obtain ⟨c, cs, hv⟩ := segVerts_exists hw hi
    refine ⟨_, quatEvalD_segQ lg hw he hi hv 0 (Or.inl (by omega)), (angle_segment lg hw hi hv hu hlg m hm).trans (le_of_eq ?_)⟩
    refine sum_congr rfl fun j hj => ?_
    have hj := mem_range.1 hj
    rw [NLeft_eq_piece s.kn i _ (s.keys.length - 1) ?_ _ _ (by omega)]
    intro j' hj'
    rw [← ei]
    constructor
    · rintro ⟨g1, g2⟩
      by_contra hc
      rcases Nat.lt_or_ge j' i with h5 | h5
      · exact absurd (g2.trans (hw.mono (j' + 1) i (by omega) (by omega))) (not_le.2 (hi.lt hw))
      · exact absurd (g1.trans_le (hw.mono (i + 1) j' (by omega) (by omega))) (lt_irrefl _)
    · intro h5; rw [h5]; exact ⟨hi.lt hw, le_rfl⟩

/-- **C103**: the spline is no further from a control vertex, as an angle and as a chord, than the longest polygon from that vertex to the
control vertices in use, which are those whose knots `l` and `l + order` enclose the time. -/
theorem C103_local (lg : ℍ[ℝ] → V3) (order : ℕ) (ho : 1 ≤ order) (s : MSpline ℝ ℍ[ℝ])
    (h : RegularReach (quatGroup lg).toMfd order s) (he : s.state = .evaluable) (nv : ℕ) (hnv : s.numControlVertices = .ok nv)
    (hverts : ∀ v ∈ s.verts.take nv, ‖v‖ = 1) (hlog : s.LogInverse lg nv) (tmin tmax : ℝ) (hmin : s.getMinTime = .ok tmin)
    (hmax : s.getMaxTime = .ok tmax) (t : ℝ) (h1 : tmin ≤ t) (h2 : t ≤ tmax) (m : ℕ) (hm : m < nv) (R : ℝ)
    (hR : ∀ l τ₁ τ₂, l < nv → s.keys[l]? = some τ₁ → s.keys[l + order]? = some τ₂ → τ₁ ≤ t → t ≤ τ₂ →
      Spec.polygonLength lg (fun j => s.verts.getD j 0) m l ≤ R) :
    ∃ q, s.quatEvalD lg t 0 = .ok q ∧ angle q (s.verts.getD m 0) ≤ R ∧ ‖q - s.verts.getD m 0‖ ≤ R := by
  obtain ⟨hw, rfl⟩ := h.mwf ho
  have hn := hw.enough he
  rw [numControlVertices_eq hw he, Outcome.ok.injEq] at hnv
  rw [getMinTime_eq hw he, Outcome.ok.injEq] at hmin
  rw [getMaxTime_eq hw he, Outcome.ok.injEq] at hmax
  subst hnv hmin hmax
  have hvl : s.keys.length - s.order ≤ s.verts.length := by rw [keys_length]; simp [verts]
  have hu := units_getD hvl hverts
  obtain ⟨i, hi, -⟩ := getSegmentIterator_ok hw he t h1 h2
  have l1 := hi.lower
  have l2 := hi.upper
  obtain ⟨c, cs, hv⟩ := segVerts_exists hw hi
  have hang : angle (s.segQ lg i c cs 0 t) (s.verts.getD m 0) ≤ R := by
    refine (angle_segment lg hw hi hv hu (log_getD lg hvl hlog) m hm).trans ?_
    have hsum : ∑ l ∈ range (s.keys.length - s.order), (piece s.kn i (s.order - 1) l).eval t = 1 := by
      have h3 := piece_sum_one s.kn s.keys.length i hw.mono (hi.lt hw) (s.order - 1) (by omega) (by omega)
      have h4 := congrArg (Polynomial.eval t) h3
      rw [eval_finsetSum, eval_one] at h4
      rw [← h4]
      symm
      refine sum_subset (fun l hl => ?_) fun l _ hl => ?_
      · have := mem_Ico.1 hl
        exact mem_range.2 (by omega)
      · rw [mem_Ico] at hl
        rcases Nat.lt_or_ge i l with h5 | h5
        · rw [piece_zero_of_lt s.kn i _ _ h5, eval_zero]
        · rw [piece_zero_of_gt s.kn i _ _ (by omega), eval_zero]
    calc _ ≤ ∑ l ∈ range (s.keys.length - s.order), (piece s.kn i (s.order - 1) l).eval t * R := sum_le_sum fun l hl => ?_
      _ = R := by rw [← sum_mul, hsum, _root_.one_mul]
    have hl := mem_range.1 hl
    rcases Nat.lt_or_ge i l with h5 | h5
    · rw [piece_zero_of_lt s.kn i _ _ h5, eval_zero, zero_mul, zero_mul]
    rcases Nat.lt_or_ge (l + (s.order - 1)) i with h6 | h6
    · rw [piece_zero_of_gt s.kn i _ _ h6, eval_zero, zero_mul, zero_mul]
    refine mul_le_mul_of_nonneg_left ?_ (piece_nonneg s.kn s.keys.length i hw.mono t hi.left hi.right_le _ _ (by omega))
    exact hR l _ _ hl (kn_getElem s (by omega)) (kn_getElem s (by omega)) ((hw.mono _ _ (by omega) (by omega)).trans hi.left)
      (hi.right_le.trans (hw.mono _ _ (by omega) (by omega)))
  have hq : ‖s.segQ lg i c cs 0 t‖ = 1 := segQ_unit lg s i c cs (hverts c (segVerts_mem hi _ rfl hv c (by simp))) t
  exact ⟨_, quatEvalD_segQ lg hw he hi hv 0 (Or.inl (by omega)), hang, (norm_sub_le_angle hq (hu m hm)).trans hang⟩

/-- **C103**: where all control vertices in use are the same and the logarithm of the identity is zero, the spline returns that vertex. -/
theorem C103_constant (lg : ℍ[ℝ] → V3) (h1 : lg 1 = 0) (order : ℕ) (ho : 1 ≤ order) (s : MSpline ℝ ℍ[ℝ])
    (h : RegularReach (quatGroup lg).toMfd order s) (he : s.state = .evaluable) (nv : ℕ) (hnv : s.numControlVertices = .ok nv)
    (hverts : ∀ v ∈ s.verts.take nv, ‖v‖ = 1) (hlog : s.LogInverse lg nv) (tmin tmax : ℝ) (hmin : s.getMinTime = .ok tmin)
    (hmax : s.getMaxTime = .ok tmax) (t : ℝ) (ht1 : tmin ≤ t) (ht2 : t ≤ tmax) (m n : ℕ) (hmn : m ≤ n) (hn : n < nv) (q : ℍ[ℝ])
    (hq : ∀ j, m ≤ j → j ≤ n → s.verts[j]? = some q)
    (hwin : ∀ l τ₁ τ₂, l < nv → s.keys[l]? = some τ₁ → s.keys[l + order]? = some τ₂ → τ₁ ≤ t → t ≤ τ₂ → m ≤ l ∧ l ≤ n) :
    s.quatEvalD lg t 0 = .ok q := by
  have hget : ∀ j, m ≤ j → j ≤ n → s.verts.getD j 0 = q := fun j a b => by
    rw [List.getD_eq_getElem?_getD, hq j a b, Option.getD_some]
  have hun : ‖q‖ = 1 := hverts q (List.mem_of_getElem? (i := m) (by rw [List.getElem?_take_of_lt (by omega), hq m le_rfl hmn]))
  obtain ⟨x, hx, -, hx0⟩ := C103_local lg order ho s h he nv hnv hverts hlog tmin tmax hmin hmax t ht1 ht2 m (by omega) 0 (by
    intro l τ₁ τ₂ a b c d e
    obtain ⟨w1, w2⟩ := hwin l τ₁ τ₂ a b c d e
    rw [polygonLength_le lg _ w1]
    refine le_of_eq (sum_eq_zero fun j hj => ?_)
    have := mem_Ico.1 hj
    rw [hget j this.1 (by omega), hget (j + 1) (by omega) (by omega), qplus_eq, quatInv_eq, unit_mul_star hun, h1]
    simp [norm3])
  rw [hget m le_rfl hmn] at hx0
  rw [hx]
  have := norm_le_zero_iff.1 hx0
  rw [sub_eq_zero.1 this]

/-! ### Examples -/

/-- The polygon of the example of C83. -/
theorem exSteady_polygon {s : MSpline ℝ ℍ[ℝ]} (ho : s.order = 3) (hk : s.keys = [0, 1, 2, 4, 7, 8, 9]) (hv : s.verts.take 4 = exSteady)
    {a b : ℕ} (hab : a ≤ b) (hb : b < 4) : Spec.polygonLength arcLog (fun j => s.verts.getD j 0) a b = (s.center b - s.center a) / 2 := by
  obtain ⟨hs1, hs2⟩ := exSteady_steady ho hk hv
  have hstep : ∀ j, j + 1 < 4 → norm3 (arcLog (qplus (quatInv (s.verts.getD j 0)) (s.verts.getD (j + 1) 0))) / 2 =
      (s.center (j + 1) - s.center j) / 2 := by
    intro j hj
    have e1 : s.verts.getD j 0 = qplus quatI (axisAngle2quat (s.center j • exRate)) := by rw [List.getD_eq_getElem?_getD, hs1 j (by omega), Option.getD_some]
    have e2 : s.verts.getD (j + 1) 0 = qplus quatI (axisAngle2quat (s.center (j + 1) • exRate)) := by rw [List.getD_eq_getElem?_getD, hs1 (j + 1) hj, Option.getD_some]
    have hinv : ∀ x : ℝ, star (axisAngle2quat (x • exRate)) = axisAngle2quat (-x • exRate) := by
      intro x
      rw [axisAngle2quat_eq, axisAngle2quat_eq, quatV_smul, quatV_smul, star_exp]
    have e3 : qplus (quatInv (s.verts.getD j 0)) (s.verts.getD (j + 1) 0) = axisAngle2quat ((s.center (j + 1) - s.center j) • exRate) := by
      rw [e1, e2, qplus_eq, qplus_eq, qplus_eq, quatInv_eq, star_mul, hinv, ← mul_assoc, mul_assoc _ quatI, unit_mul_star norm_quatI,
        _root_.mul_one, axisAngle2quat_eq, axisAngle2quat_eq, axisAngle2quat_eq, quatV_smul, quatV_smul, quatV_smul, ← exp_add_smul,
        ← sub_eq_add_neg]
    rw [e3, hs2 j hj, norm3_smul, norm3_exRate, _root_.mul_one, abs_of_pos]
    unfold center
    rw [ho, hk]
    obtain rfl | rfl | rfl : j = 0 ∨ j = 1 ∨ j = 2 := by omega
    all_goals norm_num [sum_range_succ]
  rw [polygonLength_le _ _ hab]
  induction b, hab using Nat.le_induction with
  | base => simp
  | succ b hab ih =>
    rw [sum_Ico_succ_top hab, ih (by omega), hstep b hb]
    ring

example : ∃ s : MSpline ℝ ℍ[ℝ], s.verts.take 4 = exSteady ∧ ∃ q, s.quatEvalD arcLog 3 0 = .ok q ∧
    angle q (s.verts.getD 1 0) ≤ 5 / 4 ∧ ‖q - s.verts.getD 1 0‖ ≤ 5 / 4 := by
  obtain ⟨s, g1, g2, g3, g4, g5, g6, g7⟩ := quat_spline_exists arcLog 3 (by norm_num) [0, 1, 2, 4, 7, 8, 9] exSteady (by
    simp [List.pairwise_cons]; norm_num) rfl (by decide) exSteady_unit
  have hord := (g1.mwf (by norm_num)).2
  have hu : ∀ v ∈ s.verts.take 4, ‖v‖ = 1 := by
    have : s.verts.take 4 = exSteady := g5
    rw [this]
    exact exSteady_unit
  refine ⟨s, g5, C103_local arcLog 3 (by norm_num) s g1 g2 4 g4 hu (exSteady_limit hord g3 g5 0).2 2 7 g6 g7 3 (by norm_num) (by norm_num) 1
    (by norm_num) _ fun l τ₁ τ₂ hl e1 e2 h1 h2 => ?_⟩
  rw [g3] at e1
  obtain rfl | rfl | rfl | rfl : l = 0 ∨ l = 1 ∨ l = 2 ∨ l = 3 := by omega
  · rw [polygonLength_comm, exSteady_polygon hord g3 g5 (by norm_num) (by norm_num)]
    unfold center
    rw [hord, g3]
    norm_num [sum_range_succ]
  · rw [exSteady_polygon hord g3 g5 (by norm_num) (by norm_num)]
    unfold center
    rw [hord, g3]
    norm_num [sum_range_succ]
  · rw [exSteady_polygon hord g3 g5 (by norm_num) (by norm_num)]
    unfold center
    rw [hord, g3]
    norm_num [sum_range_succ]
  · simp at e1
    linarith

/-- The bound is attained: a rotation about one axis is exactly as far from its first control vertex. -/
example : ∃ s : MSpline ℝ ℍ[ℝ], s.verts.take 4 = exSteady ∧ ∃ q, s.quatEvalD arcLog 3 0 = .ok q ∧ angle q (s.verts.getD 0 0) = 3 / 4 ∧
    ∑ l ∈ range 4, Spec.N (fun i => s.keys.getD i 0) 2 l 3 * Spec.polygonLength arcLog (fun j => s.verts.getD j 0) 0 l = 3 / 4 := by
  obtain ⟨s, g1, g2, g3, g4, g5, g6, g7⟩ := quat_spline_exists arcLog 3 (by norm_num) [0, 1, 2, 4, 7, 8, 9] exSteady (by
    simp [List.pairwise_cons]; norm_num) rfl (by decide) exSteady_unit
  have hord := (g1.mwf (by norm_num)).2
  obtain ⟨w, -, hw, hs⟩ := C83_steady arcLog 3 (by norm_num) s g1 g2 4 g4 exRate quatI norm_quatI (exSteady_steady hord g3 g5) 2 7 g6 g7
  refine ⟨s, g5, _, (hs 3 (by norm_num) (by norm_num)).1, ?_, ?_⟩
  · have hs1 := (exSteady_steady hord g3 g5).1 0 (by norm_num)
    have hc : s.center 0 = 3 / 2 := by
      unfold center
      rw [hord, g3]
      norm_num [sum_range_succ]
    rw [List.getD_eq_getElem?_getD, hs1, Option.getD_some, hc, qplus_eq, qplus_eq,
      angle_mul_right (norm_axisAngle2quat _) (norm_axisAngle2quat _) norm_quatI, angle_unit (norm_axisAngle2quat _) (norm_axisAngle2quat _),
      axisAngle2quat_eq, axisAngle2quat_eq, quatV_smul, quatV_smul, star_exp, ← exp_add_smul, Quaternion.exp_of_re_eq_zero _ (by simp),
      norm_smul, norm_quatV, norm3_exRate]
    have : ‖(3 : ℝ) + -(3 / 2)‖ * (1 / 2) = 3 / 4 := by norm_num
    rw [this]
    have hpi := Real.two_le_pi
    simpa using Real.arccos_cos (x := 3 / 4) (by norm_num) (by linarith)
  · rw [sum_congr rfl fun l hl => by rw [exSteady_polygon hord g3 g5 (Nat.zero_le l) (mem_range.1 hl)]]
    unfold center
    rw [hord, g3]
    norm_num [sum_range_succ, Spec.N]

example : ∃ s : MSpline ℝ ℍ[ℝ], s.verts.take 3 = [quatI, quatI, quatJ] ∧ s.quatEvalD arcLog (3 / 2) 0 = .ok quatI := by
  obtain ⟨s, g1, g2, g3, g4, g5, g6, g7⟩ := quat_spline_exists arcLog 2 (by norm_num) [0, 1, 2, 3, 4] [quatI, quatI, quatJ] (by
    simp [List.pairwise_cons]; norm_num) rfl (by decide) (by simp [norm_quatI, norm_quatJ])
  have hv : ∀ j, j < 3 → s.verts[j]? = [quatI, quatI, quatJ][j]? := fun j hj => by
    have : s.verts.take 3 = [quatI, quatI, quatJ] := g5
    rw [← this, List.getElem?_take_of_lt hj]
  have h1 : arcLog 1 = 0 := by simp [arcLog]
  refine ⟨s, g5, C103_constant arcLog h1 2 (by norm_num) s g1 g2 3 g4 (by
    have : s.verts.take 3 = [quatI, quatI, quatJ] := g5
    rw [this]
    simp [norm_quatI, norm_quatJ]) ?_ 1 3 g6 g7 (3 / 2) (by norm_num) (by norm_num) 0 1 (by norm_num) (by norm_num) quatI ?_ ?_⟩
  · intro j a b hj ha hb
    obtain rfl | rfl : j = 0 ∨ j = 1 := by omega
    · rw [hv 0 (by norm_num)] at ha
      rw [hv 1 (by norm_num)] at hb
      simp at ha hb
      subst ha hb
      rw [qplus_eq, quatInv_eq, unit_mul_star norm_quatI, h1]
      simp [axisAngle2quat_eq, quatV]
      exact NormedSpace.exp_zero
    · rw [hv 1 (by norm_num)] at ha
      rw [hv 2 (by norm_num)] at hb
      simp at ha hb
      subst ha hb
      have : (quatJ * star quatI).re = 0 := by
        rw [Quaternion.re_mul]
        simp only [Quaternion.re_star, Quaternion.imI_star, Quaternion.imJ_star, Quaternion.imK_star]
        norm_num [quatI, quatJ]
      exact step_inverse norm_quatI norm_quatJ (by rw [this]; norm_num) (by rw [this]; norm_num)
  · intro j _ hj
    rw [hv j (by omega)]
    obtain rfl | rfl : j = 0 ∨ j = 1 := by omega
    all_goals rfl
  · intro l τ₁ τ₂ hl e1 e2 h1 h2
    refine ⟨Nat.zero_le _, ?_⟩
    by_contra hc
    obtain rfl : l = 2 := by omega
    rw [g3] at e1
    simp at e1
    linarith

end Verif.MSpline
