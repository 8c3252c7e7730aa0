import Verif.Props.Refit
import Verif.Props.FitDetermined
import Verif.Props.UniformFit

/-!
# C117: when fitting a manifold spline again determines the result

A change of the free vertices is invisible if it changes no value at a data time of nonzero weight and, with a regularisation, has no second
derivative.  The result of a fit depends only on the data and the fixed vertices if only the zero change is invisible.
-/

set_option linter.unusedSectionVars false

namespace Verif.Zeros

open Finset Polynomial

theorem piece_base (kn : ℕ → ℝ) (b i : ℕ) : ∀ p j, piece (fun m => kn (b + m)) i p j = piece kn (b + i) p (b + j)
  | 0, j => by simp [piece]
  | (p + 1), j => by
    simp only [piece]
    rw [piece_base kn b i p j, piece_base kn b i p (j + 1)]
    simp only [add_assoc]

/-- Leaving out the first knots. -/
theorem seg_base (kn : ℕ → ℝ) (b p : ℕ) (c : ℕ → ℝ) (i : ℕ) (hc : ∀ j, b + i - p ≤ j → j < b → c j = 0) :
    seg (fun m => kn (b + m)) p (fun j => c (b + j)) i = seg kn p c (b + i) := by
  unfold seg
  simp only [piece_base]
  rw [Finset.sum_Ico_add (fun x => C (c x) * piece kn (b + i) p x) (i - p) (i + 1) b]
  refine sum_subset (fun j hj => ?_) fun j hj hn => ?_
  · have := mem_Ico.1 hj
    exact mem_Ico.2 (by omega)
  · have h1 := mem_Ico.1 hj
    have h2 : ¬ (i - p + b ≤ j ∧ j < i + 1 + b) := fun h => hn (mem_Ico.2 h)
    rw [hc j (by omega) (by omega), C_0, zero_mul]

/-- A spline whose first coefficients are zero and that has a zero strictly inside the support of each other basis function, in the same
order, is zero. -/
theorem zero_of_zeros_fixed {kn : ℕ → ℝ} {n N p fix : ℕ} (hs : ∀ a b, a < b → b < n → kn a < kn b) (hN : N + p + 1 = n) (hp : 1 ≤ p)
    (c : ℕ → ℝ) (hc : ∀ j < fix, c j = 0) (x : ℕ → ℝ) (sg : ℕ → ℕ) (hx : ∀ j, fix ≤ j → j + 1 < N → x j < x (j + 1))
    (hin : ∀ j, fix ≤ j → j < N → kn j < x j ∧ x j < kn (j + p + 1))
    (hsg : ∀ j, fix ≤ j → j < N → p ≤ sg j ∧ sg j < N ∧ At kn (sg j) (x j) ∧ (seg kn p c (sg j)).eval (x j) = 0) : ∀ j < N, c j = 0 := by
  have mono : ∀ (k : ℕ → ℝ) (n : ℕ), (∀ a b, a < b → b < n → k a < k b) → MonoBelow k n := fun k n h a b hab hb => by
    rcases hab.lt_or_eq with h' | h'
    · exact (h a b h' hb).le
    · rw [h']
  rcases Nat.eq_zero_or_pos fix with h0 | h0
  · exact zero_of_zeros (mono kn n hs) hN hp (fun l _ h2 => hs l (l + 1) (by omega) (by omega)) c x sg (fun j => hx j (by omega))
      (fun j => hin j (by omega)) fun j => hsg j (by omega)
  intro j0 hj0
  set kn' : ℕ → ℝ := fun j => if j < p then kn 0 - ((p : ℝ) - j) else kn (j - p) with hkn'
  set c' : ℕ → ℝ := fun j => if j < p then 0 else c (j - p) with hc'
  set x' : ℕ → ℝ := fun j => if j ≤ p then kn 0 + ((j : ℝ) + 1) / ((p : ℝ) + 2) * (kn 1 - kn 0)
    else if j < p + fix then (kn (j - p) + kn (j - p + 1)) / 2 else x (j - p) with hx'
  set sg' : ℕ → ℕ := fun j => if j ≤ p then p else if j < p + fix then j else p + sg (j - p) with hsg'
  have k1 : ∀ j, kn' (p + j) = kn j := fun j => by simp [hkn']
  have k2 : ∀ j, j < p → kn' j < kn 0 := fun j hj => by
    simp only [hkn']
    rw [if_pos hj]
    have : (j : ℝ) < p := by exact_mod_cast hj
    linarith
  have hs' : ∀ a b, a < b → b < n + p → kn' a < kn' b := by
    intro a b hab hb
    rcases lt_or_ge a p with ha | ha
    · rcases lt_or_ge b p with hb' | hb'
      · simp only [hkn']
        rw [if_pos ha, if_pos hb']
        have : (a : ℝ) < b := by exact_mod_cast hab
        linarith
      · obtain ⟨l, rfl⟩ := Nat.exists_eq_add_of_le hb'
        rw [k1]
        refine (k2 a ha).trans_le ?_
        rcases Nat.eq_zero_or_pos l with h | h
        · rw [h]
        · exact (hs 0 l h (by omega)).le
    · obtain ⟨l, rfl⟩ := Nat.exists_eq_add_of_le ha
      obtain ⟨m, rfl⟩ := Nat.exists_eq_add_of_le (show p ≤ b by omega)
      rw [k1, k1]
      exact hs l m (by omega) (by omega)
  have hseg : ∀ i, seg kn' p c' (p + i) = seg kn p c i := by
    intro i
    rw [← seg_base kn' p p c' i fun j _ hj => by simp only [hc']; rw [if_pos hj]]
    have e1 : (fun m => kn' (p + m)) = kn := funext k1
    have e2 : (fun j => c' (p + j)) = c := funext fun j => by simp [hc']
    rw [e1, e2]
  have hzero : ∀ i, i < fix → seg kn p c i = 0 := by
    intro i hi
    unfold seg
    refine sum_eq_zero fun j hj => ?_
    have := mem_Ico.1 hj
    rw [hc j (by omega), C_0, zero_mul]
  have d01 : kn 0 < kn 1 := hs 0 1 (by omega) (by omega)
  have hp2 : (0 : ℝ) < (p : ℝ) + 2 := by positivity
  have xa : ∀ j, j ≤ p → kn 0 < x' j ∧ x' j < kn 1 := by
    intro j hj
    simp only [hx']
    rw [if_pos hj]
    have hj' : (j : ℝ) ≤ p := by exact_mod_cast hj
    have q1 : 0 < ((j : ℝ) + 1) / ((p : ℝ) + 2) := by positivity
    have q2 : ((j : ℝ) + 1) / ((p : ℝ) + 2) < 1 := by rw [div_lt_one hp2]; linarith
    have q3 : 0 < kn 1 - kn 0 := by linarith
    constructor
    · have := mul_pos q1 q3
      linarith
    · have := mul_lt_mul_of_pos_right q2 q3
      linarith
  have xb : ∀ l, 1 ≤ l → l < fix → l < N → kn l < x' (p + l) ∧ x' (p + l) < kn (l + 1) := by
    intro l h1 h2 h3
    simp only [hx']
    rw [if_neg (by omega), if_pos (by omega), show p + l - p = l by omega]
    have := hs l (l + 1) (by omega) (by omega)
    constructor <;> linarith
  have xc : ∀ l, fix ≤ l → x' (p + l) = x l := by
    intro l h1
    simp only [hx']
    rw [if_neg (by omega), if_neg (by omega), show p + l - p = l by omega]
  have knle : ∀ a b, a ≤ b → b < n → kn a ≤ kn b := mono kn n hs
  have xd : ∀ l, l < fix → l < N → kn l < x' (p + l) ∧ x' (p + l) < kn (l + 1) := by
    intro l h1 h2
    rcases Nat.eq_zero_or_pos l with h | h
    · rw [h]; exact xa p le_rfl
    · exact xb l h h1 h2
  have key := zero_of_zeros (kn := kn') (n := n + p) (N := N + p) (p := p) (mono kn' _ hs') (by omega) hp
    (fun l _ h2 => hs' l (l + 1) (by omega) (by omega)) c' x' sg' ?_ ?_ ?_ (p + j0) (by omega)
  · simpa [hc'] using key
  · intro j hj
    rcases lt_or_ge j p with h1 | h1
    · simp only [hx']
      rw [if_pos (by omega), if_pos (by omega)]
      have q3 : 0 < kn 1 - kn 0 := by linarith
      have q4 : ((j : ℝ) + 1) / ((p : ℝ) + 2) < (((j + 1 : ℕ) : ℝ) + 1) / ((p : ℝ) + 2) := by
        rw [div_lt_div_iff_of_pos_right hp2]
        push_cast
        linarith
      have := mul_lt_mul_of_pos_right q4 q3
      linarith
    · obtain ⟨l, rfl⟩ := Nat.exists_eq_add_of_le h1
      rw [show p + l + 1 = p + (l + 1) by omega]
      rcases lt_or_ge l fix with h2 | h2
      · have a := (xd l h2 (by omega)).2
        rcases lt_or_ge (l + 1) fix with h3 | h3
        · exact a.trans (xd (l + 1) h3 (by omega)).1
        · rw [xc (l + 1) h3]
          exact a.trans (hin (l + 1) h3 (by omega)).1
      · rw [xc l h2, xc (l + 1) (by omega)]
        exact hx l h2 (by omega)
  · intro j hj
    rcases lt_or_ge j p with h1 | h1
    · obtain ⟨a, b⟩ := xa j h1.le
      rw [show j + p + 1 = p + (j + 1) by omega, k1]
      exact ⟨(k2 j h1).trans a, b.trans_le (knle 1 (j + 1) (by omega) (by omega))⟩
    · obtain ⟨l, rfl⟩ := Nat.exists_eq_add_of_le h1
      rw [k1, show p + l + p + 1 = p + (l + p + 1) by omega, k1]
      rcases lt_or_ge l fix with h2 | h2
      · obtain ⟨a, b⟩ := xd l h2 (by omega)
        exact ⟨a, b.trans_le (knle _ _ (by omega) (by omega))⟩
      · rw [xc l h2]
        exact hin l h2 (by omega)
  · intro j hj
    rcases lt_or_ge j p with h1 | h1
    · have e : sg' j = p + 0 := by simp only [hsg']; rw [if_pos h1.le]; rfl
      rw [e, hseg, hzero 0 h0]
      obtain ⟨a, b⟩ := xa j h1.le
      refine ⟨by omega, by omega, ⟨?_, ?_⟩, by simp⟩
      · rw [k1]; exact a.le
      · rw [add_assoc, k1]; exact b.le
    · obtain ⟨l, rfl⟩ := Nat.exists_eq_add_of_le h1
      rcases lt_or_ge l fix with h2 | h2
      · have e : sg' (p + l) = p + l := by
          simp only [hsg']
          split_ifs
          · omega
          · rfl
          · omega
        rw [e, hseg, hzero l h2]
        obtain ⟨a, b⟩ := xd l h2 (by omega)
        refine ⟨by omega, by omega, ⟨?_, ?_⟩, by simp⟩
        · rw [k1]; exact a.le
        · rw [add_assoc, k1]; exact b.le
      · have e : sg' (p + l) = p + sg l := by
          simp only [hsg']
          rw [if_neg (by omega), if_neg (by omega), show p + l - p = l by omega]
        obtain ⟨a1, a2, a3, a4⟩ := hsg l h2 (by omega)
        rw [e, hseg, xc l h2]
        refine ⟨by omega, by omega, ⟨?_, ?_⟩, a4⟩
        · rw [k1]; exact a3.1
        · rw [add_assoc, k1]; exact a3.2

end Verif.Zeros

namespace Verif.MSpline

open Finset Polynomial BSpline MeasureTheory

variable {D : ℕ}

namespace Spec

/-- A change `w` of the free vertices that no part of the cost notices. -/
structure Invisible (s : MSpline ℝ (Fin D → ℝ)) (f : Fit D) (i0 il : ℕ) (w : ℕ → Fin D → ℝ) : Prop where
  free : ∀ j, ¬ (i0 + 1 - s.order + f.fix ≤ j ∧ j ≤ il) → w j = 0
  data : ∀ m (hm : m < f.times.length), weightOf f.weights m ≠ 0 → (s.withVerts w).euclideanEval f.times[m] = .ok 0
  smooth : f.lambda ≠ 0 → fitBending (s.withVerts w) (s.kn (s.order - 1)) (s.kn (s.keys.length - s.order)) = 0

/-- Only the zero change is invisible. -/
def Determined (s : MSpline ℝ (Fin D → ℝ)) (f : Fit D) (i0 il : ℕ) : Prop := ∀ w, Invisible s f i0 il w → w = 0

end Spec

/-- The components of vertices by number. -/
def comps (v : ℕ → Fin D → ℝ) : ℕ → ℕ → ℝ := fun j d => if hd : d < D then v j ⟨d, hd⟩ else 0

theorem comps_fin (v : ℕ → Fin D → ℝ) (j : ℕ) (d : Fin D) : comps v j d = v j d := by unfold comps; simp

/-- Combinations of vertices. -/
def lin (a b : ℝ) (v w : ℕ → Fin D → ℝ) : ℕ → Fin D → ℝ := fun j => a • v j + b • w j

theorem curveVal_lin (s : MSpline ℝ (Fin D → ℝ)) (a b : ℝ) (v w : ℕ → Fin D → ℝ) (i der : ℕ) (t : ℝ) (d : ℕ) :
    s.curveVal (comps (lin a b v w)) i der t d = a * s.curveVal (comps v) i der t d + b * s.curveVal (comps w) i der t d := by
  unfold curveVal
  rw [mul_sum, mul_sum, ← sum_add_distrib]
  refine sum_congr rfl fun c _ => ?_
  unfold comps lin
  split_ifs
  · rw [Pi.add_apply, Pi.smul_apply, Pi.smul_apply, smul_eq_mul, smul_eq_mul]
    ring
  · ring

/-- The values and derivatives of a curve. -/
noncomputable def value (s : MSpline ℝ (Fin D → ℝ)) (v : ℕ → Fin D → ℝ) (t : ℝ) (der : ℕ) : Fin D → ℝ :=
  ((s.withVerts v).euclideanEvalD none t der).getD 0

theorem value_ok {s : MSpline ℝ (Fin D → ℝ)} (h : s.MWF) (he : s.state = .evaluable) (v : ℕ → Fin D → ℝ) {t : ℝ} {i : ℕ} (hi : s.InSeg t i)
    (der : ℕ) : (s.withVerts v).euclideanEvalD none t der = .ok (s.value v t der) ∧
      ∀ d : Fin D, s.value v t der d = s.curveVal (comps v) i der t d := by
  obtain ⟨p, hp, hp'⟩ := withVerts_eval h he v (comps v) (fun j d _ => comps_fin v j d) hi der
  unfold value
  rw [hp, Outcome.getD_ok]
  exact ⟨rfl, hp'⟩

theorem value_lin {s : MSpline ℝ (Fin D → ℝ)} (h : s.MWF) (he : s.state = .evaluable) (a b : ℝ) (v w : ℕ → Fin D → ℝ) {t : ℝ} {i : ℕ}
    (hi : s.InSeg t i) (der : ℕ) (d : Fin D) : s.value (lin a b v w) t der d = a * s.value v t der d + b * s.value w t der d := by
  rw [(value_ok h he _ hi der).2, (value_ok h he _ hi der).2, (value_ok h he _ hi der).2, curveVal_lin]

/-- The integral of the squared second derivative over the whole spline. -/
noncomputable def bend (s : MSpline ℝ (Fin D → ℝ)) (v : ℕ → Fin D → ℝ) : ℝ :=
  Spec.fitBending (s.withVerts v) (s.kn (s.order - 1)) (s.kn (s.keys.length - s.order))

/-- The same of two curves. -/
noncomputable def cross (s : MSpline ℝ (Fin D → ℝ)) (v w : ℕ → Fin D → ℝ) : ℝ :=
  ∑ i ∈ Ico (s.order - 1) (s.keys.length - s.order), ∑ d ∈ range D,
    ∫ t in s.kn i..s.kn (i + 1), s.curveVal (comps v) i 2 t d * s.curveVal (comps w) i 2 t d

theorem bend_eq {s : MSpline ℝ (Fin D → ℝ)} (h : s.MWF) (he : s.state = .evaluable) (v : ℕ → Fin D → ℝ) : s.bend v = s.cross v v := by
  have hk := h.order_pos
  have hn := h.enough he
  have := bending_eq h he v (comps v) (fun j d _ => comps_fin v j d) 1 (s.order - 1) (s.keys.length - s.order) (by omega) (by omega) (by omega)
  rw [one_mul] at this
  unfold bend cross
  rw [this]
  refine sum_congr rfl fun i _ => ?_
  unfold segEnergy
  refine sum_congr rfl fun d _ => ?_
  rw [one_mul]
  exact intervalIntegral.integral_congr fun t _ => pow_two _

theorem cross_continuous (s : MSpline ℝ (Fin D → ℝ)) (v w : ℕ → Fin D → ℝ) (i d : ℕ) (a b : ℝ) :
    IntervalIntegrable (fun t => s.curveVal (comps v) i 2 t d * s.curveVal (comps w) i 2 t d) volume a b :=
  ((curveVal_continuous s (comps v) i 2 d).mul (curveVal_continuous s (comps w) i 2 d)).intervalIntegrable _ _

theorem cross_lin (s : MSpline ℝ (Fin D → ℝ)) (a b : ℝ) (u v w : ℕ → Fin D → ℝ) :
    s.cross u (lin a b v w) = a * s.cross u v + b * s.cross u w := by
  unfold cross
  rw [mul_sum, mul_sum, ← sum_add_distrib]
  refine sum_congr rfl fun i _ => ?_
  rw [mul_sum, mul_sum, ← sum_add_distrib]
  refine sum_congr rfl fun d _ => ?_
  rw [← intervalIntegral.integral_const_mul, ← intervalIntegral.integral_const_mul,
    ← intervalIntegral.integral_add ((cross_continuous s u v i d _ _).const_mul a) ((cross_continuous s u w i d _ _).const_mul b)]
  refine intervalIntegral.integral_congr fun t _ => ?_
  change s.curveVal (comps u) i 2 t d * s.curveVal (comps (lin a b v w)) i 2 t d = _
  rw [curveVal_lin]
  ring

theorem cross_comm (s : MSpline ℝ (Fin D → ℝ)) (v w : ℕ → Fin D → ℝ) : s.cross v w = s.cross w v := by
  unfold cross
  refine sum_congr rfl fun i _ => sum_congr rfl fun d _ => ?_
  exact intervalIntegral.integral_congr fun t _ => mul_comm _ _

theorem bend_nonneg {s : MSpline ℝ (Fin D → ℝ)} (h : s.MWF) (he : s.state = .evaluable) (v : ℕ → Fin D → ℝ) : 0 ≤ s.bend v := by
  rw [bend_eq h he]
  have hk := h.order_pos
  refine sum_nonneg fun i hi => sum_nonneg fun d _ => ?_
  have hi := mem_Ico.1 hi
  exact intervalIntegral.integral_nonneg (h.mono i (i + 1) (by omega) (by omega)) fun t _ => mul_self_nonneg _

/-- The data of a fit. -/
abbrev Fit.data (f : Fit D) : List (ℝ × (Fin D → ℝ)) := f.times.zip f.points

theorem Fit.cost_value (f : Fit D) (s : MSpline ℝ (Fin D → ℝ)) (v : ℕ → Fin D → ℝ) : f.cost (s.withVerts v)
    = ∑ m : Fin f.data.length, ∑ d : Fin D, (weightOf f.weights m * (s.value v f.data[m].1 0 d - f.data[m].2 d)) ^ 2 + f.lambda * s.bend v := by
  rw [Fit.cost_withVerts]
  rfl

/-- Half the derivative of the cost in a direction. -/
noncomputable def Fit.slope (f : Fit D) (s : MSpline ℝ (Fin D → ℝ)) (v w : ℕ → Fin D → ℝ) : ℝ :=
  ∑ m : Fin f.data.length, ∑ d : Fin D,
    (weightOf f.weights m * (s.value v f.data[m].1 0 d - f.data[m].2 d)) * (weightOf f.weights m * s.value w f.data[m].1 0 d)
    + f.lambda * s.cross v w

/-- What the cost sees of a change. -/
noncomputable def Fit.seen (f : Fit D) (s : MSpline ℝ (Fin D → ℝ)) (w : ℕ → Fin D → ℝ) : ℝ :=
  ∑ m : Fin f.data.length, ∑ d : Fin D, (weightOf f.weights m * s.value w f.data[m].1 0 d) ^ 2 + f.lambda * s.bend w

/-- All data times are in some interval. -/
def Fit.Inside (f : Fit D) (s : MSpline ℝ (Fin D → ℝ)) : Prop := ∀ t ∈ f.times, ∃ i, s.InSeg t i

theorem Fit.Accepted.inside {f : Fit D} {s : MSpline ℝ (Fin D → ℝ)} (h : s.MWF) {i0 il : ℕ} (ha : f.Accepted s i0 il) : f.Inside s := by
  obtain ⟨t0, tl, ht0, htl, hb, h0, hl⟩ := ha.ends
  intro t ht
  rcases evaluable_total h ha.evaluable t with hi | hc
  · exact hi
  · have b1 := (h0.range h).1
    have b2 := (hl.range h).2
    obtain ⟨b3, b4⟩ := hb _ ht
    rcases hc with hc | hc
    · exact absurd hc (not_lt.2 (b1.trans b3))
    · exact absurd hc (not_lt.2 (b4.trans b2))

theorem Fit.Inside.data {f : Fit D} {s : MSpline ℝ (Fin D → ℝ)} (hin : f.Inside s) (m : Fin f.data.length) : ∃ i, s.InSeg f.data[m].1 i :=
  hin _ (List.of_mem_zip (List.getElem_mem m.2)).1

theorem Fit.cost_line {f : Fit D} {s : MSpline ℝ (Fin D → ℝ)} (h : s.MWF) (he : s.state = .evaluable) (hin : f.Inside s)
    (v w : ℕ → Fin D → ℝ) (e : ℝ) :
    f.cost (s.withVerts (lin 1 e v w)) = f.cost (s.withVerts v) + 2 * e * f.slope s v w + e ^ 2 * f.seen s w := by
  rw [Fit.cost_value, Fit.cost_value]
  unfold Fit.slope Fit.seen
  have e1 : s.bend (lin 1 e v w) = s.bend v + 2 * e * s.cross v w + e ^ 2 * s.bend w := by
    rw [bend_eq h he, bend_eq h he, bend_eq h he, cross_lin, cross_comm s _ v, cross_comm s _ w, cross_lin, cross_lin, cross_comm s w v]
    ring
  have e2 : ∑ m : Fin f.data.length, ∑ d : Fin D, (weightOf f.weights m * (s.value (lin 1 e v w) f.data[m].1 0 d - f.data[m].2 d)) ^ 2
      = ∑ m : Fin f.data.length, ∑ d : Fin D, (weightOf f.weights m * (s.value v f.data[m].1 0 d - f.data[m].2 d)) ^ 2
        + 2 * e * ∑ m : Fin f.data.length, ∑ d : Fin D,
          (weightOf f.weights m * (s.value v f.data[m].1 0 d - f.data[m].2 d)) * (weightOf f.weights m * s.value w f.data[m].1 0 d)
        + e ^ 2 * ∑ m : Fin f.data.length, ∑ d : Fin D, (weightOf f.weights m * s.value w f.data[m].1 0 d) ^ 2 := by
    rw [mul_sum, mul_sum, ← sum_add_distrib, ← sum_add_distrib]
    refine sum_congr rfl fun m _ => ?_
    rw [mul_sum, mul_sum, ← sum_add_distrib, ← sum_add_distrib]
    refine sum_congr rfl fun d _ => ?_
    obtain ⟨i, hi⟩ := hin.data m
    rw [value_lin h he _ _ _ _ hi]
    ring
  rw [e1, e2]
  ring

theorem Fit.seen_nonneg {f : Fit D} {s : MSpline ℝ (Fin D → ℝ)} (h : s.MWF) (he : s.state = .evaluable) (hl : 0 ≤ f.lambda)
    (w : ℕ → Fin D → ℝ) : 0 ≤ f.seen s w :=
  add_nonneg (sum_nonneg fun _ _ => sum_nonneg fun _ _ => sq_nonneg _) (mul_nonneg hl (bend_nonneg h he w))

/-- Changes of the free vertices. -/
def Free (s : MSpline ℝ (Fin D → ℝ)) (fix i0 il : ℕ) (w : ℕ → Fin D → ℝ) : Prop :=
  ∀ j, ¬ (i0 + 1 - s.order + fix ≤ j ∧ j ≤ il) → w j = 0

theorem Fit.invisible_iff {f : Fit D} {s : MSpline ℝ (Fin D → ℝ)} (h : s.MWF) (he : s.state = .evaluable) (hin : f.Inside s)
    (hlen : f.times.length = f.points.length) (hl : 0 ≤ f.lambda) (i0 il : ℕ) (w : ℕ → Fin D → ℝ) :
    Spec.Invisible s f i0 il w ↔ s.Free f.fix i0 il w ∧ f.seen s w = 0 := by
  have hzl : f.data.length = f.times.length := by rw [List.length_zip]; omega
  have hget : ∀ (m : ℕ) (hm : m < f.times.length), f.data[m]'(by omega) = (f.times[m], f.points[m]'(by omega)) := fun m hm => List.getElem_zip
  constructor
  · intro hi
    refine ⟨hi.free, ?_⟩
    unfold Fit.seen
    have e1 : f.lambda * s.bend w = 0 := by
      by_cases hz : f.lambda = 0
      · rw [hz, zero_mul]
      · rw [show s.bend w = 0 from hi.smooth hz, mul_zero]
    rw [e1, add_zero]
    refine sum_eq_zero fun m _ => sum_eq_zero fun d _ => ?_
    by_cases hz : weightOf f.weights m = 0
    · rw [hz]; ring
    · have hm : m.1 < f.times.length := by omega
      have := hi.data m hm hz
      unfold value
      rw [Fin.getElem_fin, hget m hm]
      have : (s.withVerts w).euclideanEvalD none f.times[m.1] 0 = .ok 0 := this
      have this' : (s.withVerts w).euclideanEvalD none f.times[m.1] ((0 : ℕ) : ℤ) = .ok 0 := this
      rw [this', Outcome.getD_ok]
      simp
  · rintro ⟨hf, hs⟩
    unfold Fit.seen at hs
    have n1 : 0 ≤ ∑ m : Fin f.data.length, ∑ d : Fin D, (weightOf f.weights m * s.value w f.data[m].1 0 d) ^ 2 :=
      sum_nonneg fun _ _ => sum_nonneg fun _ _ => sq_nonneg _
    have n2 := mul_nonneg hl (bend_nonneg h he w)
    refine ⟨hf, fun m hm hw => ?_, fun hz => ?_⟩
    · have e : ∑ m : Fin f.data.length, ∑ d : Fin D, (weightOf f.weights m * s.value w f.data[m].1 0 d) ^ 2 = 0 := by linarith
      have e1 := (sum_eq_zero_iff_of_nonneg fun m _ => sum_nonneg fun d _ => sq_nonneg _).1 e ⟨m, by omega⟩ (mem_univ _)
      obtain ⟨i, hi⟩ := hin _ (List.getElem_mem hm)
      have := (value_ok h he w hi 0).1
      refine this.trans (congrArg Outcome.ok (funext fun d => ?_))
      have e2 := (sum_eq_zero_iff_of_nonneg fun d _ => sq_nonneg _).1 e1 d (mem_univ d)
      rw [Fin.getElem_fin] at e2
      dsimp only at e2
      rw [hget m hm] at e2
      exact (mul_eq_zero.1 (pow_eq_zero_iff two_ne_zero |>.1 e2)).resolve_left hw
    · have : f.lambda * s.bend w = 0 := by linarith
      exact (mul_eq_zero.1 this).resolve_left hz

/-- No other choice of the free vertices has a smaller cost. -/
def Fit.Best (f : Fit D) (s : MSpline ℝ (Fin D → ℝ)) (i0 il : ℕ) (v : ℕ → Fin D → ℝ) : Prop :=
  s.Keeps f.fix i0 il v ∧ ∀ v', s.Keeps f.fix i0 il v' → f.cost (s.withVerts v) ≤ f.cost (s.withVerts v')

theorem Keeps.lin {s : MSpline ℝ (Fin D → ℝ)} {fix i0 il : ℕ} {v w : ℕ → Fin D → ℝ} (hv : s.Keeps fix i0 il v) (hw : s.Free fix i0 il w)
    (e : ℝ) : s.Keeps fix i0 il (MSpline.lin 1 e v w) := by
  intro j hj
  unfold MSpline.lin
  rw [hv j hj, hw j hj, smul_zero, add_zero, one_smul]

theorem Fit.Best.slope {f : Fit D} {s : MSpline ℝ (Fin D → ℝ)} (h : s.MWF) (he : s.state = .evaluable) (hin : f.Inside s)
    (hl : 0 ≤ f.lambda) {i0 il : ℕ} {v w : ℕ → Fin D → ℝ} (hv : f.Best s i0 il v) (hw : s.Free f.fix i0 il w) : f.slope s v w = 0 := by
  by_contra hne
  have hS := Fit.seen_nonneg h he hl w
  set S := f.seen s w with hSd
  set x := f.slope s v w with hx
  have := hv.2 _ (hv.1.lin hw (-x / (S + 1)))
  rw [Fit.cost_line h he hin, ← hSd, ← hx] at this
  have e : 2 * (-x / (S + 1)) * x + (-x / (S + 1)) ^ 2 * S = -(x ^ 2 * (S + 2)) / (S + 1) ^ 2 := by
    field_simp
    ring
  have hp : 0 < x ^ 2 * (S + 2) / (S + 1) ^ 2 := by positivity
  rw [neg_div _ (x ^ 2 * (S + 2))] at e
  linarith

/-- Without a slope a choice is the best one. -/
theorem Fit.best_of_slope {f : Fit D} {s : MSpline ℝ (Fin D → ℝ)} (h : s.MWF) (he : s.state = .evaluable) (hin : f.Inside s)
    (hl : 0 ≤ f.lambda) {i0 il : ℕ} {v : ℕ → Fin D → ℝ} (hv : s.Keeps f.fix i0 il v)
    (hs : ∀ w, s.Free f.fix i0 il w → f.slope s v w = 0) : f.Best s i0 il v := by
  refine ⟨hv, fun v' hv' => ?_⟩
  have hf : s.Free f.fix i0 il (MSpline.lin 1 (-1) v' v) := fun j hj => by
    unfold MSpline.lin
    rw [hv j hj, hv' j hj]
    simp
  have e : v' = MSpline.lin 1 1 v (MSpline.lin 1 (-1) v' v) := by
    funext j
    unfold MSpline.lin
    simp
  rw [e, Fit.cost_line h he hin, hs _ hf]
  have := Fit.seen_nonneg h he hl (MSpline.lin 1 (-1) v' v)
  linarith

/-- Two best choices differ by an invisible change. -/
theorem Fit.Best.difference {f : Fit D} {s : MSpline ℝ (Fin D → ℝ)} (h : s.MWF) (he : s.state = .evaluable) (hin : f.Inside s)
    (hlen : f.times.length = f.points.length) (hl : 0 ≤ f.lambda) {i0 il : ℕ} {v v' : ℕ → Fin D → ℝ} (hv : f.Best s i0 il v)
    (hv' : s.Keeps f.fix i0 il v') (hc : f.cost (s.withVerts v') ≤ f.cost (s.withVerts v)) :
    Spec.Invisible s f i0 il (lin 1 (-1) v' v) := by
  have hf : s.Free f.fix i0 il (MSpline.lin 1 (-1) v' v) := fun j hj => by
    unfold MSpline.lin
    rw [hv.1 j hj, hv' j hj]
    simp
  have e : v' = MSpline.lin 1 1 v (MSpline.lin 1 (-1) v' v) := by
    funext j
    unfold MSpline.lin
    simp
  refine (Fit.invisible_iff h he hin hlen hl i0 il _).2 ⟨hf, le_antisymm ?_ (Fit.seen_nonneg h he hl _)⟩
  rw [e, Fit.cost_line h he hin, hv.slope h he hin hl hf] at hc
  linarith

theorem Fit.Best.unique {f : Fit D} {s : MSpline ℝ (Fin D → ℝ)} (h : s.MWF) (he : s.state = .evaluable) (hin : f.Inside s)
    (hlen : f.times.length = f.points.length) (hl : 0 ≤ f.lambda) {i0 il : ℕ} (hd : Spec.Determined s f i0 il) {v v' : ℕ → Fin D → ℝ}
    (hv : f.Best s i0 il v) (hv' : s.Keeps f.fix i0 il v') (hc : f.cost (s.withVerts v') ≤ f.cost (s.withVerts v)) : v' = v := by
  have := hd _ (hv.difference h he hin hlen hl hv' hc)
  funext j
  have := congrFun this j
  unfold MSpline.lin at this
  rw [one_smul, neg_one_smul, Pi.zero_apply, ← sub_eq_add_neg] at this
  exact sub_eq_zero.1 this

/-- C117: no other choice of the free vertices is as good as the result of the fit, exactly if no change but zero is invisible.  Otherwise
every invisible change of the result is as good. -/
theorem C117_iff_partial {order : ℕ} (ho : 1 ≤ order) (hD : 1 ≤ D) {s : MSpline ℝ (Fin D → ℝ)} (hr : Life order s) {f : Fit D} {i0 il : ℕ}
    (ha : f.Admissible s i0 il) :
    ∃ v, f.run s = (.ok (), s.withVerts v) ∧ s.Keeps f.fix i0 il v ∧
      (∀ w, Spec.Invisible s f i0 il w → s.Keeps f.fix i0 il (lin 1 1 v w) ∧ f.cost (s.withVerts (lin 1 1 v w)) = f.cost (s.withVerts v)) ∧
      ((∀ v', s.Keeps f.fix i0 il v' → f.cost (s.withVerts v') ≤ f.cost (s.withVerts v) → v' = v) ↔ Spec.Determined s f i0 il) := by
  have h := (hr.mwf ho hD).1
  have hin := ha.toAccepted.inside h
  obtain ⟨v, v1, v2, v3⟩ := C113_optimal ho hD hr ha
  have hinv : ∀ w, Spec.Invisible s f i0 il w → s.Keeps f.fix i0 il (lin 1 1 v w) ∧ f.cost (s.withVerts (lin 1 1 v w)) = f.cost (s.withVerts v) := by
    intro w hw
    obtain ⟨w1, w2⟩ := (Fit.invisible_iff h ha.evaluable hin ha.length ha.nonneg i0 il w).1 hw
    refine ⟨v2.lin w1 1, ?_⟩
    rw [Fit.cost_line h ha.evaluable hin, Fit.Best.slope h ha.evaluable hin ha.nonneg ⟨v2, v3⟩ w1, w2]
    ring
  refine ⟨v, v1, v2, hinv, fun hu w hw => ?_, fun hd v' hv' hc => Fit.Best.unique h ha.evaluable hin ha.length ha.nonneg hd ⟨v2, v3⟩ hv' hc⟩
  obtain ⟨a, b⟩ := hinv w hw
  have := hu _ a b.le
  funext j
  have := congrFun this j
  unfold lin at this
  simpa using this

/-! ### Other solvers, other starts -/

theorem withVerts_evaluable {s : MSpline ℝ (Fin D → ℝ)} (he : s.state = .evaluable) (u : ℕ → Fin D → ℝ) : (s.withVerts u).state = .evaluable := he

theorem value_base (s : MSpline ℝ (Fin D → ℝ)) (u v : ℕ → Fin D → ℝ) : (s.withVerts u).value v = s.value v := by
  funext t der
  unfold value
  rw [withVerts_withVerts]

theorem cross_base (s : MSpline ℝ (Fin D → ℝ)) (u v w : ℕ → Fin D → ℝ) : (s.withVerts u).cross v w = s.cross v w := by
  unfold cross curveVal
  rw [withVerts_keys]
  simp only [withVerts_kn]
  rfl

theorem Fit.slope_base (f : Fit D) (s : MSpline ℝ (Fin D → ℝ)) (u v w : ℕ → Fin D → ℝ) : f.slope (s.withVerts u) v w = f.slope s v w := by
  unfold Fit.slope
  rw [value_base, value_base, cross_base]

theorem Fit.cost_base (f : Fit D) (s : MSpline ℝ (Fin D → ℝ)) (u v : ℕ → Fin D → ℝ) :
    f.cost ((s.withVerts u).withVerts v) = f.cost (s.withVerts v) := by rw [withVerts_withVerts]

theorem Spec.Invisible.base {s : MSpline ℝ (Fin D → ℝ)} {f : Fit D} {i0 il : ℕ} {u w : ℕ → Fin D → ℝ}
    (h : Spec.Invisible (s.withVerts u) f i0 il w) : Spec.Invisible s f i0 il w := by
  refine ⟨h.free, fun m hm hw => ?_, fun hl => ?_⟩
  · have := h.data m hm hw
    rwa [withVerts_withVerts] at this
  · have := h.smooth hl
    rwa [withVerts_withVerts, withVerts_keys, withVerts_kn] at this

theorem Spec.Determined.base {s : MSpline ℝ (Fin D → ℝ)} {f : Fit D} {i0 il : ℕ} (h : Spec.Determined s f i0 il) (u : ℕ → Fin D → ℝ) :
    Spec.Determined (s.withVerts u) f i0 il := fun w hw => h w hw.base

theorem Keeps.base {s : MSpline ℝ (Fin D → ℝ)} {fix i0 il : ℕ} (hl : il < s.keys.length) {u v : ℕ → Fin D → ℝ} (hu : s.Keeps fix i0 il u) :
    (s.withVerts u).Keeps fix i0 il v ↔ s.Keeps fix i0 il v := by
  have e := hu.vert hl
  constructor
  · intro h j hj
    rw [h j hj, e, hu j hj]
  · intro h j hj
    rw [h j hj, e, hu j hj]

theorem Fit.Accepted.last {f : Fit D} {s : MSpline ℝ (Fin D → ℝ)} {i0 il : ℕ} (ha : f.Accepted s i0 il) : il < s.keys.length := by
  obtain ⟨_, _, _, _, _, _, hl⟩ := ha.ends
  have := hl.upper
  omega

/-- C117: when a fit is determined by its data, its result depends neither on the solver, nor on the choice between dense and sparse matrices,
nor on whether vertices or offsets are computed, nor on the values of the free vertices before the fit.  In particular fitting again changes
nothing. -/
theorem C117_same_partial {order : ℕ} (ho : 1 ≤ order) (hD : 1 ≤ D) {s : MSpline ℝ (Fin D → ℝ)} (hr : Life order s) {f : Fit D} {i0 il : ℕ}
    (ha : f.Admissible s i0 il) (hd : Spec.Determined s f i0 il) (dense : Bool) (solve : Solver ℝ) (hsolve : SolvesSemidefinite solve)
    (offsets : Bool) (hoff : offsets = true → f.lambda = 0) :
    let g : Fit D := { f with dense := dense, solve := solve, offsets := offsets }
    (∀ u, s.Keeps f.fix i0 il u → g.run (s.withVerts u) = f.run s) ∧ g.run (f.run s).2 = f.run s := by
  intro g
  have h := (hr.mwf ho hD).1
  have hin := ha.toAccepted.inside h
  have hg : g.Admissible s i0 il := ⟨⟨hsolve, ha.evaluable, ha.length, ha.ends, ha.nonneg, hoff⟩, ha.fixed⟩
  obtain ⟨v, v1, v2, v3⟩ := C113_optimal ho hD hr ha
  have key : ∀ u, s.Keeps f.fix i0 il u → g.run (s.withVerts u) = f.run s := by
    intro u hu
    obtain ⟨w, w1, w2, w3⟩ := Fit.run_optimal hD (withVerts_mwf h u) (hg.withVerts u)
    rw [w1, v1, withVerts_withVerts]
    have w2' : s.Keeps f.fix i0 il w := (Keeps.base ha.last hu).1 w2
    have := w3 v ((Keeps.base ha.last hu).2 v2)
    rw [Fit.cost_base, Fit.cost_base] at this
    rw [Fit.Best.unique h ha.evaluable hin ha.length ha.nonneg hd ⟨v2, v3⟩ w2' this]
  refine ⟨key, ?_⟩
  have := key v v2
  rw [v1] at this ⊢
  exact this

/-- C117: when a fit is determined by its data, and the points lie on a curve with the same fixed vertices, straight if there is a
regularisation, then the result is this curve. -/
theorem C117_recovers_partial {order : ℕ} (ho : 1 ≤ order) (hD : 1 ≤ D) {s : MSpline ℝ (Fin D → ℝ)} (hr : Life order s) {f : Fit D} {i0 il : ℕ}
    (ha : f.Admissible s i0 il) (hd : Spec.Determined s f i0 il) (v' : ℕ → Fin D → ℝ) (hv' : s.Keeps f.fix i0 il v')
    (hm : Spec.Meets (s.withVerts v') (f.times.zip f.points))
    (hs : f.lambda ≠ 0 → Spec.fitBending (s.withVerts v') (s.kn (s.order - 1)) (s.kn (s.keys.length - s.order)) = 0) :
    f.run s = (.ok (), s.withVerts v') := by
  have h := (hr.mwf ho hD).1
  have hin := ha.toAccepted.inside h
  obtain ⟨v, v1, v2, v3⟩ := C113_optimal ho hD hr ha
  have z : f.cost (s.withVerts v') = 0 := by
    rw [Fit.cost_value]
    have e1 : f.lambda * s.bend v' = 0 := by
      by_cases hz : f.lambda = 0
      · rw [hz, zero_mul]
      · rw [show s.bend v' = 0 from hs hz, mul_zero]
    rw [e1, add_zero]
    refine sum_eq_zero fun m _ => sum_eq_zero fun d _ => ?_
    have := hm _ (List.getElem_mem m.2)
    have : (s.withVerts v').euclideanEvalD none f.data[m].1 ((0 : ℕ) : ℤ) = .ok f.data[m].2 := this
    unfold value
    rw [this, Outcome.getD_ok, sub_self, mul_zero]
    ring
  have n : 0 ≤ f.cost (s.withVerts v) := by
    rw [Fit.cost_value]
    exact add_nonneg (sum_nonneg fun _ _ => sum_nonneg fun _ _ => sq_nonneg _) (mul_nonneg ha.nonneg (bend_nonneg h ha.evaluable v))
  rw [v1, Fit.Best.unique h ha.evaluable hin ha.length ha.nonneg hd ⟨v2, v3⟩ hv' (by rw [z]; exact n)]

/-! ### Other points -/

theorem getD_inside {α : Type*} (l : List α) (x : α) {n : ℕ} (h : n < l.length) : l.getD n x = l[n] := by
  rw [List.getD_eq_getElem?_getD, List.getElem?_eq_getElem h, Option.getD_some]

/-- The slope as a sum over the times. -/
theorem Fit.slope_times {f : Fit D} {s : MSpline ℝ (Fin D → ℝ)} (hlen : f.times.length = f.points.length) (v w : ℕ → Fin D → ℝ) :
    f.slope s v w = ∑ m ∈ range f.times.length, ∑ d : Fin D,
      (weightOf f.weights m * (s.value v (f.times.getD m 0) 0 d - f.points.getD m 0 d)) * (weightOf f.weights m * s.value w (f.times.getD m 0) 0 d)
      + f.lambda * s.cross v w := by
  unfold Fit.slope
  congr 1
  have hzl : f.data.length = f.times.length := by rw [List.length_zip]; omega
  rw [← hzl, Finset.sum_range (n := f.data.length)]
  refine sum_congr rfl fun m _ => sum_congr rfl fun d _ => ?_
  have h1 : m.1 < f.times.length := by omega
  have h2 : m.1 < f.points.length := by omega
  rw [Fin.getElem_fin, show f.data[m.1] = (f.times[m.1], f.points[m.1]) from List.getElem_zip, getD_inside _ _ h1, getD_inside _ _ h2]

/-- C117: the result of a fit depends linearly on the points and on the fixed vertices together. -/
theorem C117_linear_partial {order : ℕ} (ho : 1 ≤ order) (hD : 1 ≤ D) {s : MSpline ℝ (Fin D → ℝ)} (hr : Life order s) {f : Fit D} {i0 il : ℕ}
    (ha : f.Admissible s i0 il) (hd : Spec.Determined s f i0 il) (a b : ℝ) (q : List (Fin D → ℝ)) (hq : q.length = f.points.length)
    (u u' : ℕ → Fin D → ℝ) :
    let g : Fit D := { f with points := q }
    let k : Fit D := { f with points := List.zipWith (fun x y => a • x + b • y) f.points q }
    ∃ v v', f.run (s.withVerts u) = (.ok (), s.withVerts v) ∧ g.run (s.withVerts u') = (.ok (), s.withVerts v') ∧
      k.run (s.withVerts (lin a b u u')) = (.ok (), s.withVerts (lin a b v v')) := by
  intro g k
  have h := (hr.mwf ho hD).1
  have he := ha.evaluable
  have hin := ha.toAccepted.inside h
  have hlg : g.times.length = g.points.length := ha.length.trans hq.symm
  have hlk : k.times.length = k.points.length := by
    have := ha.length
    simp only [k, List.length_zipWith, hq, min_self]
    exact this
  have hg : g.Admissible s i0 il := ⟨⟨ha.solves, ha.evaluable, hlg, ha.ends, ha.nonneg, ha.offsets⟩, ha.fixed⟩
  have hk : k.Admissible s i0 il := ⟨⟨ha.solves, ha.evaluable, hlk, ha.ends, ha.nonneg, ha.offsets⟩, ha.fixed⟩
  obtain ⟨v, v1, v2, v3⟩ := Fit.run_optimal hD (withVerts_mwf h u) (ha.withVerts u)
  obtain ⟨w, w1, w2, w3⟩ := Fit.run_optimal hD (withVerts_mwf h u') (hg.withVerts u')
  obtain ⟨x, x1, x2, x3⟩ := Fit.run_optimal hD (withVerts_mwf h (lin a b u u')) (hk.withVerts (lin a b u u'))
  have hd' : Spec.Determined (s.withVerts (lin a b u u')) k i0 il := fun w' hw' => hd w' ⟨hw'.base.free, hw'.base.data, hw'.base.smooth⟩
  have keep : (s.withVerts (lin a b u u')).Keeps k.fix i0 il (lin a b v w) := by
    intro j hj
    unfold lin
    rw [v2 j hj, w2 j hj]
    by_cases hjl : j < s.keys.length
    · rw [withVerts_vert s _ j hjl, withVerts_vert s _ j hjl, withVerts_vert s _ j hjl]
    · rw [vert_ge _ (by rw [withVerts_keys]; omega), vert_ge _ (by rw [withVerts_keys]; omega), vert_ge _ (by rw [withVerts_keys]; omega)]
      simp
  have best : k.Best (s.withVerts (lin a b u u')) i0 il (lin a b v w) := by
    refine Fit.best_of_slope (withVerts_mwf h _) he ((hk.withVerts _).toAccepted.inside (withVerts_mwf h _)) ha.nonneg keep fun y hy => ?_
    have s1 : f.slope s v y = 0 := by
      rw [← Fit.slope_base f s u]
      exact Fit.Best.slope (withVerts_mwf h u) he ((ha.withVerts u).toAccepted.inside (withVerts_mwf h u)) ha.nonneg ⟨v2, v3⟩ hy
    have s2 : g.slope s w y = 0 := by
      rw [← Fit.slope_base g s u']
      exact Fit.Best.slope (withVerts_mwf h u') he ((hg.withVerts u').toAccepted.inside (withVerts_mwf h u')) hg.nonneg ⟨w2, w3⟩ hy
    rw [Fit.slope_base]
    rw [Fit.slope_times ha.length] at s1
    rw [Fit.slope_times hlg] at s2
    rw [Fit.slope_times hlk]
    have e1 : s.cross (lin a b v w) y = a * s.cross v y + b * s.cross w y := by
      rw [cross_comm, cross_lin, cross_comm s y v, cross_comm s y w]
    have e2 : ∑ m ∈ range k.times.length, ∑ d : Fin D,
          (weightOf k.weights m * (s.value (lin a b v w) (k.times.getD m 0) 0 d - k.points.getD m 0 d)) * (weightOf k.weights m * s.value y (k.times.getD m 0) 0 d)
        = a * ∑ m ∈ range f.times.length, ∑ d : Fin D,
          (weightOf f.weights m * (s.value v (f.times.getD m 0) 0 d - f.points.getD m 0 d)) * (weightOf f.weights m * s.value y (f.times.getD m 0) 0 d)
        + b * ∑ m ∈ range g.times.length, ∑ d : Fin D,
          (weightOf g.weights m * (s.value w (g.times.getD m 0) 0 d - g.points.getD m 0 d)) * (weightOf g.weights m * s.value y (g.times.getD m 0) 0 d) := by
      change ∑ m ∈ range f.times.length, _ = a * ∑ m ∈ range f.times.length, _ + b * ∑ m ∈ range f.times.length, _
      rw [mul_sum, mul_sum, ← sum_add_distrib]
      refine sum_congr rfl fun m hm => ?_
      have hm := mem_range.1 hm
      rw [mul_sum, mul_sum, ← sum_add_distrib]
      refine sum_congr rfl fun d _ => ?_
      obtain ⟨i, hi⟩ := hin _ (List.getElem_mem hm)
      have h2 : m < f.points.length := by have := ha.length; omega
      have h3 : m < q.length := by omega
      have e3 : k.points.getD m 0 = a • f.points.getD m 0 + b • g.points.getD m 0 := by
        simp only [k, g]
        rw [getD_inside _ _ (by rw [List.length_zipWith]; omega), List.getElem_zipWith, getD_inside _ _ h2, getD_inside _ _ h3]
      rw [e3]
      change (weightOf f.weights m * (s.value (lin a b v w) (f.times.getD m 0) 0 d - _)) * (weightOf f.weights m * s.value y (f.times.getD m 0) 0 d) = _
      rw [getD_inside f.times _ hm, value_lin h he _ _ _ _ hi, Pi.add_apply, Pi.smul_apply, Pi.smul_apply, smul_eq_mul, smul_eq_mul]
      rw [show g.weights = f.weights from rfl]
      ring
    rw [e1, e2]
    change _ + f.lambda * (a * s.cross v y + b * s.cross w y) = 0
    change _ + f.lambda * s.cross w y = 0 at s2
    linear_combination a * s1 + b * s2
  refine ⟨v, w, by rw [v1, withVerts_withVerts], by rw [w1, withVerts_withVerts], ?_⟩
  rw [x1, withVerts_withVerts]
  have := Fit.Best.unique (withVerts_mwf h _) he ((hk.withVerts _).toAccepted.inside (withVerts_mwf h _)) hlk ha.nonneg hd' best x2
    (x3 _ best.1)
  rw [this]

/-- C117: with the same fixed vertices, the weighted squares of the differences of the results at the data times, plus twice the weighted
bending of the difference, are at most the weighted squares of the differences of the points.  This needs no unique result. -/
theorem C117_stable_partial {order : ℕ} (ho : 1 ≤ order) (hD : 1 ≤ D) {s : MSpline ℝ (Fin D → ℝ)} (hr : Life order s) {f : Fit D} {i0 il : ℕ}
    (ha : f.Admissible s i0 il) (q : List (Fin D → ℝ)) (hq : q.length = f.points.length) (solve : Solver ℝ) (hsolve : SolvesSemidefinite solve) :
    let g : Fit D := { f with points := q, solve := solve }
    ∃ v v', f.run s = (.ok (), s.withVerts v) ∧ g.run s = (.ok (), s.withVerts v') ∧
      ∑ m ∈ range f.times.length, ∑ d : Fin D,
          (weightOf f.weights m * (s.value v (f.times.getD m 0) 0 d - s.value v' (f.times.getD m 0) 0 d)) ^ 2 + 2 * (f.lambda * s.bend (lin 1 (-1) v v'))
        ≤ ∑ m ∈ range f.times.length, ∑ d : Fin D, (weightOf f.weights m * (f.points.getD m 0 d - q.getD m 0 d)) ^ 2 := by
  intro g
  have h := (hr.mwf ho hD).1
  have he := ha.evaluable
  have hin := ha.toAccepted.inside h
  have hlg : g.times.length = g.points.length := ha.length.trans hq.symm
  have hg : g.Admissible s i0 il := ⟨⟨hsolve, ha.evaluable, hlg, ha.ends, ha.nonneg, ha.offsets⟩, ha.fixed⟩
  obtain ⟨v, v1, v2, v3⟩ := C113_optimal ho hD hr ha
  obtain ⟨w, w1, w2, w3⟩ := C113_optimal ho hD hr hg
  refine ⟨v, w, v1, w1, ?_⟩
  have hf : s.Free f.fix i0 il (lin 1 (-1) v w) := fun j hj => by
    unfold lin
    rw [v2 j hj, w2 j hj]
    simp
  have s1 := Fit.Best.slope h he hin ha.nonneg (f := f) ⟨v2, v3⟩ hf
  have s2 := Fit.Best.slope h he hin ha.nonneg (f := g) ⟨w2, w3⟩ hf
  rw [Fit.slope_times ha.length] at s1
  rw [Fit.slope_times hlg] at s2
  change ∑ m ∈ range f.times.length, ∑ d : Fin D,
      (weightOf f.weights m * (s.value w (f.times.getD m 0) 0 d - q.getD m 0 d)) * (weightOf f.weights m * s.value (lin 1 (-1) v w) (f.times.getD m 0) 0 d)
      + f.lambda * s.cross w (lin 1 (-1) v w) = 0 at s2
  have e1 : s.bend (lin 1 (-1) v w) = s.cross v (lin 1 (-1) v w) - s.cross w (lin 1 (-1) v w) := by
    rw [bend_eq h he, cross_comm s (lin 1 (-1) v w), cross_lin, cross_lin, cross_lin]
    rw [cross_comm s (lin 1 (-1) v w) v, cross_comm s (lin 1 (-1) v w) w, cross_lin, cross_lin]
    ring
  have e2 : ∑ m ∈ range f.times.length, ∑ d : Fin D,
        (weightOf f.weights m * (s.value v (f.times.getD m 0) 0 d - s.value w (f.times.getD m 0) 0 d)) ^ 2
      ≤ ∑ m ∈ range f.times.length, ∑ d : Fin D, (weightOf f.weights m * (f.points.getD m 0 d - q.getD m 0 d)) ^ 2
        + 2 * (∑ m ∈ range f.times.length, ∑ d : Fin D,
          (weightOf f.weights m * (s.value v (f.times.getD m 0) 0 d - f.points.getD m 0 d)) * (weightOf f.weights m * s.value (lin 1 (-1) v w) (f.times.getD m 0) 0 d)
        - ∑ m ∈ range f.times.length, ∑ d : Fin D,
          (weightOf f.weights m * (s.value w (f.times.getD m 0) 0 d - q.getD m 0 d)) * (weightOf f.weights m * s.value (lin 1 (-1) v w) (f.times.getD m 0) 0 d)) := by
    rw [← sum_sub_distrib, mul_sum, ← sum_add_distrib]
    refine sum_le_sum fun m hm => ?_
    have hm := mem_range.1 hm
    rw [← sum_sub_distrib, mul_sum, ← sum_add_distrib]
    refine sum_le_sum fun d _ => ?_
    obtain ⟨i, hi⟩ := hin _ (List.getElem_mem hm)
    rw [getD_inside f.times _ hm, value_lin h he _ _ _ _ hi]
    generalize s.value v f.times[m] 0 d = A
    generalize s.value w f.times[m] 0 d = B
    generalize f.points.getD m 0 d = P
    generalize q.getD m 0 d = Q
    generalize weightOf f.weights m = W
    nlinarith [sq_nonneg (W * (A - B) - W * (P - Q))]
  rw [e1]
  linarith [mul_sub f.lambda (s.cross v (lin 1 (-1) v w)) (s.cross w (lin 1 (-1) v w))]

/-! ### When a fit is determined -/

/-- The times of the points that have a weight. -/
noncomputable def Fit.seenTimes (f : Fit D) : List ℝ :=
  ((List.range f.times.length).filter fun m => decide (weightOf f.weights m ≠ 0)).map fun m => f.times.getD m 0

theorem Fit.mem_seenTimes {f : Fit D} {t : ℝ} : t ∈ f.seenTimes ↔ ∃ m, ∃ hm : m < f.times.length, weightOf f.weights m ≠ 0 ∧ f.times[m] = t := by
  unfold Fit.seenTimes
  simp only [List.mem_map, List.mem_filter, List.mem_range, decide_eq_true_eq]
  constructor
  · rintro ⟨m, ⟨h1, h2⟩, rfl⟩
    exact ⟨m, h1, h2, (getD_inside _ _ h1).symm⟩
  · rintro ⟨m, h1, h2, rfl⟩
    exact ⟨m, ⟨h1, h2⟩, getD_inside _ _ h1⟩

/-- A later time is in a later interval. -/
theorem InSeg.le {s : MSpline ℝ (Fin D → ℝ)} (h : s.MWF) {t t' : ℝ} {i j : ℕ} (hi : s.InSeg t i) (hj : s.InSeg t' j) (htt : t ≤ t') : i ≤ j := by
  by_contra hc
  have h1 := hi.upper
  have := h.order_pos
  have h2 : s.kn (j + 1) ≤ s.kn i := h.mono (j + 1) i (by omega) (by omega)
  have h3 := hi.left
  rcases hj.right with h4 | ⟨_, h4⟩
  · linarith
  · omega

theorem seg_value {s : MSpline ℝ (Fin D → ℝ)} (h : s.MWF) (he : s.state = .evaluable) (w : ℕ → Fin D → ℝ) {t : ℝ} {i : ℕ} (hi : s.InSeg t i)
    (d : Fin D) : s.value w t 0 d = (Zeros.seg s.kn (s.order - 1) (fun j => comps w j d) i).eval t := by
  rw [(value_ok h he w hi 0).2, curveVal_poly h (comps w) i d 0 t hi.lower hi.upper, curvePoly_local h (comps w) i d hi.lower hi.upper]
  rfl

theorem value_zero {s : MSpline ℝ (Fin D → ℝ)} {w : ℕ → Fin D → ℝ} {t : ℝ} (h : (s.withVerts w).euclideanEval t = .ok 0) (d : Fin D) :
    s.value w t 0 d = 0 := by
  have : (s.withVerts w).euclideanEvalD none t ((0 : ℕ) : ℤ) = .ok 0 := h
  unfold value
  rw [this, Outcome.getD_ok]
  rfl

theorem Fit.Accepted.segment {f : Fit D} {s : MSpline ℝ (Fin D → ℝ)} (h : s.MWF) {i0 il : ℕ} (ha : f.Accepted s i0 il) {t : ℝ} (ht : t ∈ f.times) :
    ∃ i, s.InSeg t i ∧ i0 ≤ i ∧ i ≤ il := by
  obtain ⟨i, hi⟩ := ha.inside h t ht
  obtain ⟨t0, tl, ht0, htl, hb, h0, hl⟩ := ha.ends
  exact ⟨i, hi, InSeg.le h h0 hi (hb t ht).1, InSeg.le h hi hl (hb t ht).2⟩

theorem Fit.seen_mem {f : Fit D} {t : ℝ} (ht : t ∈ f.seenTimes) : t ∈ f.times := by
  obtain ⟨m, hm, -, rfl⟩ := Fit.mem_seenTimes.1 ht
  exact List.getElem_mem hm

/-- C117: a fit is determined if there is a data time of nonzero weight for each free vertex, strictly inside the support of its basis
function, the times in the order of the vertices. -/
theorem C117_interlaced {order : ℕ} (ho : 2 ≤ order) (hD : 1 ≤ D) {s : MSpline ℝ (Fin D → ℝ)} (hr : Life order s) {f : Fit D} {i0 il : ℕ}
    (ha : f.Accepted s i0 il)
    (hi : Verif.Spec.Interlaced order (fun j => s.kn (i0 + 1 - order + f.fix + j)) (il + 1 - (i0 + 1 - order + f.fix)) f.seenTimes) :
    Spec.Determined s f i0 il := by
  obtain ⟨h, rfl⟩ := hr.mwf (by omega) hD
  have he := ha.evaluable
  obtain ⟨t0, tl, ht0, htl, hb, h0, hl⟩ := ha.ends
  have l0 := h0.lower
  have ll := hl.upper
  have l1 : i0 ≤ il := by
    obtain ⟨i, -, a, b⟩ := ha.segment h (List.mem_of_head? ht0)
    omega
  intro w hw
  funext j d
  by_cases hj : i0 + 1 - s.order + f.fix ≤ j ∧ j ≤ il
  swap
  · rw [hw.free j hj]; rfl
  obtain ⟨x, x1, x2⟩ := hi
  set b := i0 + 1 - s.order with hbdef
  have hsegm : ∀ k, ∃ i, f.fix ≤ k → k < il + 1 - b → s.InSeg (x (k - f.fix)) i ∧ i0 ≤ i ∧ i ≤ il ∧
      (Zeros.seg s.kn (s.order - 1) (fun j => comps w j d) i).eval (x (k - f.fix)) = 0 := by
    intro k
    by_cases hk : f.fix ≤ k ∧ k < il + 1 - b
    · have hm := (x2 (k - f.fix) (by omega)).1
      obtain ⟨i, c1, c2, c3⟩ := ha.segment h (Fit.seen_mem hm)
      obtain ⟨m, hml, hmw, hmt⟩ := Fit.mem_seenTimes.1 hm
      refine ⟨i, fun _ _ => ⟨c1, c2, c3, ?_⟩⟩
      rw [← seg_value h he w c1 d, ← hmt]
      exact value_zero (hw.data m hml hmw) d
    · exact ⟨0, fun h1 h2 => absurd ⟨h1, h2⟩ hk⟩
  choose sg hsg using hsegm
  have key := Zeros.zero_of_zeros_fixed (kn := fun m => s.kn (b + m)) (n := il + 1 - b + (s.order - 1) + 1) (N := il + 1 - b) (p := s.order - 1)
    (fix := f.fix) (fun a c hac hc => h.strict (by omega) (by omega)) rfl (by omega) (fun k => comps w (b + k) d)
    (fun k hk => by
      have : w (b + k) = 0 := hw.free _ (by omega)
      rw [comps_fin, this]; rfl)
    (fun k => x (k - f.fix)) (fun k => sg k - b)
    (fun k h1 h2 => by
      have := x1 (k - f.fix) (by omega)
      rwa [show k - f.fix + 1 = k + 1 - f.fix by omega] at this)
    (fun k h1 h2 => by
      have := (x2 (k - f.fix) (by omega)).2
      dsimp only at this
      rw [show b + f.fix + (k - f.fix) = b + k by omega, show b + f.fix + (k - f.fix + s.order) = b + (k + (s.order - 1) + 1) by omega] at this
      exact this)
    (fun k h1 h2 => by
      obtain ⟨c1, c2, c3, c4⟩ := hsg k h1 h2
      refine ⟨by omega, by omega, ⟨?_, ?_⟩, ?_⟩
      · dsimp only; rw [show b + (sg k - b) = sg k by omega]; exact c1.left
      · dsimp only; rw [show b + (sg k - b + 1) = sg k + 1 by omega]; exact c1.right_le
      · rw [Zeros.seg_base s.kn b (s.order - 1) (fun j => comps w j d) (sg k - b) (fun j h3 h4 => by omega), show b + (sg k - b) = sg k by omega]
        exact c4)
    (j - b) (by omega)
  rw [show b + (j - b) = j by omega, comps_fin] at key
  exact key

/-- C117: without a regularisation, and for splines of order two, this is also necessary. -/
theorem C117_interlaced_iff {order : ℕ} (ho : 2 ≤ order) (hD : 1 ≤ D) {s : MSpline ℝ (Fin D → ℝ)} (hr : Life order s) {f : Fit D} {i0 il : ℕ}
    (ha : f.Accepted s i0 il) (hlam : f.lambda = 0 ∨ order = 2) :
    Spec.Determined s f i0 il ↔
      Verif.Spec.Interlaced order (fun j => s.kn (i0 + 1 - order + f.fix + j)) (il + 1 - (i0 + 1 - order + f.fix)) f.seenTimes := by
  refine ⟨fun hd => ?_, C117_interlaced ho hD hr ha⟩
  obtain ⟨h, rfl⟩ := hr.mwf (by omega) hD
  have he := ha.evaluable
  obtain ⟨t0, tl, ht0, htl, hb, h0, hl⟩ := ha.ends
  have l0 := h0.lower
  have ll := hl.upper
  set b := i0 + 1 - s.order + f.fix with hbdef
  rcases Nat.eq_zero_or_pos (il + 1 - b) with hN | hN
  · rw [hN]
    exact ⟨fun _ => 0, fun j hj => absurd hj (by omega), fun j hj => absurd hj (by omega)⟩
  have hlate : ∀ t ∈ f.seenTimes, s.kn b ≤ t → ∀ i, s.InSeg t i → i ≤ il → b ≤ i := by
    intro t _ hbt i hi hil
    by_contra hc
    rcases hi.right with h1 | ⟨-, h1⟩
    · have := h.mono (i + 1) b (by omega) (by omega)
      linarith
    · omega
  have hint : ∀ t, ∃ i, t ∈ f.seenTimes → s.InSeg t i ∧ i ≤ il := by
    intro t
    by_cases ht : t ∈ f.seenTimes
    · obtain ⟨i, c1, -, c3⟩ := ha.segment h (Fit.seen_mem ht)
      exact ⟨i, fun _ => ⟨c1, c3⟩⟩
    · exact ⟨0, fun h => absurd h ht⟩
  choose sg hsg using hint
  have key := Zeros.interlaced_of_determined (kn := fun m => s.kn (b + m)) (n := il + 1 - b + (s.order - 1) + 1) (N := il + 1 - b)
    (p := s.order - 1) (fun a c hac hc => h.strict (by omega) (by omega)) rfl (by omega)
    (f.seenTimes.filter fun t => decide (s.kn b ≤ t)) (fun t => sg t - b)
    (fun t ht => by
      obtain ⟨h1, h2⟩ := List.mem_filter.1 ht
      obtain ⟨c1, c2⟩ := hsg t h1
      have := hlate t h1 (by simpa using h2) (sg t) c1 c2
      refine ⟨by omega, ?_, ?_⟩
      · dsimp only; rw [show b + (sg t - b) = sg t by omega]; exact c1.left
      · dsimp only; rw [show b + (sg t - b + 1) = sg t + 1 by omega]; exact c1.right_le)
    (fun c hc j hj => by
      have hw := hd (fun k => if b ≤ k ∧ k ≤ il then fun _ => c (k - b) else 0) ⟨fun k hk => if_neg hk, fun m hm hmw => ?_, fun hl0 => ?_⟩
      · have := congrFun (congrFun hw (b + j)) ⟨0, hD⟩
        rw [if_pos (by omega), show b + j - b = j by omega] at this
        exact this
      · have ht : f.times[m] ∈ f.seenTimes := Fit.mem_seenTimes.2 ⟨m, hm, hmw, rfl⟩
        obtain ⟨c1, c2⟩ := hsg _ ht
        refine (value_ok h he _ c1 0).1.trans (congrArg Outcome.ok (funext fun d => ?_))
        rw [seg_value h he _ c1 d]
        rcases lt_or_ge f.times[m] (s.kn b) with h1 | h1
        · have h2 : sg f.times[m] < b := by
            by_contra h2
            have := h.mono b (sg f.times[m]) (by omega) (by have := c1.upper; omega)
            have := c1.left
            linarith
          unfold Zeros.seg
          rw [sum_eq_zero, eval_zero]
          · rfl
          intro k hk
          have := mem_Ico.1 hk
          dsimp only
          rw [comps_fin, if_neg (by omega), Pi.zero_apply, C_0, zero_mul]
        · have h2 := hlate _ ht h1 _ c1 c2
          have := hc f.times[m] (List.mem_filter.2 ⟨ht, by simpa using h1⟩)
          rw [Pi.zero_apply, ← this, show sg f.times[m] = b + (sg f.times[m] - b) by omega,
            ← Zeros.seg_base s.kn b (s.order - 1) _ (sg f.times[m] - b) fun k _ hk => by rw [comps_fin, if_neg (by omega), Pi.zero_apply]]
          congr 1
          rw [show b + (sg f.times[m] - b) - b = sg f.times[m] - b by omega]
          refine Zeros.seg_congr fun k _ hk => ?_
          rw [comps_fin, if_pos (by omega), show b + k - b = k by omega]
      · have h2 : s.order = 2 := hlam.resolve_left hl0
        change s.bend _ = 0
        rw [bend_eq h he]
        unfold cross
        refine sum_eq_zero fun i hi => sum_eq_zero fun d _ => ?_
        have hi := mem_Ico.1 hi
        refine (intervalIntegral.integral_congr (g := fun _ => (0 : ℝ)) fun t _ => ?_).trans intervalIntegral.integral_zero
        dsimp only
        rw [curveVal_poly h _ i d 2 t (by omega) (by omega)]
        have : ∀ w' : ℕ → ℕ → ℝ, derivative^[2] (s.curvePoly w' i d) = 0 := fun w' => by
          unfold curvePoly
          rw [iterate_derivative_sum]
          refine sum_eq_zero fun k _ => ?_
          rw [iterate_derivative_C_mul, iterate_derivative_eq_zero (lt_of_le_of_lt (piece_natDegree _ _ _ _) (by omega)), mul_zero]
        rw [this, eval_zero, zero_mul])
  obtain ⟨x, x1, x2⟩ := key
  refine ⟨x, x1, fun j hj => ?_⟩
  obtain ⟨y1, y2, y3⟩ := x2 j hj
  refine ⟨(List.mem_filter.1 y1).1, y2, ?_⟩
  rwa [show s.order - 1 + 1 = s.order by omega] at y3

/-- C117: with a regularisation and from order three on, two different data times of nonzero weight suffice. -/
theorem C117_regularised {order : ℕ} (ho : 3 ≤ order) (hD : 1 ≤ D) {s : MSpline ℝ (Fin D → ℝ)} (hr : Life order s) {f : Fit D} {i0 il : ℕ}
    (ha : f.Accepted s i0 il) (hlam : f.lambda ≠ 0) (t t' : ℝ) (ht : t ∈ f.seenTimes) (ht' : t' ∈ f.seenTimes) (hne : t ≠ t') :
    Spec.Determined s f i0 il := by
  obtain ⟨h, rfl⟩ := hr.mwf (by omega) hD
  have he := ha.evaluable
  have hn := h.enough he
  intro w hw
  have hb : s.cross w w = 0 := by rw [← bend_eq h he]; exact hw.smooth hlam
  funext j d
  have hint : ∀ i (e : ℕ), s.order ≤ i + 1 → i + s.order < s.keys.length →
      0 ≤ ∫ t in s.kn i..s.kn (i + 1), s.curveVal (comps w) i 2 t e * s.curveVal (comps w) i 2 t e := by
    intro i e _ _
    exact intervalIntegral.integral_nonneg (h.mono i (i + 1) (by omega) (by omega)) fun t _ => mul_self_nonneg _
  have hsec : ∀ i, s.order ≤ i + 1 → i + s.order < s.keys.length → derivative^[2] (s.curvePoly (comps w) i d) = 0 := by
    intro i h1 h2
    unfold cross at hb
    have y1 := (sum_eq_zero_iff_of_nonneg fun i hi => sum_nonneg fun e _ => hint i e (by have := mem_Ico.1 hi; omega) (by have := mem_Ico.1 hi; omega)).1
      hb i (mem_Ico.2 (by omega))
    have y2 := (sum_eq_zero_iff_of_nonneg fun e _ => hint i e h1 h2).1 y1 d (mem_range.2 d.2)
    have hlt : s.kn i < s.kn (i + 1) := h.strict (by omega) (by omega)
    refine eq_zero_of_infinite_isRoot _ ((Set.Icc_infinite hlt).mono fun t ht => ?_)
    by_contra hne
    have hpos : 0 < ∫ t in s.kn i..s.kn (i + 1), s.curveVal (comps w) i 2 t d * s.curveVal (comps w) i 2 t d :=
      intervalIntegral.integral_pos hlt ((curveVal_continuous s (comps w) i 2 d).mul (curveVal_continuous s (comps w) i 2 d)).continuousOn
        (fun x _ => mul_self_nonneg _)
        ⟨t, ht, (by
          rw [curveVal_poly h (comps w) i d 2 t h1 h2]
          exact lt_of_le_of_ne (mul_self_nonneg _) (Ne.symm (mul_self_ne_zero.2 hne)) :
            0 < s.curveVal (comps w) i 2 t d * s.curveVal (comps w) i 2 t d)⟩
    rw [y2] at hpos
    exact lt_irrefl _ hpos
  have hline := line_of_second h ho (comps w) d hsec
  obtain ⟨c0, c1, hc⟩ := affine_of_second _ (hsec (s.order - 1) (by omega) (by omega))
  have hz : ∀ x ∈ f.seenTimes, c0 + c1 * x = 0 := by
    intro x hx
    obtain ⟨i, hi, -, -⟩ := ha.segment h (Fit.seen_mem hx)
    obtain ⟨m, hml, hmw, hmt⟩ := Fit.mem_seenTimes.1 hx
    have e := value_zero (hw.data m hml hmw) d
    rw [hmt, (value_ok h he w hi 0).2, curveVal_poly h (comps w) i d 0 x hi.lower hi.upper, hline i hi.lower hi.upper, hc] at e
    simpa using e
  have z1 := hz t ht
  have z2 := hz t' ht'
  have c1z : c1 = 0 := by
    have : c1 * (t - t') = 0 := by linarith
    exact (mul_eq_zero.1 this).resolve_right (sub_ne_zero.2 hne)
  have c0z : c0 = 0 := by rw [c1z] at z1; linarith
  have hall : ∀ i, s.order ≤ i + 1 → i + s.order < s.keys.length → ∀ k, i + 1 - s.order ≤ k → k ≤ i → w k d = 0 := by
    intro i h1 h2 k h3 h4
    have e := hline i h1 h2
    rw [hc, c0z, c1z, C_0, zero_mul, add_zero, curvePoly_local h (comps w) i d h1 h2] at e
    have := piece_independent s.kn s.keys.length i h.mono (h.strict (by omega) (by omega)) (s.order - 1) (by omega) (by omega)
      (fun k => comps w k d) e k (by omega) h4
    rwa [comps_fin] at this
  obtain ⟨_, _, _, _, _, _, hl⟩ := ha.ends
  have ll := hl.upper
  by_cases hj : j ≤ il
  · rcases lt_or_ge j (s.order - 1) with h1 | h1
    · exact hall (s.order - 1) (by omega) (by omega) j (by omega) (by omega)
    · exact hall j (by omega) (by omega) j (by omega) le_rfl
  · rw [hw.free j (by omega)]; rfl

theorem Fit.seenTimes_none (f : Fit D) (h : f.weights = none) : f.seenTimes = f.times := by
  unfold Fit.seenTimes
  rw [h, List.filter_eq_self.2 fun m _ => by simp [weightOf]]
  refine List.ext_getElem (by simp) fun m h1 h2 => ?_
  rw [List.getElem_map, List.getElem_range, getD_inside _ _ h2]

/-- Not vacuous: on a spline of order 3 a regularised fit to two points is determined, so is a fit to three points with two fixed vertices,
and a fit to two points in one interval is not. -/
example : ∃ (s : MSpline ℝ (Fin 1 → ℝ)) (f g k : Fit 1), Life 3 s ∧ f.Admissible s 2 5 ∧ f.lambda = 1 ∧ Spec.Determined s f 2 5 ∧
    g.Admissible s 3 4 ∧ g.lambda = 0 ∧ g.fix = 2 ∧ Spec.Determined s g 3 4 ∧ g.run (g.run s).2 = g.run s ∧
    k.Admissible s 3 3 ∧ k.lambda = 0 ∧ ¬ Spec.Determined s k 3 3 := by
  obtain ⟨s1, s, b1, b2, b3, b4, b5, -⟩ := build_ok (euclidean ℝ (Fin 1 → ℝ)) 3 (by omega) ([0, 1, 2, 3, 4, 5, 6, 7, 8] : List ℝ)
    (by simp only [List.pairwise_cons, List.mem_cons, List.not_mem_nil]; norm_num) (by simp)
  obtain ⟨h, ho⟩ := b5.mwf (by omega)
  have hk : ∀ j : ℕ, s.kn j = ([0, 1, 2, 3, 4, 5, 6, 7, 8] : List ℝ).getD j 0 := fun j => by unfold kn; rw [b3]
  have seg : ∀ (t : ℝ) (i : ℕ), 2 ≤ i → i ≤ 5 → ([0, 1, 2, 3, 4, 5, 6, 7, 8] : List ℝ).getD i 0 ≤ t →
      t < ([0, 1, 2, 3, 4, 5, 6, 7, 8] : List ℝ).getD (i + 1) 0 → s.InSeg t i := fun t i h1 h2 h3 h4 =>
    ⟨by omega, by rw [b3, ho]; simp only [List.length_cons, List.length_nil]; omega, by rw [hk]; exact h3, Or.inl (by rw [hk]; exact h4)⟩
  let f : Fit 1 := ⟨true, choiceSolver, [2, 11 / 2], [![1], ![5]], 1, 0, none, false⟩
  let g : Fit 1 := ⟨false, choiceSolver, [3, 7 / 2, 9 / 2], [![1], ![2], ![5]], 0, 2, none, true⟩
  let k : Fit 1 := ⟨false, choiceSolver, [3, 7 / 2], [![1], ![2]], 0, 0, none, true⟩
  have hf : f.Admissible s 2 5 := ⟨⟨choiceSolver_semidefinite, b4, rfl, ⟨2, 11 / 2, rfl, rfl, by simp [f]; norm_num,
    seg _ _ le_rfl (by omega) (by simp) (by simp; norm_num), seg _ _ (by omega) le_rfl (by simp; norm_num) (by simp; norm_num)⟩,
    by simp [f], by simp [f]⟩, Or.inl rfl⟩
  have hg : g.Admissible s 3 4 := ⟨⟨choiceSolver_semidefinite, b4, rfl, ⟨3, 9 / 2, rfl, rfl, by simp [g]; norm_num,
    seg _ _ (by omega) (by omega) (by simp) (by simp; norm_num), seg _ _ (by omega) (by omega) (by simp; norm_num) (by simp; norm_num)⟩,
    by simp [g], by simp [g]⟩, Or.inr rfl⟩
  have hk' : k.Admissible s 3 3 := ⟨⟨choiceSolver_semidefinite, b4, rfl, ⟨3, 7 / 2, rfl, rfl, by simp [k]; norm_num,
    seg _ _ (by omega) (by omega) (by simp) (by simp; norm_num), seg _ _ (by omega) (by omega) (by simp; norm_num) (by simp; norm_num)⟩,
    by simp [k], by simp [k]⟩, Or.inr rfl⟩
  have hdg : Spec.Determined s g 3 4 := by
    refine C117_interlaced (by omega) (by omega) b5.life hg.toAccepted ?_
    rw [Fit.seenTimes_none g rfl]
    refine ⟨fun j => if j = 0 then 7 / 2 else 9 / 2, fun j hj => ?_, fun j hj => ?_⟩
    · have : j = 0 := by simp only [g] at hj; omega
      subst this
      norm_num
    · have : j = 0 ∨ j = 1 := by simp only [g] at hj; omega
      rcases this with rfl | rfl <;> simp [g, hk] <;> norm_num
  refine ⟨s, f, g, k, b5.life, hf, rfl, ?_, hg, rfl, rfl, hdg, ?_, hk', rfl, ?_⟩
  · refine C117_regularised (by omega) (by omega) b5.life hf.toAccepted (by simp [f]) 2 (11 / 2) ?_ ?_ (by norm_num) <;>
      rw [Fit.seenTimes_none f rfl] <;> simp [f]
  · exact (C117_same_partial (by omega) (by omega) b5.life hg hdg false choiceSolver choiceSolver_semidefinite true fun _ => rfl).2
  · rw [C117_interlaced_iff (by omega) (by omega) b5.life hk'.toAccepted (Or.inl rfl), Fit.seenTimes_none k rfl]
    intro hc
    have := C108_few _ _ _ _ hc
    have h2 : ([3, 7 / 2] : List ℝ).toFinset.card ≤ 2 := List.toFinset_card_le _
    simp only [k] at this
    omega

end Verif.MSpline
