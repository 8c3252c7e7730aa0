import Verif.Props.LieGroup
import Mathlib.Analysis.SpecialFunctions.Exponential
import Mathlib.Analysis.Calculus.Deriv.Polynomial
import Mathlib.Analysis.Calculus.Deriv.Comp
import Mathlib.Analysis.Calculus.Deriv.Pow
import Mathlib.Data.Nat.Choose.Sum

/-!
# Products of quaternion exponentials and their derivatives
-/

set_option linter.unusedSectionVars false

namespace Verif.MSpline

open Finset Polynomial Quaternion

/-- The derivatives of `exp (β(t) φ)` up to the third, as computed; `b n` is the `n`-th derivative of `β`. -/
noncomputable def rD (b : ℕ → ℝ) (φ : ℍ[ℝ]) : ℕ → ℍ[ℝ]
  | 0 => NormedSpace.exp (b 0 • φ)
  | 1 => NormedSpace.exp (b 0 • φ) * (b 1 • φ)
  | 2 => NormedSpace.exp (b 0 • φ) * (b 2 • φ + (b 1 ^ 2) • (φ * φ))
  | 3 => NormedSpace.exp (b 0 • φ) * (b 3 • φ + (3 * b 1 * b 2) • (φ * φ) + (b 1 ^ 3) • (φ * φ * φ))
  | _ => 0

/-- The derivatives of a product (in the reversed order of the program's `qplus`). -/
noncomputable def dProd : List (ℕ → ℍ[ℝ]) → ℕ → ℍ[ℝ]
  | [], d => if d = 0 then 1 else 0
  | f :: fs, d => ∑ ij ∈ antidiagonal d, d.choose ij.1 • (dProd fs ij.2 * f ij.1)

theorem dProd_single (f : ℕ → ℍ[ℝ]) (d : ℕ) : dProd [f] d = f d := by
  unfold dProd
  rw [sum_eq_single_of_mem (d, 0) (by simp)]
  · simp [dProd]
  · rintro ⟨a, b⟩ hab hne
    rw [mem_antidiagonal] at hab
    have : b ≠ 0 := by rintro rfl; exact hne (by simp at hab; simp [hab])
    simp [dProd, this]

theorem dProd_zero (f : ℕ → ℍ[ℝ]) (fs : List (ℕ → ℍ[ℝ])) : dProd (f :: fs) 0 = dProd fs 0 * f 0 := by
  simp [dProd]

theorem dProd_one (f : ℕ → ℍ[ℝ]) (fs : List (ℕ → ℍ[ℝ])) : dProd (f :: fs) 1 = dProd fs 1 * f 0 + dProd fs 0 * f 1 := by
  rw [dProd, Nat.sum_antidiagonal_eq_sum_range_succ_mk, sum_range_succ, sum_range_one]
  simp

/-- Leibniz: if every factor has the stated derivatives up to order `N`, so has the product. -/
theorem hasDerivAt_dProd (N : ℕ) (t : ℝ) : ∀ (L : List (ℕ → ℝ → ℍ[ℝ])),
    (∀ f ∈ L, ∀ e, e < N → HasDerivAt (f e) (f (e + 1) t) t) → ∀ d, d < N →
    HasDerivAt (fun x => dProd (L.map fun f e => f e x) d) (dProd (L.map fun f e => f e t) (d + 1)) t
  | [], _, d, _ => by
    simp only [List.map_nil, dProd]
    rw [if_neg (Nat.succ_ne_zero d)]
    exact hasDerivAt_const _ _
  | f :: fs, hL, d, hd => by
    simp only [List.map_cons, dProd]
    rw [sum_antidiagonal_choose_succ_nsmul (fun i j => dProd (fs.map fun f e => f e t) j * f i t) d, ← sum_add_distrib]
    have : (∑ ij ∈ antidiagonal d, (d.choose ij.1 • (dProd (fs.map fun f e => f e t) (ij.2 + 1) * f ij.1 t) +
        d.choose ij.2 • (dProd (fs.map fun f e => f e t) ij.2 * f (ij.1 + 1) t))) =
        ∑ ij ∈ antidiagonal d, d.choose ij.1 • (dProd (fs.map fun f e => f e t) (ij.2 + 1) * f ij.1 t +
          dProd (fs.map fun f e => f e t) ij.2 * f (ij.1 + 1) t) := by
      refine sum_congr rfl fun ij hij => ?_
      rw [mem_antidiagonal] at hij
      rw [smul_add, Nat.choose_symm_of_eq_add hij.symm]
    rw [this]
    refine HasDerivAt.fun_sum fun ij hij => ?_
    rw [mem_antidiagonal] at hij
    have h1 := hasDerivAt_dProd N t fs (fun g hg => hL g (by simp [hg])) ij.2 (by omega)
    have h2 := hL f (by simp) ij.1 (by omega)
    have := (h1.mul h2).const_smul (d.choose ij.1)
    exact this

theorem hasDerivAt_exp_poly (β : ℝ[X]) (φ : ℍ[ℝ]) (t : ℝ) :
    HasDerivAt (fun x => NormedSpace.exp (β.eval x • φ)) (NormedSpace.exp (β.eval t • φ) * ((derivative β).eval t • φ)) t := by
  have h1 := hasDerivAt_exp_smul_const (𝕂 := ℝ) φ (β.eval t)
  have h2 := HasDerivAt.scomp t h1 (β.hasDerivAt t)
  rw [mul_smul_comm]
  exact h2

/-- `rD` gives the derivatives of the exponential of a polynomial multiple of a fixed quaternion. -/
theorem hasDerivAt_rD (β : ℝ[X]) (φ : ℍ[ℝ]) (t : ℝ) (e : ℕ) (he : e < 3) :
    HasDerivAt (fun x => rD (fun n => (derivative^[n] β).eval x) φ e) (rD (fun n => (derivative^[n] β).eval t) φ (e + 1)) t := by
  have h0 := hasDerivAt_exp_poly β φ t
  have hb : ∀ n, HasDerivAt (fun x => (derivative^[n] β).eval x) ((derivative^[n + 1] β).eval t) t := by
    intro n
    rw [Function.iterate_succ_apply']
    exact (derivative^[n] β).hasDerivAt t
  have hb0 : ∀ x, (derivative^[0] β).eval x = β.eval x := fun x => rfl
  have hb1 : (derivative^[1] β).eval t = (derivative β).eval t := rfl
  interval_cases e
  · simp only [rD, hb0]
    exact h0
  · simp only [rD, hb0]
    have := h0.fun_mul ((hb 1).smul_const φ)
    refine this.congr_deriv ?_
    rw [← hb1]
    simp only [mul_add, mul_smul_comm, smul_mul_assoc, mul_assoc, smul_smul]
    module
  · simp only [rD, hb0]
    have := h0.fun_mul (((hb 2).smul_const φ).fun_add (((hb 1).fun_pow 2).smul_const (φ * φ)))
    refine this.congr_deriv ?_
    rw [← hb1]
    simp only [mul_add, mul_smul_comm, smul_mul_assoc, mul_assoc, smul_smul]
    push_cast
    simp only [pow_one]
    module

theorem norm_rD_zero (b : ℕ → ℝ) (v : V3) : ‖rD b (quatV v) 0‖ = 1 := by
  simp only [rD]
  rw [← quatV_smul, ← axisAngle2quat_eq, norm_axisAngle2quat]

/-! ### The routines of the program -/

/-- The logarithms between successive control vertices. -/
noncomputable def phiList (lg : ℍ[ℝ] → V3) : ℍ[ℝ] → List ℍ[ℝ] → List V3
  | _, [] => []
  | last, c :: cs => lg (star last |> fun l => c * l) :: phiList lg c cs

theorem phiList_length (lg : ℍ[ℝ] → V3) : ∀ (cs : List ℍ[ℝ]) (a : ℍ[ℝ]), (phiList lg a cs).length = cs.length
  | [], _ => rfl
  | c :: cs, a => by simp [phiList, phiList_length lg cs]

theorem log_quatGroup (lg : ℍ[ℝ] → V3) (a b : ℍ[ℝ]) : (quatGroup lg).log a b = lg (b * star a) := by
  show lg (qplus (quatInv a) b) = _
  rw [qplus_eq, quatInv_eq]

/-- The factors of the curve on a segment with cumulative weight polynomials `β`. -/
noncomputable def factorsFrom (β : ℕ → ℝ[X]) : ℕ → List V3 → List (ℕ → ℝ → ℍ[ℝ])
  | _, [] => []
  | k, φ :: φs => (fun e x => rD (fun n => (derivative^[n] (β (k + 1))).eval x) (quatV φ) e) :: factorsFrom β (k + 1) φs

theorem factorsFrom_length (β : ℕ → ℝ[X]) : ∀ (φs : List V3) (k : ℕ), (factorsFrom β k φs).length = φs.length
  | [], _ => rfl
  | φ :: φs, k => by simp [factorsFrom, factorsFrom_length β φs]

theorem factorsFrom_getElem (β : ℕ → ℝ[X]) : ∀ (φs : List V3) (k j : ℕ) (hj : j < φs.length),
    (factorsFrom β k φs)[j]'(by rw [factorsFrom_length]; exact hj) =
      fun e x => rD (fun n => (derivative^[n] (β (k + j + 1))).eval x) (quatV φs[j]) e
  | [], _, _, hj => absurd hj (by simp)
  | φ :: φs, k, 0, _ => rfl
  | φ :: φs, k, j + 1, hj => by
    have := factorsFrom_getElem β φs (k + 1) j (by simpa using hj)
    simp only [factorsFrom, List.getElem_cons_succ]
    rw [this, show k + 1 + j + 1 = k + (j + 1) + 1 by omega]

theorem factorsFrom_deriv (β : ℕ → ℝ[X]) (t : ℝ) : ∀ (φs : List V3) (k : ℕ), ∀ f ∈ factorsFrom β k φs, ∀ e, e < 3 →
    HasDerivAt (f e) (f (e + 1) t) t
  | [], _, f, hf => absurd hf (by simp [factorsFrom])
  | φ :: φs, k, f, hf => by
    rw [factorsFrom, List.mem_cons] at hf
    rcases hf with rfl | hf
    · intro e he
      exact hasDerivAt_rD (β (k + 1)) (quatV φ) t e he
    · exact factorsFrom_deriv β t φs (k + 1) f hf

theorem genericLoop_quat (lg : ℍ[ℝ] → V3) (w : ℕ → ℝ) (β : ℕ → ℝ[X]) (t : ℝ) : ∀ (cs : List ℍ[ℝ]) (k : ℕ) (a p : ℍ[ℝ]),
    (∀ j, k < j → j ≤ k + cs.length → w j = (β j).eval t) →
    genericLoop (quatGroup lg).toMfd w (k + 1) a p cs =
      dProd ((factorsFrom β k (phiList lg a cs)).map fun f e => f e t) 0 * p
  | [], k, a, p, _ => by simp [genericLoop, phiList, factorsFrom, dProd]
  | c :: cs, k, a, p, hw => by
    unfold genericLoop
    rw [genericLoop_quat lg w β t cs (k + 1) c _ (fun j h1 h2 => hw j (by omega) (by simp; omega))]
    simp only [phiList, factorsFrom, List.map_cons]
    rw [dProd_zero, mul_assoc]
    congr 1
    have hl : ((quatGroup lg).toMfd (K := ℝ)).scale (((quatGroup lg).toMfd (K := ℝ)).log a c) (w (k + 1)) = w (k + 1) • lg (c * star a) := by
      show w (k + 1) • (quatGroup lg).log a c = _
      rw [log_quatGroup]
    have hx : ((quatGroup lg).toMfd (K := ℝ)).exp p (w (k + 1) • lg (c * star a)) =
        NormedSpace.exp (w (k + 1) • quatV (lg (c * star a))) * p := by
      rw [exp_toMfd]
      show qplus p (axisAngle2quat _) = _
      rw [qplus_eq, axisAngle2quat_eq, quatV_smul]
    have hwk := hw (k + 1) (by omega) (by simp)
    rw [hl, hx]
    simp only [rD]
    rw [show (derivative^[0] (β (k + 1))).eval t = w (k + 1) from hwk.symm]
    split
    · rename_i h0
      rw [h0]; simp
    · rfl

theorem qcacheLoop_eq (lg : ℍ[ℝ] → V3) (w : ℕ → ℝ) (β : ℕ → ℝ[X]) (t : ℝ) : ∀ (cs : List ℍ[ℝ]) (k : ℕ) (a : ℍ[ℝ]),
    (∀ j, k < j → j ≤ k + cs.length → w j = (β j).eval t) →
    (qcacheLoop lg w k a cs).map Prod.fst = phiList lg a cs ∧
    (qcacheLoop lg w k a cs).map Prod.snd = (factorsFrom β k (phiList lg a cs)).map fun f => f 0 t
  | [], k, a, _ => by simp [qcacheLoop, phiList, factorsFrom]
  | c :: cs, k, a, hw => by
    obtain ⟨h1, h2⟩ := qcacheLoop_eq lg w β t cs (k + 1) c (fun j h1 h2 => hw j (by omega) (by simp; omega))
    have hwk := hw (k + 1) (by omega) (by simp)
    simp only [qcacheLoop, phiList, factorsFrom, List.map_cons, h1, h2, log_quatGroup, List.cons.injEq, and_true, true_and, rD]
    show axisAngle2quat _ = _
    rw [axisAngle2quat_eq, quatV_smul, hwk]
    rfl

/-- The cumulative weight polynomials of segment `i`. -/
noncomputable def betaPoly (s : MSpline ℝ ℍ[ℝ]) (i : ℕ) (j : ℕ) : ℝ[X] :=
  ∑ c ∈ Ico j s.order, piece s.kn i (s.order - 1) (i + 1 - s.order + c)

theorem iterate_derivative_sum' (n : ℕ) (S : Finset ℕ) (f : ℕ → ℝ[X]) : derivative^[n] (∑ c ∈ S, f c) = ∑ c ∈ S, derivative^[n] (f c) :=
  iterate_derivative_sum n S f

theorem localCumulativeBi_eq {s : MSpline ℝ ℍ[ℝ]} (h : s.MWF) (he : s.state = .evaluable) {t : ℝ} {i : ℕ} (hi : s.InSeg t i) (der : ℕ) :
    ∃ w, s.localCumulativeBi (s.evaluatorOf t i) der = .ok w ∧ ∀ j, 0 < j → j < s.order →
      w j = (derivative^[der] (s.betaPoly i j)).eval t := by
  obtain ⟨w, hw, hwc⟩ := localBi_eq h he hi der
  refine ⟨cumulativeOf s.order w der, ?_, fun j h1 h2 => ?_⟩
  · unfold localCumulativeBi
    rw [hw, Outcome.map_ok]
  · rw [cumulativeOf_eq _ _ _ (by omega) h2, betaPoly, iterate_derivative_sum', eval_finsetSum]
    refine sum_congr rfl fun c hc => hwc c ?_
    have := mem_Ico.1 hc
    omega

/-- The factors of the curve on segment `i`. -/
noncomputable def segFactors (lg : ℍ[ℝ] → V3) (s : MSpline ℝ ℍ[ℝ]) (i : ℕ) (c : ℍ[ℝ]) (cs : List ℍ[ℝ]) : List (ℕ → ℝ → ℍ[ℝ]) :=
  factorsFrom (s.betaPoly i) 0 (phiList lg c cs)

theorem segVerts_length {s : MSpline ℝ ℍ[ℝ]} {t : ℝ} {i : ℕ} (hi : s.InSeg t i) {c : ℍ[ℝ]} {cs : List ℍ[ℝ]}
    (hv : (s.verts.drop (i + 1 - s.order)).take s.order = c :: cs) : cs.length + 1 = s.order := by
  have h2 := hi.upper
  have h1 := hi.lower
  rw [keys_length] at h2
  have : ((s.verts.drop (i + 1 - s.order)).take s.order).length = s.order := by
    simp [verts]; omega
  rw [hv] at this
  simpa using this

theorem qcache_eq (lg : ℍ[ℝ] → V3) {s : MSpline ℝ ℍ[ℝ]} (h : s.MWF) (he : s.state = .evaluable) {t : ℝ} {i : ℕ} (hi : s.InSeg t i)
    {c : ℍ[ℝ]} {cs : List ℍ[ℝ]} (hv : (s.verts.drop (i + 1 - s.order)).take s.order = c :: cs) :
    s.qcache lg (s.evaluatorOf t i) = .ok ⟨phiList lg c cs, (s.segFactors lg i c cs).map fun f => f 0 t, c :: cs⟩ := by
  have h1 := hi.lower
  have h2 := hi.upper
  rw [keys_length] at h2
  obtain ⟨w, hw, hwj⟩ := localCumulativeBi_eq h he hi 0
  have hl := segVerts_length hi hv
  obtain ⟨e1, e2⟩ := qcacheLoop_eq lg w (s.betaPoly i) t cs 0 c (fun j h3 h4 => hwj j h3 (by omega))
  unfold qcache
  rw [hw]
  have hr : s.readVertices s.order (s.evaluatorOf t i).firstIt = .ok (c :: cs) := by
    have := readVertices_eq h s.order (i + 1 - s.order) (by omega)
    rw [← hv, ← this]
    rfl
  rw [hr, Outcome.bind_ok, Outcome.bind_ok]
  simp only [e1, e2]
  rfl

theorem coe_smul_one (x : ℝ) : (x : ℍ[ℝ]) = x • (1 : ℍ[ℝ]) := by
  ext <;> simp

/-- The second and third derivative as computed, `r` commuting with `φ`. -/
theorem ri_two (r φ : ℍ[ℝ]) (hc : φ * r = r * φ) (b1 b2 : ℝ) :
    ((b1 * b1) • φ + (b2 : ℍ[ℝ])) * r * φ = r * (b2 • φ + (b1 ^ 2) • (φ * φ)) := by
  rw [coe_smul_one]
  simp only [mul_add, add_mul, mul_smul_comm, smul_mul_assoc, _root_.one_mul, hc, mul_assoc]
  module

theorem ri_three (r φ : ℍ[ℝ]) (hc : φ * r = r * φ) (b1 b2 b3 : ℝ) :
    (((b1 * b1) • φ + (b2 : ℍ[ℝ])) * (b1 • φ) + ((2 * b1 * b2) • φ + (b3 : ℍ[ℝ]))) * r * φ =
      r * (b3 • φ + (3 * b1 * b2) • (φ * φ) + (b1 ^ 3) • (φ * φ * φ)) := by
  have hc2 : φ * (φ * r) = r * (φ * φ) := by rw [hc, ← mul_assoc, hc, mul_assoc]
  rw [coe_smul_one, coe_smul_one]
  simp only [mul_add, add_mul, mul_smul_comm, smul_mul_assoc, _root_.one_mul, mul_assoc, smul_smul, smul_add]
  have e1 : φ * (φ * (r * φ)) = r * (φ * (φ * φ)) := by
    rw [← mul_assoc φ r φ, ← mul_assoc φ (φ * r) φ, hc2, mul_assoc, mul_assoc]
  have e2 : φ * (r * φ) = r * (φ * φ) := by rw [← mul_assoc, hc, mul_assoc]
  rw [e1, e2]
  module

theorem exp_comm (b : ℝ) (φ : ℍ[ℝ]) : φ * NormedSpace.exp (b • φ) = NormedSpace.exp (b • φ) * φ :=
  (((Commute.refl φ).smul_right b).exp_right).eq

theorem evalRiD_eq (lg : ℍ[ℝ] → V3) {s : MSpline ℝ ℍ[ℝ]} (h : s.MWF) (he : s.state = .evaluable) {t : ℝ} {i : ℕ} (hi : s.InSeg t i)
    {c : ℍ[ℝ]} {cs : List ℍ[ℝ]} (hv : (s.verts.drop (i + 1 - s.order)).take s.order = c :: cs) (j : ℕ) (hj : j < cs.length)
    (der : ℕ) (hd : der ≤ 3) :
    s.evalRiD (s.evaluatorOf t i) ⟨phiList lg c cs, (s.segFactors lg i c cs).map fun f => f 0 t, c :: cs⟩ der (j + 1) =
      .ok (((s.segFactors lg i c cs)[j]'(by unfold segFactors; rw [factorsFrom_length, phiList_length]; exact hj)) der t) := by
  have hl := segVerts_length hi hv
  have hjp : j < (phiList lg c cs).length := by rw [phiList_length]; exact hj
  have hf : (s.segFactors lg i c cs)[j]'(by unfold segFactors; rw [factorsFrom_length]; exact hjp) =
      fun e x => rD (fun n => (derivative^[n] (s.betaPoly i (j + 1))).eval x) (quatV (phiList lg c cs)[j]) e := by
    have := factorsFrom_getElem (s.betaPoly i) (phiList lg c cs) 0 j hjp
    rw [Nat.zero_add] at this
    exact this
  have g1 : (phiList lg c cs)[j + 1 - 1]? = some (phiList lg c cs)[j] := by
    rw [Nat.add_sub_cancel, List.getElem?_eq_getElem hjp]
  have g2 : ((s.segFactors lg i c cs).map fun f => f 0 t)[j + 1 - 1]? =
      some (rD (fun n => (derivative^[n] (s.betaPoly i (j + 1))).eval t) (quatV (phiList lg c cs)[j]) 0) := by
    rw [Nat.add_sub_cancel, List.getElem?_map, List.getElem?_eq_getElem (by unfold segFactors; rw [factorsFrom_length]; exact hjp), hf]
    rfl
  obtain ⟨w1, hw1, hb1⟩ := localCumulativeBi_eq h he hi 1
  obtain ⟨w2, hw2, hb2⟩ := localCumulativeBi_eq h he hi 2
  obtain ⟨w3, hw3, hb3⟩ := localCumulativeBi_eq h he hi 3
  rw [hf]
  interval_cases der
  · unfold evalRiD
    simp only [g2]
  · unfold evalRiD
    simp only [g1, g2, hw1, Outcome.bind_ok, hb1 (j + 1) (by omega) (by omega), qplus_eq, quatV_smul, rD]
  · unfold evalRiD
    simp only [g1, g2, hw1, hw2, Outcome.bind_ok, hb1 (j + 1) (by omega) (by omega), hb2 (j + 1) (by omega) (by omega), qplus_eq, rD]
    congr 1
    exact ri_two _ _ (exp_comm _ _) _ _
  · unfold evalRiD
    simp only [g1, g2, hw1, hw2, hw3, Outcome.bind_ok, hb1 (j + 1) (by omega) (by omega), hb2 (j + 1) (by omega) (by omega),
      hb3 (j + 1) (by omega) (by omega), qplus_eq, rD]
    congr 1
    exact ri_three _ _ (exp_comm _ _) _ _ _

theorem foldl_sum (X Y : ℕ → Outcome ℍ[ℝ]) (r p : ℕ → ℍ[ℝ]) (x : ℍ[ℝ]) : ∀ n, (∀ d, d < n → X d = .ok (r d) ∧ Y d = .ok (p d)) →
    (List.range n).foldl (fun (acc : Outcome ℍ[ℝ]) (d : ℕ) => acc.bind fun a => (X d).bind fun r' => (Y d).bind fun p' =>
      .ok (a + qplus r' p')) (.ok x) = .ok (x + ∑ d ∈ range n, qplus (r d) (p d))
  | 0, _ => by simp
  | n + 1, h => by
    rw [List.range_succ, List.foldl_append, foldl_sum X Y r p x n (fun d hd => h d (by omega))]
    simp only [List.foldl_cons, List.foldl_nil, Outcome.bind_ok, (h n (by omega)).1, (h n (by omega)).2]
    rw [sum_range_succ, add_assoc]

theorem div_factorials (F d e : ℕ) (he : e ≤ d) (hF : d.factorial ∣ F) :
    (d - e).factorial ∣ F / e.factorial ∧ F / e.factorial / (d - e).factorial = F / d.factorial * d.choose e := by
  obtain ⟨m, rfl⟩ := hF
  have h := Nat.choose_mul_factorial_mul_factorial he
  have p1 := Nat.factorial_pos e
  have p2 := Nat.factorial_pos (d - e)
  have p3 := Nat.factorial_pos d
  have e1 : d.factorial * m / e.factorial = d.choose e * (d - e).factorial * m := by
    rw [← h, show d.choose e * e.factorial * (d - e).factorial * m = e.factorial * (d.choose e * (d - e).factorial * m) by ring,
      Nat.mul_div_cancel_left _ p1]
  rw [e1]
  refine ⟨⟨d.choose e * m, by ring⟩, ?_⟩
  rw [show d.choose e * (d - e).factorial * m = (d - e).factorial * (d.choose e * m) by ring, Nat.mul_div_cancel_left _ p2,
    Nat.mul_div_cancel_left _ p3]
  ring

theorem productRest_eq (s : MSpline ℝ ℍ[ℝ]) (e : Evaluator ℝ) (c : QCache) (L : List (ℕ → ℍ[ℝ])) (hL : L.length = s.order - 1)
    (hR : ∀ (j : ℕ) (hj : j < L.length) (der : ℕ), der ≤ 3 → s.evalRiD e c der (j + 1) = .ok (L[j] der)) :
    ∀ (rem : ℕ), rem < L.length → ∀ (der F : ℕ), der ≤ 3 → der.factorial ∣ F →
      s.productRest e c rem der F = .ok (((F / der.factorial : ℕ) : ℝ) • dProd (L.drop (s.order - 1 - 1 - rem)) der)
  | 0, hrem, der, F, hd, _ => by
    unfold productRest
    have h1 : s.order - 1 = s.order - 1 - 1 + 1 := by omega
    have h2 : s.order - 1 - 1 < L.length := by omega
    rw [h1, hR _ h2 der hd, Outcome.map_ok]
    have : L.drop (s.order - 1 - 1 + 1 - 1 - 0) = [L[s.order - 1 - 1]] := by
      rw [show s.order - 1 - 1 + 1 - 1 - 0 = s.order - 1 - 1 by omega, ← List.cons_getElem_drop_succ (h := h2),
        List.drop_eq_nil_of_le (by omega)]
    rw [this, dProd_single]
  | rem + 1, hrem, der, F, hd, hF => by
    have IH := productRest_eq s e c L hL hR rem (by omega)
    have h1 : s.order - 1 - (rem + 1) = s.order - 1 - 1 - (rem + 1) + 1 := by omega
    have h2 : s.order - 1 - 1 - (rem + 1) < L.length := by omega
    have hdrop : L.drop (s.order - 1 - 1 - (rem + 1)) = L[s.order - 1 - 1 - (rem + 1)] :: L.drop (s.order - 1 - 1 - rem) := by
      rw [← List.cons_getElem_drop_succ (h := h2), show s.order - 1 - 1 - (rem + 1) + 1 = s.order - 1 - 1 - rem by omega]
    unfold productRest
    rw [h1, hR _ h2 0 (by omega), Outcome.bind_ok, IH der F hd hF, Outcome.bind_ok]
    set f := L[s.order - 1 - 1 - (rem + 1)] with hf
    set D := dProd (L.drop (s.order - 1 - 1 - rem)) with hD
    rw [foldl_sum _ _ (fun d => f (d + 1)) (fun d => ((F / der.factorial * der.choose (d + 1) : ℕ) : ℝ) • D (der - (d + 1)))]
    · congr 1
      rw [hdrop, dProd, Nat.sum_antidiagonal_eq_sum_range_succ_mk, sum_range_succ', smul_add, smul_sum, add_comm]
      congr 1
      · refine sum_congr rfl fun d _ => ?_
        simp only []
        rw [qplus_eq, smul_mul_assoc, ← Nat.cast_smul_eq_nsmul ℝ, smul_smul, Nat.cast_mul]
      · simp only [Nat.choose_zero_right, one_smul, Nat.sub_zero]
        rw [qplus_eq, smul_mul_assoc]
    · intro d hdd
      obtain ⟨q1, q2⟩ := div_factorials F der (d + 1) (by omega) hF
      refine ⟨hR _ h2 (d + 1) (by omega), ?_⟩
      rw [IH _ _ (by omega) q1, q2]

theorem evalDRecursive_eq (lg : ℍ[ℝ] → V3) {s : MSpline ℝ ℍ[ℝ]} (h : s.MWF) (he : s.state = .evaluable) {t : ℝ} {i : ℕ} (hi : s.InSeg t i)
    {c : ℍ[ℝ]} {cs : List ℍ[ℝ]} (hv : (s.verts.drop (i + 1 - s.order)).take s.order = c :: cs) (ho : 2 ≤ s.order)
    (der : ℕ) (hd : der ≤ 3) :
    s.evalDRecursive lg (s.evaluatorOf t i) der = .ok (dProd ((s.segFactors lg i c cs).map fun f e => f e t) der * c) := by
  have hl := segVerts_length hi hv
  have hlen : (s.segFactors lg i c cs).length = cs.length := by unfold segFactors; rw [factorsFrom_length, phiList_length]
  unfold evalDRecursive
  rw [qcache_eq lg h he hi hv, Outcome.bind_ok, if_neg (by omega), if_neg (by omega), Int.toNat_natCast,
    productRest_eq s _ _ ((s.segFactors lg i c cs).map fun f e => f e t) (by rw [List.length_map]; omega) ?_ _
      (by rw [List.length_map]; omega) der _ hd (dvd_refl _), Outcome.bind_ok]
  · simp only []
    rw [Nat.div_self (Nat.factorial_pos _), Nat.sub_self, List.drop_zero, Nat.cast_one, one_smul, qplus_eq]
  · intro j hj d hd
    rw [List.length_map, hlen] at hj
    rw [evalRiD_eq lg h he hi hv j hj d hd, List.getElem_map]

theorem unit_mul_star {q : ℍ[ℝ]} (hq : ‖q‖ = 1) : q * star q = 1 := by
  rw [Quaternion.self_mul_star, Quaternion.normSq_eq_norm_mul_self, hq]; simp

theorem unit_star_mul {q : ℍ[ℝ]} (hq : ‖q‖ = 1) : star q * q = 1 := by
  rw [Quaternion.star_mul_self, Quaternion.normSq_eq_norm_mul_self, hq]; simp

theorem d1Loop_eq (s : MSpline ℝ ℍ[ℝ]) (e : Evaluator ℝ) (c : QCache) : ∀ (L : List (ℕ → ℍ[ℝ])) (i : ℕ) (A sum : ℍ[ℝ]),
    (∀ (j : ℕ) (hj : j < L.length) (der : ℕ), der ≤ 1 → s.evalRiD e c der (i + j) = .ok (L[j] der)) →
    (∀ f ∈ L, ‖f 0‖ = 1) → ‖A‖ = 1 →
    ∃ S, s.d1Loop e c L.length i A sum = .ok (dProd L 0 * A, S) ∧ (dProd L 0 * A) * S = (dProd L 0 * A) * sum + dProd L 1 * A
  | [], i, A, sum, _, _, _ => ⟨sum, by simp [d1Loop, dProd], by simp [dProd]⟩
  | f :: fs, i, A, sum, hR, hu, hA => by
    have r0 : s.evalRiD e c 0 i = .ok (f 0) := hR 0 (by simp) 0 (by omega)
    have r1 : s.evalRiD e c 1 i = .ok (f 1) := hR 0 (by simp) 1 (by omega)
    have hA' : ‖f 0 * A‖ = 1 := by rw [norm_mul, hu f (by simp), hA, _root_.mul_one]
    obtain ⟨S, h1, h2⟩ := d1Loop_eq s e c fs (i + 1) (f 0 * A) (sum + star (f 0 * A) * (f 1 * A)) (fun j hj d hd => by
      have := hR (j + 1) (by simpa using hj) d hd
      rw [show i + 1 + j = i + (j + 1) by omega, this]
      rfl) (fun g hg => hu g (by simp [hg])) hA'
    refine ⟨S, ?_, ?_⟩
    · rw [List.length_cons]
      unfold d1Loop
      rw [r1, r0, Outcome.bind_ok, Outcome.bind_ok, qplus_eq, qplus_eq, qplus_eq, quatInv_eq, h1, dProd_zero, mul_assoc]
    · rw [dProd_zero, mul_assoc (dProd fs 0) (f 0) A, h2, mul_add, add_assoc, dProd_one]
      congr 1
      have : dProd fs 0 * (f 0 * A) * (star (f 0 * A) * (f 1 * A)) = dProd fs 0 * ((f 0 * A) * star (f 0 * A)) * (f 1 * A) := by
        simp only [mul_assoc]
      rw [this, unit_mul_star hA', _root_.mul_one, add_mul, mul_assoc, mul_assoc, add_comm]

theorem evalD1Special_eq (lg : ℍ[ℝ] → V3) {s : MSpline ℝ ℍ[ℝ]} (h : s.MWF) (he : s.state = .evaluable) {t : ℝ} {i : ℕ} (hi : s.InSeg t i)
    {c : ℍ[ℝ]} {cs : List ℍ[ℝ]} (hv : (s.verts.drop (i + 1 - s.order)).take s.order = c :: cs) :
    s.evalD1Special lg (s.evaluatorOf t i) = .ok (dProd ((s.segFactors lg i c cs).map fun f e => f e t) 1 * c) := by
  have hl := segVerts_length hi hv
  have hlen : (s.segFactors lg i c cs).length = cs.length := by unfold segFactors; rw [factorsFrom_length, phiList_length]
  obtain ⟨S, h1, h2⟩ := d1Loop_eq s (s.evaluatorOf t i) ⟨phiList lg c cs, (s.segFactors lg i c cs).map fun f => f 0 t, c :: cs⟩
    ((s.segFactors lg i c cs).map fun f e => f e t) 1 1 0 (fun j hj d hd => by
      rw [List.length_map, hlen] at hj
      rw [Nat.add_comm 1 j, evalRiD_eq lg h he hi hv j hj d (by omega), List.getElem_map])
    (fun f hf => by
      obtain ⟨g, hg, rfl⟩ := List.mem_map.1 hf
      obtain ⟨m, hm, rfl⟩ := List.mem_iff_getElem.1 hg
      have := factorsFrom_getElem (s.betaPoly i) (phiList lg c cs) 0 m (by rw [phiList_length, ← hlen]; exact hm)
      have e2 : (s.segFactors lg i c cs)[m] = _ := this
      rw [e2]
      exact norm_rD_zero _ _) norm_one
  unfold evalD1Special
  rw [List.length_map, hlen, show cs.length = s.order - 1 by omega] at h1
  rw [qcache_eq lg h he hi hv, Outcome.bind_ok, h1, Outcome.bind_ok]
  simp only []
  rw [qplus_eq, qplus_eq, h2]
  simp

end Verif.MSpline
