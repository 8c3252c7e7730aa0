import Verif.Props.Quaternion
import Verif.Spec.RotationCalculus

/-!
# The derivative of products of quaternion exponentials with respect to the control vertices
-/

set_option linter.unusedSectionVars false

namespace Verif

open Quaternion Finset MSpline

/-! ### Matrices as lists of columns -/

theorem app_quatPlus (q : ℍ[ℝ]) (M : DMat) (u : V3) : DMat.app (mapCols (quatPlus q) M) u = DMat.app M u * q := by
  simp only [DMat.app, mapCols, quatPlus, qplus_eq, sum_mul, smul_mul_assoc]

theorem app_quatOPlus (q : ℍ[ℝ]) (M : DMat) (u : V3) : DMat.app (mapCols (quatOPlus q) M) u = q * DMat.app M u := by
  simp only [DMat.app, mapCols, quatOPlus, qplus_eq, mul_sum, mul_smul_comm]

theorem app_add (M N : DMat) (u : V3) : DMat.app (M + N) u = DMat.app M u + DMat.app N u := by
  simp only [DMat.app, Pi.add_apply, smul_add, sum_add_distrib]

theorem app_sub (M N : DMat) (u : V3) : DMat.app (M - N) u = DMat.app M u - DMat.app N u := by
  simp only [DMat.app, Pi.sub_apply, smul_sub, sum_sub_distrib]

theorem app_smul (a : ℝ) (M : DMat) (u : V3) : DMat.app (a • M) u = a • DMat.app M u := by
  simp only [DMat.app, Pi.smul_apply, smul_sum, smul_comm a]

@[simp] theorem app_zero (u : V3) : DMat.app 0 u = 0 := by simp [DMat.app]

theorem app_vMat (A : M33) (u : V3) : DMat.app (vMat A) u = quatV (A.mulVec u) := by
  ext <;> simp [DMat.app, vMat, Matrix.mulVec, dotProduct, Fin.sum_univ_three] <;> ring

theorem quat2r_inv (p : ℍ[ℝ]) (u : V3) : quatV ((quat2r (quatInv p)).mulVec u) = p * quatV u * star p := by
  ext <;> simp [quat2r, qplus_eq, quatInv_eq, qeps, Matrix.mulVec, dotProduct, Fin.sum_univ_three, Pi.single_apply] <;> ring

theorem quatV_sub (a b : V3) : quatV (a - b) = quatV a - quatV b := by
  ext <;> simp <;> ring

theorem star_quatV (a : V3) : star (quatV a) = -quatV a := by
  ext <;> simp

/-- The derivative of the vector between two moving control vertices. -/
theorem hasDerivAt_phi {lg : ℍ[ℝ] → V3} {L : V3 → M33} {p0 p1 : ℝ → ℍ[ℝ]} {u0 u1 : V3} {x : ℝ}
    (hl : LogDiffAt lg L (p1 x * star (p0 x))) (n0 : ∀ y, ‖p0 y‖ = 1) (n1 : ∀ y, ‖p1 y‖ = 1)
    (h0 : HasDerivAt p0 (p0 x * quatV u0) x) (h1 : HasDerivAt p1 (p1 x * quatV u1) x) :
    HasDerivAt (fun y => lg (p1 y * star (p0 y)))
      ((L (lg (p1 x * star (p0 x))) * quat2r (quatInv (p0 x))).mulVec (u1 - u0)) x := by
  rw [← Matrix.mulVec_mulVec]
  refine hl (fun y => p1 y * star (p0 y)) _ x rfl (fun y => by rw [norm_mul, norm_star, n0, n1, _root_.mul_one]) ?_
  have := h1.fun_mul (MSpline.hasDerivAt_star h0)
  refine this.congr_deriv ?_
  rw [qplus_eq, quat2r_inv, quatV_sub, star_mul, star_quatV]
  have e : star (p0 x) * p0 x = 1 := MSpline.unit_star_mul (n0 x)
  have : p1 x * star (p0 x) * (p0 x * (quatV u1 - quatV u0) * star (p0 x)) =
      p1 x * (star (p0 x) * p0 x) * (quatV u1 - quatV u0) * star (p0 x) := by simp only [mul_assoc]
  rw [this, e]
  simp only [mul_sub, sub_mul, mul_assoc, neg_mul, mul_neg, _root_.mul_one]
  abel

namespace MSpline

open Polynomial

/-! ### One factor -/

/-- The derivative of `rD` when the vector moves with velocity `φ'`. -/
noncomputable def rJ (S : V3 → M33) (b : ℕ → ℝ) (φ φ' : V3) : ℕ → ℍ[ℝ]
  | 0 => rD b (quatV φ) 0 * quatV ((S (b 0 • φ)).mulVec (b 0 • φ'))
  | 1 => b 1 • (rD b (quatV φ) 0 * quatV φ' + rJ S b φ φ' 0 * quatV φ)
  | 2 => (rD b (quatV φ) 0 * quatV φ' + rJ S b φ φ' 0 * quatV φ) * ((b 1 * b 1) • quatV φ + (b 2 : ℍ[ℝ])) +
      rD b (quatV φ) 0 * quatV φ * ((b 1 * b 1) • quatV φ')
  | _ => 0

theorem rJ_zero (S : V3 → M33) (b : ℕ → ℝ) (φ φ' : V3) :
    rJ S b φ φ' 0 = rD b (quatV φ) 0 * quatV ((S (b 0 • φ)).mulVec (b 0 • φ')) := by
  rw [rJ]

theorem rJ_one (S : V3 → M33) (b : ℕ → ℝ) (φ φ' : V3) :
    rJ S b φ φ' 1 = b 1 • (rD b (quatV φ) 0 * quatV φ' + rJ S b φ φ' 0 * quatV φ) := by
  simp only [rJ]

theorem rJ_two (S : V3 → M33) (b : ℕ → ℝ) (φ φ' : V3) :
    rJ S b φ φ' 2 = (rD b (quatV φ) 0 * quatV φ' + rJ S b φ φ' 0 * quatV φ) * ((b 1 * b 1) • quatV φ + (b 2 : ℍ[ℝ])) +
      rD b (quatV φ) 0 * quatV φ * ((b 1 * b 1) • quatV φ') := by
  simp only [rJ]

/-- `quatV` as a linear map. -/
noncomputable def quatVL : V3 →ₗ[ℝ] ℍ[ℝ] where
  toFun := quatV
  map_add' a b := by ext <;> simp <;> ring
  map_smul' r a := by ext <;> simp <;> ring

theorem hasDerivAt_quatV {φ : ℝ → V3} {φ' : V3} {x : ℝ} (h : HasDerivAt φ φ' x) : HasDerivAt (fun y => quatV (φ y)) (quatV φ') x :=
  ((LinearMap.toContinuousLinearMap quatVL).hasFDerivAt.comp_hasDerivAt x h)

theorem hasDerivAt_rD_param {S : V3 → M33} (hS : ExpDiff S) (b : ℕ → ℝ) {φ : ℝ → V3} {φ' : V3} {x : ℝ} (h : HasDerivAt φ φ' x)
    (d : ℕ) (hd : d ≤ 2) : HasDerivAt (fun y => rD b (quatV (φ y)) d) (rJ S b (φ x) φ' d) x := by
  have hV := hasDerivAt_quatV h
  have e0 : HasDerivAt (fun y => NormedSpace.exp (b 0 • quatV (φ y))) (rJ S b (φ x) φ' 0) x := by
    have := hS (fun y => b 0 • φ y) (b 0 • φ') x (h.const_smul (b 0))
    simp only [axisAngle2quat_eq, quatV_smul, qplus_eq] at this
    simp only [rJ, rD]
    exact this
  interval_cases d
  · exact e0
  · simp only [rD]
    refine (e0.fun_mul (hV.fun_const_smul (b 1))).congr_deriv ?_
    simp only [rJ, rD, mul_smul_comm, smul_add]
    abel
  · simp only [rD]
    refine (e0.fun_mul ((hV.fun_const_smul (b 2)).fun_add ((hV.fun_mul hV).fun_const_smul (b 1 ^ 2)))).congr_deriv ?_
    simp only [rJ, rD]
    rw [coe_smul_one]
    simp only [mul_add, add_mul, mul_smul_comm, smul_mul_assoc, _root_.mul_one, mul_assoc, smul_add]
    module

/-! ### Products -/

/-- The change of `dProd` when the `m`-th factor changes with `g m`. -/
noncomputable def dProdJ : List (ℕ → ℍ[ℝ]) → (ℕ → ℕ → ℍ[ℝ]) → ℕ → ℍ[ℝ]
  | [], _, _ => 0
  | f :: fs, g, d => ∑ ij ∈ antidiagonal d, d.choose ij.1 • (dProdJ fs (fun m => g (m + 1)) ij.2 * f ij.1 + dProd fs ij.2 * g 0 ij.1)

theorem hasDerivAt_dProd_param (N : ℕ) (x : ℝ) : ∀ (L : List (ℝ → ℕ → ℍ[ℝ])) (g : ℕ → ℕ → ℍ[ℝ]),
    (∀ (m : ℕ) (hm : m < L.length) (e : ℕ), e ≤ N → HasDerivAt (fun y => L[m] y e) (g m e) x) → ∀ d, d ≤ N →
    HasDerivAt (fun y => dProd (L.map fun f => f y) d) (dProdJ (L.map fun f => f x) g d) x
  | [], g, _, d, _ => by
    simp only [List.map_nil, dProd, dProdJ]
    exact hasDerivAt_const _ _
  | f :: fs, g, hL, d, hd => by
    simp only [List.map_cons, dProd, dProdJ]
    refine HasDerivAt.fun_sum fun ij hij => ?_
    rw [mem_antidiagonal] at hij
    have h1 := hasDerivAt_dProd_param N x fs (fun m => g (m + 1)) (fun m hm e he => hL (m + 1) (by simpa using hm) e he) ij.2 (by omega)
    have h2 := hL 0 (by simp) ij.1 (by omega)
    exact (h1.fun_mul h2).const_smul (d.choose ij.1)

theorem dProdJ_congr : ∀ (L : List (ℕ → ℍ[ℝ])) (g g' : ℕ → ℕ → ℍ[ℝ]) (d : ℕ), (∀ m, m < L.length → ∀ e, e ≤ d → g m e = g' m e) →
    dProdJ L g d = dProdJ L g' d
  | [], _, _, _, _ => rfl
  | f :: fs, g, g', d, h => by
    simp only [dProdJ]
    refine sum_congr rfl fun ij hij => ?_
    rw [mem_antidiagonal] at hij
    rw [dProdJ_congr fs _ (fun m => g' (m + 1)) ij.2 (fun m hm e he => h (m + 1) (by simpa using hm) e (by omega)),
      h 0 (by simp) ij.1 (by omega)]

theorem dProdJ_zero : ∀ (L : List (ℕ → ℍ[ℝ])) (d : ℕ), dProdJ L (fun _ _ => 0) d = 0
  | [], _ => rfl
  | f :: fs, d => by
    simp only [dProdJ, dProdJ_zero fs]
    simp

theorem dProdJ_add : ∀ (L : List (ℕ → ℍ[ℝ])) (g g' : ℕ → ℕ → ℍ[ℝ]) (d : ℕ),
    dProdJ L (fun m e => g m e + g' m e) d = dProdJ L g d + dProdJ L g' d
  | [], _, _, _ => by simp [dProdJ]
  | f :: fs, g, g', d => by
    simp only [dProdJ]
    rw [← sum_add_distrib]
    refine sum_congr rfl fun ij _ => ?_
    rw [dProdJ_add fs (fun m => g (m + 1)) (fun m => g' (m + 1)) ij.2, ← smul_add]
    congr 1
    rw [add_mul, mul_add]
    abel

theorem dProdJ_sum (L : List (ℕ → ℍ[ℝ])) (g : ℕ → ℕ → ℕ → ℍ[ℝ]) (d : ℕ) : ∀ n,
    dProdJ L (fun m e => ∑ j ∈ range n, g j m e) d = ∑ j ∈ range n, dProdJ L (g j) d
  | 0 => by simp only [range_zero, sum_empty]; exact dProdJ_zero L d
  | n + 1 => by
    simp only [sum_range_succ]
    rw [dProdJ_add, dProdJ_sum L g d n]

theorem dProdJ_single_zero : ∀ (L : List (ℕ → ℍ[ℝ])) (i : ℕ), i < L.length → ∀ (a : ℍ[ℝ]),
    dProdJ L (fun m _ => if m = i then a else 0) 0 = dProd (L.drop (i + 1)) 0 * a * dProd (L.take i) 0
  | [], i, hi, _ => absurd hi (by simp)
  | f :: fs, 0, _, a => by
    simp only [dProdJ, Nat.add_eq_zero_iff, one_ne_zero, and_false, if_false, dProdJ_zero]
    simp [dProd]
  | f :: fs, i + 1, hi, a => by
    have h0 : dProdJ (f :: fs) (fun m _ => if m = i + 1 then a else 0) 0 =
        dProdJ fs (fun m _ => if m + 1 = i + 1 then a else 0) 0 * f 0 + dProd fs 0 * (if 0 = i + 1 then a else 0) := by simp [dProdJ]
    rw [h0]
    have := dProdJ_single_zero fs i (by simpa using hi) a
    simp only [Nat.add_right_cancel_iff] at this ⊢
    rw [this, if_neg (by omega)]
    simp only [List.drop_succ_cons, List.take_succ_cons, dProd_zero, mul_zero, add_zero, mul_assoc]

theorem dProdJ_single (f : ℕ → ℍ[ℝ]) (g : ℕ → ℕ → ℍ[ℝ]) (d : ℕ) : dProdJ [f] g d = g 0 d := by
  simp only [dProdJ, zero_mul, zero_add]
  rw [sum_eq_single_of_mem (d, 0) (by simp)]
  · simp [dProd]
  · rintro ⟨a, b⟩ hab hne
    rw [mem_antidiagonal] at hab
    have : b ≠ 0 := by rintro rfl; exact hne (by simp at hab; simp [hab])
    simp [dProd, this]

/-! ### The routines of the program -/

theorem foldl_app (X : ℕ → DMat → Outcome DMat) (y : ℕ → V3 → ℍ[ℝ]) (start : DMat) : ∀ n,
    (∀ d, d < n → ∀ a, ∃ a', X d a = .ok a' ∧ ∀ u, DMat.app a' u = DMat.app a u + y d u) →
    ∃ a', (List.range n).foldl (fun (acc : Outcome DMat) (d : ℕ) => acc.bind fun a => X d a) (.ok start) = .ok a' ∧
      ∀ u, DMat.app a' u = DMat.app start u + ∑ d ∈ range n, y d u
  | 0, _ => ⟨start, rfl, fun u => by simp⟩
  | n + 1, h => by
    obtain ⟨a, ha, hau⟩ := foldl_app X y start n (fun d hd => h d (by omega))
    obtain ⟨a', ha', hau'⟩ := h n (by omega) a
    refine ⟨a', ?_, fun u => ?_⟩
    · rw [List.range_succ, List.foldl_append, ha]
      exact ha'
    · rw [hau', hau, sum_range_succ, add_assoc]

/-- The change of factor `m` when control vertex `j` moves with rotation rate `u`. -/
noncomputable def gJ (M : ℕ → ℕ → DMat) (j : ℕ) (u : V3) (m d : ℕ) : ℍ[ℝ] :=
  if isJacobianZero (m + 1) j then 0 else jacobianSignum (m + 1) j • DMat.app (M m d) u

theorem gJ_eq (M : ℕ → ℕ → DMat) (j : ℕ) (u : V3) (m d : ℕ) :
    gJ M j u m d = if m + 1 = j then DMat.app (M m d) u else if m = j then -DMat.app (M m d) u else 0 := by
  have hz : isJacobianZero (m + 1) j ↔ m + 1 ≠ j ∧ j + 1 ≠ m + 1 := Iff.rfl
  unfold gJ jacobianSignum
  by_cases h1 : m + 1 = j
  · rw [if_neg (by rw [hz]; omega), if_pos h1, if_pos h1, one_smul]
  · by_cases h2 : m = j
    · rw [if_neg (by rw [hz]; omega), if_neg h1, if_neg h1, if_pos h2, neg_smul, one_smul]
    · rw [if_pos (by rw [hz]; omega), if_neg h1, if_neg h2]

theorem riDJacobianOf_eq (S L : V3 → M33) (s : MSpline ℝ ℍ[ℝ]) (e : Evaluator ℝ) (c : QCache) (M : ℕ → ℕ → DMat) (m d j : ℕ)
    (h : s.riDJacobian S L e c d (m + 1) = .ok (M m d)) :
    ∃ N, s.riDJacobianOf S L e c d (m + 1) j = .ok N ∧ ∀ u, DMat.app N u = gJ M j u m d := by
  unfold riDJacobianOf gJ
  split
  · exact ⟨0, rfl, fun u => app_zero u⟩
  · rw [h]
    exact ⟨_, rfl, fun u => app_smul _ _ u⟩

theorem jacobianRest_eq (S L : V3 → M33) (s : MSpline ℝ ℍ[ℝ]) (e : Evaluator ℝ) (c : QCache) (R : List (ℕ → ℍ[ℝ])) (M : ℕ → ℕ → DMat)
    (hL : R.length = s.order - 1)
    (hR : ∀ (j : ℕ) (hj : j < R.length) (der : ℕ), der ≤ 3 → s.evalRiD e c der (j + 1) = .ok (R[j] der))
    (hM : ∀ (j : ℕ), j < R.length → ∀ (der : ℕ), der ≤ 2 → s.riDJacobian S L e c der (j + 1) = .ok (M j der)) (j : ℕ) :
    ∀ (rem : ℕ), rem < R.length → ∀ (der F : ℕ), der ≤ 2 → der.factorial ∣ F →
      ∃ N, s.jacobianRest S L e c j rem der F = .ok N ∧ ∀ u, DMat.app N u =
        ((F / der.factorial : ℕ) : ℝ) • dProdJ (R.drop (s.order - 1 - 1 - rem)) (fun m => gJ M j u (s.order - 1 - 1 - rem + m)) der
  | 0, hrem, der, F, hd, _ => by
    unfold jacobianRest
    have h1 : s.order - 1 = s.order - 1 - 1 + 1 := by omega
    have h2 : s.order - 1 - 1 < R.length := by omega
    have hdrop : R.drop (s.order - 1 - 1 - 0) = [R[s.order - 1 - 1]] := by
      rw [Nat.sub_zero, ← List.cons_getElem_drop_succ (h := h2), List.drop_eq_nil_of_le (by omega)]
    rw [hdrop]
    simp only [dProdJ_single, Nat.sub_zero, Nat.add_zero]
    split
    · obtain ⟨N, hN, hNu⟩ := riDJacobianOf_eq S L s e c M (s.order - 1 - 1) der j (hM _ h2 der hd)
      rw [← h1] at hN
      exact ⟨_, by rw [hN]; rfl, fun u => by rw [app_smul, hNu]⟩
    · rename_i hz
      rw [not_not, h1] at hz
      refine ⟨0, rfl, fun u => ?_⟩
      unfold gJ
      rw [if_pos hz, smul_zero, app_zero]
  | rem + 1, hrem, der, F, hd, hF => by
    have IH := jacobianRest_eq S L s e c R M hL hR hM j rem (by omega)
    have IP := productRest_eq s e c R hL hR rem (by omega)
    have h1 : s.order - 1 - (rem + 1) = s.order - 1 - 1 - (rem + 1) + 1 := by omega
    have h2 : s.order - 1 - 1 - (rem + 1) < R.length := by omega
    have hdrop : R.drop (s.order - 1 - 1 - (rem + 1)) = R[s.order - 1 - 1 - (rem + 1)] :: R.drop (s.order - 1 - 1 - rem) := by
      rw [← List.cons_getElem_drop_succ (h := h2), show s.order - 1 - 1 - (rem + 1) + 1 = s.order - 1 - 1 - rem by omega]
    have hsh : ∀ u, (fun m => gJ M j u (s.order - 1 - 1 - (rem + 1) + (m + 1))) = fun m => gJ M j u (s.order - 1 - 1 - rem + m) := by
      intro u
      funext m
      rw [show s.order - 1 - 1 - (rem + 1) + (m + 1) = s.order - 1 - 1 - rem + m by omega]
    unfold jacobianRest
    simp only []
    rw [h1, hR _ h2 0 (by omega), Outcome.bind_ok]
    set n := s.order - 1 - 1 - (rem + 1) with hn
    set f := R[n] with hf
    set D := dProd (R.drop (s.order - 1 - 1 - rem)) with hD
    obtain ⟨P0, hP0, hP0u⟩ := IH der F hd hF
    rw [hP0, Outcome.bind_ok, IP der F (by omega) hF]
    set E : V3 → ℕ → ℍ[ℝ] := fun u => dProdJ (R.drop (s.order - 1 - 1 - rem)) (fun m => gJ M j u (s.order - 1 - 1 - rem + m)) with hE
    have hstart : ∃ st, (if ¬ isJacobianZero (n + 1) j then
        (Outcome.ok (((F / der.factorial : ℕ) : ℝ) • D der)).bind fun q => (s.riDJacobianOf S L e c 0 (n + 1) j).bind fun M =>
        .ok (mapCols (quatPlus (f 0)) P0 + mapCols (quatOPlus q) M)
        else .ok (mapCols (quatPlus (f 0)) P0)) = .ok st ∧
        ∀ u, DMat.app st u = ((F / der.factorial : ℕ) : ℝ) • (E u der * f 0 + D der * gJ M j u n 0) := by
      split
      · obtain ⟨N, hN, hNu⟩ := riDJacobianOf_eq S L s e c M n 0 j (hM _ h2 0 (by omega))
        refine ⟨_, by rw [Outcome.bind_ok, hN, Outcome.bind_ok], fun u => ?_⟩
        rw [app_add, app_quatPlus, app_quatOPlus, hP0u, hNu, smul_add, smul_mul_assoc, smul_mul_assoc]
      · rename_i hz
        rw [not_not] at hz
        refine ⟨_, rfl, fun u => ?_⟩
        rw [app_quatPlus, hP0u, gJ, if_pos hz, mul_zero, add_zero, smul_mul_assoc]
    obtain ⟨st, hst, hstu⟩ := hstart
    rw [hst, Outcome.bind_ok]
    obtain ⟨N, hN, hNu⟩ := foldl_app (y := fun d u => ((F / der.factorial * der.choose (d + 1) : ℕ) : ℝ) •
      (E u (der - (d + 1)) * f (d + 1) + D (der - (d + 1)) * gJ M j u n (d + 1))) (start := st) (n := der) (X := fun d a =>
      (if ¬ isJacobianZero (n + 1) j then
        (s.productRest e c rem (der - (d + 1)) (F / (d + 1).factorial)).bind fun q =>
        (s.riDJacobianOf S L e c (d + 1) (n + 1) j).bind fun M => .ok (a + mapCols (quatOPlus q) M)
      else .ok a).bind fun a' =>
      (s.evalRiD e c (d + 1) (n + 1)).bind fun r =>
      (s.jacobianRest S L e c j rem (der - (d + 1)) (F / (d + 1).factorial)).bind fun p =>
        .ok (a' + mapCols (quatPlus r) p)) (by
      intro d hdd a
      obtain ⟨q1, q2⟩ := div_factorials F der (d + 1) (by omega) hF
      obtain ⟨P1, hP1, hP1u⟩ := IH (der - (d + 1)) (F / (d + 1).factorial) (by omega) q1
      rw [q2] at hP1u
      rw [IP _ _ (by omega) q1, q2, hR _ h2 (d + 1) (by omega), hP1]
      simp only [Outcome.bind_ok]
      split
      · obtain ⟨N, hN, hNu⟩ := riDJacobianOf_eq S L s e c M n (d + 1) j (hM _ h2 (d + 1) (by omega))
        refine ⟨_, by rw [hN, Outcome.bind_ok, Outcome.bind_ok], fun u => ?_⟩
        rw [app_add, app_add, app_quatPlus, app_quatOPlus, hP1u, hNu, smul_add, smul_mul_assoc, smul_mul_assoc]
        abel
      · rename_i hz
        rw [not_not] at hz
        refine ⟨_, by rw [Outcome.bind_ok], fun u => ?_⟩
        rw [app_add, app_quatPlus, hP1u, gJ, if_pos hz, mul_zero, add_zero, smul_mul_assoc])
    refine ⟨N, hN, fun u => ?_⟩
    rw [hNu, hstu, hdrop, dProdJ, Nat.sum_antidiagonal_eq_sum_range_succ_mk, sum_range_succ', smul_add _ (∑ _ ∈ _, _), smul_sum, add_comm]
    rw [hsh u]
    congr 1
    · refine sum_congr rfl fun d _ => ?_
      simp only []
      rw [← Nat.cast_smul_eq_nsmul ℝ, smul_smul, Nat.cast_mul]
      rfl
    · simp only [Nat.choose_zero_right, one_smul, Nat.sub_zero]
      rfl

/-- What the block of control vertex `j` does to a rotation rate `u`. -/
noncomputable def blockJ (R : List (ℕ → ℍ[ℝ])) (M : ℕ → ℕ → DMat) (v : ℍ[ℝ]) (der j : ℕ) (u : V3) : ℍ[ℝ] :=
  (if j = 0 then dProd R der * v * quatV u else 0) + dProdJ R (gJ M j u) der * v

theorem vMat_one (u : V3) : DMat.app (vMat 1) u = quatV u := by
  rw [app_vMat, Matrix.one_mulVec]

theorem jacobianDLoop_eq (S L : V3 → M33) (s : MSpline ℝ ℍ[ℝ]) (e : Evaluator ℝ) (c : QCache) (R : List (ℕ → ℍ[ℝ])) (M : ℕ → ℕ → DMat)
    (hL : R.length = s.order - 1) (ho : 2 ≤ s.order)
    (hR : ∀ (j : ℕ) (hj : j < R.length) (der : ℕ), der ≤ 3 → s.evalRiD e c der (j + 1) = .ok (R[j] der))
    (hM : ∀ (j : ℕ), j < R.length → ∀ (der : ℕ), der ≤ 2 → s.riDJacobian S L e c der (j + 1) = .ok (M j der))
    (v : ℍ[ℝ]) (hv : c.getVertex 0 = .ok v) (der : ℕ) (hd : der ≤ 2) :
    ∀ (n j : ℕ), ∃ bs, s.jacobianDLoop S L e c der n j = .ok bs ∧ bs.length = n ∧
      ∀ (k : ℕ) (hk : k < bs.length) (u : V3), DMat.app bs[k] u = blockJ R M v der (j + k) u
  | 0, j => ⟨[], rfl, rfl, fun k hk => absurd hk (by simp)⟩
  | n + 1, j => by
    obtain ⟨bs, hbs, hlen, hu⟩ := jacobianDLoop_eq S L s e c R M hL ho hR hM v hv der hd n (j + 1)
    obtain ⟨N, hN, hNu⟩ := jacobianRest_eq S L s e c R M hL hR hM j (s.order - 1 - 1) (by omega) der der.factorial hd dvd_rfl
    have hP := productRest_eq s e c R hL hR (s.order - 1 - 1) (by omega) der der.factorial (by omega) dvd_rfl
    simp only [Nat.sub_self, List.drop_zero, Nat.zero_add, Nat.div_self (Nat.factorial_pos der), Nat.cast_one, one_smul] at hP hNu
    unfold jacobianDLoop
    rw [hv, Outcome.bind_ok, hP, hN, hbs]
    have hb : ∃ b, (if j = 0 then (Outcome.ok (dProd R der)).map fun q => mapCols (quatOPlus (qplus v q)) (vMat 1) else .ok 0) = .ok b ∧
        ∀ u, DMat.app b u = if j = 0 then dProd R der * v * quatV u else 0 := by
      split
      · exact ⟨_, rfl, fun u => by rw [app_quatOPlus, vMat_one, qplus_eq]⟩
      · exact ⟨0, rfl, fun u => app_zero u⟩
    obtain ⟨b, hb, hbu⟩ := hb
    rw [hb]
    refine ⟨_, rfl, by simp [hlen], fun k hk u => ?_⟩
    rcases k with _ | k
    · rw [List.getElem_cons_zero, app_add, hbu, app_quatPlus, hNu]
      rfl
    · rw [List.getElem_cons_succ, hu, show j + 1 + k = j + (k + 1) by omega]

theorem dProd_append_zero : ∀ (A B : List (ℕ → ℍ[ℝ])), dProd (A ++ B) 0 = dProd B 0 * dProd A 0
  | [], B => by simp [dProd]
  | f :: A, B => by rw [List.cons_append, dProd_zero, dProd_append_zero A B, dProd_zero, mul_assoc]

theorem riProduct_eq (c : QCache) (R : List (ℕ → ℍ[ℝ]))
    (hR : ∀ (j : ℕ) (hj : j < R.length), c.getRi (j + 1) = .ok (R[j] 0)) (a : ℕ) :
    ∀ n, a + n ≤ R.length → riProduct c (a + 1) (a + 1 + n) = .ok (dProd ((R.drop a).take n) 0)
  | 0, _ => by simp [riProduct, dProd]
  | n + 1, h => by
    have key : ∀ n, a + (n + 1) ≤ R.length → (List.range n).foldl (fun (acc : Outcome ℍ[ℝ]) (k : ℕ) => acc.bind fun a' =>
        (c.getRi (a + 1 + 1 + k)).map fun r => qplus a' r) (c.getRi (a + 1)) = .ok (dProd ((R.drop a).take (n + 1)) 0) := by
      intro n
      induction n with
      | zero =>
        intro h
        rw [← List.cons_getElem_drop_succ (h := (by omega : a < R.length))]
        simp only [List.range_zero, List.foldl_nil, Nat.zero_add, List.take_succ_cons, List.take_zero]
        rw [hR a (by omega), dProd_single]
      | succ n ih =>
        intro h
        rw [List.range_succ, List.foldl_append, ih (by omega)]
        simp only [List.foldl_cons, List.foldl_nil, Outcome.bind_ok]
        rw [show a + 1 + 1 + n = a + (n + 1) + 1 by omega, hR _ (by omega), Outcome.map_ok, qplus_eq]
        have hl : n + 1 < (R.drop a).length := by simp; omega
        rw [List.take_succ_eq_append_getElem hl, dProd_append_zero, dProd_single]
        simp
    unfold riProduct
    rw [if_neg (by omega), show a + 1 + (n + 1) - (a + 1 + 1) = n by omega]
    exact key n h

theorem dProdJ_gJ_zero (R : List (ℕ → ℍ[ℝ])) (M : ℕ → ℕ → DMat) (j : ℕ) (hj : j ≤ R.length) (u : V3) :
    dProdJ R (gJ M j u) 0 =
      (if 1 ≤ j then dProd (R.drop j) 0 * DMat.app (M (j - 1) 0) u * dProd (R.take (j - 1)) 0 else 0) -
      (if j < R.length then dProd (R.drop (j + 1)) 0 * DMat.app (M j 0) u * dProd (R.take j) 0 else 0) := by
  have hg : dProdJ R (gJ M j u) 0 = dProdJ R (fun m _ =>
      (if 1 ≤ j then (if m = j - 1 then DMat.app (M (j - 1) 0) u else 0) else 0) + (if m = j then -DMat.app (M j 0) u else 0)) 0 := by
    refine dProdJ_congr R _ _ 0 fun m hm e he => ?_
    obtain rfl : e = 0 := by omega
    rw [gJ_eq]
    by_cases h1 : m + 1 = j
    · subst h1
      simp
    · rw [if_neg h1]
      by_cases h2 : m = j
      · subst h2
        by_cases h3 : 1 ≤ m
        · rw [if_pos rfl, if_pos h3, if_neg (by omega), zero_add]
        · rw [if_pos rfl, if_neg h3, zero_add]
      · rw [if_neg h2, if_neg h2, add_zero]
        by_cases h3 : 1 ≤ j
        · rw [if_pos h3, if_neg (by omega)]
        · rw [if_neg h3]
  rw [hg, dProdJ_add, sub_eq_add_neg]
  congr 1
  · split
    · rename_i h1
      rw [dProdJ_single_zero R (j - 1) (by omega), show j - 1 + 1 = j by omega]
    · exact dProdJ_zero R 0
  · split
    · rename_i h1
      rw [dProdJ_single_zero R j h1]
      simp
    · rw [neg_zero]
      refine (dProdJ_congr R _ (fun _ _ => 0) 0 fun m hm e he => ?_).trans (dProdJ_zero R 0)
      rw [if_neg (by omega)]

theorem jacobianLoop_eq (S L : V3 → M33) (s : MSpline ℝ ℍ[ℝ]) (e : Evaluator ℝ) (c : QCache) (R : List (ℕ → ℍ[ℝ])) (M : ℕ → ℕ → DMat)
    (hL : R.length + 1 = s.order) (hR : ∀ (j : ℕ) (hj : j < R.length), c.getRi (j + 1) = .ok (R[j] 0))
    (hM : ∀ (j : ℕ), j < R.length → s.riDJacobian S L e c 0 (j + 1) = .ok (M j 0)) (v : ℍ[ℝ]) (hv : c.getVertex 0 = .ok v) :
    ∀ (n j : ℕ) (prev : (ℍ[ℝ] → ℍ[ℝ]) × DMat), j + n = s.order →
      (1 ≤ j → ∀ u, DMat.app (mapCols prev.1 prev.2) u = dProd (R.drop j) 0 * DMat.app (M (j - 1) 0) u * dProd (R.take (j - 1)) 0 * v) →
      ∃ bs, s.jacobianLoop S L e c n j prev = .ok bs ∧ bs.length = n ∧
        ∀ (k : ℕ) (hk : k < bs.length) (u : V3), DMat.app bs[k] u = blockJ R M v 0 (j + k) u
  | 0, j, prev, _, _ => ⟨[], rfl, rfl, fun k hk => absurd hk (by simp)⟩
  | n + 1, j, prev, hjn, hprev => by
    have hp : riProduct c 1 s.order = .ok (dProd R 0) := by
      have := riProduct_eq c R hR 0 R.length (by omega)
      rw [show 0 + 1 + R.length = s.order by omega, List.drop_zero, List.take_length] at this
      exact this
    have hb : ∃ b, (if j = 0 then (riProduct c 1 s.order).map fun q => mapCols (quatOPlus (qplus v q)) (vMat 1) else .ok 0) = .ok b ∧
        ∀ u, DMat.app b u = if j = 0 then dProd R 0 * v * quatV u else 0 := by
      rw [hp]
      split
      · exact ⟨_, rfl, fun u => by rw [app_quatOPlus, vMat_one, qplus_eq]⟩
      · exact ⟨0, rfl, fun u => app_zero u⟩
    obtain ⟨b, hb, hbu⟩ := hb
    have hb' : ∀ u, DMat.app (if j ≠ 0 then b + mapCols prev.1 prev.2 else b) u = (if j = 0 then dProd R 0 * v * quatV u else 0) +
        (if 1 ≤ j then dProd (R.drop j) 0 * DMat.app (M (j - 1) 0) u * dProd (R.take (j - 1)) 0 else 0) * v := by
      intro u
      rcases Nat.eq_zero_or_pos j with rfl | hpos
      · rw [if_neg (by simp), hbu]
        simp
      · rw [if_pos (by omega), app_add, hbu, hprev hpos u, if_neg (by omega), if_pos (c := 1 ≤ j) hpos]
    unfold jacobianLoop
    rw [hv, Outcome.bind_ok, hb, Outcome.bind_ok]
    simp only []
    set b' := if j ≠ 0 then b + mapCols prev.1 prev.2 else b with hb'def
    split
    · rename_i hne
      have hjR : j < R.length := by omega
      rw [hM j hjR, Outcome.bind_ok]
      have ha : (if j = 0 then Outcome.ok v else (riProduct c 1 (j + 1)).map fun q => qplus v q) = .ok (dProd (R.take j) 0 * v) := by
        split
        · rename_i h0
          subst h0
          simp [dProd]
        · have := riProduct_eq c R hR 0 j (by omega)
          rw [show 0 + 1 + j = j + 1 by omega, List.drop_zero] at this
          rw [show (1 : ℕ) = 0 + 1 from rfl, this, Outcome.map_ok, qplus_eq]
      rw [ha, Outcome.bind_ok]
      have hA : ∃ A, (if j + 2 ≠ s.order then (riProduct c (j + 2) s.order).map fun q => fun p =>
          quatPlus (dProd (R.take j) 0 * v) (quatOPlus q p) else .ok (quatPlus (dProd (R.take j) 0 * v))) = .ok A ∧
          ∀ u, DMat.app (mapCols A (M j 0)) u = dProd (R.drop (j + 1)) 0 * DMat.app (M j 0) u * dProd (R.take j) 0 * v := by
        split
        · have := riProduct_eq c R hR (j + 1) (R.length - (j + 1)) (by omega)
          rw [show j + 1 + 1 = j + 2 from rfl, show j + 2 + (R.length - (j + 1)) = s.order by omega,
            List.take_of_length_le (by simp)] at this
          refine ⟨_, by rw [this]; rfl, fun u => ?_⟩
          have e1 : mapCols (fun p => quatPlus (dProd (R.take j) 0 * v) (quatOPlus (dProd (R.drop (j + 1)) 0) p)) (M j 0) =
              mapCols (quatPlus (dProd (R.take j) 0 * v)) (mapCols (quatOPlus (dProd (R.drop (j + 1)) 0)) (M j 0)) := rfl
          rw [e1, app_quatPlus, app_quatOPlus, mul_assoc _ _ v]
        · refine ⟨_, rfl, fun u => ?_⟩
          rw [app_quatPlus, List.drop_eq_nil_of_le (by omega)]
          simp only [dProd, if_true, _root_.one_mul, mul_assoc]
      obtain ⟨A, hA, hAu⟩ := hA
      rw [hA, Outcome.bind_ok]
      obtain ⟨bs, hbs, hlen, hu⟩ := jacobianLoop_eq S L s e c R M hL hR hM v hv n (j + 1) (A, M j 0) (by omega) (by
        intro _ u
        exact hAu u)
      rw [hbs]
      refine ⟨_, rfl, by simp [hlen], fun k hk u => ?_⟩
      rcases k with _ | k
      · rw [List.getElem_cons_zero, app_sub, hb', hAu]
        show _ = (if j = 0 then dProd R 0 * v * quatV u else 0) + dProdJ R (gJ M j u) 0 * v
        rw [dProdJ_gJ_zero R M j hjR.le u, if_pos (c := j < R.length) hjR, sub_mul, add_sub_assoc]
      · rw [List.getElem_cons_succ, hu, show j + 1 + k = j + (k + 1) by omega]
    · rename_i hne
      have hjR : j = R.length := by omega
      obtain rfl : n = 0 := by omega
      refine ⟨_, rfl, rfl, fun k hk u => ?_⟩
      obtain rfl : k = 0 := by simpa using hk
      rw [List.getElem_cons_zero, hb']
      show _ = (if j = 0 then dProd R 0 * v * quatV u else 0) + dProdJ R (gJ M j u) 0 * v
      rw [dProdJ_gJ_zero R M j hjR.le u, if_neg (c := j < R.length) (by omega), sub_zero]

/-! ### Splines with moved control vertices -/

section moved
variable {K P : Type*} [Field K] [LinearOrder K] [IsStrictOrderedRing K]

theorem moved_keys (s : MSpline K P) (f : ℕ → P → P) : (s.moved f).keys = s.keys := by
  unfold moved keys
  dsimp only
  apply List.ext_getElem?
  intro j
  rw [List.getElem?_map, List.getElem?_map, List.getElem?_mapIdx, Option.map_map]
  rfl

theorem moved_kn (s : MSpline K P) (f : ℕ → P → P) : (s.moved f).kn = s.kn := by
  unfold kn
  rw [moved_keys]

theorem moved_verts (s : MSpline K P) (f : ℕ → P → P) (j : ℕ) : (s.moved f).verts[j]? = s.verts[j]?.map (f j) := by
  unfold verts moved
  dsimp only
  rw [List.getElem?_map, List.getElem?_mapIdx, List.getElem?_map, Option.map_map, Option.map_map]
  rfl

theorem moved_mwf {s : MSpline K P} (h : s.MWF) (f : ℕ → P → P) : (s.moved f).MWF := by
  refine ⟨h.order_pos, by rw [moved_keys]; exact h.sorted, fun he => ?_, fun he => ?_, fun he j g h1 h2 hg => ?_⟩
  · rw [moved_keys]; exact h.enough he
  · rw [moved_keys]; exact h.iters_eq he
  · rw [moved_keys] at h2
    rw [moved_kn]
    unfold moved at hg
    dsimp only at hg
    rw [List.getElem?_mapIdx, Option.map_eq_some_iff] at hg
    obtain ⟨g0, hg0, rfl⟩ := hg
    exact h.basis_eq he j g0 h1 h2 hg0

theorem moved_inSeg {s : MSpline K P} {t : K} {i : ℕ} (hi : s.InSeg t i) (f : ℕ → P → P) : (s.moved f).InSeg t i := by
  refine ⟨hi.lower, ?_, ?_, ?_⟩
  · rw [moved_keys]; exact hi.upper
  · rw [moved_kn]; exact hi.left
  · rw [moved_kn, moved_keys]; exact hi.right

end moved

theorem moved_betaPoly (s : MSpline ℝ ℍ[ℝ]) (f : ℕ → ℍ[ℝ] → ℍ[ℝ]) (i j : ℕ) : (s.moved f).betaPoly i j = s.betaPoly i j := by
  unfold betaPoly
  rw [moved_kn]
  rfl

theorem phiList_getElem (lg : ℍ[ℝ] → V3) : ∀ (cs : List ℍ[ℝ]) (a : ℍ[ℝ]) (m : ℕ) (hm : m < (phiList lg a cs).length),
    (phiList lg a cs)[m] = lg ((a :: cs)[m + 1]'(by rw [phiList_length] at hm; simpa using hm) *
      star ((a :: cs)[m]'(by rw [phiList_length] at hm; simp; omega)))
  | [], a, m, hm => absurd hm (by simp [phiList])
  | c :: cs, a, 0, hm => by
    simp only [phiList, List.getElem_cons_zero, List.getElem_cons_succ]
  | c :: cs, a, m + 1, hm => by
    have := phiList_getElem lg cs c m (by simpa [phiList] using hm)
    simpa only [phiList, List.getElem_cons_succ] using this

/-- The factors of the curve of segment `i` at time `t` when the relevant control vertices are `p 0, p 1, …`. -/
noncomputable def segR (lg : ℍ[ℝ] → V3) (s : MSpline ℝ ℍ[ℝ]) (i : ℕ) (p : ℕ → ℍ[ℝ]) (t : ℝ) : List (ℕ → ℍ[ℝ]) :=
  (List.range (s.order - 1)).map fun m e =>
    rD (fun n => (derivative^[n] (s.betaPoly i (m + 1))).eval t) (quatV (lg (p (m + 1) * star (p m)))) e

theorem segFactors_eq (lg : ℍ[ℝ] → V3) (s : MSpline ℝ ℍ[ℝ]) (i : ℕ) (c : ℍ[ℝ]) (cs : List ℍ[ℝ]) (p : ℕ → ℍ[ℝ]) (t : ℝ)
    (hl : cs.length = s.order - 1) (hp : ∀ j (hj : j < (c :: cs).length), (c :: cs)[j] = p j) :
    ((s.segFactors lg i c cs).map fun f e => f e t) = s.segR lg i p t := by
  unfold segR
  apply List.ext_getElem
  · simp [segFactors, factorsFrom_length, phiList_length, hl]
  · intro m h1 h2
    simp only [List.length_map, segFactors, factorsFrom_length, phiList_length] at h1
    simp only [List.getElem_map, List.getElem_range]
    funext e
    have hm : m < (phiList lg c cs).length := by rw [phiList_length]; exact h1
    have := factorsFrom_getElem (s.betaPoly i) (phiList lg c cs) 0 m hm
    refine (congrFun (congrFun this e) t).trans ?_
    rw [Nat.zero_add, phiList_getElem lg cs c m hm, hp (m + 1) (by simpa using h1), hp m (by simp; omega)]

/-- The matrix of the derivative of the vector between two relevant control vertices. -/
noncomputable def segPJ (lg : ℍ[ℝ] → V3) (L : V3 → M33) (p : ℕ → ℍ[ℝ]) (m : ℕ) : M33 :=
  L (lg (p (m + 1) * star (p m))) * quat2r (quatInv (p m))

theorem riDJacobian_eq (lg : ℍ[ℝ] → V3) (S L : V3 → M33) {s : MSpline ℝ ℍ[ℝ]} (h : s.MWF) (he : s.state = .evaluable) {t : ℝ} {i : ℕ}
    (hi : s.InSeg t i) {c : ℍ[ℝ]} {cs : List ℍ[ℝ]} (hv : (s.verts.drop (i + 1 - s.order)).take s.order = c :: cs) (p : ℕ → ℍ[ℝ])
    (hp : ∀ j (hj : j < (c :: cs).length), (c :: cs)[j] = p j) (m : ℕ) (hm : m < cs.length) (d : ℕ) (hd : d ≤ 2) :
    ∃ N, s.riDJacobian S L (s.evaluatorOf t i) ⟨phiList lg c cs, (s.segFactors lg i c cs).map fun f => f 0 t, c :: cs⟩ d (m + 1) = .ok N ∧
      ∀ u, DMat.app N u = rJ S (fun n => (derivative^[n] (s.betaPoly i (m + 1))).eval t) (lg (p (m + 1) * star (p m)))
        ((segPJ lg L p m).mulVec u) d := by
  have hl := segVerts_length hi hv
  have hm' : m < (phiList lg c cs).length := by rw [phiList_length]; exact hm
  have hms : m < ((s.segFactors lg i c cs).map fun f => f 0 t).length := by
    simp [segFactors, factorsFrom_length, phiList_length]; exact hm
  obtain ⟨w0, hw0, hb0⟩ := localCumulativeBi_eq h he hi 0
  obtain ⟨w1, hw1, hb1⟩ := localCumulativeBi_eq h he hi 1
  obtain ⟨w2, hw2, hb2⟩ := localCumulativeBi_eq h he hi 2
  set b : ℕ → ℝ := fun n => (derivative^[n] (s.betaPoly i (m + 1))).eval t with hb
  have e0 : w0 (m + 1) = b 0 := hb0 (m + 1) (by omega) (by omega)
  have e1 : w1 (m + 1) = b 1 := hb1 (m + 1) (by omega) (by omega)
  have e2 : w2 (m + 1) = b 2 := hb2 (m + 1) (by omega) (by omega)
  set φ := lg (p (m + 1) * star (p m)) with hφ
  have hphi : (phiList lg c cs)[m] = φ := by
    rw [phiList_getElem lg cs c m hm', hp (m + 1) (by simpa using hm), hp m (by simp; omega)]
  have hri : ((s.segFactors lg i c cs).map fun f => f 0 t)[m] = rD b (quatV φ) 0 := by
    rw [List.getElem_map]
    have := factorsFrom_getElem (s.betaPoly i) (phiList lg c cs) 0 m hm'
    refine (congrFun (congrFun this 0) t).trans ?_
    rw [Nat.zero_add, hphi]
  have hvx : (c :: cs)[m]'(by simp; omega) = p m := hp m (by simp; omega)
  have g1 : QCache.getRi ⟨phiList lg c cs, (s.segFactors lg i c cs).map fun f => f 0 t, c :: cs⟩ (m + 1) = .ok (rD b (quatV φ) 0) := by
    simp only [QCache.getRi]
    rw [List.getElem?_eq_getElem hms, hri]
  have g2 : QCache.getPhi ⟨phiList lg c cs, (s.segFactors lg i c cs).map fun f => f 0 t, c :: cs⟩ (m + 1) = .ok φ := by
    simp only [QCache.getPhi]
    rw [List.getElem?_eq_getElem hm', hphi]
  have g3 : QCache.getVertex ⟨phiList lg c cs, (s.segFactors lg i c cs).map fun f => f 0 t, c :: cs⟩ m = .ok (p m) := by
    simp only [QCache.getVertex]
    rw [List.getElem?_eq_getElem (by simp; omega), hvx]
  have g4 : phiVectorJacobian L ⟨phiList lg c cs, (s.segFactors lg i c cs).map fun f => f 0 t, c :: cs⟩ (m + 1) = .ok (segPJ lg L p m) := by
    unfold phiVectorJacobian
    rw [g2, Outcome.bind_ok, Nat.add_sub_cancel, g3, Outcome.bind_ok]
    rfl
  have hj0 : ∀ u, DMat.app (mapCols (quatOPlus (rD b (quatV φ) 0)) (vMat (S (w0 (m + 1) • φ) * (w0 (m + 1) • segPJ lg L p m)))) u =
      rJ S b φ ((segPJ lg L p m).mulVec u) 0 := by
    intro u
    rw [app_quatOPlus, app_vMat, ← Matrix.mulVec_mulVec, Matrix.smul_mulVec, e0, rJ_zero]
  have hpr : ∀ u, DMat.app (mapCols (quatOPlus (rD b (quatV φ) 0)) (vMat (segPJ lg L p m)) + mapCols (quatPlus (quatV φ))
      (mapCols (quatOPlus (rD b (quatV φ) 0)) (vMat (S (w0 (m + 1) • φ) * (w0 (m + 1) • segPJ lg L p m))))) u =
      rD b (quatV φ) 0 * quatV ((segPJ lg L p m).mulVec u) + rJ S b φ ((segPJ lg L p m).mulVec u) 0 * quatV φ := by
    intro u
    rw [app_add, app_quatPlus, hj0, app_quatOPlus, app_vMat]
  unfold riDJacobian
  rw [g1, g2, g4, hw0]
  simp only [Outcome.bind_ok]
  interval_cases d
  · exact ⟨_, rfl, hj0⟩
  · refine ⟨_, by rw [hw1]; rfl, fun u => ?_⟩
    rw [app_smul, hpr, e1, rJ_one]
  · refine ⟨_, by rw [hw1, hw2]; rfl, fun u => ?_⟩
    rw [app_add, app_quatPlus, hpr, app_quatOPlus, app_smul, app_vMat, e1, e2, qplus_eq, rJ_two]

/-- The derivative of the curve of a segment when the relevant control vertices move with rotation rates `u`. -/
theorem hasDerivAt_segR {lg : ℍ[ℝ] → V3} {S L : V3 → M33} (hS : ExpDiff S) (s : MSpline ℝ ℍ[ℝ]) (i : ℕ) (t : ℝ) (p : ℕ → ℝ → ℍ[ℝ])
    (u : ℕ → V3) (x : ℝ) (hp : ∀ j, j < s.order → (∀ y, ‖p j y‖ = 1) ∧ HasDerivAt (p j) (p j x * quatV (u j)) x)
    (hl : ∀ m, m + 1 < s.order → LogDiffAt lg L (p (m + 1) x * star (p m x))) (M : ℕ → ℕ → DMat)
    (hM : ∀ m, m + 1 < s.order → ∀ d, d ≤ 2 → ∀ v, DMat.app (M m d) v =
      rJ S (fun n => (derivative^[n] (s.betaPoly i (m + 1))).eval t) (lg (p (m + 1) x * star (p m x)))
        ((segPJ lg L (fun j => p j x) m).mulVec v) d) (ho : 1 ≤ s.order) (d : ℕ) (hd : d ≤ 2) :
    HasDerivAt (fun y => dProd (s.segR lg i (fun j => p j y) t) d * p 0 y)
      (∑ j ∈ range s.order, blockJ (s.segR lg i (fun j => p j x) t) M (p 0 x) d j (u j)) x := by
  have hlist : ∀ y, s.segR lg i (fun j => p j y) t = ((List.range (s.order - 1)).map fun m y e =>
      rD (fun n => (derivative^[n] (s.betaPoly i (m + 1))).eval t) (quatV (lg (p (m + 1) y * star (p m y)))) e).map fun f => f y := by
    intro y
    rw [List.map_map]
    rfl
  have h1 := hasDerivAt_dProd_param 2 x ((List.range (s.order - 1)).map fun m y e =>
      rD (fun n => (derivative^[n] (s.betaPoly i (m + 1))).eval t) (quatV (lg (p (m + 1) y * star (p m y)))) e)
      (fun m d => DMat.app (M m d) (u (m + 1) - u m)) (by
    intro m hm e he
    rw [List.length_map, List.length_range] at hm
    simp only [List.getElem_map, List.getElem_range]
    rw [hM m (by omega) e he]
    exact hasDerivAt_rD_param hS _ (hasDerivAt_phi (hl m (by omega)) (hp m (by omega)).1 (hp (m + 1) (by omega)).1 (hp m (by omega)).2
      (hp (m + 1) (by omega)).2) e he) d hd
  simp only [← hlist] at h1
  refine (h1.fun_mul (hp 0 (by omega)).2).congr_deriv ?_
  unfold blockJ
  rw [sum_add_distrib, ← sum_mul, ← dProdJ_sum]
  rw [sum_ite_eq' (range s.order) 0, if_pos (mem_range.2 (by omega)), ← mul_assoc, add_comm]
  congr 2
  refine dProdJ_congr _ _ _ d fun m hm e he => ?_
  have hm' : m + 1 < s.order := by
    unfold segR at hm
    rw [List.length_map, List.length_range] at hm
    omega
  rw [sum_congr rfl fun j _ => gJ_eq M j (u j) m e]
  have : ∀ j ∈ range s.order, (if m + 1 = j then DMat.app (M m e) (u j) else if m = j then -DMat.app (M m e) (u j) else 0) =
      (if m + 1 = j then DMat.app (M m e) (u j) else 0) + (if m = j then -DMat.app (M m e) (u j) else 0) := by
    intro j _
    by_cases h1 : m + 1 = j
    · rw [if_pos h1, if_pos h1, if_neg (by omega), add_zero]
    · rw [if_neg h1, if_neg h1, zero_add]
  rw [sum_congr rfl this, sum_add_distrib, sum_ite_eq, sum_ite_eq, if_pos (mem_range.2 hm'), if_pos (mem_range.2 (by omega)), ← sub_eq_add_neg]
  simp only [DMat.app, Pi.sub_apply, sub_smul, sum_sub_distrib]

end MSpline
end Verif
