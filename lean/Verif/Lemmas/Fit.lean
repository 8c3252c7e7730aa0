import Verif.Lemmas.LeastSquares
import Verif.Lemmas.Weights
import Verif.Lemmas.Views
import Verif.Lemmas.State

/-!
# Assembled constraint systems
-/

set_option linter.unusedSectionVars false

namespace Verif

open Finset Polynomial BSpline

variable {K : Type*} [Field K] [LinearOrder K] [IsStrictOrderedRing K] {D : ℕ}

/-- The spline with its coefficients replaced by the entries of a stacked vector. -/
def BSpline.withVec (s : BSpline K D) (x : ℕ → K) : BSpline K D :=
  BSpline.mk (K := K) s.order s.knots ((List.range s.coeffs.length).map (fun j d => x (j * D + (d : ℕ)))) s.basis

@[simp] theorem withVec_order (s : BSpline K D) (x : ℕ → K) : (s.withVec x).order = s.order := rfl
@[simp] theorem withVec_knots (s : BSpline K D) (x : ℕ → K) : (s.withVec x).knots = s.knots := rfl
@[simp] theorem withVec_basis (s : BSpline K D) (x : ℕ → K) : (s.withVec x).basis = s.basis := rfl
@[simp] theorem withVec_len (s : BSpline K D) (x : ℕ → K) :
    (s.withVec x).coeffs.length = s.coeffs.length := by simp [withVec]

theorem withVec_col (s : BSpline K D) (x : ℕ → K) (j : ℕ) (hj : j < s.coeffs.length) (d : Fin D) :
    (s.withVec x).col j d = x (j * D + d) := by
  simp [withVec, col, List.getD_eq_getElem?_getD, hj]

theorem withVec_wf {s : BSpline K D} (h : s.WF) (x : ℕ → K) : (s.withVec x).WF :=
  WF.withCoeffs h _ (by simp)

theorem withVec_self (s : BSpline K D) : s.withVec (fun p => s.coefficientVector.getD p 0) = s := by
  have hc : (List.range s.coeffs.length).map
      (fun j (d : Fin D) => s.coefficientVector.getD (j * D + (d : ℕ)) 0) = s.coeffs := by
    apply List.ext_getElem (by simp)
    intro j h1 h2
    simp only [List.getElem_map, List.getElem_range]
    funext d
    unfold coefficientVector
    rw [stack_getD _ _ j h2 d]
    simp [col, List.getD_eq_getElem?_getD, h2]
  unfold withVec
  rw [hc]

theorem withVec_congr (s : BSpline K D) {x y : ℕ → K} (h : ∀ q < s.coeffs.length * D, x q = y q) :
    s.withVec x = s.withVec y := by
  unfold withVec
  congr 1
  apply List.map_congr_left
  intro j hj
  have hj' := List.mem_range.1 hj
  funext d
  apply h
  calc j * D + d < j * D + D := by omega
    _ = (j + 1) * D := by ring
    _ ≤ _ := Nat.mul_le_mul_right _ hj'

theorem setVec_eq (s : BSpline K D) (c : ℕ → K) :
    s.setCoefficientVector ((List.range (s.coeffs.length * D)).map c) = .ok (s.withVec c) := by
  unfold setCoefficientVector
  rw [if_pos (by simp [mul_comm])]
  unfold withVec
  congr 2
  apply List.ext_getElem (by simp)
  intro j h1 h2
  have hj : j < s.coeffs.length := by simpa using h1
  have := writeCols_getD s.coeffs 0 ((List.range (s.coeffs.length * D)).map c) s.coeffs.length j hj
  rw [if_pos (by omega), List.getD_eq_getElem?_getD, List.getElem?_eq_getElem h1, Option.getD_some] at this
  rw [this]
  simp only [List.getElem_map, List.getElem_range]
  funext d
  unfold segmentOf
  have hlt : (j - 0) * D + (d : ℕ) < s.coeffs.length * D := by
    calc (j - 0) * D + d < j * D + D := by simp
      _ = (j + 1) * D := by ring
      _ ≤ _ := Nat.mul_le_mul_right _ hj
  rw [List.getD_eq_getElem?_getD, List.getElem?_map, List.getElem?_range hlt]
  simp

theorem setSolved_eq (s : BSpline K D) (solve : Solver K) (A : Mat K) (b : ℕ → K) :
    s.setSolved solve (s.coeffs.length * D) A b
      = .ok (s.withVec (solve (s.coeffs.length * D) A b)) := setVec_eq s _

/-- `Phi` applied to the local part of a stacked vector evaluates the spline with these coefficients. -/
theorem phi_row {s : BSpline K D} (h : s.WF) (t x : K) (i : ℕ) (hT : s.computeTIndex t = .ok (x, i))
    (h1 : s.order - 1 ≤ i) (h2 : i + 1 ≤ s.knots.length - s.order) (der : ℕ) :
    ∃ P, s.phi t der = .ok P ∧ ∀ y : ℕ → K, ∃ v, (s.withVec y).evalD t der = .ok v ∧ ∀ d : Fin D,
      ∑ q ∈ range (s.order * D), P d q * y ((i + 1 - s.order) * D + q) = v d := by
  have hk := h.order_pos
  have hn := h.enough
  have hc := h.coeffs_len
  obtain ⟨B, hB, hB', -⟩ := blockAt_ok h i h1 h2
  obtain ⟨u, hU⟩ : ∃ u, s.computeUAndTIndex t = .ok (u, i) := by
    unfold computeUAndTIndex
    rw [hT]
    simp only [Outcome.bind_ok]
    split_ifs
    · exact ⟨_, rfl⟩
    · exact ⟨_, rfl⟩
  unfold phi
  rw [if_neg (by omega), hU]
  simp only [Outcome.bind_ok]
  rw [hB]
  simp only [Outcome.bind_ok]
  refine ⟨_, rfl, fun y => ?_⟩
  have hB2 : (s.withVec y).blockAt i = .ok (i + 1 - s.order, B) := by
    unfold blockAt
    simp only [withVec_order, withVec_basis, withVec_len, hB']
    rw [if_neg (by omega), if_pos (by omega)]
  have hU2 : (s.withVec y).computeUAndTIndex t = .ok (u, i) := hU
  unfold evalD evalDNat
  rw [if_neg (by omega), hU2]
  simp only [Outcome.bind_ok]
  rw [hB2]
  refine ⟨_, rfl, fun d => ?_⟩
  rw [identityBlocks_mul]
  unfold blockMul
  refine sum_congr rfl fun c hcm => ?_
  have : c < s.order := mem_range.1 hcm
  rw [withVec_col s y _ (by omega) d, mul_comm]
  congr 1
  congr 1
  ring

/-- The assembled rows evaluate the spline at the constraint times. -/
theorem blockRows_spec {s : BSpline K D} (h : s.WF) (offset : K → Outcome ℕ) :
    ∀ cs : List (Constraint K D),
    (∀ c ∈ cs, 0 ≤ c.der ∧ ∃ x i, s.computeTIndex c.time = .ok (x, i) ∧ s.order - 1 ≤ i ∧
      i + 1 ≤ s.knots.length - s.order ∧ offset c.time = .ok ((i + 1 - s.order) * D)) →
    ∃ rows, s.blockRows offset cs = .ok rows ∧ rows.length = cs.length ∧
      ∀ j (hj : j < cs.length) (d : Fin D),
        rowsVec rows (j * D + d) = cs[j].value d ∧
        ∀ y, ∃ v, (s.withVec y).evalD cs[j].time cs[j].der = .ok v ∧
          mulV (s.coeffs.length * D) (rowsMat (s.order * D) rows) y (j * D + d) = cs[j].weight * v d
  | [], _ => ⟨[], rfl, rfl, fun j hj => by simp at hj⟩
  | c :: cs, hcs => by
    have hk := h.order_pos
    have hn := h.enough
    have hcl := h.coeffs_len
    obtain ⟨rest, hr, hl, hspec⟩ := blockRows_spec h offset cs (fun c' hc' => hcs c' (by simp [hc']))
    obtain ⟨hder, x, i, hT, h1, h2, ho⟩ := hcs c (by simp)
    obtain ⟨der, hder⟩ : ∃ n : ℕ, c.der = n := ⟨c.der.toNat, by omega⟩
    obtain ⟨P, hP, hv⟩ := phi_row h c.time x i hT h1 h2 der
    refine ⟨⟨(i + 1 - s.order) * D, fun r q => c.weight * P r q, c.value⟩ :: rest, ?_, by simp [hl], ?_⟩
    · unfold blockRows
      rw [ho, hder, hP, hr]
      rfl
    · intro j hj d
      have hD : 0 < D := by have := d.2; omega
      have e1 : ∀ j, (j * D + (d : ℕ)) / D = j := fun j => by
        rw [Nat.add_comm, Nat.add_mul_div_right _ _ hD, Nat.div_eq_of_lt d.2, Nat.zero_add]
      have e2 : ∀ j, (j * D + (d : ℕ)) % D = d := fun j => by
        rw [Nat.add_comm, Nat.add_mul_mod_self_right, Nat.mod_eq_of_lt d.2]
      cases j with
      | zero =>
        refine ⟨?_, fun y => ?_⟩
        · unfold rowsVec
          simp [Nat.div_eq_of_lt d.2, Nat.mod_eq_of_lt d.2]
        · obtain ⟨v, hv1, hv2⟩ := hv y
          refine ⟨v, by simpa [hder] using hv1, ?_⟩
          unfold mulV rowsMat
          rw [e1, e2]
          simp only [List.getElem?_cons_zero, List.getElem_cons_zero]
          rw [← hv2 d, mul_sum]
          have hle : (i + 1 - s.order) * D + s.order * D ≤ s.coeffs.length * D := by
            rw [← Nat.add_mul]; exact Nat.mul_le_mul_right _ (by omega)
          calc ∑ q ∈ range (s.coeffs.length * D),
                (if (i + 1 - s.order) * D ≤ q ∧ q < (i + 1 - s.order) * D + s.order * D then
                  c.weight * P d (q - (i + 1 - s.order) * D) else 0) * y q
              = ∑ q ∈ Ico ((i + 1 - s.order) * D) ((i + 1 - s.order) * D + s.order * D),
                  c.weight * P d (q - (i + 1 - s.order) * D) * y q := by
                rw [← sum_subset (s₁ := Ico ((i + 1 - s.order) * D) ((i + 1 - s.order) * D + s.order * D))]
                · refine sum_congr rfl fun q hq => ?_
                  rw [if_pos (mem_Ico.1 hq)]
                · intro q hq
                  have := mem_Ico.1 hq
                  exact mem_range.2 (by omega)
                · intro q _ hq
                  rw [if_neg (fun hc => hq (mem_Ico.2 hc)), zero_mul]
            _ = _ := by
                rw [sum_Ico_eq_sum_range]
                simp only [Nat.add_sub_cancel_left]
                exact sum_congr rfl fun q _ => by ring
      | succ j =>
        have hj' : j < cs.length := by simpa using hj
        obtain ⟨a1, a2⟩ := hspec j hj' d
        have es : (j + 1) * D + (d : ℕ) = (j * D + d) + D := by ring
        have ed : (j * D + (d : ℕ) + D) / D = (j * D + (d : ℕ)) / D + 1 := Nat.add_div_right _ hD
        have em : (j * D + (d : ℕ) + D) % D = (j * D + (d : ℕ)) % D := Nat.add_mod_right _ _
        refine ⟨?_, fun y => ?_⟩
        · rw [List.getElem_cons_succ, ← a1, es]
          unfold rowsVec
          simp only [ed, em, List.getElem?_cons_succ]
        · obtain ⟨v, hv1, hv2⟩ := a2 y
          refine ⟨v, by simpa using hv1, ?_⟩
          rw [List.getElem_cons_succ, ← hv2, es]
          unfold mulV rowsMat
          simp only [ed, em, List.getElem?_cons_succ]

/-- `firstIndex` of a valid time. -/
theorem firstIndex_ok {s : BSpline K D} (h : s.WF) (hD : 1 ≤ D) (t x : K) (i : ℕ)
    (hT : s.computeTIndex t = .ok (x, i)) (h1 : s.order - 1 ≤ i) :
    s.firstIndex t = .ok ((i + 1 - s.order) * D) := by
  have hk := h.order_pos
  unfold firstIndex localCoefficientVectorIndices bidxOf
  rw [hT]
  simp only [Outcome.bind_ok]
  rw [if_neg (by omega)]
  simp only [Outcome.bind_ok]
  unfold linSpacedIdx
  have : 0 < s.order * D := Nat.mul_pos (by omega) hD
  obtain ⟨m, hm⟩ := Nat.exists_eq_succ_of_ne_zero this.ne'
  rw [hm, List.range_succ_eq_map]
  simp

end Verif
