import Verif.Props.Eval
import Verif.Lemmas.Views

/-!
# Properties C07 and C10: Jacobians and coefficient views of `bsplines::BSpline`
-/

set_option linter.unusedSectionVars false

namespace Verif

open Finset BSpline

variable {K : Type*} [Field K] [LinearOrder K] {D : ℕ}

/-- Entry `q` of a stacked vector. -/
def entry (c : List K) (q : ℕ) : K := c.getD q 0

/-- Component-wise sum of two stacked vectors. -/
def addVec (c δ : List K) : List K := List.zipWith (· + ·) c δ

theorem evalDAndJacobian_inv {s : BSpline K D} {t : K} {der : ℤ} {r : ValJac K D}
    (h : s.evalDAndJacobian t der = .ok r) :
    ∃ x u i B, ¬ der < 0 ∧ s.computeTIndex t = .ok (x, i) ∧ s.computeUAndTIndex t = .ok (u, i) ∧
      s.order ≤ i + 1 ∧ s.basis[i + 1 - s.order]? = some B ∧
      i + 1 - s.order + s.order ≤ s.coeffs.length ∧
      s.blockAt i = .ok (i + 1 - s.order, B) ∧
      r = { value := s.blockMul (i + 1 - s.order)
              (transposeMul s.order B (computeU s.kn s.order u i der.toNat))
            jacobian := identityBlocks D
              (transposeMul s.order B (computeU s.kn s.order u i der.toNat))
            indices := linSpacedIdx (s.order * D) ((i + 1 - s.order) * D) } := by
  unfold evalDAndJacobian at h
  split_ifs at h with hd
  obtain ⟨⟨u, i⟩, hU, h⟩ := Outcome.bind_eq_ok.1 h
  obtain ⟨⟨b, B⟩, hB, h⟩ := Outcome.bind_eq_ok.1 h
  have hU' := hU
  unfold computeUAndTIndex at hU'
  obtain ⟨⟨x, i'⟩, hT, hU'⟩ := Outcome.bind_eq_ok.1 hU'
  have hii : i' = i := by
    simp only [] at hU'
    split_ifs at hU' <;> exact (Prod.mk.inj (Outcome.ok.inj hU')).2
  subst hii
  have hB' := hB
  unfold blockAt at hB'
  split_ifs at hB' with h1
  simp only [] at hB'
  cases hb : s.basis[i' + 1 - s.order]? with
  | none => rw [hb] at hB'; exact nomatch hB'
  | some B' =>
    rw [hb] at hB'
    simp only [] at hB'
    split_ifs at hB' with h2
    obtain ⟨rfl, rfl⟩ := Prod.mk.inj (Outcome.ok.inj hB')
    exact ⟨x, u, i', B', hd, hT, hU, by omega, hb, h2, hB, (Outcome.ok.inj h).symm⟩

theorem localCoefficientVector_of_lookup {s : BSpline K D} {t x : K} {i : ℕ}
    (hT : s.computeTIndex t = .ok (x, i)) (h1 : s.order ≤ i + 1)
    (h2 : i + 1 - s.order + s.order ≤ s.coeffs.length) :
    s.localCoefficientVector t = .ok (stack s.order (fun c => s.col (c + (i + 1 - s.order)))) := by
  unfold localCoefficientVector bidxOf
  rw [hT]
  simp only [Outcome.bind_ok]
  rw [if_neg (by omega)]
  simp only [Outcome.bind_ok]
  rw [if_pos h2]

/-! ## C07 -/

/-- **C07**: whenever a derivative query with Jacobian succeeds: the value is the one of the plain
query, the explicitly built basis matrix is the Jacobian, the reported indices are the ones of the
index query, and value = Jacobian × vector of local coefficients. -/
theorem C07_jacobian_consistent (s : BSpline K D) (t : K) (der : ℤ) (r : ValJac K D)
    (h : s.evalDAndJacobian t der = .ok r) :
    s.evalD t der = .ok r.value ∧ s.phi t der = .ok r.jacobian ∧
      s.localCoefficientVectorIndices t = .ok r.indices ∧
      ∃ lc, s.localCoefficientVector t = .ok lc ∧ lc.length = s.order * D ∧
        ∀ d : Fin D, r.value d = ∑ q ∈ range (s.order * D), r.jacobian d q * entry lc q := by
  obtain ⟨x, u, i, B, hd, hT, hU, h1, hb, h2, hB, rfl⟩ := evalDAndJacobian_inv h
  refine ⟨?_, ?_, ?_, stack s.order (fun c => s.col (c + (i + 1 - s.order))), ?_, by simp, ?_⟩
  · unfold evalD evalDNat
    rw [if_neg hd, hU]
    simp only [Outcome.bind_ok, hB]
  · unfold phi
    rw [if_neg hd, hU]
    simp only [Outcome.bind_ok, hB]
  · unfold localCoefficientVectorIndices bidxOf
    rw [hT]
    simp only [Outcome.bind_ok]
    rw [if_neg (by omega)]
    rfl
  · exact localCoefficientVector_of_lookup hT h1 h2
  · intro d
    simp only [entry]
    rw [identityBlocks_mul]
    unfold blockMul
    refine sum_congr rfl fun c hc => ?_
    rw [stack_getD _ _ _ (mem_range.1 hc), Nat.add_comm c, mul_comm]

/-- **C07**: the Jacobian query succeeds exactly when the plain query does, with the same value. -/
theorem C07_jacobian_defined (s : BSpline K D) (t : K) (der : ℤ) :
    (s.evalDAndJacobian t der).map (fun r => r.value) = s.evalD t der := by
  unfold evalDAndJacobian evalD evalDNat
  split_ifs with hd
  · rfl
  cases s.computeUAndTIndex t with
  | ok a =>
    obtain ⟨u, i⟩ := a
    simp only [Outcome.bind_ok]
    cases s.blockAt i with
    | ok b => rfl
    | throws => rfl
    | ub => rfl
  | throws => rfl
  | ub => rfl

/-- **C07**: the Jacobian is the exact derivative with respect to the coefficients, column by column:
adding any `δ` to the stacked coefficient vector of the whole spline changes the queried value by
the sum over the Jacobian columns `q` of column `q` times the entry of `δ` at the `q`-th
reported index. -/
theorem C07_jacobian_is_derivative (s s' : BSpline K D) (t : K) (der : ℤ) (r : ValJac K D)
    (h : s.evalDAndJacobian t der = .ok r) (δ : List K)
    (hδ : δ.length = s.coefficientVector.length)
    (hs' : s.setCoefficientVector (addVec s.coefficientVector δ) = .ok s') :
    s'.evalD t der = .ok (fun d => r.value d
      + ∑ q ∈ range (s.order * D), r.jacobian d q * entry δ (r.indices.getD q 0)) := by
  obtain ⟨x, u, i, B, hd, hT, hU, h1, hb, h2, hB, rfl⟩ := evalDAndJacobian_inv h
  unfold setCoefficientVector at hs'
  split_ifs at hs' with hlen
  have hs' := (Outcome.ok.inj hs').symm
  subst hs'
  have hcolv : s.coefficientVector.length = s.coeffs.length * D := by simp [coefficientVector]
  -- the new columns
  have hcol : ∀ j, j < s.coeffs.length → ∀ d : Fin D,
      (writeCols s.coeffs 0 (addVec s.coefficientVector δ) s.coeffs.length).getD j 0 d
        = s.col j d + entry δ (j * D + d) := by
    intro j hj d
    rw [writeCols_getD _ _ _ _ _ hj, if_pos (by omega)]
    simp only [segmentOf, Nat.sub_zero, entry]
    have hlt : j * D + d < s.coeffs.length * D := by
      calc j * D + d < j * D + D := by omega
        _ = (j + 1) * D := by ring
        _ ≤ s.coeffs.length * D := Nat.mul_le_mul_right _ hj
    have e1 : s.coefficientVector.getD (j * D + d) 0 = s.col j d :=
      stack_getD _ _ _ hj d
    unfold addVec
    rw [← e1]
    have l1 : j * D + d < s.coefficientVector.length := by rw [hcolv]; exact hlt
    have l2 : j * D + d < δ.length := by rw [hδ]; exact l1
    simp [List.getD_eq_getElem?_getD, l1, l2]
  unfold evalD evalDNat
  rw [if_neg hd]
  have hU2 : (BSpline.mk (K := K) s.order s.knots (writeCols s.coeffs 0 (addVec s.coefficientVector δ) s.coeffs.length) s.basis).computeUAndTIndex t = .ok (u, i) := hU
  have hB2 : (BSpline.mk (K := K) s.order s.knots (writeCols s.coeffs 0 (addVec s.coefficientVector δ) s.coeffs.length) s.basis).blockAt i = .ok (i + 1 - s.order, B) := by
    unfold blockAt
    rw [if_neg (show ¬ i + 1 < s.order by omega)]
    simp only [hb, writeCols_length]
    rw [if_pos h2]
  rw [hU2]
  simp only [Outcome.bind_ok, hB2]
  congr 1
  funext d
  rw [identityBlocks_mul]
  unfold blockMul
  rw [← sum_add_distrib]
  refine sum_congr rfl fun c hc => ?_
  have hc' := mem_range.1 hc
  have hidx : (linSpacedIdx (s.order * D) ((i + 1 - s.order) * D)).getD (c * D + d) 0
      = (i + 1 - s.order + c) * D + d := by
    unfold linSpacedIdx
    have : c * D + d < s.order * D := by
      calc c * D + d < c * D + D := by omega
        _ = (c + 1) * D := by ring
        _ ≤ s.order * D := Nat.mul_le_mul_right _ hc'
    rw [List.getD_eq_getElem?_getD, List.getElem?_map, List.getElem?_range this]
    simp only [Option.map_some, Option.getD_some]
    ring
  rw [hidx]
  have := hcol (i + 1 - s.order + c) (by omega) d
  unfold col
  rw [this]
  unfold col
  change (_ + _) * transposeMul s.order B (computeU s.kn s.order u i der.toNat) c = _
  ring

example : (exSpline.evalDAndJacobian (9/2) 1).map (fun r => (r.value, r.indices))
      = .ok (![2/3, -4/3], [4, 5, 6, 7, 8, 9]) ∧
    exSpline.coefficientVector.length = 10 := by decide +kernel

/-! ## C10 -/

/-- **C10**: a stacked vector of the right size can be written and is read back unchanged; writing back
what was read changes nothing; a wrong size is rejected. -/
theorem C10_vector_round_trip (s : BSpline K D) (c : List K) :
    (c.length = s.coefficientVector.length →
      ∃ s', s.setCoefficientVector c = .ok s' ∧ s'.coefficientVector = c) ∧
    (s.setCoefficientVector s.coefficientVector = .ok s) ∧
    (c.length ≠ s.coefficientVector.length → s.setCoefficientVector c = .throws) := by
  have hl : s.coefficientVector.length = s.coeffs.length * D := by simp [coefficientVector]
  refine ⟨?_, ?_, ?_⟩
  · intro hc
    rw [hl] at hc
    refine ⟨{ s with coeffs := writeCols s.coeffs 0 c s.coeffs.length }, ?_, ?_⟩
    · unfold setCoefficientVector; rw [if_pos (by rw [hc, Nat.mul_comm])]
    · unfold coefficientVector
      simp only [writeCols_length]
      rw [← stack_segmentOf (D := D) s.coeffs.length c hc]
      apply getD_ext (by simp)
      intro q hq
      rw [stack_segmentOf (D := D) s.coeffs.length c hc]
      simp only [stack_length] at hq
      have hD : 0 < D := by
        rcases Nat.eq_zero_or_pos D with h | h
        · subst h; simp at hq
        · exact h
      have hlt : q % D < D := Nat.mod_lt _ hD
      have hq' : q / D < s.coeffs.length :=
        Nat.div_lt_of_lt_mul (by rw [Nat.mul_comm]; exact hq)
      have := stack_getD s.coeffs.length (fun i => (BSpline.mk (K := K) s.order s.knots (writeCols s.coeffs 0 c s.coeffs.length) s.basis).col i) (q / D) hq' ⟨q % D, hlt⟩
      simp only at this
      rw [Nat.mul_comm, Nat.div_add_mod] at this
      rw [this]
      unfold col
      simp only []
      rw [writeCols_getD _ _ _ _ _ hq', if_pos ⟨Nat.zero_le _, by rw [Nat.zero_add]; exact hq'⟩]
      simp only [segmentOf, Nat.sub_zero]
      rw [Nat.mul_comm, Nat.div_add_mod]
  · unfold setCoefficientVector
    rw [if_pos (by rw [hl, Nat.mul_comm])]
    congr 1
    have : writeCols s.coeffs 0 s.coefficientVector s.coeffs.length = s.coeffs := by
      apply List.ext_getElem (by simp)
      intro j h1 h2
      have := writeCols_getD s.coeffs 0 s.coefficientVector s.coeffs.length j h2
      rw [if_pos (by omega)] at this
      unfold coefficientVector at this
      rw [Nat.sub_zero, segmentOf_stack _ _ _ h2] at this
      simpa [List.getD_eq_getElem?_getD, h2, col, coefficientVector] using this
    rw [this]
  · intro hc
    unfold setCoefficientVector
    rw [if_neg (by rw [hl] at hc; rw [Nat.mul_comm]; exact hc)]

/-- **C10**: the views describe the same coefficients: entry `i*D + d` of the stacked vector is
component `d` of vector-valued coefficient `i`, which is column `i` of the matrix. -/
theorem C10_views_agree (s : BSpline K D) (i : ℕ) (hi : i < s.coeffs.length) (d : Fin D) :
    s.vvCoefficientVector i = .ok (s.coeffs[i]) ∧
      s.coefficientVector.length = s.coeffs.length * D ∧
      entry s.coefficientVector (i * D + d) = s.coeffs[i] d := by
  refine ⟨?_, by simp [coefficientVector], ?_⟩
  · unfold vvCoefficientVector
    rw [if_neg (by push Not; constructor <;> omega)]
    simp [col, List.getD_eq_getElem?_getD, hi]
  · unfold entry coefficientVector
    rw [stack_getD _ _ _ hi]
    simp [col, List.getD_eq_getElem?_getD, hi]

/-- **C10**: a local write is read back at the same time, changes exactly the coefficients reported for
that time, and a vector of the wrong size is rejected. -/
theorem C10_local_write (s : BSpline K D) (t : K) (c : List K) :
    (c.length ≠ s.order * D → s.setLocalCoefficientVector t c = .throws) ∧
    (∀ s', s.setLocalCoefficientVector t c = .ok s' →
      s'.localCoefficientVector t = .ok c ∧
      s'.order = s.order ∧ s'.knots = s.knots ∧ s'.basis = s.basis ∧
      s'.coeffs.length = s.coeffs.length ∧
      ∃ idx, s.localVvCoefficientVectorIndices t = .ok idx ∧
        ∀ j, j < s.coeffs.length → j ∉ idx → s'.vvCoefficientVector j = s.vvCoefficientVector j) := by
  constructor
  · intro hc; unfold setLocalCoefficientVector; rw [if_neg hc]
  · intro s' h
    unfold setLocalCoefficientVector at h
    split_ifs at h with hc
    obtain ⟨⟨x, i⟩, hT, h⟩ := Outcome.bind_eq_ok.1 h
    obtain ⟨b, hb, h⟩ := Outcome.bind_eq_ok.1 h
    try simp only [] at hb h
    split_ifs at h with h2
    have h := (Outcome.ok.inj h).symm
    subst h
    have hb' := hb
    unfold bidxOf at hb'
    split_ifs at hb' with h1
    have hb' := (Outcome.ok.inj hb').symm
    subst hb'
    refine ⟨?_, rfl, rfl, rfl, by simp, ?_⟩
    · have := localCoefficientVector_of_lookup (s := (BSpline.mk (K := K) s.order s.knots (writeCols s.coeffs (i + 1 - s.order) c s.order) s.basis)) (t := t) (x := x) (i := i)
        hT (by simp only []; omega) (by simp only [writeCols_length]; exact h2)
      rw [this]
      congr 1
      simp only []
      rw [← stack_segmentOf (D := D) s.order c hc]
      apply getD_ext (by simp)
      intro q hq
      rw [stack_segmentOf (D := D) s.order c hc]
      simp only [stack_length] at hq
      have hD : 0 < D := by
        rcases Nat.eq_zero_or_pos D with h | h
        · subst h; simp at hq
        · exact h
      have hlt : q % D < D := Nat.mod_lt _ hD
      have hq' : q / D < s.order :=
        Nat.div_lt_of_lt_mul (by rw [Nat.mul_comm]; exact hq)
      have := stack_getD s.order (fun j => (BSpline.mk (K := K) s.order s.knots (writeCols s.coeffs (i + 1 - s.order) c s.order) s.basis).col
          (j + (i + 1 - s.order))) (q / D) hq' ⟨q % D, hlt⟩
      simp only at this
      rw [Nat.mul_comm, Nat.div_add_mod] at this
      rw [this]
      unfold col
      simp only []
      rw [writeCols_getD _ _ _ _ _ (by omega), if_pos ⟨Nat.le_add_left _ _, by rw [Nat.add_comm]; exact Nat.add_lt_add_left hq' _⟩]
      simp only [segmentOf, Nat.add_sub_cancel]
      rw [Nat.mul_comm, Nat.div_add_mod]
    · refine ⟨linSpacedIdx s.order (i + 1 - s.order), ?_, ?_⟩
      · unfold localVvCoefficientVectorIndices
        rw [hT]
        simp only [Outcome.bind_ok, hb]
      · intro j hj hnot
        unfold vvCoefficientVector
        simp only [writeCols_length]
        rw [if_neg (by push Not; constructor <;> omega),
          if_neg (by push Not; constructor <;> omega)]
        congr 1
        unfold col
        simp only [Int.toNat_natCast]
        rw [writeCols_getD _ _ _ _ _ hj, if_neg]
        rintro ⟨h3, h4⟩
        apply hnot
        exact List.mem_map.2 ⟨j - (i + 1 - s.order), List.mem_range.2 (by omega), by omega⟩

/-- The ways of writing coefficients. -/
inductive Write (K : Type*) (D : ℕ) where
  | vector (c : List K)
  | matrix (cs : List (Fin D → K))
  | localVec (t : K) (c : List K)
  | vv (i : ℤ) (v : Fin D → K)

/-- Perform one write with the modelled API. -/
def Write.run (s : BSpline K D) : Write K D → Outcome (BSpline K D)
  | .vector c => s.setCoefficientVector c
  | .matrix cs => s.setCoefficientMatrix cs
  | .localVec t c => s.setLocalCoefficientVector t c
  | .vv i v => s.setVvCoefficientVector i v

/-- Specification of a write: the new value of coefficient `j`, if the write touches it. `reported t`
are the coefficient indices reported for time `t`. -/
def Write.effect (reported : K → List ℕ) (j : ℕ) : Write K D → Option (Fin D → K)
  | .vector c => some (fun d => entry c (j * D + d))
  | .matrix cs => cs[j]?
  | .localVec t c =>
      if j ∈ reported t then some (fun d => entry c (((reported t).idxOf j) * D + d)) else none
  | .vv i v => if i = (j : ℤ) then some v else none

theorem linSpacedIdx_mem (n lo j : ℕ) : j ∈ linSpacedIdx n lo ↔ lo ≤ j ∧ j < lo + n := by
  unfold linSpacedIdx
  simp only [List.mem_map, List.mem_range]
  constructor
  · rintro ⟨a, h, rfl⟩; omega
  · rintro ⟨h1, h2⟩; exact ⟨j - lo, by omega, by omega⟩

theorem linSpacedIdx_idxOf (n lo j : ℕ) (h1 : lo ≤ j) (h2 : j < lo + n) :
    (linSpacedIdx n lo).idxOf j = j - lo := by
  have hnd : (linSpacedIdx n lo).Nodup := by
    unfold linSpacedIdx
    exact List.Nodup.map (fun a b h => by omega) List.nodup_range
  have hlt : j - lo < (linSpacedIdx n lo).length := by unfold linSpacedIdx; simp; omega
  have hget : (linSpacedIdx n lo)[j - lo] = j := by
    simp [linSpacedIdx]; omega
  have := List.Nodup.idxOf_getElem hnd (j - lo) hlt
  rw [hget] at this
  exact this

/-- One successful write changes each coefficient as specified and nothing else. -/
theorem write_one (s s' : BSpline K D) (w : Write K D) (h : w.run s = .ok s') :
    s'.order = s.order ∧ s'.knots = s.knots ∧ s'.basis = s.basis ∧
      s'.coeffs.length = s.coeffs.length ∧
      ∀ j, j < s.coeffs.length → s'.col j
        = (w.effect (fun t => (s.localVvCoefficientVectorIndices t).getD []) j).getD (s.col j) := by
  cases w with
  | vector c =>
    simp only [Write.run, setCoefficientVector] at h
    split_ifs at h with hc
    have h := (Outcome.ok.inj h).symm
    subst h
    refine ⟨rfl, rfl, rfl, by simp, ?_⟩
    intro j hj
    unfold col
    simp only [Write.effect, Option.getD_some]
    rw [writeCols_getD _ _ _ _ _ hj, if_pos (by omega)]
    rfl
  | matrix cs =>
    simp only [Write.run, setCoefficientMatrix] at h
    split_ifs at h with hc
    have h := (Outcome.ok.inj h).symm
    subst h
    refine ⟨rfl, rfl, rfl, hc.symm, ?_⟩
    intro j hj
    have : j < cs.length := by omega
    simp [col, Write.effect, this]
  | localVec t c =>
    have h0 := h
    simp only [Write.run, setLocalCoefficientVector] at h
    split_ifs at h with hc
    obtain ⟨⟨x, i⟩, hT, h⟩ := Outcome.bind_eq_ok.1 h
    obtain ⟨b, hb, h⟩ := Outcome.bind_eq_ok.1 h
    try simp only [] at hb h
    split_ifs at h with h2
    have h := (Outcome.ok.inj h).symm
    subst h
    refine ⟨rfl, rfl, rfl, by simp, ?_⟩
    intro j hj
    have hidx : s.localVvCoefficientVectorIndices t = .ok (linSpacedIdx s.order b) := by
      unfold localVvCoefficientVectorIndices
      rw [hT]
      simp only [Outcome.bind_ok, hb]
    simp only [Write.effect, hidx, Outcome.getD_ok]
    unfold col
    simp only []
    rw [writeCols_getD _ _ _ _ _ hj]
    by_cases hm : b ≤ j ∧ j < b + s.order
    · rw [if_pos hm, if_pos ((linSpacedIdx_mem _ _ _).2 hm), linSpacedIdx_idxOf _ _ _ hm.1 hm.2]
      rfl
    · rw [if_neg hm, if_neg (fun h => hm ((linSpacedIdx_mem _ _ _).1 h))]
      rfl
  | vv i v =>
    simp only [Write.run, setVvCoefficientVector] at h
    split_ifs at h with hc
    have h := (Outcome.ok.inj h).symm
    subst h
    refine ⟨rfl, rfl, rfl, by simp, ?_⟩
    intro j hj
    push Not at hc
    unfold col
    simp only [Write.effect]
    rw [List.getD_eq_getElem?_getD, List.getElem?_set]
    by_cases hij : i = (j : ℤ)
    · subst hij
      simp [hj]
    · rw [if_neg hij, if_neg (by omega)]
      simp [List.getD_eq_getElem?_getD]

/-- Perform a list of writes. -/
def runWrites : BSpline K D → List (Write K D) → Outcome (BSpline K D)
  | s, [] => .ok s
  | s, w :: ws => (w.run s).bind fun s' => runWrites s' ws

/-- **C10**, any history: after any sequence of successful writes each coefficient has the value given by
the last write that touched it (or its initial value), and knots, order, cached basis and number
of coefficients are unchanged. -/
theorem C10_write_sequences (ws : List (Write K D)) (s s' : BSpline K D)
    (h : runWrites s ws = .ok s') :
    s'.order = s.order ∧ s'.knots = s.knots ∧ s'.basis = s.basis ∧
      s'.coeffs.length = s.coeffs.length ∧
      ∀ j, j < s.coeffs.length → s'.vvCoefficientVector j = .ok
        (ws.foldl (fun v w =>
          (w.effect (fun t => (s.localVvCoefficientVectorIndices t).getD []) j).getD v) (s.col j)) := by
  induction ws generalizing s with
  | nil =>
    have h := (Outcome.ok.inj h).symm
    subst h
    refine ⟨rfl, rfl, rfl, rfl, ?_⟩
    intro j hj
    unfold vvCoefficientVector
    rw [if_neg (by push Not; constructor <;> omega)]
    rfl
  | cons w ws ih =>
    obtain ⟨s₁, h1, h2⟩ := Outcome.bind_eq_ok.1 h
    obtain ⟨a1, a2, a3, a4, a5⟩ := write_one s s₁ w h1
    obtain ⟨b1, b2, b3, b4, b5⟩ := ih s₁ h2
    refine ⟨by rw [b1, a1], by rw [b2, a2], by rw [b3, a3], by rw [b4, a4], ?_⟩
    intro j hj
    rw [b5 j (by rw [a4]; exact hj), a5 j hj]
    have : ∀ t, s₁.localVvCoefficientVectorIndices t = s.localVvCoefficientVectorIndices t := by
      intro t
      have hkn : s₁.kn = s.kn := by funext i; simp [kn, a2]
      simp [localVvCoefficientVectorIndices, computeTIndex, tMin, tMax, bidxOf, a1, a2, hkn]
    simp only [this, List.foldl_cons]

example : ∃ s', runWrites exSpline [.localVec 1 [1, 2, 3, 4, 5, 6], .vv 1 ![7, 8]] = .ok s' ∧
    s'.coefficientVector = [1, 2, 7, 8, 5, 6, 4, 4, 0, 1] := by
  refine ⟨{ exSpline with coeffs := [![1, 2], ![7, 8], ![5, 6], ![4, 4], ![0, 1]] }, ?_, ?_⟩
  · have h1 : exSpline.computeTIndex 1 = .ok (1, 2) := by decide +kernel
    have h2 : ([![1, 2], ![7, 8], ![5, 6], ![4, 4], ![0, 1]] : List (Fin 2 → ℚ))
        = (writeCols exSpline.coeffs 0 [1, 2, 3, 4, 5, 6] 3).set 1 ![7, 8] := by decide +kernel
    rw [h2]
    simp only [runWrites, Write.run, setLocalCoefficientVector]
    rw [if_pos (by decide), h1]
    rfl
  · decide +kernel

end Verif
