import Verif.Model.EvaluatorBuffers
import Verif.Lemmas.Quaternion

/-!
# The evaluator's buffers hold the weights
-/

set_option linter.unusedSectionVars false

namespace Verif.MSpline

open Finset Quaternion BufM

variable {K : Type} [Field K] [LinearOrder K] {P V : Type}

/-! ### Writing vectors -/

theorem uZero_eq (k : ℕ) : ∀ (n i : ℕ) (u : ℕ → K), i + n ≤ k →
    ∃ u', uZero k n i u = .ok u' ∧ ∀ j, u' j = if i ≤ j ∧ j < i + n then 0 else u j
  | 0, i, u, _ => ⟨u, rfl, fun j => by rw [if_neg (by omega)]⟩
  | n + 1, i, u, h => by
    obtain ⟨u', e, hu⟩ := uZero_eq k n (i + 1) (Function.update u i 0) (by omega)
    refine ⟨u', ?_, fun j => ?_⟩
    · unfold uZero vset
      rw [if_pos (by omega), Outcome.bind_ok, e]
    · rw [hu j]
      by_cases hj : j = i
      · subst hj
        rw [if_neg (by omega), if_pos (by omega), Function.update_self]
      · rw [Function.update_of_ne hj]
        by_cases h1 : i + 1 ≤ j ∧ j < i + 1 + n
        · rw [if_pos h1, if_pos (by omega)]
        · rw [if_neg h1, if_neg (by omega)]

theorem uPowers_eq (k der : ℕ) (m rel : K) : ∀ (n i : ℕ) (uu : K) (u : ℕ → K), i + n ≤ k →
    ∃ u', uPowers k der m rel n i uu u = .ok u' ∧
      ∀ j, u' j = if i ≤ j ∧ j < i + n then m * (uu * rel ^ (j - i)) * (dmul j der : K) else u j
  | 0, i, uu, u, _ => ⟨u, rfl, fun j => by rw [if_neg (by omega)]⟩
  | n + 1, i, uu, u, h => by
    obtain ⟨u', e, hu⟩ := uPowers_eq k der m rel n (i + 1) (uu * rel) (Function.update u i (m * uu * (dmul i der : K))) (by omega)
    refine ⟨u', ?_, fun j => ?_⟩
    · unfold uPowers vset
      rw [if_pos (by omega), Outcome.bind_ok, e]
    · rw [hu j]
      by_cases hj : j = i
      · subst hj
        rw [if_neg (by omega), if_pos (by omega), Function.update_self, Nat.sub_self, pow_zero, mul_one]
      · rw [Function.update_of_ne hj]
        by_cases h1 : i + 1 ≤ j ∧ j < i + 1 + n
        · rw [if_pos h1, if_pos (by omega), show j - i = (j - (i + 1)) + 1 by omega, pow_succ']
          ring
        · rw [if_neg h1, if_neg (by omega)]

theorem computeUInto_eq (k : ℕ) (len rel : K) (der : ℕ) (hd : der ≤ k) (u : ℕ → K) :
    ∃ u', computeUInto k len rel der u = .ok u' ∧ ∀ j, j < k → u' j = evalU k len rel der j := by
  unfold computeUInto
  by_cases hl : 0 < len
  · obtain ⟨u1, e1, h1⟩ := uZero_eq k der 0 u (by omega)
    obtain ⟨u2, e2, h2⟩ := uPowers_eq k der (1 / len ^ der) rel (k - der) der 1 u1 (by omega)
    refine ⟨u2, by rw [if_pos hl, e1, Outcome.bind_ok, e2], fun j hj => ?_⟩
    unfold evalU
    rw [if_pos hl, h2 j, h1 j]
    by_cases hjd : der ≤ j
    · rw [if_pos ⟨hjd, by omega⟩, if_pos ⟨hjd, hj⟩, one_mul]
    · rw [if_neg (by omega), if_pos (by omega), if_neg (by omega)]
  · refine ⟨_, if_neg hl, fun j _ => ?_⟩
    unfold evalU
    rw [if_neg hl]

theorem multiplyInto_eq (k : ℕ) (A : Mat K) (b : ℕ → K) : ∀ (n : ℕ) (r : ℕ → K), n ≤ k →
    ∃ r', multiplyInto k A b n r = .ok r' ∧ ∀ j, r' j = if j < n then ∑ i ∈ range k, b i * A i j else r j
  | 0, r, _ => ⟨r, rfl, fun j => by rw [if_neg (by omega)]⟩
  | n + 1, r, h => by
    obtain ⟨r', e, hr⟩ := multiplyInto_eq k A b n (Function.update r n (∑ i ∈ range k, b i * A i n)) (by omega)
    refine ⟨r', ?_, fun j => ?_⟩
    · unfold multiplyInto vset
      rw [if_pos (by omega), Outcome.bind_ok, e]
    · rw [hr j]
      by_cases hj : j = n
      · subst hj
        rw [if_neg (by omega), if_pos (by omega), Function.update_self]
      · rw [Function.update_of_ne hj]
        by_cases h1 : j < n
        · rw [if_pos h1, if_pos (by omega)]
        · rw [if_neg h1, if_neg (by omega)]

theorem sumLoop_eq (k : ℕ) (b : ℕ → K) : ∀ (n j : ℕ) (sum : K), n ≤ j → j < k →
    sumLoop k b n j sum = .ok (sum + ∑ l ∈ Ico (j + 1 - n) (j + 1), b l)
  | 0, j, sum, _, _ => by simp [sumLoop]
  | n + 1, j, sum, h1, h2 => by
    unfold sumLoop vget
    rw [if_pos h2, Outcome.bind_ok, sumLoop_eq k b n (j - 1) _ (by omega) (by omega), show j - 1 + 1 - n = j + 1 - (n + 1) by omega,
      show j - 1 + 1 = j by omega, sum_Ico_succ_top (by omega)]
    exact congrArg Outcome.ok (by ring)

theorem cumulativeLoop_eq (k : ℕ) (bi : Option (ℕ → K)) (b0 : ℕ → K) : ∀ (n i : ℕ) (ret : ℕ → K), 1 ≤ i → i + n = k →
    (∀ j, i ≤ j → j < k → (bi.getD ret) j = b0 j) →
    ∃ r, cumulativeLoop k bi n i ret = .ok r ∧ ∀ j, r j = if i ≤ j ∧ j < k then b0 j + ∑ l ∈ Ico (j + 1) k, b0 l else ret j
  | 0, i, ret, _, h2, _ => ⟨ret, rfl, fun j => by rw [if_neg (by omega)]⟩
  | n + 1, i, ret, h1, h2, hb => by
    have hsum : sumLoop k (bi.getD ret) (k - 1 - i) (k - 1) 0 = .ok (∑ l ∈ Ico (i + 1) k, b0 l) := by
      rw [sumLoop_eq k _ _ _ _ (by omega) (by omega), zero_add, show k - 1 + 1 - (k - 1 - i) = i + 1 by omega, show k - 1 + 1 = k by omega]
      refine congrArg Outcome.ok (sum_congr rfl fun l hl => hb l ?_ ?_) <;> have := mem_Ico.1 hl <;> omega
    obtain ⟨r, e, hr⟩ := cumulativeLoop_eq k bi b0 n (i + 1) (Function.update ret i (b0 i + ∑ l ∈ Ico (i + 1) k, b0 l)) (by omega) (by omega)
      (fun j h3 h4 => by
        have := hb j (by omega) h4
        cases bi with
        | none =>
          simp only [Option.getD_none] at this ⊢
          rw [Function.update_of_ne (by omega), this]
        | some b => exact this)
    refine ⟨r, ?_, fun j => ?_⟩
    · unfold cumulativeLoop
      rw [hsum, Outcome.bind_ok]
      unfold vget vset
      rw [if_pos (by omega), Outcome.bind_ok, if_pos (by omega), Outcome.bind_ok, hb i le_rfl (by omega), e]
    · rw [hr j]
      by_cases hj : j = i
      · subst hj
        rw [if_neg (by omega), if_pos (by omega), Function.update_self]
      · rw [Function.update_of_ne hj]
        by_cases h3 : i + 1 ≤ j ∧ j < k
        · rw [if_pos h3, if_pos (by omega)]
        · rw [if_neg h3, if_neg (by omega)]

/-- The sums are right in place and out of place. -/
theorem cumulativeInto_eq (k : ℕ) (hk : 1 ≤ k) (bi : Option (ℕ → K)) (b0 : ℕ → K) (der : ℕ) (ret : ℕ → K)
    (hb : ∀ j, j < k → (bi.getD ret) j = b0 j) :
    ∃ r, cumulativeInto k bi der ret = .ok r ∧ ∀ j, j < k → r j = cumulativeOf k b0 der j := by
  obtain ⟨r, e, hr⟩ := cumulativeLoop_eq k bi b0 (k - 1) 1 (Function.update ret 0 (if der = 0 then 1 else 0)) le_rfl (by omega)
    (fun j h1 h2 => by
      have := hb j h2
      cases bi with
      | none =>
        simp only [Option.getD_none] at this ⊢
        rw [Function.update_of_ne (by omega), this]
      | some b => exact this)
  refine ⟨r, ?_, fun j hj => ?_⟩
  · unfold cumulativeInto vset
    rw [if_pos (by omega), Outcome.bind_ok, e]
  · rw [hr j]
    unfold cumulativeOf
    by_cases h0 : j = 0
    · subst h0
      rw [if_neg (by omega), if_pos rfl, Function.update_self]
    · rw [if_pos (by omega), if_neg h0]

/-- The weights as a value: those of the other models. -/
def weights (s : MSpline K P) (e : Evaluator K) (cum : Bool) (der : ℕ) : Outcome (ℕ → K) :=
  if cum then s.localCumulativeBi e der else s.localBi e der

theorem computeLocalBiIntoT_eq {s : MSpline K P} (hk : 1 ≤ s.order) {e : Evaluator K} {g : Seg K P} {B : Mat K}
    (hg : s.segAt e.ti = .ok g) (hB : g.basis = some B) (cum : Bool) (der : ℕ) (hd : der ≤ s.order) (u ret : ℕ → K) :
    ∃ r w, s.computeLocalBiIntoT cum e der u ret = .ok r ∧ s.weights e cum der = .ok w ∧ ∀ j, j < s.order → r j = w j := by
  obtain ⟨u', e1, h1⟩ := computeUInto_eq s.order e.len e.rel der hd u
  obtain ⟨r, e2, h2⟩ := multiplyInto_eq s.order B u' s.order ret le_rfl
  have hl : s.localBi e der = .ok (BSpline.transposeMul s.order B (evalU s.order e.len e.rel der)) := by
    unfold localBi
    rw [hg, Outcome.bind_ok, hB]
  have hr : ∀ j, j < s.order → r j = BSpline.transposeMul s.order B (evalU s.order e.len e.rel der) j := by
    intro j hj
    rw [h2, if_pos hj]
    unfold BSpline.transposeMul
    refine sum_congr rfl fun i hi => ?_
    rw [h1 i (mem_range.1 hi), mul_comm]
  have hc : s.computeLocalBiInto e der u ret = .ok r := by
    unfold computeLocalBiInto
    rw [e1, Outcome.bind_ok, hg, Outcome.bind_ok, hB]
    exact e2
  unfold computeLocalBiIntoT weights
  rw [hc, Outcome.bind_ok]
  cases cum with
  | false => exact ⟨r, _, rfl, hl, hr⟩
  | true =>
    obtain ⟨r', e3, h3⟩ := cumulativeInto_eq s.order hk none _ der r hr
    refine ⟨r', _, e3, ?_, h3⟩
    show s.localCumulativeBi e der = _
    unfold localCumulativeBi
    rw [hl, Outcome.map_ok]

theorem weights_high {s : MSpline K P} {e : Evaluator K} {g : Seg K P} {B : Mat K}
    (hg : s.segAt e.ti = .ok g) (hB : g.basis = some B) (hk : 1 ≤ s.order) (cum : Bool) (der : ℕ) (hd : s.order ≤ der) :
    ∃ w, s.weights e cum der = .ok w ∧ ∀ j, w j = 0 := by
  have hl : s.localBi e der = .ok (BSpline.transposeMul s.order B (evalU s.order e.len e.rel der)) := by
    unfold localBi
    rw [hg, Outcome.bind_ok, hB]
  have hz : ∀ j, BSpline.transposeMul s.order B (evalU s.order e.len e.rel der) j = 0 := by
    intro j
    unfold BSpline.transposeMul
    refine sum_eq_zero fun i hi => ?_
    have := mem_range.1 hi
    unfold evalU
    rw [if_neg (show ¬ (der ≤ i ∧ i < s.order) by omega)]
    simp
  unfold weights
  cases cum with
  | false => exact ⟨_, hl, hz⟩
  | true =>
    refine ⟨_, by rw [if_pos rfl]; unfold localCumulativeBi; rw [hl, Outcome.map_ok], fun j => ?_⟩
    unfold cumulativeOf
    rw [if_neg (show ¬ der = 0 by omega), hz, sum_eq_zero (fun l _ => hz l)]
    simp

/-! ### The invariant -/

/-- The template arguments fit the spline: the order is the actual one or dynamic. -/
structure Template.Fits (c : Template) (order : ℕ) : Prop where
  order_eq : c.order = order ∨ c.order = -1
  maxDer_ge : -1 ≤ c.maxDer

theorem Template.Fits.le {c : Template} {order : ℕ} (h : c.Fits order) : c.numPrepared ≤ order + 1 := by
  unfold Template.numPrepared
  rcases h.order_eq with e | e <;> split <;> omega

theorem Template.Fits.nonneg {c : Template} {order : ℕ} (h : c.Fits order) : 0 ≤ c.numPrepared := by
  have := h.maxDer_ge
  unfold Template.numPrepared
  rcases h.order_eq with e | e <;> split <;> omega

/-- The prepared vectors hold the weights. -/
def BufInv (c : Template) (s : MSpline K P) (e : Evaluator K) (b : Buffers K) : Prop :=
  b.prepared.length = c.numPrepared.toNat ∧ ∀ d v, b.prepared[d]? = some v → ∃ w, s.weights e c.cumulative d = .ok w ∧
    ∀ j, j < s.order → v j = w j

theorem prepare_eq {s : MSpline K P} (hk : 1 ≤ s.order) {e : Evaluator K} {g : Seg K P} {B : Mat K}
    (hg : s.segAt e.ti = .ok g) (hB : g.basis = some B) (cum : Bool) (fresh : ℕ → ℕ → K) : ∀ n, n ≤ s.order + 1 →
    ∃ l, s.prepare cum e fresh n = .ok l ∧ l.length = n ∧ ∀ d v, l[d]? = some v → ∃ w, s.weights e cum d = .ok w ∧
      ∀ j, j < s.order → v j = w j
  | 0, _ => ⟨[], rfl, rfl, fun d v h => by simp at h⟩
  | n + 1, hn => by
    obtain ⟨l, h1, h2, h3⟩ := prepare_eq hk hg hB cum fresh n (by omega)
    obtain ⟨r, w, e1, e2, e3⟩ := computeLocalBiIntoT_eq hk hg hB cum n (by omega) (fresh (2 * n)) (fresh (2 * n + 1))
    refine ⟨l ++ [r], ?_, by simp [h2], fun d v hv => ?_⟩
    · unfold prepare
      rw [h1, Outcome.bind_ok, e1, Outcome.map_ok]
    · rcases lt_or_ge d n with hd | hd
      · rw [List.getElem?_append_left (by omega)] at hv
        exact h3 d v hv
      · rw [List.getElem?_append_right (by omega)] at hv
        have h0 : d - l.length = 0 := by
          by_contra hc
          rw [List.getElem?_eq_none (by simp; omega)] at hv
          cases hv
        rw [h0] at hv
        obtain rfl : r = v := by simpa using hv
        obtain rfl : d = n := by omega
        exact ⟨w, e2, e3⟩

/-! ### Refinement -/

/-- The program `m` on the buffers gives the outcome `o`, from every state, and keeps the invariant. -/
def Refines {α : Type} (I : Buffers K → Prop) (m : BufM K α) (o : Outcome α) : Prop := ∀ b, I b → (m b).1 = o ∧ I (m b).2

variable {α β : Type} {I : Buffers K → Prop}

theorem Refines.lift (o : Outcome α) : Refines I (BufM.lift o) o := fun _ h => ⟨rfl, h⟩

theorem Refines.bind {m : BufM K α} {o : Outcome α} {f : α → BufM K β} {g : α → Outcome β} (h : Refines I m o)
    (hf : ∀ a, o = .ok a → Refines I (f a) (g a)) : Refines I (m.bind f) (o.bind g) := by
  intro b hb
  obtain ⟨h1, h2⟩ := h b hb
  unfold BufM.bind
  rcases hm : m b with ⟨r, b'⟩
  rw [hm] at h1 h2
  simp only at h1 h2
  subst h1
  cases r with
  | ok a => exact hf a rfl b' h2
  | throws => exact ⟨rfl, h2⟩
  | ub => exact ⟨rfl, h2⟩

theorem Refines.map {m : BufM K α} {o : Outcome α} (f : α → β) (h : Refines I m o) : Refines I (m.map f) (o.map f) := by
  have : o.map f = o.bind fun a => .ok (f a) := by cases o <;> rfl
  rw [this]
  exact h.bind fun a _ => Refines.lift _

theorem Refines.foldl {γ : Type} (F : γ → α → BufM K α) (G : γ → α → Outcome α) : ∀ (l : List γ) (m : BufM K α) (o : Outcome α),
    Refines I m o → (∀ d ∈ l, ∀ a, Refines I (F d a) (G d a)) →
    Refines I (l.foldl (fun acc d => acc.bind (F d)) m) (l.foldl (fun acc d => acc.bind (G d)) o)
  | [], m, o, h, _ => h
  | d :: l, m, o, h, hf => by
    rw [List.foldl_cons, List.foldl_cons]
    exact Refines.foldl F G l _ _ (h.bind fun a _ => hf d (by simp) a) fun d' hd' => hf d' (by simp [hd'])

/-- Everything the requests need. -/
structure Ready (c : Template) (s : MSpline K P) (e : Evaluator K) (g : Seg K P) (B : Mat K) : Prop where
  order_pos : 1 ≤ s.order
  seg : s.segAt e.ti = .ok g
  basis : g.basis = some B
  fits : c.Fits s.order

variable {c : Template} {s : MSpline K P} {e : Evaluator K} {g : Seg K P} {B : Mat K}

/-- A request hands out a reference to the right weights. -/
theorem request_eq (R : Ready c s e g B) (cum : Bool) (der : ℕ) (b : Buffers K) (hb : BufInv c s e b) :
    ∃ r v w, (s.request c e cum der b).1 = .ok r ∧ (s.request c e cum der b).2.deref r = .ok v ∧ s.weights e cum der = .ok w ∧
      (∀ j, j < s.order → v j = w j) ∧ BufInv c s e (s.request c e cum der b).2 ∧
      (s.request c e cum der b).2.prepared = b.prepared ∧
      (r = if c.cumulative = cum ∧ (der : ℤ) < c.numPrepared then .prepared der else .tmp) ∧
      (r ≠ .tmp → (s.request c e cum der b).2 = b) := by
  obtain ⟨hb1, hb2⟩ := hb
  unfold request
  by_cases hp : c.cumulative = cum ∧ (der : ℤ) < c.numPrepared
  · rw [if_pos hp, if_neg (by omega)]
    have hlt : der < b.prepared.length := by
      have := hp.2
      omega
    obtain ⟨w, hw1, hw2⟩ := hb2 der _ (List.getElem?_eq_getElem hlt)
    refine ⟨.prepared der, b.prepared[der], w, rfl, ?_, hp.1 ▸ hw1, hw2, ⟨hb1, hb2⟩, rfl, by rw [if_pos hp], fun _ => rfl⟩
    show (match b.prepared[der]? with | none => Outcome.ub | some v => .ok v) = _
    rw [List.getElem?_eq_getElem hlt]
  · rw [if_neg hp]
    by_cases hd : (s.order : ℤ) ≤ der
    · rw [if_pos hd]
      obtain ⟨w, hw, hz⟩ := weights_high R.seg R.basis R.order_pos cum der (by omega)
      exact ⟨.tmp, _, w, rfl, rfl, hw, fun j _ => (hz j).symm, ⟨hb1, hb2⟩, rfl, by rw [if_neg hp], fun h => absurd rfl h⟩
    · rw [if_neg hd, if_neg (by omega), Int.toNat_natCast]
      obtain ⟨r, w, e1, e2, e3⟩ := computeLocalBiIntoT_eq R.order_pos R.seg R.basis cum der (by omega) (b.fresh 0) b.tmp
      rw [e1]
      exact ⟨.tmp, r, w, rfl, rfl, e2, e3, ⟨hb1, hb2⟩, rfl, by rw [if_neg hp], fun h => absurd rfl h⟩

theorem weights_ok (R : Ready c s e g B) (cum : Bool) (der : ℕ) : ∃ w, s.weights e cum der = .ok w := by
  unfold weights localCumulativeBi localBi
  rw [R.seg, Outcome.bind_ok, R.basis]
  cases cum
  · exact ⟨_, rfl⟩
  · exact ⟨_, rfl⟩

theorem coeff_refines (R : Ready c s e g B) (cum : Bool) (der i : ℕ) (hi : i < s.order) :
    Refines (BufInv c s e) (s.coeff c e cum der i) ((s.weights e cum der).map fun w => w i) := by
  intro b hb
  obtain ⟨r, v, w, h1, h2, h3, h4, h5, -⟩ := request_eq R cum der b hb
  unfold coeff BufM.bind
  rcases hm : s.request c e cum der b with ⟨o, b'⟩
  rw [hm] at h1 h2 h5
  simp only at h1 h2 h5
  subst h1
  unfold readEntry
  refine ⟨?_, h5⟩
  simp only
  rw [h2, Outcome.bind_ok, vget, if_pos hi, h3, Outcome.map_ok, h4 i hi]

/-- A program that requests weights once and then reads them through the reference. -/
theorem request_bind (R : Ready c s e g B) (cum : Bool) (der : ℕ) (f : BufRef → BufM K α) (o : (ℕ → K) → Outcome α)
    (hf : ∀ (r : BufRef) (v w : ℕ → K) (b : Buffers K), b.deref r = .ok v → (∀ j, j < s.order → v j = w j) → f r b = (o w, b)) :
    Refines (BufInv c s e) ((s.request c e cum der).bind f) ((s.weights e cum der).bind o) := by
  intro b hb
  obtain ⟨r, v, w, h1, h2, h3, h4, h5, -⟩ := request_eq R cum der b hb
  unfold BufM.bind
  rcases hm : s.request c e cum der b with ⟨q, b'⟩
  rw [hm] at h1 h2 h5
  simp only at h1 h2 h5
  subst h1
  simp only
  rw [hf r v w b' h2 h4, h3]
  exact ⟨rfl, h5⟩

theorem readEntry_eq {k : ℕ} {r : BufRef} {b : Buffers K} {v w : ℕ → K} (h : b.deref r = .ok v) (hv : ∀ j, j < k → v j = w j) {i : ℕ} (hi : i < k) :
    readEntry k r i b = (.ok (w i), b) := by
  unfold readEntry
  rw [h, Outcome.bind_ok, vget, if_pos hi, hv i hi]

theorem readVertices_length (s : MSpline K P) : ∀ (n : ℕ) (it : Iter K) (vs : List P), s.readVertices n it = .ok vs → vs.length = n
  | 0, it, vs, h => by
    unfold readVertices at h
    cases h
    rfl
  | n + 1, it, vs, h => by
    unfold readVertices at h
    obtain ⟨g, -, h⟩ := Outcome.bind_eq_ok.1 h
    obtain ⟨it', -, h⟩ := Outcome.bind_eq_ok.1 h
    obtain ⟨ps, h1, h⟩ := Outcome.bind_eq_ok.1 h
    cases h
    rw [List.length_cons, readVertices_length s n it' ps h1]

end Verif.MSpline
