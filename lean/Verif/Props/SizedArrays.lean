import Verif.Model.SizedArrays
import Mathlib.Tactic.Linarith
import Mathlib.Tactic.NormNum
import Mathlib.Data.List.GetD
import Mathlib.Algebra.Group.Int.Units

/-!
# C72: sizes and arrays that are fixed at compile time or at run time
-/

namespace Verif
namespace Sized

set_option linter.unusedSectionVars false

/-! ## Integers -/

/-- **C72**, construction: a size can be constructed exactly if it is not the marker `Dynamic` and agrees with the template argument
unless that is `Dynamic`; it then has the given value. -/
theorem C72_construct (T v : ℤ) :
    (∀ x, DInt.construct T v = .ok x → x.getValue = v ∧ v ≠ -1) ∧
    ((∃ x, DInt.construct T v = .ok x) ↔ v ≠ -1 ∧ (T = -1 ∨ T = v)) ∧ DInt.construct T v ≠ .ub := by
  unfold DInt.construct DInt.getValue Dynamic
  by_cases hT : T = -1
  · simp only [hT, if_true]
    by_cases hv : v = -1
    · simp [hv]
    · simp only [if_neg hv]
      refine ⟨fun x hx => ?_, ?_, nofun⟩
      · obtain rfl := Outcome.ok.inj hx
        exact ⟨rfl, hv⟩
      · simp [hv]
  · simp only [if_neg hT]
    by_cases hv : v = T
    · subst hv
      simp [hT]
    · simp [hT, hv, Ne.symm hv]

/-- **C72**, product: the product of two sizes never throws; it is the product of the values if that is an `int`, and undefined
otherwise. -/
theorem C72_product {A B a b : ℤ} {x : DInt A} {y : DInt B} (hx : DInt.construct A a = .ok x) (hy : DInt.construct B b = .ok y) :
    (-2 ^ 31 ≤ a * b ∧ a * b < 2 ^ 31 → ∃ z, x.mul y = .ok z ∧ z.getValue = a * b) ∧
    (¬(-2 ^ 31 ≤ a * b ∧ a * b < 2 ^ 31) → x.mul y = .ub) := by
  have hI : (-2 ^ 31 ≤ a * b ∧ a * b < 2 ^ 31) ↔ IsInt (a * b) := by
    unfold IsInt
    omega
  rw [hI]
  obtain ⟨ha, ha1⟩ := (C72_construct A a).1 x hx
  obtain ⟨hb, hb1⟩ := (C72_construct B b).1 y hy
  have hA := ((C72_construct A a).2.1.1 ⟨x, hx⟩).2
  have hB := ((C72_construct B b).2.1.1 ⟨y, hy⟩).2
  have hm : multiplyEigenSize x.getValue y.getValue = if IsInt (a * b) then .ok (a * b) else .ub := by
    unfold multiplyEigenSize Dynamic
    rw [ha, hb, if_neg (by tauto)]
  unfold DInt.mul
  rw [hm]
  refine ⟨fun h => ?_, fun h => by rw [if_neg h]; rfl⟩
  rw [if_pos h, Outcome.bind_ok]
  have hab : a * b ≠ -1 := by
    intro h1
    have hd : a ∣ 1 := ⟨-b, by rw [mul_neg, h1, neg_neg]⟩
    rcases Int.isUnit_iff.1 (isUnit_of_dvd_one hd) with h2 | h2
    · rw [h2, one_mul] at h1
      exact hb1 h1
    · exact ha1 h2
  obtain ⟨z, hz⟩ := (C72_construct (sizeProduct A B) (a * b)).2.1.2 ⟨hab, by
    unfold sizeProduct Dynamic
    by_cases hd : A = -1 ∨ B = -1
    · left; rw [if_pos hd]
    · right
      rw [if_neg hd]
      push Not at hd
      rw [hA.resolve_left hd.1, hB.resolve_left hd.2]⟩
  exact ⟨z, hz, ((C72_construct _ _).1 z hz).1⟩

/-- Twice a spline order that is known at run time only. -/
example : ∃ (x : DInt Dynamic) (y : DInt 2) (z : _), DInt.construct Dynamic 4 = .ok x ∧ DInt.construct 2 2 = .ok y ∧
    x.mul y = .ok z ∧ z.getValue = 8 := ⟨⟨4⟩, ⟨0⟩, ⟨8⟩, rfl, rfl, rfl, rfl⟩

/-! ## Specification of the arrays -/

/-- Specification: an array is a value of its own: whether its size is fixed at compile time, its size, and its initialised
elements. -/
structure Value (α : Type*) where
  fixed : Bool
  size : ℕ
  val : ℤ → Option α

/-- Specification: what a program observes. -/
inductive View (α : Type*) where
  | done
  | got (v : α)
  | threw

variable {α : Type*}

/-- What remains of a reply if one only looks whether something was thrown. -/
def Reply.view : Reply α → View α
  | .done => .done
  | .got v => .got v
  | .threwPointer => .threw
  | .threwLength => .threw

/-- Specification: one operation on a program's arrays (`none`: destroyed).  A copy is a new value. -/
def specStep (s : List (Option (Value α))) : Op α → Outcome (List (Option (Value α)) × View α)
  | .create N size =>
    if (N = -1 ∧ 0 ≤ size) ∨ (N ≠ -1 ∧ size = N) then
      .ok (s ++ [some { fixed := decide (N ≠ -1), size := size.toNat, val := fun _ => none }], .done)
    else .ok (s, .threw)
  | .copy i =>
    match s[i]? with
    | some (some a) => .ok (s ++ [some a], .done)
    | _ => .ub
  | .write i k v =>
    match s[i]? with
    | some (some a) =>
      if 0 ≤ k ∧ k < a.size then .ok (s.set i (some { a with val := Function.update a.val k (some v) }), .done) else .ub
    | _ => .ub
  | .read i k =>
    match s[i]? with
    | some (some a) => match a.val k with
      | some v => .ok (s, .got v)
      | none => .ub
    | _ => .ub
  | .destroy i =>
    match s[i]? with
    | some (some _) => .ok (s.set i none, .done)
    | _ => .ub

/-- Specification: a program. -/
def specRun (s : List (Option (Value α))) : List (Op α) → Outcome (List (Option (Value α)) × List (View α))
  | [] => .ok (s, [])
  | op :: ops => (specStep s op).bind fun r => (specRun r.1 ops).map fun r' => (r'.1, r.2 :: r'.2)

/-- Specification: the program copies arrays of fixed size only. -/
def CopiesFixed (s : List (Option (Value α))) : List (Op α) → Prop
  | [] => True
  | op :: ops => (∀ i a, op = .copy i → s[i]? = some (some a) → a.fixed = true) ∧
      ∀ r, specStep s op = .ok r → CopiesFixed r.1 ops

/-! ## Refinement -/

/-- The elements `cells` are those of the value `a`. -/
def CellsRel (cells : List (Option α)) (a : Value α) : Prop :=
  cells.length = a.size ∧ ∀ k : ℤ, a.val k = if k < 0 then none else (cells[k.toNat]?).join

/-- The array `x` in a memory with the blocks `bs` has the value `a`. -/
def ArrRel (bs : List (Option (List (Option α)))) : Option (Arr α) → Option (Value α) → Prop
  | none, none => True
  | some (.inline cells), some a => a.fixed = true ∧ CellsRel cells a
  | some (.pointer b), some a => a.fixed = false ∧ ∃ cells, bs[b]? = some (some cells) ∧ CellsRel cells a
  | _, _ => False

/-- The memory represents the values: every array has its value, no two arrays share a block, and every block that is not deleted
belongs to an array. -/
structure Rel (m : Mem α) (s : List (Option (Value α))) : Prop where
  len : m.arrays.length = s.length
  val : ∀ (i : ℕ) x a, m.arrays[i]? = some x → s[i]? = some a → ArrRel m.blocks x a
  own : ∀ (i j b : ℕ), m.arrays[i]? = some (some (Arr.pointer b)) → m.arrays[j]? = some (some (Arr.pointer b)) → i = j
  owned : ∀ (b : ℕ) cells, m.blocks[b]? = some (some cells) → ∃ i : ℕ, m.arrays[i]? = some (some (Arr.pointer b))

/-- Two runs agree: both are undefined, or both return, represent each other and show the same replies. -/
def Agree : Outcome (Mem α × List (Reply α)) → Outcome (List (Option (Value α)) × List (View α)) → Prop
  | .ub, .ub => True
  | .ok r, .ok r' => Rel r.1 r'.1 ∧ r.2.map Reply.view = r'.2
  | _, _ => False

theorem CellsRel.fresh (n : ℕ) (f : Bool) :
    CellsRel (List.replicate n (none : Option α)) { fixed := f, size := n, val := fun _ => none } := by
  refine ⟨List.length_replicate, fun k => ?_⟩
  by_cases hk : k < 0
  · rw [if_pos hk]
  · rw [if_neg hk, List.getElem?_replicate]
    split <;> rfl

theorem CellsRel.read {cells : List (Option α)} {a : Value α} (h : CellsRel cells a) (k : ℤ) :
    readCell cells k = match a.val k with | some v => .ok v | none => .ub := by
  unfold readCell
  rw [h.2 k]
  by_cases hk : k < 0
  · rw [if_pos hk, if_pos hk]
  · rw [if_neg hk, if_neg hk]
    rcases cells[k.toNat]? with _ | _ | v <;> rfl

theorem CellsRel.write {cells : List (Option α)} {a : Value α} (h : CellsRel cells a) (k : ℤ) (v : α) :
    (0 ≤ k ∧ k < a.size → writeCell cells k v = .ok (cells.set k.toNat (some v)) ∧
      CellsRel (cells.set k.toNat (some v)) { a with val := Function.update a.val k (some v) }) ∧
    (¬(0 ≤ k ∧ k < a.size) → writeCell cells k v = .ub) := by
  unfold writeCell
  have hl := h.1
  refine ⟨fun hk => ⟨if_pos (by omega), ?_, fun k' => ?_⟩, fun hk => if_neg (by omega)⟩
  · rw [List.length_set]
    exact h.1
  · show Function.update a.val k (some v) k' = _
    by_cases hkk : k' = k
    · subst hkk
      rw [Function.update_self, if_neg (by omega), List.getElem?_set_self (by omega)]
      rfl
    · rw [Function.update_of_ne hkk, h.2 k']
      by_cases h0 : k' < 0
      · rw [if_pos h0, if_pos h0]
      · rw [if_neg h0, if_neg h0, List.getElem?_set_ne (by omega)]

theorem ArrRel.mono {bs bs' : List (Option (List (Option α)))} {x : Option (Arr α)} {a : Option (Value α)} (h : ArrRel bs x a)
    (hb : ∀ b, x = some (.pointer b) → bs'[b]? = bs[b]?) : ArrRel bs' x a := by
  rcases x with _ | cells | b <;> rcases a with _ | a
  · trivial
  · exact h
  · exact h
  · exact h
  · exact h
  · obtain ⟨h1, cells, h2, h3⟩ := h
    exact ⟨h1, cells, by rw [hb b rfl, h2], h3⟩

/-- The lookup in related memories: no array, a destroyed one, or two related ones. -/
theorem Rel.lookup {m : Mem α} {s : List (Option (Value α))} (h : Rel m s) (i : ℕ) :
    ((m.arrays[i]? = none ∧ s[i]? = none) ∨ (m.arrays[i]? = some none ∧ s[i]? = some none)) ∨
    (∃ cells a, m.arrays[i]? = some (some (.inline cells)) ∧ s[i]? = some (some a) ∧ a.fixed = true ∧ CellsRel cells a) ∨
    (∃ b cells a, m.arrays[i]? = some (some (.pointer b)) ∧ s[i]? = some (some a) ∧ a.fixed = false ∧
      m.blocks[b]? = some (some cells) ∧ CellsRel cells a) := by
  by_cases hi : i < s.length
  · have h1 : m.arrays[i]? = some (m.arrays[i]'(by rw [h.len]; exact hi)) := List.getElem?_eq_getElem _
    have h2 : s[i]? = some s[i] := List.getElem?_eq_getElem _
    have := h.val i _ _ h1 h2
    revert this h1 h2
    rcases m.arrays[i]'(by rw [h.len]; exact hi) with _ | cells | b <;> rcases s[i] with _ | a <;> intro h1 h2 hr
    · exact .inl (.inr ⟨h1, h2⟩)
    · exact hr.elim
    · exact hr.elim
    · exact .inr (.inl ⟨cells, a, h1, h2, hr⟩)
    · exact hr.elim
    · obtain ⟨hf, cells, hb, hc⟩ := hr
      exact .inr (.inr ⟨b, cells, a, h1, h2, hf, hb, hc⟩)
  · exact .inl (.inl ⟨List.getElem?_eq_none (by rw [h.len]; omega), List.getElem?_eq_none (by omega)⟩)

theorem getElem?_append_one {β : Type*} {l : List β} {x y : β} {i : ℕ} (h : (l ++ [x])[i]? = some y) :
    l[i]? = some y ∨ (i = l.length ∧ y = x) := by
  rcases lt_trichotomy i l.length with hi | hi | hi
  · rw [List.getElem?_append_left hi] at h
    exact .inl h
  · subst hi
    rw [List.getElem?_append_right le_rfl, Nat.sub_self] at h
    exact .inr ⟨rfl, (Option.some.inj h).symm⟩
  · rw [List.getElem?_eq_none (by rw [List.length_append, List.length_singleton]; omega)] at h
    exact nomatch h

theorem getElem?_of_append {β : Type*} {l : List β} {x y : β} {i : ℕ} (h : l[i]? = some y) : (l ++ [x])[i]? = some y := by
  rw [List.getElem?_append_left (List.getElem?_eq_some_iff.1 h).1, h]

/-- Appending an array whose pointer, if any, is to the new last block. -/
theorem Rel.append {m : Mem α} {s : List (Option (Value α))} (h : Rel m s) (bs : List (Option (List (Option α)))) (x : Arr α)
    (a : Value α) (hx : ArrRel (m.blocks ++ bs) (some x) (some a))
    (hb : (bs = [] ∧ ∃ c, x = .inline c) ∨ (∃ c, bs = [some c] ∧ x = .pointer m.blocks.length)) :
    Rel { blocks := m.blocks ++ bs, arrays := m.arrays ++ [some x] } (s ++ [some a]) := by
  have hlt : ∀ (i b : ℕ), m.arrays[i]? = some (some (.pointer b)) → b < m.blocks.length := by
    intro i b hi
    rcases h.lookup i with (⟨h1, -⟩ | ⟨h1, -⟩) | ⟨c, a, h1, -⟩ | ⟨b', c, a, h1, -, -, h3, -⟩
    · rw [h1] at hi; exact nomatch hi
    · rw [h1] at hi; exact nomatch hi
    · rw [h1] at hi; exact nomatch hi
    · rw [h1] at hi
      obtain rfl : b' = b := by simpa using hi
      exact (List.getElem?_eq_some_iff.1 h3).1
  refine ⟨?_, ?_, ?_, ?_⟩
  · simp [h.len]
  · intro i y v hy hv
    rcases getElem?_append_one hy with hy' | ⟨hi, rfl⟩
    · rcases getElem?_append_one hv with hv' | ⟨hi, -⟩
      · refine (h.val i y v hy' hv').mono fun b hb => ?_
        rw [List.getElem?_append_left (hlt i b (by rw [hy', hb]))]
      · have := (List.getElem?_eq_some_iff.1 hy').1
        rw [h.len] at this
        omega
    · rcases getElem?_append_one hv with hv' | ⟨-, rfl⟩
      · have := (List.getElem?_eq_some_iff.1 hv').1
        rw [← h.len] at this
        omega
      · exact hx
  · have key : ∀ (i j b : ℕ), m.arrays[i]? = some (some (.pointer b)) → some (Arr.pointer b) = some x → False := by
      intro i j b hi hbx
      rcases hb with ⟨-, c, rfl⟩ | ⟨c, -, rfl⟩
      · exact nomatch hbx
      · have := hlt i b hi
        have hbb : b = m.blocks.length := by simpa using hbx
        omega
    intro i j b hi hj
    rcases getElem?_append_one hi with hi' | ⟨hi', hxi⟩ <;> rcases getElem?_append_one hj with hj' | ⟨hj', hxj⟩
    · exact h.own i j b hi' hj'
    · exact (key i j b hi' hxj).elim
    · exact (key j i b hj' hxi).elim
    · rw [hi', hj']
  · intro b cells hc
    show ∃ i, (m.arrays ++ [some x])[i]? = _
    rcases hb with ⟨rfl, c, rfl⟩ | ⟨c, rfl, rfl⟩
    · rw [show m.blocks ++ [] = m.blocks from List.append_nil _] at hc
      obtain ⟨i, hi⟩ := h.owned b cells hc
      exact ⟨i, getElem?_of_append hi⟩
    · rcases getElem?_append_one hc with hc' | ⟨rfl, -⟩
      · obtain ⟨i, hi⟩ := h.owned b cells hc'
        exact ⟨i, getElem?_of_append hi⟩
      · exact ⟨m.arrays.length, by rw [List.getElem?_append_right le_rfl, Nat.sub_self]; rfl⟩

/-- Replacing the contents of an array in place. -/
theorem Rel.setInline {m : Mem α} {s : List (Option (Value α))} (h : Rel m s) (i : ℕ) (c : List (Option α))
    (hi : m.arrays[i]? = some (some (.inline c))) (x : Option (Arr α)) (a : Option (Value α)) (hx : ArrRel m.blocks x a)
    (hp : ∀ b, x ≠ some (.pointer b)) :
    Rel { m with arrays := m.arrays.set i x } (s.set i a) := by
  refine ⟨by simp [h.len], ?_, ?_, ?_⟩
  · intro j y v hy hv
    by_cases hij : i = j
    · subst hij
      rw [List.getElem?_set_self (List.getElem?_eq_some_iff.1 hi).1] at hy
      rw [List.getElem?_set_self (by rw [← h.len]; exact (List.getElem?_eq_some_iff.1 hi).1)] at hv
      rw [← Option.some.inj hy, ← Option.some.inj hv]
      exact hx
    · rw [List.getElem?_set_ne hij] at hy hv
      exact h.val j y v hy hv
  · have key : ∀ (j b : ℕ), (m.arrays.set i x)[j]? = some (some (.pointer b)) → m.arrays[j]? = some (some (.pointer b)) := by
      intro j b hj
      by_cases hij : i = j
      · subst hij
        rw [List.getElem?_set_self (List.getElem?_eq_some_iff.1 hi).1] at hj
        exact (hp b (Option.some.inj hj)).elim
      · rwa [List.getElem?_set_ne hij] at hj
    intro j k b hj hk
    exact h.own j k b (key j b hj) (key k b hk)
  · intro b cells hc
    obtain ⟨j, hj⟩ := h.owned b cells hc
    refine ⟨j, ?_⟩
    have hij : i ≠ j := by
      rintro rfl
      rw [hi] at hj
      exact nomatch hj
    show (m.arrays.set i x)[j]? = _
    rw [List.getElem?_set_ne hij, hj]

theorem Rel.step {m : Mem α} {s : List (Option (Value α))} (h : Rel m s) (op : Op α)
    (hc : ∀ i a, op = .copy i → s[i]? = some (some a) → a.fixed = true) :
    (m.step op = .ub ∧ specStep s op = .ub) ∨
    ∃ r r', m.step op = .ok r ∧ specStep s op = .ok r' ∧ Rel r.1 r'.1 ∧ r.2.view = r'.2 := by
  cases op with
  | create N size =>
    right
    unfold Mem.step specStep Dynamic
    dsimp only
    by_cases hN : N = -1
    · by_cases hs : size < 0
      · rw [if_pos hN, if_pos hs, if_neg (by omega)]
        exact ⟨_, _, rfl, rfl, h, rfl⟩
      · rw [if_pos hN, if_neg hs, if_pos (by omega)]
        refine ⟨_, _, rfl, rfl, ?_, rfl⟩
        refine h.append [some _] (.pointer _) _ ⟨by simp [hN], _, ?_, CellsRel.fresh _ _⟩ (.inr ⟨_, rfl, rfl⟩)
        rw [List.getElem?_append_right le_rfl, Nat.sub_self]
        rfl
    · by_cases hs : size = N
      · rw [if_neg hN, if_pos hs, if_pos (by omega)]
        refine ⟨_, _, rfl, rfl, ?_, rfl⟩
        have := h.append [] (.inline (List.replicate size.toNat none))
          { fixed := decide (N ≠ -1), size := size.toNat, val := fun _ => none } ⟨by simp [hN], CellsRel.fresh _ _⟩ (.inl ⟨rfl, _, rfl⟩)
        rwa [List.append_nil] at this
      · rw [if_neg hN, if_neg hs, if_neg (by omega)]
        exact ⟨_, _, rfl, rfl, h, rfl⟩
  | copy i =>
    unfold Mem.step specStep
    dsimp only
    rcases h.lookup i with (⟨h1, h2⟩ | ⟨h1, h2⟩) | ⟨c, a, h1, h2, hf, hr⟩ | ⟨b, c, a, h1, h2, hf, -⟩
    · left; rw [h1, h2]; exact ⟨rfl, rfl⟩
    · left; rw [h1, h2]; exact ⟨rfl, rfl⟩
    · right
      rw [h1, h2]
      refine ⟨_, _, rfl, rfl, ?_, rfl⟩
      have := h.append [] (.inline c) a ⟨hf, hr⟩ (.inl ⟨rfl, _, rfl⟩)
      rwa [List.append_nil] at this
    · have := hc i a rfl h2
      rw [hf] at this
      exact nomatch this
  | write i k v =>
    unfold Mem.step specStep
    dsimp only
    rcases h.lookup i with (⟨h1, h2⟩ | ⟨h1, h2⟩) | ⟨c, a, h1, h2, hf, hr⟩ | ⟨b, c, a, h1, h2, hf, hb, hr⟩
    · left; rw [h1, h2]; exact ⟨rfl, rfl⟩
    · left; rw [h1, h2]; exact ⟨rfl, rfl⟩
    · rw [h1, h2]
      dsimp only
      by_cases hk : 0 ≤ k ∧ k < a.size
      · right
        obtain ⟨hw, hr'⟩ := (hr.write k v).1 hk
        rw [hw, if_pos hk]
        exact ⟨_, _, rfl, rfl, h.setInline i c h1 _ _ ⟨hf, hr'⟩ nofun, rfl⟩
      · left
        rw [(hr.write k v).2 hk, if_neg hk]
        exact ⟨rfl, rfl⟩
    · rw [h1, h2]
      dsimp only
      rw [hb]
      dsimp only
      by_cases hk : 0 ≤ k ∧ k < a.size
      · right
        obtain ⟨hw, hr'⟩ := (hr.write k v).1 hk
        rw [hw, if_pos hk]
        refine ⟨_, _, rfl, rfl, ⟨by simp [h.len], ?_, h.own, ?_⟩, rfl⟩
        · intro j y w hy hw
          change m.arrays[j]? = some y at hy
          by_cases hij : i = j
          · subst hij
            rw [h1] at hy
            rw [List.getElem?_set_self (List.getElem?_eq_some_iff.1 h2).1] at hw
            rw [← Option.some.inj hy, ← Option.some.inj hw]
            exact ⟨hf, _, List.getElem?_set_self (List.getElem?_eq_some_iff.1 hb).1, hr'⟩
          · rw [List.getElem?_set_ne hij] at hw
            refine (h.val j y w hy hw).mono fun b' hb' => ?_
            refine List.getElem?_set_ne ?_
            rintro rfl
            exact hij (h.own i j b h1 (by rw [hy, hb']))
        · intro b' cells hc'
          change (m.blocks.set b _)[b']? = _ at hc'
          by_cases hbb : b = b'
          · subst hbb
            exact ⟨i, h1⟩
          · rw [List.getElem?_set_ne hbb] at hc'
            exact h.owned b' cells hc'
      · left
        rw [(hr.write k v).2 hk, if_neg hk]
        exact ⟨rfl, rfl⟩
  | read i k =>
    unfold Mem.step specStep
    dsimp only
    rcases h.lookup i with (⟨h1, h2⟩ | ⟨h1, h2⟩) | ⟨c, a, h1, h2, hf, hr⟩ | ⟨b, c, a, h1, h2, hf, hb, hr⟩
    · left; rw [h1, h2]; exact ⟨rfl, rfl⟩
    · left; rw [h1, h2]; exact ⟨rfl, rfl⟩
    · rw [h1, h2]
      dsimp only
      rw [hr.read k]
      cases a.val k with
      | none => left; exact ⟨rfl, rfl⟩
      | some v => right; exact ⟨_, _, rfl, rfl, h, rfl⟩
    · rw [h1, h2]
      dsimp only
      rw [hb]
      dsimp only
      rw [hr.read k]
      cases a.val k with
      | none => left; exact ⟨rfl, rfl⟩
      | some v => right; exact ⟨_, _, rfl, rfl, h, rfl⟩
  | destroy i =>
    unfold Mem.step specStep
    dsimp only
    rcases h.lookup i with (⟨h1, h2⟩ | ⟨h1, h2⟩) | ⟨c, a, h1, h2, hf, hr⟩ | ⟨b, c, a, h1, h2, hf, hb, hr⟩
    · left; rw [h1, h2]; exact ⟨rfl, rfl⟩
    · left; rw [h1, h2]; exact ⟨rfl, rfl⟩
    · right
      rw [h1, h2]
      exact ⟨_, _, rfl, rfl, h.setInline i c h1 none none trivial nofun, rfl⟩
    · right
      rw [h1, h2]
      dsimp only
      rw [hb]
      refine ⟨_, _, rfl, rfl, ⟨by simp [h.len], ?_, ?_, ?_⟩, rfl⟩
      · intro j y w hy hw
        change (m.arrays.set i none)[j]? = some y at hy
        by_cases hij : i = j
        · subst hij
          rw [List.getElem?_set_self (List.getElem?_eq_some_iff.1 h1).1] at hy
          rw [List.getElem?_set_self (List.getElem?_eq_some_iff.1 h2).1] at hw
          rw [← Option.some.inj hy, ← Option.some.inj hw]
          trivial
        · rw [List.getElem?_set_ne hij] at hw hy
          refine (h.val j y w hy hw).mono fun b' hb' => ?_
          refine List.getElem?_set_ne ?_
          rintro rfl
          exact hij (h.own i j b h1 (by rw [hy, hb']))
      · have key : ∀ (j b' : ℕ), (m.arrays.set i none)[j]? = some (some (.pointer b')) →
            m.arrays[j]? = some (some (.pointer b')) := by
          intro j b' hj
          by_cases hij : i = j
          · subst hij
            rw [List.getElem?_set_self (List.getElem?_eq_some_iff.1 h1).1] at hj
            exact nomatch hj
          · rwa [List.getElem?_set_ne hij] at hj
        intro j k b' hj hk
        exact h.own j k b' (key j b' hj) (key k b' hk)
      · intro b' cells hc'
        change (m.blocks.set b none)[b']? = _ at hc'
        have hbb : b ≠ b' := by
          rintro rfl
          rw [List.getElem?_set_self (List.getElem?_eq_some_iff.1 hb).1] at hc'
          exact nomatch hc'
        rw [List.getElem?_set_ne hbb] at hc'
        obtain ⟨j, hj⟩ := h.owned b' cells hc'
        refine ⟨j, ?_⟩
        have hij : i ≠ j := by
          rintro rfl
          rw [h1] at hj
          exact hbb (by simpa using hj)
        show (m.arrays.set i none)[j]? = _
        rw [List.getElem?_set_ne hij, hj]

theorem Rel.run (ops : List (Op α)) : ∀ {m : Mem α} {s : List (Option (Value α))}, Rel m s → CopiesFixed s ops →
    Agree (m.run ops) (specRun s ops) := by
  induction ops with
  | nil => intro m s h _; exact ⟨h, rfl⟩
  | cons op ops ih =>
    intro m s h hc
    unfold Mem.run specRun
    rcases h.step op hc.1 with ⟨h1, h2⟩ | ⟨r, r', h1, h2, hr, hv⟩
    · rw [h1, h2]
      trivial
    · rw [h1, h2, Outcome.bind_ok, Outcome.bind_ok]
      have := ih hr (hc.2 r' h2)
      revert this
      rcases r.1.run ops with x | _ | _ <;> rcases specRun r'.1 ops with y | _ | _ <;> intro this
      · exact ⟨this.1, by simp [hv, this.2]⟩
      all_goals exact this

/-- No memory has been allocated and there are no arrays. -/
def Mem.empty : Mem α := ⟨[], []⟩

theorem Rel.empty : Rel (Mem.empty : Mem α) [] :=
  ⟨rfl, fun i x a h => by simp [Mem.empty] at h, fun i j b h => by simp [Mem.empty] at h, fun b c h => by simp [Mem.empty] at h⟩

/-- **C72**, partially: every program that copies no array whose size is fixed at run time behaves as if each array were a value of
its own: it has undefined behaviour exactly if it uses an array that does not exist, writes outside an array or reads an element that
has not been written; otherwise it observes the same values and exceptions, and no allocated block is without owner.  Missing:
programs that copy arrays whose size is fixed at run time (`C72_copy_violated`). -/
theorem C72_arrays_partial (ops : List (Op α)) (hc : CopiesFixed [] ops) :
    Agree (Mem.run Mem.empty ops) (specRun [] ops) := Rel.empty.run ops hc

/-- **C72**, no leaks: if such a program destroys every array, every block has been deleted. -/
theorem C72_no_leak (ops : List (Op α)) (hc : CopiesFixed [] ops) (m : Mem α) (rs : List (Reply α))
    (hr : Mem.run Mem.empty ops = .ok (m, rs)) (hd : ∀ x ∈ m.arrays, x = none) : ∀ b ∈ m.blocks, b = none := by
  have h := C72_arrays_partial ops hc
  rw [hr] at h
  cases hs : specRun [] ops with
  | throws => rw [hs] at h; exact h.elim
  | ub => rw [hs] at h; exact h.elim
  | ok r =>
    rw [hs] at h
    intro b hb
    cases hbc : b with
    | none => rfl
    | some cells =>
      subst hbc
      obtain ⟨k, hk⟩ := List.mem_iff_getElem?.1 hb
      obtain ⟨i, hi⟩ := h.1.owned k cells hk
      exact nomatch hd _ (List.mem_of_getElem? hi)

/-- **C72**, violated: copying an array whose size is fixed at run time and destroying both the copy and the original deletes one
block twice, whatever the size; a write through the copy changes the original. -/
theorem C72_copy_violated :
    (∀ n : ℤ, 0 ≤ n → ∃ r, specRun [] ([.create (-1) n, .copy 0, .destroy 1, .destroy 0] : List (Op α)) = .ok r ∧
      Mem.run Mem.empty ([.create (-1) n, .copy 0, .destroy 1, .destroy 0] : List (Op α)) = .ub) ∧
    (∀ v w : α, ∃ s m,
      specRun [] [.create (-1) 1, .write 0 0 v, .copy 0, .write 1 0 w, .read 0 0] = .ok (s, [.done, .done, .done, .done, .got v]) ∧
      Mem.run Mem.empty [.create (-1) 1, .write 0 0 v, .copy 0, .write 1 0 w, .read 0 0]
        = .ok (m, [.done, .done, .done, .done, .got w])) := by
  refine ⟨fun n hn => ?_, fun v w => ?_⟩
  · refine ⟨([none, none], [.done, .done, .done, .done]), ?_, ?_⟩
    · simp [specRun, specStep, hn]
    · simp [Mem.run, Mem.step, Mem.empty, Dynamic, not_lt.2 hn]
  · refine ⟨[some ⟨false, 1, Function.update (fun _ => none) 0 (some v)⟩,
        some ⟨false, 1, Function.update (Function.update (fun _ => none) 0 (some v)) 0 (some w)⟩],
      ⟨[some [some w]], [some (.pointer 0), some (.pointer 0)]⟩, ?_, ?_⟩
    · simp [specRun, specStep]
    · simp [Mem.run, Mem.step, Mem.empty, Dynamic, writeCell, readCell]

/-- **C72**, exceptions: an array of fixed size with a wrong size throws a pointer, so that a handler for `std::runtime_error` does
not catch it; a negative size at run time fails in `new` and not with the exception of the class.  Either way nothing is left
behind. -/
theorem C72_exceptions (m : Mem α) (N size : ℤ) :
    (N ≠ -1 → size ≠ N → m.step (.create N size) = .ok (m, .threwPointer)) ∧
    (size < 0 → m.step (.create (-1) size) = .ok (m, .threwLength)) ∧
    (∀ m', m.step (.create (-1) size) ≠ .ok (m', .threwPointer)) := by
  refine ⟨fun h1 h2 => ?_, fun h => ?_, fun m' => ?_⟩
  · simp [Mem.step, Dynamic, h1, h2]
  · simp [Mem.step, Dynamic, h]
  · unfold Mem.step Dynamic
    by_cases h : size < 0 <;> simp [h]

/-! ## The calculation cache -/

theorem specRun_append (a b : List (Op α)) : ∀ s : List (Option (Value α)),
    specRun s (a ++ b) = (specRun s a).bind fun r => (specRun r.1 b).map fun r' => (r'.1, r.2 ++ r'.2) := by
  induction a with
  | nil =>
    intro s
    show specRun s b = (specRun s b).map _
    cases specRun s b <;> rfl
  | cons op ops ih =>
    intro s
    rw [List.cons_append, specRun, specRun]
    cases specStep s op with
    | throws => rfl
    | ub => rfl
    | ok r =>
      rw [Outcome.bind_ok, Outcome.bind_ok, ih]
      cases specRun r.1 ops with
      | throws => rfl
      | ub => rfl
      | ok r' =>
        rw [Outcome.bind_ok, Outcome.map_ok, Outcome.bind_ok]
        show ((specRun r'.1 b).map _).map _ = (specRun r'.1 b).map _
        cases specRun r'.1 b <;> rfl

theorem copiesFixed_of (ops : List (Op α)) (h : ∀ i, Op.copy i ∉ ops) : ∀ s : List (Option (Value α)), CopiesFixed s ops := by
  induction ops with
  | nil => intro s; trivial
  | cons op ops ih =>
    intro s
    refine ⟨fun i a ho => (h i (by simp [ho])).elim, fun r _ => ih (fun i hi => h i (List.mem_cons_of_mem _ hi)) r.1⟩

/-- The first `k` elements are those of `f`, the others are not initialised. -/
def filled (f : ℕ → α) (k : ℕ) : ℤ → Option α := fun j => if 0 ≤ j ∧ j < k then some (f j.toNat) else none

theorem filled_step (f : ℕ → α) (k : ℕ) : Function.update (filled f k) (k : ℤ) (some (f k)) = filled f (k + 1) := by
  funext j
  unfold filled
  by_cases hj : j = k
  · subst hj
    rw [Function.update_self, if_pos (by omega)]
    rfl
  · rw [Function.update_of_ne hj]
    by_cases h : 0 ≤ j ∧ j < k
    · rw [if_pos h, if_pos (by omega)]
    · rw [if_neg h, if_neg (by push_cast; omega)]

/-- The arrays of the cache after `k` rounds of the loop. -/
def cacheState (fx : Bool) (order : ℕ) (phi ri vert : ℕ → α) (k : ℕ) : List (Option (Value α)) :=
  [some ⟨fx, order - 1, filled phi k⟩, some ⟨fx, order - 1, filled ri k⟩, some ⟨fx, order, filled vert (k + 1)⟩]

theorem cache_round (fx : Bool) (order : ℕ) (phi ri vert : ℕ → α) (k : ℕ) (hk : k < order - 1) :
    specRun (cacheState fx order phi ri vert k)
      [.write 0 k (phi k), .write 2 ((k : ℤ) + 1) (vert (k + 1)), .read 0 k, .write 1 k (ri k)]
      = .ok (cacheState fx order phi ri vert (k + 1), [.done, .done, .got (phi k), .done]) := by
  have h1 : (k : ℤ) < ((order - 1 : ℕ) : ℤ) := by exact_mod_cast hk
  have h2 : (0 : ℤ) ≤ (k : ℤ) + 1 ∧ (k : ℤ) + 1 < (order : ℤ) := by omega
  have hv := filled_step vert (k + 1)
  push_cast at hv
  have hp : filled phi (k + 1) (k : ℤ) = some (phi k) := by rw [← filled_step, Function.update_self]
  simp only [specRun, specStep, cacheState, List.getElem?_cons_zero, List.getElem?_cons_succ, List.set_cons_zero,
    List.set_cons_succ, h1, h2, Int.natCast_nonneg, and_self, if_true, Outcome.bind_ok, Outcome.map_ok, Function.update_self,
    filled_step, hv, hp]

theorem cache_rounds (fx : Bool) (order : ℕ) (phi ri vert : ℕ → α) (k : ℕ) (hk : k ≤ order - 1) :
    ∃ rs, specRun (cacheState fx order phi ri vert 0) ((List.range k).flatMap fun k : ℕ =>
      [.write 0 k (phi k), .write 2 ((k : ℤ) + 1) (vert (k + 1)), .read 0 k, .write 1 k (ri k)])
      = .ok (cacheState fx order phi ri vert k, rs) := by
  induction k with
  | zero => exact ⟨[], rfl⟩
  | succ k ih =>
    obtain ⟨rs, hrs⟩ := ih (by omega)
    refine ⟨rs ++ [.done, .done, .got (phi k), .done], ?_⟩
    rw [List.range_succ, List.flatMap_append, specRun_append, hrs, Outcome.bind_ok]
    rw [show ((List.flatMap (fun k : ℕ => [Op.write 0 (k : ℤ) (phi k), Op.write 2 ((k : ℤ) + 1) (vert (k + 1)), Op.read 0 (k : ℤ),
      Op.write 1 (k : ℤ) (ri k)]) [k]) : List (Op α)) = _ from List.flatMap_singleton _ _, cache_round fx order phi ri vert k (by omega)]
    rfl

theorem cache_spec (N : ℤ) (order : ℕ) (ho : 1 ≤ order) (hN : N = -1 ∨ N = order) (phi ri vert : ℕ → α) :
    ∃ rs, specRun [] (cacheProgram N order phi ri vert)
      = .ok (cacheState (decide (N ≠ -1)) order phi ri vert (order - 1), rs) := by
  obtain ⟨rs, hrs⟩ := cache_rounds (decide (N ≠ -1)) order phi ri vert (order - 1) le_rfl
  refine ⟨[.done, .done, .done, .done] ++ rs, ?_⟩
  unfold cacheProgram
  rw [specRun_append]
  have h0 : specRun ([] : List (Option (Value α))) [.create (numVectorsArg N) ((order : ℤ) - 1), .create (numVectorsArg N) ((order : ℤ) - 1),
      .create N order, .write 2 0 (vert 0)] = .ok (cacheState (decide (N ≠ -1)) order phi ri vert 0, [.done, .done, .done, .done]) := by
    have hA : (numVectorsArg N = -1 ∧ (0 : ℤ) ≤ (order : ℤ) - 1) ∨ (numVectorsArg N ≠ -1 ∧ (order : ℤ) - 1 = numVectorsArg N) := by
      unfold numVectorsArg Dynamic
      rcases hN with h | h
      · rw [if_pos h]; left; omega
      · rw [if_neg (by omega)]; right; omega
    have hB : (N = -1 ∧ (0 : ℤ) ≤ (order : ℤ)) ∨ (N ≠ -1 ∧ (order : ℤ) = N) := by omega
    have hC : decide (numVectorsArg N ≠ -1) = decide (N ≠ -1) := by
      unfold numVectorsArg Dynamic
      by_cases h : N = -1
      · rw [if_pos h, h]
      · rw [if_neg h]
        simp only [decide_eq_decide]
        omega
    have hD : ((order : ℤ) - 1).toNat = order - 1 := by omega
    have hE : (0 : ℤ) < (order : ℤ) := by omega
    have h1 : Function.update (fun _ => none) (0 : ℤ) (some (vert 0)) = filled vert 1 := by
      rw [← filled_step vert 0]
      congr 1
      funext j
      unfold filled
      rw [if_neg (by push_cast; omega)]
    have h2 : ∀ f : ℕ → α, (fun _ => none) = filled f 0 := by
      intro f
      funext j
      unfold filled
      rw [if_neg (by push_cast; omega)]
    simp only [specRun, specStep, if_pos hA, if_pos hB, hC, hD, Outcome.bind_ok, Outcome.map_ok, List.nil_append, List.cons_append,
      List.getElem?_cons_zero, List.getElem?_cons_succ, List.set_cons_zero, List.set_cons_succ, le_refl, Int.toNat_natCast, hE, and_self,
      if_true, h1, cacheState, Nat.zero_add]
    rw [← h2 phi, ← h2 ri]
  rw [h0, Outcome.bind_ok, hrs]
  rfl

theorem read_state (m : Mem α) (i : ℕ) (k : ℤ) (r : Mem α × Reply α) (h : m.step (.read i k) = .ok r) : r.1 = m := by
  unfold Mem.step at h
  dsimp only at h
  rcases hm : m.arrays[i]? with _ | _ | c | b <;> rw [hm] at h <;> dsimp only at h
  · exact nomatch h
  · exact nomatch h
  · cases hr : readCell c k <;> rw [hr] at h
    · exact (congrArg Prod.fst (Outcome.ok.inj h)).symm
    · exact nomatch h
    · exact nomatch h
  · rcases hb : m.blocks[b]? with _ | _ | c <;> rw [hb] at h <;> dsimp only at h
    · exact nomatch h
    · exact nomatch h
    · cases hr : readCell c k <;> rw [hr] at h
      · exact (congrArg Prod.fst (Outcome.ok.inj h)).symm
      · exact nomatch h
      · exact nomatch h

theorem Rel.read {m : Mem α} {s : List (Option (Value α))} (h : Rel m s) (i : ℕ) (a : Value α) (hi : s[i]? = some (some a)) (k : ℤ) :
    (∀ v, a.val k = some v → m.step (.read i k) = .ok (m, .got v)) ∧ (a.val k = none → m.step (.read i k) = .ub) := by
  have hs : specStep s (.read i k) = match a.val k with | some v => .ok (s, .got v) | none => .ub := by
    unfold specStep
    dsimp only
    rw [hi]
  rcases h.step (.read i k) nofun with ⟨h1, h2⟩ | ⟨r, r', h1, h2, -, hv⟩
  · rw [hs] at h2
    refine ⟨fun v hv => ?_, fun _ => h1⟩
    rw [hv] at h2
    exact nomatch h2
  · rw [hs] at h2
    refine ⟨fun v hv' => ?_, fun hn => ?_⟩
    · rw [hv'] at h2
      obtain rfl := Outcome.ok.inj h2
      rw [h1]
      refine congrArg Outcome.ok (Prod.ext (read_state m i k r h1) ?_)
      revert hv
      rcases r.2 with _ | w | _ | _ <;> intro hv
      · exact nomatch hv
      · obtain rfl : w = v := by
          injection hv
        rfl
      · exact nomatch hv
      · exact nomatch hv
    · rw [hn] at h2
      exact nomatch h2

/-- **C72**, the calculation cache: for every spline of order at least one whose template argument is `Dynamic` or the order, the
constructor of the cache succeeds; afterwards exactly the elements `0 … order − 2` of the vectors and points and `0 … order − 1` of the
control vertices can be read, and they are those stored; the destructor deletes all memory. -/
theorem C72_cache (N : ℤ) (order : ℕ) (ho : 1 ≤ order) (hN : N = -1 ∨ N = order) (phi ri vert : ℕ → α) :
    ∃ m rs, Mem.run Mem.empty (cacheProgram N order phi ri vert) = .ok (m, rs) ∧
      (∀ k : ℤ, m.step (.read 0 k) = if 0 ≤ k ∧ k < (order : ℤ) - 1 then .ok (m, .got (phi k.toNat)) else .ub) ∧
      (∀ k : ℤ, m.step (.read 1 k) = if 0 ≤ k ∧ k < (order : ℤ) - 1 then .ok (m, .got (ri k.toNat)) else .ub) ∧
      (∀ k : ℤ, m.step (.read 2 k) = if 0 ≤ k ∧ k < (order : ℤ) then .ok (m, .got (vert k.toNat)) else .ub) ∧
      ∃ m' rs', m.run cacheDestroy = .ok (m', rs') ∧ (∀ x ∈ m'.arrays, x = none) ∧ ∀ b ∈ m'.blocks, b = none := by
  obtain ⟨rs, hrs⟩ := cache_spec N order ho hN phi ri vert
  have hag := C72_arrays_partial (cacheProgram N order phi ri vert)
    (copiesFixed_of _ (fun i hi => by simp [cacheProgram] at hi) _)
  rw [hrs] at hag
  cases hm : Mem.run Mem.empty (cacheProgram N order phi ri vert) with
  | throws => rw [hm] at hag; exact hag.elim
  | ub => rw [hm] at hag; exact hag.elim
  | ok r =>
  rw [hm] at hag
  have hR := hag.1
  dsimp only at hR
  have key : ∀ (i : ℕ) (f : ℕ → α) (n : ℕ) (b : ℤ) (v : Value α), (cacheState (decide (N ≠ -1)) order phi ri vert (order - 1))[i]? = some (some v) →
      v.val = filled f n → (n : ℤ) = b →
      ∀ k : ℤ, r.1.step (.read i k) = if 0 ≤ k ∧ k < b then .ok (r.1, .got (f k.toNat)) else .ub := by
    intro i f n b v hi hv hb k
    obtain ⟨h1, h2⟩ := hR.read i v hi k
    rw [hv] at h1 h2
    unfold filled at h1 h2
    rw [hb] at h1 h2
    by_cases hk : 0 ≤ k ∧ k < b
    · rw [if_pos hk] at h1 ⊢
      exact h1 _ rfl
    · rw [if_neg hk] at h2 ⊢
      exact h2 rfl
  refine ⟨r.1, r.2, rfl, key 0 phi (order - 1) _ _ rfl rfl (by omega), key 1 ri (order - 1) _ _ rfl rfl (by omega),
    key 2 vert (order - 1 + 1) _ _ rfl rfl (by omega), ?_⟩
  have hD := hR.run cacheDestroy (copiesFixed_of _ (fun i hi => by simp [cacheDestroy] at hi) _)
  have hs : specRun (cacheState (decide (N ≠ -1)) order phi ri vert (order - 1)) cacheDestroy
      = .ok ([none, none, none], [.done, .done, .done]) := rfl
  rw [hs] at hD
  cases hm' : r.1.run cacheDestroy with
  | throws => rw [hm'] at hD; exact hD.elim
  | ub => rw [hm'] at hD; exact hD.elim
  | ok r' =>
  rw [hm'] at hD
  have hR' := hD.1
  dsimp only at hR'
  have hall : ∀ x ∈ r'.1.arrays, x = none := by
    intro x hx
    obtain ⟨i, hi⟩ := List.mem_iff_getElem?.1 hx
    rcases hR'.lookup i with (⟨h1, -⟩ | ⟨h1, -⟩) | ⟨c, a, -, h2, -⟩ | ⟨b, c, a, -, h2, -⟩
    · rw [h1] at hi; exact nomatch hi
    · rw [h1] at hi; exact (Option.some.inj hi).symm
    · rcases i with _ | _ | _ | i <;> simp at h2
    · rcases i with _ | _ | _ | i <;> simp at h2
  refine ⟨r'.1, r'.2, rfl, hall, fun b hb => ?_⟩
  cases b with
  | none => rfl
  | some cells =>
    obtain ⟨k, hk⟩ := List.mem_iff_getElem?.1 hb
    obtain ⟨i, hi⟩ := hR'.owned k cells hk
    exact nomatch hall _ (List.mem_of_getElem? hi)

/-- A cubic spline (order four) whose order is known at run time only: the third vector can be read, a fourth cannot. -/
example : ∃ (m : Mem ℕ) (rs : List (Reply ℕ)), Mem.run Mem.empty (cacheProgram (-1) 4 (fun k => k) (fun k => 10 + k) (fun k => 20 + k)) = .ok (m, rs) ∧
    m.step (.read 0 2) = .ok (m, .got 2) ∧ m.step (.read 0 3) = .ub := by
  obtain ⟨m, rs, h, h0, -⟩ := C72_cache (-1) 4 (by norm_num) (.inl rfl) (fun k => k) (fun k => 10 + k) (fun k => 20 + k)
  exact ⟨m, rs, h, by rw [h0 2]; rfl, by rw [h0 3]; rfl⟩

/-- A program that copies an array of fixed size and uses both arrays afterwards. -/
example : ∃ m : Mem ℕ, CopiesFixed [] ([.create 2 2, .write 0 1 7, .copy 0, .write 1 1 8, .read 0 1, .create (-1) 3, .destroy 2] : List (Op ℕ)) ∧
    Mem.run Mem.empty ([.create 2 2, .write 0 1 7, .copy 0, .write 1 1 8, .read 0 1, .create (-1) 3, .destroy 2] : List (Op ℕ))
      = .ok (m, [.done, .done, .done, .done, .got 7, .done, .done]) := by
  refine ⟨⟨[none], [some (.inline [none, some 7]), some (.inline [none, some 8]), none]⟩, ?_, rfl⟩
  simp only [CopiesFixed, specStep]
  simp
  rintro i a rfl h
  obtain rfl : _ = a := Option.some.inj (Option.some.inj h)
  rfl

end Sized
end Verif
