import Verif.Lemmas.Evaluator
import Mathlib.Data.List.Pairwise
import Mathlib.Data.List.Perm.Basic
import Mathlib.Data.Rat.Defs
import Mathlib.Algebra.Order.Ring.Rat
import Mathlib.Algebra.Field.Rat

/-!
# C21: the knots of a manifold spline form a sorted set
-/

set_option linter.unusedSectionVars false

namespace Verif.MSpline

variable {K : Type*} [Field K] [LinearOrder K] [IsStrictOrderedRing K] {P V : Type*}

/-- An addition: a time with a control vertex, or a bare knot. -/
structure Addition (K P : Type*) where
  time : K
  point : Option P

/-- The call made for an addition; a rejected call leaves the spline as it is. -/
def Addition.run (M : Mfd K P V) (s : MSpline K P) (a : Addition K P) : MSpline K P :=
  match a.point with
  | none => s.addKnot M a.time
  | some p => (s.addControlVertex M a.time p).2

/-! The specification: times, and first come first served values. -/

/-- Spec: the value an addition stands for, `none` if it must be rejected. -/
def Addition.value (M : Mfd K P V) (a : Addition K P) : Option P :=
  match a.point with
  | none => some M.default
  | some p => if M.isIn p then some p else none

/-- Spec: the first accepted value for a time. -/
def firstValue (M : Mfd K P V) (l : List (Addition K P)) (t : K) : Option P :=
  l.findSome? fun a => if a.time = t then a.value M else none

theorem run_eq (M : Mfd K P V) (s : MSpline K P) (a : Addition K P) :
    a.run M s = match a.value M with
      | none => s
      | some p => { s with segs := mapInsert ⟨a.time, p, none⟩ s.segs } := by
  rcases a with ⟨t, _ | p⟩
  · rfl
  · simp only [Addition.run, addControlVertex, Addition.value]
    split <;> rfl

theorem run_sorted (M : Mfd K P V) (s : MSpline K P) (h : s.keys.Pairwise (· < ·)) (a : Addition K P) :
    (a.run M s).keys.Pairwise (· < ·) := by
  rw [run_eq]
  split
  · exact h
  · exact mapInsert_sorted _ _ h

/-- C21: whatever is added, each time is held once and in increasing order. -/
theorem C21_sorted (M : Mfd K P V) (s : MSpline K P) (h : s.keys.Pairwise (· < ·)) (l : List (Addition K P)) :
    (l.foldl (Addition.run M) s).keys.Pairwise (· < ·) := by
  induction l generalizing s with
  | nil => exact h
  | cons a l ih => exact ih _ (run_sorted M s h a)

theorem mem_fold (M : Mfd K P V) (l : List (Addition K P)) (s : MSpline K P) (h : s.keys.Pairwise (· < ·)) (g : Seg K P) :
    g ∈ (l.foldl (Addition.run M) s).segs ↔
      g ∈ s.segs ∨ (g.knot ∉ s.keys ∧ g.basis = none ∧ firstValue M l g.knot = some g.vertex) := by
  induction l generalizing s with
  | nil => simp [firstValue]
  | cons a l ih =>
    rw [List.foldl_cons, ih _ (run_sorted M s h a), run_eq]
    unfold firstValue
    rw [List.findSome?_cons]
    rcases hv : a.value M with _ | p
    · simp
    · simp only [keys]
      rw [mapInsert_mem _ _ h, mapInsert_keys_mem]
      simp only []
      by_cases ht : a.time = g.knot
      · rw [if_pos ht]
        simp only [ht, true_or, not_true_eq_false, false_and, or_false, Option.some.injEq]
        constructor
        · rintro (h1 | ⟨he, h2⟩)
          · exact Or.inl h1
          · exact Or.inr ⟨h2, by rw [he], by rw [he]⟩
        · rintro (h1 | ⟨h2, h3, h4⟩)
          · exact Or.inl h1
          · refine Or.inr ⟨?_, h2⟩
            cases g
            simp_all
      · rw [if_neg ht]
        simp only [Ne.symm ht, false_or]
        constructor
        · rintro ((h1 | ⟨he, h2⟩) | h3)
          · exact Or.inl h1
          · exact absurd (by rw [he]) ht
          · exact Or.inr h3
        · rintro (h1 | h3)
          · exact Or.inl (Or.inl h1)
          · exact Or.inr h3

/-- C21: the spline holds exactly the times for which some accepted addition was made, each with the vertex of the first
accepted one. -/
theorem C21_first_wins (M : Mfd K P V) (order : ℕ) (l : List (Addition K P)) (t : K) (p : P) :
    (∃ g ∈ (l.foldl (Addition.run M) (create order)).segs, g.knot = t ∧ g.vertex = p) ↔ firstValue M l t = some p := by
  constructor
  · rintro ⟨g, hg, rfl, rfl⟩
    rcases (mem_fold M l (create order) List.Pairwise.nil g).1 hg with h | h
    · simp [create] at h
    · exact h.2.2
  · intro h
    exact ⟨⟨t, p, none⟩, (mem_fold M l (create order) List.Pairwise.nil _).2 (Or.inr ⟨by simp [create, keys], rfl, h⟩), rfl, rfl⟩

/-- C21: adding a time that is present changes nothing. -/
theorem C21_duplicate (M : Mfd K P V) (s : MSpline K P) (h : s.keys.Pairwise (· < ·)) (a : Addition K P) (ha : a.time ∈ s.keys) :
    a.run M s = s := by
  rw [run_eq]
  split
  · rfl
  · rw [mapInsert_present _ _ h ha]

theorem firstValue_perm (M : Mfd K P V) {l l' : List (Addition K P)} (hp : l.Perm l') (hn : (l.map (·.time)).Nodup) (t : K) :
    firstValue M l t = firstValue M l' t := by
  have key : ∀ l : List (Addition K P), (l.map (·.time)).Nodup → ∀ p, firstValue M l t = some p ↔
      ∃ a ∈ l, a.time = t ∧ a.value M = some p := by
    intro l
    induction l with
    | nil => intro _ p; simp [firstValue]
    | cons a l ih =>
      intro hn p
      rw [List.map_cons, List.nodup_cons] at hn
      unfold firstValue at ih ⊢
      rw [List.findSome?_cons]
      by_cases ht : a.time = t
      · rw [if_pos ht]
        rcases hv : a.value M with _ | q
        · simp only [ih hn.2]
          constructor
          · rintro ⟨b, hb, h1, h2⟩; exact ⟨b, by simp [hb], h1, h2⟩
          · rintro ⟨b, hb, h1, h2⟩
            rcases List.mem_cons.1 hb with rfl | hb
            · rw [hv] at h2; cases h2
            · exact ⟨b, hb, h1, h2⟩
        · constructor
          · intro h; exact ⟨a, by simp, ht, by rw [hv]; exact h⟩
          · rintro ⟨b, hb, h1, h2⟩
            rcases List.mem_cons.1 hb with rfl | hb
            · rw [hv] at h2; exact h2
            · exact absurd (List.mem_map.2 ⟨b, hb, by rw [h1, ht]⟩) hn.1
      · rw [if_neg ht]
        simp only [ih hn.2]
        constructor
        · rintro ⟨b, hb, h1, h2⟩; exact ⟨b, by simp [hb], h1, h2⟩
        · rintro ⟨b, hb, h1, h2⟩
          rcases List.mem_cons.1 hb with rfl | hb
          · exact absurd h1 ht
          · exact ⟨b, hb, h1, h2⟩
  have hn' : (l'.map (·.time)).Nodup := (hp.map _).nodup_iff.1 hn
  apply Option.ext
  intro p
  rw [key l hn, key l' hn']
  exact ⟨fun ⟨a, h1, h2⟩ => ⟨a, hp.mem_iff.1 h1, h2⟩, fun ⟨a, h1, h2⟩ => ⟨a, hp.mem_iff.2 h1, h2⟩⟩

/-- C21: the order in which distinct times are added does not matter. -/
theorem C21_order_irrelevant (M : Mfd K P V) (s : MSpline K P) (h : s.keys.Pairwise (· < ·)) (l l' : List (Addition K P))
    (hp : l.Perm l') (hn : (l.map (·.time)).Nodup) :
    (l.foldl (Addition.run M) s).segs = (l'.foldl (Addition.run M) s).segs := by
  have h1 := C21_sorted M s h l
  have h2 := C21_sorted M s h l'
  unfold keys at h1 h2
  rw [List.pairwise_map] at h1 h2
  have hne : ∀ a b : Seg K P, a.knot < b.knot → a ≠ b := fun a b hab e => by subst e; exact lt_irrefl _ hab
  refine List.Perm.eq_of_pairwise (le := fun a b : Seg K P => a.knot < b.knot) ?_ h1 h2 ?_
  · intro a b _ _ hab hba
    exact absurd (hab.trans hba) (lt_irrefl _)
  · rw [List.perm_ext_iff_of_nodup (h1.imp (hne _ _)) (h2.imp (hne _ _))]
    intro g
    rw [mem_fold M l s h, mem_fold M l' s h, firstValue_perm M hp hn]

/-- The real line as a manifold of which only the non-negative part is accepted, for examples. -/
def halfLine : Mfd ℚ ℚ ℚ := ⟨fun p => decide (0 ≤ p), 0, fun a b => b - a, fun p v => p + v, fun v c => c * v⟩

/-- Not vacuous: additions out of order, with a duplicate and a rejected point. -/
example : ((([⟨3, some 7⟩, ⟨1, some (-1)⟩, ⟨1, some 5⟩, ⟨3, some 8⟩, ⟨2, none⟩] : List (Addition ℚ ℚ)).foldl
    (Addition.run halfLine) (create 2)).segs.map fun g => (g.knot, g.vertex)) = [(1, 5), (2, 0), (3, 7)] := by
  decide +kernel

example : firstValue halfLine [⟨3, some 7⟩, ⟨1, some (-1)⟩, ⟨1, some 5⟩, ⟨3, some 8⟩, ⟨2, none⟩] 3 = some 7 := by
  decide +kernel

/-- Not vacuous: a permutation of distinct times. -/
example : ([⟨3, some 7⟩, ⟨1, some 5⟩] : List (Addition ℚ ℚ)).Perm [⟨1, some 5⟩, ⟨3, some 7⟩] ∧
    (([⟨3, some 7⟩, ⟨1, some 5⟩] : List (Addition ℚ ℚ)).map (·.time)).Nodup :=
  ⟨List.Perm.swap _ _ _, by decide +kernel⟩

end Verif.MSpline
