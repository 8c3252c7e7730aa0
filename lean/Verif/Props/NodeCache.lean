import Verif.Model.NodeCache

/-!
# C37: slots of the node cache

The specification: every slot has its own cell on every node; a new slot has no value and is invalid everywhere.
-/

namespace Verif

variable {α : Type*}

/-- The specification: which handles are alive, and for each handle and node a value and whether it is valid. -/
structure CacheSpec (α : Type*) where
  alive : List Bool
  cell : ℕ → ℕ → Option α × Bool

namespace CacheSpec

/-- No slots. -/
def empty : CacheSpec α := ⟨[], fun _ _ => (none, false)⟩

/-- Write one cell. -/
def put (s : CacheSpec α) (h n : ℕ) (c : Option α × Bool) : CacheSpec α :=
  ⟨s.alive, Function.update s.cell h (Function.update (s.cell h) n c)⟩

/-- A live handle is needed. -/
def need (s : CacheSpec α) (h : ℕ) {β : Type*} (x : β) : Outcome β := if s.alive[h]? = some true then .ok x else .ub

/-- What the operations should do. -/
def step (s : CacheSpec α) : CacheOp α → Outcome (CacheObs α × CacheSpec α)
  | .register _ => .ok (.handle s.alive.length, ⟨s.alive ++ [true], Function.update s.cell s.alive.length fun _ => (none, false)⟩)
  | .release h => s.need h (.nothing, ⟨s.alive.set h false, s.cell⟩)
  | .write h n v => s.need h (.nothing, s.put h n (some v, (s.cell h n).2))
  | .read h n => s.need h (.value (s.cell h n).1, s)
  | .get h n u => s.need h (if (s.cell h n).2 then (.value (s.cell h n).1, s) else (.value (some u), s.put h n (some u, true)))
  | .setValid h n b => s.need h (.nothing, s.put h n ((s.cell h n).1, b))
  | .isValid h n => s.need h (.flag (s.cell h n).2, s)

/-- What a program should see. -/
def run : List (CacheOp α) → CacheSpec α → Outcome (List (CacheObs α) × CacheSpec α)
  | [], s => .ok ([], s)
  | op :: ops, s => (s.step op).bind fun r => (run ops r.2).bind fun q => .ok (r.1 :: q.1, q.2)

end CacheSpec

namespace CacheState

/-! ### Slot indices -/

theorem nextFree_spec : ∀ l : List Bool, l[(nextFreeIndex l).1]? ≠ some true ∧ (nextFreeIndex l).2[(nextFreeIndex l).1]? = some true ∧
    (∀ j, j ≠ (nextFreeIndex l).1 → (nextFreeIndex l).2[j]? = l[j]?)
  | [] => ⟨by simp, by simp [nextFreeIndex], fun j hj => by
      simp only [nextFreeIndex] at hj ⊢
      rw [List.getElem?_eq_none (by simp; omega), List.getElem?_eq_none (by simp)]⟩
  | false :: r => ⟨by simp [nextFreeIndex], by simp [nextFreeIndex], fun j hj => by
      simp only [nextFreeIndex] at hj ⊢
      obtain ⟨k, rfl⟩ : ∃ k, j = k + 1 := ⟨j - 1, by omega⟩
      simp⟩
  | true :: r => by
    obtain ⟨h1, h2, h3⟩ := nextFree_spec r
    refine ⟨by simpa [nextFreeIndex] using h1, by simpa [nextFreeIndex] using h2, fun j hj => ?_⟩
    simp only [nextFreeIndex] at hj ⊢
    rcases j with _ | k
    · simp
    · simpa using h3 k (by omega)

/-- Live slots have an index marked as used, each its own. -/
structure Good (s : CacheState α) : Prop where
  used : ∀ h i ty : ℕ, s.slots[h]? = some (some (i, ty)) → s.usage[i]? = some true
  distinct : ∀ h h' i ty ty' : ℕ, s.slots[h]? = some (some (i, ty)) → s.slots[h']? = some (some (i, ty')) → h = h'

theorem slot_ok {s : CacheState α} {h : ℕ} {x : ℕ × ℕ} (hs : s.slot h = .ok x) : s.slots[h]? = some (some x) := by
  unfold slot at hs
  split at hs
  · rename_i y hy
    rw [Outcome.ok.injEq] at hs
    rw [hy, hs]
  · cases hs

theorem slot_of {s : CacheState α} {h : ℕ} {x : ℕ × ℕ} (hs : s.slots[h]? = some (some x)) : s.slot h = .ok x := by
  unfold slot; rw [hs]

theorem slot_cases (s : CacheState α) (h : ℕ) : (∃ x, s.slot h = .ok x) ∨ s.slot h = .ub := by
  unfold slot
  split
  · exact Or.inl ⟨_, rfl⟩
  · exact Or.inr rfl

theorem good_register {s : CacheState α} (h : Good s) (ty : ℕ) :
    Good (⟨(nextFreeIndex s.usage).2, s.slots ++ [some ((nextFreeIndex s.usage).1, ty)], s.nodes⟩ : CacheState α) := by
  obtain ⟨n1, n2, n3⟩ := nextFree_spec s.usage
  have key : ∀ k i t : ℕ, (s.slots ++ [some ((nextFreeIndex s.usage).1, ty)])[k]? = some (some (i, t)) →
      (k < s.slots.length ∧ s.slots[k]? = some (some (i, t))) ∨ (k = s.slots.length ∧ i = (nextFreeIndex s.usage).1) := by
    intro k i t hk
    rcases Nat.lt_trichotomy k s.slots.length with h1 | h1 | h1
    · rw [List.getElem?_append_left h1] at hk
      exact Or.inl ⟨h1, hk⟩
    · subst h1
      simp only [List.getElem?_append_right (Nat.le_refl _), Nat.sub_self, List.getElem?_cons_zero, Option.some.injEq, Prod.mk.injEq] at hk
      exact Or.inr ⟨rfl, hk.1.symm⟩
    · rw [List.getElem?_eq_none (by simp; omega)] at hk
      cases hk
  constructor
  · intro k i t hk
    rcases key k i t hk with ⟨-, h1⟩ | ⟨-, h1⟩
    · have h2 := h.used k i t h1
      by_cases h3 : i = (nextFreeIndex s.usage).1
      · rw [h3]; exact n2
      · rw [n3 i h3]; exact h2
    · rw [h1]; exact n2
  · intro k k' i t t' hk hk'
    rcases key k i t hk with ⟨-, h1⟩ | ⟨h0, h1⟩ <;> rcases key k' i t' hk' with ⟨-, h2⟩ | ⟨g0, h2⟩
    · exact h.distinct k k' i t t' h1 h2
    · exact absurd (h.used k i t h1) (by rw [h2]; exact n1)
    · exact absurd (h.used k' i t' h2) (by rw [h1]; exact n1)
    · rw [h0, g0]

theorem good_release {s : CacheState α} (h : Good s) (k i t : ℕ) (hk : s.slots[k]? = some (some (i, t))) :
    Good (⟨s.usage.set i false, s.slots.set k none, s.nodes⟩ : CacheState α) := by
  have key : ∀ k' j t' : ℕ, (s.slots.set k none)[k']? = some (some (j, t')) → k' ≠ k ∧ s.slots[k']? = some (some (j, t')) := by
    intro k' j t' h1
    rw [List.getElem?_set] at h1
    split at h1
    · split at h1 <;> cases h1
    · rename_i h2
      exact ⟨fun h3 => h2 h3.symm, h1⟩
  constructor
  · intro k' j t' h1
    obtain ⟨h2, h3⟩ := key k' j t' h1
    have : j ≠ i := by
      intro hj
      rw [hj] at h3
      exact h2 (h.distinct k' k i t' t h3 hk)
    simp only [List.getElem?_set, if_neg (Ne.symm this)]
    exact h.used k' j t' h3
  · intro k' k'' j t' t'' h1 h2
    exact h.distinct k' k'' j t' t'' (key _ _ _ h1).2 (key _ _ _ h2).2

theorem access_cases (s : CacheState α) (h n : ℕ) : (∃ i e, s.access h n = .ok (i, e) ∧ ∃ ty, s.slots[h]? = some (some (i, ty))) ∨
    s.access h n = .ub := by
  unfold access
  rcases slot_cases s h with ⟨⟨i, ty⟩, hx⟩ | hx
  · rw [hx, Outcome.bind_ok]
    have := slot_ok hx
    rcases s.entry n i with _ | e
    · exact Or.inl ⟨i, _, rfl, ty, this⟩
    · simp only []
      split
      · exact Or.inl ⟨i, e, rfl, ty, this⟩
      · exact Or.inr rfl
  · rw [hx]; exact Or.inr rfl

theorem good_step {s : CacheState α} (h : Good s) (op : CacheOp α) (o : CacheObs α) (s' : CacheState α) (hs : s.step op = .ok (o, s')) :
    Good s' := by
  have hset : ∀ n i e, Good (s.setEntry n i e) := fun _ _ _ => ⟨h.used, h.distinct⟩
  have hacc : ∀ (k n : ℕ) (f : ℕ × CacheEntry α → Outcome (CacheObs α × CacheState α)),
      (∀ x o s', f x = .ok (o, s') → Good s') → (s.access k n).bind f = .ok (o, s') → Good s' := by
    intro k n f hf hb
    rcases access_cases s k n with ⟨i, e, he, -⟩ | he
    · rw [he, Outcome.bind_ok] at hb
      exact hf _ _ _ hb
    · rw [he] at hb; cases hb
  have hok : ∀ {o o' : CacheObs α} {t t' : CacheState α}, Good t → Outcome.ok (o, t) = Outcome.ok (o', t') → Good t' := by
    intro o o' t t' ht he
    rw [Outcome.ok.injEq, Prod.mk.injEq] at he
    rw [← he.2]; exact ht
  cases op with
  | register ty => exact hok (good_register h ty) hs
  | release k =>
    simp only [step] at hs
    rcases slot_cases s k with ⟨⟨i, t⟩, hx⟩ | hx
    · rw [hx, Outcome.bind_ok] at hs
      exact hok (good_release h k i t (slot_ok hx)) hs
    · rw [hx] at hs; cases hs
  | write k n v => exact hacc k n _ (fun x o s' h => hok (hset _ _ _) h) hs
  | read k n => exact hacc k n _ (fun x o s' h => hok (hset _ _ _) h) hs
  | get k n u =>
    refine hacc k n _ (fun x o s' h => ?_) hs
    split at h
    · exact hok (hset _ _ _) h
    · exact hok (hset _ _ _) h
  | setValid k n b => exact hacc k n _ (fun x o s' h => hok (hset _ _ _) h) hs
  | isValid k n => exact hacc k n _ (fun x o s' h => hok (hset _ _ _) h) hs

theorem good_run : ∀ (ops : List (CacheOp α)) (s : CacheState α), Good s → ∀ obs s', run ops s = .ok (obs, s') → Good s'
  | [], s, h, obs, s', hr => by
    simp only [run, Outcome.ok.injEq, Prod.mk.injEq] at hr
    rw [← hr.2]; exact h
  | op :: ops, s, h, obs, s', hr => by
    simp only [run] at hr
    rcases h1 : s.step op with ⟨o, s1⟩ | _ | _
    · rw [h1, Outcome.bind_ok] at hr
      rcases h2 : run ops s1 with ⟨q, s2⟩ | _ | _
      · rw [h2, Outcome.bind_ok, Outcome.ok.injEq, Prod.mk.injEq] at hr
        rw [← hr.2]
        exact good_run ops s1 (good_step h op o s1 h1) q s2 h2
      · rw [h2] at hr; cases hr
      · rw [h2] at hr; cases hr
    · rw [h1] at hr; cases hr
    · rw [h1] at hr; cases hr

theorem good_empty : Good (empty : CacheState α) := ⟨fun _ _ _ h => by simp [empty] at h, fun _ _ _ _ _ h => by simp [empty] at h⟩

/-- C37: in every program state two live slots never use the same storage index. -/
theorem C37_distinct_storage (ops : List (CacheOp α)) (obs : List (CacheObs α)) (s : CacheState α) (hr : run ops empty = .ok (obs, s))
    (h h' i i' ty ty' : ℕ) (h1 : s.slots[h]? = some (some (i, ty))) (h2 : s.slots[h']? = some (some (i', ty'))) (hne : h ≠ h') : i ≠ i' := by
  rintro rfl
  exact hne ((good_run ops empty good_empty obs s hr).distinct h h' i ty ty' h1 h2)

/-! ### Reading back -/

theorem entry_setEntry (s : CacheState α) (n i : ℕ) (e : CacheEntry α) (n' i' : ℕ) :
    (s.setEntry n i e).entry n' i' = if n' = n ∧ i' = i then some e else s.entry n' i' := by
  unfold setEntry entry
  simp only [Function.update_apply]
  have hlen : i < (resizeTo i (s.nodes n)).length := by
    unfold resizeTo
    split
    · simp only [List.length_append, List.length_replicate]; omega
    · omega
  by_cases h1 : n' = n
  · subst h1
    rw [if_pos rfl, List.getElem?_set]
    by_cases h2 : i' = i
    · subst h2
      rw [if_pos rfl, if_pos hlen, if_pos ⟨rfl, rfl⟩]
      rfl
    · rw [if_neg (fun h => h2 h.symm), if_neg (fun h => h2 h.2)]
      unfold resizeTo
      split
      · by_cases h3 : i' < (s.nodes n').length
        · rw [List.getElem?_append_left h3]
        · rw [List.getElem?_append_right (by omega), List.getElem?_eq_none (l := s.nodes n') (by omega), List.getElem?_replicate]
          split <;> rfl
      · rfl
  · rw [if_neg h1, if_neg (fun h => h1 h.1)]

/-- Operations that do not write the cell of handle `h` on node `n` and do not release `h`. -/
def _root_.Verif.CacheOp.Spares (h n : ℕ) : CacheOp α → Prop
  | .register _ => True
  | .release k => k ≠ h
  | .read _ _ | .isValid _ _ => True
  | .write k m _ => k ≠ h ∨ m ≠ n
  | .get k m _ => k ≠ h ∨ m ≠ n
  | .setValid k m _ => k ≠ h ∨ m ≠ n

theorem step_spares {s : CacheState α} (hg : Good s) (op : CacheOp α) (h n i ty : ℕ) (hs : s.slots[h]? = some (some (i, ty)))
    (e : CacheEntry α) (he : s.entry n i = some e) (hop : op.Spares h n) (o : CacheObs α) (s' : CacheState α)
    (hst : s.step op = .ok (o, s')) : s'.slots[h]? = some (some (i, ty)) ∧ s'.entry n i = some e := by
  have hread : ∀ (k m : ℕ) (f : ℕ × CacheEntry α → Outcome (CacheObs α × CacheState α)),
      (∀ x o s', f x = .ok (o, s') → ∃ c, s' = s.setEntry m x.1 c ∧ (c = x.2 ∨ (k ≠ h ∨ m ≠ n))) → (s.access k m).bind f = .ok (o, s') →
      s'.slots[h]? = some (some (i, ty)) ∧ s'.entry n i = some e := by
    intro k m f hf hb
    rcases access_cases s k m with ⟨j, c, hc, t, hk⟩ | hc
    · rw [hc, Outcome.bind_ok] at hb
      obtain ⟨c', hs', hcc⟩ := hf _ _ _ hb
      rw [hs']
      refine ⟨hs, ?_⟩
      rw [entry_setEntry]
      by_cases hnm : n = m ∧ i = j
      · rw [if_pos hnm]
        obtain ⟨rfl, rfl⟩ := hnm
        have hkh : k = h := hg.distinct k h i t ty hk hs
        have : c = e := by
          unfold access at hc
          rw [slot_of hk, Outcome.bind_ok, he] at hc
          simp only [] at hc
          split at hc
          · rw [Outcome.ok.injEq, Prod.mk.injEq] at hc; exact hc.2.symm
          · cases hc
        rcases hcc with h1 | h1 | h1
        · rw [h1]; exact congrArg some this
        · exact absurd hkh h1
        · exact absurd rfl h1
      · rw [if_neg hnm]; exact he
    · rw [hc] at hb; cases hb
  cases op with
  | register ty' =>
    simp only [step, Outcome.ok.injEq, Prod.mk.injEq] at hst
    rw [← hst.2]
    refine ⟨?_, he⟩
    have hlt : h < s.slots.length := by
      by_contra hc
      rw [List.getElem?_eq_none (by omega)] at hs
      cases hs
    simp only []
    rw [List.getElem?_append_left hlt]
    exact hs
  | release k =>
    have hop : k ≠ h := hop
    simp only [step] at hst
    rcases slot_cases s k with ⟨x, hx⟩ | hx
    · rw [hx, Outcome.bind_ok, Outcome.ok.injEq, Prod.mk.injEq] at hst
      rw [← hst.2]
      refine ⟨?_, he⟩
      simp only [List.getElem?_set, if_neg hop]
      exact hs
    · rw [hx] at hst; cases hst
  | read k m => exact hread k m _ (fun x o s' h => by
      rw [Outcome.ok.injEq, Prod.mk.injEq] at h
      exact ⟨_, h.2.symm, Or.inl rfl⟩) hst
  | isValid k m => exact hread k m _ (fun x o s' h => by
      rw [Outcome.ok.injEq, Prod.mk.injEq] at h
      exact ⟨_, h.2.symm, Or.inl rfl⟩) hst
  | write k m v => exact hread k m _ (fun x o s' h => by
      rw [Outcome.ok.injEq, Prod.mk.injEq] at h
      exact ⟨_, h.2.symm, Or.inr hop⟩) hst
  | get k m u => exact hread k m _ (fun x o s' h => by
      split at h
      · rw [Outcome.ok.injEq, Prod.mk.injEq] at h
        exact ⟨_, h.2.symm, Or.inl rfl⟩
      · rw [Outcome.ok.injEq, Prod.mk.injEq] at h
        exact ⟨_, h.2.symm, Or.inr hop⟩) hst
  | setValid k m b => exact hread k m _ (fun x o s' h => by
      rw [Outcome.ok.injEq, Prod.mk.injEq] at h
      exact ⟨_, h.2.symm, Or.inr hop⟩) hst

theorem run_spares : ∀ (ops : List (CacheOp α)) (s : CacheState α), Good s → ∀ (h n i ty : ℕ),
    s.slots[h]? = some (some (i, ty)) → ∀ e : CacheEntry α, s.entry n i = some e → (∀ op ∈ ops, op.Spares h n) →
    ∀ obs s', run ops s = .ok (obs, s') → s'.slots[h]? = some (some (i, ty)) ∧ s'.entry n i = some e
  | [], s, _, h, n, i, ty, hs, e, he, _, obs, s', hr => by
    simp only [run, Outcome.ok.injEq, Prod.mk.injEq] at hr
    rw [← hr.2]; exact ⟨hs, he⟩
  | op :: ops, s, hg, h, n, i, ty, hs, e, he, hsp, obs, s', hr => by
    simp only [run] at hr
    rcases h1 : s.step op with ⟨o, s1⟩ | _ | _
    · rw [h1, Outcome.bind_ok] at hr
      rcases h2 : run ops s1 with ⟨q, s2⟩ | _ | _
      · rw [h2, Outcome.bind_ok, Outcome.ok.injEq, Prod.mk.injEq] at hr
        rw [← hr.2]
        obtain ⟨a1, a2⟩ := step_spares hg op h n i ty hs e he (hsp op (by simp)) o s1 h1
        exact run_spares ops s1 (good_step hg op o s1 h1) h n i ty a1 e a2 (fun x hx => hsp x (by simp [hx])) q s2 h2
      · rw [h2] at hr; cases hr
      · rw [h2] at hr; cases hr
    · rw [h1] at hr; cases hr
    · rw [h1] at hr; cases hr

/-- C37: in every program, reading a slot on a node returns what was last written there through this slot, whatever was done in
between with other slots and nodes, including registrations and releases. -/
theorem C37_read_back (before : List (CacheOp α)) (obs : List (CacheObs α)) (s : CacheState α) (hb : run before empty = .ok (obs, s))
    (h n : ℕ) (v : α) (o1 : CacheObs α) (s1 : CacheState α) (hw : s.step (.write h n v) = .ok (o1, s1))
    (between : List (CacheOp α)) (hsp : ∀ op ∈ between, op.Spares h n) (obs2 : List (CacheObs α)) (s2 : CacheState α)
    (h2 : run between s1 = .ok (obs2, s2)) : ∃ s3, s2.step (.read h n) = .ok (.value (some v), s3) := by
  have hg := good_run before empty good_empty obs s hb
  have hg1 := good_step hg _ _ _ hw
  rcases access_cases s h n with ⟨i, e, ha, ty, hs⟩ | ha
  · simp only [step] at hw
    rw [ha, Outcome.bind_ok, Outcome.ok.injEq, Prod.mk.injEq] at hw
    have hety : e.ty = ty := by
      unfold access at ha
      rw [slot_of hs, Outcome.bind_ok] at ha
      rcases hen : s.entry n i with _ | e0
      · simp only [hen, Outcome.ok.injEq, Prod.mk.injEq] at ha
        rw [← ha.2]
      · simp only [hen] at ha
        split at ha
        · rename_i hty
          rw [Outcome.ok.injEq, Prod.mk.injEq] at ha
          rw [← ha.2]; exact hty
        · cases ha
    have e1 : s1.entry n i = some ⟨e.ty, some v, e.valid⟩ := by
      rw [← hw.2, entry_setEntry, if_pos ⟨rfl, rfl⟩]
    have e2 : s1.slots[h]? = some (some (i, ty)) := by rw [← hw.2]; exact hs
    obtain ⟨r1, r2⟩ := run_spares between s1 hg1 h n i ty e2 _ e1 hsp obs2 s2 h2
    simp only [step]
    unfold access
    rw [slot_of r1, Outcome.bind_ok, r2]
    simp only [hety, if_true, Outcome.bind_ok]
    exact ⟨_, rfl⟩
  · simp only [step] at hw
    rw [ha] at hw; cases hw

/-! ### Refinement -/

/-- No registration gets an index at which some node holds an entry. -/
def Clean : List (CacheOp α) → CacheState α → Prop
  | [], _ => True
  | op :: ops, s => (∀ ty, op = .register ty → ∀ n, s.entry n (nextFreeIndex s.usage).1 = none) ∧
      ∀ o s', s.step op = .ok (o, s') → Clean ops s'

/-- How program and specification correspond. -/
structure Rel (s : CacheState α) (a : CacheSpec α) : Prop where
  good : Good s
  alive : ∀ h : ℕ, a.alive[h]? = (s.slots[h]?).map Option.isSome
  cells : ∀ h i ty : ℕ, s.slots[h]? = some (some (i, ty)) → ∀ n, a.cell h n = match s.entry n i with
    | none => (none, false)
    | some e => (e.value, e.valid)
  types : ∀ h i ty : ℕ, s.slots[h]? = some (some (i, ty)) → ∀ n e, s.entry n i = some e → e.ty = ty

theorem Rel.length {s : CacheState α} {a : CacheSpec α} (h : Rel s a) : a.alive.length = s.slots.length := by
  have key : ∀ k : ℕ, a.alive.length ≤ k ↔ s.slots.length ≤ k := by
    intro k
    rw [← List.getElem?_eq_none_iff, h.alive, Option.map_eq_none_iff, List.getElem?_eq_none_iff]
  have h1 := (key a.alive.length).1 (Nat.le_refl _)
  have h2 := (key s.slots.length).2 (Nat.le_refl _)
  omega

theorem rel_put {s : CacheState α} {a : CacheSpec α} (hr : Rel s a) (h n i ty : ℕ) (hs : s.slots[h]? = some (some (i, ty)))
    (e : CacheEntry α) (hty : e.ty = ty) (c : Option α × Bool) (hc : c = (e.value, e.valid)) : Rel (s.setEntry n i e) (a.put h n c) := by
  refine ⟨⟨hr.good.used, hr.good.distinct⟩, hr.alive, ?_, ?_⟩
  · intro h' i' ty' hs' n'
    have hs' : s.slots[h']? = some (some (i', ty')) := hs'
    rw [entry_setEntry]
    change Function.update a.cell h (Function.update (a.cell h) n c) h' n' = _
    by_cases hh : h' = h
    · subst hh
      rw [hs, Option.some.injEq, Option.some.injEq, Prod.mk.injEq] at hs'
      rw [Function.update_self, Function.update_apply]
      by_cases hn : n' = n
      · rw [if_pos hn, if_pos ⟨hn, hs'.1.symm⟩, hc]
      · rw [if_neg hn, if_neg (fun h => hn h.1), hr.cells h' i ty hs n', hs'.1]
    · rw [Function.update_apply, if_neg hh, if_neg, hr.cells h' i' ty' hs' n']
      rintro ⟨-, rfl⟩
      exact hh (hr.good.distinct h' h i' ty' ty hs' hs)
  · intro h' i' ty' hs' n' e' he'
    have hs' : s.slots[h']? = some (some (i', ty')) := hs'
    rw [entry_setEntry] at he'
    split at he'
    · rename_i hni
      rw [Option.some.injEq] at he'
      rw [← he', hty]
      have := hr.good.distinct h' h i' ty' ty hs' (by rw [hni.2]; exact hs)
      rw [this, hs, Option.some.injEq, Option.some.injEq, Prod.mk.injEq] at hs'
      exact hs'.2
    · exact hr.types h' i' ty' hs' n' e' he'

theorem put_same (a : CacheSpec α) (h n : ℕ) : a.put h n (a.cell h n) = a := by
  unfold CacheSpec.put
  rw [Function.update_eq_self, Function.update_eq_self]

theorem rel_access {s : CacheState α} {a : CacheSpec α} (hr : Rel s a) (h n : ℕ) :
    (∃ i ty e, s.slots[h]? = some (some (i, ty)) ∧ e.ty = ty ∧ s.access h n = .ok (i, e) ∧ a.cell h n = (e.value, e.valid) ∧
      a.alive[h]? = some true) ∨ (s.access h n = .ub ∧ a.alive[h]? ≠ some true) := by
  rcases slot_cases s h with ⟨⟨i, ty⟩, hx⟩ | hx
  · left
    have hs := slot_ok hx
    have ha : a.alive[h]? = some true := by rw [hr.alive, hs]; rfl
    have hcell := hr.cells h i ty hs n
    unfold access
    rw [hx, Outcome.bind_ok]
    rcases hen : s.entry n i with _ | e
    · refine ⟨i, ty, _, hs, rfl, rfl, ?_, ha⟩
      rw [hcell, hen]
    · simp only []
      have := hr.types h i ty hs n e hen
      rw [if_pos this]
      exact ⟨i, ty, e, hs, this, rfl, by rw [hcell, hen], ha⟩
  · right
    constructor
    · unfold access; rw [hx]; rfl
    · rw [hr.alive]
      unfold slot at hx
      intro hc
      obtain ⟨x, h1, h2⟩ := Option.map_eq_some_iff.1 hc
      rcases x with _ | x
      · cases h2
      · rw [h1] at hx; cases hx

theorem rel_step {s : CacheState α} {a : CacheSpec α} (hr : Rel s a) (op : CacheOp α)
    (hc : ∀ ty, op = .register ty → ∀ n, s.entry n (nextFreeIndex s.usage).1 = none) :
    (∃ o s' a', s.step op = .ok (o, s') ∧ a.step op = .ok (o, a') ∧ Rel s' a') ∨ (s.step op = .ub ∧ a.step op = .ub) := by
  have hacc : ∀ (h n : ℕ) (f : ℕ × CacheEntry α → Outcome (CacheObs α × CacheState α)) (q : CacheObs α × CacheSpec α),
      (∀ i e, a.cell h n = (e.value, e.valid) → ∃ e' : CacheEntry α, e'.ty = e.ty ∧ f (i, e) = .ok (q.1, s.setEntry n i e') ∧
        q.2 = a.put h n (e'.value, e'.valid)) →
      (∃ o s' a', (s.access h n).bind f = .ok (o, s') ∧ a.need h q = .ok (o, a') ∧ Rel s' a') ∨
      ((s.access h n).bind f = .ub ∧ a.need h q = .ub) := by
    intro h n f q hf
    rcases rel_access hr h n with ⟨i, ty, e, hs, hty, hac, hcell, hal⟩ | ⟨hac, hal⟩
    · left
      obtain ⟨e', h1, h2, h3⟩ := hf i e hcell
      refine ⟨q.1, s.setEntry n i e', q.2, by rw [hac, Outcome.bind_ok, h2], by unfold CacheSpec.need; rw [if_pos hal], ?_⟩
      rw [h3]
      exact rel_put hr h n i ty hs e' (h1.trans hty) _ rfl
    · right
      exact ⟨by rw [hac]; rfl, by unfold CacheSpec.need; rw [if_neg hal]⟩
  cases op with
  | register ty =>
    left
    have hlen := hr.length
    refine ⟨_, _, _, rfl, by simp only [CacheSpec.step]; rw [hlen], ?_⟩
    refine ⟨good_register hr.good ty, fun h => ?_, fun h i t hs n => ?_, fun h i t hs n e he => ?_⟩
    · simp only []
      rcases Nat.lt_trichotomy h s.slots.length with h1 | h1 | h1
      · rw [List.getElem?_append_left (by omega), List.getElem?_append_left h1]
        exact hr.alive h
      · subst h1
        rw [List.getElem?_append_right (by omega), List.getElem?_append_right (Nat.le_refl _), hlen]
        simp
      · rw [List.getElem?_eq_none (by simp; omega), List.getElem?_eq_none (by simp; omega)]
        rfl
    · simp only [] at hs ⊢
      change _ = match s.entry n i with
        | none => (none, false)
        | some e => (e.value, e.valid)
      rcases Nat.lt_trichotomy h s.slots.length with h1 | h1 | h1
      · rw [List.getElem?_append_left h1] at hs
        rw [Function.update_apply, if_neg (by omega)]
        exact hr.cells h i t hs n
      · subst h1
        simp only [List.getElem?_append_right (Nat.le_refl _), Nat.sub_self, List.getElem?_cons_zero, Option.some.injEq, Prod.mk.injEq] at hs
        rw [← hs.1, hc ty rfl n, Function.update_self]
      · rw [List.getElem?_eq_none (by simp; omega)] at hs
        cases hs
    · simp only [] at hs
      have he : s.entry n i = some e := he
      rcases Nat.lt_trichotomy h s.slots.length with h1 | h1 | h1
      · rw [List.getElem?_append_left h1] at hs
        exact hr.types h i t hs n e he
      · subst h1
        simp only [List.getElem?_append_right (Nat.le_refl _), Nat.sub_self, List.getElem?_cons_zero, Option.some.injEq, Prod.mk.injEq] at hs
        rw [← hs.1, hc ty rfl n] at he
        cases he
      · rw [List.getElem?_eq_none (by simp; omega)] at hs
        cases hs
  | release h =>
    simp only [step, CacheSpec.step]
    rcases slot_cases s h with ⟨⟨i, ty⟩, hx⟩ | hx
    · left
      have hs := slot_ok hx
      have ha : a.alive[h]? = some true := by rw [hr.alive, hs]; rfl
      rw [hx, Outcome.bind_ok]
      refine ⟨_, _, _, rfl, by unfold CacheSpec.need; rw [if_pos ha], ?_⟩
      have key : ∀ k j t : ℕ, (s.slots.set h none)[k]? = some (some (j, t)) → s.slots[k]? = some (some (j, t)) := by
        intro k j t h1
        rw [List.getElem?_set] at h1
        split at h1
        · split at h1 <;> cases h1
        · exact h1
      refine ⟨good_release hr.good h i ty hs, fun k => ?_, fun k j t hk n => hr.cells k j t (key k j t hk) n,
        fun k j t hk n e he => hr.types k j t (key k j t hk) n e he⟩
      simp only [List.getElem?_set]
      rw [hr.length]
      split
      · split <;> rfl
      · exact hr.alive k
    · right
      refine ⟨by rw [hx]; rfl, ?_⟩
      unfold CacheSpec.need
      rw [if_neg]
      rcases rel_access hr h 0 with ⟨i, ty, e, hs, -⟩ | ⟨-, hal⟩
      · rw [slot_of hs] at hx; cases hx
      · exact hal
  | write h n v =>
    refine hacc h n _ _ fun i e hcell => ⟨⟨e.ty, some v, e.valid⟩, rfl, rfl, ?_⟩
    simp only [hcell]
  | read h n =>
    refine hacc h n _ _ fun i e hcell => ⟨e, rfl, ?_, ?_⟩
    · simp only [hcell]
    · simp only []
      rw [← hcell, put_same]
  | get h n u =>
    refine hacc h n _ _ fun i e hcell => ?_
    simp only [hcell]
    rcases hv : e.valid with _ | _
    · exact ⟨⟨e.ty, some u, true⟩, rfl, by simp, by simp⟩
    · refine ⟨e, rfl, by simp, ?_⟩
      rw [if_pos rfl]
      simp only []
      rw [← hcell, put_same]
  | setValid h n b =>
    refine hacc h n _ _ fun i e hcell => ⟨⟨e.ty, e.value, b⟩, rfl, rfl, ?_⟩
    simp only [hcell]
  | isValid h n =>
    refine hacc h n _ _ fun i e hcell => ⟨e, rfl, ?_, ?_⟩
    · simp only [hcell]
    · simp only []
      rw [← hcell, put_same]

theorem rel_run : ∀ (ops : List (CacheOp α)) (s : CacheState α) (a : CacheSpec α), Rel s a → Clean ops s →
    (run ops s).map Prod.fst = (CacheSpec.run ops a).map Prod.fst
  | [], s, a, _, _ => rfl
  | op :: ops, s, a, hr, hc => by
    simp only [run, CacheSpec.run]
    rcases rel_step hr op hc.1 with ⟨o, s', a', h1, h2, h3⟩ | ⟨h1, h2⟩
    · rw [h1, h2, Outcome.bind_ok, Outcome.bind_ok]
      have ih := rel_run ops s' a' h3 (hc.2 o s' h1)
      simp only []
      rcases g1 : run ops s' with q | _ | _ <;> rcases g2 : CacheSpec.run ops a' with q' | _ | _ <;> rw [g1, g2] at ih
      · simp only [Outcome.map_ok, Outcome.ok.injEq] at ih
        simp [ih]
      all_goals first | rfl | cases ih
    · rw [h1, h2]; rfl

theorem rel_empty : Rel (empty : CacheState α) CacheSpec.empty :=
  ⟨good_empty, fun h => by simp [empty, CacheSpec.empty], fun h i ty hs => by simp [empty] at hs, fun h i ty hs => by simp [empty] at hs⟩

/-- C37: every program in which no registration gets an index with left over entries sees exactly what it would see if each slot had
its own cell on every node, without a value and invalid at first.  (What is missing: indices with left over entries, see
`C37_stale_value`, `C37_type_confusion`.) -/
theorem C37_refines_partial (ops : List (CacheOp α)) (hc : Clean ops empty) :
    (run ops empty).map Prod.fst = (CacheSpec.run ops CacheSpec.empty).map Prod.fst :=
  rel_run ops empty CacheSpec.empty rel_empty hc

/-! Without releases nothing can be left over. -/

/-- All indices in use so far were handed out, and entries only exist at those. -/
structure Packed (s : CacheState α) : Prop where
  full : ∀ b ∈ s.usage, b = true
  bound : ∀ h i ty : ℕ, s.slots[h]? = some (some (i, ty)) → i < s.usage.length
  entries : ∀ n i, s.usage.length ≤ i → s.entry n i = none

theorem nextFree_full : ∀ l : List Bool, (∀ b ∈ l, b = true) → nextFreeIndex l = (l.length, l ++ [true])
  | [], _ => rfl
  | b :: r, h => by
    obtain rfl : b = true := h b (by simp)
    simp only [nextFreeIndex]
    rw [nextFree_full r fun x hx => h x (by simp [hx])]
    simp

theorem packed_clean : ∀ (ops : List (CacheOp α)), (∀ h, CacheOp.release h ∉ ops) → ∀ s : CacheState α, Packed s → Clean ops s
  | [], _, _, _ => trivial
  | op :: ops, hn, s, hp => by
    refine ⟨fun ty _ n => hp.entries n _ (by rw [nextFree_full s.usage hp.full]; exact Nat.le_refl _), fun o s' hs => ?_⟩
    refine packed_clean ops (fun h hh => hn h (by simp [hh])) s' ?_
    have hset : ∀ (n i : ℕ) (e : CacheEntry α), i < s.usage.length → Packed (s.setEntry n i e) := by
      intro n i e hi
      refine ⟨hp.full, hp.bound, fun n' i' hi' => ?_⟩
      have hi' : s.usage.length ≤ i' := hi'
      rw [entry_setEntry, if_neg (by omega)]
      exact hp.entries n' i' hi'
    have hacc : ∀ (k n : ℕ) (f : ℕ × CacheEntry α → Outcome (CacheObs α × CacheState α)),
        (∀ x o s', f x = .ok (o, s') → ∃ e, s' = s.setEntry n x.1 e) → (s.access k n).bind f = .ok (o, s') → Packed s' := by
      intro k n f hf hb
      rcases access_cases s k n with ⟨i, e, he, ty, hi⟩ | he
      · rw [he, Outcome.bind_ok] at hb
        obtain ⟨e', hs'⟩ := hf _ _ _ hb
        rw [hs']
        exact hset n i e' (hp.bound k i ty hi)
      · rw [he] at hb; cases hb
    have hok : ∀ {o o' : CacheObs α} {n i : ℕ} {e : CacheEntry α} {t' : CacheState α}, Outcome.ok (o, s.setEntry n i e) = Outcome.ok (o', t') →
        ∃ e, t' = s.setEntry n i e := by
      intro o o' n i e t' h
      rw [Outcome.ok.injEq, Prod.mk.injEq] at h
      exact ⟨e, h.2.symm⟩
    cases op with
    | register ty =>
      simp only [step, Outcome.ok.injEq, Prod.mk.injEq] at hs
      rw [← hs.2, nextFree_full s.usage hp.full]
      refine ⟨fun b hb => ?_, fun h i t hi => ?_, fun n i hi => hp.entries n i ?_⟩
      · simp only [List.mem_append, List.mem_singleton] at hb
        rcases hb with hb | hb
        · exact hp.full b hb
        · exact hb
      · simp only [List.length_append, List.length_singleton]
        simp only [] at hi
        rcases Nat.lt_trichotomy h s.slots.length with h1 | h1 | h1
        · rw [List.getElem?_append_left h1] at hi
          have := hp.bound h i t hi
          omega
        · subst h1
          simp only [List.getElem?_append_right (Nat.le_refl _), Nat.sub_self, List.getElem?_cons_zero, Option.some.injEq, Prod.mk.injEq] at hi
          omega
        · rw [List.getElem?_eq_none (by simp; omega)] at hi
          cases hi
      · simp only [List.length_append, List.length_singleton] at hi
        omega
    | release h => exact absurd (by simp) (hn h)
    | write k n v => exact hacc k n _ (fun x o s' h => hok h) hs
    | read k n => exact hacc k n _ (fun x o s' h => hok h) hs
    | get k n u =>
      refine hacc k n _ (fun x o s' h => ?_) hs
      split at h
      · exact hok h
      · exact hok h
    | setValid k n b => exact hacc k n _ (fun x o s' h => hok h) hs
    | isValid k n => exact hacc k n _ (fun x o s' h => hok h) hs

/-- C37: in particular the cache is right for every program that never releases a slot. -/
theorem C37_no_release_partial (ops : List (CacheOp α)) (hn : ∀ h, CacheOp.release h ∉ ops) :
    (run ops empty).map Prod.fst = (CacheSpec.run ops CacheSpec.empty).map Prod.fst :=
  C37_refines_partial ops (packed_clean ops hn empty ⟨fun b hb => by simp [empty] at hb, fun h i ty hs => by simp [empty] at hs,
    fun n i _ => by simp [empty, entry]⟩)

/-- C37 is violated: a new slot finds the value of a released one, marked as valid. -/
theorem C37_stale_value (v : α) (n ty : ℕ) :
    (run [.register ty, .get 0 n v, .release 0, .register ty, .isValid 1 n, .read 1 n] empty).map Prod.fst =
      .ok [.handle 0, .value (some v), .nothing, .handle 1, .flag true, .value (some v)] := by
  simp [run, step, empty, nextFreeIndex, slot, access, entry, setEntry, resizeTo, Outcome.bind, Outcome.map]

/-- C37 is violated: if the new slot is for another type, the old value is used as if it had that type. -/
theorem C37_type_confusion (v : α) (n ty ty' : ℕ) (h : ty ≠ ty') :
    run [.register ty, .write 0 n v, .release 0, .register ty', .read 1 n] empty = .ub := by
  simp [run, step, empty, nextFreeIndex, slot, access, entry, setEntry, resizeTo, Outcome.bind, h]

/-- Not vacuous: a program with two slots, two nodes and a harmless release. -/
example : Clean [.register 0, .release 0, .register 1, .register 0, .write 1 5 (7 : ℕ), .get 2 5 8, .read 1 5] empty ∧
    (run [.register 0, .release 0, .register 1, .register 0, .write 1 5 (7 : ℕ), .get 2 5 8, .read 1 5] empty).map Prod.fst =
      .ok [.handle 0, .nothing, .handle 1, .handle 2, .nothing, .value (some 8), .value (some 7)] := by
  refine ⟨?_, by decide +kernel⟩
  simp [Clean, step, empty, nextFreeIndex, slot, access, entry, setEntry, resizeTo, Outcome.bind]

end CacheState

end Verif
