import Mathlib.Tactic
import Verif.Model.PythonLifetimes

/-!
# C102: Python objects of the optimisation module can be used as long as the program holds them

A Python program can use every object it has a name for, whatever other names it has dropped, without reading memory that is gone.
This fails for expressions, motion errors, simple errors and problems: they hold no reference to the object they were made from.  It holds for design
variables, spline copies and everything made from rolling shutter objects but motion errors; and for every object while what it points to is held.
-/

set_option linter.unusedSectionVars false

namespace Verif
namespace PyLife

/-! ## Specification: what the program holds -/

/-- The program can get at the object `o`: it has a name for it or for one of its design variables. -/
def Spec.Held (s : Session) (o : ℕ) : Prop :=
  o ∈ s.names ∨ ∃ p ∈ s.names, ∃ r c i, s.heap[p]? = some ⟨.handle o c i, r⟩

/-- The objects an evaluation of the object `p` has to find in memory. -/
inductive Spec.Needs (s : Session) : ℕ → ℕ → Prop
  | handle {p r o c i} : s.heap[p]? = some ⟨.handle o c i, r⟩ → c ≠ .rolling → Spec.Needs s p o
  | expr {p r o c} : s.heap[p]? = some ⟨.expr o c, r⟩ → c ≠ .rolling → Spec.Needs s p o
  | motionError {p r o} : s.heap[p]? = some ⟨.motionError o, r⟩ → Spec.Needs s p o
  | simpleError {p r o e} : s.heap[p]? = some ⟨.simpleError o e, r⟩ → Spec.Needs s p e
  | through {p r o e q} : s.heap[p]? = some ⟨.simpleError o e, r⟩ → Spec.Needs s e q → Spec.Needs s p q
  | problem {p r o terms} : s.heap[p]? = some ⟨.problem terms, r⟩ → o ∈ terms → Spec.Needs s p o

/-! ## Reference counts -/

/-- The number of living objects that hold a reference to `o`. -/
def keepers (h : List Obj) (o : ℕ) : ℕ := h.countP fun ob => decide (0 < ob.refs) && decide (ob.kind.keeps = some o)

/-- Counts are right, `f` being the number of outside references; the pointers of an object lead to older ones. -/
structure Counted (h : List Obj) (f : ℕ → ℕ) : Prop where
  refs : ∀ (o : ℕ) (ob : Obj), h[o]? = some ob → ob.refs = f o + keepers h o
  out : ∀ o, h.length ≤ o → f o = 0
  older : ∀ (o : ℕ) (ob : Obj) (q : ℕ), h[o]? = some ob → ob.kind.keeps = some q → q < o

theorem keepers_set {h : List Obj} {o : ℕ} {ob nb : Obj} (e : h[o]? = some ob) (q : ℕ) :
    keepers (h.set o nb) q + (if 0 < ob.refs ∧ ob.kind.keeps = some q then 1 else 0) =
      keepers h q + if 0 < nb.refs ∧ nb.kind.keeps = some q then 1 else 0 := by
  obtain ⟨hlt, he⟩ := List.getElem?_eq_some_iff.1 e
  have hc := List.countP_set (p := fun ob : Obj => decide (0 < ob.refs) && decide (ob.kind.keeps = some q)) (l := h) (i := o) (a := nb) hlt
  have hpos : (decide (0 < ob.refs) && decide (ob.kind.keeps = some q)) = true → 0 < keepers h q := fun hp =>
    List.countP_pos_iff.2 ⟨ob, he ▸ List.getElem_mem hlt, hp⟩
  unfold keepers at hpos ⊢
  rw [hc, he]
  simp only [Bool.and_eq_true, decide_eq_true_eq] at hpos ⊢
  by_cases h1 : 0 < ob.refs ∧ ob.kind.keeps = some q
  · have := hpos h1
    simp only [if_pos h1]
    omega
  · simp only [if_neg h1]
    omega

theorem getElem?_set_self' {h : List Obj} {o : ℕ} {ob nb : Obj} (e : h[o]? = some ob) : (h.set o nb)[o]? = some nb := by
  obtain ⟨hlt, -⟩ := List.getElem?_eq_some_iff.1 e
  rw [List.getElem?_set]; simp [hlt]

theorem map_kind_set {h : List Obj} {o : ℕ} {ob : Obj} (e : h[o]? = some ob) (r : ℕ) :
    (h.set o { ob with refs := r }).map Obj.kind = h.map Obj.kind := by
  apply List.ext_getElem?
  intro i
  rw [List.getElem?_map, List.getElem?_map]
  by_cases hio : i = o
  · subst hio
    rw [getElem?_set_self' e, e]; rfl
  · rw [List.getElem?_set_ne (Ne.symm hio)]

/-- Giving up a reference keeps the counts right and the objects what they are. -/
theorem decref_counted (fuel : ℕ) : ∀ (o : ℕ) (h : List Obj) (f g : ℕ → ℕ), o < fuel → Counted h f → o < h.length →
    (∀ q, f q = g q + if q = o then 1 else 0) →
    Counted (decref fuel o h) g ∧ (decref fuel o h).map Obj.kind = h.map Obj.kind := by
  induction fuel with
  | zero => intro o h f g hf; omega
  | succ n ih =>
    intro o h f g hf hc hlt hg
    obtain ⟨ob, e⟩ : ∃ ob, h[o]? = some ob := ⟨h[o], List.getElem?_eq_getElem hlt⟩
    have hr := hc.refs o ob e
    have hgo := hg o
    rw [if_pos rfl] at hgo
    have hk : (h.set o { ob with refs := ob.refs - 1 }).map Obj.kind = h.map Obj.kind := map_kind_set e _
    have hold : ∀ (p : ℕ) (pb : Obj) (q : ℕ), (h.set o { ob with refs := ob.refs - 1 })[p]? = some pb → pb.kind.keeps = some q → q < p := by
      intro p pb q hp hq
      by_cases hpo : p = o
      · subst hpo
        rw [getElem?_set_self' e] at hp
        obtain rfl := Option.some.inj hp
        exact hc.older p ob q e hq
      · rw [List.getElem?_set_ne (Ne.symm hpo)] at hp
        exact hc.older p pb q hp hq
    unfold decref
    simp only [e]
    by_cases h1 : ob.refs = 1
    · rw [if_pos h1]
      have hks : ∀ q, keepers (h.set o { ob with refs := ob.refs - 1 }) q + (if ob.kind.keeps = some q then 1 else 0) = keepers h q := by
        intro q
        have := keepers_set (nb := { ob with refs := ob.refs - 1 }) e q
        simp only [h1, Nat.sub_self, lt_irrefl, false_and, if_false, zero_lt_one, true_and, add_zero] at this ⊢
        exact this
      cases hkp : ob.kind.keeps with
      | none =>
        show Counted (h.set o { ob with refs := ob.refs - 1 }) g ∧ (h.set o { ob with refs := ob.refs - 1 }).map Obj.kind = _
        refine ⟨⟨fun p pb hp => ?_, fun p hp => ?_, hold⟩, hk⟩
        · have := hks p
          rw [hkp, if_neg (by simp)] at this
          by_cases hpo : p = o
          · subst hpo
            rw [getElem?_set_self' e] at hp
            obtain rfl := Option.some.inj hp
            show ob.refs - 1 = _
            simp only [add_zero] at this
            omega
          · rw [List.getElem?_set_ne (Ne.symm hpo)] at hp
            have h2 := hc.refs p pb hp
            have h3 := hg p
            rw [if_neg hpo] at h3
            simp only [add_zero] at this h3
            omega
        · have := hc.out p (by simpa using hp)
          have h3 := hg p
          omega
      | some q =>
        have hqo := hc.older o ob q e hkp
        have := ih q (h.set o { ob with refs := ob.refs - 1 }) (fun p => g p + if p = q then 1 else 0) g (by omega)
          ⟨fun p pb hp => ?_, fun p hp => ?_, hold⟩ (by simpa using hqo.trans hlt) (fun _ => rfl)
        · exact ⟨this.1, this.2.trans hk⟩
        · have := hks p
          rw [hkp] at this
          simp only [Option.some.injEq] at this
          by_cases hpo : p = o
          · subst hpo
            rw [getElem?_set_self' e] at hp
            obtain rfl := Option.some.inj hp
            show ob.refs - 1 = _
            rw [if_neg (by omega)] at this
            rw [if_neg (by omega)]
            omega
          · rw [List.getElem?_set_ne (Ne.symm hpo)] at hp
            have h2 := hc.refs p pb hp
            have h3 := hg p
            rw [if_neg hpo] at h3
            by_cases hpq : p = q
            · subst hpq
              rw [if_pos rfl] at this ⊢
              omega
            · rw [if_neg (Ne.symm hpq)] at this
              rw [if_neg hpq]
              omega
        · have h2 := hc.out p (by simpa using hp)
          have h3 := hg p
          rw [List.length_set] at hp
          rw [if_neg (by omega)]
          omega
    · rw [if_neg h1]
      refine ⟨⟨fun p pb hp => ?_, fun p hp => ?_, hold⟩, hk⟩
      · have hks : keepers (h.set o { ob with refs := ob.refs - 1 }) p = keepers h p := by
          have := keepers_set (nb := { ob with refs := ob.refs - 1 }) e p
          have hp1 : 0 < ob.refs := by omega
          have hp2 : 0 < ob.refs - 1 := by omega
          simp only [hp1, hp2, true_and] at this
          omega
        rw [hks]
        by_cases hpo : p = o
        · subst hpo
          rw [getElem?_set_self' e] at hp
          obtain rfl := Option.some.inj hp
          show ob.refs - 1 = _
          omega
        · rw [List.getElem?_set_ne (Ne.symm hpo)] at hp
          have h2 := hc.refs p pb hp
          have h3 := hg p
          rw [if_neg hpo] at h3
          omega
      · have := hc.out p (by simpa using hp)
        have h3 := hg p
        omega

theorem incref_counted {h : List Obj} {f g : ℕ → ℕ} {o : ℕ} {ob : Obj} (hc : Counted h f) (e : h[o]? = some ob) (hpos : 0 < ob.refs)
    (hg : ∀ q, g q = f q + if q = o then 1 else 0) : Counted (incref o h) g ∧ (incref o h).map Obj.kind = h.map Obj.kind := by
  obtain ⟨hlt, -⟩ := List.getElem?_eq_some_iff.1 e
  unfold incref
  simp only [e]
  have hks : ∀ p, keepers (h.set o { ob with refs := ob.refs + 1 }) p = keepers h p := by
    intro p
    have := keepers_set (nb := { ob with refs := ob.refs + 1 }) e p
    simp only [hpos, Nat.succ_pos, true_and] at this
    omega
  refine ⟨⟨fun p pb hp => ?_, fun p hp => ?_, fun p pb q hp hq => ?_⟩, ?_⟩
  · rw [hks, hg]
    by_cases hpo : p = o
    · subst hpo
      rw [getElem?_set_self' e] at hp
      obtain rfl := Option.some.inj hp
      have := hc.refs p ob e
      show ob.refs + 1 = _
      rw [if_pos rfl]; omega
    · rw [List.getElem?_set_ne (Ne.symm hpo)] at hp
      have := hc.refs p pb hp
      rw [if_neg hpo]; omega
  · rw [List.length_set] at hp
    rw [hg, hc.out p hp, if_neg (by omega)]
  · by_cases hpo : p = o
    · subst hpo
      rw [getElem?_set_self' e] at hp
      obtain rfl := Option.some.inj hp
      exact hc.older p ob q e hq
    · rw [List.getElem?_set_ne (Ne.symm hpo)] at hp
      exact hc.older p pb q hp hq
  · exact map_kind_set e _

/-! ## The invariant of sessions -/

/-- What is true of every session: counts are right, only design variables hold references, and those to design variable objects. -/
structure Good (s : Session) : Prop where
  counted : Counted s.heap (fun o => s.names.count o)
  kept : ∀ (p : ℕ) (ob : Obj) (q : ℕ), s.heap[p]? = some ob → ob.kind.keeps = some q → ∃ c n r, s.heap[q]? = some (⟨.vars c n, r⟩ : Obj)
  exprs : ∀ (p r o e : ℕ), s.heap[p]? = some ⟨.simpleError o e, r⟩ → ∃ o' c r', s.heap[e]? = some (⟨.expr o' c, r'⟩ : Obj)

theorem good_start : Good Session.start :=
  ⟨⟨fun o ob h => by simp [Session.start] at h, fun o _ => by simp [Session.start], fun o ob q h => by simp [Session.start] at h⟩,
    fun p ob q h => by simp [Session.start] at h, fun p r o e h => by simp [Session.start] at h⟩

theorem get_some {s : Session} (g : Good s) {o : ℕ} {ob : Obj} (e : s.get o = some ob) :
    o ∈ s.names ∧ s.heap[o]? = some ob ∧ 0 < ob.refs ∧ o < s.heap.length := by
  unfold Session.get at e
  split at e
  · rename_i hm
    have := g.counted.refs o ob e
    have h1 : 0 < s.names.count o := List.count_pos_iff.2 hm
    exact ⟨hm, e, by omega, (List.getElem?_eq_some_iff.1 e).1⟩
  · cases e

/-- Sessions with the same kinds of objects share the part of the invariant about kinds. -/
theorem kinds_some {h h' : List Obj} (hk : h'.map Obj.kind = h.map Obj.kind) {p : ℕ} {ob : Obj} (e : h'[p]? = some ob) :
    ∃ r, h[p]? = some ⟨ob.kind, r⟩ := by
  have : (h'.map Obj.kind)[p]? = some ob.kind := by rw [List.getElem?_map, e]; rfl
  rw [hk, List.getElem?_map] at this
  cases hp : h[p]? with
  | none => rw [hp] at this; cases this
  | some x =>
    rw [hp] at this
    have hx : x.kind = ob.kind := Option.some.inj this
    exact ⟨x.refs, by rw [← hx]⟩

theorem good_of_kinds {s : Session} (g : Good s) {h' : List Obj} {names : List ℕ} (hk : h'.map Obj.kind = s.heap.map Obj.kind)
    (hc : Counted h' (fun o => names.count o)) : Good ⟨h', names⟩ := by
  refine ⟨hc, fun p ob q hp hq => ?_, fun p r o e hp => ?_⟩
  · obtain ⟨r, hr⟩ := kinds_some hk hp
    obtain ⟨c, n, r', h2⟩ := g.kept p _ q hr hq
    obtain ⟨r'', h3⟩ := kinds_some hk.symm h2
    exact ⟨c, n, r'', h3⟩
  · obtain ⟨r', hr⟩ := kinds_some hk hp
    obtain ⟨o', c, r'', h2⟩ := g.exprs p _ o e hr
    obtain ⟨r3, h3⟩ := kinds_some hk.symm h2
    exact ⟨o', c, r3, h3⟩

theorem counted_append {h : List Obj} {f g : ℕ → ℕ} {k : Kind} (hc : Counted h f) (hk : ∀ q, k.keeps = some q → q < h.length)
    (hg : ∀ q, g q + (if k.keeps = some q then 1 else 0) = f q + if q = h.length then 1 else 0)
    (hno : keepers h h.length = 0) : Counted (h ++ [⟨k, 1⟩]) g := by
  have hks : ∀ q, keepers (h ++ [⟨k, 1⟩]) q = keepers h q + if k.keeps = some q then 1 else 0 := by
    intro q
    unfold keepers
    rw [List.countP_append, List.countP_singleton]
    simp
  refine ⟨fun p pb hp => ?_, fun p hp => ?_, fun p pb q hp hq => ?_⟩
  · rw [hks]
    have := hg p
    by_cases hpl : p < h.length
    · rw [List.getElem?_append_left hpl] at hp
      have h2 := hc.refs p pb hp
      rw [if_neg (by omega : p ≠ h.length)] at this
      omega
    · obtain ⟨h3, -⟩ := List.getElem?_eq_some_iff.1 hp
      rw [List.length_append, List.length_singleton] at h3
      obtain rfl : p = h.length := by omega
      rw [List.getElem?_append_right (le_refl _), Nat.sub_self] at hp
      obtain rfl := Option.some.inj hp
      have h4 := hc.out h.length (le_refl _)
      rw [if_pos rfl] at this
      show 1 = _
      omega
  · rw [List.length_append, List.length_singleton] at hp
    have h2 := hc.out p (by omega)
    have := hg p
    rw [if_neg (by omega : p ≠ h.length)] at this
    omega
  · by_cases hpl : p < h.length
    · rw [List.getElem?_append_left hpl] at hp
      exact hc.older p pb q hp hq
    · obtain ⟨h3, -⟩ := List.getElem?_eq_some_iff.1 hp
      rw [List.length_append, List.length_singleton] at h3
      obtain rfl : p = h.length := by omega
      rw [List.getElem?_append_right (le_refl _), Nat.sub_self] at hp
      obtain rfl := Option.some.inj hp
      exact hk q hq

theorem no_keepers {h : List Obj} {f : ℕ → ℕ} (hc : Counted h f) {o : ℕ} (ho : h.length ≤ o) : keepers h o = 0 := by
  unfold keepers
  rw [List.countP_eq_zero]
  intro ob hob hp
  simp only [Bool.and_eq_true, decide_eq_true_eq] at hp
  obtain ⟨i, hi, rfl⟩ := List.getElem_of_mem hob
  have := hc.older i _ o (List.getElem?_eq_getElem hi) hp.2
  omega

theorem keepers_le_incref {h : List Obj} {o q : ℕ} {ob : Obj} (e : h[o]? = some ob) (hpos : 0 < ob.refs) :
    keepers (incref o h) q = keepers h q := by
  unfold incref
  simp only [e]
  have := keepers_set (nb := { ob with refs := ob.refs + 1 }) e q
  simp only [hpos, Nat.succ_pos, true_and] at this
  omega

theorem length_of_kinds {h h' : List Obj} (hk : h'.map Obj.kind = h.map Obj.kind) : h'.length = h.length := by
  simpa using congrArg List.length hk

theorem good_push {s : Session} (g : Good s) (k : Kind)
    (hkeep : ∀ q, k.keeps = some q → ∃ c n r, s.heap[q]? = some ⟨.vars c n, r⟩ ∧ 0 < r)
    (hexpr : ∀ o e, k = .simpleError o e → ∃ o' c r, s.heap[e]? = some ⟨.expr o' c, r⟩) : Good (s.push k) := by
  unfold Session.push
  cases hk : k.keeps with
  | none =>
    show Good ⟨s.heap ++ [⟨k, 1⟩], s.heap.length :: s.names⟩
    refine ⟨counted_append g.counted (by simp [hk]) (fun q => ?_) (no_keepers g.counted (le_refl _)), fun p ob q hp hq => ?_, fun p r o e hp => ?_⟩
    · rw [hk, if_neg (by simp), List.count_cons, add_zero]
      simp only [beq_iff_eq, eq_comm (a := q)]
    · by_cases hpl : p < s.heap.length
      · rw [List.getElem?_append_left hpl] at hp
        obtain ⟨c, n, r, h2⟩ := g.kept p ob q hp hq
        exact ⟨c, n, r, by rw [List.getElem?_append_left (List.getElem?_eq_some_iff.1 h2).1]; exact h2⟩
      · obtain ⟨h3, -⟩ := List.getElem?_eq_some_iff.1 hp
        rw [List.length_append, List.length_singleton] at h3
        obtain rfl : p = s.heap.length := by omega
        rw [List.getElem?_append_right (le_refl _), Nat.sub_self] at hp
        obtain rfl := Option.some.inj hp
        rw [hk] at hq; cases hq
    · by_cases hpl : p < s.heap.length
      · rw [List.getElem?_append_left hpl] at hp
        obtain ⟨o', c, r', h2⟩ := g.exprs p r o e hp
        exact ⟨o', c, r', by rw [List.getElem?_append_left (List.getElem?_eq_some_iff.1 h2).1]; exact h2⟩
      · obtain ⟨h3, -⟩ := List.getElem?_eq_some_iff.1 hp
        rw [List.length_append, List.length_singleton] at h3
        obtain rfl : p = s.heap.length := by omega
        rw [List.getElem?_append_right (le_refl _), Nat.sub_self] at hp
        have := Option.some.inj hp
        obtain ⟨o', c, r', h2⟩ := hexpr o e (congrArg Obj.kind this)
        exact ⟨o', c, r', by rw [List.getElem?_append_left (List.getElem?_eq_some_iff.1 h2).1]; exact h2⟩
  | some q =>
    obtain ⟨c, n, r, hq, hr⟩ := hkeep q hk
    have hql := (List.getElem?_eq_some_iff.1 hq).1
    obtain ⟨hc, hkinds⟩ := incref_counted (g := fun p => s.names.count p + if p = q then 1 else 0) g.counted hq hr (fun _ => rfl)
    have hlen := length_of_kinds hkinds
    show Good ⟨incref q s.heap ++ [⟨k, 1⟩], s.heap.length :: s.names⟩
    refine ⟨counted_append hc (fun q' h' => ?_) (fun p => ?_) ?_, fun p ob q' hp hq' => ?_, fun p r o e hp => ?_⟩
    · rw [hk] at h'; obtain rfl := Option.some.inj h'; omega
    · rw [hlen, hk, List.count_cons]
      simp only [Option.some.injEq, beq_iff_eq, eq_comm (a := q), eq_comm (a := s.heap.length)]
      omega
    · rw [hlen, keepers_le_incref hq hr]; exact no_keepers g.counted (le_refl _)
    · have key : ∀ (q2 : ℕ) (c : VarClass) (n r : ℕ), s.heap[q2]? = some (⟨.vars c n, r⟩ : Obj) →
          ∃ c n r, (incref q s.heap ++ [⟨k, 1⟩])[q2]? = some (⟨.vars c n, r⟩ : Obj) := by
        intro q2 c n r h2
        obtain ⟨r', h3⟩ := kinds_some hkinds.symm h2
        exact ⟨c, n, r', by rw [List.getElem?_append_left (List.getElem?_eq_some_iff.1 h3).1]; exact h3⟩
      by_cases hpl : p < (incref q s.heap).length
      · rw [List.getElem?_append_left hpl] at hp
        obtain ⟨r1, h1⟩ := kinds_some hkinds hp
        obtain ⟨c', n', r', h2⟩ := g.kept p _ q' h1 hq'
        exact key q' c' n' r' h2
      · obtain ⟨h3, -⟩ := List.getElem?_eq_some_iff.1 hp
        rw [List.length_append, List.length_singleton] at h3
        obtain rfl : p = (incref q s.heap).length := by omega
        rw [List.getElem?_append_right (le_refl _), Nat.sub_self] at hp
        obtain rfl := Option.some.inj hp
        have hqq : k.keeps = some q' := hq'
        rw [hk] at hqq; obtain rfl := Option.some.inj hqq
        exact key q c n r hq
    · by_cases hpl : p < (incref q s.heap).length
      · rw [List.getElem?_append_left hpl] at hp
        obtain ⟨r1, h1⟩ := kinds_some hkinds hp
        obtain ⟨o', c', r', h2⟩ := g.exprs p _ o e h1
        obtain ⟨r2, h3⟩ := kinds_some hkinds.symm h2
        exact ⟨o', c', r2, by rw [List.getElem?_append_left (List.getElem?_eq_some_iff.1 h3).1]; exact h3⟩
      · obtain ⟨h3, -⟩ := List.getElem?_eq_some_iff.1 hp
        rw [List.length_append, List.length_singleton] at h3
        obtain rfl : p = (incref q s.heap).length := by omega
        rw [List.getElem?_append_right (le_refl _), Nat.sub_self] at hp
        have h4 := congrArg Obj.kind (Option.some.inj hp)
        simp only at h4
        rw [h4] at hk; cases hk

theorem good_step {s s' : Session} (g : Good s) (op : Op) (h : s.step op = .ok s') : Good s' := by
  cases op with
  | newVars c n =>
    simp only [Session.step] at h
    split at h
    · obtain rfl := Outcome.ok.inj h
      exact good_push g _ (by simp [Kind.keeps]) (by simp)
    · cases h
  | spline o =>
    simp only [Session.step] at h
    split at h
    · obtain rfl := Outcome.ok.inj h
      exact good_push g _ (by simp [Kind.keeps]) (by simp)
    · cases h
  | designVariable o i =>
    simp only [Session.step] at h
    split at h
    · rename_i c n r hget
      split at h
      · obtain rfl := Outcome.ok.inj h
        obtain ⟨-, h1, h2, -⟩ := get_some g hget
        refine good_push g _ (fun q hq => ?_) (by simp)
        obtain rfl : o = q := by simpa [Kind.keeps] using hq
        exact ⟨c, n, r, h1, h2⟩
      · cases h
    · cases h
  | expression o =>
    simp only [Session.step] at h
    split at h
    · obtain rfl := Outcome.ok.inj h
      exact good_push g _ (by simp [Kind.keeps]) (by simp)
    · cases h
  | motionError o =>
    simp only [Session.step] at h
    split at h
    · split at h
      · obtain rfl := Outcome.ok.inj h
        exact good_push g _ (by simp [Kind.keeps]) (by simp)
      · cases h
    · cases h
  | simpleError o e =>
    simp only [Session.step] at h
    split at h
    · rename_i n r o' r' hgo hge
      obtain rfl := Outcome.ok.inj h
      refine good_push g _ (by simp [Kind.keeps]) (fun o2 e2 h2 => ?_)
      obtain ⟨rfl, rfl⟩ := Kind.simpleError.inj h2
      exact ⟨o', _, r', (get_some g hge).2.1⟩
    · cases h
  | newProblem =>
    simp only [Session.step] at h
    obtain rfl := Outcome.ok.inj h
    exact good_push g _ (by simp [Kind.keeps]) (by simp)
  | addMotionErrorTerms p o =>
    simp only [Session.step] at h
    split at h
    · rename_i terms r c n r' hgp hgo
      split at h
      · obtain rfl := Outcome.ok.inj h
        obtain ⟨hm, hp, hr, hpl⟩ := get_some g hgp
        have hset : ∀ q, q ≠ p → (s.heap.set p ⟨.problem (terms ++ [o]), r⟩)[q]? = s.heap[q]? := fun q hq =>
          List.getElem?_set_ne (Ne.symm hq)
        have hks : ∀ q, keepers (s.heap.set p ⟨.problem (terms ++ [o]), r⟩) q = keepers s.heap q := by
          intro q
          have := keepers_set (nb := ⟨.problem (terms ++ [o]), r⟩) hp q
          simp only [Kind.keeps] at this
          simpa using this
        refine ⟨⟨fun q qb hq => ?_, fun q hq => ?_, fun q qb x hq hx => ?_⟩, fun q qb x hq hx => ?_, fun q r2 o2 e hq => ?_⟩
        · rw [hks]
          by_cases hqp : q = p
          · subst hqp
            rw [getElem?_set_self' hp] at hq
            obtain rfl := Option.some.inj hq
            exact g.counted.refs q ⟨.problem terms, r⟩ hp
          · rw [hset q hqp] at hq
            exact g.counted.refs q qb hq
        · exact g.counted.out q (by simpa using hq)
        · by_cases hqp : q = p
          · subst hqp
            rw [getElem?_set_self' hp] at hq
            obtain rfl := Option.some.inj hq
            cases hx
          · rw [hset q hqp] at hq
            exact g.counted.older q qb x hq hx
        · by_cases hqp : q = p
          · subst hqp
            rw [getElem?_set_self' hp] at hq
            obtain rfl := Option.some.inj hq
            cases hx
          · rw [hset q hqp] at hq
            obtain ⟨c', n', r3, h3⟩ := g.kept q qb x hq hx
            refine ⟨c', n', r3, ?_⟩
            rw [hset x (by rintro rfl; rw [hp] at h3; cases h3)]
            exact h3
        · by_cases hqp : q = p
          · subst hqp
            rw [getElem?_set_self' hp] at hq
            cases Option.some.inj hq
          · rw [hset q hqp] at hq
            obtain ⟨o', c', r3, h3⟩ := g.exprs q r2 o2 e hq
            refine ⟨o', c', r3, ?_⟩
            rw [hset e (by rintro rfl; rw [hp] at h3; cases h3)]
            exact h3
      · cases h
    · cases h
  | «alias» o =>
    simp only [Session.step] at h
    split at h
    · rename_i ob hget
      obtain rfl := Outcome.ok.inj h
      obtain ⟨-, h1, h2, -⟩ := get_some g hget
      obtain ⟨hc, hk⟩ := incref_counted (g := fun q => (o :: s.names).count q) g.counted h1 h2 (fun q => by
        simp only [List.count_cons, beq_iff_eq, eq_comm (a := o)])
      exact good_of_kinds g hk hc
    · cases h
  | drop o =>
    simp only [Session.step] at h
    split at h
    · rename_i ob hget
      obtain rfl := Outcome.ok.inj h
      obtain ⟨hm, h1, h2, h3⟩ := get_some g hget
      obtain ⟨hc, hk⟩ := decref_counted (o + 1) o s.heap (fun q => s.names.count q) (fun q => (s.names.erase o).count q) (by omega)
        g.counted h3 (fun q => by
          rw [List.count_erase]
          by_cases hq : q = o
          · subst hq
            have := List.count_pos_iff.2 hm
            simp only [beq_self_eq_true, if_true]
            omega
          · have : (o == q) = false := by simpa using Ne.symm hq
            simp [this, hq])
      exact good_of_kinds g hk hc
    · cases h
  | use p =>
    simp only [Session.step] at h
    split at h
    · split at h
      · obtain rfl := Outcome.ok.inj h
        exact g
      · cases h
    · cases h

theorem good_run (ops : List Op) : ∀ {s s' : Session}, Good s → s.run ops = .ok s' → Good s' := by
  induction ops with
  | nil => intro s s' g h; obtain rfl := Outcome.ok.inj h; exact g
  | cons op ops ih =>
    intro s s' g h
    unfold Session.run at h
    split at h
    · rename_i s1 h1; exact ih (good_step g op h1) h
    · exact ih g h
    · cases h

/-- The memory of an object is there exactly while the program can get at it. -/
theorem there_iff {s : Session} (g : Good s) (o : ℕ) : there s.heap o = true ↔ Spec.Held s o := by
  have hdir : ∀ (o : ℕ) (ob : Obj), s.heap[o]? = some ob → 0 < ob.refs → o ∈ s.names ∨ ∃ (p r : ℕ) (c : VarClass) (i : ℕ), s.heap[p]? = some (⟨.handle o c i, r⟩ : Obj) ∧ 0 < r := by
    intro o ob e hr
    have := g.counted.refs o ob e
    by_cases h1 : 0 < s.names.count o
    · exact Or.inl (List.count_pos_iff.1 h1)
    · have h2 : 0 < keepers s.heap o := by omega
      obtain ⟨kb, hkb, hp⟩ := List.countP_pos_iff.1 h2
      simp only [Bool.and_eq_true, decide_eq_true_eq] at hp
      obtain ⟨i, hi, rfl⟩ := List.getElem_of_mem hkb
      refine Or.inr ⟨i, ?_⟩
      have e2 := List.getElem?_eq_getElem hi
      cases hk : s.heap[i] with
      | mk k r =>
        rw [hk] at hp e2
        cases k with
        | handle o' c j =>
          obtain rfl : o' = o := by simpa [Kind.keeps] using hp.2
          exact ⟨r, c, j, e2, hp.1⟩
        | _ => simp [Kind.keeps] at hp
  unfold there
  constructor
  · intro h
    split at h
    · rename_i ob e
      have hr : 0 < ob.refs := by simpa using h
      rcases hdir o ob e hr with h1 | ⟨p, r, c, i, hp, hr'⟩
      · exact Or.inl h1
      · refine Or.inr ⟨p, ?_, r, c, i, hp⟩
        rcases hdir p _ hp hr' with h2 | ⟨p', r2, c2, i2, hp2, -⟩
        · exact h2
        · obtain ⟨c3, n3, r3, h3⟩ := g.kept p' _ p hp2 rfl
          rw [hp] at h3; cases h3
    · cases h
  · rintro (h | ⟨p, hp, r, c, i, e⟩)
    · have h1 : 0 < s.names.count o := List.count_pos_iff.2 h
      have h2 : o < s.heap.length := by
        by_contra hcon
        have := g.counted.out o (by omega)
        omega
      rw [List.getElem?_eq_getElem h2]
      have := g.counted.refs o _ (List.getElem?_eq_getElem h2)
      simp only at this ⊢
      simpa using (by omega : 0 < s.heap[o].refs)
    · obtain ⟨c', n', r', h3⟩ := g.kept p _ o e rfl
      rw [h3]
      have h4 := g.counted.refs o _ h3
      have h5 := g.counted.refs p _ e
      have h6 : 0 < s.names.count p := List.count_pos_iff.2 hp
      have h7 : 0 < keepers s.heap o := by
        refine List.countP_pos_iff.2 ⟨⟨.handle o c i, r⟩, List.mem_of_getElem? e, ?_⟩
        simp only [Kind.keeps, decide_true, Bool.and_true, decide_eq_true_eq]
        simp only at h5; omega
      simp only at h4 ⊢
      simpa using (by omega : 0 < r')

theorem needs_iff {s : Session} {p : ℕ} {k : Kind} {r : ℕ} (e : s.heap[p]? = some ⟨k, r⟩) (hk : ∀ o e, k ≠ .simpleError o e) (q : ℕ) :
    Spec.Needs s p q ↔ q ∈ k.pointsTo := by
  constructor
  · intro h
    cases h with
    | handle h hc => rw [e] at h; cases h; simp [Kind.pointsTo, hc]
    | expr h hc => rw [e] at h; cases h; simp [Kind.pointsTo, hc]
    | motionError h => rw [e] at h; cases h; simp [Kind.pointsTo]
    | simpleError h => rw [e] at h; cases h; exact absurd rfl (hk _ _)
    | through h => rw [e] at h; cases h; exact absurd rfl (hk _ _)
    | problem h hm => rw [e] at h; cases h; exact hm
  · intro h
    cases k with
    | vars c n => simp [Kind.pointsTo] at h
    | copy => simp [Kind.pointsTo] at h
    | handle o c i =>
      by_cases hc : c = .rolling
      · simp [Kind.pointsTo, hc] at h
      · obtain rfl : q = o := by simpa [Kind.pointsTo, hc] using h
        exact .handle e hc
    | expr o c =>
      by_cases hc : c = .rolling
      · simp [Kind.pointsTo, hc] at h
      · obtain rfl : q = o := by simpa [Kind.pointsTo, hc] using h
        exact .expr e hc
    | motionError o =>
      obtain rfl : q = o := by simpa [Kind.pointsTo] using h
      exact .motionError e
    | simpleError o e' => exact absurd rfl (hk o e')
    | problem terms => exact .problem e h

theorem sound_iff {s : Session} (g : Good s) {p : ℕ} {ob : Obj} (e : s.heap[p]? = some ob) :
    sound s.heap ob.kind = true ↔ ∀ q, Spec.Needs s p q → Spec.Held s q := by
  obtain ⟨k, r⟩ := ob
  have plain : (∀ o e, k ≠ .simpleError o e) → ((k.pointsTo.all (there s.heap)) = true ↔ ∀ q, Spec.Needs s p q → Spec.Held s q) := by
    intro hk
    rw [List.all_eq_true]
    exact forall_congr' fun q => by rw [needs_iff e hk, there_iff g]
  cases k with
  | simpleError o e' =>
    obtain ⟨o', c, r', h2⟩ := g.exprs p r o e' e
    have hex := needs_iff (k := .expr o' c) h2 (by simp)
    simp only [sound, h2, Bool.and_eq_true, List.all_eq_true]
    constructor
    · rintro ⟨h3, h4⟩ q hq
      cases hq with
      | handle h => rw [e] at h; cases h
      | expr h => rw [e] at h; cases h
      | motionError h => rw [e] at h; cases h
      | problem h => rw [e] at h; cases h
      | simpleError h => rw [e] at h; cases h; exact (there_iff g _).1 h3
      | through h hn => rw [e] at h; cases h; exact (there_iff g _).1 (h4 q ((hex q).1 hn))
    · intro h
      exact ⟨(there_iff g _).2 (h e' (.simpleError e)), fun q hq => (there_iff g _).2 (h q (.through e ((hex q).2 hq)))⟩
  | _ => exact plain (by simp)

/-! ## C102 -/

/-- C102: in every session, memory is given back exactly when the program can no longer get at the object. -/
theorem C102_lifetime (ops : List Op) (s : Session) (h : Session.start.run ops = .ok s) (o : ℕ) :
    there s.heap o = true ↔ Spec.Held s o := there_iff (good_run ops good_start h) o

/-- C102: in every session, using an object the program holds is undefined exactly if one of the objects it needs is held no longer. -/
theorem C102_use_partial (ops : List Op) (s : Session) (h : Session.start.run ops = .ok s) (p : ℕ) (hp : p ∈ s.names) :
    ((∀ q, Spec.Needs s p q → Spec.Held s q) → s.step (.use p) = .ok s) ∧
    (∀ q, Spec.Needs s p q → ¬ Spec.Held s q → s.step (.use p) = .ub) := by
  have g := good_run ops good_start h
  have hl : p < s.heap.length := by
    by_contra hcon
    have := g.counted.out p (by omega)
    have h1 : 0 < s.names.count p := List.count_pos_iff.2 hp
    omega
  have e := List.getElem?_eq_getElem hl
  have hget : s.get p = some s.heap[p] := by unfold Session.get; rw [if_pos hp, e]
  simp only [Session.step, hget]
  constructor
  · intro hn
    rw [if_pos ((sound_iff g e).2 hn)]
  · intro q hq hq'
    rw [if_neg fun hs => hq' ((sound_iff g e).1 hs q hq)]

/-- C102: design variables, spline copies, and the expressions of rolling shutter objects can be used as long as they are held. -/
theorem C102_safe (ops : List Op) (s : Session) (h : Session.start.run ops = .ok s) (p : ℕ) (hp : p ∈ s.names)
    (k : Kind) (r : ℕ) (e : s.heap[p]? = some ⟨k, r⟩)
    (hk : (∃ o c i, k = .handle o c i) ∨ k = .copy ∨ (∃ c n, k = .vars c n) ∨ ∃ o, k = .expr o .rolling) :
    s.step (.use p) = .ok s := by
  refine (C102_use_partial ops s h p hp).1 fun q hq => ?_
  rcases hk with ⟨o, c, i, rfl⟩ | rfl | ⟨c, n, rfl⟩ | ⟨o, rfl⟩
  · have := (needs_iff e (by simp) q).1 hq
    by_cases hc : c = .rolling
    · simp [Kind.pointsTo, hc] at this
    · obtain rfl : q = o := by simpa [Kind.pointsTo, hc] using this
      exact Or.inr ⟨p, hp, r, c, i, e⟩
  · simpa [Kind.pointsTo] using (needs_iff e (by simp) q).1 hq
  · simpa [Kind.pointsTo] using (needs_iff e (by simp) q).1 hq
  · simpa [Kind.pointsTo] using (needs_iff e (by simp) q).1 hq

/-- C102: a program that at every moment holds what its objects need reads no memory that is gone. -/
theorem C102_careful_partial (ops : List Op)
    (h : ∀ pre post s, ops = pre ++ post → Session.start.run pre = .ok s → ∀ p ∈ s.names, ∀ q, Spec.Needs s p q → Spec.Held s q) :
    ∃ s, Session.start.run ops = .ok s := by
  have run_append : ∀ (l : List Op) (op : Op) (s s' : Session), s.run l = .ok s' →
      s.run (l ++ [op]) = (match s'.step op with | .ok s'' => .ok s'' | .throws => .ok s' | .ub => .ub) := by
    intro l op
    induction l with
    | nil =>
      intro s s' h'
      obtain rfl := Outcome.ok.inj h'
      simp only [List.nil_append, Session.run]
      cases s.step op <;> rfl
    | cons a l ih =>
      intro s s' h'
      unfold Session.run at h'
      rw [List.cons_append]
      unfold Session.run
      split at h'
      · rename_i s1 h1; exact ih s1 s' h'
      · exact ih s s' h'
      · cases h'
  have : ∀ post pre, ops = pre ++ post → (∃ s, Session.start.run pre = .ok s) → ∃ s, Session.start.run ops = .ok s := by
    intro post
    induction post with
    | nil => intro pre e hs; rw [e, List.append_nil]; exact hs
    | cons op post ih =>
      rintro pre e ⟨s, hs⟩
      refine ih (pre ++ [op]) (by simpa using e) ?_
      rw [run_append pre op _ s hs]
      cases hst : s.step op with
      | ok s'' => exact ⟨s'', rfl⟩
      | throws => exact ⟨s, rfl⟩
      | ub =>
        exfalso
        cases op with
        | use p =>
          by_cases hp : p ∈ s.names
          · rw [(C102_use_partial pre s hs p hp).1 (h pre _ s e hs p hp)] at hst; cases hst
          · simp [Session.step, Session.get, hp] at hst
        | newVars c n => simp only [Session.step] at hst; split at hst <;> cases hst
        | spline o => simp only [Session.step] at hst; split at hst <;> cases hst
        | designVariable o i => simp only [Session.step] at hst; split at hst <;> [skip; cases hst]; split at hst <;> cases hst
        | expression o => simp only [Session.step] at hst; split at hst <;> cases hst
        | motionError o => simp only [Session.step] at hst; split at hst <;> [skip; cases hst]; split at hst <;> cases hst
        | simpleError o e => simp only [Session.step] at hst; split at hst <;> cases hst
        | newProblem => simp only [Session.step] at hst; cases hst
        | addMotionErrorTerms p o => simp only [Session.step] at hst; split at hst <;> [skip; cases hst]; split at hst <;> cases hst
        | «alias» o => simp only [Session.step] at hst; split at hst <;> cases hst
        | drop o => simp only [Session.step] at hst; split at hst <;> cases hst
  exact this ops [] rfl ⟨_, rfl⟩

/-- C102: which calls the module offers for a held variable object: motion errors for the poses, the rolling shutter poses, the Euclidean and the
one- to three-dimensional splines, motion error terms of a problem for the same but the rolling shutter poses, and simple errors for
one-dimensional splines with their expressions; and the others raise. -/
theorem C102_offered (s : Session) (o : ℕ) (c : VarClass) (n r : ℕ) (h : s.get o = some ⟨.vars c n, r⟩) :
    (c ∈ [.pose, .rolling, .euclidean, .spline 1, .spline 2, .spline 3] → s.step (.motionError o) = .ok (s.push (.motionError o))) ∧
    (c ∉ [.pose, .rolling, .euclidean, .spline 1, .spline 2, .spline 3] → s.step (.motionError o) = .throws) ∧
    (∀ p terms r', s.get p = some ⟨.problem terms, r'⟩ →
      (c ∈ [.pose, .euclidean, .spline 1, .spline 2, .spline 3] →
        s.step (.addMotionErrorTerms p o) = .ok { s with heap := s.heap.set p ⟨.problem (terms ++ [o]), r'⟩ }) ∧
      (c ∉ [.pose, .euclidean, .spline 1, .spline 2, .spline 3] → s.step (.addMotionErrorTerms p o) = .throws)) ∧
    (∀ e o' c' r', s.get e = some ⟨.expr o' c', r'⟩ →
      (c = .spline 1 ∧ c' = .spline 1 → s.step (.simpleError o e) = .ok (s.push (.simpleError o e))) ∧
      (¬ (c = .spline 1 ∧ c' = .spline 1) → s.step (.simpleError o e) = .throws)) := by
  have hm : c.hasMotionError = true ↔ c ∈ [.pose, .rolling, .euclidean, .spline 1, .spline 2, .spline 3] := by
    cases c with
    | spline D => simp [VarClass.hasMotionError]; omega
    | _ => simp [VarClass.hasMotionError]
  have ht : c.hasMotionTerms = true ↔ c ∈ [.pose, .euclidean, .spline 1, .spline 2, .spline 3] := by
    cases c with
    | spline D => simp [VarClass.hasMotionTerms]; omega
    | _ => simp [VarClass.hasMotionTerms]
  refine ⟨fun hc => ?_, fun hc => ?_, fun p terms r' hp => ⟨fun hc => ?_, fun hc => ?_⟩, fun e o' c' r' he => ⟨?_, fun hc => ?_⟩⟩
  · simp only [Session.step, h, if_pos (hm.2 hc)]
  · simp only [Session.step, h, if_neg (mt hm.1 hc)]
  · simp only [Session.step, h, hp, if_pos (ht.2 hc)]
  · simp only [Session.step, h, hp, if_neg (mt ht.1 hc)]
  · rintro ⟨rfl, rfl⟩
    simp only [Session.step, h, he]
  · simp only [Session.step, h, he]
    split
    · rename_i e1 e2
      simp only [Option.some.injEq, Obj.mk.injEq, Kind.vars.injEq, Kind.expr.injEq] at e1 e2
      exact absurd ⟨e1.1.1, e2.1.2⟩ hc
    · rfl

/-- C102 fails: an expression, a motion error (also of a rolling shutter object), a simple error whose expression was a temporary, and a problem with motion
error terms are used while held, after the name of what they were made from is gone. -/
theorem C102_violated :
    Session.start.run [.newVars (.spline 3) 5, .expression 0, .use 1, .drop 0, .use 1] = .ub ∧
    Session.start.run [.newVars .pose 5, .motionError 0, .drop 0, .use 1] = .ub ∧
    Session.start.run [.newVars .rolling 5, .motionError 0, .drop 0, .use 1] = .ub ∧
    Session.start.run [.newVars (.spline 1) 5, .expression 0, .simpleError 0 1, .use 2, .drop 1, .use 2] = .ub ∧
    Session.start.run [.newProblem, .newVars .euclidean 5, .addMotionErrorTerms 0 1, .use 0, .drop 1, .use 0] = .ub := by
  decide +kernel

/-! ## Examples -/

/-- The hypotheses of `C102_offered`: a program with a problem, a rolling shutter object, a spline and one of its expressions. -/
example : ∃ s, Session.start.run [.newProblem, .newVars .rolling 5, .newVars (.spline 1) 5, .expression 2] = .ok s ∧
    s.get 0 = some ⟨.problem [], 1⟩ ∧ s.get 1 = some ⟨.vars .rolling 5, 1⟩ ∧ s.get 2 = some ⟨.vars (.spline 1) 5, 1⟩ ∧
    s.get 3 = some ⟨.expr 2 (.spline 1), 1⟩ ∧ s.step (.addMotionErrorTerms 0 1) = .throws := ⟨_, rfl, by decide +kernel⟩

/-- A design variable keeps its object, and with it the expressions made from it, alive; a rolling shutter expression outlives its object. -/
example : ∃ s, Session.start.run [.newVars (.spline 3) 5, .designVariable 0 4, .expression 0, .drop 0, .use 1, .use 2] = .ok s ∧
    s.names = [2, 1] ∧ there s.heap 0 = true ∧
    ∃ s', s.run [.drop 1] = .ok s' ∧ there s'.heap 0 = false ∧ s'.run [.use 2] = .ub := by
  refine ⟨_, rfl, by decide +kernel, by decide +kernel, _, rfl, by decide +kernel, by decide +kernel⟩

example : ∃ s, Session.start.run [.newVars .rolling 5, .expression 0, .designVariable 0 2, .drop 0, .use 1, .drop 2, .use 1] = .ok s ∧
    there s.heap 0 = false := ⟨_, rfl, by decide +kernel⟩

/-- Calls with objects of the wrong kind, indices past the end and dropped names raise and change nothing. -/
example : Session.start.run [.newVars (.spline 11) 5, .newVars (.spline 4) 5, .motionError 0, .designVariable 0 5, .newProblem,
    .addMotionErrorTerms 1 0, .drop 0, .expression 0, .use 1] = .ok ⟨[⟨.vars (.spline 4) 5, 0⟩, ⟨.problem [], 1⟩], [1]⟩ := by decide +kernel

end PyLife
end Verif
