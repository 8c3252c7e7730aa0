import Verif.Model.Threads
import Verif.Props.LiveNodes
import Verif.Props.Scripts

/-!
# C106: expression nodes used by several threads at once
-/

set_option linter.unusedSectionVars false

namespace Verif
namespace Threads

/-! ### Threads that keep apart do not notice each other -/

section schedules

variable {L W A B : Type} [DecidableEq L]

/-- A thread that runs alone: its accesses, its result, and the memory afterwards. -/
def solo : Prog L W A → (L → W) → List (L × Bool) × A × (L → W)
  | .done a, m => ([], a, m)
  | .read l next, m => ((l, false) :: (solo (next (m l)) m).1, (solo (next (m l)) m).2)
  | .write l w next, m => ((l, true) :: (solo next (Function.update m l w)).1, (solo next (Function.update m l w)).2)

/-- Whether two accesses of different threads to the same location, not both reading, are among the accesses: a data race, as nothing orders
them. -/
def Race (tr : List (Access L)) : Prop := ∃ a ∈ tr, ∃ b ∈ tr, a.thread ≠ b.thread ∧ a.loc = b.loc ∧ (a.write = true ∨ b.write = true)

/-- No thread, running alone, writes what another one, running alone, reads or writes. -/
def KeepApart (ps : ℕ → Prog L W A) (m : L → W) : Prop :=
  ∀ i j, i ≠ j → ∀ l, (l, true) ∈ (solo (ps i) m).1 → ∀ w, (l, w) ∉ (solo (ps j) m).1

theorem solo_congr (p : Prog L W A) : ∀ (m m' : L → W), (∀ l w, (l, w) ∈ (solo p m).1 → m' l = m l) →
    (solo p m').1 = (solo p m).1 ∧ (solo p m').2.1 = (solo p m).2.1 := by
  induction p with
  | done a => intro m m' _; exact ⟨rfl, rfl⟩
  | read l next ih =>
    intro m m' h
    have e : m' l = m l := h l false (by simp [solo])
    have := ih (m l) m m' fun l' w hl => h l' w (by simp [solo, hl])
    unfold solo
    rw [e, this.1, this.2]
    exact ⟨rfl, rfl⟩
  | write l w next ih =>
    intro m m' h
    have := ih (Function.update m l w) (Function.update m' l w) fun l' w' hl => by
      by_cases e : l' = l
      · subst e; simp
      · rw [Function.update_of_ne e, Function.update_of_ne e]
        exact h l' w' (by simp [solo, hl])
    unfold solo
    rw [this.1, this.2]
    exact ⟨rfl, rfl⟩

theorem solo_memory (p : Prog L W A) : ∀ (m : L → W) (l : L), (l, true) ∉ (solo p m).1 → (solo p m).2.2 l = m l := by
  induction p with
  | done a => intro m l _; rfl
  | read l' next ih => intro m l h; exact ih (m l') m l fun h' => h (by simp [solo, h'])
  | write l' w next ih =>
    intro m l h
    have e : l ≠ l' := fun e => h (by simp [solo, e])
    unfold solo
    rw [ih _ l fun h' => h (by simp [solo, h'])]
    exact Function.update_of_ne e _ _

theorem solo_bind (p : Prog L W A) (f : A → Prog L W B) : ∀ m : L → W,
    solo (p.bind f) m = ((solo p m).1 ++ (solo (f (solo p m).2.1) (solo p m).2.2).1, (solo (f (solo p m).2.1) (solo p m).2.2).2) := by
  induction p with
  | done a => intro m; rfl
  | read l next ih => intro m; show ((l, false) :: (solo ((next (m l)).bind f) m).1, (solo ((next (m l)).bind f) m).2) = _; rw [ih]; rfl
  | write l w next ih =>
    intro m
    show ((l, true) :: (solo (next.bind f) (Function.update m l w)).1, (solo (next.bind f) (Function.update m l w)).2) = _
    rw [ih]
    rfl

theorem solo_step (p : Prog L W A) (m m' : L → W) (l : L) (w : Bool) (p' : Prog L W A) (h : p.step m = some (l, w, p', m')) :
    (solo p m).1 = (l, w) :: (solo p' m').1 ∧ (solo p m).2 = (solo p' m').2 ∧ (w = false → m' = m) ∧ ∀ l', l' ≠ l → m' l' = m l' := by
  cases p with
  | done a => simp [Prog.step] at h
  | read l1 next =>
    simp only [Prog.step, Option.some.injEq, Prod.mk.injEq] at h
    obtain ⟨rfl, rfl, rfl, rfl⟩ := h
    exact ⟨rfl, rfl, fun _ => rfl, fun _ _ => rfl⟩
  | write l1 w1 next =>
    simp only [Prog.step, Option.some.injEq, Prod.mk.injEq] at h
    obtain ⟨rfl, rfl, rfl, rfl⟩ := h
    exact ⟨rfl, rfl, by simp, fun l' e => Function.update_of_ne e _ _⟩

/-- The accesses of one thread. -/
def ofThread (i : ℕ) (tr : List (Access L)) : List (L × Bool) := (tr.filter fun a => a.thread = i).map fun a => (a.loc, a.write)

theorem run_solo : ∀ (is : List ℕ) (ps : ℕ → Prog L W A) (m : L → W), KeepApart ps m → ∀ i,
    ofThread i (run is ps m).1 ++ (solo ((run is ps m).2.1 i) (run is ps m).2.2).1 = (solo (ps i) m).1 ∧
    (solo ((run is ps m).2.1 i) (run is ps m).2.2).2.1 = (solo (ps i) m).2.1
  | [], ps, m, _, i => ⟨rfl, rfl⟩
  | j :: is, ps, m, hk, i => by
    unfold run
    cases hs : (ps j).step m with
    | none => exact run_solo is ps m hk i
    | some x =>
      obtain ⟨l, w, p, m'⟩ := x
      obtain ⟨s1, s2, s3, s4⟩ := solo_step _ _ _ _ _ _ hs
      have keep : ∀ k, k ≠ j → (solo (ps k) m').1 = (solo (ps k) m).1 ∧ (solo (ps k) m').2.1 = (solo (ps k) m).2.1 := by
        intro k hkj
        refine solo_congr _ _ _ fun l' w' hl => ?_
        by_cases e : l' = l
        · cases w with
          | false => rw [s3 rfl]
          | true => exact absurd (e ▸ hl) (hk j k (Ne.symm hkj) l (by rw [s1]; simp) w')
        · exact s4 l' e
      have after : ∀ k, (solo (Function.update ps j p k) m').1 = if k = j then (solo p m').1 else (solo (ps k) m).1 := by
        intro k
        by_cases e : k = j
        · subst e; simp
        · rw [Function.update_of_ne e, if_neg e, (keep k e).1]
      have sub : ∀ k a, a ∈ (solo (Function.update ps j p k) m').1 → a ∈ (solo (ps k) m).1 := by
        intro k a ha
        rw [after] at ha
        by_cases e : k = j
        · subst e; rw [if_pos rfl] at ha; rw [s1]; exact List.mem_cons_of_mem _ ha
        · rwa [if_neg e] at ha
      have hk' : KeepApart (Function.update ps j p) m' := fun i1 i2 hne l' h1 w' h2 => hk i1 i2 hne l' (sub _ _ h1) w' (sub _ _ h2)
      obtain ⟨r1, r2⟩ := run_solo is (Function.update ps j p) m' hk' i
      dsimp only
      by_cases e : i = j
      · subst e
        refine ⟨?_, r2.trans ?_⟩
        · rw [after, if_pos rfl] at r1
          rw [s1, ← r1]
          simp [ofThread]
        · rw [Function.update_self, s2]
      · refine ⟨?_, r2.trans ?_⟩
        · rw [after, if_neg e] at r1
          rw [← r1]
          simp [ofThread, Ne.symm e]
        · rw [Function.update_of_ne e, (keep i e).2]

theorem mem_ofThread {tr : List (Access L)} {a : Access L} (h : a ∈ tr) : (a.loc, a.write) ∈ ofThread a.thread tr :=
  List.mem_map.2 ⟨a, List.mem_filter.2 ⟨h, by simp⟩, rfl⟩

theorem ofThread_length : ∀ (is : List ℕ) (ps : ℕ → Prog L W A) (m : L → W) (i : ℕ),
    (∃ a, (run is ps m).2.1 i = .done a) ∨ is.count i ≤ (ofThread i (run is ps m).1).length
  | [], ps, m, i => Or.inr (by simp)
  | j :: is, ps, m, i => by
    unfold run
    cases hs : (ps j).step m with
    | none =>
      dsimp only
      by_cases e : i = j
      · subst e
        left
        have : ∀ (js : List ℕ) (qs : ℕ → Prog L W A) (m : L → W) (a : A), qs i = .done a → (run js qs m).2.1 i = .done a := by
          intro js
          induction js with
          | nil => intro qs m a h; exact h
          | cons k js ih =>
            intro qs m a h
            unfold run
            cases hk : (qs k).step m with
            | none => exact ih qs m a h
            | some x =>
              obtain ⟨l, w, p, m'⟩ := x
              refine ih _ _ a ?_
              have : i ≠ k := by
                rintro rfl
                rw [h] at hk
                simp [Prog.step] at hk
              rw [Function.update_of_ne this, h]
        cases hp : ps i with
        | done a => exact ⟨a, this is ps m a hp⟩
        | read l next => rw [hp] at hs; simp [Prog.step] at hs
        | write l w next => rw [hp] at hs; simp [Prog.step] at hs
      · rw [List.count_cons_of_ne (Ne.symm e)]
        exact ofThread_length is ps m i
    | some x =>
      obtain ⟨l, w, p, m'⟩ := x
      dsimp only
      refine (ofThread_length is (Function.update ps j p) m' i).imp_right fun h => ?_
      by_cases e : i = j
      · subst e
        rw [List.count_cons_self]
        simpa [ofThread] using h
      · rw [List.count_cons_of_ne (Ne.symm e)]
        simpa [ofThread, Ne.symm e] using h

/-- **Threads that keep apart**: whatever the order in which they run, there is no data race, a thread that is done has the result it has when it
runs alone, and each thread is done when it had enough turns. -/
theorem keepApart_run (ps : ℕ → Prog L W A) (m : L → W) (h : KeepApart ps m) (is : List ℕ) :
    ¬ Race (run is ps m).1 ∧ (∀ i a, (run is ps m).2.1 i = .done a → a = (solo (ps i) m).2.1) ∧
    ∀ i, (solo (ps i) m).1.length < is.count i → ∃ a, (run is ps m).2.1 i = .done a := by
  have mem : ∀ i x, x ∈ ofThread i (run is ps m).1 → x ∈ (solo (ps i) m).1 := fun i x hx => by
    rw [← (run_solo is ps m h i).1]
    exact List.mem_append_left _ hx
  refine ⟨?_, fun i a ha => ?_, fun i hi => ?_⟩
  · rintro ⟨a, ha, b, hb, hne, hl, hw⟩
    have ma := mem _ _ (mem_ofThread ha)
    have mb := mem _ _ (mem_ofThread hb)
    rcases hw with hw | hw
    · rw [hw] at ma
      rw [← hl] at mb
      exact h _ _ hne _ ma _ mb
    · rw [hw] at mb
      rw [hl] at ma
      exact h _ _ (Ne.symm hne) _ mb _ ma
  · have := (run_solo is ps m h i).2
    rw [ha] at this
    exact this
  · refine (ofThread_length is ps m i).resolve_right fun hc => ?_
    have := congrArg List.length (run_solo is ps m h i).1
    rw [List.length_append] at this
    omega

end schedules

/-! ### Calls that run alone -/

open MSpline

section calls

variable {K : Type} [Field K] [LinearOrder K] {P V : Type} {α X R A : Type}

/-- A thread that runs alone ends with a result and a memory, and all its accesses have a property. -/
def Runs (p : Prog Loc (Val K) A) (m : Loc → Val K) (a : A) (m' : Loc → Val K) (F : Loc → Bool → Prop) : Prop :=
  (solo p m).2 = (a, m') ∧ ∀ l w, (l, w) ∈ (solo p m).1 → F l w

theorem Runs.done (a : A) (m : Loc → Val K) (F : Loc → Bool → Prop) : Runs (.done a) m a m F := ⟨rfl, fun _ _ h => by simp [solo] at h⟩

theorem Runs.read {l : Loc} {next : Val K → Prog Loc (Val K) A} {m m' : Loc → Val K} {v : Val K} {a : A} {F : Loc → Bool → Prop} (hv : m l = v)
    (h : Runs (next v) m a m' F) (hF : F l false) : Runs (.read l next) m a m' F := by
  subst hv
  refine ⟨h.1, fun l' w h' => ?_⟩
  rcases List.mem_cons.1 h' with h' | h'
  · obtain ⟨rfl, rfl⟩ := Prod.mk.injEq .. ▸ h'
    exact hF
  · exact h.2 l' w h'

theorem Runs.write {l : Loc} {x : Val K} {next : Prog Loc (Val K) A} {m m' : Loc → Val K} {a : A} {F : Loc → Bool → Prop}
    (h : Runs next (Function.update m l x) a m' F) (hF : F l true) : Runs (.write l x next) m a m' F := by
  refine ⟨h.1, fun l' w h' => ?_⟩
  rcases List.mem_cons.1 h' with h' | h'
  · obtain ⟨rfl, rfl⟩ := Prod.mk.injEq .. ▸ h'
    exact hF
  · exact h.2 l' w h'

theorem Runs.mono {p : Prog Loc (Val K) A} {m m' : Loc → Val K} {a : A} {F G : Loc → Bool → Prop} (h : Runs p m a m' F) (hFG : ∀ l w, F l w → G l w) :
    Runs p m a m' G := ⟨h.1, fun l w hl => hFG l w (h.2 l w hl)⟩

theorem Runs.frame {p : Prog Loc (Val K) A} {m m' : Loc → Val K} {a : A} {F : Loc → Bool → Prop} (h : Runs p m a m' F) (l : Loc) (hl : ¬ F l true) :
    m' l = m l := by
  have := solo_memory p m l fun h' => hl (h.2 l true h')
  rwa [h.1] at this

/-- A vector in memory. -/
def vecOf : Outcome (ℕ → K) → Val K
  | .ok v => .vec v
  | _ => .nothing

/-- The evaluator and the buffers are at `o`. -/
structure At (m : Loc → Val K) (junk : ℕ → K) (o : Owner) (x : Evaluator K × Buffers K) : Prop where
  obj : m (.obj o) = .obj x.1
  vec : ∀ r, m (.vec o r) = vecOf (x.2.deref r)
  fresh : x.2.fresh = fun _ => junk

/-- All requests are for derivatives that the constructor prepared. -/
def Prepared (c : Template) : Script K A → Prop
  | .done _ => True
  | .request cum der next => c.cumulative = cum ∧ der < c.numPrepared ∧ ∀ r, Prepared c (next r)
  | .read _ _ _ next => ∀ x, Prepared c (next x)

/-- Accesses of a query: only the vectors of the evaluator are read, and only `_tmp` is written, if at all. -/
def QueryFoot (c : Template) (o : Owner) (sc : Script K A) (l : Loc) (w : Bool) : Prop :=
  (∃ r, l = .vec o r) ∧ (w = true → l = .vec o .tmp ∧ ¬ Prepared c sc)

theorem query_runs (c : Template) (s : MSpline K P) (junk : ℕ → K) (o : Owner) (e : Evaluator K) (sc : Script K A) :
    ∀ (m : Loc → Val K) (b : Buffers K), At m junk o (e, b) → ∃ m', Runs (queryProg c s junk o e sc) m (sc.toBufM c s e b).1 m' (QueryFoot c o sc) ∧
      At m' junk o (e, (sc.toBufM c s e b).2) := by
  induction sc with
  | done x => intro m b h; exact ⟨m, .done _ _ _, h⟩
  | request cum der next ih =>
    intro m b h
    have foot : ∀ r l w, QueryFoot c o (next r) l w → QueryFoot c o (.request cum der next) l w := fun r l w hl =>
      ⟨hl.1, fun hw => ⟨(hl.2 hw).1, fun hp => (hl.2 hw).2 (hp.2.2 r)⟩⟩
    unfold queryProg Script.toBufM
    simp only [BufM.bind, request]
    by_cases h1 : c.cumulative = cum ∧ der < c.numPrepared
    · rw [if_pos h1, if_pos h1]
      by_cases h2 : der < 0
      · rw [if_pos h2, if_pos h2]
        exact ⟨m, .done _ _ _, h⟩
      · rw [if_neg h2, if_neg h2]
        obtain ⟨m', r, a⟩ := ih (.prepared der.toNat) m b h
        exact ⟨m', r.mono (foot _), a⟩
    · have np : ¬ Prepared c (.request cum der next : Script K A) := fun hp => h1 ⟨hp.1, hp.2.1⟩
      have fw : QueryFoot c o (.request cum der next : Script K A) (.vec o .tmp) true := ⟨⟨_, rfl⟩, fun _ => ⟨rfl, np⟩⟩
      have put : ∀ v : ℕ → K, ∀ fr : ℕ → ℕ → K, (fr = fun _ => junk) →
          At (Function.update m (.vec o .tmp) (.vec v)) junk o (e, { b with tmp := v, fresh := fr }) := fun v fr hf =>
        ⟨by simp [h.obj], fun r => by
          cases r with
          | tmp => simp [Buffers.deref, vecOf]
          | prepared d =>
            rw [Function.update_of_ne (by simp), h.vec]
            rfl, hf⟩
      rw [if_neg h1, if_neg h1]
      by_cases h2 : (s.order : ℤ) ≤ der
      · rw [if_pos h2, if_pos h2]
        obtain ⟨m', r, a⟩ := ih .tmp _ _ (put (fun _ => 0) b.fresh h.fresh)
        exact ⟨m', (r.mono (foot _)).write fw, a⟩
      · rw [if_neg h2, if_neg h2]
        by_cases h3 : der < 0
        · rw [if_pos h3, if_pos h3]
          exact ⟨m, .done _ _ _, h⟩
        · rw [if_neg h3, if_neg h3]
          have hf : b.fresh = fun _ => junk := h.fresh
          rw [show b.fresh 0 = junk by rw [hf]]
          have hv : m (.vec o .tmp) = .vec b.tmp := h.vec .tmp
          have fr : QueryFoot c o (.request cum der next : Script K A) (.vec o .tmp) false := ⟨⟨_, rfl⟩, fun hw => by simp at hw⟩
          cases hc : s.computeLocalBiIntoT cum e der.toNat junk b.tmp with
          | ok v =>
            obtain ⟨m', r, a⟩ := ih .tmp _ _ (put v (fun n => b.fresh (n + 1)) (by rw [hf]))
            refine ⟨m', Runs.read hv ?_ fr, a⟩
            simp only [hc]
            exact (r.mono (foot _)).write fw
          | throws =>
            refine ⟨m, Runs.read hv ?_ fr, h⟩
            simp only [hc]
            exact .done _ _ _
          | ub =>
            refine ⟨m, Runs.read hv ?_ fr, h⟩
            simp only [hc]
            exact .done _ _ _
  | read k r i next ih =>
    intro m b h
    have foot : ∀ x l w, QueryFoot c o (next x) l w → QueryFoot c o (.read k r i next) l w := fun x l w hl =>
      ⟨hl.1, fun hw => ⟨(hl.2 hw).1, fun hp => (hl.2 hw).2 (hp x)⟩⟩
    have fr : QueryFoot c o (.read k r i next : Script K A) (.vec o r) false := ⟨⟨_, rfl⟩, fun hw => by simp at hw⟩
    unfold queryProg Script.toBufM
    simp only [BufM.bind, readEntry]
    cases hd : b.deref r with
    | ok v =>
      have hv : m (.vec o r) = .vec v := by rw [h.vec, hd]; rfl
      cases hg : vget k v i with
      | ok x =>
        obtain ⟨m', r', a⟩ := ih x m b h
        refine ⟨m', Runs.read hv ?_ fr, ?_⟩
        · simp only [hg, Outcome.bind]
          exact r'.mono (foot _)
        · simp only [hg, Outcome.bind]
          exact a
      | throws =>
        refine ⟨m, Runs.read hv ?_ fr, ?_⟩
        · simp only [hg, Outcome.bind]
          exact .done _ _ _
        · simp only [hg, Outcome.bind]
          exact h
      | ub =>
        refine ⟨m, Runs.read hv ?_ fr, ?_⟩
        · simp only [hg, Outcome.bind]
          exact .done _ _ _
        · simp only [hg, Outcome.bind]
          exact h
    | throws => cases r <;> simp [Buffers.deref] at hd; split at hd <;> simp at hd
    | ub =>
      have hv : m (.vec o r) = .nothing := by rw [h.vec, hd]; rfl
      refine ⟨m, Runs.read hv ?_ fr, ?_⟩
      · simp only [Outcome.bind]
        exact .done _ _ _
      · simp only [Outcome.bind]
        exact h

/-- Accesses of a call on an evaluator. -/
def UseFoot (c : Template) (o : Owner) (sc : Script K A) (l : Loc) (w : Bool) : Prop :=
  (l = .obj o ∨ ∃ r, l = .vec o r) ∧ (w = true → l = .vec o .tmp ∧ ¬ Prepared c sc)

theorem useAt_runs (c : Template) (s : MSpline K P) (junk : ℕ → K) (o : Owner) (script : Evaluator K → Script K A) (m : Loc → Val K)
    (x : Evaluator K × Buffers K) (h : At m junk o x) : ∃ m', Runs (useAt c s junk script o) m ((script x.1).toBufM c s x.1 x.2).1 m'
      (UseFoot c o (script x.1)) ∧ At m' junk o (x.1, ((script x.1).toBufM c s x.1 x.2).2) := by
  obtain ⟨m', r, a⟩ := query_runs c s junk o x.1 (script x.1) m x.2 h
  refine ⟨m', Runs.read h.obj ?_ ⟨Or.inl rfl, fun hw => by simp at hw⟩, a⟩
  exact r.mono fun l w hl => ⟨Or.inr hl.1, hl.2⟩

/-- The memory after all prepared vectors are written. -/
def putAll (o : Owner) : ℕ → List (Val K) → (Loc → Val K) → Loc → Val K
  | _, [], m => m
  | d, v :: vs, m => putAll o (d + 1) vs (Function.update m (.vec o (.prepared d)) v)

theorem putAll_other (o : Owner) : ∀ (vs : List (Val K)) (d : ℕ) (m : Loc → Val K) (l : Loc), (∀ j, d ≤ j → l ≠ .vec o (.prepared j)) →
    putAll o d vs m l = m l
  | [], _, _, _, _ => rfl
  | v :: vs, d, m, l, h => by
    unfold putAll
    rw [putAll_other o vs (d + 1) _ l fun j hj => h j (by omega), Function.update_of_ne (h d le_rfl)]

theorem putAll_prepared (o : Owner) : ∀ (vs : List (Val K)) (d : ℕ) (m : Loc → Val K) (j : ℕ),
    putAll o d vs m (.vec o (.prepared (d + j))) = (vs[j]?).getD (m (.vec o (.prepared (d + j))))
  | [], _, _, _ => rfl
  | v :: vs, d, m, 0 => by
    unfold putAll
    rw [putAll_other o vs (d + 1) _ _ fun j hj => by simp; omega]
    simp
  | v :: vs, d, m, j + 1 => by
    unfold putAll
    rw [show d + (j + 1) = d + 1 + j by omega, putAll_prepared o vs (d + 1) _ j, Function.update_of_ne (by simp; omega)]
    simp

theorem writePrepared_runs (o : Owner) (p : Prog Loc (Val K) A) (a : A) (m' : Loc → Val K) (F : Loc → Bool → Prop)
    (hF : ∀ j, F (.vec o (.prepared j)) true) : ∀ (vs : List (Val K)) (d : ℕ) (m : Loc → Val K), Runs p (putAll o d vs m) a m' F →
    Runs (writePrepared o d vs p) m a m' F
  | [], _, _, h => h
  | _ :: vs, d, _, h => Runs.write (writePrepared_runs o p a m' F hF vs (d + 1) _ h) (hF d)

/-- Whose location it is. -/
def Loc.owner : Loc → Option Owner
  | .ptr _ => none
  | .obj o => some o
  | .vec o _ => some o

theorem construct_fresh {c : Template} {s : MSpline K P} {junk : ℕ → K} {t : K} {x : Evaluator K × Buffers K}
    (h : s.construct c t (fun _ => junk) = .ok x) : x.2.fresh = fun _ => junk := by
  obtain ⟨e, -, h⟩ := Outcome.bind_eq_ok.1 h
  obtain ⟨l, -, rfl⟩ := Outcome.map_eq_ok.1 h
  rfl

theorem newEvaluator_runs {c : Template} {s : MSpline K P} {junk : ℕ → K} {o : Owner} {t : K} {m : Loc → Val K} {x : Evaluator K × Buffers K}
    (hx : s.construct c t (fun _ => junk) = .ok x) (hm : ∀ l, l.owner = some o → m l = .nothing) (next : Prog Loc (Val K) (Outcome A)) :
    ∃ m1, At m1 junk o x ∧ (∀ l, l.owner ≠ some o → m1 l = m l) ∧ ∀ (a : Outcome A) (m' : Loc → Val K) (F : Loc → Bool → Prop),
      (∀ l, l.owner = some o → F l true) → Runs next m1 a m' F → Runs (newEvaluator c s junk o t next) m a m' F := by
  obtain ⟨e, b⟩ := x
  refine ⟨Function.update (putAll o 0 (b.prepared.map .vec) (Function.update m (.obj o) (.obj e))) (.vec o .tmp) (.vec b.tmp), ⟨?_, fun r => ?_,
    construct_fresh hx⟩, fun l hl => ?_, fun a m' F hF h => ?_⟩
  · rw [Function.update_of_ne (by simp), putAll_other _ _ _ _ _ (by simp), Function.update_self]
  · cases r with
    | tmp => rw [Function.update_self]; rfl
    | prepared d =>
      rw [Function.update_of_ne (by simp)]
      have := putAll_prepared o (b.prepared.map .vec) 0 (Function.update m (.obj o) (.obj e)) d
      rw [Nat.zero_add] at this
      rw [this, Function.update_of_ne (by simp), hm _ rfl, List.getElem?_map]
      show _ = vecOf (match b.prepared[d]? with | none => .ub | some v => .ok v)
      cases b.prepared[d]? <;> rfl
  · have ne : ∀ l', l'.owner = some o → l ≠ l' := fun l' h e => hl (e ▸ h)
    rw [Function.update_of_ne (ne _ rfl), putAll_other _ _ _ _ _ fun j _ => ne _ rfl, Function.update_of_ne (ne _ rfl)]
  · unfold newEvaluator
    rw [hx]
    exact Runs.write (writePrepared_runs o _ a m' F (fun j => hF _ rfl) _ 0 _ (Runs.write h (hF _ rfl))) (hF _ rfl)

theorem deleteEvaluator_runs {c : Template} {junk : ℕ → K} {o : Owner} {m : Loc → Val K} {x : Evaluator K × Buffers K} (hx : At m junk o x)
    (next : Prog Loc (Val K) (Outcome A)) :
    ∃ m1, (∀ l, l.owner ≠ some o → m1 l = m l) ∧ ∀ (a : Outcome A) (m' : Loc → Val K) (F : Loc → Bool → Prop),
      (∀ l w, l.owner = some o → F l w) → Runs next m1 a m' F → Runs (deleteEvaluator c o next) m a m' F := by
  refine ⟨Function.update (putAll o 0 (List.replicate c.numPrepared.toNat .nothing) (Function.update m (.obj o) .nothing)) (.vec o .tmp) .nothing,
    fun l hl => ?_, fun a m' F hF h => ?_⟩
  · have ne : ∀ l', l'.owner = some o → l ≠ l' := fun l' h e => hl (e ▸ h)
    rw [Function.update_of_ne (ne _ rfl), putAll_other _ _ _ _ _ fun j _ => ne _ rfl, Function.update_of_ne (ne _ rfl)]
  · refine Runs.read hx.obj ?_ (hF _ _ rfl)
    exact Runs.write (writePrepared_runs o _ a m' F (fun j => hF _ _ rfl) _ 0 _ (Runs.write h (hF _ _ rfl))) (hF _ _ rfl)

/-- The data of the factory `f` are in memory; `own` are the evaluators of this factory made by the thread `i`. -/
def Holds (m : Loc → Val K) (junk : ℕ → K) (i : ℕ) (own : ℕ → Prop) (f : ℕ) : LiveData K → Prop
  | .constTime e b => At m junk (.factory f) (e, b)
  | .timed _ _ none => m (.ptr f) = .ptr none
  | .timed _ _ (some x) => ∃ k, own k ∧ m (.ptr f) = .ptr (some (.heap i k)) ∧ At m junk (.heap i k) x

theorem Holds.congr {m m' : Loc → Val K} {junk : ℕ → K} {i : ℕ} {own own' : ℕ → Prop} {f : ℕ} {d : LiveData K} (h : Holds m junk i own f d)
    (ho : ∀ k, own k → own' k) (hp : m' (.ptr f) = m (.ptr f))
    (hm : ∀ l, (l.owner = some (.factory f) ∨ ∃ k, own k ∧ l.owner = some (.heap i k)) → m' l = m l) : Holds m' junk i own' f d := by
  rcases d with ⟨e, b⟩ | ⟨lo, up, _ | x⟩
  · have h : At m junk (.factory f) (e, b) := h
    exact ⟨(hm _ (Or.inl rfl)).trans h.obj, fun r => (hm _ (Or.inl rfl)).trans (h.vec r), h.fresh⟩
  · exact hp.trans h
  · obtain ⟨k, hk, h1, h2⟩ := h
    exact ⟨k, ho k hk, hp.trans h1, (hm _ (Or.inr ⟨k, hk, rfl⟩)).trans h2.obj, fun r => (hm _ (Or.inr ⟨k, hk, rfl⟩)).trans (h2.vec r), h2.fresh⟩

/-- Accesses of a call by the thread `i` on a factory for a variable time: its pointer, and evaluators the thread made. -/
def TimedFoot (f i : ℕ) (own : ℕ → Prop) (l : Loc) : Prop := l = .ptr f ∨ ∃ k, own k ∧ l.owner = some (.heap i k)

section timed

variable {c : Template} {s : MSpline K P} {junk : ℕ → K} {f i n : ℕ} {t lo up : K} {script : Evaluator K → Script K A} {own : ℕ → Prop}

theorem last_runs {m : Loc → Val K} {k : ℕ} {x : Evaluator K × Buffers K} (hk : own k) (hp : m (.ptr f) = .ptr (some (.heap i k)))
    (hx : At m junk (.heap i k) x) : ∃ m', Runs (.read (.ptr f) fun
        | .ptr (some p) => useAt c s junk script p
        | _ => .done .ub) m ((script x.1).toBufM c s x.1 x.2).1 m' (fun l _ => TimedFoot f i own l) ∧
      Holds m' junk i own f (.timed lo up (some (x.1, ((script x.1).toBufM c s x.1 x.2).2))) := by
  obtain ⟨m', r, a⟩ := useAt_runs c s junk (.heap i k) script m x hx
  refine ⟨m', Runs.read hp (r.mono fun l w hl => Or.inr ⟨k, hk, ?_⟩) (Or.inl rfl), k, hk, ?_, a⟩
  · rcases hl.1 with rfl | ⟨r, rfl⟩ <;> rfl
  · rw [r.frame _ fun hf => by simpa using hf.1, hp]

theorem second_runs {m : Loc → Val K} (hn : own n) (hp : m (.ptr f) = .ptr none) (hm : ∀ l, l.owner = some (.heap i n) → m l = .nothing) :
    ∃ m', Runs (.read (.ptr f) fun
        | .ptr none => newEvaluator c s junk (.heap i n) t (.write (.ptr f) (.ptr (some (.heap i n))) (.read (.ptr f) fun
          | .ptr (some p) => useAt c s junk script p
          | _ => .done .ub))
        | .ptr (some _) => .read (.ptr f) fun
          | .ptr (some p) => useAt c s junk script p
          | _ => .done .ub
        | _ => .done .ub) m (match s.construct c t fun _ => junk with
          | .ok x => ((script x.1).toBufM c s x.1 x.2).1
          | .throws => .throws
          | .ub => .ub) m' (fun l _ => TimedFoot f i own l) ∧
      Holds m' junk i own f (.timed lo up (match s.construct c t fun _ => junk with
          | .ok x => some (x.1, ((script x.1).toBufM c s x.1 x.2).2)
          | _ => none)) := by
  cases hx : s.construct c t fun _ => junk with
  | ok x =>
    obtain ⟨m1, a1, f1, r1⟩ := newEvaluator_runs hx hm (.write (.ptr f) (.ptr (some (.heap i n))) (.read (.ptr f) fun
          | .ptr (some p) => useAt c s junk script p
          | _ => .done .ub))
    have a2 : At (Function.update m1 (.ptr f) (.ptr (some (.heap i n)))) junk (.heap i n) x :=
      ⟨by rw [Function.update_of_ne (by simp)]; exact a1.obj, fun r => by rw [Function.update_of_ne (by simp)]; exact a1.vec r, a1.fresh⟩
    obtain ⟨m', r, h⟩ := last_runs (c := c) (s := s) (script := script) (lo := lo) (up := up) hn (Function.update_self _ _ _) a2
    exact ⟨m', Runs.read hp (r1 _ _ _ (fun l hl => Or.inr ⟨n, hn, hl⟩) (Runs.write r (Or.inl rfl))) (Or.inl rfl), h⟩
  | throws =>
    refine ⟨m, Runs.read hp ?_ (Or.inl rfl), hp⟩
    simp only [newEvaluator, hx]
    exact .done _ _ _
  | ub =>
    refine ⟨m, Runs.read hp ?_ (Or.inl rfl), hp⟩
    simp only [newEvaluator, hx]
    exact .done _ _ _

theorem useTimed_new {β : Type} {g : Evaluator K → BufM K β} {cache : Option (Evaluator K × Buffers K)} (h1 : ¬ t < lo) (h2 : ¬ up < t)
    (h : ∀ x, cache = some x → x.1.ti ≠ some t) : (LiveData.timed lo up cache).useEvaluator c s t (fun _ => junk) g =
      (match s.construct c t fun _ => junk with
          | .ok x => (g x.1 x.2).1
          | .throws => .throws
          | .ub => .ub, .timed lo up (match s.construct c t fun _ => junk with
          | .ok x => some (x.1, (g x.1 x.2).2)
          | _ => none)) := by
  have hf : cache.filter (fun x => decide (x.1.ti = some t)) = none := by
    cases cache with
    | none => rfl
    | some x => rw [Option.filter_some, if_neg (by simp [h x rfl])]
  simp only [LiveData.useEvaluator, LiveData.getEvaluator, if_neg h1, if_neg h2, hf]
  cases s.construct c t fun _ => junk <;> rfl

theorem useTimed_again {β : Type} {g : Evaluator K → BufM K β} {x : Evaluator K × Buffers K} (h1 : ¬ t < lo) (h2 : ¬ up < t)
    (h : x.1.ti = some t) : (LiveData.timed lo up (some x)).useEvaluator c s t (fun _ => junk) g =
      ((g x.1 x.2).1, .timed lo up (some (x.1, (g x.1 x.2).2))) := by
  have hf : (some x).filter (fun x => decide (x.1.ti = some t)) = some x := by rw [Option.filter_some, if_pos (by simp [h])]
  simp only [LiveData.useEvaluator, LiveData.getEvaluator, if_neg h1, if_neg h2, hf]
  rfl

theorem timedEvaluator_runs {m : Loc → Val K} {cache : Option (Evaluator K × Buffers K)} (h1 : ¬ t < lo) (h2 : ¬ up < t) (hn : ¬ own n)
    (h : Holds m junk i own f (.timed lo up cache)) (hm : ∀ l, l.owner = some (.heap i n) → m l = .nothing) :
    ∃ m', Runs (timedEvaluator c s junk f (.heap i n) t (useAt c s junk script)) m
      ((LiveData.timed lo up cache).useEvaluator c s t (fun _ => junk) fun e => (script e).toBufM c s e).1 m'
      (fun l _ => TimedFoot f i (fun k => k = n ∨ own k) l) ∧
      Holds m' junk i (fun k => k = n ∨ own k) f
        ((LiveData.timed lo up cache).useEvaluator c s t (fun _ => junk) fun e => (script e).toBufM c s e).2 := by
  have second := fun (m : Loc → Val K) hp hm => second_runs (c := c) (s := s) (junk := junk) (f := f) (i := i) (n := n) (t := t) (lo := lo) (up := up)
    (script := script) (own := fun k => k = n ∨ own k) (m := m) (Or.inl rfl) hp hm
  cases cache with
  | none =>
    rw [useTimed_new h1 h2 (by simp)]
    obtain ⟨m', r, a⟩ := second m h hm
    exact ⟨m', Runs.read h r (Or.inl rfl), a⟩
  | some x =>
    obtain ⟨k, hk, hp, hx⟩ := h
    by_cases ht : x.1.ti = some t
    · rw [useTimed_again h1 h2 ht]
      obtain ⟨m', r, a⟩ := last_runs (c := c) (s := s) (script := script) (lo := lo) (up := up) (own := fun k => k = n ∨ own k) (Or.inr hk) hp hx
      refine ⟨m', Runs.read hp (Runs.read hp (Runs.read hx.obj ?_ (Or.inr ⟨k, Or.inr hk, rfl⟩)) (Or.inl rfl)) (Or.inl rfl), a⟩
      simp only [if_pos ht]
      exact Runs.read hp r (Or.inl rfl)
    · rw [useTimed_new h1 h2 (by simpa using ht)]
      have hkn : k ≠ n := fun e => hn (e ▸ hk)
      obtain ⟨m1, f1, r1⟩ := deleteEvaluator_runs (A := A) (c := c) hx (.write (.ptr f) (.ptr none) (.read (.ptr f) fun
        | .ptr none => newEvaluator c s junk (.heap i n) t (.write (.ptr f) (.ptr (some (.heap i n))) (.read (.ptr f) fun
          | .ptr (some p) => useAt c s junk script p
          | _ => .done .ub))
        | .ptr (some _) => .read (.ptr f) fun
          | .ptr (some p) => useAt c s junk script p
          | _ => .done .ub
        | _ => .done .ub))
      obtain ⟨m', r, a⟩ := second (Function.update m1 (.ptr f) (.ptr none)) (Function.update_self _ _ _) fun l hl => by
        rw [Function.update_of_ne (by rintro rfl; simp [Loc.owner] at hl), f1 l (by rw [hl]; simp [Ne.symm hkn]), hm l hl]
      refine ⟨m', Runs.read hp (Runs.read hp (Runs.read hx.obj ?_ (Or.inr ⟨k, Or.inr hk, rfl⟩)) (Or.inl rfl)) (Or.inl rfl), a⟩
      simp only [if_neg ht]
      exact Runs.read hp (r1 _ _ _ (fun l w hl => Or.inr ⟨k, Or.inr hk, hl⟩) (Runs.write r (Or.inl rfl))) (Or.inl rfl)

end timed

theorem Runs.bind {B : Type} {p : Prog Loc (Val K) A} {f : A → Prog Loc (Val K) B} {m m1 m' : Loc → Val K} {a : A} {b : B}
    {F : Loc → Bool → Prop} (h : Runs p m a m1 F) (h' : Runs (f a) m1 b m' F) : Runs (p.bind f) m b m' F := by
  unfold Runs
  rw [solo_bind, h.1]
  refine ⟨h'.1, fun l w hl => ?_⟩
  rcases List.mem_append.1 hl with hl | hl
  · exact h.2 l w hl
  · exact h'.2 l w hl

/-- A call without other threads, on data as in `Model/LiveNodes`. -/
def alone (c : Template) (code : Code K P α X R) (s : MSpline K P) (junk : ℕ → K) (q : NodeCall K α) (d : LiveData K) :
    Outcome (NodeAnswer K X R) × LiveData K :=
  d.useEvaluator (d.template c) s q.time.value (fun _ => junk) fun e => (code (d.template c) s q.time d.bounds e q.query).toBufM (d.template c) s e

/-- The data of all factories are in memory, and the thread `i` has made evaluators at places before the `n`-th, for the factories `g`. -/
structure World (m : Loc → Val K) (junk : ℕ → K) (i n : ℕ) (g : ℕ → ℕ) (d : ℕ → LiveData K) : Prop where
  holds : ∀ f, Holds m junk i (fun k => k < n ∧ g k = f) f (d f)
  rest : ∀ k l, n ≤ k → l.owner = some (.heap i k) → m l = .nothing

/-- Accesses of a call by the thread `i`. -/
def CallFoot (c : Template) (code : Code K P α X R) (s : MSpline K P) (bounds : ℕ → Bounds K) (i : ℕ) (q : NodeCall K α) (l : Loc) (w : Bool) : Prop :=
  (bounds q.factory ≠ none ∧ l = .ptr q.factory) ∨ (∃ k, l.owner = some (.heap i k)) ∨
    (bounds q.factory = none ∧ l.owner = some (.factory q.factory) ∧ (w = true → ¬ ∀ e, Prepared c (code c s q.time none e q.query)))

theorem alone_bounds (c : Template) (code : Code K P α X R) (s : MSpline K P) (junk : ℕ → K) (q : NodeCall K α) (d : LiveData K) :
    (alone c code s junk q d).2.bounds = d.bounds := by
  unfold alone LiveData.useEvaluator
  cases d with
  | constTime e b => rfl
  | timed lo up cache =>
    simp only [LiveData.getEvaluator]
    split_ifs <;> try rfl
    cases cache.filter fun x => decide (x.1.ti = some q.time.value) with
    | some x => rfl
    | none => cases s.construct ((LiveData.timed lo up cache).template c) q.time.value fun _ => junk <;> rfl

theorem call_runs (c : Template) (code : Code K P α X R) (s : MSpline K P) (junk : ℕ → K) (bounds : ℕ → Bounds K) (i n : ℕ) (q : NodeCall K α)
    (m : Loc → Val K) (g : ℕ → ℕ) (d : ℕ → LiveData K) (hb : ∀ f, (d f).bounds = bounds f) (h : World m junk i n g d) :
    ∃ m', Runs (callProg c code s junk bounds i n q) m (alone c code s junk q (d q.factory)).1 m' (CallFoot c code s bounds i q) ∧
      World m' junk i (n + 1) (Function.update g n q.factory) (Function.update d q.factory (alone c code s junk q (d q.factory)).2) := by
  have grow : ∀ f k, k < n ∧ g k = f → k < n + 1 ∧ Function.update g n q.factory k = f := fun f k hk =>
    ⟨by omega, by rw [Function.update_of_ne (by omega)]; exact hk.2⟩
  have hq := h.holds q.factory
  have hbq := hb q.factory
  unfold callProg
  cases hd : d q.factory with
  | constTime e b =>
    rw [hd] at hq hbq
    rw [← hbq]
    obtain ⟨m', r, a⟩ := useAt_runs c s junk (.factory q.factory) (fun e => code c s q.time none e q.query) m (e, b) hq
    have out : ∀ l, l.owner ≠ some (.factory q.factory) → m' l = m l := fun l hl => r.frame l fun hf => by
      rcases hf.1 with rfl | ⟨r, rfl⟩ <;> exact hl rfl
    refine ⟨m', r.mono fun l w hl => Or.inr (Or.inr ⟨hbq.symm, ?_, fun hw hp => (hl.2 hw).2 (hp e)⟩), fun f => ?_, fun k l hk hl => ?_⟩
    · rcases hl.1 with rfl | ⟨r, rfl⟩ <;> rfl
    · by_cases e' : f = q.factory
      · subst e'
        rw [Function.update_self]
        exact a
      · rw [Function.update_of_ne e']
        refine (h.holds f).congr (grow f) (out _ (by simp [Loc.owner])) fun l hl => out l ?_
        rcases hl with hl | ⟨k, -, hl⟩ <;> rw [hl] <;> simp [e']
    · rw [out l (by rw [hl]; simp), h.rest k l (by omega) hl]
  | timed lo up cache =>
    rw [hd] at hq hbq
    rw [← hbq]
    dsimp only [LiveData.bounds]
    have rest : ∀ m' : Loc → Val K, (∀ l, ¬ TimedFoot q.factory i (fun k => k = n ∨ k < n ∧ g k = q.factory) l → m' l = m l) → ∀ d' : LiveData K,
        Holds m' junk i (fun k => k = n ∨ k < n ∧ g k = q.factory) q.factory d' →
        World m' junk i (n + 1) (Function.update g n q.factory) (Function.update d q.factory d') := by
      refine fun m' out d' hd' => ⟨fun f => ?_, fun k l hk hl => ?_⟩
      · by_cases e' : f = q.factory
        · subst e'
          rw [Function.update_self]
          refine hd'.congr (fun k hk => ?_) rfl fun _ _ => rfl
          rcases hk with rfl | hk
          · exact ⟨by omega, Function.update_self _ _ _⟩
          · exact grow _ k hk
        · rw [Function.update_of_ne e']
          refine (h.holds f).congr (grow f) (out _ ?_) fun l hl => out l ?_
          · rintro (hf | ⟨k, -, hf⟩)
            · exact e' (by simpa using hf)
            · simp [Loc.owner] at hf
          · rintro (rfl | ⟨k, hk, hf⟩)
            · simp [Loc.owner] at hl
            · rcases hl with hl | ⟨k', hk', hl⟩
              · rw [hl] at hf
                simp at hf
              · rw [hl] at hf
                simp only [Option.some.injEq, Owner.heap.injEq, true_and] at hf
                subst hf
                rcases hk with rfl | hk
                · omega
                · exact e' (hk'.2.symm.trans hk.2)
      · rw [out l, h.rest k l (by omega) hl]
        rintro (rfl | ⟨k', hk', hf⟩)
        · simp [Loc.owner] at hl
        · rw [hl] at hf
          simp only [Option.some.injEq, Owner.heap.injEq, true_and] at hf
          subst hf
          omega
    have same : Holds m junk i (fun k => k = n ∨ k < n ∧ g k = q.factory) q.factory (.timed lo up cache) :=
      hq.congr (fun k hk => Or.inr hk) rfl fun _ _ => rfl
    by_cases h1 : q.time.value < lo
    · have e1 : alone c code s junk q (.timed lo up cache) = (.throws, .timed lo up cache) := by
        simp only [alone, LiveData.useEvaluator, LiveData.getEvaluator, if_pos h1]
      rw [if_pos h1, e1]
      exact ⟨m, .done _ _ _, rest m (fun _ _ => rfl) _ same⟩
    · rw [if_neg h1]
      by_cases h2 : up < q.time.value
      · have e1 : alone c code s junk q (.timed lo up cache) = (.throws, .timed lo up cache) := by
          simp only [alone, LiveData.useEvaluator, LiveData.getEvaluator, if_neg h1, if_pos h2]
        rw [if_pos h2, e1]
        exact ⟨m, .done _ _ _, rest m (fun _ _ => rfl) _ same⟩
      · rw [if_neg h2]
        obtain ⟨m', r, a⟩ := timedEvaluator_runs (c := timedTemplate c) (s := s) (n := n)
          (script := fun e => code (timedTemplate c) s q.time (some (lo, up)) e q.query) h1 h2 (by simp) hq fun l hl => h.rest n l le_rfl hl
        refine ⟨m', r.mono fun l w hl => ?_, rest m' (fun l hl => r.frame l hl) _ a⟩
        rcases hl with rfl | ⟨k, -, hl⟩
        · exact Or.inl ⟨by rw [← hbq]; simp [LiveData.bounds], rfl⟩
        · exact Or.inr (Or.inl ⟨k, hl⟩)

/-- The answers to the calls of one thread without other threads. -/
def answersAlone (c : Template) (code : Code K P α X R) (s : MSpline K P) (junk : ℕ → K) :
    List (NodeCall K α) → (ℕ → LiveData K) → List (Outcome (NodeAnswer K X R))
  | [], _ => []
  | q :: qs, d => (alone c code s junk q (d q.factory)).1 ::
    answersAlone c code s junk qs (Function.update d q.factory (alone c code s junk q (d q.factory)).2)

theorem thread_runs (c : Template) (code : Code K P α X R) (s : MSpline K P) (junk : ℕ → K) (bounds : ℕ → Bounds K) (i : ℕ) :
    ∀ (qs : List (NodeCall K α)) (n : ℕ) (m : Loc → Val K) (g : ℕ → ℕ) (d : ℕ → LiveData K), (∀ f, (d f).bounds = bounds f) → World m junk i n g d →
    ∃ m', Runs (threadProg c code s junk bounds i n qs) m (answersAlone c code s junk qs d) m'
      (fun l w => ∃ q ∈ qs, CallFoot c code s bounds i q l w)
  | [], _, m, _, _, _, _ => ⟨m, .done _ _ _⟩
  | q :: qs, n, m, g, d, hb, h => by
    obtain ⟨m1, r1, w1⟩ := call_runs c code s junk bounds i n q m g d hb h
    obtain ⟨m2, r2⟩ := thread_runs c code s junk bounds i qs (n + 1) m1 _ _ (fun f => by
      by_cases e : f = q.factory
      · subst e; rw [Function.update_self, alone_bounds, hb]
      · rw [Function.update_of_ne e, hb]) w1
    refine ⟨m2, Runs.bind (r1.mono fun l w hl => ⟨q, by simp, hl⟩) (Runs.bind (r2.mono fun l w hl => ?_) (.done _ _ _))⟩
    obtain ⟨q', hq', hl⟩ := hl
    exact ⟨q', List.mem_cons_of_mem _ hq', hl⟩

/-- The factories were just made. -/
def New (junk : ℕ → K) : LiveData K → Prop
  | .constTime _ b => b.fresh = fun _ => junk
  | .timed _ _ cache => cache = none

theorem memory_world (junk : ℕ → K) (d : ℕ → LiveData K) (hd : ∀ f, New junk (d f)) (i : ℕ) (g : ℕ → ℕ) : World (memory d) junk i 0 g d where
  holds f := by
    have hf := hd f
    cases h : d f with
    | constTime e b =>
      rw [h] at hf
      refine ⟨?_, fun r => ?_, hf⟩
      · simp only [memory, h]
      · simp only [memory, h]
        cases b.deref r <;> rfl
    | timed lo up cache =>
      rw [h] at hf
      have hf : cache = none := hf
      subst hf
      show memory d (.ptr f) = _
      simp only [memory, h]
  rest k l _ hl := by
    cases l with
    | ptr f => simp [Loc.owner] at hl
    | obj o => obtain rfl : o = .heap i k := by simpa [Loc.owner] using hl
               rfl
    | vec o r => obtain rfl : o = .heap i k := by simpa [Loc.owner] using hl
                 rfl

/-- All threads. -/
def threads (c : Template) (code : Code K P α X R) (s : MSpline K P) (junk : ℕ → K) (d : ℕ → LiveData K) (calls : ℕ → List (NodeCall K α)) (i : ℕ) :
    Prog Loc (Val K) (List (Outcome (NodeAnswer K X R))) := threadProg c code s junk (fun f => (d f).bounds) i 0 (calls i)

/-- Different threads use the same factory only if it is for a constant time and the call only needs prepared derivatives. -/
def SharedSafely (c : Template) (code : Code K P α X R) (s : MSpline K P) (d : ℕ → LiveData K) (calls : ℕ → List (NodeCall K α)) : Prop :=
  ∀ i j, i ≠ j → ∀ q ∈ calls i, ∀ q' ∈ calls j, q.factory = q'.factory →
    (d q.factory).bounds = none ∧ ∀ e, Prepared c (code c s q.time none e q.query)

theorem threads_keepApart (c : Template) (code : Code K P α X R) (s : MSpline K P) (junk : ℕ → K) (d : ℕ → LiveData K) (hd : ∀ f, New junk (d f))
    (calls : ℕ → List (NodeCall K α)) (hs : SharedSafely c code s d calls) :
    KeepApart (threads c code s junk d calls) (memory d) ∧
      ∀ i, (solo (threads c code s junk d calls i) (memory d)).2.1 = answersAlone c code s junk (calls i) d := by
  have run := fun i => thread_runs c code s junk (fun f => (d f).bounds) i (calls i) 0 (memory d) (fun _ => 0) d (fun _ => rfl)
    (memory_world junk d hd i _)
  refine ⟨fun i j hij l hi w hj => ?_, fun i => ?_⟩
  · obtain ⟨mi, ri⟩ := run i
    obtain ⟨mj, rj⟩ := run j
    obtain ⟨q, hq, fi⟩ := ri.2 l true hi
    obtain ⟨q', hq', fj⟩ := rj.2 l w hj
    rcases fi with ⟨b, rfl⟩ | ⟨k, hl⟩ | ⟨b, hl, np⟩
    · rcases fj with ⟨-, e⟩ | ⟨k', hl'⟩ | ⟨-, hl', -⟩
      · exact b (hs i j hij q hq q' hq' (by simpa using e)).1
      · simp [Loc.owner] at hl'
      · simp [Loc.owner] at hl'
    · rcases fj with ⟨-, rfl⟩ | ⟨k', hl'⟩ | ⟨-, hl', -⟩
      · simp [Loc.owner] at hl
      · rw [hl] at hl'
        simp only [Option.some.injEq, Owner.heap.injEq] at hl'
        exact hij hl'.1
      · rw [hl] at hl'
        simp at hl'
    · rcases fj with ⟨-, rfl⟩ | ⟨k', hl'⟩ | ⟨-, hl', -⟩
      · simp [Loc.owner] at hl
      · rw [hl] at hl'
        simp at hl'
      · rw [hl] at hl'
        exact np rfl (hs i j hij q hq q' hq' (by simpa using hl')).2
  · obtain ⟨mi, ri⟩ := run i
    unfold threads
    rw [ri.1]

/-! ### What the calls of one thread give -/

/-- The calls on one factory, as a program of `Model/LiveNodes`. -/
def callsOn (junk : ℕ → K) (f : ℕ) (qs : List (NodeCall K α)) : List (NodeEvent K P α) :=
  (qs.filter fun q => q.factory = f).map fun q => .call q.query q.time fun _ => junk

/-- The part of a list that belongs to calls on one factory. -/
def partOn {B : Type} (f : ℕ) (qs : List (NodeCall K α)) (as : List B) : List B := ((qs.zip as).filter fun x => x.1.factory = f).map Prod.snd

theorem eq_of_partOn {B : Type} : ∀ (qs : List (NodeCall K α)) (as bs : List B), as.length = qs.length → bs.length = qs.length →
    (∀ f, partOn f qs as = partOn f qs bs) → as = bs
  | [], as, bs, ha, hb, _ => by
    rw [List.length_eq_zero_iff.1 ha, List.length_eq_zero_iff.1 hb]
  | q :: qs, [], _, ha, _, _ => by simp at ha
  | q :: qs, _ :: _, [], _, hb, _ => by simp at hb
  | q :: qs, a :: as, b :: bs, ha, hb, h => by
    have hq : a :: partOn q.factory qs as = b :: partOn q.factory qs bs := by simpa [partOn] using h q.factory
    have := eq_of_partOn qs as bs (by simpa using ha) (by simpa using hb) fun f => by
      by_cases e : q.factory = f
      · subst e
        exact (List.cons.inj hq).2
      · simpa [partOn, e] using h f
    rw [this, (List.cons.inj hq).1]

theorem answersAlone_length (c : Template) (code : Code K P α X R) (s : MSpline K P) (junk : ℕ → K) : ∀ (qs : List (NodeCall K α)) (d : ℕ → LiveData K),
    (answersAlone c code s junk qs d).length = qs.length
  | [], _ => rfl
  | q :: qs, d => by simp [answersAlone, answersAlone_length c code s junk qs]

theorem answersAlone_partOn (M : Mfd K P V) (c : Template) (code : Code K P α X R) (s : MSpline K P) (junk : ℕ → K) (f : ℕ) :
    ∀ (qs : List (NodeCall K α)) (d : ℕ → LiveData K), partOn f qs (answersAlone c code s junk qs d) =
      nodeSession M c (fun c s τ b e q => (code c s τ b e q).toBufM c s e) (callsOn junk f qs) s (d f)
  | [], _ => rfl
  | q :: qs, d => by
    unfold answersAlone
    have ih := answersAlone_partOn M c code s junk f qs (Function.update d q.factory (alone c code s junk q (d q.factory)).2)
    by_cases e : q.factory = f
    · subst e
      rw [Function.update_self] at ih
      have : partOn q.factory (q :: qs) ((alone c code s junk q (d q.factory)).1 ::
          answersAlone c code s junk qs (Function.update d q.factory (alone c code s junk q (d q.factory)).2)) =
          (alone c code s junk q (d q.factory)).1 :: partOn q.factory qs
            (answersAlone c code s junk qs (Function.update d q.factory (alone c code s junk q (d q.factory)).2)) := by simp [partOn]
      rw [this, ih]
      have : (callsOn junk q.factory (q :: qs) : List (NodeEvent K P α)) = .call q.query q.time (fun _ => junk) :: callsOn junk q.factory qs := by
        simp [callsOn]
      rw [this]
      rfl
    · rw [Function.update_of_ne (Ne.symm e)] at ih
      have : (callsOn junk f (q :: qs) : List (NodeEvent K P α)) = callsOn junk f qs := by simp [callsOn, e]
      rw [this, ← ih]
      simp [partOn, e]

theorem callsOn_expected (M : Mfd K P V) (answer : MSpline K P → TimeNode K → FactoryData K → α → Outcome (NodeAnswer K X R)) (x : ℕ → FactoryData K)
    (s : MSpline K P) (junk : ℕ → K) (f : ℕ) : ∀ (qs : List (NodeCall K α)),
    nodeExpected M answer (x f) (callsOn junk f qs) s = partOn f qs (qs.map fun q => answer s q.time (x q.factory) q.query)
  | [] => rfl
  | q :: qs => by
    have ih := callsOn_expected M answer x s junk f qs
    by_cases e : q.factory = f
    · subst e
      have : (callsOn junk q.factory (q :: qs) : List (NodeEvent K P α)) = .call q.query q.time (fun _ => junk) :: callsOn junk q.factory qs := by
        simp [callsOn]
      rw [this]
      unfold nodeExpected
      rw [ih]
      simp [partOn]
    · have : (callsOn junk f (q :: qs) : List (NodeEvent K P α)) = callsOn junk f qs := by simp [callsOn, e]
      rw [this, ih]
      simp [partOn, e]

theorem callsOn_change (junk : ℕ → K) (f : ℕ) (qs : List (NodeCall K α)) (c : Change K P) : NodeEvent.change c ∉ callsOn junk f qs := by
  simp [callsOn]

end calls

end Threads
end Verif
