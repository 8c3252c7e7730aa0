import Verif.Model.Fitter
import Verif.Props.ManifoldLife
import Verif.Props.UniformFit

/-!
# C88: what a call on a manifold spline leaves behind when it throws
-/

set_option linter.unusedSectionVars false

namespace Verif
namespace MSpline

section general

variable {K : Type*} [Field K] [LinearOrder K] [IsStrictOrderedRing K] {P V : Type*}

/-! ### Additions -/

/-- The spline with some segments inserted into its map. -/
def insertAll (xs : List (Seg K P)) (s : MSpline K P) : MSpline K P := { s with segs := xs.foldl (fun l x => mapInsert x l) s.segs }

theorem insertAll_append (xs ys : List (Seg K P)) (s : MSpline K P) : insertAll (xs ++ ys) s = insertAll ys (insertAll xs s) := by
  unfold insertAll
  rw [List.foldl_append]

theorem insertAll_mwf : ∀ (xs : List (Seg K P)) (s : MSpline K P), s.MWF → s.state = .constructing → (insertAll xs s).MWF
  | [], _, h, _ => h
  | x :: xs, s, h, hc => insertAll_mwf xs { s with segs := mapInsert x s.segs } (add_mwf h hc x) hc

theorem insertAll_keys : ∀ (xs : List (Seg K P)) (s : MSpline K P) (t : K), t ∈ (insertAll xs s).keys ↔ t ∈ s.keys ∨ t ∈ xs.map Seg.knot
  | [], s, t => by simp [insertAll]
  | x :: xs, s, t => by
    have := insertAll_keys xs { s with segs := mapInsert x s.segs } t
    change t ∈ (insertAll xs { s with segs := mapInsert x s.segs }).keys ↔ _
    rw [this]
    change t ∈ (mapInsert x s.segs).map Seg.knot ∨ _ ↔ _
    rw [mapInsert_keys_mem, List.map_cons, List.mem_cons]
    unfold keys
    tauto

theorem sublist_mapInsert (x : Seg K P) : ∀ l : List (Seg K P), l.Sublist (mapInsert x l)
  | [] => List.nil_sublist _
  | y :: ys => by
    unfold mapInsert
    split
    · exact List.sublist_cons_self _ _
    · split
      · exact List.Sublist.refl _
      · exact (sublist_mapInsert x ys).cons_cons y

theorem sublist_insertAll : ∀ (xs : List (Seg K P)) (s : MSpline K P), s.segs.Sublist (insertAll xs s).segs
  | [], _ => List.Sublist.refl _
  | x :: xs, s => (sublist_mapInsert x s.segs).trans (sublist_insertAll xs { s with segs := mapInsert x s.segs })

/-- A knot without a vertex of its own. -/
def bare (M : Mfd K P V) (t : K) : Seg K P := ⟨t, M.default, none⟩

/-- A knot with a vertex. -/
def withVertex (x : K × P) : Seg K P := ⟨x.1, x.2, none⟩

theorem loop_knots (M : Mfd K P V) : ∀ (ts : List K) (s : MSpline K P),
    forEach (fun t => total (addKnot M t)) ts s = (.ok (), insertAll (ts.map (bare M)) s)
  | [], _ => rfl
  | t :: ts, s => by
    unfold forEach
    exact loop_knots M ts (s.addKnot M t)

theorem loop_verts (M : Mfd K P V) : ∀ (l : List (K × P)) (s : MSpline K P),
    forEach (fun tp : K × P => addControlVertex M tp.1 tp.2) l s =
      (if ∀ x ∈ l, M.isIn x.2 = true then .ok () else .throws, insertAll ((l.takeWhile fun x => M.isIn x.2).map withVertex) s)
  | [], _ => by simp [forEach, insertAll]
  | x :: l, s => by
    unfold forEach
    rcases hx : M.isIn x.2 with _ | _
    · rw [C22_rejects_point M s x.1 x.2 hx]
      simp [hx, insertAll]
    · have : s.addControlVertex M x.1 x.2 = (.ok (), insertAll [withVertex x] s) := by
        unfold addControlVertex; rw [hx]; rfl
      rw [this]
      simp only []
      rw [loop_verts M l, ← insertAll_append]
      simp only [List.mem_cons, forall_eq_or_imp, hx, true_and, List.takeWhile_cons, if_true, List.map_cons]
      rfl

theorem forEach_map {σ α β : Type*} (f : β → σ → Outcome Unit × σ) (g : α → β) : ∀ (l : List α) (s : σ),
    forEach (fun a => f (g a)) l s = forEach f (l.map g) s
  | [], _ => rfl
  | a :: l, s => by
    rw [List.map_cons]
    unfold forEach
    rcases f (g a) s with ⟨o, s'⟩
    rcases o with _ | _ | _
    · exact forEach_map f g l s'
    · rfl
    · rfl

theorem init_throws {s : MSpline K P} (h : s.MWF) (ht : s.init.1 = .throws) : s.init.2 = s := by
  rcases hc : s.state with _ | _
  · rcases Nat.lt_or_ge s.keys.length (2 * s.order) with hn | hn
    · rw [init_few hc hn]
    · obtain ⟨segs', r1, -⟩ := init_ok h hc hn
      rw [r1] at ht
      cases ht
  · rw [init_evaluable hc]

/-! ### Single calls -/

/-- The knots (with vertices) that a call has added to a spline in construction when it throws: none, or the vertices before the first one
that is off the manifold, or all of them. -/
def Call.inserted (M : Mfd K P V) (order : ℕ) : Call K P → List (Seg K P)
  | .addKnotsAndControlVertices ts cs =>
    if cs.length = ts.length then ((ts.zip cs).takeWhile fun x => M.isIn x.2).map withVertex else []
  | .initWithKnots ts => if 2 * order ≤ ts.length then ts.map (bare M) else []
  | .initWithKnotsAndControlVertices ts cs =>
    if cs.length + order = ts.length then
      ((ts.zip cs).takeWhile fun x => M.isIn x.2).map withVertex ++
        (if ∀ c ∈ cs, M.isIn c = true then (ts.drop cs.length).map (bare M) else [])
    else []
  | .initConstant ts c => if M.isIn c = true then ts.map fun t => withVertex (t, c) else []
  | _ => []

theorem mem_zip_isIn (M : Mfd K P V) {ts : List K} {cs : List P} (h : cs.length ≤ ts.length) :
    (∀ x ∈ ts.zip cs, M.isIn x.2 = true) ↔ ∀ c ∈ cs, M.isIn c = true := by
  have : (ts.zip cs).map Prod.snd = cs := List.map_snd_zip h
  conv_rhs => rw [← this]
  exact ⟨fun h c hc => by obtain ⟨x, hx, rfl⟩ := List.mem_map.1 hc; exact h x hx, fun h x hx => h _ (List.mem_map_of_mem hx)⟩

theorem takeWhile_all {α : Type*} {p : α → Bool} : ∀ {l : List α}, (∀ x ∈ l, p x = true) → l.takeWhile p = l
  | [], _ => rfl
  | a :: l, h => by
    rw [List.takeWhile_cons, h a (by simp), if_pos rfl, takeWhile_all fun x hx => h x (by simp [hx])]

theorem map_fst_zip_take : ∀ (ts : List K) (cs : List P), (ts.zip cs).map Prod.fst = ts.take cs.length
  | [], cs => by simp
  | t :: ts, [] => by simp
  | t :: ts, c :: cs => by simp [map_fst_zip_take ts cs]

theorem manipulate_throws (f : ℕ → P → P) (n : ℕ) (t : K) (o : ℤ) (s : MSpline K P)
    (h : (s.manipulateControlVertices f n t o).1 = .throws) : (s.manipulateControlVertices f n t o).2 = s := by
  unfold manipulateControlVertices at h ⊢
  split
  · rfl
  · rfl
  · rename_i heq
    rw [heq] at h
    simp at h

/-- **C88**: what exactly a call on a spline in construction leaves behind when it throws. -/
theorem C88_left_behind (M : Mfd K P V) (c : Call K P) (s : MSpline K P) (h : s.MWF) (hc : s.state = .constructing)
    (ht : (c.run M s).1 = .throws) : (c.run M s).2 = insertAll (c.inserted M s.order) s := by
  have hinit : ∀ xs : List (Seg K P), (insertAll xs s).init.1 = .throws → (insertAll xs s).init.2 = insertAll xs s :=
    fun xs => init_throws (insertAll_mwf xs s h hc)
  cases c with
  | addKnot t => simp [Call.run] at ht
  | addControlVertex t p =>
    simp only [Call.run, addControlVertex] at ht ⊢
    split_ifs at ht ⊢
    rfl
  | addKnots ts =>
    simp only [Call.run, addKnots] at ht ⊢
    rw [assertConstructing_constructing hc, loop_knots] at ht
    cases ht
  | addKnotsAndControlVertices ts cs =>
    simp only [Call.run, addKnotsAndControlVertices, Call.inserted] at ht ⊢
    rw [assertConstructing_constructing hc] at ht ⊢
    by_cases h1 : cs.length = ts.length
    · rw [if_neg (by simpa using h1), if_pos h1, loop_verts]
    · rw [if_pos (by simpa using h1), if_neg h1]
      rfl
  | init => exact init_throws h ht
  | initWithKnots ts =>
    simp only [Call.run, initWithKnots, Call.inserted] at ht ⊢
    rw [assertConstructing_constructing hc] at ht ⊢
    by_cases h1 : 2 * s.order ≤ ts.length
    · rw [if_neg (by omega)] at ht ⊢
      rw [if_pos h1]
      unfold andThen at ht ⊢
      rw [loop_knots] at ht ⊢
      exact hinit _ ht
    · rw [if_pos (by omega), if_neg h1]
      rfl
  | initWithKnotsAndControlVertices ts cs =>
    simp only [Call.run, initWithKnotsAndControlVertices, Call.inserted] at ht ⊢
    rw [assertConstructing_constructing hc] at ht ⊢
    by_cases h1 : cs.length + s.order = ts.length
    · rw [if_neg (by simpa using h1)] at ht ⊢
      rw [if_pos h1]
      unfold andThen at ht ⊢
      rw [loop_verts] at ht ⊢
      by_cases h2 : ∀ c ∈ cs, M.isIn c = true
      · rw [if_pos ((mem_zip_isIn M (by omega)).2 h2)] at ht ⊢
        rw [if_pos h2]
        simp only [] at ht ⊢
        rw [loop_knots, ← insertAll_append] at ht ⊢
        exact hinit _ ht
      · rw [if_neg (fun h => h2 ((mem_zip_isIn M (by omega)).1 h)), if_neg h2, List.append_nil]
    · rw [if_pos (by simpa using h1), if_neg h1]
      rfl
  | initConstant ts c =>
    simp only [Call.run, initConstantSpline, Call.inserted] at ht ⊢
    rw [assertConstructing_constructing hc] at ht ⊢
    have e : ∀ s : MSpline K P, forEach (fun t => addControlVertex M t c) ts s =
        forEach (fun tp : K × P => addControlVertex M tp.1 tp.2) (ts.map fun t => (t, c)) s := fun s =>
      forEach_map (fun tp : K × P => addControlVertex M tp.1 tp.2) (fun t => (t, c)) ts s
    unfold andThen at ht ⊢
    rw [e, loop_verts] at ht ⊢
    rcases hi : M.isIn c with _ | _
    · rcases ts with _ | ⟨t, ts⟩
      · simp only [List.map_nil, List.not_mem_nil, false_implies, implies_true, if_true, List.takeWhile_nil, ite_self] at ht ⊢
        exact hinit _ ht
      · have h1 : ¬ ∀ x ∈ (t :: ts).map (fun t => (t, c)), M.isIn x.2 = true := fun h => by
          have := h (t, c) (by simp)
          rw [hi] at this
          cases this
        rw [if_neg h1, if_neg (by simp)]
        simp only [List.map_cons, List.takeWhile_cons, hi, Bool.false_eq_true, if_false, List.map_nil]
    · have h1 : ∀ x ∈ ts.map (fun t => (t, c)), M.isIn x.2 = true := by
        intro x hx
        obtain ⟨t, -, rfl⟩ := List.mem_map.1 hx
        exact hi
      rw [if_pos h1] at ht ⊢
      rw [if_pos rfl]
      have h2 : (ts.map fun t => (t, c)).takeWhile (fun x => M.isIn x.2) = ts.map fun t => (t, c) := takeWhile_all h1
      rw [h2, List.map_map] at ht ⊢
      exact hinit _ ht
  | append ts v =>
    simp only [Call.run, appendSegments, hc] at ht ⊢
    rfl
  | manipulate f n t o => exact manipulate_throws f n t o s ht

/-- **C88**: in particular a failed call never makes a spline in construction evaluable, removes or changes no knot or vertex that was
there before, and adds no knots but those it was called with. -/
theorem C88_kept (M : Mfd K P V) (c : Call K P) (s : MSpline K P) (h : s.MWF) (hc : s.state = .constructing)
    (ht : (c.run M s).1 = .throws) :
    (c.run M s).2.state = .constructing ∧ (c.run M s).2.order = s.order ∧ (c.run M s).2.MWF ∧ s.segs.Sublist (c.run M s).2.segs ∧
      ∀ t ∈ (c.run M s).2.keys, t ∈ s.keys ∨ t ∈ (c.inserted M s.order).map Seg.knot := by
  rw [C88_left_behind M c s h hc ht]
  exact ⟨hc, rfl, insertAll_mwf _ s h hc, sublist_insertAll _ s, fun t => (insertAll_keys _ s t).1⟩

/-- **C88**: an initialised spline is not changed by a call that throws.  (Appended knots have to continue the knots.) -/
theorem C88_initialised (M : Mfd K P V) (c : Call K P) (s : MSpline K P) (h : s.MWF) (he : s.state = .evaluable)
    (happ : ∀ ts v, c = .append ts v → (s.keys ++ ts).Pairwise (· < ·)) (ht : (c.run M s).1 = .throws) : (c.run M s).2 = s := by
  cases c with
  | addKnot t => simp [Call.run] at ht
  | addControlVertex t p =>
    simp only [Call.run, addControlVertex] at ht ⊢
    split_ifs at ht ⊢
    rfl
  | addKnots ts => simp only [Call.run, addKnots, assertConstructing_evaluable he]
  | addKnotsAndControlVertices ts cs => simp only [Call.run, addKnotsAndControlVertices, assertConstructing_evaluable he]
  | init => exact init_throws h ht
  | initWithKnots ts => simp only [Call.run, initWithKnots, assertConstructing_evaluable he]
  | initWithKnotsAndControlVertices ts cs => simp only [Call.run, initWithKnotsAndControlVertices, assertConstructing_evaluable he]
  | initConstant ts c => simp only [Call.run, initConstantSpline, assertConstructing_evaluable he]
  | append ts v =>
    obtain ⟨s', h1, -⟩ := append_ok h he M ts v (happ ts v rfl)
    simp only [Call.run, h1] at ht
    cases ht
  | manipulate f n t o => exact manipulate_throws f n t o s ht

/-- Arguments with which a spline in construction is not changed by a call that throws: all vertices on the manifold, and for the calls
that initialise also distinct knots and enough of them. -/
def Call.Safe (M : Mfd K P V) (s : MSpline K P) : Call K P → Prop
  | .addKnotsAndControlVertices _ cs => s.state = .constructing → ∀ c ∈ cs, M.isIn c = true
  | .initWithKnots ts => s.state = .constructing → ts.Nodup
  | .initWithKnotsAndControlVertices ts cs => s.state = .constructing → (∀ c ∈ cs, M.isIn c = true) ∧ ts.Nodup ∧ s.order ≤ cs.length
  | .initConstant ts c => s.state = .constructing → M.isIn c = true → ts.Nodup ∧ 2 * s.order ≤ ts.length
  | .append ts _ => s.state = .evaluable → (s.keys ++ ts).Pairwise (· < ·)
  | _ => True

theorem enough_keys {xs : List (Seg K P)} {s : MSpline K P} (hn : (xs.map Seg.knot).Nodup) :
    xs.length ≤ (insertAll xs s).keys.length := by
  have := (List.subperm_of_subset hn (fun t ht => (insertAll_keys xs s t).2 (Or.inr ht))).length_le
  simpa using this

theorem init_enough {xs : List (Seg K P)} {s : MSpline K P} (h : s.MWF) (hc : s.state = .constructing) (hn : (xs.map Seg.knot).Nodup)
    (hl : 2 * s.order ≤ xs.length) : (insertAll xs s).init.1 = .ok () := by
  obtain ⟨segs', r1, -⟩ := init_ok (insertAll_mwf xs s h hc) hc (show 2 * s.order ≤ _ from hl.trans (enough_keys hn))
  rw [r1]

/-- **C88**: a call that throws does not change the spline.  Missing in this part: calls on a spline in construction with a vertex off the
manifold, with repeated knots or with too few knots (`C88_left_behind` says what they leave behind, `C88_violated` and the following
theorems that they do). -/
theorem C88_unchanged_partial (M : Mfd K P V) (c : Call K P) (s : MSpline K P) (h : s.MWF) (hsafe : c.Safe M s)
    (ht : (c.run M s).1 = .throws) : (c.run M s).2 = s := by
  rcases hc : s.state with _ | _
  · have hleft := C88_left_behind M c s h hc ht
    rw [hleft]
    have hnil : insertAll [] s = s := rfl
    cases c with
    | addKnotsAndControlVertices ts cs =>
      have hall := hsafe hc
      simp only [Call.run, addKnotsAndControlVertices, Call.inserted] at ht ⊢
      rw [assertConstructing_constructing hc] at ht
      by_cases h1 : cs.length = ts.length
      · rw [if_neg (by simpa using h1), loop_verts, if_pos ((mem_zip_isIn M h1.le).2 hall)] at ht
        cases ht
      · rw [if_neg h1]; exact hnil
    | initWithKnots ts =>
      have hnd := hsafe hc
      simp only [Call.run, initWithKnots, Call.inserted] at ht ⊢
      rw [assertConstructing_constructing hc] at ht
      by_cases h1 : 2 * s.order ≤ ts.length
      · rw [if_neg (by omega)] at ht
        unfold andThen at ht
        rw [loop_knots] at ht
        simp only [] at ht
        rw [init_enough h hc (by rw [List.map_map]; simpa [Function.comp_def, bare] using hnd) (by simpa using h1)] at ht
        cases ht
      · rw [if_neg h1]; exact hnil
    | initWithKnotsAndControlVertices ts cs =>
      obtain ⟨hall, hnd, hl⟩ := hsafe hc
      simp only [Call.run, initWithKnotsAndControlVertices, Call.inserted] at ht ⊢
      rw [assertConstructing_constructing hc] at ht
      by_cases h1 : cs.length + s.order = ts.length
      · rw [if_neg (by simpa using h1)] at ht
        have hz := (mem_zip_isIn M (show cs.length ≤ ts.length by omega)).2 hall
        unfold andThen at ht
        rw [loop_verts, if_pos hz] at ht
        simp only [andThen] at ht
        rw [loop_knots, ← insertAll_append, takeWhile_all hz] at ht
        simp only [] at ht
        have e1 : ((ts.zip cs).map withVertex ++ (ts.drop cs.length).map (bare M)).map Seg.knot = ts := by
          rw [List.map_append, List.map_map, List.map_map]
          have a : (ts.zip cs).map (Seg.knot ∘ withVertex) = ts.take cs.length := by
            exact map_fst_zip_take ts cs
          have b : (ts.drop cs.length).map (Seg.knot ∘ bare M) = ts.drop cs.length := List.map_id _
          rw [a, b, List.take_append_drop]
        have e2 := congrArg List.length e1
        rw [List.length_map] at e2
        rw [init_enough h hc (by rw [e1]; exact hnd) (by rw [e2]; omega)] at ht
        cases ht
      · rw [if_neg h1]; exact hnil
    | initConstant ts c =>
      simp only [Call.run, initConstantSpline, Call.inserted] at ht hleft ⊢
      by_cases hi : M.isIn c = true
      · exfalso
        obtain ⟨hnd, hl⟩ := hsafe hc hi
        rw [assertConstructing_constructing hc] at ht
        have e : forEach (fun t => addControlVertex M t c) ts s =
            forEach (fun tp : K × P => addControlVertex M tp.1 tp.2) (ts.map fun t => (t, c)) s :=
          forEach_map (fun tp : K × P => addControlVertex M tp.1 tp.2) (fun t => (t, c)) ts s
        have h1 : ∀ x ∈ ts.map (fun t => (t, c)), M.isIn x.2 = true := by
          intro x hx
          obtain ⟨t, -, rfl⟩ := List.mem_map.1 hx
          exact hi
        unfold andThen at ht
        rw [e, loop_verts, if_pos h1, takeWhile_all h1] at ht
        simp only [] at ht
        rw [init_enough h hc (by rw [List.map_map, List.map_map]; simpa [Function.comp_def, withVertex] using hnd) (by simpa using hl)] at ht
        cases ht
      · rw [if_neg hi]; exact hnil
    | _ => exact hnil
  · refine C88_initialised M c s h hc ?_ ht
    rintro ts v rfl
    exact hsafe hc

/-! ### Sequences of calls -/

/-- Calls one after the other; exceptions are caught and ignored, undefined behaviour ends the program. -/
def runCatching (M : Mfd K P V) : List (Call K P) → MSpline K P → Outcome Unit × MSpline K P
  | [], s => (.ok (), s)
  | c :: cs, s => match c.run M s with
    | (.ub, s') => (.ub, s')
    | (_, s') => runCatching M cs s'

/-- What one expects of a program that catches exceptions: of the calls `cs` made on `s` the calls `ds` return, the others throw and have no
effect; in the end the spline is `s'`.  The calls have the arguments of `Call.Regular` and `Call.Safe` (for the spline they are made
on). -/
inductive Caught (M : Mfd K P V) : MSpline K P → List (Call K P) → List (Call K P) → MSpline K P → Prop
  | nil (s : MSpline K P) : Caught M s [] [] s
  | keep {s s1 s' : MSpline K P} {c : Call K P} {cs ds : List (Call K P)} :
      c.run M s = (.ok (), s1) → Caught M s1 cs ds s' → Caught M s (c :: cs) (c :: ds) s'
  | drop {s s' : MSpline K P} {c : Call K P} {cs ds : List (Call K P)} :
      (c.run M s).1 = .throws → Caught M s cs ds s' → Caught M s (c :: cs) ds s'

/-- Are the arguments of all calls good for the splines they are called on? -/
def AllSafe (M : Mfd K P V) : List (Call K P) → MSpline K P → Prop
  | [], _ => True
  | c :: cs, s => c.Regular s ∧ c.Safe M s ∧ AllSafe M cs (c.run M s).2

/-- **C88**: a program that makes calls on a spline and catches all exceptions never ends in undefined behaviour, and it ends with the
spline made by those calls alone that returned.  (For the arguments of `C88_unchanged_partial`.) -/
theorem C88_history_partial (M : Mfd K P V) : ∀ (cs : List (Call K P)) (s : MSpline K P), s.MWF → AllSafe M cs s →
    ∃ ds s', runCatching M cs s = (.ok (), s') ∧ Caught M s cs ds s' ∧ ds.Sublist cs ∧ Caught M s ds ds s'
  | [], s, _, _ => ⟨[], s, rfl, .nil s, .slnil, .nil s⟩
  | c :: cs, s, h, hall => by
    obtain ⟨hreg, hsafe, hrest⟩ := hall
    obtain ⟨hw, hub, -⟩ := regular_mwf M c h hreg
    have hun := C88_unchanged_partial M c s h hsafe
    obtain ⟨ds, s', h1, h2, h3, h4⟩ := C88_history_partial M cs _ hw hrest
    unfold runCatching
    rcases hr : c.run M s with ⟨o, s1⟩
    rw [hr] at hub hun h1 h2 h4
    rcases o with u | _ | _
    · exact ⟨c :: ds, s', h1, .keep hr h2, h3.cons_cons c, .keep hr h4⟩
    · obtain rfl : s1 = s := hun rfl
      exact ⟨ds, s', h1, .drop (by rw [hr]) h2, h3.cons c, h4⟩
    · exact absurd rfl hub

end general

/-! ### The fitter -/

section fitter

variable {K : Type*} [Field K] [LinearOrder K] [IsStrictOrderedRing K] {D : ℕ}

/-- The object has the property `Q` if the call throws. -/
def Leaves {σ : Type*} (Q : σ → Prop) (r : Outcome Unit × σ) : Prop := r.1 = .throws → Q r.2

theorem setControlVertices_throws (project : (Fin D → K) → Fin D → K) (rows cols : ℕ) (A : ℕ → ℕ → K) (t : K) (o : ℤ)
    (s : MSpline K (Fin D → K)) : Leaves (· = s) (s.setControlVertices D project rows cols A t o) := by
  unfold setControlVertices
  split
  · intro _; rfl
  · intro _; rfl
  · rename_i n m _
    have hm := manipulate_throws (fun i _ => project fun r => decodeEntry D A m i r) n t o s
    split
    · split_ifs
      · intro h; cases h
      · intro _; rfl
    · intro h
      exact hm h

theorem calcFitted_throws (dense : Bool) (solve : Solver K) (project : (Fin D → K) → Fin D → K) (resolver : Resolver K)
    (data : List (K × (Fin D → K))) (weights : Option (ℕ → K)) (lambda : K) (fix : ℕ) (offsets : Bool) (s : MSpline K (Fin D → K)) :
    Leaves (· = s) (s.calcFitted dense solve project resolver data weights lambda fix offsets) := by
  unfold calcFitted
  by_cases h1 : offsets = true ∧ lambda ≠ 0
  · rw [if_pos h1]; intro _; rfl
  · rw [if_neg h1]
    split
    · dsimp only
      split
      · intro _; rfl
      · intro _; rfl
      · rename_i n c heq
        by_cases h2 : n = 0
        · rw [if_pos h2]; intro _; rfl
        · rw [if_neg h2]
          by_cases h3 : offsets = true
          · rw [if_pos h3]; exact manipulate_throws _ _ _ _ s
          · rw [if_neg h3]; exact setControlVertices_throws _ _ _ _ _ _ s
    · intro _; rfl

/-- **C88**: `fitSpline` changes nothing when it throws. -/
theorem C88_fit (dense : Bool) (solve : Solver K) (project : (Fin D → K) → Fin D → K) (times : List K) (points : List (Fin D → K))
    (lambda : K) (fix : ℕ) (weights : Option (ℕ → K)) (offsets : Bool) (s : MSpline K (Fin D → K)) :
    (s.fitSpline dense solve project times points lambda fix weights offsets).1 = .throws →
    (s.fitSpline dense solve project times points lambda fix weights offsets).2 = s := by
  change Leaves (· = s) _
  unfold fitSpline
  split
  · exact calcFitted_throws dense solve project _ _ weights lambda fix offsets s
  · intro _; rfl
  · intro _; rfl

/-- **C88**: if `extendAndFitSpline` throws, it has done nothing but append the new segments.  If no segments are needed for the times it has
done nothing. -/
theorem C88_extend (dense : Bool) (solve : Solver K) (project : (Fin D → K) → Fin D → K) (M : Mfd K (Fin D → K) (Fin D → K))
    (ts times : List K) (points : List (Fin D → K)) (lambda : K) (percent : ℕ) (offsets : Bool) (s : MSpline K (Fin D → K)) :
    (s.extendAndFit dense solve project M ts times points lambda percent offsets).1 = .throws →
    (s.extendAndFit dense solve project M ts times points lambda percent offsets).2 = s ∨
      (∃ tl tmax, times.getLast? = some tl ∧ s.getMaxTime = .ok tmax ∧ tmax < tl) ∧
      (s.extendAndFit dense solve project M ts times points lambda percent offsets).2 = (s.appendSegments M ts none).2 := by
  change Leaves (fun s' => s' = s ∨ (∃ tl tmax, times.getLast? = some tl ∧ s.getMaxTime = .ok tmax ∧ tmax < tl) ∧
    s' = (s.appendSegments M ts none).2) _
  unfold extendAndFit
  by_cases g1 : points.length < 1
  · rw [if_pos g1]; intro _; exact Or.inl rfl
  rw [if_neg g1]
  by_cases g2 : times.length ≠ points.length
  · rw [if_pos g2]; intro _; exact Or.inl rfl
  rw [if_neg g2]
  by_cases g3 : 100 < percent
  · rw [if_pos g3]; intro _; exact Or.inl rfl
  rw [if_neg g3]
  split
  · rename_i t0 tl oldMax e1 e2 e3
    dsimp only
    have hQ : ∀ (o : Outcome Unit) (s1 : MSpline K (Fin D → K)),
        (if oldMax < tl then ((s.appendSegments M ts none).1.map fun _ => (), (s.appendSegments M ts none).2) else (.ok (), s)) = (o, s1) →
        s1 = s ∨ (∃ tl tmax, times.getLast? = some tl ∧ s.getMaxTime = .ok tmax ∧ tmax < tl) ∧ s1 = (s.appendSegments M ts none).2 := by
      intro o s1 h
      by_cases hlt : oldMax < tl
      · rw [if_pos hlt, Prod.mk.injEq] at h
        exact Or.inr ⟨⟨tl, oldMax, e2, e3, hlt⟩, h.2.symm⟩
      · rw [if_neg hlt, Prod.mk.injEq] at h
        exact Or.inl h.2.symm
    have hfit : ∀ s1 : MSpline K (Fin D → K), (s1 = s ∨ (∃ tl tmax, times.getLast? = some tl ∧ s.getMaxTime = .ok tmax ∧ tmax < tl) ∧
        s1 = (s.appendSegments M ts none).2) → ∀ times' points' fix weights, Leaves (fun s' => s' = s ∨
          (∃ tl tmax, times.getLast? = some tl ∧ s.getMaxTime = .ok tmax ∧ tmax < tl) ∧ s' = (s.appendSegments M ts none).2)
          (s1.fitSpline dense solve project times' points' lambda fix weights offsets) := by
      intro s1 h1 times' points' fix weights h2
      rw [C88_fit _ _ _ _ _ _ _ _ _ s1 h2]
      exact h1
    split
    · rename_i s1 heq
      have h1 := hQ _ _ heq
      by_cases p0 : percent = 0
      · rw [if_pos p0]; exact hfit s1 h1 _ _ _ _
      rw [if_neg p0]
      by_cases p100 : percent = 100
      · rw [if_pos p100]
        by_cases hlt : oldMax < tl
        · rw [if_pos hlt]
          split
          · exact hfit s1 h1 _ _ _ _
          · intro _; exact h1
          · intro _; exact h1
        · rw [if_neg hlt]; intro _; exact h1
      rw [if_neg p100]
      split
      · rename_i d _
        by_cases hall : d.points.all Option.isSome = true ∧ d.weights.all Option.isSome = true
        · rw [if_pos hall]; exact hfit s1 h1 _ _ _ _
        · rw [if_neg hall]
          split
          · intro _; exact h1
          · intro _; exact h1
      · intro _; exact h1
      · intro _; exact h1
    · rename_i s1 heq
      intro _; exact hQ _ _ heq
    · rename_i s1 heq
      intro _; exact hQ _ _ heq
  · intro _; exact Or.inl rfl

/-- **C88**: if the fitter's `initSpline` throws, the spline is as before, or the knots have been added, or the spline has been initialised
with the knots. -/
theorem C88_fit_init (dense : Bool) (solve : Solver K) (project : (Fin D → K) → Fin D → K) (M : Mfd K (Fin D → K) (Fin D → K))
    (knots : List K) (resolver : Option (Resolver K)) (times : List K) (points : List (Fin D → K)) (lambda : K) (s : MSpline K (Fin D → K))
    (h : s.MWF) (ht : (s.fitInit dense solve project M knots resolver times points lambda).1 = .throws) :
    let s' := (s.fitInit dense solve project M knots resolver times points lambda).2
    let s1 := insertAll (knots.map (bare M)) s
    s' = s ∨ (s1.keys.length < 2 * s.order ∧ s' = s1) ∨ (2 * s.order ≤ s1.keys.length ∧ s1.init = (.ok (), s')) := by
  intro s' s1
  have hs' : s' = (s.fitInit dense solve project M knots resolver times points lambda).2 := rfl
  clear_value s'
  unfold fitInit at ht hs'
  rcases hc : s.state with _ | _
  · rw [hc] at ht hs'
    dsimp only at ht hs'
    split_ifs at ht hs'
    · exact Or.inl hs'
    · exact Or.inl hs'
    · exact Or.inl hs'
    · right
      have e1 : s.addKnots M knots = (.ok (), s1) := by
        unfold addKnots
        rw [assertConstructing_constructing hc, loop_knots]
      have hw : s1.MWF := insertAll_mwf _ s h hc
      unfold andThen at ht hs'
      rw [e1] at ht hs'
      dsimp only at ht hs'
      rcases Nat.lt_or_ge s1.keys.length (2 * s.order) with hn | hn
      · rw [init_few (s := s1) hc hn] at ht hs'
        exact Or.inl ⟨hn, hs'⟩
      · obtain ⟨segs', r1, -⟩ := init_ok hw (show s1.state = .constructing from hc) hn
        rw [r1] at ht hs'
        dsimp only at ht hs'
        rw [calcFitted_throws _ _ _ _ _ _ _ _ _ _ ht] at hs'
        exact Or.inr ⟨hn, by rw [r1, hs']⟩
  · rw [hc] at hs'
    exact Or.inl hs'

end fitter

/-! ### Witnesses -/

/-- **C88** is violated by `initWithKnotsAndControlVertices` (and `addKnotsAndControlVertices`): the last vertex is off the manifold, the call
throws.  Called again with good vertices it returns, but the spline has the two first vertices of the failed call. -/
theorem C88_violated :
    let bad : Call ℚ ℚ := .initWithKnotsAndControlVertices [0, 1, 2, 3, 4] [5, 6, -7]
    let good : Call ℚ ℚ := .initWithKnotsAndControlVertices [0, 1, 2, 3, 4] [0, 1, 4]
    let s := (bad.run halfLine (create 2)).2
    (bad.run halfLine (create 2)).1 = .throws ∧ (good.run halfLine s).1 = .ok () ∧
      (good.run halfLine s).2.evalGeneric halfLine 1 = .ok 5 ∧
      (good.run halfLine (create 2)).2.evalGeneric halfLine 1 = .ok 0 ∧
      ((Call.addKnotsAndControlVertices [0, 1, 2] [5, 6, -7]).run halfLine (create 2)).1 = .throws ∧
      ((Call.addKnotsAndControlVertices [0, 1, 2] [5, 6, -7]).run halfLine (create 2)).2.keys = [0, 1] := by
  decide +kernel

/-- **C88** is violated by `initWithKnots`: of four knots two are equal, so that `init` throws; the knots stay and are part of the spline made
by the next call, which is valid from time 1 on instead of 11. -/
theorem C88_knots_violated :
    let bad : Call ℚ ℚ := .initWithKnots [0, 1, 1, 2]
    let good : Call ℚ ℚ := .initWithKnots [10, 11, 12, 13]
    let s := (bad.run halfLine (create 2)).2
    (bad.run halfLine (create 2)).1 = .throws ∧ s.keys = [0, 1, 2] ∧ (good.run halfLine s).1 = .ok () ∧
      (good.run halfLine s).2.getMinTime = .ok 1 ∧ (good.run halfLine (create 2)).2.getMinTime = .ok 11 := by
  decide +kernel

/-- **C88** is violated by `initConstantSpline` with a generator of too few knots: the spline made by the next call is not constant. -/
theorem C88_constant_violated :
    let bad : Call ℚ ℚ := .initConstant [0, 1, 2] 5
    let good : Call ℚ ℚ := .initConstant [1, 2, 3, 4] 7
    let s := (bad.run halfLine (create 2)).2
    (bad.run halfLine (create 2)).1 = .throws ∧ s.keys = [0, 1, 2] ∧ (good.run halfLine s).1 = .ok () ∧
      (good.run halfLine s).2.verts = [5, 5, 5, 7, 7] ∧ (good.run halfLine s).2.evalGeneric halfLine 1 = .ok 5 := by
  decide +kernel

/-- The hypotheses of `C88_history_partial` hold for a program whose second and fourth call throw. -/
example : let cs : List (Call ℚ ℚ) := [.addKnots [0, 1], .init, .initWithKnotsAndControlVertices [2, 3, 4, 5] [1, 2], .init]
    AllSafe halfLine cs (create 2) ∧ (create 2 : MSpline ℚ ℚ).MWF ∧ (runCatching halfLine cs (create 2)).2.keys = [0, 1, 2, 3, 4, 5] ∧
    (runCatching halfLine cs (create 2)).2.state = .evaluable := by
  refine ⟨⟨trivial, trivial, trivial, trivial, trivial, ?_, trivial, trivial, trivial⟩, (RegularReach.mwf (M := halfLine) (by norm_num) .create).1,
    by decide +kernel, by decide +kernel⟩
  intro _
  decide +kernel

/-- The hypotheses of `C88_initialised` hold for a second initialisation and for vertices from a time after the end. -/
example : demo.MWF ∧ demo.state = .evaluable ∧ ((Call.init : Call ℚ ℚ).run halfLine demo).1 = .throws ∧
    ((Call.manipulate (fun _ v => v) 1 4 0 : Call ℚ ℚ).run halfLine demo).1 = .throws :=
  ⟨(demo_reach.mwf (by norm_num)).1, by decide +kernel, by decide +kernel, by decide +kernel⟩

/-- What `C88_left_behind` says about the first call of `C88_violated`. -/
example : let bad : Call ℚ ℚ := .initWithKnotsAndControlVertices [0, 1, 2, 3, 4] [5, 6, -7]
    (bad.run halfLine (create 2)).2.keys = [0, 1] ∧ (bad.inserted halfLine 2).map Seg.knot = [0, 1] ∧
      (bad.inserted halfLine 2).map Seg.vertex = [5, 6] := by decide +kernel

/-- The hypothesis of `C88_fit_init`, with knots left behind, and of `C88_fit`. -/
example (solve : Solver ℚ) : ((create 2).fitInit true solve id (euclidean ℚ (Fin 1 → ℚ)) [-1, 0, 1] none [0, 0] [![1], ![1]] 0).1 = .throws ∧
    (retryDemo.fitSpline true solve id [0] [![1]] 0 0 none false).1 = .throws := by
  refine ⟨?_, rfl⟩
  unfold fitInit
  have hc : (create 2 : MSpline ℚ (Fin 1 → ℚ)).state = .constructing := rfl
  rw [hc]
  dsimp only
  rw [if_neg (by simp), if_neg (by simp), if_neg (by decide +kernel)]
  unfold andThen
  have e1 : (create 2).addKnots (euclidean ℚ (Fin 1 → ℚ)) [-1, 0, 1] = (.ok (), retryDemo) := rfl
  have hk : retryDemo.keys = [-1, 0, 1] := by decide +kernel
  rw [e1]
  dsimp only
  rw [init_few rfl (by rw [hk]; decide)]

/-- A spline of order two in one dimension, valid from 1 to 2. -/
def shortSpline : MSpline ℚ (Fin 1 → ℚ) :=
  ((Call.initWithKnotsAndControlVertices [0, 1, 2, 3] [![1], ![2]]).run (euclidean ℚ (Fin 1 → ℚ)) (create 2)).2

/-- **C88** is violated by `extendAndFitSpline`: the first time is before the valid interval, the call throws, and the spline has been
extended. -/
theorem C88_extend_violated (dense : Bool) (solve : Solver ℚ) :
    let r := shortSpline.extendAndFit dense solve id (euclidean ℚ (Fin 1 → ℚ)) [4] [0, 3] [![1], ![1]] 0 0 false
    r.1 = .throws ∧ shortSpline.getMaxTime = .ok 2 ∧ r.2.getMaxTime = .ok 3 ∧ r.2.euclideanEval 3 = .ok ![0] := by
  have e : shortSpline.extendAndFit dense solve id (euclidean ℚ (Fin 1 → ℚ)) [4] [0, 3] [![1], ![1]] 0 0 false =
      (.throws, (shortSpline.appendSegments (euclidean ℚ (Fin 1 → ℚ)) [4] none).2) := by
    have h1 : shortSpline.getMaxTime = .ok 2 := by decide +kernel
    have h2 : (shortSpline.appendSegments (euclidean ℚ (Fin 1 → ℚ)) [4] none).1 = .ok 3 := by decide +kernel
    have h3 : (shortSpline.appendSegments (euclidean ℚ (Fin 1 → ℚ)) [4] none).2.fitGuard [0, 3] 2 = .throws := by decide +kernel
    unfold extendAndFit
    rw [if_neg (by decide), if_neg (by decide), if_neg (by decide), h1]
    simp only [List.head?_cons, List.getLast?_cons_cons, List.getLast?_singleton]
    rw [if_pos (by norm_num), h2]
    simp only [Outcome.map_ok, if_true]
    unfold fitSpline
    rw [show ([![1], ![1]] : List (Fin 1 → ℚ)).length = 2 from rfl, h3]
    rfl
  intro r
  have e : r = _ := e
  rw [e]
  exact ⟨rfl, by decide +kernel, by decide +kernel, by decide +kernel⟩

end MSpline
end Verif
