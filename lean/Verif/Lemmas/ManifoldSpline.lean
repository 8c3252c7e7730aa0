import Verif.Lemmas.Iterators

/-!
# The state invariant of the manifold spline
-/

set_option linter.unusedSectionVars false

namespace Verif.MSpline

open Finset

variable {K : Type*} [Field K] [LinearOrder K] [IsStrictOrderedRing K] {P V : Type*}

/-- Consistency of the data members. -/
structure MWF (s : MSpline K P) : Prop where
  order_pos : 1 ≤ s.order
  sorted : s.keys.Pairwise (· < ·)
  enough : s.state = .evaluable → 2 * s.order ≤ s.keys.length
  iters_eq : s.state = .evaluable →
    s.iters = some ⟨s.keys[0]?, s.keys[s.order - 1]?, s.keys[s.keys.length - s.order]?⟩
  basis_eq : s.state = .evaluable → ∀ j g, s.order ≤ j + 1 → j + s.order < s.keys.length → s.segs[j]? = some g →
    g.basis = some (basisM s.kn j s.order)

theorem nodup_of_sorted {ks : List K} (h : ks.Pairwise (· < ·)) : ks.Nodup := h.imp fun h => ne_of_lt h

theorem MWF.nodup {s : MSpline K P} (h : s.MWF) : s.keys.Nodup := nodup_of_sorted h.sorted

@[simp] theorem keys_length (s : MSpline K P) : s.keys.length = s.segs.length := by simp [keys]

theorem kn_eq_knOf (s : MSpline K P) : s.kn = knOf s.keys := rfl

theorem MWF.mono {s : MSpline K P} (h : s.MWF) : MonoBelow s.kn s.keys.length := by
  intro a b hab hb
  rcases hab.eq_or_lt with rfl | hlt
  · exact le_rfl
  have := List.pairwise_iff_getElem.1 h.sorted a b (by omega) hb hlt
  have := this.le
  simpa [kn, List.getD_eq_getElem?_getD, List.getElem?_eq_getElem hb,
    List.getElem?_eq_getElem (show a < s.keys.length by omega)] using this

theorem kn_getElem (s : MSpline K P) {i : ℕ} (hi : i < s.keys.length) : s.keys[i]? = some (s.kn i) := by
  simp [kn, List.getD_eq_getElem?_getD, List.getElem?_eq_getElem hi]

theorem MWF.strict {s : MSpline K P} (h : s.MWF) {a b : ℕ} (hab : a < b) (hb : b < s.keys.length) : s.kn a < s.kn b := by
  have := List.pairwise_iff_getElem.1 h.sorted a b (by omega) hb hab
  simpa [kn, List.getD_eq_getElem?_getD, List.getElem?_eq_getElem hb,
    List.getElem?_eq_getElem (show a < s.keys.length by omega)] using this

/-! ### The map -/

theorem mapInsert_keys_mem (x : Seg K P) : ∀ l : List (Seg K P), ∀ t,
    t ∈ (mapInsert x l).map Seg.knot ↔ t = x.knot ∨ t ∈ l.map Seg.knot
  | [], t => by simp [mapInsert]
  | y :: ys, t => by
    unfold mapInsert
    split
    · simp
    · split
      · rename_i h1 h2; simp [h2]
      · simp only [List.map_cons, List.mem_cons, mapInsert_keys_mem x ys t]
        tauto

theorem mapInsert_sorted (x : Seg K P) : ∀ l : List (Seg K P), (l.map Seg.knot).Pairwise (· < ·) →
    ((mapInsert x l).map Seg.knot).Pairwise (· < ·)
  | [], _ => by simp [mapInsert]
  | y :: ys, h => by
    unfold mapInsert
    rw [List.map_cons, List.pairwise_cons] at h
    split
    · rename_i h1
      rw [List.map_cons, List.map_cons, List.pairwise_cons]
      refine ⟨fun a ha => ?_, List.pairwise_cons.2 h⟩
      rcases List.mem_cons.1 ha with rfl | ha
      · exact h1
      · exact h1.trans (h.1 a ha)
    · split
      · exact List.pairwise_cons.2 h
      · rename_i h1 h2
        rw [List.map_cons, List.pairwise_cons]
        refine ⟨fun a ha => ?_, mapInsert_sorted x ys h.2⟩
        rcases (mapInsert_keys_mem x ys a).1 ha with rfl | ha
        · exact lt_of_le_of_ne (not_lt.1 h1) (Ne.symm h2)
        · exact h.1 a ha

theorem mapInsert_append (x : Seg K P) : ∀ l : List (Seg K P), (∀ g ∈ l, g.knot < x.knot) → mapInsert x l = l ++ [x]
  | [], _ => rfl
  | y :: ys, h => by
    have hy := h y (by simp)
    unfold mapInsert
    rw [if_neg (not_lt.2 hy.le), if_neg hy.ne', mapInsert_append x ys (fun g hg => h g (by simp [hg]))]
    rfl

theorem mapInsert_present (x : Seg K P) : ∀ l : List (Seg K P), (l.map Seg.knot).Pairwise (· < ·) →
    x.knot ∈ l.map Seg.knot → mapInsert x l = l
  | [], _, h => by simp at h
  | y :: ys, hs, h => by
    rw [List.map_cons, List.pairwise_cons] at hs
    unfold mapInsert
    rcases List.mem_cons.1 h with h | h
    · rw [if_neg (by rw [h]; exact lt_irrefl _), if_pos h]
    · have := hs.1 _ h
      rw [if_neg (not_lt.2 this.le), if_neg this.ne', mapInsert_present x ys hs.2 h]

/-- Membership after an insertion into a sorted map. -/
theorem mapInsert_mem (x : Seg K P) : ∀ l : List (Seg K P), (l.map Seg.knot).Pairwise (· < ·) → ∀ g,
    g ∈ mapInsert x l ↔ g ∈ l ∨ (g = x ∧ x.knot ∉ l.map Seg.knot)
  | [], _, g => by simp [mapInsert]
  | y :: ys, hs, g => by
    rw [List.map_cons, List.pairwise_cons] at hs
    unfold mapInsert
    split
    · rename_i h1
      have : x.knot ∉ (y :: ys).map Seg.knot := by
        intro h
        rcases List.mem_cons.1 h with h | h
        · exact h1.ne h
        · exact absurd h1 (not_lt.2 (hs.1 _ h).le)
      simp only [List.mem_cons, this, not_false_eq_true, and_true]
      tauto
    · split
      · rename_i h1 h2
        simp [h2]
      · rename_i h1 h2
        simp only [List.mem_cons, mapInsert_mem x ys hs.2 g, List.map_cons, h2, false_or]
        tauto

/-! ### Initialisation -/

theorem initIterators_ok {s : MSpline K P} (hs : s.keys.Pairwise (· < ·)) (hk : 1 ≤ s.order)
    (hn : 2 * s.order ≤ s.keys.length) :
    s.initIterators = .ok ⟨s.keys[0]?, s.keys[s.order - 1]?, s.keys[s.keys.length - s.order]?⟩ := by
  unfold initIterators absBegin
  have hd := nodup_of_sorted hs
  have e : ((s.order : ℤ) - 1) = ((s.order - 1 : ℕ) : ℤ) := by omega
  rw [e, at_end s.keys, moveIter_fwd hd le_rfl (Nat.zero_le _), Outcome.bind_ok, moveIter_bwd hd (Nat.zero_le _) le_rfl,
    Outcome.bind_ok]
  congr 3 <;> omega

theorem init_ok {s : MSpline K P} (h : s.MWF) (hc : s.state = .constructing) (hn : 2 * s.order ≤ s.keys.length) :
    ∃ segs', s.init = (.ok (), ⟨s.order, segs', .evaluable,
        some ⟨s.keys[0]?, s.keys[s.order - 1]?, s.keys[s.keys.length - s.order]?⟩⟩) ∧
      segs'.map Seg.knot = s.keys ∧ Filled s.order s.keys (s.order - 1) (s.keys.length - s.order) s.segs segs' := by
  have hk := h.order_pos
  obtain ⟨segs', r1, r2, r3⟩ := initBasis_ok h.nodup hk (s.order - 1) (s.keys.length - s.order) (by omega) (by omega)
    (by omega) (by omega)
  rw [show s.order - 1 + 1 - s.order = 0 by omega] at r1
  refine ⟨segs', ?_, r2, by simpa using r3⟩
  unfold init
  rw [hc]
  simp only []
  rw [if_neg (by unfold numValidTimeSegments; rw [keys_length] at hn; omega), initIterators_ok h.sorted hk hn]
  simp only []
  rw [r1]

theorem init_few {s : MSpline K P} (hc : s.state = .constructing) (hn : s.keys.length < 2 * s.order) :
    s.init = (.throws, s) := by
  unfold init
  rw [hc]
  simp only []
  rw [if_pos (by unfold numValidTimeSegments; rw [keys_length] at hn; omega)]

theorem init_evaluable {s : MSpline K P} (hc : s.state = .evaluable) : s.init = (.throws, s) := by
  unfold init
  rw [hc]

theorem init_mwf {s : MSpline K P} (h : s.MWF) : s.init.2.MWF := by
  rcases hc : s.state with _ | _
  · rcases Nat.lt_or_ge s.keys.length (2 * s.order) with hn | hn
    · rw [init_few hc hn]; exact h
    · obtain ⟨segs', r1, r2, r3, r4⟩ := init_ok h hc hn
      rw [r1]
      have ek : (MSpline.mk s.order segs' SplineState.evaluable (some
        ⟨s.keys[0]?, s.keys[s.order - 1]?, s.keys[s.keys.length - s.order]?⟩) : MSpline K P).keys = s.keys := r2
      refine ⟨h.order_pos, by rw [ek]; exact h.sorted, fun _ => by rw [ek]; exact hn, fun _ => by rw [ek], ?_⟩
      intro _ j g h1 h2 hg
      rw [ek] at h2
      rw [kn_eq_knOf, ek]
      simp only at h1 h2 hg ⊢
      rw [r4] at hg
      obtain ⟨g0, -, rfl⟩ := Option.map_eq_some_iff.1 hg
      rw [if_pos (by omega)]
  · rw [init_evaluable hc]; exact h

/-! ### Adding -/

theorem add_mwf {s : MSpline K P} (h : s.MWF) (hc : s.state = .constructing) (x : Seg K P) :
    MWF { s with segs := mapInsert x s.segs } := by
  refine ⟨h.order_pos, mapInsert_sorted x s.segs h.sorted, ?_, ?_, ?_⟩ <;>
  · intro h'
    simp only [hc] at h'
    cases h'

/-! ### Appending -/

theorem keys_addKnot (M : Mfd K P V) (s : MSpline K P) (t : K) (ht : ∀ x ∈ s.keys, x < t) :
    (s.addKnot M t).segs = s.segs ++ [⟨t, M.default, none⟩] :=
  mapInsert_append _ _ fun _ hg => ht _ (List.mem_map_of_mem hg)

theorem writeVertex_get {segs : List (Seg K P)} {ks : List K} (hk : segs.map (·.knot) = ks) (hn : ks.Nodup) (b : ℕ)
    (hb : b < ks.length) (v : P) (j : ℕ) :
    (writeVertex segs ks[b] v)[j]? = segs[j]?.map fun g => if j = b then ⟨g.knot, v, g.basis⟩ else g := by
  unfold writeVertex
  rw [List.getElem?_map]
  rcases hg : segs[j]? with _ | g
  · rfl
  · simp only [Option.map_some, Option.some.injEq]
    have hkj : ks[j]? = some g.knot := by rw [← hk, List.getElem?_map, hg]; rfl
    by_cases h : j = b
    · subst h
      rw [List.getElem?_eq_getElem hb] at hkj
      rw [if_pos (Option.some.inj hkj).symm, if_pos rfl]
    · rw [if_neg h, if_neg]
      intro h'
      rw [h', ← List.getElem?_eq_getElem hb] at hkj
      have hj : j < ks.length := by
        by_contra hc
        rw [List.getElem?_eq_none (by omega), List.getElem?_eq_getElem hb] at hkj
        exact absurd hkj (by simp)
      exact h ((at_inj hn hj.le hb.le).1 hkj)

theorem writeVertex_keys (segs : List (Seg K P)) (x : K) (v : P) :
    (writeVertex segs x v).map (·.knot) = segs.map (·.knot) := by
  unfold writeVertex
  rw [List.map_map]
  refine List.map_congr_left fun _ _ => ?_
  simp only [Function.comp]
  split <;> rfl

/-- New entries at the end. -/
def newSegs (M : Mfd K P V) (ts : List K) : List (Seg K P) := ts.map fun t => ⟨t, M.default, none⟩

/-- Entries with the vertices at positions `p ≤ j < p + n` replaced, if a value is given. -/
def Revalued (value : Option P) (p n : ℕ) (segs segs' : List (Seg K P)) : Prop :=
  segs'.length = segs.length ∧ ∀ j, segs'[j]? = segs[j]?.map fun g =>
    if p ≤ j ∧ j < p + n then ⟨g.knot, value.getD g.vertex, g.basis⟩ else g

theorem appendLoop_ok (M : Mfd K P V) (value : Option P) : ∀ (ts : List K) (p c : ℕ) (s : MSpline K P),
    (s.keys ++ ts).Pairwise (· < ·) → p < s.keys.length → c < s.keys.length →
    ∃ s' : MSpline K P, appendLoop M value ts s.keys[p]? s.keys[c]? s = .ok ((s.keys ++ ts)[c + ts.length]?, s') ∧
      s'.order = s.order ∧ s'.state = s.state ∧ s'.iters = s.iters ∧ s'.keys = s.keys ++ ts ∧
      Revalued value p ts.length (s.segs ++ newSegs M ts) s'.segs
  | [], p, c, s, hs, hp, hc => by
    refine ⟨s, by simp [appendLoop], rfl, rfl, rfl, by simp, by simp [newSegs], fun j => ?_⟩
    simp only [newSegs, List.map_nil, List.append_nil, List.length_nil, add_zero]
    rcases s.segs[j]? with _ | g
    · rfl
    · rw [Option.map_some, if_neg (by omega)]
  | t :: ts, p, c, s, hs, hp, hc => by
    have hlt : ∀ x ∈ s.keys, x < t := by
      intro x hx
      exact (List.pairwise_append.1 hs).2.2 x hx t (by simp)
    have hseg := keys_addKnot M s t hlt
    have hkey : (s.addKnot M t).keys = s.keys ++ [t] := by unfold keys; rw [hseg]; simp
    have hs' : ((s.addKnot M t).keys ++ ts).Pairwise (· < ·) := by rw [hkey]; simpa using hs
    have hd : (s.addKnot M t).keys.Nodup := nodup_of_sorted (List.pairwise_append.1 hs').1
    have hl : (s.addKnot M t).keys.length = s.keys.length + 1 := by rw [hkey]; simp
    have ec : s.keys[c]? = (s.addKnot M t).keys[c]? := by rw [hkey, List.getElem?_append_left hc]
    have ep : s.keys[p]? = (s.addKnot M t).keys[p]? := by rw [hkey, List.getElem?_append_left hp]
    have efin : (s.keys ++ t :: ts) = (s.addKnot M t).keys ++ ts := by rw [hkey]; simp
    have eseg : s.segs ++ newSegs M (t :: ts) = (s.addKnot M t).segs ++ newSegs M ts := by rw [hseg]; simp [newSegs]
    unfold appendLoop
    simp only []
    rw [ec, itInc_at hd (by omega), Outcome.bind_ok]
    rcases value with _ | v
    · simp only []
      rw [ep]
      obtain ⟨s', r1, r2, r3, r4, r5, r6, r7⟩ := appendLoop_ok M none ts p (c + 1) (s.addKnot M t) hs' (by omega) (by omega)
      refine ⟨s', ?_, r2, r3, r4, by rw [efin, r5], by rw [eseg, r6], fun j => ?_⟩
      · rw [r1, efin]; congr 3; simp; omega
      · rw [eseg, r7]
        congr 1
        funext g
        simp only [Option.getD_none, ite_self]
    · have hpx : s.keys[p]? = some s.keys[p] := List.getElem?_eq_getElem hp
      rw [hpx]
      simp only []
      rw [← hpx, ep]
      have hp' : p < (s.addKnot M t).keys.length := by omega
      have ex : s.keys[p] = (s.addKnot M t).keys[p] := by
        apply Option.some.inj
        rw [← List.getElem?_eq_getElem, ← List.getElem?_eq_getElem, ep]
      rw [ex]
      have hk2 : (MSpline.mk (K := K) (s.addKnot M t).order (writeVertex (s.addKnot M t).segs (s.addKnot M t).keys[p] v)
          (s.addKnot M t).state (s.addKnot M t).iters).keys = (s.addKnot M t).keys := writeVertex_keys _ _ _
      generalize hs2 : (MSpline.mk (K := K) (s.addKnot M t).order (writeVertex (s.addKnot M t).segs (s.addKnot M t).keys[p] v)
          (s.addKnot M t).state (s.addKnot M t).iters) = s2 at hk2
      rw [← hk2, itInc_at (by rw [hk2]; exact hd) (by rw [hk2]; exact hp'), Outcome.bind_ok]
      obtain ⟨s', r1, r2, r3, r4, r5, r6, r7⟩ := appendLoop_ok M (some v) ts (p + 1) (c + 1) s2 (by rw [hk2]; exact hs')
        (by rw [hk2]; omega) (by rw [hk2]; omega)
      have hseg2 : s2.segs = writeVertex (s.addKnot M t).segs (s.addKnot M t).keys[p] v := by rw [← hs2]
      refine ⟨s', ?_, by rw [r2, ← hs2]; rfl, by rw [r3, ← hs2]; rfl, by rw [r4, ← hs2]; rfl, by rw [r5, hk2, efin],
        by rw [r6, hseg2, eseg]; simp [writeVertex], fun j => ?_⟩
      · rw [r1, efin, hk2]; congr 3; simp; omega
      · rw [r7, eseg, hseg2]
        have : ∀ (l : List (Seg K P)), l = newSegs M ts → (writeVertex (s.addKnot M t).segs (s.addKnot M t).keys[p] v ++ l)[j]?
            = ((s.addKnot M t).segs ++ l)[j]?.map fun g => if j = p then ⟨g.knot, v, g.basis⟩ else g := by
          intro l _
          have hlen : (writeVertex (s.addKnot M t).segs (s.addKnot M t).keys[p] v).length = (s.addKnot M t).segs.length := by
            simp [writeVertex]
          by_cases hj : j < (s.addKnot M t).segs.length
          · rw [List.getElem?_append_left (by omega), List.getElem?_append_left hj]
            exact writeVertex_get (ks := (s.addKnot M t).keys) rfl hd p hp' v j
          · rw [List.getElem?_append_right (by omega), List.getElem?_append_right (by omega), hlen]
            have : j ≠ p := by rw [keys_length] at hp'; omega
            simp [this]
        rw [this _ rfl, Option.map_map]
        congr 1
        funext g
        simp only [Function.comp, Option.getD_some, List.length_cons]
        by_cases h1 : j = p
        · rw [if_pos h1, if_neg (by omega), if_pos (by omega)]
        · rw [if_neg h1]
          by_cases h2 : p + 1 ≤ j ∧ j < p + 1 + ts.length
          · rw [if_pos h2, if_pos (by omega)]
          · rw [if_neg h2, if_neg (by omega)]

/-- The control vertices in knot order. -/
def verts (s : MSpline K P) : List P := s.segs.map (·.vertex)

theorem append_ok {s : MSpline K P} (h : s.MWF) (he : s.state = .evaluable) (M : Mfd K P V) (ts : List K) (value : Option P)
    (hs : (s.keys ++ ts).Pairwise (· < ·)) :
    ∃ s' : MSpline K P, s.appendSegments M ts value = (.ok (s'.kn (s.keys.length + ts.length - s.order)), s') ∧
      s'.MWF ∧ s'.order = s.order ∧ s'.state = .evaluable ∧ s'.keys = s.keys ++ ts ∧
      ∀ j, s'.verts[j]? = (s.verts ++ List.replicate ts.length M.default)[j]?.map fun v0 =>
        if s.keys.length - s.order ≤ j ∧ j < s.keys.length - s.order + ts.length then value.getD v0 else v0 := by
  have hk := h.order_pos
  have hn := h.enough he
  have hd := h.nodup
  obtain ⟨s1, r1, r2, r3, r4, r5, r6, r7⟩ := appendLoop_ok M value ts (s.keys.length - s.order) (s.keys.length - s.order) s hs
    (by omega) (by omega)
  have hmove : moveIter s.keys none s.absBegin (-(s.order : ℤ)) = .ok s.keys[s.keys.length - s.order]? := by
    unfold absBegin
    rw [at_end s.keys, moveIter_bwd hd (Nat.zero_le _) le_rfl]
    simp
  have hv1 : ∀ j, s1.verts[j]? = (s.verts ++ List.replicate ts.length M.default)[j]?.map fun v0 =>
        if s.keys.length - s.order ≤ j ∧ j < s.keys.length - s.order + ts.length then value.getD v0 else v0 := by
    intro j
    have e : s.verts ++ List.replicate ts.length M.default = (s.segs ++ newSegs M ts).map (·.vertex) := by
      simp [verts, newSegs, Function.comp_def, List.map_const']
    rw [e, verts, List.getElem?_map, List.getElem?_map, r7, Option.map_map, Option.map_map]
    congr 1
    funext g
    simp only [Function.comp]
    split <;> rfl
  have hd1 : s1.keys.Nodup := by rw [r5]; exact nodup_of_sorted hs
  have hl1 : s1.keys.length = s.keys.length + ts.length := by rw [r5]; simp
  have hold : ∀ j, j < s.keys.length → s.keys[j]? = s1.keys[j]? := by
    intro j hj; rw [r5, List.getElem?_append_left hj]
  rcases ts with _ | ⟨t, ts⟩
  · have es : s1 = s := by
      have : s1.segs = s.segs := by
        apply List.ext_getElem?
        intro j
        rw [r7]
        simp only [newSegs, List.map_nil, List.append_nil, List.length_nil, add_zero]
        rcases s.segs[j]? with _ | g
        · rfl
        · rw [Option.map_some, if_neg (by omega)]
      cases s1; cases s
      simp_all
    subst es
    refine ⟨s1, ?_, h, rfl, he, by simp, hv1⟩
    unfold appendSegments
    rw [he, h.iters_eq he]
    simp only []
    rw [hmove]
    simp only [ne_eq, not_true_eq_false, if_false]
    rw [r1]
    simp only [List.append_nil, List.length_nil, add_zero, if_true]
    unfold getMaxTime
    rw [h.iters_eq he, kn_getElem _ (by omega : s1.keys.length - s1.order < s1.keys.length)]
  · generalize hm : (t :: ts) = ts' at *
    have hm1 : 1 ≤ ts'.length := by rw [← hm]; simp
    obtain ⟨segs', q1, q2, q3, q4⟩ := initBasis_ok (s := s1) hd1 (by rw [r2]; exact hk) (s.keys.length - s.order - 1)
      (s.keys.length - s.order + ts'.length) (by omega) (by omega) (by omega) (by omega)
    let s' : MSpline K P := ⟨s1.order, segs', s1.state,
      some ⟨s.keys[0]?, s.keys[s.order - 1]?, s1.keys[s.keys.length - s.order + ts'.length]?⟩⟩
    have ek : s'.keys = s1.keys := q2
    have hb : ∀ j, j < s.keys.length → s.order ≤ j + 1 → j + s.order < s.keys.length →
        basisM s1.kn j s.order = basisM s.kn j s.order := by
      intro j h1 h2 h3
      rw [kn_eq_knOf, kn_eq_knOf, r5]
      exact basisM_knOf_append _ _ _ _ h2 h3
    refine ⟨s', ?_, ⟨by rw [← r2] at hk; exact hk, by rw [ek, r5]; exact hs, fun _ => ?_, fun _ => ?_, ?_⟩, r2, by
      show s1.state = _; rw [r3, he], by rw [ek, r5], fun j => ?_⟩
    · unfold appendSegments
      rw [he, h.iters_eq he]
      simp only []
      rw [hmove]
      simp only [ne_eq, not_true_eq_false, if_false]
      rw [r1]
      simp only []
      rw [← r5, hold _ (by omega), if_neg (by rw [at_inj hd1 (by omega) (by omega)]; omega)]
      have m1 : moveIter s1.keys s1.keys[s.keys.length - s.order]? s.absBegin (-1)
          = .ok s1.keys[s.keys.length - s.order - 1]? := by
        unfold absBegin
        rw [hold 0 (by omega)]
        have := moveIter_bwd hd1 (Nat.zero_le (s.keys.length - s.order)) (by omega) 1
        simpa using this
      have m2 : moveIter s1.keys s1.keys[s.keys.length - s.order - 1]? s.absBegin (-((s.order : ℤ) - 1))
          = .ok s1.keys[s.keys.length - s.order - 1 + 1 - s1.order]? := by
        unfold absBegin
        rw [hold 0 (by omega), show -((s.order : ℤ) - 1) = -((s.order - 1 : ℕ) : ℤ) by omega,
          moveIter_bwd hd1 (Nat.zero_le _) (by omega)]
        congr 2; omega
      rw [m1, Outcome.bind_ok, m2, Outcome.bind_ok, q1]
      simp only []
      have : s'.getMaxTime = .ok (s'.kn (s.keys.length + ts'.length - s.order)) := by
        have e : s'.kn (s.keys.length + ts'.length - s.order) = s1.kn (s.keys.length - s.order + ts'.length) := by
          rw [kn_eq_knOf, kn_eq_knOf, ek]
          congr 1; omega
        rw [e]
        unfold getMaxTime
        simp only [s']
        rw [kn_getElem s1 (by omega)]
      exact Prod.ext this rfl
    · rw [ek, hl1]; show 2 * s1.order ≤ _; omega
    · rw [ek]
      simp only [s']
      rw [hold 0 (by omega), hold _ (by omega), r2]
      congr 3; omega
    · intro _ j g h1 h2 hg
      rw [ek] at h2
      rw [kn_eq_knOf, ek, ← kn_eq_knOf]
      have h1 : s1.order ≤ j + 1 := h1
      have h2 : j + s1.order < s1.keys.length := h2
      have hg : segs'[j]? = some g := hg
      show g.basis = some (basisM s1.kn j s1.order)
      rw [q4] at hg
      obtain ⟨g1, hg1, rfl⟩ := Option.map_eq_some_iff.1 hg
      by_cases hj : s.keys.length - s.order - 1 ≤ j
      · rw [if_pos (by omega)]; rfl
      · rw [if_neg (by omega)]
        rw [r7, List.getElem?_append_left (by rw [keys_length] at hj; omega)] at hg1
        obtain ⟨g0, hg0, rfl⟩ := Option.map_eq_some_iff.1 hg1
        rw [if_neg (by omega), r2, hb j (by omega) (by omega) (by omega)]
        exact h.basis_eq he j g0 (by omega) (by omega) hg0
    · rw [← hv1 j]
      show (segs'.map (·.vertex))[j]? = (s1.segs.map (·.vertex))[j]?
      rw [List.getElem?_map, List.getElem?_map, q4, Option.map_map]
      congr 1
      funext g
      simp only [Function.comp]
      split <;> rfl

end Verif.MSpline
