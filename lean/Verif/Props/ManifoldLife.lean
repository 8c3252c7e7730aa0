import Verif.Lemmas.Generic
import Verif.Props.ManifoldMap

/-!
# C22, C25: life cycle and segment lookup of the manifold spline
-/

set_option linter.unusedSectionVars false

namespace Verif.MSpline

variable {K : Type*} [Field K] [LinearOrder K] [IsStrictOrderedRing K] {P V : Type*}

/-! ### Bulk changes of control vertices -/

theorem manipulateLoop_spec (f : ℕ → P → P) {ks : List K} (hn : ks.Nodup) : ∀ (n p i : ℕ) (segs : List (Seg K P)),
    segs.map Seg.knot = ks → p ≤ ks.length →
    (manipulateLoop f (ks.drop p) i n segs).map Seg.knot = ks ∧
    ∀ j, (manipulateLoop f (ks.drop p) i n segs)[j]? = segs[j]?.map fun g =>
      if p ≤ j ∧ j < p + n then ⟨g.knot, f (i + (j - p)) g.vertex, g.basis⟩ else g
  | 0, p, i, segs, hk, hp => by
    have : manipulateLoop f (ks.drop p) i 0 segs = segs := by
      rcases ks.drop p with _ | ⟨x, l⟩ <;> rfl
    rw [this]
    refine ⟨hk, fun j => ?_⟩
    rcases segs[j]? with _ | g
    · rfl
    · rw [Option.map_some, if_neg (by omega)]
  | (n + 1), p, i, segs, hk, hp => by
    rcases hp.eq_or_lt with rfl | hlt
    · rw [List.drop_length]
      refine ⟨hk, fun j => ?_⟩
      unfold manipulateLoop
      rcases hg : segs[j]? with _ | g
      · rfl
      · have : j < segs.length := by
          by_contra hc
          rw [List.getElem?_eq_none (by omega)] at hg
          cases hg
        have hl : segs.length = ks.length := by rw [← hk]; simp
        rw [Option.map_some, if_neg (by omega)]
    · rw [← List.cons_getElem_drop_succ (h := hlt)]
      unfold manipulateLoop
      have hk2 : (segs.map fun g => if g.knot = ks[p] then { g with vertex := f i g.vertex } else g).map Seg.knot = ks := by
        rw [List.map_map]
        refine Eq.trans (List.map_congr_left fun _ _ => ?_) hk
        simp only [Function.comp]
        split <;> rfl
      obtain ⟨r1, r2⟩ := manipulateLoop_spec f hn n (p + 1) (i + 1) _ hk2 (by omega)
      refine ⟨r1, fun j => ?_⟩
      rw [r2, List.getElem?_map, Option.map_map]
      rcases hg : segs[j]? with _ | g
      · rfl
      · have hkj : ks[j]? = some g.knot := by rw [← hk, List.getElem?_map, hg]; rfl
        have hj : j < ks.length := by
          by_contra hc
          rw [List.getElem?_eq_none (by omega)] at hkj
          cases hkj
        simp only [Option.map_some, Option.some.injEq, Function.comp]
        have hiff : g.knot = ks[p] ↔ j = p := by
          rw [← at_inj hn hj.le hlt.le, hkj, List.getElem?_eq_getElem hlt, Option.some.injEq]
        by_cases h1 : j = p
        · subst h1
          rw [if_neg (by omega), if_pos (hiff.2 rfl), if_pos (by omega)]
          simp
        · rw [if_neg (fun h => h1 (hiff.1 h))]
          by_cases h2 : p + 1 ≤ j ∧ j < p + 1 + n
          · rw [if_pos h2, if_pos (by omega)]
            congr 2; omega
          · rw [if_neg h2, if_neg (by omega)]

theorem numControlVertices_eq {s : MSpline K P} (h : s.MWF) (he : s.state = .evaluable) :
    s.numControlVertices = .ok (s.keys.length - s.order) := by
  have := h.enough he
  have := h.order_pos
  unfold numControlVertices
  rw [he]
  simp only [numValidTimeSegments, ← keys_length]
  congr 1; omega

theorem manipulate_start {s : MSpline K P} (h : s.MWF) (he : s.state = .evaluable) {t : K} {i : ℕ} (hi : s.InSeg t i) (n : ℕ)
    (hn : n ≤ s.keys.length - s.order) (offset : ℤ) (f : ℕ → P → P) :
    s.manipulateControlVertices f n t offset =
      match moveIter s.keys s.keys[i + 1 - s.order]? (if offset > 0 then s.keys[s.keys.length - s.order]? else
          s.keys[s.order - 1]?) offset with
      | .ub => (.ub, s)
      | .throws => (.throws, s)
      | .ok it => (.ok (), { s with segs := manipulateLoop f (s.keys.drop (itPos s.keys it)) 0 n s.segs }) := by
  have h1 := hi.lower
  have h2 := hi.upper
  have h3 := h.order_pos
  obtain ⟨hr1, hr2⟩ := hi.range h
  obtain ⟨i', hi', hit⟩ := getSegmentIterator_ok h he t hr1 hr2
  obtain rfl := hi.unique h hi'
  unfold manipulateControlVertices
  rw [numControlVertices_eq h he, Outcome.bind_ok, if_neg (by omega), hit, Outcome.bind_ok]
  unfold firstRelevantByLast absBegin
  rw [show -((s.order : ℤ) - 1) = -((s.order - 1 : ℕ) : ℤ) by omega, moveIter_bwd h.nodup (Nat.zero_le _) (by omega),
    Outcome.bind_ok, h.iters_eq he]
  simp only [show max (i - (s.order - 1)) 0 = i + 1 - s.order by omega]
  rfl

/-- With a non-negative offset the update starts at an existing vertex. -/
theorem manipulate_nonneg {s : MSpline K P} (h : s.MWF) (he : s.state = .evaluable) {t : K} {i : ℕ} (hi : s.InSeg t i) (n : ℕ)
    (hn : n ≤ s.keys.length - s.order) (offset : ℕ) (f : ℕ → P → P) :
    s.manipulateControlVertices f n t offset = (.ok (), MSpline.mk (K := K) s.order
      (manipulateLoop f (s.keys.drop (min (i + 1 - s.order + offset) (s.keys.length - s.order))) 0 n s.segs) s.state s.iters) := by
  have h2 := hi.upper
  have h3 := h.order_pos
  rw [manipulate_start h he hi n hn]
  rcases Nat.eq_zero_or_pos offset with rfl | h0
  · unfold moveIter
    simp only [Nat.cast_zero, if_true]
    rw [itPos_at h.nodup (by omega), show min (i + 1 - s.order + 0) (s.keys.length - s.order) = i + 1 - s.order by omega]
  · rw [if_pos (by omega), moveIter_fwd h.nodup (by omega) (by omega)]
    simp only []
    rw [itPos_at h.nodup (by omega)]

theorem mwf_segs {s : MSpline K P} (h : s.MWF) (segs : List (Seg K P)) (hk : segs.map Seg.knot = s.keys)
    (hb : ∀ j : ℕ, segs[j]?.map Seg.basis = s.segs[j]?.map Seg.basis) : MWF { s with segs := segs } := by
  have ek : (MSpline.mk s.order segs s.state s.iters : MSpline K P).keys = s.keys := hk
  refine ⟨h.order_pos, by rw [ek]; exact h.sorted, fun he => by rw [ek]; exact h.enough he,
    fun he => by rw [ek]; exact h.iters_eq he, ?_⟩
  intro he j g h1 h2 hg
  rw [ek] at h2
  rw [kn_eq_knOf, ek]
  have hg : segs[j]? = some g := hg
  have := hb j
  rw [hg, Option.map_some] at this
  obtain ⟨g0, hg0, hg1⟩ := Option.map_eq_some_iff.1 this.symm
  rw [← hg1]
  exact h.basis_eq he j g0 h1 h2 hg0

theorem mwf_manipulateLoop {s : MSpline K P} (h : s.MWF) (f : ℕ → P → P) (p n : ℕ) (hp : p ≤ s.keys.length) :
    MWF { s with segs := manipulateLoop f (s.keys.drop p) 0 n s.segs } := by
  obtain ⟨r1, r2⟩ := manipulateLoop_spec f h.nodup n p 0 s.segs rfl hp
  refine mwf_segs h _ r1 fun j => ?_
  rw [r2, Option.map_map]
  congr 1
  funext g
  simp only [Function.comp]
  split <;> rfl

theorem evaluable_total {s : MSpline K P} (h : s.MWF) (he : s.state = .evaluable) (t : K) :
    (∃ i, s.InSeg t i) ∨ (t < s.kn (s.order - 1) ∨ s.kn (s.keys.length - s.order) < t) := by
  rcases lt_or_ge t (s.kn (s.order - 1)) with h1 | h1
  · exact Or.inr (Or.inl h1)
  · rcases lt_or_ge (s.kn (s.keys.length - s.order)) t with h2 | h2
    · exact Or.inr (Or.inr h2)
    · obtain ⟨i, hi, -⟩ := getSegmentIterator_ok h he t h1 h2
      exact Or.inl ⟨i, hi⟩

/-! ### Calls -/

/-- The calls of the public interface that change a spline.  The knots a generator delivers are given as a list. -/
inductive Call (K P : Type*)
  | addKnot (t : K)
  | addControlVertex (t : K) (p : P)
  | addKnots (ts : List K)
  | addKnotsAndControlVertices (ts : List K) (cs : List P)
  | init
  | initWithKnots (ts : List K)
  | initWithKnotsAndControlVertices (ts : List K) (cs : List P)
  | initConstant (ts : List K) (c : P)
  | append (ts : List K) (value : Option P)
  | manipulate (f : ℕ → P → P) (n : ℕ) (t : K) (offset : ℤ)

/-- Run a call. -/
def Call.run (M : Mfd K P V) : Call K P → MSpline K P → Outcome Unit × MSpline K P
  | .addKnot t, s => (.ok (), s.addKnot M t)
  | .addControlVertex t p, s => s.addControlVertex M t p
  | .addKnots ts, s => s.addKnots M ts
  | .addKnotsAndControlVertices ts cs, s => s.addKnotsAndControlVertices M ts cs
  | .init, s => s.init
  | .initWithKnots ts, s => s.initWithKnots M ts
  | .initWithKnotsAndControlVertices ts cs, s => s.initWithKnotsAndControlVertices M ts cs
  | .initConstant ts c, s => s.initConstantSpline M ts c
  | .append ts v, s => ((s.appendSegments M ts v).1.map fun _ => (), (s.appendSegments M ts v).2)
  | .manipulate f n t o, s => s.manipulateControlVertices f n t o

/-- The calls that are meant to initialise. -/
def Call.isInit : Call K P → Prop
  | .init | .initWithKnots _ | .initWithKnotsAndControlVertices _ _ | .initConstant _ _ => True
  | _ => False

theorem forEach_inv {σ α : Type*} (f : α → σ → Outcome Unit × σ) (I : σ → Prop) (hf : ∀ a s, I s → I (f a s).2) :
    ∀ (l : List α) (s : σ), I s → I (forEach f l s).2
  | [], _, h => h
  | a :: l, s, h => by
    unfold forEach
    have := hf a s h
    split
    · rename_i s' heq; rw [heq] at this; exact forEach_inv f I hf l s' this
    · rename_i s' heq; rw [heq] at this; exact this

theorem forEach_not_ub {σ α : Type*} (f : α → σ → Outcome Unit × σ) (I : σ → Prop) (hf : ∀ a s, I s → I (f a s).2)
    (hu : ∀ a s, I s → (f a s).1 ≠ .ub) : ∀ (l : List α) (s : σ), I s → (forEach f l s).1 ≠ .ub
  | [], _, _ => by simp [forEach]
  | a :: l, s, h => by
    unfold forEach
    have h1 := hf a s h
    have h2 := hu a s h
    split
    · rename_i s' heq; rw [heq] at h1; exact forEach_not_ub f I hf hu l s' h1
    · rename_i o s' h3 heq; rw [heq] at h2; exact h2

theorem andThen_inv {σ : Type*} (f g : σ → Outcome Unit × σ) (s : σ) (I : σ → Prop) (hf : I (f s).2)
    (hg : ∀ s', f s = (.ok (), s') → I (g s').2) : I (andThen f g s).2 := by
  unfold andThen
  split
  · rename_i s' heq; exact hg s' heq
  · rename_i s' heq; rw [heq] at hf; exact hf

theorem andThen_not_ub {σ : Type*} (f g : σ → Outcome Unit × σ) (s : σ) (hf : (f s).1 ≠ .ub)
    (hg : ∀ s', f s = (.ok (), s') → (g s').1 ≠ .ub) : (andThen f g s).1 ≠ .ub := by
  unfold andThen
  split
  · rename_i s' heq; exact hg s' heq
  · rename_i s' heq; rw [heq] at hf; exact hf

/-- Consistent and in construction. -/
def Building (k : ℕ) (s : MSpline K P) : Prop := s.MWF ∧ s.state = .constructing ∧ s.order = k

theorem building_addKnot (M : Mfd K P V) (t : K) {k : ℕ} {s : MSpline K P} (h : Building k s) : Building k (s.addKnot M t) :=
  ⟨add_mwf h.1 h.2.1 _, h.2.1, h.2.2⟩

theorem building_addControlVertex (M : Mfd K P V) (t : K) (p : P) {k : ℕ} {s : MSpline K P} (h : Building k s) :
    Building k (s.addControlVertex M t p).2 := by
  unfold addControlVertex
  split
  · exact ⟨add_mwf h.1 h.2.1 _, h.2.1, h.2.2⟩
  · exact h

theorem addControlVertex_not_ub (M : Mfd K P V) (t : K) (p : P) (s : MSpline K P) : (s.addControlVertex M t p).1 ≠ .ub := by
  unfold addControlVertex
  split <;> simp

theorem assertConstructing_evaluable {s : MSpline K P} (he : s.state = .evaluable) (g : MSpline K P → Outcome Unit × MSpline K P) :
    andThen assertConstructing g s = (.throws, s) := by
  unfold andThen assertConstructing
  rw [he]

theorem assertConstructing_constructing {s : MSpline K P} (hc : s.state = .constructing)
    (g : MSpline K P → Outcome Unit × MSpline K P) : andThen assertConstructing g s = g s := by
  unfold andThen assertConstructing
  rw [hc]

theorem init_not_ub {s : MSpline K P} (h : s.MWF) : s.init.1 ≠ .ub := by
  rcases hc : s.state with _ | _
  · rcases Nat.lt_or_ge s.keys.length (2 * s.order) with hn | hn
    · rw [init_few hc hn]; simp
    · obtain ⟨segs', r1, -⟩ := init_ok h hc hn
      rw [r1]; simp
  · rw [init_evaluable hc]; simp

theorem init_order (s : MSpline K P) : s.init.2.order = s.order := by
  unfold init
  split
  · rfl
  · split
    · rfl
    · split
      · rfl
      · rfl
      · split <;> rfl

/-- Calls of a reasonable client: bare additions only before initialisation, appended knots continue the knot sequence, and no
negative offset. -/
def Call.Regular (s : MSpline K P) : Call K P → Prop
  | .addKnot _ | .addControlVertex _ _ => s.state = .constructing
  | .append ts _ => s.state = .evaluable → (s.keys ++ ts).Pairwise (· < ·)
  | .manipulate _ _ _ o => 0 ≤ o
  | _ => True

theorem regular_mwf (M : Mfd K P V) (c : Call K P) {s : MSpline K P} (h : s.MWF) (hr : c.Regular s) :
    (c.run M s).2.MWF ∧ (c.run M s).1 ≠ .ub ∧ (c.run M s).2.order = s.order := by
  have hb : s.state = .constructing → Building s.order s := fun hc => ⟨h, hc, rfl⟩
  have hknots : ∀ (ts : List K) (s' : MSpline K P), Building s.order s' →
      Building s.order (forEach (fun t => total (addKnot M t)) ts s').2 ∧ (forEach (fun t => total (addKnot M t)) ts s').1 ≠ .ub :=
    fun ts s' hs' => ⟨forEach_inv _ (Building s.order) (fun t _ h => building_addKnot M t h) ts s' hs',
      forEach_not_ub _ (Building s.order) (fun t _ h => building_addKnot M t h) (fun _ _ _ => by simp [total]) ts s' hs'⟩
  have hverts : ∀ (l : List (K × P)) (s' : MSpline K P), Building s.order s' →
      Building s.order (forEach (fun tp : K × P => addControlVertex M tp.1 tp.2) l s').2 ∧
      (forEach (fun tp : K × P => addControlVertex M tp.1 tp.2) l s').1 ≠ .ub :=
    fun l s' hs' => ⟨forEach_inv _ (Building s.order) (fun t _ h => building_addControlVertex M _ _ h) l s' hs',
      forEach_not_ub _ (Building s.order) (fun t _ h => building_addControlVertex M _ _ h)
        (fun _ _ _ => addControlVertex_not_ub M _ _ _) l s' hs'⟩
  have hinit : ∀ s' : MSpline K P, Building s.order s' → s'.init.2.MWF ∧ s'.init.2.order = s.order ∧ s'.init.1 ≠ .ub :=
    fun s' hs' => ⟨init_mwf hs'.1, by rw [init_order]; exact hs'.2.2, init_not_ub hs'.1⟩
  have ok_eq : ∀ {f : MSpline K P → Outcome Unit × MSpline K P} {s0 s' : MSpline K P} {I : MSpline K P → Prop},
      I (f s0).2 → f s0 = (.ok (), s') → I s' := by
    intro f s0 s' I h1 h2; rw [h2] at h1; exact h1
  cases c with
  | addKnot t => exact ⟨add_mwf h hr _, by simp [Call.run], rfl⟩
  | addControlVertex t p =>
    have := building_addControlVertex M t p (hb hr)
    exact ⟨this.1, addControlVertex_not_ub M t p s, this.2.2⟩
  | addKnots ts =>
    simp only [Call.run, addKnots]
    rcases hc : s.state with _ | _
    · rw [assertConstructing_constructing hc]
      have := hknots ts s (hb hc)
      exact ⟨this.1.1, this.2, this.1.2.2⟩
    · rw [assertConstructing_evaluable hc]; exact ⟨h, by simp, rfl⟩
  | addKnotsAndControlVertices ts cs =>
    simp only [Call.run, addKnotsAndControlVertices]
    rcases hc : s.state with _ | _
    · rw [assertConstructing_constructing hc]
      split
      · exact ⟨h, by simp, rfl⟩
      · have := hverts (ts.zip cs) s (hb hc)
        exact ⟨this.1.1, this.2, this.1.2.2⟩
    · rw [assertConstructing_evaluable hc]; exact ⟨h, by simp, rfl⟩
  | init => exact ⟨init_mwf h, init_not_ub h, init_order s⟩
  | initWithKnots ts =>
    simp only [Call.run, initWithKnots]
    rcases hc : s.state with _ | _
    · rw [assertConstructing_constructing hc]
      split
      · exact ⟨h, by simp, rfl⟩
      · have h1 := hknots ts s (hb hc)
        refine ⟨andThen_inv _ _ _ MWF h1.1.1 fun s' he => (hinit s' (ok_eq (I := Building s.order) h1.1 he)).1,
          andThen_not_ub _ _ _ h1.2 fun s' he => (hinit s' (ok_eq (I := Building s.order) h1.1 he)).2.2,
          andThen_inv _ _ _ (fun x => x.order = s.order) h1.1.2.2 fun s' he =>
            (hinit s' (ok_eq (I := Building s.order) h1.1 he)).2.1⟩
    · rw [assertConstructing_evaluable hc]; exact ⟨h, by simp, rfl⟩
  | initWithKnotsAndControlVertices ts cs =>
    simp only [Call.run, initWithKnotsAndControlVertices]
    rcases hc : s.state with _ | _
    · rw [assertConstructing_constructing hc]
      split
      · exact ⟨h, by simp, rfl⟩
      · have h1 := hverts (ts.zip cs) s (hb hc)
        have h2 : ∀ s', Building s.order s' →
            (andThen (forEach (fun t => total (addKnot M t)) (ts.drop cs.length)) init s').2.MWF ∧
            (andThen (forEach (fun t => total (addKnot M t)) (ts.drop cs.length)) init s').2.order = s.order ∧
            (andThen (forEach (fun t => total (addKnot M t)) (ts.drop cs.length)) init s').1 ≠ .ub := by
          intro s' hs'
          have h3 := hknots (ts.drop cs.length) s' hs'
          exact ⟨andThen_inv _ _ _ MWF h3.1.1 fun s'' he => (hinit s'' (ok_eq (I := Building s.order) h3.1 he)).1,
            andThen_inv _ _ _ (fun x => x.order = s.order) h3.1.2.2 fun s' he =>
            (hinit s' (ok_eq (I := Building s.order) h3.1 he)).2.1,
            andThen_not_ub _ _ _ h3.2 fun s'' he => (hinit s'' (ok_eq (I := Building s.order) h3.1 he)).2.2⟩
        refine ⟨andThen_inv _ _ _ MWF h1.1.1 fun s' he => (h2 s' (ok_eq (I := Building s.order) h1.1 he)).1,
          andThen_not_ub _ _ _ h1.2 fun s' he => (h2 s' (ok_eq (I := Building s.order) h1.1 he)).2.2,
          andThen_inv _ _ _ (fun x => x.order = s.order) h1.1.2.2 fun s' he =>
            (h2 s' (ok_eq (I := Building s.order) h1.1 he)).2.1⟩
    · rw [assertConstructing_evaluable hc]; exact ⟨h, by simp, rfl⟩
  | initConstant ts p =>
    simp only [Call.run, initConstantSpline]
    rcases hc : s.state with _ | _
    · rw [assertConstructing_constructing hc]
      have h1 : Building s.order (forEach (fun t => addControlVertex M t p) ts s).2 ∧
          (forEach (fun t => addControlVertex M t p) ts s).1 ≠ .ub :=
        ⟨forEach_inv _ (Building s.order) (fun t _ h => building_addControlVertex M _ _ h) ts s (hb hc),
          forEach_not_ub _ (Building s.order) (fun t _ h => building_addControlVertex M _ _ h)
          (fun _ _ _ => addControlVertex_not_ub M _ _ _) ts s (hb hc)⟩
      refine ⟨andThen_inv _ _ _ MWF h1.1.1 fun s' he => (hinit s' (ok_eq (I := Building s.order) h1.1 he)).1,
          andThen_not_ub _ _ _ h1.2 fun s' he => (hinit s' (ok_eq (I := Building s.order) h1.1 he)).2.2,
          andThen_inv _ _ _ (fun x => x.order = s.order) h1.1.2.2 fun s' he =>
            (hinit s' (ok_eq (I := Building s.order) h1.1 he)).2.1⟩
    · rw [assertConstructing_evaluable hc]; exact ⟨h, by simp, rfl⟩
  | append ts v =>
    simp only [Call.run]
    rcases hc : s.state with _ | _
    · unfold appendSegments
      rw [hc]
      exact ⟨h, by simp, rfl⟩
    · obtain ⟨s', r1, r2, r3, -⟩ := append_ok h hc M ts v (hr hc)
      rw [r1]
      exact ⟨r2, by simp, r3⟩
  | manipulate f n t o =>
    simp only [Call.run]
    have hr : 0 ≤ o := hr
    obtain ⟨m, rfl⟩ := Int.eq_ofNat_of_zero_le hr
    rcases hc : s.state with _ | _
    · unfold manipulateControlVertices numControlVertices
      rw [hc]
      exact ⟨h, by simp, rfl⟩
    · rcases Nat.lt_or_ge (s.keys.length - s.order) n with hn | hn
      · unfold manipulateControlVertices
        rw [numControlVertices_eq h hc, Outcome.bind_ok, if_pos hn]
        exact ⟨h, by simp, rfl⟩
      · rcases evaluable_total h hc t with ⟨i, hi⟩ | ht
        · rw [manipulate_nonneg h hc hi n hn]
          exact ⟨mwf_manipulateLoop h f _ n (by omega), by simp, rfl⟩
        · unfold manipulateControlVertices
          rw [numControlVertices_eq h hc, Outcome.bind_ok, if_neg (by omega), getSegmentIterator_throws h hc t ht]
          exact ⟨h, by simp, rfl⟩

/-- Splines obtained by any calls; the flag tells if one of the initialising calls returned normally. -/
inductive Reach (M : Mfd K P V) (order : ℕ) : Bool → MSpline K P → Prop
  | create : Reach M order false (create order)
  | init {b s} (c : Call K P) : Reach M order b s → c.isInit → (c.run M s).1 = .ok () → Reach M order true (c.run M s).2
  | initFailed {b s} (c : Call K P) : Reach M order b s → c.isInit → (c.run M s).1 ≠ .ok () → Reach M order b (c.run M s).2
  | other {b s} (c : Call K P) : Reach M order b s → ¬ c.isInit → Reach M order b (c.run M s).2

/-- Splines obtained by calls of a reasonable client. -/
inductive RegularReach (M : Mfd K P V) (order : ℕ) : MSpline K P → Prop
  | create : RegularReach M order (MSpline.create order)
  | call {s} (c : Call K P) : RegularReach M order s → c.Regular s → RegularReach M order (c.run M s).2

theorem RegularReach.mwf {M : Mfd K P V} {order : ℕ} (ho : 1 ≤ order) {s : MSpline K P} (h : RegularReach M order s) :
    s.MWF ∧ s.order = order := by
  induction h with
  | create => exact ⟨⟨ho, List.Pairwise.nil, fun h => by simp [MSpline.create] at h, fun h => by simp [MSpline.create] at h,
      fun h => by simp [MSpline.create] at h⟩, rfl⟩
  | call c _ hr ih =>
    have := regular_mwf M c ih.1 hr
    exact ⟨this.1, this.2.2.trans ih.2⟩

/-- C22: no sequence of calls of a reasonable client causes undefined behaviour, in the calls or in an evaluation. -/
theorem C22_no_undefined_behaviour (M : Mfd K P V) (order : ℕ) (ho : 1 ≤ order) (s : MSpline K P) (h : RegularReach M order s) :
    (∀ c : Call K P, c.Regular s → (c.run M s).1 ≠ .ub) ∧ ∀ t, s.evalGeneric M t ≠ .ub := by
  obtain ⟨hw, -⟩ := h.mwf ho
  refine ⟨fun c hr => (regular_mwf M c hw hr).2.1, fun t => ?_⟩
  rcases hst : s.state with _ | _
  · unfold evalGeneric
    rw [evaluatorAt_throws hw t (Or.inl hst)]
    simp
  · rcases evaluable_total hw hst t with ⟨i, hi⟩ | ht
    · obtain ⟨p, hp, -⟩ := evalGeneric_segCurve hw hst M hi
      rw [hp]; simp
    · unfold evalGeneric
      rw [evaluatorAt_throws hw t (Or.inr ht)]
      simp

/-! State changes of single calls (for arbitrary states). -/

theorem forEach_state {α : Type*} (f : α → MSpline K P → Outcome Unit × MSpline K P)
    (hf : ∀ a s, (f a s).2.state = s.state) (l : List α) (s : MSpline K P) : (forEach f l s).2.state = s.state :=
  forEach_inv f (fun x => x.state = s.state) (fun a x h => (hf a x).trans h) l s rfl

theorem init_state (s : MSpline K P) : (s.init.1 = .ok () → s.init.2.state = .evaluable) ∧
    (s.init.1 ≠ .ok () → s.init.2.state = s.state) := by
  unfold init
  split
  · simp
  · split
    · simp
    · split
      · simp
      · simp
      · split <;> simp_all

theorem andThen_init_state (f : MSpline K P → Outcome Unit × MSpline K P) (hf : ∀ s, (f s).2.state = s.state) (s : MSpline K P) :
    ((andThen f init s).1 = .ok () → (andThen f init s).2.state = .evaluable) ∧
    ((andThen f init s).1 ≠ .ok () → (andThen f init s).2.state = s.state) := by
  unfold andThen
  have := hf s
  split
  · rename_i s' heq
    rw [heq] at this
    exact ⟨(init_state s').1, fun h => ((init_state s').2 h).trans this⟩
  · rename_i o s' h1 heq
    rw [heq] at this
    exact ⟨fun h => (h1 h).elim, fun _ => this⟩

theorem addControlVertex_state (M : Mfd K P V) (t : K) (p : P) (s : MSpline K P) : (s.addControlVertex M t p).2.state = s.state := by
  unfold addControlVertex
  split <;> rfl

theorem addKnotsLoop_state (M : Mfd K P V) (ts : List K) (s : MSpline K P) :
    (forEach (fun t => total (addKnot M t)) ts s).2.state = s.state :=
  forEach_state (fun t => total (addKnot M t)) (fun _ _ => rfl) ts s

theorem addVertsLoop_state (M : Mfd K P V) (l : List (K × P)) (s : MSpline K P) :
    (forEach (fun tp : K × P => addControlVertex M tp.1 tp.2) l s).2.state = s.state :=
  forEach_state _ (fun _ _ => addControlVertex_state M _ _ _) l s

theorem isInit_state (M : Mfd K P V) (c : Call K P) (hc : c.isInit) (s : MSpline K P) :
    ((c.run M s).1 = .ok () → s.state = .constructing ∧ (c.run M s).2.state = .evaluable) ∧
    ((c.run M s).1 ≠ .ok () → (c.run M s).2.state = s.state) := by
  cases c with
  | addKnot t => exact hc.elim
  | addControlVertex t p => exact hc.elim
  | addKnots ts => exact hc.elim
  | addKnotsAndControlVertices ts cs => exact hc.elim
  | append ts v => exact hc.elim
  | manipulate f n t o => exact hc.elim
  | init =>
    refine ⟨fun h => ⟨?_, (init_state s).1 h⟩, (init_state s).2⟩
    rcases hst : s.state with _ | _
    · rfl
    · simp only [Call.run] at h
      rw [init_evaluable hst] at h
      cases h
  | initWithKnots ts =>
    simp only [Call.run, initWithKnots]
    rcases hst : s.state with _ | _
    · rw [assertConstructing_constructing hst]
      split
      · exact ⟨fun h => (by cases h), fun _ => hst⟩
      · have := andThen_init_state _ (addKnotsLoop_state M ts) s
        exact ⟨fun h => ⟨rfl, this.1 h⟩, fun h => (this.2 h).trans hst⟩
    · rw [assertConstructing_evaluable hst]
      exact ⟨fun h => (by cases h), fun _ => hst⟩
  | initWithKnotsAndControlVertices ts cs =>
    simp only [Call.run, initWithKnotsAndControlVertices]
    rcases hst : s.state with _ | _
    · rw [assertConstructing_constructing hst]
      split
      · exact ⟨fun h => (by cases h), fun _ => hst⟩
      · have h1 := addVertsLoop_state M (ts.zip cs) s
        have h2 := andThen_init_state _ (addKnotsLoop_state M (ts.drop cs.length))
        unfold andThen
        split
        · rename_i s' heq
          rw [heq] at h1
          exact ⟨fun h => ⟨rfl, (h2 s').1 h⟩, fun h => ((h2 s').2 h).trans (h1.trans hst)⟩
        · rename_i o s' h3 heq
          rw [heq] at h1
          exact ⟨fun h => (h3 h).elim, fun _ => h1.trans hst⟩
    · rw [assertConstructing_evaluable hst]
      exact ⟨fun h => (by cases h), fun _ => hst⟩
  | initConstant ts p =>
    simp only [Call.run, initConstantSpline]
    rcases hst : s.state with _ | _
    · rw [assertConstructing_constructing hst]
      have := andThen_init_state _ (forEach_state (fun t => addControlVertex M t p)
        (fun _ _ => addControlVertex_state M _ _ _) ts) s
      exact ⟨fun h => ⟨rfl, this.1 h⟩, fun h => (this.2 h).trans hst⟩
    · rw [assertConstructing_evaluable hst]
      exact ⟨fun h => (by cases h), fun _ => hst⟩

theorem appendLoop_state (M : Mfd K P V) (value : Option P) : ∀ (ts : List K) (it cur : Iter K) (s : MSpline K P) (r : Iter K × MSpline K P),
    appendLoop M value ts it cur s = .ok r → r.2.state = s.state
  | [], it, cur, s, r, h => by
    simp only [appendLoop, Outcome.ok.injEq] at h
    rw [← h]
  | t :: ts, it, cur, s, r, h => by
    unfold appendLoop at h
    simp only [] at h
    obtain ⟨cur', -, h⟩ := Outcome.bind_eq_ok.1 h
    rcases value with _ | v
    · have := appendLoop_state M none ts _ _ _ _ h
      exact this
    · rcases it with _ | x
      · cases h
      · simp only [] at h
        obtain ⟨it', -, h⟩ := Outcome.bind_eq_ok.1 h
        have := appendLoop_state M (some v) ts _ _ _ _ h
        exact this

theorem other_state (M : Mfd K P V) (c : Call K P) (hc : ¬ c.isInit) (s : MSpline K P) : (c.run M s).2.state = s.state := by
  cases c with
  | addKnot t => rfl
  | addControlVertex t p => exact addControlVertex_state M t p s
  | addKnots ts =>
    simp only [Call.run, addKnots]
    unfold andThen assertConstructing
    rcases hst : s.state with _ | _
    · exact (addKnotsLoop_state M ts s).trans hst
    · exact hst
  | addKnotsAndControlVertices ts cs =>
    simp only [Call.run, addKnotsAndControlVertices]
    unfold andThen assertConstructing
    rcases hst : s.state with _ | _
    · simp only []
      split
      · exact hst
      · exact (addVertsLoop_state M _ s).trans hst
    · exact hst
  | init => exact (hc trivial).elim
  | initWithKnots ts => exact (hc trivial).elim
  | initWithKnotsAndControlVertices ts cs => exact (hc trivial).elim
  | initConstant ts p => exact (hc trivial).elim
  | append ts v =>
    simp only [Call.run]
    unfold appendSegments
    split
    · rfl
    · rfl
    · rename_i h1 h2
      split
      · rfl
      · rfl
      · split
        · rfl
        · split
          · rfl
          · rfl
          · rename_i cur s1 hl
            have := appendLoop_state M v ts _ _ _ _ hl
            split
            · exact this
            · split
              · rfl
              · exact this
              · exact this
  | manipulate f n t o =>
    simp only [Call.run]
    unfold manipulateControlVertices
    split <;> rfl

/-- C22: after any sequence of calls the spline is evaluable exactly if an initialising call has returned normally. -/
theorem C22_evaluable_iff_initialised (M : Mfd K P V) (order : ℕ) (b : Bool) (s : MSpline K P) (h : Reach M order b s) :
    s.state = .evaluable ↔ b = true := by
  induction h with
  | create => simp [create]
  | @init b s c _ hc hok _ => simp [((isInit_state M c hc s).1 hok).2]
  | @initFailed b s c _ hc hok ih => rw [(isInit_state M c hc s).2 hok]; exact ih
  | @other b s c _ hc ih => rw [other_state M c hc s]; exact ih

/-- C22: before a successful initialisation evaluating, appending and counting or changing control vertices raise an exception
and change nothing. -/
theorem C22_needs_init (M : Mfd K P V) (order : ℕ) (s : MSpline K P) (h : Reach M order false s) :
    (∀ t, s.evalGeneric M t = .throws) ∧ (∀ ts v, s.appendSegments M ts v = (.throws, s)) ∧
    s.numControlVertices = .throws ∧ ∀ f n t o, s.manipulateControlVertices f n t o = (.throws, s) := by
  have hst : s.state = .constructing := by
    have := C22_evaluable_iff_initialised M order false s h
    rcases hst : s.state with _ | _
    · rfl
    · exact absurd (this.1 hst) (by simp)
  refine ⟨fun t => ?_, fun ts v => ?_, ?_, fun f n t o => ?_⟩
  · simp only [evalGeneric, evaluatorAt, hst, Outcome.bind_throws]
  · unfold appendSegments; rw [hst]
  · unfold numControlVertices; rw [hst]
  · unfold manipulateControlVertices numControlVertices; rw [hst]; rfl

/-- C22: initialising a second time raises an exception and changes nothing, by whichever call. -/
theorem C22_init_twice (M : Mfd K P V) (order : ℕ) (s : MSpline K P) (h : Reach M order true s) (c : Call K P) (hc : c.isInit) :
    c.run M s = (.throws, s) := by
  have hst : s.state = .evaluable := (C22_evaluable_iff_initialised M order true s h).2 rfl
  cases c with
  | addKnot t => exact hc.elim
  | addControlVertex t p => exact hc.elim
  | addKnots ts => exact hc.elim
  | addKnotsAndControlVertices ts cs => exact hc.elim
  | append ts v => exact hc.elim
  | manipulate f n t o => exact hc.elim
  | init => exact init_evaluable hst
  | initWithKnots ts => exact assertConstructing_evaluable hst _
  | initWithKnotsAndControlVertices ts cs => exact assertConstructing_evaluable hst _
  | initConstant ts p => exact assertConstructing_evaluable hst _

/-- C22: an initialising call that does not return normally leaves the spline in construction. -/
theorem C22_failed_init (M : Mfd K P V) (order : ℕ) (s : MSpline K P) (h : Reach M order false s) (c : Call K P) (hc : c.isInit)
    (hf : (c.run M s).1 ≠ .ok ()) : (c.run M s).2.state = .constructing := by
  have hb := C22_evaluable_iff_initialised M order false _ (Reach.initFailed c h hc hf)
  rcases hst : (c.run M s).2.state with _ | _
  · rfl
  · exact absurd (hb.1 hst) (by simp)

/-- C22: `init` succeeds exactly on a spline in construction that has a valid segment (`2 * order` knots), and raises an exception
and changes nothing otherwise. -/
theorem C22_init_iff (M : Mfd K P V) (order : ℕ) (ho : 1 ≤ order) (s : MSpline K P) (h : RegularReach M order s) :
    (s.init.1 = .ok () ↔ s.state = .constructing ∧ 2 * order ≤ s.keys.length) ∧
    (s.init.1 ≠ .ok () → s.init = (.throws, s)) := by
  obtain ⟨hw, rfl⟩ := h.mwf ho
  rcases hst : s.state with _ | _
  · rcases Nat.lt_or_ge s.keys.length (2 * s.order) with hn | hn
    · rw [init_few hst hn]
      exact ⟨⟨fun h => (by cases h), fun h => absurd h.2 (by omega)⟩, fun _ => rfl⟩
    · obtain ⟨segs', r1, -⟩ := init_ok hw hst hn
      rw [r1]
      exact ⟨⟨fun _ => ⟨rfl, hn⟩, fun _ => rfl⟩, fun h => absurd rfl h⟩
  · rw [init_evaluable hst]
    exact ⟨⟨fun h => (by cases h), fun h => (by cases h.1)⟩, fun _ => rfl⟩

/-! ### Points off the manifold -/

/-- C22: a point off the manifold is rejected and nothing is added. -/
theorem C22_rejects_point (M : Mfd K P V) (s : MSpline K P) (t : K) (p : P) (hp : M.isIn p = false) :
    s.addControlVertex M t p = (.throws, s) := by
  unfold addControlVertex
  rw [hp]
  rfl

theorem forEach_rejects (M : Mfd K P V) : ∀ (l : List (K × P)) (s : MSpline K P), (∃ x ∈ l, M.isIn x.2 = false) →
    (forEach (fun tp : K × P => addControlVertex M tp.1 tp.2) l s).1 = .throws
  | [], _, h => by obtain ⟨x, hx, -⟩ := h; cases hx
  | a :: l, s, h => by
    unfold forEach
    rcases ha : M.isIn a.2 with _ | _
    · rw [C22_rejects_point M s a.1 a.2 ha]
    · have : s.addControlVertex M a.1 a.2 = (.ok (), { s with segs := mapInsert ⟨a.1, a.2, none⟩ s.segs }) := by
        unfold addControlVertex; rw [ha]; rfl
      rw [this]
      refine forEach_rejects M l _ ?_
      obtain ⟨x, hx, hx'⟩ := h
      rcases List.mem_cons.1 hx with rfl | hx
      · rw [ha] at hx'; cases hx'
      · exact ⟨x, hx, hx'⟩

/-- C22: the calls taking several points or a constant raise an exception if a point is off the manifold. -/
theorem C22_rejects_points (M : Mfd K P V) (s : MSpline K P) (ts : List K) (cs : List P) (hs : s.state = .constructing)
    (hoff : ∃ p ∈ cs, M.isIn p = false) :
    (cs.length ≤ ts.length → (s.addKnotsAndControlVertices M ts cs).1 = .throws) ∧
    (s.initWithKnotsAndControlVertices M ts cs).1 = .throws ∧
    ∀ p, M.isIn p = false → ts ≠ [] → (s.initConstantSpline M ts p).1 = .throws := by
  have hex : cs.length ≤ ts.length → ∃ x ∈ ts.zip cs, M.isIn x.2 = false := by
    intro hle
    obtain ⟨p, hp, hoff⟩ := hoff
    obtain ⟨i, hi, rfl⟩ := List.mem_iff_getElem.1 hp
    refine ⟨(ts[i], cs[i]), ?_, hoff⟩
    rw [List.mem_iff_getElem]
    exact ⟨i, by simp; omega, by simp⟩
  refine ⟨fun hle => ?_, ?_, fun p hp hts => ?_⟩
  · unfold addKnotsAndControlVertices
    rw [assertConstructing_constructing hs]
    split
    · rfl
    · exact forEach_rejects M _ s (hex hle)
  · unfold initWithKnotsAndControlVertices
    rw [assertConstructing_constructing hs]
    split
    · rfl
    · rename_i hl
      have := forEach_rejects M (ts.zip cs) s (hex (by omega))
      unfold andThen
      split
      · rename_i heq; rw [heq] at this; cases this
      · rename_i heq; rw [heq] at this; exact this
  · unfold initConstantSpline
    rw [assertConstructing_constructing hs]
    rcases ts with _ | ⟨t, ts⟩
    · exact absurd rfl hts
    · unfold andThen forEach
      rw [C22_rejects_point M s t p hp]

/-- C22: numbers of knots and points that do not go together raise an exception, and the spline stays as it was. -/
theorem C22_rejects_sizes (M : Mfd K P V) (s : MSpline K P) (ts : List K) (cs : List P) :
    (cs.length ≠ ts.length → s.addKnotsAndControlVertices M ts cs = (.throws, s)) ∧
    (cs.length + s.order ≠ ts.length → s.initWithKnotsAndControlVertices M ts cs = (.throws, s)) ∧
    (ts.length < 2 * s.order → s.initWithKnots M ts = (.throws, s)) := by
  rcases hs : s.state with _ | _ <;> refine ⟨fun h => ?_, fun h => ?_, fun h => ?_⟩
  · unfold addKnotsAndControlVertices
    rw [assertConstructing_constructing hs, if_pos h]
  · unfold initWithKnotsAndControlVertices
    rw [assertConstructing_constructing hs, if_pos h]
  · unfold initWithKnots
    rw [assertConstructing_constructing hs, if_pos h]
  all_goals
    simp only [addKnotsAndControlVertices, initWithKnotsAndControlVertices, initWithKnots, andThen, assertConstructing, hs]

theorem forEach_adds (M : Mfd K P V) : ∀ (l : List (K × P)) (s : MSpline K P), (∀ x ∈ l, M.isIn x.2 = true) →
    s.keys.Pairwise (· < ·) → (l.map Prod.fst).Nodup → (∀ x ∈ l, x.1 ∉ s.keys) →
    ∃ segs, forEach (fun tp : K × P => addControlVertex M tp.1 tp.2) l s = (.ok (), { s with segs := segs }) ∧
      ∀ g, g ∈ segs ↔ g ∈ s.segs ∨ ∃ x ∈ l, g = ⟨x.1, x.2, none⟩
  | [], s, _, _, _, _ => ⟨s.segs, rfl, fun g => by simp⟩
  | a :: l, s, h, hsort, hnd, hnew => by
    have ha : s.addControlVertex M a.1 a.2 = (.ok (), { s with segs := mapInsert ⟨a.1, a.2, none⟩ s.segs }) := by
      unfold addControlVertex; rw [h a (by simp)]; rfl
    rw [List.map_cons, List.nodup_cons] at hnd
    obtain ⟨segs, h1, h2⟩ := forEach_adds M l { s with segs := mapInsert ⟨a.1, a.2, none⟩ s.segs }
      (fun x hx => h x (by simp [hx])) (mapInsert_sorted _ _ hsort) hnd.2 (fun x hx hk => by
        rcases (mapInsert_keys_mem _ _ _).1 hk with hk | hk
        · exact hnd.1 (List.mem_map.2 ⟨x, hx, hk⟩)
        · exact hnew x (by simp [hx]) hk)
    refine ⟨segs, ?_, fun g => ?_⟩
    · unfold forEach
      rw [ha]
      exact h1
    · rw [h2, mapInsert_mem _ _ hsort]
      have := hnew a (by simp)
      constructor
      · rintro ((hg | hg) | ⟨x, hx, rfl⟩)
        · exact Or.inl hg
        · exact Or.inr ⟨a, by simp, hg.1⟩
        · exact Or.inr ⟨x, by simp [hx], rfl⟩
      · rintro (hg | ⟨x, hx, rfl⟩)
        · exact Or.inl (Or.inl hg)
        · rcases List.mem_cons.1 hx with rfl | hx
          · exact Or.inl (Or.inr ⟨rfl, this⟩)
          · exact Or.inr ⟨x, hx, rfl⟩

/-- C22: distinct new knots with as many points on the manifold are added to a spline in construction, each knot with its own point and
nothing else. -/
theorem C22_adds_points (M : Mfd K P V) (s : MSpline K P) (ts : List K) (cs : List P) (hs : s.state = .constructing)
    (hsort : s.keys.Pairwise (· < ·)) (hlen : cs.length = ts.length) (hon : ∀ p ∈ cs, M.isIn p = true) (hnd : ts.Nodup)
    (hnew : ∀ t ∈ ts, t ∉ s.keys) :
    ∃ segs, s.addKnotsAndControlVertices M ts cs = (.ok (), { s with segs := segs }) ∧
      ∀ g, g ∈ segs ↔ g ∈ s.segs ∨ ∃ (i : ℕ) (t : K) (p : P), ts[i]? = some t ∧ cs[i]? = some p ∧ g = ⟨t, p, none⟩ := by
  obtain ⟨segs, h1, h2⟩ := forEach_adds M (ts.zip cs) s (fun x hx => hon _ (List.of_mem_zip hx).2) hsort
    (by rw [List.map_fst_zip hlen.ge]; exact hnd) (fun x hx => hnew _ (List.of_mem_zip hx).1)
  refine ⟨segs, ?_, fun g => ?_⟩
  · unfold addKnotsAndControlVertices
    rw [assertConstructing_constructing hs, if_neg (by simpa using hlen), h1]
  · rw [h2]
    refine or_congr Iff.rfl ⟨?_, ?_⟩
    · rintro ⟨⟨t, p⟩, hx, rfl⟩
      obtain ⟨i, hi⟩ := List.mem_iff_getElem?.1 hx
      rw [List.getElem?_zip_eq_some] at hi
      exact ⟨i, t, p, hi.1, hi.2, rfl⟩
    · rintro ⟨i, t, p, h1, h2, rfl⟩
      exact ⟨(t, p), List.mem_iff_getElem?.2 ⟨i, List.getElem?_zip_eq_some.2 ⟨h1, h2⟩⟩, rfl⟩

/-- Not vacuous: two knots added around another one. -/
example : let s := (create 2 : MSpline ℚ ℚ).addKnot halfLine 1
    s.state = .constructing ∧ s.keys.Pairwise (· < ·) ∧ (∀ t ∈ [3, 0], t ∉ s.keys) ∧
    (s.addKnotsAndControlVertices halfLine [3, 0] [7, 5]).1 = .ok () ∧
    (s.addKnotsAndControlVertices halfLine [3, 0] [7, 5]).2.keys = [0, 1, 3] ∧
    (s.addKnotsAndControlVertices halfLine [3, 0] [7, 5]).2.verts = [5, 0, 7] := by
  decide +kernel

/-- The calls that neither append a value nor run a caller supplied update on vertices. -/
def Call.checked : Call K P → Prop
  | .append _ (some _) | .manipulate _ _ _ _ => False
  | _ => True

theorem mapInsert_all (Q : Seg K P → Prop) (x : Seg K P) (hx : Q x) : ∀ l : List (Seg K P), (∀ g ∈ l, Q g) → ∀ g ∈ mapInsert x l, Q g
  | [], _, g, hg => by
    simp only [mapInsert, List.mem_singleton] at hg
    rw [hg]; exact hx
  | y :: ys, h, g, hg => by
    unfold mapInsert at hg
    split at hg
    · rcases List.mem_cons.1 hg with rfl | hg
      · exact hx
      · exact h g hg
    · split at hg
      · exact h g hg
      · rcases List.mem_cons.1 hg with rfl | hg
        · exact h g (by simp)
        · exact mapInsert_all Q x hx ys (fun g hg => h g (by simp [hg])) g hg

theorem init_verts {s : MSpline K P} (h : s.MWF) : s.init.2.verts = s.verts := by
  rcases hc : s.state with _ | _
  · rcases Nat.lt_or_ge s.keys.length (2 * s.order) with hn | hn
    · rw [init_few hc hn]
    · obtain ⟨segs', r1, r2, r3, r4⟩ := init_ok h hc hn
      rw [r1]
      unfold verts
      apply List.ext_getElem?
      intro j
      simp only [List.getElem?_map]
      rw [r4, Option.map_map]
      congr 1
      funext g
      simp only [Function.comp]
      split <;> rfl
  · rw [init_evaluable hc]

/-- C22 (partial: the control vertices stay on the manifold for the calls that check points; a value appended with
`appendSegments` is not checked, see `C22_append_unchecked`). -/
theorem C22_on_manifold_partial (M : Mfd K P V) (hdef : M.isIn M.default = true) (s : MSpline K P) (h : s.MWF) (c : Call K P)
    (hr : c.Regular s) (hc : c.checked) (hin : ∀ p ∈ s.verts, M.isIn p = true) : ∀ p ∈ (c.run M s).2.verts, M.isIn p = true := by
  let I : MSpline K P → Prop := fun x => Building s.order x ∧ ∀ p ∈ x.verts, M.isIn p = true
  have e : ∀ x : MSpline K P, (∀ p ∈ x.verts, M.isIn p = true) ↔ ∀ g ∈ x.segs, M.isIn g.vertex = true := by
    intro x; simp [verts]
  have hk : ∀ t x, I x → I (x.addKnot M t) := fun t x hx => ⟨building_addKnot M t hx.1, (e _).2
    (mapInsert_all (fun g => M.isIn g.vertex = true) _ hdef _ ((e _).1 hx.2))⟩
  have hv : ∀ t p x, I x → I (x.addControlVertex M t p).2 := by
    intro t p x hx
    refine ⟨building_addControlVertex M t p hx.1, ?_⟩
    unfold addControlVertex
    split
    · rename_i hp
      exact (e _).2 (mapInsert_all (fun g => M.isIn g.vertex = true) _ hp _ ((e _).1 hx.2))
    · exact hx.2
  have hb : s.state = .constructing → I s := fun hc => ⟨⟨h, hc, rfl⟩, hin⟩
  have hi : ∀ x, I x → ∀ p ∈ x.init.2.verts, M.isIn p = true := by
    intro x hx; rw [init_verts hx.1.1]; exact hx.2
  have hki : ∀ ts x, I x → I (forEach (fun t => total (addKnot M t)) ts x).2 := fun ts x hx =>
    forEach_inv (fun t => total (addKnot M t)) I (fun t x hx => hk t x hx) ts x hx
  have hvi : ∀ l x, I x → I (forEach (fun tp : K × P => addControlVertex M tp.1 tp.2) l x).2 := fun l x hx =>
    forEach_inv _ I (fun a x hx => hv _ _ x hx) l x hx
  have after : ∀ {f : MSpline K P → Outcome Unit × MSpline K P} {x x' : MSpline K P}, I (f x).2 → f x = (.ok (), x') → I x' := by
    intro f x x' h1 h2; rw [h2] at h1; exact h1
  cases c with
  | addKnot t => exact (hk t s (hb hr)).2
  | addControlVertex t p => exact (hv t p s (hb hr)).2
  | addKnots ts =>
    simp only [Call.run, addKnots]
    rcases hst : s.state with _ | _
    · rw [assertConstructing_constructing hst]; exact (hki ts s (hb hst)).2
    · rw [assertConstructing_evaluable hst]; exact hin
  | addKnotsAndControlVertices ts cs =>
    simp only [Call.run, addKnotsAndControlVertices]
    rcases hst : s.state with _ | _
    · rw [assertConstructing_constructing hst]
      split
      · exact hin
      · exact (hvi _ s (hb hst)).2
    · rw [assertConstructing_evaluable hst]; exact hin
  | init => simp only [Call.run]; rw [init_verts h]; exact hin
  | initWithKnots ts =>
    simp only [Call.run, initWithKnots]
    rcases hst : s.state with _ | _
    · rw [assertConstructing_constructing hst]
      split
      · exact hin
      · exact andThen_inv _ _ _ (fun x : MSpline K P => ∀ p ∈ x.verts, M.isIn p = true) (hki ts s (hb hst)).2
          fun s' he => hi s' (after (hki ts s (hb hst)) he)
    · rw [assertConstructing_evaluable hst]; exact hin
  | initWithKnotsAndControlVertices ts cs =>
    simp only [Call.run, initWithKnotsAndControlVertices]
    rcases hst : s.state with _ | _
    · rw [assertConstructing_constructing hst]
      split
      · exact hin
      · have h1 := hvi (ts.zip cs) s (hb hst)
        refine andThen_inv _ _ _ (fun x : MSpline K P => ∀ p ∈ x.verts, M.isIn p = true) h1.2 fun s' he => ?_
        have h2 := after h1 he
        have h3 := hki (ts.drop cs.length) s' h2
        exact andThen_inv _ _ _ (fun x : MSpline K P => ∀ p ∈ x.verts, M.isIn p = true) h3.2 fun s'' he' => hi s'' (after h3 he')
    · rw [assertConstructing_evaluable hst]; exact hin
  | initConstant ts p =>
    simp only [Call.run, initConstantSpline]
    rcases hst : s.state with _ | _
    · rw [assertConstructing_constructing hst]
      have h1 : I (forEach (fun t => addControlVertex M t p) ts s).2 :=
        forEach_inv _ I (fun a x hx => hv _ _ x hx) ts s (hb hst)
      exact andThen_inv _ _ _ (fun x : MSpline K P => ∀ p ∈ x.verts, M.isIn p = true) h1.2 fun s' he => hi s' (after h1 he)
    · rw [assertConstructing_evaluable hst]; exact hin
  | append ts v =>
    rcases v with _ | v
    · simp only [Call.run]
      rcases hst : s.state with _ | _
      · unfold appendSegments; rw [hst]; exact hin
      · obtain ⟨s', r1, -, -, -, -, r6⟩ := append_ok h hst M ts none (hr hst)
        rw [r1]
        intro p hp
        obtain ⟨j, hj⟩ := List.mem_iff_getElem?.1 hp
        have hj : s'.verts[j]? = some p := hj
        rw [r6] at hj
        obtain ⟨p0, hp0, rfl⟩ := Option.map_eq_some_iff.1 hj
        simp only [Option.getD_none, ite_self]
        rcases List.mem_append.1 (List.mem_of_getElem? hp0) with h1 | h1
        · exact hin _ h1
        · rw [List.eq_of_mem_replicate h1]; exact hdef
    · exact hc.elim
  | manipulate f n t o => exact hc.elim

/-! ### C25 -/

/-- C25: for every time of the valid interval the evaluator points to the last knot not after that time (for the maximum time: to
the last valid interval), and it reads `order` control vertices, which all exist, ending with the one of that knot. -/
theorem C25_lookup (M : Mfd K P V) (order : ℕ) (ho : 1 ≤ order) (s : MSpline K P) (h : RegularReach M order s)
    (he : s.state = .evaluable) (tmin tmax : K) (hmin : s.getMinTime = .ok tmin) (hmax : s.getMaxTime = .ok tmax) (t : K)
    (h1 : tmin ≤ t) (h2 : t ≤ tmax) :
    ∃ e i vs, s.evaluatorAt t = .ok e ∧ e.ti = s.keys[i]? ∧ i + 1 < s.keys.length ∧
      (∃ x, s.keys[i]? = some x ∧ x ≤ t) ∧
      (t < tmax → ∀ j x, s.keys[j]? = some x → x ≤ t → j ≤ i) ∧ (t = tmax → s.keys[i + 1]? = some tmax) ∧
      s.readVertices s.order e.firstIt = .ok vs ∧ vs.length = order ∧
      ∀ c, c < order → order ≤ i + 1 ∧ vs[c]? = s.verts[i + 1 - order + c]? := by
  obtain ⟨hw, rfl⟩ := h.mwf ho
  have hn := hw.enough he
  rw [getMinTime_eq hw he, Outcome.ok.injEq] at hmin
  rw [getMaxTime_eq hw he, Outcome.ok.injEq] at hmax
  subst hmin hmax
  obtain ⟨i, hi, -⟩ := getSegmentIterator_ok hw he t h1 h2
  have l1 := hi.lower
  have l2 := hi.upper
  refine ⟨s.evaluatorOf t i, i, (s.verts.drop (i + 1 - s.order)).take s.order, evaluatorAt_eq hw he hi, rfl, by omega,
    ⟨s.kn i, kn_getElem s (by omega), hi.left⟩, fun hlt j x hx hxt => ?_, fun heq => ?_, ?_, ?_, ?_⟩
  · by_contra hc
    have hj : j < s.keys.length := by
      by_contra hc'
      rw [List.getElem?_eq_none (by omega)] at hx
      cases hx
    rw [kn_getElem s hj, Option.some.injEq] at hx
    subst hx
    have h3 : s.kn (i + 1) ≤ s.kn j := hw.mono _ _ (by omega) hj
    rcases hi.right with h4 | ⟨h4, h5⟩
    · exact absurd (hxt.trans_lt h4) (not_lt.2 h3)
    · rw [h4, show i + 1 = s.keys.length - s.order by omega] at hlt
      exact lt_irrefl _ hlt
  · rcases hi.right with h4 | ⟨h4, h5⟩
    · exfalso
      have h3 : s.kn (i + 1) ≤ s.kn (s.keys.length - s.order) := hw.mono _ _ (by omega) (by omega)
      rw [heq] at h4
      exact absurd h4 (not_lt.2 h3)
    · rw [kn_getElem s (by omega), ← heq, h4]
  · exact readVertices_eq hw s.order (i + 1 - s.order) (by rw [keys_length] at l2; omega)
  · rw [List.length_take, List.length_drop]
    simp only [verts, List.length_map, ← keys_length]
    omega
  · intro c hc
    refine ⟨l1, ?_⟩
    rw [List.getElem?_take, if_pos hc, List.getElem?_drop]

/-- C25: a time outside the valid interval raises an exception. -/
theorem C25_outside (M : Mfd K P V) (order : ℕ) (ho : 1 ≤ order) (s : MSpline K P) (h : RegularReach M order s)
    (he : s.state = .evaluable) (tmin tmax : K) (hmin : s.getMinTime = .ok tmin) (hmax : s.getMaxTime = .ok tmax) (t : K)
    (ht : t < tmin ∨ tmax < t) : s.evaluatorAt t = .throws ∧ s.evalGeneric M t = .throws := by
  obtain ⟨hw, rfl⟩ := h.mwf ho
  rw [getMinTime_eq hw he, Outcome.ok.injEq] at hmin
  rw [getMaxTime_eq hw he, Outcome.ok.injEq] at hmax
  subst hmin hmax
  have := evaluatorAt_throws hw t (Or.inr ht)
  refine ⟨this, ?_⟩
  unfold evalGeneric
  rw [this]
  rfl

/-! ### Violations -/

/-- An initialised spline of order 2 on the knots 0, 1, 2, 3, 4 with vertices 0, 1, 4 on the half line. -/
def demo : MSpline ℚ ℚ := ((Call.initWithKnotsAndControlVertices [0, 1, 2, 3, 4] [0, 1, 4]).run halfLine (create 2)).2

theorem demo_reach : RegularReach halfLine 2 demo := .call _ .create trivial

/-- Not vacuous: the example spline is initialised, has a valid interval and returns interpolated values. -/
example : demo.state = .evaluable ∧ demo.getMinTime = .ok 1 ∧ demo.getMaxTime = .ok 3 ∧
    demo.evalGeneric halfLine (3 / 2) = .ok (1 / 2) ∧ demo.evalGeneric halfLine 3 = .ok 4 ∧
    demo.evalGeneric halfLine (7 / 2) = .throws := by
  decide +kernel

/-- Violation of C22: `appendSegments` accepts a value off the manifold and stores it. -/
theorem C22_append_unchecked : ∃ v : ℚ, halfLine.isIn v = false ∧ (demo.appendSegments halfLine [5] (some v)).1 = .ok 4 ∧
    v ∈ (demo.appendSegments halfLine [5] (some v)).2.verts :=
  ⟨-1, by decide +kernel, by decide +kernel, by decide +kernel⟩

/-- Violation of C22: a knot added to an initialised spline is accepted without a new initialisation, and evaluating next to it
reads a basis matrix that was never written. -/
theorem C22_add_after_init : (demo.addKnot halfLine (3 / 2)).state = .evaluable ∧
    (demo.addKnot halfLine (3 / 2)).evalGeneric halfLine (7 / 4) = .ub := by
  decide +kernel

/-- Violation of C22: appending a knot that is already present moves the end of the valid interval without adding a segment, and
evaluating on the last interval reads a basis matrix that was never written. -/
theorem C22_append_duplicate : (demo.appendSegments halfLine [2] none).1 = .ok 4 ∧
    (demo.appendSegments halfLine [2] none).2.evalGeneric halfLine (7 / 2) = .ub := by
  decide +kernel

/-- Violation of C22: changing vertices from the start of a spline that was not initialised is undefined instead of raising an
exception, because the minimum time is read before the state is checked. -/
theorem C22_set_before_init (f : ℕ → P → P) (n : ℕ) (o : ℤ) (order : ℕ) :
    ((create order : MSpline K P).manipulateFromStart f n o).1 = .ub := rfl

/-- Not vacuous: regular calls of all kinds, one after the other. -/
example : RegularReach halfLine 2 (((Call.append [5, 6] (some 2)).run halfLine demo).2) ∧
    (((Call.append [5, 6] (some 2)).run halfLine demo).1 = .ok ()) :=
  ⟨.call _ demo_reach (fun _ => by decide +kernel), by decide +kernel⟩

example : Reach halfLine 2 true demo := .init _ .create trivial (by decide +kernel)

example : Reach halfLine 2 false (((Call.initWithKnots [0, 1]).run halfLine (create 2 : MSpline ℚ ℚ))).2 :=
  .initFailed _ .create trivial (by decide +kernel)

end Verif.MSpline
