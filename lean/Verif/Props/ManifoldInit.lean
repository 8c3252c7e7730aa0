import Verif.Props.ManifoldLife

/-!
# C55: what initialising with knots and control vertices builds
-/

set_option linter.unusedSectionVars false

namespace Verif.MSpline

variable {K : Type*} [Field K] [LinearOrder K] [IsStrictOrderedRing K] {P V : Type*}

theorem forEach_vertices (M : Mfd K P V) : ∀ (l : List (K × P)) (s : MSpline K P), (∀ x ∈ l, M.isIn x.2 = true) →
    (s.keys ++ l.map Prod.fst).Pairwise (· < ·) →
    forEach (fun tp : K × P => addControlVertex M tp.1 tp.2) l s =
      (.ok (), ⟨s.order, s.segs ++ l.map (fun x => ⟨x.1, x.2, none⟩), s.state, s.iters⟩)
  | [], s, _, _ => by simp [forEach]
  | a :: l, s, hin, hs => by
    have ha : s.addControlVertex M a.1 a.2 = (.ok (), ⟨s.order, s.segs ++ [⟨a.1, a.2, none⟩], s.state, s.iters⟩) := by
      unfold addControlVertex
      rw [if_pos (hin a (by simp)), mapInsert_append]
      intro g hg
      rw [List.pairwise_append] at hs
      exact hs.2.2 g.knot (List.mem_map_of_mem hg) a.1 (by simp)
    unfold forEach
    rw [ha]
    simp only []
    rw [forEach_vertices M l _ (fun x hx => hin x (by simp [hx])) (by simpa [keys] using hs)]
    simp

theorem forEach_knots (M : Mfd K P V) : ∀ (l : List K) (s : MSpline K P), (s.keys ++ l).Pairwise (· < ·) →
    forEach (fun t => total (addKnot M t)) l s =
      (.ok (), ⟨s.order, s.segs ++ l.map (fun x => ⟨x, M.default, none⟩), s.state, s.iters⟩)
  | [], s, _ => by simp [forEach]
  | a :: l, s, hs => by
    have ha : total (addKnot M a) s = (.ok (), ⟨s.order, s.segs ++ [⟨a, M.default, none⟩], s.state, s.iters⟩) := by
      unfold total addKnot
      rw [mapInsert_append]
      intro g hg
      rw [List.pairwise_append] at hs
      exact hs.2.2 g.knot (List.mem_map_of_mem hg) a (by simp)
    unfold forEach
    rw [ha]
    simp only []
    rw [forEach_knots M l _ (by simpa [keys] using hs)]
    simp

/-- C55: initialising a new spline with increasing knots and control vertices on the manifold (as many as the knots make room for)
succeeds, and the spline then has exactly these knots and these control vertices, in this order. -/
theorem C55_init_with_vertices (M : Mfd K P V) (order : ℕ) (ho : 1 ≤ order) (ts : List K) (cs : List P)
    (hts : ts.Pairwise (· < ·)) (hlen : ts.length = cs.length + order) (hcs : order ≤ cs.length)
    (hin : ∀ c ∈ cs, M.isIn c = true) :
    ∃ s, (create order).initWithKnotsAndControlVertices M ts cs = (.ok (), s) ∧ RegularReach M order s ∧ s.state = .evaluable ∧
      s.keys = ts ∧ s.numControlVertices = .ok cs.length ∧ s.verts.take cs.length = cs ∧
      s.getMinTime = .ok (ts.getD (order - 1) 0) ∧ s.getMaxTime = .ok (ts.getD cs.length 0) := by
  have hz : (ts.zip cs).map Prod.fst = ts.take cs.length := by
    apply List.ext_getElem?
    intro j
    rw [List.getElem?_map, List.getElem?_take]
    split
    · rename_i hj
      rw [List.getElem?_eq_getElem (by simp; omega), List.getElem?_eq_getElem (by omega)]
      simp
    · rw [List.getElem?_eq_none (by simp; omega)]
      rfl
  have hz2 : (ts.zip cs).map Prod.snd = cs := by
    apply List.ext_getElem?
    intro j
    rw [List.getElem?_map]
    rcases Nat.lt_or_ge j cs.length with hj | hj
    · rw [List.getElem?_eq_getElem (by simp; omega), List.getElem?_eq_getElem (by omega)]
      simp
    · rw [List.getElem?_eq_none (by simp; omega), List.getElem?_eq_none hj]
      rfl
  set b : MSpline K P := ⟨order, (ts.zip cs).map (fun x => ⟨x.1, x.2, none⟩) ++
    (ts.drop cs.length).map (fun x => ⟨x, M.default, none⟩), .constructing, none⟩ with hb
  have hkeys : b.keys = ts := by
    rw [hb]
    simp only [keys, List.map_append, List.map_map]
    rw [show (Seg.knot ∘ fun x : K × P => (⟨x.1, x.2, none⟩ : Seg K P)) = Prod.fst from rfl,
      show (Seg.knot ∘ fun x : K => (⟨x, M.default, none⟩ : Seg K P)) = id from rfl, hz, List.map_id, List.take_append_drop]
  have hbw : b.MWF := by
    refine ⟨ho, by rw [hkeys]; exact hts, ?_, ?_, ?_⟩ <;> intro h <;> cases h
  have hrun : (create order).initWithKnotsAndControlVertices M ts cs = b.init := by
    unfold initWithKnotsAndControlVertices andThen assertConstructing create
    simp only []
    rw [if_neg (by simp; omega), forEach_vertices M _ _ (fun x hx => hin x.2 (by
      rw [← hz2]; exact List.mem_map_of_mem hx)) (by
      rw [hz]; simp only [keys, List.map_nil, List.nil_append]; exact hts.sublist (List.take_sublist _ _))]
    simp only []
    rw [forEach_knots M _ _ (by
      have : keys (⟨order, [] ++ (ts.zip cs).map (fun x => ⟨x.1, x.2, none⟩), .constructing, none⟩ : MSpline K P) = ts.take cs.length := by
        simp only [keys, List.nil_append, List.map_map]
        exact hz
      rw [this, List.take_append_drop]; exact hts)]
    simp only [List.nil_append]
    rfl
  obtain ⟨segs', r1, r2, r3⟩ := init_ok hbw rfl (by rw [hkeys]; show 2 * order ≤ _; omega)
  refine ⟨_, hrun.trans r1, ?_⟩
  generalize hs : (⟨b.order, segs', .evaluable,
        some ⟨b.keys[0]?, b.keys[b.order - 1]?, b.keys[b.keys.length - b.order]?⟩⟩ : MSpline K P) = s at *
  have hreach : RegularReach M order s := by
    have := RegularReach.call (M := M) (order := order) (.initWithKnotsAndControlVertices ts cs) .create trivial
    simp only [Call.run, hrun, r1] at this
    exact this
  have hst : s.state = .evaluable := by rw [← hs]
  have hk : s.keys = ts := by rw [← hs]; exact r2.trans hkeys
  obtain ⟨hw, hord⟩ := hreach.mwf ho
  have hv : s.verts.take cs.length = cs := by
    have : s.verts = b.verts := by
      rw [← hs]
      apply List.ext_getElem?
      intro j
      simp only [verts, List.getElem?_map]
      rw [r3.2 j, Option.map_map]
      congr 1
      funext g
      simp only [Function.comp]
      split <;> rfl
    rw [this, hb]
    simp only [verts, List.map_append, List.map_map]
    rw [show (Seg.vertex ∘ fun x : K × P => (⟨x.1, x.2, none⟩ : Seg K P)) = Prod.snd from rfl, hz2, List.take_left']
    rfl
  refine ⟨hreach, hst, hk, ?_, hv, ?_, ?_⟩
  · rw [numControlVertices_eq hw hst, hk, hord]; congr 1; omega
  · rw [getMinTime_eq hw hst, hord]; unfold kn; rw [hk]
  · rw [getMaxTime_eq hw hst, hord]; unfold kn; rw [hk]; congr 2; omega

/-- Not vacuous, and the result computed. -/
example : ∃ s, (create 2 : MSpline ℚ ℚ).initWithKnotsAndControlVertices halfLine [0, 1, 3, 4, 6] [0, 1, 4] = (.ok (), s) ∧
    s.keys = [0, 1, 3, 4, 6] := by
  obtain ⟨s, h1, -, -, h2, -⟩ := C55_init_with_vertices halfLine 2 (by norm_num) [0, 1, 3, 4, 6] [0, 1, 4] (by decide +kernel)
    rfl (by decide) (by decide +kernel)
  exact ⟨s, h1, h2⟩

end Verif.MSpline
