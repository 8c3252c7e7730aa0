import Verif.Props.BothFitters
import Verif.Props.LocalCoefficients
import Verif.Props.ManifoldInit
import Verif.Props.OptExpressions
import Verif.Props.Views

/-!
# Property C105: the two implementations of Euclidean splines agree

The library has two implementations of splines with values in a vector space: `BSpline` and the manifold spline `EuclideanBSpline`.
A client that makes the same calls on both gets the same answers.
-/

set_option linter.unusedSectionVars false

namespace Verif

open Finset Polynomial BSpline MeasureTheory

variable {D : ℕ}

namespace BothSplines

/-- The calls both implementations offer. -/
inductive Call (D : ℕ)
  | value (t : ℝ) (der : ℤ)
  | jacobian (t : ℝ) (der : ℤ)
  | read (t : ℝ)
  | write (t : ℝ) (c : List ℝ)
  | minTime
  | maxTime
  | segments
  | vertices

/-- What they answer: a vector, a matrix, coefficients, nothing, a time or a number; or an exception. -/
inductive Answer (D : ℕ)
  | vector (o : Outcome (Fin D → ℝ))
  | matrix (o : Outcome (Fin D → ℕ → ℝ))
  | coefficients (o : Outcome (List (Option ℝ)))
  | done (o : Outcome Unit)
  | time (o : Outcome ℝ)
  | number (o : Outcome ℕ)

/-- A matrix with `D` rows and `n` columns of blocks. -/
def clip (n D : ℕ) (A : Mat ℝ) : Fin D → ℕ → ℝ := fun d q => if q < n * D then A d q else 0

/-- A call on the plain spline. -/
noncomputable def plainCall (b : BSpline ℝ D) : Call D → Answer D × BSpline ℝ D
  | .value t der => (.vector (b.evalD t der), b)
  | .jacobian t der => (.matrix ((b.phi t der).map (clip b.order D)), b)
  | .read t => (.coefficients ((b.localCoefficientVector t).map fun l => l.map some), b)
  | .write t c => match b.setLocalCoefficientVector t c with
    | .ok b' => (.done (.ok ()), b')
    | .throws => (.done .throws, b)
    | .ub => (.done .ub, b)
  | .minTime => (.time b.tMin, b)
  | .maxTime => (.time b.tMax, b)
  | .segments => (.number (.ok b.numValidTimeSegments), b)
  | .vertices => (.number (.ok b.coeffs.length), b)

/-- The same call on the manifold spline; a block of the Jacobian is a multiple of the identity. -/
noncomputable def manifoldCall (m : MSpline ℝ (Fin D → ℝ)) : Call D → Answer D × MSpline ℝ (Fin D → ℝ)
  | .value t der => (.vector (m.euclideanEvalD none t der), m)
  | .jacobian t der => (.matrix ((m.euclideanEvalJacobian none t der).map fun l => clip m.order D (identityBlocks D fun c => l.getD c 0)), m)
  | .read t => (.coefficients (m.getLocalCoefficientVector (fixedPoints ℝ D) t D), m)
  | .write t c => let r := m.setLocalCoefficientVector (fixedPoints ℝ D) t c D
    (.done r.1, r.2)
  | .minTime => (.time m.getMinTime, m)
  | .maxTime => (.time m.getMaxTime, m)
  | .segments => (.number (.ok m.numValidTimeSegments), m)
  | .vertices => (.number m.numControlVertices, m)

/-- The answers of a session and the spline afterwards. -/
def session {S : Type*} (call : S → Call D → Answer D × S) : S → List (Call D) → List (Answer D) × S
  | s, [] => ([], s)
  | s, c :: cs => let r := call s c
    let rest := session call r.2 cs
    (r.1 :: rest.1, rest.2)

/-- The time a call asks for. -/
def Call.time : Call D → Option ℝ
  | .value t _ => some t
  | .jacobian t _ => some t
  | .read t => some t
  | .write t _ => some t
  | _ => none

/-- Both splines hold the same curve and can be used. -/
structure Twins (b : BSpline ℝ D) (m : MSpline ℝ (Fin D → ℝ)) : Prop where
  wf : b.WF
  wide : b.WideLast
  same : SameSpline b m
  reach : MSpline.RegularReach (euclidean ℝ (Fin D → ℝ)) b.order m
  ready : m.state = .evaluable

namespace Twins

variable {b : BSpline ℝ D} {m : MSpline ℝ (Fin D → ℝ)}

theorem mwf (h : Twins b m) : m.MWF := (h.reach.mwf (by have := h.wf.order_pos; omega)).1

theorem minTime (h : Twins b m) : m.getMinTime = .ok (b.kn (b.order - 1)) := by
  rw [MSpline.getMinTime_eq h.mwf h.ready, h.same.kn, h.same.order]

theorem maxTime (h : Twins b m) : m.getMaxTime = .ok (b.kn (b.knots.length - b.order)) := by
  rw [MSpline.getMaxTime_eq h.mwf h.ready, h.same.kn, h.same.order, h.same.knots]

/-- A valid time is in the same interval of both. -/
theorem lookup (h : Twins b m) {t : ℝ} (h1 : b.kn (b.order - 1) ≤ t) (h2 : t ≤ b.kn (b.knots.length - b.order)) :
    ∃ i, b.computeTIndex t = .ok (b.kn (i + 1) - b.kn i, i) ∧ b.InSegment t i ∧ m.InSeg t i := by
  have hk := h.wf.order_pos
  obtain ⟨i, hT, hi⟩ := BSpline.lookup h.wf t (admissible_of_wide t (WideLast.wide h.wf h.wide) h1 h2)
  have g1 := hi.lower
  have g2 := hi.upper
  refine ⟨i, hT, hi, by rw [h.same.order]; omega, by rw [h.same.order, h.same.knots]; omega, by rw [h.same.kn]; exact hi.left, ?_⟩
  rw [h.same.kn, h.same.order, h.same.knots]
  rcases hi.right with g3 | ⟨g3, g4⟩
  · exact Or.inl g3
  · exact Or.inr ⟨g3, by omega⟩

theorem value (h : Twins b m) {t : ℝ} (h1 : b.kn (b.order - 1) ≤ t) (h2 : t ≤ b.kn (b.knots.length - b.order)) (der : ℤ) :
    m.euclideanEvalD none t der = b.evalD t der := by
  obtain ⟨i, -, -, hi⟩ := h.lookup h1 h2
  rcases lt_or_ge der 0 with hd | hd
  · unfold MSpline.euclideanEvalD evalD
    rw [MSpline.evaluatorAt_eq h.mwf h.ready hi, Outcome.bind_ok, if_pos hd, if_pos hd]
  · lift der to ℕ using hd
    exact h.same.eval h.wf h.wide h.mwf h.ready t h1 h2 der

theorem jacobian (h : Twins b m) {t : ℝ} (h1 : b.kn (b.order - 1) ≤ t) (h2 : t ≤ b.kn (b.knots.length - b.order)) (der : ℤ) :
    (m.euclideanEvalJacobian none t der).map (fun l => clip m.order D (identityBlocks D fun c => l.getD c 0)) =
      (b.phi t der).map (clip b.order D) := by
  obtain ⟨i, hT, hb, hi⟩ := h.lookup h1 h2
  rcases lt_or_ge der 0 with hd | hd
  · unfold MSpline.euclideanEvalJacobian phi
    rw [MSpline.evaluatorAt_eq h.mwf h.ready hi, Outcome.bind_ok, if_pos hd, if_pos hd]
    rfl
  · lift der to ℕ using hd
    obtain ⟨B, hB, -, hBe⟩ := blockAt_ok h.wf i hb.lower hb.upper
    rw [Verif.euclideanEvalJacobian_eq h.mwf h.ready hi none der (by simp), Outcome.map_ok]
    unfold phi computeUAndTIndex
    have hpos : ¬ b.kn (i + 1) - b.kn i ≤ 0 := by linarith [hb.pos]
    rw [if_neg (by omega), hT, Outcome.bind_ok]
    dsimp only
    rw [if_neg hpos, Outcome.bind_ok]
    dsimp only
    rw [hB, Outcome.bind_ok, Outcome.map_ok]
    congr 1
    funext d q
    unfold clip identityBlocks
    rw [h.same.order]
    by_cases hq : q < b.order * D
    · rw [if_pos hq, if_pos hq]
      have hc : q / D < b.order := Nat.div_lt_of_lt_mul (by rwa [mul_comm])
      congr 1
      rw [Int.toNat_natCast, weights_eq h.wf t i der hb.lower hb.upper hb.pos B hBe _ hc, h.same.kn]
      dsimp only
      rw [List.getD_eq_getElem?_getD, List.getElem?_map, List.getElem?_range hc]
      rfl
    · rw [if_neg hq, if_neg hq]

theorem window (h : Twins b m) {i : ℕ} (h1 : b.order - 1 ≤ i) (h2 : i + 1 ≤ b.knots.length - b.order) :
    (m.verts.drop (i + 1 - b.order)).take b.order = (List.range b.order).map fun c => b.col (c + (i + 1 - b.order)) := by
  have hk := h.wf.order_pos
  have hc := h.wf.coeffs_len
  have hl : m.verts.length = b.knots.length := by rw [← h.same.knots]; simp [MSpline.verts, MSpline.keys]
  apply List.ext_getElem
  · rw [List.length_take, List.length_drop, List.length_map, List.length_range]
    omega
  · intro c c1 c2
    rw [List.length_map, List.length_range] at c2
    rw [List.getElem_take, List.getElem_drop, List.getElem_map, List.getElem_range]
    funext d
    rw [← h.same.vert (c + (i + 1 - b.order)) (by omega) d]
    unfold MSpline.vert
    rw [List.getD_eq_getElem?_getD, List.getElem?_eq_getElem (by omega), Option.getD_some]
    have e : i + 1 - b.order + c = c + (i + 1 - b.order) := Nat.add_comm _ _
    exact congrFun (getElem_congr_idx e) d

theorem interval {i : ℕ} {t : ℝ} (h : Twins b m) (hi : m.InSeg t i) : MSpline.Spec.IntervalOf m.keys b.order t i := by
  have e := h.same.order
  exact ⟨by rw [← e]; exact hi.lower, by rw [← e]; exact hi.upper, hi.left, by rw [← e]; exact hi.right⟩

theorem read (h : Twins b m) (hD : 1 ≤ D) {t : ℝ} (h1 : b.kn (b.order - 1) ≤ t) (h2 : t ≤ b.kn (b.knots.length - b.order)) :
    m.getLocalCoefficientVector (fixedPoints ℝ D) t D = (b.localCoefficientVector t).map fun l => l.map some := by
  have hk := h.wf.order_pos
  have hc := h.wf.coeffs_len
  obtain ⟨i, hT, hb, hi⟩ := h.lookup h1 h2
  have g1 := hb.lower
  have g2 := hb.upper
  rw [MSpline.C78_get (euclidean ℝ (Fin D → ℝ)) (fixedPoints ℝ D) b.order (by omega) m h.reach h.ready t i (h.interval hi) D hD
    (fun q _ => by simp [fixedPoints]), h.window g1 g2, localCoefficientVector_of_lookup hT (by omega) (by omega), Outcome.map_ok]
  congr 2
  unfold stack fixedPoints
  rw [List.flatMap_map, List.flatMap_def]
  congr 2
  funext c
  exact List.ofFn_eq_map

theorem write (h : Twins b m) (hD : 1 ≤ D) {t : ℝ} (h1 : b.kn (b.order - 1) ≤ t) (h2 : t ≤ b.kn (b.knots.length - b.order)) (c : List ℝ)
    (hc : c.length = b.order * D) :
    ∃ b' m', b.setLocalCoefficientVector t c = .ok b' ∧ m.setLocalCoefficientVector (fixedPoints ℝ D) t c D = (.ok (), m') ∧ Twins b' m' ∧
      b'.order = b.order ∧ b'.knots = b.knots := by
  have hk := h.wf.order_pos
  have hl := h.wf.coeffs_len
  obtain ⟨i, hT, hb, hi⟩ := h.lookup h1 h2
  have g1 := hb.lower
  have g2 := hb.upper
  obtain ⟨m', e1, e2, e3, e4, e5, e6, e7, e8⟩ := MSpline.C78_set (euclidean ℝ (Fin D → ℝ)) (fixedPoints ℝ D) b.order (by omega) m h.reach h.ready t i
    (h.interval hi) D hD c hc (fun k => segmentOf c k) (fun k hk' => by
      rw [MSpline.fixed_part D _ (MSpline.part_length c b.order D k hc hk')]
      congr 1
      funext d
      unfold MSpline.Spec.part segmentOf
      rw [List.getD_eq_getElem?_getD, List.getD_eq_getElem?_getD, List.getElem?_take, if_pos d.2, List.getElem?_drop])
  refine ⟨{ b with coeffs := writeCols b.coeffs (i + 1 - b.order) c b.order }, m', ?_, e1, ?_, rfl, rfl⟩
  · unfold BSpline.setLocalCoefficientVector bidxOf
    rw [if_pos hc, hT, Outcome.bind_ok]
    dsimp only
    rw [if_neg (by omega), Outcome.bind_ok, if_pos (by omega)]
  · have hvl : m.verts.length = b.knots.length := by rw [← h.same.knots]; simp [MSpline.verts, MSpline.keys]
    refine ⟨h.wf.withCoeffs _ (by simp), h.wide, ⟨e5.trans h.same.order, e3.trans h.same.knots, ?_⟩, e8, e6.trans h.ready⟩
    show m'.verts.take (writeCols b.coeffs (i + 1 - b.order) c b.order).length = writeCols b.coeffs (i + 1 - b.order) c b.order
    rw [writeCols_length, e2]
    have hlen : (m.verts.take (i + 1 - b.order) ++ (List.range b.order).map (fun k => segmentOf (D := D) c k) ++ m.verts.drop (i + 1)).length =
        b.knots.length := by
      simp only [List.length_append, List.length_take, List.length_map, List.length_range, List.length_drop]
      omega
    apply List.ext_getElem
    · rw [List.length_take, writeCols_length, hlen]
      omega
    · intro j j1 j2
      have j3 : j < b.coeffs.length := by rw [writeCols_length] at j2; exact j2
      have key := writeCols_getD b.coeffs (i + 1 - b.order) c b.order j j3
      rw [List.getD_eq_getElem?_getD, List.getElem?_eq_getElem j2, Option.getD_some] at key
      rw [key, List.getElem_take]
      have hcol : ∀ (hj : j < m.verts.length), m.verts[j] = b.coeffs.getD j 0 := by
        intro hj
        funext d
        have := h.same.vert j j3 d
        unfold MSpline.vert BSpline.col at this
        rw [List.getD_eq_getElem?_getD, List.getElem?_eq_getElem hj, Option.getD_some] at this
        exact this
      rcases Nat.lt_or_ge j (i + 1 - b.order) with k1 | k1
      · rw [if_neg (by omega), List.getElem_append_left (by simp; omega), List.getElem_append_left (by simp; omega), List.getElem_take]
        exact hcol _
      · rcases Nat.lt_or_ge j (i + 1) with k2 | k2
        · rw [if_pos (by omega), List.getElem_append_left (by simp; omega), List.getElem_append_right (by simp; omega), List.getElem_map,
            List.getElem_range, List.length_take, Nat.min_eq_left (by omega)]
        · rw [if_neg (by omega), List.getElem_append_right (by simp; omega), List.getElem_drop]
          rw [← hcol (by omega)]
          congr 1
          simp only [List.length_append, List.length_take, List.length_map, List.length_range]
          omega

/-- Before the range and from `1e-10` after it on, both throw. -/
theorem outside (h : Twins b m) {t : ℝ} (ht : t < b.kn (b.order - 1) ∨ b.kn (b.knots.length - b.order) + 1 / 10 ^ 10 ≤ t) :
    b.computeTIndex t = .throws ∧ m.evaluatorAt t = .throws ∧ (t < b.kn (b.order - 1) ∨ b.kn (b.knots.length - b.order) < t) := by
  have ht' : t < b.kn (b.order - 1) ∨ b.kn (b.knots.length - b.order) < t := by
    rcases ht with ht | ht
    · exact Or.inl ht
    · have : (0 : ℝ) < 1 / 10 ^ 10 := by positivity
      exact Or.inr (by linarith)
  refine ⟨(C06_throws_iff_partial b h.wf t _ _ (tMin_eq h.wf) (tMax_eq h.wf)).2 ht, ?_, ht'⟩
  refine MSpline.evaluatorAt_throws h.mwf t (Or.inr ?_)
  rw [h.same.kn, h.same.order, h.same.knots]
  exact ht'

/-- One call. -/
theorem step (h : Twins b m) (hD : 1 ≤ D) (c : Call D)
    (hc : ∀ t, c.time = some t → t ≤ b.kn (b.knots.length - b.order) ∨ b.kn (b.knots.length - b.order) + 1 / 10 ^ 10 ≤ t) :
    (plainCall b c).1 = (manifoldCall m c).1 ∧ Twins (plainCall b c).2 (manifoldCall m c).2 ∧ (plainCall b c).2.order = b.order ∧
      (plainCall b c).2.knots = b.knots := by
  have hk := h.wf.order_pos
  have hcase : ∀ t, c.time = some t → (b.kn (b.order - 1) ≤ t ∧ t ≤ b.kn (b.knots.length - b.order)) ∨
      (t < b.kn (b.order - 1) ∨ b.kn (b.knots.length - b.order) + 1 / 10 ^ 10 ≤ t) := by
    intro t ht
    rcases lt_or_ge t (b.kn (b.order - 1)) with g | g
    · exact Or.inr (Or.inl g)
    · rcases hc t ht with g' | g'
      · exact Or.inl ⟨g, g'⟩
      · exact Or.inr (Or.inr g')
  have rej : ∀ t v, (t < b.kn (b.order - 1) ∨ b.kn (b.knots.length - b.order) < t ∨ (v.length : ℤ) ≠ b.order * (D : ℤ) →
      m.setLocalCoefficientVector (fixedPoints ℝ D) t v D = (.throws, m)) ∧
      (t < b.kn (b.order - 1) ∨ b.kn (b.knots.length - b.order) < t → m.getLocalCoefficientVector (fixedPoints ℝ D) t D = .throws ∧
        m.getMinimalDistanceToNeighborKnots t = .throws) := fun t v =>
    MSpline.C78_rejects (euclidean ℝ (Fin D → ℝ)) (fixedPoints ℝ D) b.order (by omega) m h.reach h.ready _ _ h.minTime h.maxTime t v D
  cases c with
  | value t der =>
    refine ⟨?_, h, rfl, rfl⟩
    show Answer.vector (b.evalD t der) = Answer.vector (m.euclideanEvalD none t der)
    congr 1
    rcases hcase t rfl with ⟨g1, g2⟩ | g
    · exact (h.value g1 g2 der).symm
    · obtain ⟨q1, q2, -⟩ := h.outside g
      unfold evalD evalDNat computeUAndTIndex MSpline.euclideanEvalD
      rw [q1, q2]
      split <;> rfl
  | jacobian t der =>
    refine ⟨?_, h, rfl, rfl⟩
    show Answer.matrix ((b.phi t der).map (clip b.order D)) = Answer.matrix _
    congr 1
    rcases hcase t rfl with ⟨g1, g2⟩ | g
    · exact (h.jacobian g1 g2 der).symm
    · obtain ⟨q1, q2, -⟩ := h.outside g
      unfold phi computeUAndTIndex MSpline.euclideanEvalJacobian
      rw [q1, q2]
      split <;> rfl
  | read t =>
    refine ⟨?_, h, rfl, rfl⟩
    show Answer.coefficients _ = Answer.coefficients _
    congr 1
    rcases hcase t rfl with ⟨g1, g2⟩ | g
    · exact (h.read hD g1 g2).symm
    · obtain ⟨q1, q2, q3⟩ := h.outside g
      rw [((rej t []).2 q3).1]
      unfold BSpline.localCoefficientVector
      rw [q1]
      rfl
  | write t v =>
    by_cases hv : v.length = b.order * D
    · rcases hcase t rfl with ⟨g1, g2⟩ | g
      · obtain ⟨b', m', e1, e2, e3, e4, e5⟩ := h.write hD g1 g2 v hv
        have a1 : plainCall b (.write t v) = (.done (.ok ()), b') := by simp only [plainCall, e1]
        have a2 : manifoldCall m (.write t v) = (.done (.ok ()), m') := by simp only [manifoldCall, e2]
        rw [a1, a2]
        exact ⟨rfl, e3, e4, e5⟩
      · obtain ⟨q1, q2, q3⟩ := h.outside g
        have e1 : b.setLocalCoefficientVector t v = .throws := by
          unfold BSpline.setLocalCoefficientVector
          rw [if_pos hv, q1]
          rfl
        have e2 := (rej t v).1 (q3.elim Or.inl fun x => Or.inr (Or.inl x))
        have a1 : plainCall b (.write t v) = (.done .throws, b) := by simp only [plainCall, e1]
        have a2 : manifoldCall m (.write t v) = (.done .throws, m) := by simp only [manifoldCall, e2]
        rw [a1, a2]
        exact ⟨rfl, h, rfl, rfl⟩
    · have e1 : b.setLocalCoefficientVector t v = .throws := by
        unfold BSpline.setLocalCoefficientVector
        rw [if_neg hv]
      have e2 := (rej t v).1 (Or.inr (Or.inr (by exact_mod_cast hv)))
      have a1 : plainCall b (.write t v) = (.done .throws, b) := by simp only [plainCall, e1]
      have a2 : manifoldCall m (.write t v) = (.done .throws, m) := by simp only [manifoldCall, e2]
      rw [a1, a2]
      exact ⟨rfl, h, rfl, rfl⟩
  | minTime =>
    refine ⟨?_, h, rfl, rfl⟩
    show Answer.time b.tMin = Answer.time m.getMinTime
    rw [tMin_eq h.wf, h.minTime]
  | maxTime =>
    refine ⟨?_, h, rfl, rfl⟩
    show Answer.time b.tMax = Answer.time m.getMaxTime
    rw [tMax_eq h.wf, h.maxTime]
  | segments =>
    refine ⟨?_, h, rfl, rfl⟩
    show Answer.number (.ok b.numValidTimeSegments) = Answer.number (.ok m.numValidTimeSegments)
    unfold BSpline.numValidTimeSegments numValidTimeSegmentsOf MSpline.numValidTimeSegments
    rw [← h.same.knots, h.same.order, MSpline.keys_length]
  | vertices =>
    refine ⟨?_, h, rfl, rfl⟩
    show Answer.number (.ok b.coeffs.length) = Answer.number m.numControlVertices
    have hl := h.wf.coeffs_len
    have hn := h.wf.enough
    unfold MSpline.numControlVertices MSpline.numValidTimeSegments
    rw [h.ready]
    dsimp only
    rw [h.same.order, ← MSpline.keys_length, h.same.knots]
    congr 2
    omega

end Twins

/-- A whole session. -/
theorem Twins.sessions (hD : 1 ≤ D) : ∀ (calls : List (Call D)) {b : BSpline ℝ D} {m : MSpline ℝ (Fin D → ℝ)}, Twins b m →
    (∀ c ∈ calls, ∀ t, c.time = some t → t ≤ b.kn (b.knots.length - b.order) ∨ b.kn (b.knots.length - b.order) + 1 / 10 ^ 10 ≤ t) →
    (session plainCall b calls).1 = (session manifoldCall m calls).1 ∧
      Twins (session plainCall b calls).2 (session manifoldCall m calls).2 ∧ (session plainCall b calls).2.order = b.order ∧
      (session plainCall b calls).2.knots = b.knots
  | [], b, m, h, _ => ⟨rfl, h, rfl, rfl⟩
  | c :: cs, b, m, h, hc => by
    obtain ⟨s1, s2, s3, s4⟩ := h.step hD c (hc c List.mem_cons_self)
    obtain ⟨r1, r2, r3, r4⟩ := Twins.sessions hD cs s2 (fun c' hc' t ht => by
      have := hc c' (List.mem_cons_of_mem _ hc') t ht
      unfold BSpline.kn at this ⊢
      rw [s3, s4]
      exact this)
    refine ⟨?_, r2, r3.trans s3, r4.trans s4⟩
    show (plainCall b c).1 :: _ = (manifoldCall m c).1 :: _
    rw [s1, r1]

/-! ## The claims -/

/-- Order, knots and vertices both implementations accept: strictly increasing knots, enough of everything, and a last interval that is not
shorter than the tolerance `1e-10`. -/
structure Accepted (order : ℕ) (knots : List ℝ) (vertices : List (Fin D → ℝ)) : Prop where
  order_ge : 2 ≤ order
  dim : 1 ≤ D
  increasing : knots.Pairwise (· < ·)
  length : knots.length = vertices.length + order
  enough : order ≤ vertices.length
  wide : knots.getD (vertices.length - 1) 0 + 1 / 10 ^ 10 ≤ knots.getD vertices.length 0

/-- The two splines made from them. -/
structure Built (order : ℕ) (knots : List ℝ) (vertices : List (Fin D → ℝ)) (b : BSpline ℝ D) (m : MSpline ℝ (Fin D → ℝ)) : Prop where
  plain : ∃ b0, BSpline.create order = .ok b0 ∧ b0.setKnotsAndCoefficients knots vertices = .ok b
  manifold : (MSpline.create order).initWithKnotsAndControlVertices (euclidean ℝ (Fin D → ℝ)) knots vertices = (.ok (), m)

theorem twins_exist {order : ℕ} {knots : List ℝ} {vertices : List (Fin D → ℝ)} (h : Accepted order knots vertices) :
    ∃ b m, Built order knots vertices b m ∧ Twins b m ∧ b.order = order ∧ b.knots = knots := by
  have h1 := h.order_ge
  have h2 := h.length
  have h3 := h.enough
  obtain ⟨m, m1, m2, m3, m4, m5, m6, m7, m8⟩ := MSpline.C55_init_with_vertices (euclidean ℝ (Fin D → ℝ)) order (by omega) knots vertices
    h.increasing h2 h3 (fun _ _ => rfl)
  have hsorted : knots.Pairwise (· ≤ ·) := h.increasing.imp fun x => x.le
  have hwf : (initializeBasisMatrices (BSpline.mk (K := ℝ) order knots vertices [])).WF :=
    initializeBasisMatrices_wf _ h1 hsorted (by show 2 * order ≤ knots.length; omega) (by show vertices.length + order = knots.length; omega)
  refine ⟨_, m, ⟨⟨BSpline.mk (K := ℝ) order [] [] [], ?_, BSpline.set_ok (s := BSpline.mk (K := ℝ) order [] [] []) h1 (by simp) hsorted
    (by show 2 * order ≤ knots.length; omega) (by show vertices.length + order = knots.length; omega)⟩, m1⟩, ⟨hwf, ?_, ⟨?_, m4, m6⟩, m2, m3⟩, rfl, rfl⟩
  · unfold BSpline.create
    rw [if_pos h1]
  · intro a b hab
    obtain ⟨i, i1, i2, i3, i4, i5⟩ := timeIntervalOf_eq hwf hab
    have hi : i = vertices.length - 1 := by
      have e1 : (initializeBasisMatrices (BSpline.mk (K := ℝ) order knots vertices [])).numValidTimeSegments = knots.length + 1 - 2 * order := rfl
      have e2 : (initializeBasisMatrices (BSpline.mk (K := ℝ) order knots vertices [])).order = order := rfl
      rw [e1, e2] at i5
      omega
    have hw := h.wide
    have k1 : a = knots.getD (vertices.length - 1) 0 := by rw [i3, hi]; rfl
    have k2 : b = knots.getD vertices.length 0 := by
      rw [i4, hi, show vertices.length - 1 + 1 = vertices.length by omega]
      rfl
    rw [k1, k2]
    linarith
  · exact (m2.mwf (by omega)).2

theorem Built.twins {order : ℕ} {knots : List ℝ} {vertices : List (Fin D → ℝ)} (h : Accepted order knots vertices) {b : BSpline ℝ D}
    {m : MSpline ℝ (Fin D → ℝ)} (hb : Built order knots vertices b m) : Twins b m ∧ b.order = order ∧ b.knots = knots := by
  obtain ⟨b', m', ⟨⟨b1, c1, c2⟩, c3⟩, t, o, k⟩ := twins_exist h
  obtain ⟨⟨b0, d1, d2⟩, d3⟩ := hb
  rw [c1, Outcome.ok.injEq] at d1
  subst d1
  rw [c2, Outcome.ok.injEq] at d2
  rw [c3, Prod.mk.injEq] at d3
  obtain ⟨-, rfl⟩ := d3
  subst d2
  exact ⟨t, o, k⟩

/-- C105: both implementations accept them. -/
theorem C105_built (order : ℕ) (knots : List ℝ) (vertices : List (Fin D → ℝ)) (h : Accepted order knots vertices) :
    ∃ b m, Built order knots vertices b m := by
  obtain ⟨b, m, hb, -⟩ := twins_exist h
  exact ⟨b, m, hb⟩

theorem Built.last {order : ℕ} {knots : List ℝ} {vertices : List (Fin D → ℝ)} (h : Accepted order knots vertices) {b : BSpline ℝ D}
    {m : MSpline ℝ (Fin D → ℝ)} (hb : Built order knots vertices b m) :
    b.kn (b.knots.length - b.order) = knots.getD vertices.length 0 ∧ b.kn (b.order - 1) = knots.getD (order - 1) 0 := by
  obtain ⟨-, o, k⟩ := hb.twins h
  have h2 := h.length
  unfold BSpline.kn
  rw [o, k, show knots.length - order = vertices.length by omega]
  exact ⟨rfl, rfl⟩

/-- C105, what holds of it: two splines made with the same order, knots and vertices by the two implementations answer every session of calls in the
same way, unless a call asks for a time less than `1e-10` after the valid range. -/
theorem C105_sessions_partial (order : ℕ) (knots : List ℝ) (vertices : List (Fin D → ℝ)) (h : Accepted order knots vertices) (b : BSpline ℝ D)
    (m : MSpline ℝ (Fin D → ℝ)) (hb : Built order knots vertices b m) (calls : List (Call D))
    (hc : ∀ c ∈ calls, ∀ t, c.time = some t → t ≤ knots.getD vertices.length 0 ∨ knots.getD vertices.length 0 + 1 / 10 ^ 10 ≤ t) :
    (session plainCall b calls).1 = (session manifoldCall m calls).1 := by
  obtain ⟨t, -, -⟩ := hb.twins h
  refine (Twins.sessions h.dim calls t ?_).1
  rw [(hb.last h).1]
  exact hc

/-- Violation of C105, for all splines: at every time less than `1e-10` after the valid range the plain spline returns a value and the manifold spline
throws. -/
theorem C105_past_end_violated (order : ℕ) (knots : List ℝ) (vertices : List (Fin D → ℝ)) (h : Accepted order knots vertices) (b : BSpline ℝ D)
    (m : MSpline ℝ (Fin D → ℝ)) (hb : Built order knots vertices b m) (t : ℝ) (h1 : knots.getD vertices.length 0 < t)
    (h2 : t < knots.getD vertices.length 0 + 1 / 10 ^ 10) (der : ℕ) :
    (∃ v, b.evalD t der = .ok v) ∧ m.euclideanEvalD none t der = .throws := by
  obtain ⟨tw, o, k⟩ := hb.twins h
  obtain ⟨l1, l2⟩ := hb.last h
  have hk := tw.wf.order_pos
  have hn := tw.wf.enough
  rw [← l1] at h1 h2
  have hlo : b.kn (b.order - 1) ≤ b.kn (b.knots.length - b.order) := tw.wf.mono _ _ (by omega) (by omega)
  constructor
  · have hT := lookup_end tw.wf t (hlo.trans h1.le) (by unfold snapTol; rw [abs_lt]; constructor <;> linarith)
    have hi : b.knots.length - b.order - 1 + 1 = b.knots.length - b.order := by omega
    have hpos : b.kn (b.knots.length - b.order - 1) < b.kn (b.knots.length - b.order - 1 + 1) := by
      rw [hi, l1]
      have := h.wide
      unfold BSpline.kn
      rw [k, o, show knots.length - order - 1 = vertices.length - 1 by have := h.length; omega]
      have : (0 : ℝ) < 1 / 10 ^ 10 := by positivity
      linarith
    have hval := evalDNat_eq tw.wf t _ der (by omega) (by omega) hpos (by rw [hi]; exact hT)
    have e : b.evalD t der = b.evalDNat t der := by
      unfold evalD
      rw [if_neg (by omega), Int.toNat_natCast]
    exact ⟨_, e.trans hval⟩
  · have : m.evaluatorAt t = .throws := by
      refine MSpline.evaluatorAt_throws tw.mwf t (Or.inr (Or.inr ?_))
      rw [tw.same.kn, tw.same.order, tw.same.knots]
      exact h1
    unfold MSpline.euclideanEvalD
    rw [this]
    rfl

/-- No tolerance of the integral queries matters at time `t`. -/
def Far (knots : List ℝ) (t : ℝ) : Prop := ∀ i x y, knots[i]? = some x → knots[i + 1]? = some y → x ≤ t → t ≤ y →
  1 / 10 ^ 16 < y - x ∧ (t = x ∨ t = y ∨ (1 / 10 ^ 16 < t - x ∧ 1 / 10 ^ 16 * (y - x) < t - x))

/-- C105, what holds of it for integrals, at any point of a session: both queries return; they return the same where no tolerance matters, and
otherwise differ by at most `4e-16` times the size of the vertices and of the longest knot interval (if that is longer than one). -/
theorem C105_integrals_partial (order : ℕ) (knots : List ℝ) (vertices : List (Fin D → ℝ)) (h : Accepted order knots vertices) (b : BSpline ℝ D)
    (m : MSpline ℝ (Fin D → ℝ)) (hb : Built order knots vertices b m) (calls : List (Call D))
    (hc : ∀ c ∈ calls, ∀ t, c.time = some t → t ≤ knots.getD vertices.length 0 ∨ knots.getD vertices.length 0 + 1 / 10 ^ 10 ≤ t)
    (t1 t2 : ℝ) (h1 : knots.getD (order - 1) 0 ≤ t1 ∧ t1 ≤ knots.getD vertices.length 0)
    (h2 : knots.getD (order - 1) 0 ≤ t2 ∧ t2 ≤ knots.getD vertices.length 0) :
    ∃ v w, (session plainCall b calls).2.evalIntegral t1 t2 = .ok v ∧ (session manifoldCall m calls).2.euclideanIntegral t1 t2 = .ok w ∧
      (Far knots t1 → Far knots t2 → v = w) ∧
      ∀ M L, (∀ p ∈ (session manifoldCall m calls).2.verts, ‖p‖ ≤ M) → 1 ≤ L →
        (∀ i x y, knots[i]? = some x → knots[i + 1]? = some y → y - x ≤ L) → ‖v - w‖ ≤ 4 / 10 ^ 16 * L * M := by
  obtain ⟨t, o, k⟩ := hb.twins h
  obtain ⟨l1, l2⟩ := hb.last h
  obtain ⟨-, tw, so, sk⟩ := Twins.sessions h.dim calls t (by rw [l1]; exact hc)
  generalize hbs : (session plainCall b calls).2 = b' at tw so sk ⊢
  generalize (session manifoldCall m calls).2 = m' at tw ⊢
  have ekn : b'.kn = b.kn := by funext j; unfold BSpline.kn; rw [sk]
  have e1 : b'.kn (b'.order - 1) = knots.getD (order - 1) 0 := by rw [ekn, so, l2]
  have e2 : b'.kn (b'.knots.length - b'.order) = knots.getD vertices.length 0 := by rw [ekn, so, sk, l1]
  have hk := tw.wf.order_pos
  obtain ⟨v, hv, hv'⟩ := C08_integral b' tw.wf tw.wide _ _ (tMin_eq tw.wf) (tMax_eq tw.wf) t1 t2 (by rw [e1, e2]; exact h1) (by rw [e1, e2]; exact h2)
  obtain ⟨w, hw, hw1, hw2, hw3⟩ := MSpline.C54_integral b'.order (by omega) m' tw.reach tw.ready _ _ tw.minTime tw.maxTime t1 t2
    (by rw [e1, e2]; exact h1) (by rw [e1, e2]; exact h2)
  have keys : m'.keys = knots := by rw [tw.same.knots, sk, k]
  -- the two integrands agree
  have hint : ∀ d : Fin D, ∫ x in t1..t2, (b'.eval x).getD 0 d = (∫ x in t1..t2, (m'.euclideanEval x).getD 0) d := by
    intro d
    have hproj := (ContinuousLinearMap.proj (R := ℝ) (φ := fun _ : Fin D => ℝ) d).intervalIntegral_comp_comm hw1
    rw [ContinuousLinearMap.proj_apply] at hproj
    rw [← hproj]
    apply intervalIntegral.integral_congr
    intro x hx
    have hx1 : b'.kn (b'.order - 1) ≤ x := by
      rw [e1]
      rcases Set.mem_uIcc.1 hx with g | g
      · exact h1.1.trans g.1
      · exact h2.1.trans g.1
    have hx2 : x ≤ b'.kn (b'.knots.length - b'.order) := by
      rw [e2]
      rcases Set.mem_uIcc.1 hx with g | g
      · exact g.2.trans h2.2
      · exact g.2.trans h1.2
    dsimp only
    rw [ContinuousLinearMap.proj_apply]
    have : m'.euclideanEval x = b'.eval x := tw.value hx1 hx2 0
    rw [this]
  refine ⟨v, w, hv, hw, fun f1 f2 => ?_, fun M L hM hL1 hL => ?_⟩
  · have clear : ∀ t, Far knots t → m'.Clear t := by
      intro t ht i x y hx hy q1 q2
      rw [keys] at hx hy
      obtain ⟨r1, r2⟩ := ht i x y hx hy q1 q2
      exact ⟨r1, r2.imp id fun r => r.imp id fun r => r.2⟩
    have tiny : ∀ t, Far knots t → NotTiny b' t := by
      intro t ht seg a c hac q1 q2
      obtain ⟨i, i1, i2, i3, i4, -⟩ := timeIntervalOf_eq tw.wf hac
      have hk1 : ∀ j, j < knots.length → knots[j]? = some (b'.kn j) := by
        intro j hj
        unfold BSpline.kn
        rw [sk, k, List.getD_eq_getElem?_getD, List.getElem?_eq_getElem hj, Option.getD_some]
      have hl : b'.knots.length = knots.length := by rw [sk, k]
      obtain ⟨r1, r2⟩ := ht i _ _ (hk1 i (by omega)) (hk1 (i + 1) (by omega)) (by rw [← i3]; exact q1) (by rw [← i4]; exact q2.le)
      rw [← i3, ← i4] at r1 r2
      rcases r2 with r2 | r2 | r2
      · exact Or.inl r2
      · exact absurd r2 q2.ne
      · exact Or.inr ⟨r2.1, r1⟩
    funext d
    rw [(hv' d).2.1 (tiny t1 f1) (tiny t2 f2), hint d, hw2 (clear t1 f1) (clear t2 f2)]
  · have hM0 : 0 ≤ M := by
      have hl : 0 < m'.verts.length := by
        have : m'.verts.length = m'.keys.length := by simp [MSpline.verts, MSpline.keys]
        rw [this, tw.same.knots]
        have := tw.wf.enough
        omega
      exact (norm_nonneg _).trans (hM _ (List.getElem_mem hl))
    rw [pi_norm_le_iff_of_nonneg (by positivity)]
    intro d
    have a1 := (hv' d).2.2 M (fun c hc => by
      have : c ∈ m'.verts := List.mem_of_mem_take (by rw [tw.same.coeffs]; exact hc)
      exact (Real.norm_eq_abs _).symm.le.trans ((norm_le_pi_norm c d).trans (hM c this)))
    have a2 := hw3 M L hM hL1 (by rw [keys]; exact hL)
    have a3 := (norm_le_pi_norm (w - ∫ x in t1..t2, (m'.euclideanEval x).getD 0) d).trans a2
    rw [hint d] at a1
    rw [Pi.sub_apply, Real.norm_eq_abs] at a3 ⊢
    have : |v d - w d| ≤ |v d - (∫ x in t1..t2, (m'.euclideanEval x).getD 0) d| + |w d - (∫ x in t1..t2, (m'.euclideanEval x).getD 0) d| := by
      rw [abs_sub_comm (w d)]
      exact abs_sub_le _ _ _
    have hML : M ≤ L * M := by nlinarith
    linarith

/-! ## Other violations -/

/-- Violation of C105: if the last interval is shorter than `1e-10`, the plain spline takes times before it for times in it. -/
theorem C105_narrow_violated :
    ∃ (m : MSpline ℚ (Fin 1 → ℚ)) (b0 b : BSpline ℚ 1),
      (MSpline.create 2).initWithKnotsAndControlVertices (euclidean ℚ (Fin 1 → ℚ)) [0, 1, 2, 2 + 1 / 10 ^ 11, 3] [![0], ![1], ![7]] = (.ok (), m) ∧
      BSpline.create 2 = .ok b0 ∧ b0.setKnotsAndCoefficients [0, 1, 2, 2 + 1 / 10 ^ 11, 3] [![0], ![1], ![7]] = .ok b ∧
      m.getMinTime = .ok 1 ∧ (1 : ℚ) ≤ 2 - 1 / 10 ^ 11 ∧ m.getMaxTime = .ok (2 + 1 / 10 ^ 11) ∧
      m.euclideanEval (2 - 1 / 10 ^ 11) = .ok ![1 - 1 / 10 ^ 11] ∧ b.eval (2 - 1 / 10 ^ 11) = .ok ![-5] :=
  ⟨((MSpline.create 2).initWithKnotsAndControlVertices (euclidean ℚ (Fin 1 → ℚ)) [0, 1, 2, 2 + 1 / 10 ^ 11, 3] [![0], ![1], ![7]]).2,
    ⟨2, [], [], []⟩, exNarrow, Prod.ext (by decide +kernel) rfl, rfl,
    BSpline.set_ok (s := BSpline.mk (K := ℚ) 2 [] [] []) (by decide) (by decide) (by decide +kernel) (by decide) (by decide),
    by decide +kernel, by norm_num, by decide +kernel, by decide +kernel, by decide +kernel⟩

/-- Violation of C105: the plain spline keeps equal knots; the manifold spline drops one of them together with its vertex, without notice, and follows
another curve. -/
theorem C105_equal_knots_violated :
    ∃ (m : MSpline ℚ (Fin 1 → ℚ)) (b0 b : BSpline ℚ 1),
      (MSpline.create 2).initWithKnotsAndControlVertices (euclidean ℚ (Fin 1 → ℚ)) [0, 1, 2, 2, 3, 4] [![0], ![1], ![7], ![2]] = (.ok (), m) ∧
      BSpline.create 2 = .ok b0 ∧ b0.setKnotsAndCoefficients [0, 1, 2, 2, 3, 4] [![0], ![1], ![7], ![2]] = .ok b ∧
      b.numValidTimeSegments = 3 ∧ m.numValidTimeSegments = 2 ∧ b.coeffs.length = 4 ∧ m.numControlVertices = .ok 3 ∧
      b.eval (5 / 2) = .ok ![(9 : ℚ) / 2] ∧ m.euclideanEval (5 / 2) = .ok ![(4 : ℚ)] :=
  ⟨((MSpline.create 2).initWithKnotsAndControlVertices (euclidean ℚ (Fin 1 → ℚ)) [0, 1, 2, 2, 3, 4] [![0], ![1], ![7], ![2]]).2,
    ⟨2, [], [], []⟩, _, Prod.ext (by decide +kernel) rfl, rfl,
    BSpline.set_ok (s := BSpline.mk (K := ℚ) 2 [] [] []) (by decide) (by decide) (by decide +kernel) (by decide) (by decide),
    by decide +kernel, by decide +kernel, by decide +kernel, by decide +kernel, by decide +kernel, by decide +kernel⟩

/-! ## Examples -/

/-- An order with knots and vertices both accept. -/
theorem demo_accepted : Accepted 2 [0, 1, 2, 3, 4] [![0], ![1], ![7]] (D := 1) :=
  ⟨le_refl _, le_refl _, by norm_num, rfl, by decide, by norm_num⟩

/-- A session with evaluation, writing, reading, a time before and a time after the valid range, and a vector of the wrong size. -/
noncomputable def demoCalls : List (Call 1) := [.value (3 / 2) 1, .jacobian (5 / 2) 0, .write (5 / 2) [4, 5], .value (5 / 2) 0, .read 2, .value 0 0,
  .write 1 [1], .value 4 0, .value 2 (-1), .minTime, .maxTime, .segments, .vertices]

theorem demo_times : ∀ c ∈ demoCalls, ∀ t, c.time = some t → t ≤ [(0 : ℝ), 1, 2, 3, 4].getD ([![0], ![1], ![7]] : List (Fin 1 → ℝ)).length 0 ∨
    [(0 : ℝ), 1, 2, 3, 4].getD ([![0], ![1], ![7]] : List (Fin 1 → ℝ)).length 0 + 1 / 10 ^ 10 ≤ t := by
  intro c hc t ht
  have e : [(0 : ℝ), 1, 2, 3, 4].getD ([![0], ![1], ![7]] : List (Fin 1 → ℝ)).length 0 = 3 := rfl
  rw [e]
  unfold demoCalls at hc
  simp only [List.mem_cons, List.not_mem_nil, or_false] at hc
  rcases hc with rfl | rfl | rfl | rfl | rfl | rfl | rfl | rfl | rfl | rfl | rfl | rfl | rfl <;>
    first
    | (have ht' := Option.some.inj ht; subst ht'; norm_num)
    | cases ht

/-- The hypotheses of the theorems hold, and the answers are more than exceptions. -/
example : ∃ b m, Built 2 [0, 1, 2, 3, 4] [![0], ![1], ![7]] b m ∧ (session plainCall b demoCalls).1 = (session manifoldCall m demoCalls).1 ∧
    (∃ v, b.evalD (3 / 2) 0 = .ok v ∧ m.euclideanEvalD none (3 / 2) 0 = .ok v) ∧ Far [0, 1, 2, 3, 4] (3 / 2) ∧ Far [0, 1, 2, 3, 4] 2 ∧
    (∃ v, b.evalIntegral (3 / 2) 2 = .ok v ∧ m.euclideanIntegral (3 / 2) 2 = .ok v) ∧
    (∃ v, b.evalD (3 + 1 / 10 ^ 11) 0 = .ok v) ∧ m.euclideanEvalD none (3 + 1 / 10 ^ 11) 0 = .throws := by
  obtain ⟨b, m, hb⟩ := C105_built 2 [0, 1, 2, 3, 4] [![0], ![1], ![7]] demo_accepted
  obtain ⟨t, o, k⟩ := hb.twins demo_accepted
  obtain ⟨l1, l2⟩ := hb.last demo_accepted
  have r1 : b.kn (b.order - 1) ≤ 3 / 2 := by rw [l2]; norm_num
  have r2 : (3 / 2 : ℝ) ≤ b.kn (b.knots.length - b.order) := by rw [l1]; norm_num
  have hfar : Far [0, 1, 2, 3, 4] (3 / 2) := by
    intro i x y hx hy h1 h2
    match i with
    | 0 => simp at hx hy; subst hx hy; norm_num at h2
    | 1 => simp at hx hy; subst hx hy; norm_num
    | 2 => simp at hx hy; subst hx hy; norm_num at h1
    | 3 => simp at hx hy; subst hx hy; norm_num at h1
    | n + 4 => simp at hy
  have hfar2 : Far [0, 1, 2, 3, 4] 2 := by
    intro i x y hx hy h1 h2
    match i with
    | 0 => simp at hx hy; subst hx hy; norm_num at h2
    | 1 => simp at hx hy; subst hx hy; norm_num
    | 2 => simp at hx hy; subst hx hy; norm_num
    | 3 => simp at hx hy; subst hx hy; norm_num at h1
    | n + 4 => simp at hy
  refine ⟨b, m, hb, C105_sessions_partial 2 _ _ demo_accepted b m hb demoCalls demo_times, ?_, hfar, hfar2, ?_, ?_⟩
  · obtain ⟨-, i, -, e⟩ := evalD_repro t.wf t.wide 0 (3 / 2) r1 r2
    exact ⟨_, e, (t.value r1 r2 0).trans e⟩
  · obtain ⟨v, w, e1, e2, e3, -⟩ := C105_integrals_partial 2 _ _ demo_accepted b m hb [] (by simp) (3 / 2) 2 (by norm_num) (by norm_num)
    have := e3 hfar hfar2
    subst this
    exact ⟨v, e1, e2⟩
  · exact C105_past_end_violated 2 _ _ demo_accepted b m hb (3 + 1 / 10 ^ 11) (by norm_num) (by norm_num) 0

end BothSplines
end Verif
