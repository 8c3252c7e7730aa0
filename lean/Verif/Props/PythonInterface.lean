import Verif.Model.PythonInterface
import Verif.Props.EvaluatorBuffers
import Verif.Props.ManifoldInit
import Verif.Props.ManifoldUpdate
import Verif.Lemmas.Generic

/-!
# C73: the Python interface of the manifold splines
-/

set_option linter.unusedSectionVars false

namespace Verif.MSpline

open Finset Polynomial Quaternion BufM

section General

variable {K : Type} [Field K] [LinearOrder K] [IsStrictOrderedRing K] {P V : Type}

theorem pyTemplate_fits (cum : Bool) (der : ℤ) (order : ℕ) : (pyTemplate cum der).Fits order := by
  refine ⟨Or.inr rfl, ?_⟩
  unfold pyTemplate
  dsimp only
  split_ifs <;> omega

/-- The announced maximum is never below the derivative asked for. -/
theorem pyTemplate_max (cum : Bool) (der : ℤ) : (pyTemplate cum der).maxDer? = none ∨ (pyTemplate cum der).maxDer? = some der.toNat := by
  unfold pyTemplate Template.maxDer?
  dsimp only
  split_ifs <;> simp_all

theorem pyGuard_eq {s : MSpline K P} (h : s.MWF) (he : s.state = .evaluable) (t : K) :
    s.pyGuard t = if s.kn (s.order - 1) ≤ t ∧ t ≤ s.kn (s.keys.length - s.order) then .ok () else .throws := by
  unfold pyGuard
  rw [getMinTime_eq h he, Outcome.bind_ok, getMaxTime_eq h he, Outcome.bind_ok]
  by_cases h1 : t < s.kn (s.order - 1)
  · rw [if_pos h1, if_neg fun hc => absurd h1 (not_lt.2 hc.1)]
  · by_cases h2 : s.kn (s.keys.length - s.order) < t
    · rw [if_neg h1, if_pos h2, if_neg fun hc => absurd h2 (not_lt.2 hc.2)]
    · rw [if_neg h1, if_neg h2, if_pos ⟨not_lt.1 h1, not_lt.1 h2⟩]

/-- The common form of a query on an initialised spline: `o` is the answer of the spline. -/
theorem pyAsk_eq {α : Type} {s : MSpline K P} (hw : s.MWF) (he : s.state = .evaluable) (cum : Bool) (t : K) (der : ℤ)
    (fresh : ℕ → ℕ → K) (q : Template → Evaluator K → BufM K α) (o : Outcome α) (hthrow : s.evaluatorAt t = .throws → o = .throws)
    (href : ∀ e g B, s.evaluatorAt t = .ok e → Ready (pyTemplate cum der) s e g B →
      Refines (BufInv (pyTemplate cum der) s e) (q (pyTemplate cum der) e) o) : s.pyAsk cum t der fresh q = o := by
  unfold pyAsk
  rw [pyGuard_eq hw he]
  by_cases ht : s.kn (s.order - 1) ≤ t ∧ t ≤ s.kn (s.keys.length - s.order)
  · obtain ⟨i, hi, -⟩ := getSegmentIterator_ok hw he t ht.1 ht.2
    obtain ⟨b, hb, hinv⟩ := construct_eq hw he hi (pyTemplate_fits cum der _) fresh
    obtain ⟨g, B, R⟩ := ready_of hw he hi (pyTemplate_fits cum der _)
    rw [if_pos ht, Outcome.bind_ok, hb, Outcome.bind_ok]
    exact (href _ g B (evaluatorAt_eq hw he hi) R b hinv).1
  · rw [if_neg ht, hthrow (evaluatorAt_throws hw t (Or.inr (by
      rcases not_and_or.1 ht with h | h
      · exact Or.inl (not_le.1 h)
      · exact Or.inr (not_le.1 h))))]
    rfl

theorem forEach_addKnot_rest (M : Mfd K P V) : ∀ (ts : List K) (s : MSpline K P),
    (forEach (fun t => total (addKnot M t)) ts s).2.state = s.state ∧ (forEach (fun t => total (addKnot M t)) ts s).2.iters = s.iters
  | [], _ => ⟨rfl, rfl⟩
  | t :: ts, s => by
    obtain ⟨h1, h2⟩ := forEach_addKnot_rest M ts (addKnot M t s)
    exact ⟨h1, h2⟩

/-- **C73**, violated: before the spline is initialised, the queries read an invalid iterator (instead of raising the exception of the
evaluator). -/
theorem C73_uninitialised_violated (order : ℕ) (t : K) (der : ℤ) (fresh : ℕ → ℕ → K) [AddCommGroup P] [Module K P] (M : Mfd K P V)
    (ts : List K) : (((create order : MSpline K P).addKnots M ts).2).pyEvalD t der fresh = .ub ∧
      (((create order : MSpline K P).addKnots M ts).2).evaluatorAt t = .throws := by
  obtain ⟨h1, h2⟩ := forEach_addKnot_rest M ts (create order)
  have e : ((create order : MSpline K P).addKnots M ts).2 = (forEach (fun t => total (addKnot M t)) ts (create order)).2 := rfl
  rw [e]
  constructor
  · unfold pyEvalD pyAsk pyGuard getMinTime
    rw [h2]
    rfl
  · unfold evaluatorAt
    rw [h1]
    rfl

/-- **C73**: values and derivatives of a Euclidean spline from Python are those of the spline, for every derivative and time; outside the
valid range they raise an exception. -/
theorem C73_euclidean_eval [AddCommGroup P] [Module K P] (order : ℕ) (ho : 1 ≤ order) (s : MSpline K P)
    (h : RegularReach (euclidean K P) order s) (he : s.state = .evaluable) (t : K) (der : ℤ) (fresh : ℕ → ℕ → K) :
    s.pyEvalD t der fresh = s.euclideanEvalD none t der ∧ s.pyEvalJacobianD t der fresh = s.euclideanEvalJacobian none t der := by
  have hm : ∀ (maxDer : Option ℕ), maxDer = none ∨ maxDer = some der.toNat →
      maxDer.any (fun m => decide ((m : ℤ) < der)) = false := by
    rintro _ (rfl | rfl)
    · rfl
    · exact decide_eq_false (by omega)
  obtain ⟨hw, rfl⟩ := h.mwf ho
  constructor
  · refine pyAsk_eq hw he false t der fresh _ _ (fun hc => ?_) fun e g B hev R => ?_
    · unfold euclideanEvalD
      rw [hc]
      rfl
    · have := euclideanEvalDB_refines R der
      rw [hm _ (pyTemplate_max false der)] at this
      unfold euclideanEvalD
      rw [hev]
      exact this
  · refine pyAsk_eq hw he false t der fresh _ _ (fun hc => ?_) fun e g B hev R => ?_
    · unfold euclideanEvalJacobian
      rw [hc]
      rfl
    · have := euclideanEvalJacobianB_refines R der
      rw [hm _ (pyTemplate_max false der)] at this
      unfold euclideanEvalJacobian
      rw [hev]
      exact this

/-! ### Relevant knots -/

/-- **C73**: the last relevant knot is the one at which the segment of the time starts, the first relevant knot lies `order - 1` knots
before it; outside the valid range both raise an exception. -/
theorem C73_relevant_knots (M : Mfd K P V) (order : ℕ) (ho : 1 ≤ order) (s : MSpline K P) (h : RegularReach M order s)
    (he : s.state = .evaluable) (t : K) :
    (∀ a b, s.getMinTime = .ok a → s.getMaxTime = .ok b → a ≤ t → t ≤ b → ∃ i, s.keys[i]? = some (s.kn i) ∧ order ≤ i + 1 ∧
      s.kn i ≤ t ∧ (t < s.kn (i + 1) ∨ (t = b ∧ s.kn (i + 1) = b)) ∧
      s.pyLastRelevantKnot t = .ok (s.kn i) ∧ s.pyFirstRelevantKnot t = .ok (s.kn (i + 1 - order))) ∧
    (∀ a b, s.getMinTime = .ok a → s.getMaxTime = .ok b → t < a ∨ b < t →
      s.pyLastRelevantKnot t = .throws ∧ s.pyFirstRelevantKnot t = .throws) := by
  obtain ⟨hw, rfl⟩ := h.mwf ho
  constructor
  · intro a b ha hb h1 h2
    rw [getMinTime_eq hw he] at ha
    rw [getMaxTime_eq hw he] at hb
    cases ha
    cases hb
    obtain ⟨i, hi, hit⟩ := getSegmentIterator_ok hw he t h1 h2
    have hu := hi.upper
    have hl := hi.lower
    refine ⟨i, kn_getElem s (by omega), hi.lower, hi.left, ?_, ?_, ?_⟩
    · rcases hi.right with h | ⟨h, h'⟩
      · exact Or.inl h
      · right
        have : i + 1 = s.keys.length - s.order := by omega
        rw [← this]
        exact ⟨h, rfl⟩
    · unfold pyLastRelevantKnot
      rw [hit, Outcome.bind_ok, kn_getElem s (by omega)]
      rfl
    · unfold pyFirstRelevantKnot
      rw [hit, Outcome.bind_ok]
      unfold firstRelevantByLast absBegin
      rw [show -((s.order : ℤ) - 1) = -((s.order - 1 : ℕ) : ℤ) by omega, moveIter_bwd hw.nodup (Nat.zero_le _) (by omega), Outcome.bind_ok,
        show max (i - (s.order - 1)) 0 = i + 1 - s.order by omega, kn_getElem s (by omega)]
      rfl
  · intro a b ha hb h1
    rw [getMinTime_eq hw he] at ha
    rw [getMaxTime_eq hw he] at hb
    cases ha
    cases hb
    unfold pyLastRelevantKnot pyFirstRelevantKnot
    rw [getSegmentIterator_throws hw he t h1]
    exact ⟨rfl, rfl⟩

/-! ### Reading and restoring -/

theorem pyKnotsLoop_eq (size : ℕ) : ∀ (l : List K) (c : ℕ), c + l.length ≤ size → pyKnotsLoop size l c = .ok l
  | [], _, _ => rfl
  | x :: l, c, h => by
    rw [List.length_cons] at h
    unfold pyKnotsLoop
    rw [if_pos (by omega), pyKnotsLoop_eq size l (c + 1) (by omega)]
    rfl

/-- Two splines with the same knots and control vertices have the same curve. -/
theorem same_curve {s s' : MSpline K P} (h : s.MWF) (h' : s'.MWF) (he : s.state = .evaluable) (he' : s'.state = .evaluable)
    (ho : s'.order = s.order) (hk : s'.keys = s.keys)
    (hv : s'.verts.take (s.keys.length - s.order) = s.verts.take (s.keys.length - s.order)) (M : Mfd K P V) (t : K) :
    s'.evalGeneric M t = s.evalGeneric M t := by
  have hkn : s'.kn = s.kn := by
    funext i
    unfold kn
    rw [hk]
  by_cases ht : s.kn (s.order - 1) ≤ t ∧ t ≤ s.kn (s.keys.length - s.order)
  · obtain ⟨i, hi, -⟩ := getSegmentIterator_ok h he t ht.1 ht.2
    have hi' : s'.InSeg t i := by
      refine ⟨?_, ?_, ?_, ?_⟩
      · rw [ho]; exact hi.lower
      · rw [ho, hk]; exact hi.upper
      · rw [hkn]; exact hi.left
      · rw [hkn, hk, ho]; exact hi.right
    obtain ⟨p, h1, h2⟩ := evalGeneric_segCurve h he M hi
    obtain ⟨p', h1', h2'⟩ := evalGeneric_segCurve h' he' M hi'
    have hu := hi.upper
    have hl := hi.lower
    have : segCurve M s'.order s'.kn s'.verts i t = segCurve M s.order s.kn s.verts i t := by
      unfold segCurve
      have : (s'.verts.drop (i + 1 - s.order)).take s.order = (s.verts.drop (i + 1 - s.order)).take s.order := by
        have key : ∀ l : List P, (l.drop (i + 1 - s.order)).take s.order
            = ((l.take (s.keys.length - s.order)).drop (i + 1 - s.order)).take s.order := by
          intro l
          rw [List.drop_take, List.take_take]
          congr 1
          omega
        rw [key s'.verts, key s.verts, hv]
      rw [ho, hkn, this]
    rw [h2, h2'] at this
    cases this
    rw [h1, h1']
  · have hc : t < s.kn (s.order - 1) ∨ s.kn (s.keys.length - s.order) < t := by
      rcases not_and_or.1 ht with h | h
      · exact Or.inl (not_le.1 h)
      · exact Or.inr (not_le.1 h)
    unfold evalGeneric
    rw [evaluatorAt_throws h t (Or.inr hc), evaluatorAt_throws h' t (Or.inr (by rw [hkn, ho, hk]; exact hc))]
    rfl

theorem same_derivatives [AddCommGroup P] [Module K P] {s s' : MSpline K P} (h : s.MWF) (h' : s'.MWF) (he : s.state = .evaluable)
    (he' : s'.state = .evaluable) (ho : s'.order = s.order) (hk : s'.keys = s.keys)
    (hv : s'.verts.take (s.keys.length - s.order) = s.verts.take (s.keys.length - s.order)) (t : K) (der : ℕ) :
    s'.euclideanEvalD none t der = s.euclideanEvalD none t der := by
  have hkn : s'.kn = s.kn := by
    funext i
    unfold kn
    rw [hk]
  by_cases ht : s.kn (s.order - 1) ≤ t ∧ t ≤ s.kn (s.keys.length - s.order)
  · obtain ⟨i, hi, -⟩ := getSegmentIterator_ok h he t ht.1 ht.2
    have hi' : s'.InSeg t i := by
      refine ⟨?_, ?_, ?_, ?_⟩
      · rw [ho]; exact hi.lower
      · rw [ho, hk]; exact hi.upper
      · rw [hkn]; exact hi.left
      · rw [hkn, hk, ho]; exact hi.right
    rw [euclideanEvalD_eq h he hi none der (by simp), euclideanEvalD_eq h' he' hi' none der (by simp)]
    unfold segSum
    rw [hkn, ho, hk]
    refine congrArg Outcome.ok (sum_congr rfl fun j hj => ?_)
    congr 1
    have hj' := mem_range.1 hj
    have := congrArg (fun l => l[j]?) hv
    simp only [List.getElem?_take, hj', if_true] at this
    unfold vert
    rw [List.getD_eq_getElem?_getD, List.getD_eq_getElem?_getD, this]
  · have hc : t < s.kn (s.order - 1) ∨ s.kn (s.keys.length - s.order) < t := by
      rcases not_and_or.1 ht with h | h
      · exact Or.inl (not_le.1 h)
      · exact Or.inr (not_le.1 h)
    unfold euclideanEvalD
    rw [evaluatorAt_throws h t (Or.inr hc), evaluatorAt_throws h' t (Or.inr (by rw [hkn, ho, hk]; exact hc))]
    rfl

variable {D : ℕ}

/-- What `coefficients()` returns if the points have as many components as the matrix has columns. -/
theorem pyCoefficients_eq {s : MSpline K (Fin D → K)} (h : s.MWF) (he : s.state = .evaluable) :
    s.pyCoefficients D = .ok (s.verts.take (s.keys.length - s.order)) := by
  unfold pyCoefficients
  rw [numControlVertices_eq h he, Outcome.bind_ok, if_neg fun hc => hc.2 rfl]
  have := readVertices_eq h (s.keys.length - s.order) 0 (by rw [keys_length]; omega)
  rw [List.drop_zero] at this
  exact this

/-- **C73**: the knots and control vertices read from an initialised spline rebuild the same spline: a new spline of the same order that
is initialised with them has the same knots, the same control vertices and the same curve. -/
theorem C73_restore (M : Mfd K (Fin D → K) V) (order : ℕ) (ho : 1 ≤ order) (s : MSpline K (Fin D → K)) (h : RegularReach M order s)
    (he : s.state = .evaluable) (hin : ∀ c ∈ s.verts, M.isIn c = true) :
    ∃ ks cs s', s.pyKnots = .ok ks ∧ ks.Pairwise (· < ·) ∧ s.pyCoefficients D = .ok cs ∧
      (create order).initWithKnotsAndControlVertices M ks cs = (.ok (), s') ∧
      s'.pyKnots = .ok ks ∧ s'.pyCoefficients D = .ok cs ∧ (∀ t, s'.evalGeneric M t = s.evalGeneric M t) ∧
      ∀ (t : K) (der : ℕ), s'.euclideanEvalD none t der = s.euclideanEvalD none t der := by
  obtain ⟨hw, rfl⟩ := h.mwf ho
  have hlen := hw.enough he
  have hl : (s.verts.take (s.keys.length - s.order)).length = s.keys.length - s.order := by
    rw [List.length_take]
    unfold verts
    rw [List.length_map, keys_length]
    omega
  obtain ⟨s', g1, g2, g3, g4, g5, g6, -⟩ := C55_init_with_vertices M s.order ho s.keys (s.verts.take (s.keys.length - s.order))
    hw.sorted (by rw [hl]; omega) (by rw [hl]; omega) fun c hc => hin c (List.mem_of_mem_take hc)
  obtain ⟨hw', ho'⟩ := g2.mwf ho
  rw [hl] at g6
  refine ⟨s.keys, _, s', ?_, hw.sorted, pyCoefficients_eq hw he, g1, ?_, ?_, fun t => same_curve hw hw' he g3 ho' g4 g6 M t,
    fun t der => same_derivatives hw hw' he g3 ho' g4 g6 t der⟩
  · unfold pyKnots
    exact pyKnotsLoop_eq _ _ _ (by rw [keys_length]; omega)
  · unfold pyKnots
    rw [← g4]
    exact pyKnotsLoop_eq _ _ _ (by rw [keys_length]; omega)
  · rw [pyCoefficients_eq hw' g3, g4, ho', g6]

/-- **C73** (partial: the matrix must not be square, see `C73_set_violated`): control vertices that are set as the rows of a matrix, as
`coefficients()` returns them, are read back unchanged (after projection into the manifold), and the knots stay. -/
theorem C73_set_partial (M : Mfd K (Fin D → K) V) (order : ℕ) (ho : 1 ≤ order) (s : MSpline K (Fin D → K)) (h : RegularReach M order s)
    (he : s.state = .evaluable) (hD : 1 ≤ D) (cs : List (Fin D → K)) (hn : s.numControlVertices = .ok cs.length)
    (hsq : cs.length ≠ D ∨ D = 1) (project : (Fin D → K) → Fin D → K) (A : ℕ → ℕ → K)
    (hA : ∀ i (hi : i < cs.length) (r : Fin D), A i r = cs[i] r) :
    ∃ s', s.pySetControlVertices project cs.length D A = (.ok (), s') ∧ RegularReach M order s' ∧ s'.pyKnots = s.pyKnots ∧
      s'.pyCoefficients D = .ok (cs.map project) := by
  obtain ⟨hw, rfl⟩ := h.mwf ho
  have hlen := hw.enough he
  have hn' := hn
  rw [numControlVertices_eq hw he, Outcome.ok.injEq] at hn'
  have hpos : 1 ≤ cs.length := by omega
  -- the matrix is read by rows
  have hset : ∃ f : ℕ → (Fin D → K) → Fin D → K, (∀ i (hi : i < cs.length) x, f i x = project cs[i]) ∧
      s.setControlVertices D project cs.length D A (s.kn (s.order - 1)) 0
        = s.manipulateControlVertices f cs.length (s.kn (s.order - 1)) 0 := by
    rcases Nat.lt_or_ge 1 D with h2 | h2
    · obtain ⟨f, hf, e⟩ := C31_layouts D cs.length h2 hpos (fun i => cs.getD i 0) project (s.kn (s.order - 1)) 0 s A cs.length D
        (Or.inr (Or.inl ⟨rfl, rfl, by omega, fun i hi r => by rw [hA i hi r, List.getD_eq_getElem?_getD, List.getElem?_eq_getElem hi, Option.getD_some]⟩))
      refine ⟨f, fun i hi x => ?_, e⟩
      rw [hf i hi x, List.getD_eq_getElem?_getD, List.getElem?_eq_getElem hi, Option.getD_some]
    · obtain rfl : D = 1 := by omega
      obtain ⟨m, hm, hentry, hinside⟩ : ∃ m, decodeShape 1 cs.length 1 = .ok (cs.length, m) ∧
          (∀ i (hi : i < cs.length) (r : Fin 1), decodeEntry 1 A m i r = cs[i] r) ∧
          ∀ i < cs.length, decodeInside 1 cs.length 1 m i = true := by
        by_cases h1 : cs.length = 1
        · refine ⟨.columns, by unfold decodeShape; rw [if_pos rfl, if_pos h1, mul_one], fun i hi r => ?_, fun i hi => ?_⟩
          · have := hA i hi r
            unfold decodeEntry
            obtain rfl : i = 0 := by omega
            obtain rfl : r = 0 := Subsingleton.elim _ _
            exact this
          · simp only [decodeInside, decide_eq_true_eq]
            omega
        · refine ⟨.rows, by unfold decodeShape; rw [if_pos rfl, if_neg h1, mul_one], fun i hi r => hA i hi r, fun i hi => ?_⟩
          simp [decodeInside, hi]
      refine ⟨fun i _ => project fun r => decodeEntry 1 A m i r, fun i hi _ => congrArg project (funext fun r => hentry i hi r), ?_⟩
      unfold setControlVertices
      rw [hm]
      simp only []
      split
      · rename_i s' heq
        rw [if_pos (by rw [List.all_eq_true]; intro i hi; exact hinside i (List.mem_range.1 hi)), heq]
      · rfl
  obtain ⟨f, hf, e⟩ := hset
  obtain ⟨i, hi, -⟩ := getSegmentIterator_ok hw he (s.kn (s.order - 1)) le_rfl (hw.mono _ _ (by omega) (by omega))
  have hi0 : i = s.order - 1 := by
    refine hi.unique hw ⟨by omega, by omega, le_rfl, Or.inl (hw.strict (by omega) (by omega))⟩
  obtain ⟨s', g1, g2, g3, g4, g5, g6, g7⟩ := C31_exact_partial M s.order ho s h he cs.length hn f cs.length (s.kn (s.order - 1)) 0
    (s.evaluatorOf (s.kn (s.order - 1)) i) (evaluatorAt_eq hw he hi) 0 (by omega) (by
      have : (s.evaluatorOf (s.kn (s.order - 1)) i).firstIt = s.keys[i + 1 - s.order]? := rfl
      rw [this, hi0, show s.order - 1 + 1 - s.order = 0 by omega]) 0 (by simp) (by omega) (by simp)
  have hsegs : s'.segs.length = s.segs.length := by
    rw [← keys_length, ← keys_length, g3]
  have hreach : RegularReach M s.order s' := by
    have := RegularReach.call (M := M) (.manipulate f cs.length (s.kn (s.order - 1)) 0) h (by simp [Call.Regular])
    have e : (Call.manipulate f cs.length (s.kn (s.order - 1)) 0).run M s = (.ok (), s') := g1
    rw [e] at this
    exact this
  refine ⟨s', ?_, hreach, ?_, ?_⟩
  · unfold pySetControlVertices
    rw [getMinTime_eq hw he]
    simp only []
    rw [e, g1]
  · unfold pyKnots
    rw [hsegs, g3]
  · unfold pyCoefficients
    have : s'.numControlVertices = .ok cs.length := by
      unfold numControlVertices numValidTimeSegments at hn ⊢
      rw [g4, hsegs, g2]
      exact hn
    rw [this, Outcome.bind_ok, if_neg fun hc => hc.2 rfl]
    have hw' : s'.MWF := (RegularReach.mwf ho hreach).1
    have := readVertices_eq hw' cs.length 0 (by rw [hsegs, ← keys_length]; omega)
    rw [List.drop_zero] at this
    refine Eq.trans this (congrArg Outcome.ok (List.ext_getElem? fun j => ?_))
    rw [List.getElem?_take, List.getElem?_map, g7 j]
    split_ifs with hj hc
    · have hj' : j < s.verts.length := by
        unfold verts
        rw [List.length_map, ← keys_length]
        omega
      rw [List.getElem?_eq_getElem hj', List.getElem?_eq_getElem hj, Option.map_some, Option.map_some, Nat.sub_zero, hf j hj]
    · exact absurd ⟨Nat.zero_le _, by omega⟩ hc
    · rw [List.getElem?_eq_none (not_lt.1 hj)]
      rfl

/-! ### Fitting -/

theorem fitSpline_unequal (dense : Bool) (solve : Solver K) (project : (Fin D → K) → Fin D → K) (times : List K)
    (points : List (Fin D → K)) (lambda : K) (fix : ℕ) (weights : Option (ℕ → K)) (offsets : Bool) (s : MSpline K (Fin D → K))
    (h : times.length ≠ points.length) : s.fitSpline dense solve project times points lambda fix weights offsets = (.throws, s) := by
  have : s.fitGuard times points.length = .throws := by
    unfold fitGuard
    rcases s.state with _ | _
    · rfl
    · simp only []
      split_ifs
      · rfl
      · rfl
  unfold fitSpline
  rw [this]
  rfl

/-- **C73**: fitting from Python is the fitting of the spline to the columns of the matrix.  It takes place exactly if the points have
the dimension of the spline, there are as many times as points, and there are no weights or at least as many as times; otherwise an
exception is raised and nothing changes. -/
theorem C73_fit (dense : Bool) (solve : Solver K) (project : (Fin D → K) → Fin D → K) (times : List K) (rows cols : ℕ)
    (A : ℕ → ℕ → K) (lambda : K) (fix : ℕ) (weights : List K) (s : MSpline K (Fin D → K)) :
    s.pyFit D dense solve project times rows cols A lambda fix weights =
      if rows = D ∧ times.length = cols ∧ (weights = [] ∨ times.length ≤ weights.length) then
        s.fitSpline dense solve project times ((List.range cols).map fun i (r : Fin D) => A r i) lambda fix
          (if weights = [] then none else some fun i => weights.getD i 0) false
      else (.throws, s) := by
  unfold pyFit pyColumns
  by_cases h1 : rows = D
  · by_cases h2 : times.length < cols
    · rw [if_neg (by simpa using h1), if_pos h2, if_neg (by omega)]
    · rw [if_neg (by simpa using h1), if_neg h2]
      by_cases h3 : weights.length ≠ 0 ∧ weights.length < times.length
      · rw [if_pos h3, if_neg]
        rintro ⟨-, -, hc | hc⟩
        · exact h3.1 (by rw [hc]; rfl)
        · omega
      · have h5 : weights = [] ∨ times.length ≤ weights.length := by
          rw [← List.length_eq_zero_iff]
          omega
        rw [if_neg h3, if_neg (by omega)]
        simp only [List.length_eq_zero_iff]
        by_cases h4 : times.length = cols
        · exact (if_pos ⟨h1, h4, h5⟩).symm
        · refine (fitSpline_unequal dense solve project times _ lambda fix _ false s ?_).trans (if_neg fun hc => h4 hc.2.1).symm
          rw [List.length_map, List.length_range]
          exact h4
  · rw [if_pos h1, if_neg fun hc => h1 hc.1]

/-- **C73**: extending and fitting from Python takes place exactly if the points have the dimension of the spline and there are as many
times as points. -/
theorem C73_extend (dense : Bool) (solve : Solver K) (project : (Fin D → K) → Fin D → K) (M : Mfd K (Fin D → K) (Fin D → K))
    (ts times : List K) (rows cols : ℕ) (A : ℕ → ℕ → K) (lambda : K) (percent : ℕ) (s : MSpline K (Fin D → K)) :
    s.pyExtendAndFit D dense solve project M ts times rows cols A lambda percent =
      if rows = D ∧ times.length = cols then
        s.extendAndFit dense solve project M ts times ((List.range cols).map fun i (r : Fin D) => A r i) lambda percent false
      else (.throws, s) := by
  unfold pyExtendAndFit pyColumns
  by_cases h1 : rows = D
  · by_cases h2 : times.length < cols
    · rw [if_neg (by simpa using h1), if_pos h2, if_neg (by omega)]
    · rw [if_neg (by simpa using h1), if_neg h2, if_neg (by omega)]
      by_cases h4 : times.length = cols
      · rw [if_pos ⟨h1, h4⟩]
      · rw [if_neg fun hc => h4 hc.2]
        unfold extendAndFit
        by_cases h5 : ((List.range cols).map fun i (r : Fin D) => A r i).length < 1
        · rw [if_pos h5]
        · rw [if_neg h5, if_pos]
          rw [List.length_map, List.length_range]
          exact h4
  · rw [if_pos h1, if_neg fun hc => h1 hc.1]

theorem fitRows_weights (resolver : Resolver K) (tmax : K) (off : ℤ) (w w' : ℕ → K) (s : MSpline K (Fin D → K)) :
    ∀ (data : List (K × (Fin D → K))) (i : ℕ), (∀ j, j < i + data.length → w j = w' j) →
    s.fitRows resolver tmax off (some w) data i = s.fitRows resolver tmax off (some w') data i
  | [], _, _ => rfl
  | (t, p) :: rest, i, h => by
    rw [List.length_cons] at h
    unfold fitRows
    rw [fitRows_weights resolver tmax off w w' s rest (i + 1) fun j hj => h j (by omega)]
    have : w i = w' i := h i (by omega)
    simp only [this]

/-- **C73**: only as many weights are read as there are times, so that no weight outside the array is read. -/
theorem C73_weights (dense : Bool) (solve : Solver K) (project : (Fin D → K) → Fin D → K) (times : List K) (points : List (Fin D → K))
    (lambda : K) (fix : ℕ) (w w' : ℕ → K) (s : MSpline K (Fin D → K)) (h : ∀ i, i < times.length → w i = w' i) :
    s.fitSpline dense solve project times points lambda fix (some w) false
      = s.fitSpline dense solve project times points lambda fix (some w') false := by
  unfold fitSpline
  split
  · unfold calcFitted
    have : ∀ resolver tmax off, s.fitRows resolver tmax off (some w) (times.zip points) 0
        = s.fitRows resolver tmax off (some w') (times.zip points) 0 := fun resolver tmax off =>
      fitRows_weights resolver tmax off w w' s _ 0 fun j hj => h j (by
        rw [List.length_zip] at hj
        omega)
    simp only [this]
  · rfl
  · rfl

/-- **C73**, violated for quaternion splines: `coefficients()` never returns the control vertices. -/
theorem C73_quaternion_coefficients_violated (M : Mfd K (Fin 4 → K) V) (order : ℕ) (ho : 1 ≤ order) (s : MSpline K (Fin 4 → K))
    (h : RegularReach M order s) (he : s.state = .evaluable) : s.pyCoefficients 3 = .ub := by
  obtain ⟨hw, rfl⟩ := h.mwf ho
  have := hw.enough he
  unfold pyCoefficients
  rw [numControlVertices_eq hw he, Outcome.bind_ok, if_pos ⟨by omega, by decide⟩]

/-- **C73**, violated for quaternion splines: points given as quaternions are always rejected, and points of three components are
written into quaternions; in no case does the fitting succeed. -/
theorem C73_quaternion_fit_violated (dense : Bool) (solve : Solver K) (project : (Fin 4 → K) → Fin 4 → K)
    (M : Mfd K (Fin 4 → K) (Fin 4 → K)) (ts times : List K) (rows cols : ℕ) (A : ℕ → ℕ → K) (lambda : K) (fix percent : ℕ)
    (weights : List K) (s : MSpline K (Fin 4 → K)) :
    (rows = 4 → s.pyFit 3 dense solve project times rows cols A lambda fix weights = (.throws, s)) ∧
    (s.pyFit 3 dense solve project times rows cols A lambda fix weights).1 ≠ .ok () ∧
    (s.pyExtendAndFit 3 dense solve project M ts times rows cols A lambda percent).1 ≠ .ok () := by
  refine ⟨fun h => ?_, ?_, ?_⟩
  · unfold pyFit
    rw [if_pos (by omega)]
  · unfold pyFit
    split_ifs with h1 h2 h3 h4
    · simp
    · simp
    · simp
    · simp
    all_goals
      obtain rfl : cols = 0 := by omega
      have e : pyColumns 4 0 A = [] := rfl
      have : s.fitGuard times ([] : List (Fin 4 → K)).length = .throws := by
        unfold fitGuard
        rcases s.state with _ | _
        · rfl
        · simp
      unfold fitSpline
      rw [e, this]
      simp [Outcome.bind]
  · unfold pyExtendAndFit
    split_ifs with h1 h2 h4
    · simp
    · simp
    · simp
    · obtain rfl : cols = 0 := by omega
      have e : pyColumns 4 0 A = [] := rfl
      unfold extendAndFit
      rw [e, if_pos (by simp)]
      simp

/-- A spline of order one with two control vertices of dimension two. -/
def pyDemo : MSpline ℚ (Fin 2 → ℚ) :=
  ((create 1).initWithKnotsAndControlVertices (euclidean ℚ (Fin 2 → ℚ)) [0, 1, 2] [![1, 2], ![3, 4]]).2

/-- The entries of its coefficients. -/
def pyDemoMatrix : ℕ → ℕ → ℚ := fun i r => 2 * i + r + 1

/-- **C73**, violated: a spline with as many control vertices as dimensions does not survive setting back its own coefficients: the
square matrix is read by columns. -/
theorem C73_set_violated : RegularReach (euclidean ℚ (Fin 2 → ℚ)) 1 pyDemo ∧ pyDemo.state = .evaluable ∧
    pyDemo.pyCoefficients 2 = .ok [![pyDemoMatrix 0 0, pyDemoMatrix 0 1], ![pyDemoMatrix 1 0, pyDemoMatrix 1 1]] ∧
    (pyDemo.pySetControlVertices id 2 2 pyDemoMatrix).1 = .ok () ∧
    (pyDemo.pySetControlVertices id 2 2 pyDemoMatrix).2.pyCoefficients 2
      = .ok [![pyDemoMatrix 0 0, pyDemoMatrix 1 0], ![pyDemoMatrix 0 1, pyDemoMatrix 1 1]] ∧
    pyDemoMatrix 0 1 ≠ pyDemoMatrix 1 0 := by
  obtain ⟨s, g0, g1, g2, -⟩ := C55_init_with_vertices (euclidean ℚ (Fin 2 → ℚ)) 1 le_rfl [0, 1, 2]
    [![1, 2], ![3, 4]] (by simp [List.pairwise_cons]) rfl (by decide) (fun _ _ => rfl)
  have e : pyDemo = s := by unfold pyDemo; rw [g0]
  refine ⟨e ▸ g1, e ▸ g2, ?_, ?_, ?_, ?_⟩ <;> decide +kernel

/-- Not vacuous: with three control vertices of dimension two, the rows are set. -/
example : (((create 1).initWithKnotsAndControlVertices (euclidean ℚ (Fin 2 → ℚ)) [0, 1, 2, 3] [![1, 2], ![3, 4], ![5, 6]]).2.pySetControlVertices
      id 3 2 fun i r => (10 * i + r : ℚ)).2.pyCoefficients 2 = .ok [![0, 1], ![10, 11], ![20, 21]] := by
  decide +kernel

/-- Not vacuous: fitting a constant spline of order one to three points from Python (with a dummy for the solver), and with too
few rows, times, points and weights. -/
example : (pyDemo.pyFit 2 true (fun _ _ b => b) id [0, 1 / 2, 3 / 2] 2 3 pyDemoMatrix 0 0 []).1 = .ok () ∧
    (pyDemo.pyFit 2 true (fun _ _ b => b) id [0, 1 / 2, 3 / 2] 1 3 pyDemoMatrix 0 0 []).1 = .throws ∧
    (pyDemo.pyFit 2 true (fun _ _ b => b) id [0, 1 / 2] 2 3 pyDemoMatrix 0 0 []).1 = .throws ∧
    (pyDemo.pyFit 2 true (fun _ _ b => b) id [0, 1 / 2, 3 / 2, 2] 2 3 pyDemoMatrix 0 0 []).1 = .throws ∧
    (pyDemo.pyFit 2 true (fun _ _ b => b) id [0, 1 / 2, 3 / 2] 2 3 pyDemoMatrix 0 0 [1, 1]).1 = .throws ∧
    (pyDemo.pyFit 2 true (fun _ _ b => b) id [0, 1 / 2, 3 / 2] 2 3 pyDemoMatrix 0 0 [1, 1, 1, 1]).1 = .ok () := by
  decide +kernel

end General

section Quaternions

/-- **C73**: values, derivatives and Jacobians of a quaternion spline from Python are those of the spline; outside the valid range they
raise an exception. -/
theorem C73_quaternion_eval (lg : ℍ[ℝ] → V3) (S L : V3 → M33) (order : ℕ) (ho : 1 ≤ order) (s : MSpline ℝ ℍ[ℝ])
    (h : RegularReach (quatGroup lg).toMfd order s) (he : s.state = .evaluable) (t : ℝ) (der : ℤ) (fresh : ℕ → ℕ → ℝ) :
    s.pyQuatEvalD lg t der fresh = s.quatEvalD lg t der ∧
      s.pyQuatEvalJacobianD lg S L t der fresh = s.quatEvalJacobian lg S L t der := by
  obtain ⟨hw, rfl⟩ := h.mwf ho
  constructor
  · refine pyAsk_eq hw he true t der fresh _ _ (fun hc => ?_) fun e g B hev R => quatEvalDB_refines R lg hev der
    unfold quatEvalD evalGeneric
    rw [hc]
    split_ifs <;> rfl
  · refine pyAsk_eq hw he true t der fresh _ _ (fun hc => ?_) fun e g B hev R => quatEvalJacobianB_refines R lg S L hev der
    unfold quatEvalJacobian evalJacobianValue evalJacobianDRecursive
    rw [hc]
    split_ifs <;> rfl

end Quaternions

/-! ### Examples -/

/-- A cubic-order spline of two dimensions: what Python sees of it, and that it can be rebuilt. -/
example : ∃ (s : MSpline ℚ (Fin 2 → ℚ)) (cs : List (Fin 2 → ℚ)) (s' : MSpline ℚ (Fin 2 → ℚ)),
    s.pyKnots = .ok [0, 1, 2, 3, 4, 6, 7] ∧ s.pyCoefficients 2 = .ok cs ∧ cs = [![1, 2], ![3, 4], ![5, -1], ![0, 2]] ∧
    (create 3).initWithKnotsAndControlVertices (euclidean ℚ (Fin 2 → ℚ)) [0, 1, 2, 3, 4, 6, 7] cs = (.ok (), s') ∧
    s'.euclideanEvalD none (5 / 2) 1 = s.euclideanEvalD none (5 / 2) 1 ∧
    s.pyEvalD (5 / 2) 1 (fun _ _ => 77) = s.euclideanEvalD none (5 / 2) 1 := by
  obtain ⟨s, g0, g1, g2, g3, g4, g5, g6, g7⟩ := C55_init_with_vertices (euclidean ℚ (Fin 2 → ℚ)) 3 (by norm_num) [0, 1, 2, 3, 4, 6, 7]
    [![1, 2], ![3, 4], ![5, -1], ![0, 2]] (by simp [List.pairwise_cons]; norm_num) rfl (by decide) (fun _ _ => rfl)
  obtain ⟨ks, cs, s', h1, -, h3, h4, -, -, -, h8⟩ := C73_restore (euclidean ℚ (Fin 2 → ℚ)) 3 (by norm_num) s g1 g2 fun _ _ => rfl
  obtain ⟨hw, ho⟩ := g1.mwf (by norm_num)
  have e1 : s.pyKnots = .ok [0, 1, 2, 3, 4, 6, 7] := by
    rw [← g3]
    unfold pyKnots
    exact pyKnotsLoop_eq _ _ _ (by rw [keys_length]; omega)
  have e2 : cs = [![1, 2], ![3, 4], ![5, -1], ![0, 2]] := by
    rw [pyCoefficients_eq hw g2, g3, ho] at h3
    exact (Outcome.ok.inj h3).symm.trans g5
  rw [e1] at h1
  cases h1
  exact ⟨s, cs, s', e1, h3, e2, h4, h8 _ 1, (C73_euclidean_eval 3 (by norm_num) s g1 g2 (5 / 2) 1 _).1⟩

end Verif.MSpline
