import Verif.Model.Exceptions
import Verif.Lemmas.Append
import Verif.Props.LeastSquares
import Verif.Props.State
import Verif.Props.ManifoldLife

/-!
# C87: a call on a `BSpline` that throws changes nothing
-/

set_option linter.unusedSectionVars false

namespace Verif

theorem Outcome.bind_ne_throws {α β : Type _} {o : Outcome α} {f : α → Outcome β} (h : o ≠ .throws)
    (hf : ∀ a, o = .ok a → f a ≠ .throws) : o.bind f ≠ .throws := by
  cases o with
  | ok a => exact hf a rfl
  | throws => exact absurd rfl h
  | ub => simp

namespace BSpline

variable {K : Type*} [Field K] [LinearOrder K] [IsStrictOrderedRing K] {D : ℕ}

/-! ### Two steps -/

theorem assign_result (s : BSpline K D) (o : Outcome (BSpline K D)) : (assign s o).1.map (fun _ => (assign s o).2) = o := by
  cases o <;> rfl

theorem assign_throws {s : BSpline K D} {o : Outcome (BSpline K D)} (h : (assign s o).1 = .throws) : (assign s o).2 = s := by
  cases o <;> first | rfl | simp [assign] at h

theorem twoSteps_result (a b : BSpline K D → Outcome (BSpline K D)) (s : BSpline K D) :
    (MSpline.andThen (fun s => assign s (a s)) (fun s => assign s (b s)) s).1.map
      (fun _ => (MSpline.andThen (fun s => assign s (a s)) (fun s => assign s (b s)) s).2) = (a s).bind b := by
  rcases h : a s with s1 | _ | _
  · simp only [MSpline.andThen, assign, h, Outcome.bind_ok]
    cases b s1 <;> rfl
  · simp only [MSpline.andThen, assign, h]
    rfl
  · simp only [MSpline.andThen, assign, h]
    rfl

theorem twoSteps_throws {a b : BSpline K D → Outcome (BSpline K D)} {s : BSpline K D}
    (h : (MSpline.andThen (fun s => assign s (a s)) (fun s => assign s (b s)) s).1 = .throws) :
    (MSpline.andThen (fun s => assign s (a s)) (fun s => assign s (b s)) s).2 = s ∨
      ∃ s1, a s = .ok s1 ∧ b s1 = .throws ∧ (MSpline.andThen (fun s => assign s (a s)) (fun s => assign s (b s)) s).2 = s1 := by
  rcases ha : a s with s1 | _ | _
  · simp only [MSpline.andThen, assign, ha] at h ⊢
    rcases hb : b s1 with s2 | _ | _
    · rw [hb] at h; simp at h
    · exact Or.inr ⟨s1, rfl, hb, rfl⟩
    · rw [hb] at h; simp at h
  · left
    simp only [MSpline.andThen, assign, ha]
  · left
    simp only [MSpline.andThen, assign, ha]

/-! ### What cannot throw -/

theorem lookup_cases {s : BSpline K D} (h : s.WF) (t : K) :
    (s.computeTIndex t = .throws ∧ (t < s.kn (s.order - 1) ∨ s.kn (s.knots.length - s.order) + snapTol ≤ t)) ∨
    ∃ x i, s.computeTIndex t = .ok (x, i) ∧ s.order - 1 ≤ i ∧ i + 1 ≤ s.knots.length - s.order ∧ s.kn (s.order - 1) ≤ t ∧
      t < s.kn (s.knots.length - s.order) + snapTol := by
  have hk := h.order_pos
  have hn := h.enough
  have htol : (0 : K) < snapTol := by unfold snapTol; positivity
  rcases lt_or_ge t (s.kn (s.order - 1)) with h1 | h1
  · left
    refine ⟨?_, Or.inl h1⟩
    unfold computeTIndex
    rw [tMin_eq h, tMax_eq h]
    simp only [Outcome.bind_ok]
    rw [if_pos h1]
  · rcases lt_or_ge |s.kn (s.knots.length - s.order) - t| snapTol with h2 | h2
    · exact Or.inr ⟨_, _, lookup_end h t h1 h2, by omega, by omega, h1, by linarith [(abs_lt.1 h2).1]⟩
    · rcases le_or_gt t (s.kn (s.knots.length - s.order)) with h3 | h3
      · rw [abs_of_nonneg (by linarith)] at h2
        obtain ⟨i, hT, a1, a2, -, -⟩ := lookup_interior h t h1 (by linarith)
        exact Or.inr ⟨_, i, hT, a1, a2, h1, by linarith⟩
      · left
        have h4 := h2
        rw [abs_of_neg (by linarith)] at h4
        refine ⟨?_, Or.inr (by linarith)⟩
        unfold computeTIndex
        rw [tMin_eq h, tMax_eq h]
        simp only [Outcome.bind_ok]
        rw [if_neg (not_lt.2 h1), if_neg (not_lt.2 h2), if_pos h3]

theorem computeTIndex_ne_throws {s : BSpline K D} (h : s.WF) {t : K} (h1 : s.kn (s.order - 1) ≤ t)
    (h2 : t < s.kn (s.knots.length - s.order) + snapTol) : s.computeTIndex t ≠ .throws := by
  rcases lookup_cases h t with ⟨-, h3 | h3⟩ | ⟨x, i, h3, -⟩
  · exact absurd h3 (not_lt.2 h1)
  · exact absurd h3 (not_le.2 h2)
  · rw [h3]; simp

theorem computeTIndex_inside {s : BSpline K D} (h : s.WF) {t : K} (h1 : s.kn (s.order - 1) ≤ t)
    (h2 : t ≤ s.kn (s.knots.length - s.order)) : s.computeTIndex t ≠ .throws :=
  computeTIndex_ne_throws h h1 (lt_of_le_of_lt h2 (by have : (0 : K) < snapTol := by unfold snapTol; positivity
                                                      linarith))

theorem bidxOf_ne_throws (s : BSpline K D) (idx : ℕ) : s.bidxOf idx ≠ .throws := by
  unfold bidxOf
  split_ifs <;> simp

theorem phi_ne_throws {s : BSpline K D} {t : K} (h : s.computeTIndex t ≠ .throws) {der : ℤ} (hd : 0 ≤ der) : s.phi t der ≠ .throws := by
  unfold phi
  rw [if_neg (not_lt.2 hd)]
  unfold computeUAndTIndex
  refine Outcome.bind_ne_throws (Outcome.bind_ne_throws h ?_) ?_
  · rintro ⟨x, i⟩ -
    dsimp only
    split_ifs <;> simp
  · rintro ⟨u, i⟩ -
    refine Outcome.bind_ne_throws ?_ ?_
    · unfold blockAt
      split_ifs
      · simp
      · dsimp only
        rcases s.basis[i + 1 - s.order]? with _ | B
        · simp
        · dsimp only
          split_ifs <;> simp
    · rintro ⟨b, B⟩ -
      simp

theorem localCoefficientVector_ne_throws {s : BSpline K D} {t : K} (h : s.computeTIndex t ≠ .throws) :
    s.localCoefficientVector t ≠ .throws := by
  unfold localCoefficientVector
  refine Outcome.bind_ne_throws h ?_
  rintro ⟨x, i⟩ -
  refine Outcome.bind_ne_throws (bidxOf_ne_throws s i) fun b _ => ?_
  split_ifs <;> simp

theorem firstIndex_ne_throws {s : BSpline K D} {t : K} (h : s.computeTIndex t ≠ .throws) : s.firstIndex t ≠ .throws := by
  unfold firstIndex localCoefficientVectorIndices
  refine Outcome.bind_ne_throws (Outcome.bind_ne_throws h ?_) ?_
  · rintro ⟨x, i⟩ -
    exact Outcome.bind_ne_throws (bidxOf_ne_throws s i) fun b _ => by simp
  · intro l _
    cases l <;> simp

theorem blockRows_ne_throws (s : BSpline K D) (offset : K → Outcome ℕ) : ∀ cs : List (Constraint K D),
    (∀ c ∈ cs, offset c.time ≠ .throws ∧ s.phi c.time c.der ≠ .throws) → s.blockRows offset cs ≠ .throws
  | [], _ => by simp [blockRows]
  | c :: cs, h => by
    unfold blockRows
    refine Outcome.bind_ne_throws (h c (by simp)).1 fun o _ => Outcome.bind_ne_throws (h c (by simp)).2 fun P _ =>
      Outcome.bind_ne_throws (blockRows_ne_throws s offset cs fun c hc => h c (by simp [hc])) fun r _ => by simp

theorem segmentForm_ne_throws {s : BSpline K D} (h : s.WF) (w : ℕ → K) (seg : ℕ) (hseg : seg < s.numValidTimeSegments) (der : ℕ) :
    s.segmentQuadraticIntegralDiag w seg der ≠ .throws := by
  have hb := h.basis_len
  have hn := h.enough
  have hv : s.numValidTimeSegments = s.knots.length + 1 - 2 * s.order := rfl
  have hB : ¬ ((seg : ℤ) < 0 ∨ (s.basis.length : ℤ) ≤ seg) := by push Not; constructor <;> omega
  have hI : ∃ x, s.timeIntervalOf seg = .ok x := by
    unfold timeIntervalOf minimumKnotsRequired numKnotsRequired numCoefficientsRequired
    rw [if_neg (by omega), if_neg (by push Not; constructor <;> omega)]
    exact ⟨_, rfl⟩
  obtain ⟨⟨x, y⟩, hI⟩ := hI
  unfold segmentQuadraticIntegralDiag
  rw [if_neg hB]
  refine Outcome.bind_ne_throws ?_ fun Dm _ => Outcome.bind_ne_throws ?_ fun V _ => Outcome.bind_ne_throws ?_ fun M _ => by simp
  · unfold Dii
    rw [if_neg hB, hI]
    simp
  · unfold Vi
    rw [if_neg (by push Not; constructor <;> omega), hI]
    simp
  · unfold Mi
    rw [if_neg hB, Int.toNat_natCast, List.getElem?_eq_getElem (show seg < s.basis.length by omega)]
    simp

theorem sumBlocks_ne_throws (s : BSpline K D) (segQ : ℕ → Outcome (Mat K)) : ∀ n, (∀ i < n, segQ i ≠ .throws) →
    s.sumBlocks segQ n ≠ .throws ∧ s.sumSparse segQ n ≠ .throws
  | 0, _ => by simp [sumBlocks, sumSparse]
  | n + 1, h => by
    obtain ⟨h1, h2⟩ := sumBlocks_ne_throws s segQ n fun i hi => h i (by omega)
    constructor
    · unfold sumBlocks
      refine Outcome.bind_ne_throws h1 fun Q _ => Outcome.bind_ne_throws (h n (by omega)) fun Qi _ => ?_
      split_ifs <;> simp
    · unfold sumSparse
      refine Outcome.bind_ne_throws h2 fun Q _ => Outcome.bind_ne_throws (h n (by omega)) fun Qi _ => ?_
      split_ifs <;> simp

theorem setSolved_ne_throws (s : BSpline K D) (solve : Solver K) {n : ℕ} (hn : n = s.coeffs.length * D) (A : Mat K) (b : ℕ → K) :
    s.setSolved solve n A b ≠ .throws := by
  subst hn
  rw [setSolved_eq]
  simp

/-- Is every time of the data valid for the spline (a time less than `1e-10` after the end is)? -/
def Covers (s : BSpline K D) (data : List (K × (Fin D → K))) : Prop :=
  ∀ o ∈ data, s.kn (s.order - 1) ≤ o.1 ∧ o.1 < s.kn (s.knots.length - s.order) + snapTol

theorem dataRows_ne_throws {s : BSpline K D} (h : s.WF) {data : List (K × (Fin D → K))} (hc : s.Covers data) (c : Constraint K D)
    (hm : c ∈ dataConstraints data) : s.computeTIndex c.time ≠ .throws ∧ s.phi c.time c.der ≠ .throws := by
  unfold dataConstraints at hm
  obtain ⟨o, ho, rfl⟩ := List.mem_map.1 hm
  have := computeTIndex_ne_throws h (hc o ho).1 (hc o ho).2
  exact ⟨this, phi_ne_throws this le_rfl⟩

theorem fitRegularised_ne_throws {s : BSpline K D} (h : s.WF) (solve : Solver K) {data : List (K × (Fin D → K))} (hc : s.Covers data)
    (lambda : K) : s.fitRegularised solve data lambda ≠ .throws ∧ s.fitRegularisedSparse solve data lambda ≠ .throws := by
  obtain ⟨q1, q2⟩ := sumBlocks_ne_throws s
    (fun seg => s.segmentQuadraticIntegralDiag (fun _ => lambda) seg (if s.order = 2 then 1 else 2)) s.numValidTimeSegments
    fun i hi => segmentForm_ne_throws h _ i hi _
  constructor
  · unfold fitRegularised
    refine Outcome.bind_ne_throws (blockRows_ne_throws s _ _ fun c hm => ?_) fun rows _ => Outcome.bind_ne_throws q1 fun Q _ =>
      setSolved_ne_throws s solve rfl _ _
    obtain ⟨h1, h2⟩ := dataRows_ne_throws h hc c hm
    exact ⟨firstIndex_ne_throws h1, h2⟩
  · unfold fitRegularisedSparse
    refine Outcome.bind_ne_throws (blockRows_ne_throws s _ _ fun c hm => ?_) fun rows _ => Outcome.bind_ne_throws q2 fun Q _ =>
      setSolved_ne_throws s solve rfl _ _
    obtain ⟨h1, h2⟩ := dataRows_ne_throws h hc c hm
    refine ⟨?_, h2⟩
    have := firstIndex_ne_throws h1
    cases hf : s.firstIndex c.time with
    | ok o => simp
    | throws => exact absurd hf this
    | ub => simp

theorem finishInit2_ne_throws {s : BSpline K D} (h : s.WF) (solve : Solver K) {data : List (K × (Fin D → K))} (hc : s.Covers data)
    (lambda : K) : s.finishInit2 solve data lambda ≠ .throws := by
  have hn := h.enough
  have hk := h.order_pos
  unfold finishInit2
  refine Outcome.bind_ne_throws (blockRows_ne_throws s _ _ fun c hm => ?_) fun rows _ => setSolved_ne_throws s solve rfl _ _
  rcases List.mem_append.1 hm with hm | hm
  · obtain ⟨t, ht, rfl⟩ := List.mem_map.1 hm
    obtain ⟨i, hi, rfl⟩ := List.mem_map.1 ht
    rw [List.mem_range] at hi
    have := computeTIndex_inside h (t := s.kn (s.order - 1 + i)) (h.mono _ _ (by omega) (by omega))
      (h.mono _ _ (by omega) (by omega))
    exact ⟨firstIndex_ne_throws this, phi_ne_throws this (by dsimp only; decide)⟩
  · obtain ⟨h1, h2⟩ := dataRows_ne_throws h hc c hm
    exact ⟨firstIndex_ne_throws h1, h2⟩

theorem finishInit_ne_throws {s : BSpline K D} (h : s.WF) (hc : s.coeffs.length = numCoefficientsRequired s.order 1) (solve : Solver K)
    (t0 t1 : K) (p0 p1 : Fin D → K) : s.finishInit solve t0 t1 p0 p1 ≠ .throws := by
  have hn := h.enough
  have hk := h.order_pos
  unfold finishInit
  rw [tMin_eq h, tMax_eq h]
  simp only [Outcome.bind_ok]
  have hle : s.kn (s.order - 1) ≤ s.kn (s.knots.length - s.order) := h.mono _ _ (by omega) (by omega)
  have ha := computeTIndex_inside h le_rfl hle
  have hb := computeTIndex_inside h hle le_rfl
  refine Outcome.bind_ne_throws (blockRows_ne_throws s _ _ fun c hm => ⟨by simp, ?_⟩) fun rows _ => ?_
  · unfold initConstraints at hm
    simp only [List.mem_append, List.mem_cons, List.not_mem_nil, or_false] at hm
    rcases hm with ((rfl | rfl) | hm) | hm
    · exact phi_ne_throws ha le_rfl
    · exact phi_ne_throws hb le_rfl
    · split_ifs at hm
      · simp only [List.mem_cons, List.not_mem_nil, or_false] at hm
        rcases hm with rfl | rfl
        · exact phi_ne_throws ha (by dsimp only; decide)
        · exact phi_ne_throws hb (by dsimp only; decide)
      · simp at hm
    · split_ifs at hm
      · obtain ⟨j, -, hm⟩ := List.mem_flatMap.1 hm
        simp only [List.mem_cons, List.not_mem_nil, or_false] at hm
        rcases hm with rfl | rfl
        · exact phi_ne_throws ha (by dsimp only; omega)
        · exact phi_ne_throws hb (by dsimp only; omega)
      · simp at hm
  · split_ifs
    · exact setSolved_ne_throws s solve (by rw [hc]) _ _
    · exact setSolved_ne_throws s solve (by rw [hc]) _ _


/-! ### The spline after `setKnotsAndCoefficients` -/

theorem prepared {s s1 : BSpline K D} (ho : 2 ≤ s.order) {data : List (K × (Fin D → K))} {n : ℤ} (h : s.prepareUniform data n = .ok s1) :
    s1.WF ∧ s1.order = s.order ∧ s1.Covers data := by
  unfold prepareUniform at h
  split_ifs at h with h1 h2 h3
  rw [Bool.not_eq_false, timesSorted_iff] at h3
  have hb := times_between data h3
  have hle : firstTime data ≤ lastTime data := by
    have hm : data[0] ∈ data := List.getElem_mem _
    exact (hb _ hm).1.trans (hb _ hm).2
  have hn : (0 : K) < (n.toNat : K) := by exact_mod_cast (show 0 < n.toNat by omega)
  have hdt : 0 ≤ (lastTime data - firstTime data) / (n.toNat : K) := div_nonneg (by linarith) hn.le
  have hwf := set_wf ho (uniformKnots_sorted _ _ _ _ hdt) h
  obtain ⟨rfl, h4, -⟩ := set_inv (by omega) h
  refine ⟨hwf, rfl, fun o hm => ?_⟩
  have hlen : numKnotsRequired s.order n.toNat = n.toNat + 2 * s.order - 1 := by
    unfold numKnotsRequired numCoefficientsRequired; omega
  have e1 : (uniformKnots s.order (numKnotsRequired s.order n.toNat) (firstTime data) ((lastTime data - firstTime data) / (n.toNat : K))).getD
      (s.order - 1) 0 = firstTime data := by
    rw [uniformKnots_getD _ _ _ _ _ (by omega)]
    push_cast [Nat.cast_sub (show 1 ≤ s.order by omega)]
    ring
  have e2 : (uniformKnots s.order (numKnotsRequired s.order n.toNat) (firstTime data) ((lastTime data - firstTime data) / (n.toNat : K))).getD
      ((uniformKnots s.order (numKnotsRequired s.order n.toNat) (firstTime data)
        ((lastTime data - firstTime data) / (n.toNat : K))).length - s.order) 0 = lastTime data := by
    have hl : (uniformKnots s.order (numKnotsRequired s.order n.toNat) (firstTime data)
        ((lastTime data - firstTime data) / (n.toNat : K))).length = n.toNat + 2 * s.order - 1 := by
      simp [uniformKnots, hlen]
    rw [hl, uniformKnots_getD _ _ _ _ _ (by omega), show n.toNat + 2 * s.order - 1 - s.order = n.toNat + (s.order - 1) by omega]
    push_cast [Nat.cast_sub (show 1 ≤ s.order by omega)]
    field_simp
    ring
  have htol : (0 : K) < snapTol := by unfold snapTol; positivity
  exact ⟨e1.le.trans (hb o hm).1, lt_of_le_of_lt ((hb o hm).2.trans e2.ge) (lt_add_of_pos_right _ htol)⟩

theorem preparedInit {s s1 : BSpline K D} (ho : 2 ≤ s.order) {t0 t1 : K} (ht : t0 < t1)
    (h : s.setKnotsAndCoefficients (uniformKnots s.order (numKnotsRequired s.order 1) t0 (t1 - t0))
      (List.replicate (numCoefficientsRequired s.order 1) 0) = .ok s1) :
    s1.WF ∧ s1.order = s.order ∧ s1.coeffs.length = numCoefficientsRequired s1.order 1 := by
  have hwf := set_wf ho (uniformKnots_sorted _ _ _ _ (by linarith)) h
  obtain ⟨rfl, -, -⟩ := set_inv (by omega) h
  exact ⟨hwf, rfl, by simp [initializeBasisMatrices]⟩

/-- Looking up the start of the last segment. -/
theorem beforeExtend_inv {s : BSpline K D} (ho : 2 ≤ s.order) (hs : s.knots.Pairwise (· ≤ ·)) {t : K} {nt km1 : ℕ} {p0 : Fin D → K}
    (h : s.beforeExtend t = .ok (nt, p0, km1)) :
    2 * s.order ≤ s.knots.length ∧ nt = s.numValidTimeSegments ∧ km1 = s.knots.length - s.order - 1 ∧
      s.kn (s.knots.length - s.order) < t := by
  unfold beforeExtend at h
  obtain ⟨tmax, h1, h⟩ := Outcome.bind_eq_ok.1 h
  unfold tMax minimumKnotsRequired numKnotsRequired numCoefficientsRequired at h1
  split_ifs at h1 with hlen
  obtain rfl := Outcome.ok.inj h1
  split_ifs at h with ht
  have hn : 2 * s.order ≤ s.knots.length := by omega
  obtain ⟨⟨a, b⟩, hI, h⟩ := Outcome.bind_eq_ok.1 h
  have hnt : s.numValidTimeSegments = s.knots.length + 1 - 2 * s.order := rfl
  have hI' : s.timeIntervalOf ((s.numValidTimeSegments : ℤ) - 1) =
      .ok (s.kn (s.knots.length - s.order - 1), s.kn (s.knots.length - s.order)) := by
    unfold timeIntervalOf minimumKnotsRequired numKnotsRequired numCoefficientsRequired
    rw [if_neg (by omega), if_neg (by push Not; constructor <;> omega)]
    congr 3 <;> omega
  rw [hI'] at hI
  obtain ⟨rfl, rfl⟩ := Prod.mk.inj (Outcome.ok.inj hI)
  obtain ⟨p, -, h⟩ := Outcome.bind_eq_ok.1 h
  obtain ⟨⟨x, k⟩, hT, h⟩ := Outcome.bind_eq_ok.1 h
  have h := Outcome.ok.inj h
  simp only [Prod.mk.injEq] at h
  obtain ⟨rfl, rfl, rfl⟩ := h
  refine ⟨hn, rfl, ?_, not_le.1 ht⟩
  -- a consistent spline with the same knots has the same lookup
  set w : BSpline K D := initializeBasisMatrices ⟨s.order, s.knots, List.replicate (s.knots.length - s.order) 0, []⟩ with hw
  have hwf : w.WF := initializeBasisMatrices_wf _ ho hs hn (by simp only [List.length_replicate]; omega)
  have hT : w.computeTIndex (w.kn (w.knots.length - w.order - 1)) = .ok (x, k) := hT
  have hn' : 2 * w.order ≤ w.knots.length := hn
  have ho' : 2 ≤ w.order := ho
  change k = w.knots.length - w.order - 1
  set e := w.knots.length - w.order with he
  have h1 : w.kn (w.order - 1) ≤ w.kn (e - 1) := hwf.mono _ _ (by omega) (by omega)
  have h2 : w.kn (e - 1) ≤ w.kn e := hwf.mono _ _ (by omega) (by omega)
  by_cases hs : w.kn (e - 1) + snapTol ≤ w.kn e
  · obtain ⟨i, hT', a1, a2, a3, a4⟩ := lookup_interior hwf (w.kn (e - 1)) h1 hs
    rw [hT'] at hT
    obtain ⟨-, rfl⟩ := Prod.mk.inj (Outcome.ok.inj hT)
    by_contra hne
    have := hwf.mono (i + 1) (e - 1) (by omega) (by omega)
    linarith
  · have habs : |w.kn (w.knots.length - w.order) - w.kn (e - 1)| < snapTol := by
      rw [← he, abs_of_nonneg (by linarith)]; linarith [not_le.1 hs]
    rw [lookup_end hwf _ h1 habs] at hT
    exact (Prod.mk.inj (Outcome.ok.inj hT)).2.symm

theorem preparedAppend {s s1 : BSpline K D} (ho : 2 ≤ s.order) (hs : s.knots.Pairwise (· ≤ ·)) {t : K} {nt km1 : ℕ} {p0 junk : Fin D → K}
    (h : s.beforeExtend t = .ok (nt, p0, km1))
    (h1 : s.setKnotsAndCoefficients (s.extendedKnots km1 t) (s.coeffs ++ [junk]) = .ok s1) :
    s1.WF ∧ s1.order = s.order ∧ nt + 1 = s1.numValidTimeSegments := by
  obtain ⟨hn, rfl, rfl, ht⟩ := beforeExtend_inv ho hs h
  set e := s.knots.length - s.order with he
  have hmono : ∀ a b, a ≤ b → b < s.knots.length → s.kn a ≤ s.kn b := by
    intro a b hab hb
    rcases hab.eq_or_lt with rfl | hlt
    · exact le_rfl
    · rw [kn_eq s a (by omega), kn_eq s b hb]
      exact List.pairwise_iff_getElem.1 hs a b (by omega) hb hlt
  have hklen := extendedKnots_len s (e - 1) t
  have hold : ∀ i, i ≤ e → (s.extendedKnots (e - 1) t).getD i 0 = s.kn i := fun i hi =>
    extendedKnots_old s (e - 1) t i (by omega) (by omega)
  have hnew : ∀ i, e + 1 ≤ i → i < s.knots.length + 1 →
      (s.extendedKnots (e - 1) t).getD i 0 = t + ((i - (e + 1) : ℕ) : K) * (t - s.kn e) := by
    intro i h1 h2
    have := extendedKnots_new s (e - 1) t i h2 (by omega)
    rwa [show e - 1 + 2 = e + 1 by omega, show e - 1 + 1 = e by omega] at this
  have hsorted : (s.extendedKnots (e - 1) t).Pairwise (· ≤ ·) := by
    apply pairwise_of_adjacent
    intro j h1 h2
    rcases Nat.lt_or_ge e j with hj | hj
    · rw [hnew j hj (by omega)]
      rcases Nat.lt_or_ge e (j - 1) with hj' | hj'
      · rw [hnew (j - 1) hj' (by omega)]
        have : ((j - 1 - (e + 1) : ℕ) : K) ≤ ((j - (e + 1) : ℕ) : K) := by exact_mod_cast (by omega)
        have := mul_le_mul_of_nonneg_right this (show 0 ≤ t - s.kn e by linarith)
        linarith
      · have : j = e + 1 := by omega
        subst this
        rw [hold _ (by omega)]
        simp only [Nat.add_sub_cancel, Nat.sub_self, Nat.cast_zero, zero_mul, add_zero]
        exact ht.le
    · rw [hold j hj, hold (j - 1) (by omega)]
      exact hmono _ _ (by omega) (by omega)
  have hwf := set_wf ho hsorted h1
  obtain ⟨rfl, -, -⟩ := set_inv (by omega) h1
  refine ⟨hwf, rfl, ?_⟩
  change s.knots.length + 1 - 2 * s.order + 1 = (s.extendedKnots (e - 1) t).length + 1 - 2 * s.order
  omega

theorem lastInterval {s : BSpline K D} (h : s.WF) {nt : ℕ} (hnt : nt + 1 = s.numValidTimeSegments) :
    s.timeIntervalOf nt = .ok (s.kn (s.knots.length - s.order - 1), s.kn (s.knots.length - s.order)) ∧
    s.computeTIndex (s.kn (s.knots.length - s.order - 1)) ≠ .throws ∧ s.computeTIndex (s.kn (s.knots.length - s.order)) ≠ .throws := by
  have hn := h.enough
  have hk := h.order_pos
  have hv : s.numValidTimeSegments = s.knots.length + 1 - 2 * s.order := rfl
  refine ⟨?_, ?_, ?_⟩
  · unfold timeIntervalOf minimumKnotsRequired numKnotsRequired numCoefficientsRequired
    rw [if_neg (by omega), if_neg (by push Not; constructor <;> omega)]
    congr 3 <;> omega
  · exact computeTIndex_inside h (h.mono _ _ (by omega) (by omega)) (h.mono _ _ (by omega) (by omega))
  · exact computeTIndex_inside h (h.mono _ _ (by omega) (by omega)) le_rfl

theorem finishAppend_ne_throws {s : BSpline K D} (h : s.WF) {nt : ℕ} (hnt : nt + 1 = s.numValidTimeSegments) (solve : Solver K)
    (p0 p1 : Fin D → K) (lambda : K) : s.finishAppend solve nt p0 p1 ≠ .throws ∧ s.finishAppend2 solve nt p0 p1 lambda ≠ .throws := by
  obtain ⟨hI, h0, h1⟩ := lastInterval h hnt
  constructor
  · unfold finishAppend
    rw [hI]
    simp only [Outcome.bind_ok]
    exact Outcome.bind_ne_throws (localCoefficientVector_ne_throws h0) fun _ _ =>
      Outcome.bind_ne_throws (phi_ne_throws h0 le_rfl) fun _ _ => Outcome.bind_ne_throws (phi_ne_throws h1 le_rfl) fun _ _ => by simp
  · unfold finishAppend2
    rw [hI]
    simp only [Outcome.bind_ok]
    exact Outcome.bind_ne_throws (localCoefficientVector_ne_throws h0) fun _ _ =>
      Outcome.bind_ne_throws (phi_ne_throws h0 le_rfl) fun _ _ => Outcome.bind_ne_throws (phi_ne_throws h1 le_rfl) fun _ _ =>
      Outcome.bind_ne_throws (phi_ne_throws h0 (by decide)) fun _ _ => Outcome.bind_ne_throws (phi_ne_throws h1 (by decide)) fun _ _ => by
        simp

/-! ### The calls -/

/-- The spline a call returns according to the other models (which say nothing about the object if it does not return). -/
def Mutation.result (solve : Solver K) : Mutation K D → BSpline K D → Outcome (BSpline K D)
  | .setKnots knots coeffs, s => s.setKnotsAndCoefficients knots coeffs
  | .init t0 t1 p0 p1, s => s.initSpline solve t0 t1 p0 p1
  | .init2 data n lambda, s => s.initSpline2 solve data n lambda
  | .init3 data n lambda, s => s.initSpline3 solve data n lambda
  | .initSparse data n lambda, s => s.initSplineSparse solve data n lambda
  | .initSparseKnots data knots lambda, s => s.initSplineSparseKnots solve data knots lambda
  | .initConstant tmin tmax n c, s => s.initConstantSpline tmin tmax n c
  | .append t p junk, s => s.addCurveSegment solve t p junk
  | .append2 t p lambda junk, s => s.addCurveSegment2 solve t p lambda junk
  | .remove, s => .ok s.removeCurveSegment
  | .setVector c, s => s.setCoefficientVector c
  | .setMatrix cs, s => s.setCoefficientMatrix cs
  | .setLocal t c, s => s.setLocalCoefficientVector t c
  | .setVv i v, s => s.setVvCoefficientVector i v

theorem initSpline_eq (solve : Solver K) (s : BSpline K D) (t0 t1 : K) (p0 p1 : Fin D → K) :
    s.initSpline solve t0 t1 p0 p1 = if t1 ≤ t0 then .throws else
      (s.setKnotsAndCoefficients (uniformKnots s.order (numKnotsRequired s.order 1) t0 (t1 - t0))
        (List.replicate (numCoefficientsRequired s.order 1) 0)).bind fun s1 => s1.finishInit solve t0 t1 p0 p1 := by
  unfold initSpline
  split_ifs with h
  · rfl
  · dsimp only
    rcases hS : s.setKnotsAndCoefficients (uniformKnots s.order (numKnotsRequired s.order 1) t0 (t1 - t0))
      (List.replicate (numCoefficientsRequired s.order 1) 0) with s1 | _ | _
    · have : s1.order = s.order := by
        unfold setKnotsAndCoefficients at hS
        obtain ⟨_, -, hS⟩ := Outcome.bind_eq_ok.1 hS
        split_ifs at hS
        rw [← Outcome.ok.inj hS]
        rfl
      simp only [Outcome.bind_ok, finishInit, this]
    · rfl
    · rfl

theorem set_order {s s1 : BSpline K D} {kns : List K} {cs : List (Fin D → K)} (h : s.setKnotsAndCoefficients kns cs = .ok s1) :
    s1.order = s.order := by
  unfold setKnotsAndCoefficients at h
  obtain ⟨_, -, h⟩ := Outcome.bind_eq_ok.1 h
  split_ifs at h
  rw [← Outcome.ok.inj h]
  rfl

theorem extend_eq (s : BSpline K D) (t : K) (junk : Fin D → K) :
    s.extend t junk = (s.beforeExtend t).bind fun x =>
      (s.setKnotsAndCoefficients (s.extendedKnots x.2.2 t) (s.coeffs ++ [junk])).bind fun s1 =>
        (s1.timeIntervalOf x.1).bind fun i => .ok (s1, x.2.1, i.1, i.2) := by
  unfold extend beforeExtend
  rcases s.tMax with tmax | _ | _
  · simp only [Outcome.bind_ok]
    split_ifs
    · rfl
    · rcases s.timeIntervalOf ((s.numValidTimeSegments : ℤ) - 1) with ⟨a, b⟩ | _ | _
      · simp only [Outcome.bind_ok]
        rcases s.eval b with p | _ | _
        · simp only [Outcome.bind_ok]
          rcases s.computeTIndex a with ⟨x, k⟩ | _ | _ <;> rfl
        · rfl
        · rfl
      · rfl
      · rfl
  · rfl
  · rfl

theorem append_eq (solve : Solver K) (s : BSpline K D) (t : K) (p junk : Fin D → K) :
    s.addCurveSegment solve t p junk = (s.beforeExtend t).bind fun x =>
      (s.setKnotsAndCoefficients (s.extendedKnots x.2.2 t) (s.coeffs ++ [junk])).bind fun s1 => s1.finishAppend solve x.1 x.2.1 p := by
  unfold addCurveSegment
  rw [extend_eq]
  rcases s.beforeExtend t with ⟨nt, p0, k⟩ | _ | _
  · simp only [Outcome.bind_ok]
    rcases hS : s.setKnotsAndCoefficients (s.extendedKnots k t) (s.coeffs ++ [junk]) with s1 | _ | _
    · simp only [Outcome.bind_ok, finishAppend, set_order hS]
      rcases s1.timeIntervalOf nt with ⟨a, b⟩ | _ | _ <;> rfl
    · rfl
    · rfl
  · rfl
  · rfl

theorem append2_eq (solve : Solver K) (s : BSpline K D) (t : K) (p : Fin D → K) (lambda : K) (junk : Fin D → K) :
    s.addCurveSegment2 solve t p lambda junk = (s.beforeExtend t).bind fun x =>
      (s.setKnotsAndCoefficients (s.extendedKnots x.2.2 t) (s.coeffs ++ [junk])).bind fun s1 =>
        s1.finishAppend2 solve x.1 x.2.1 p lambda := by
  unfold addCurveSegment2
  rw [extend_eq]
  rcases s.beforeExtend t with ⟨nt, p0, k⟩ | _ | _
  · simp only [Outcome.bind_ok]
    rcases hS : s.setKnotsAndCoefficients (s.extendedKnots k t) (s.coeffs ++ [junk]) with s1 | _ | _
    · simp only [Outcome.bind_ok, finishAppend2, set_order hS]
      rcases s1.timeIntervalOf nt with ⟨a, b⟩ | _ | _ <;> rfl
    · rfl
    · rfl
  · rfl
  · rfl

/-- **C87**: the calls on objects end as in the other models and, if they return, leave the spline of the other models. -/
theorem C87_refines (solve : Solver K) (c : Mutation K D) (s : BSpline K D) :
    (c.run solve s).1.map (fun _ => (c.run solve s).2) = c.result solve s := by
  cases c with
  | setKnots => exact assign_result _ _
  | init t0 t1 p0 p1 =>
    simp only [Mutation.run, Mutation.result]
    rw [initSpline_eq]
    unfold initSplineObj
    split_ifs
    · rfl
    · exact twoSteps_result _ _ s
  | init2 => exact twoSteps_result _ _ s
  | init3 => exact twoSteps_result _ _ s
  | initSparse => exact twoSteps_result _ _ s
  | initSparseKnots data knots lambda =>
    simp only [Mutation.run, Mutation.result]
    unfold initSplineSparseKnotsObj initSplineSparseKnots
    split_ifs
    · rfl
    · rfl
    · rfl
    · exact twoSteps_result _ _ s
  | initConstant => exact assign_result _ _
  | append t p junk =>
    simp only [Mutation.run, Mutation.result]
    rw [append_eq]
    unfold addCurveSegmentObj
    rcases s.beforeExtend t with ⟨nt, p0, k⟩ | _ | _
    · exact twoSteps_result _ _ s
    · rfl
    · rfl
  | append2 t p lambda junk =>
    simp only [Mutation.run, Mutation.result]
    rw [append2_eq]
    unfold addCurveSegment2Obj
    rcases s.beforeExtend t with ⟨nt, p0, k⟩ | _ | _
    · exact twoSteps_result _ _ s
    · rfl
    · rfl
  | remove => rfl
  | setVector => exact assign_result _ _
  | setMatrix => exact assign_result _ _
  | setLocal => exact assign_result _ _
  | setVv => exact assign_result _ _

/-- What is asked of the arguments: knots given by the caller are nondecreasing, and the times of data fitted with given knots are valid
for them (a time less than `1e-10` after the end counts as the end). -/
def Mutation.Safe (order : ℕ) : Mutation K D → Prop
  | .setKnots knots _ => knots.Pairwise (· ≤ ·)
  | .initSparseKnots data knots _ => knots.Pairwise (· ≤ ·) ∧
      ∀ o ∈ data, knots.getD (order - 1) 0 ≤ o.1 ∧ o.1 < knots.getD (knots.length - order) 0 + snapTol
  | _ => True

/-- **C87**: if a call throws the spline has not changed.  Missing in this part: a fit with given knots (`initSplineSparseKnots`) and a time
outside of the knots, see `C87_given_knots` and `C87_violated`. -/
theorem C87_unchanged_partial (solve : Solver K) (c : Mutation K D) (s : BSpline K D) (ho : 2 ≤ s.order) (hs : s.knots.Pairwise (· ≤ ·))
    (hc : c.Safe s.order) (h : (c.run solve s).1 = .throws) : (c.run solve s).2 = s := by
  cases c with
  | setKnots => exact assign_throws h
  | init t0 t1 p0 p1 =>
    simp only [Mutation.run] at h ⊢
    unfold initSplineObj at h ⊢
    split_ifs at h ⊢ with ht
    · rfl
    · rcases twoSteps_throws h with h | ⟨s1, h1, h2, -⟩
      · exact h
      · obtain ⟨w, -, hl⟩ := preparedInit ho (not_le.1 ht) h1
        exact absurd h2 (finishInit_ne_throws w hl solve _ _ _ _)
  | init2 data n lambda =>
    rcases twoSteps_throws h with h | ⟨s1, h1, h2, -⟩
    · exact h
    · obtain ⟨w, -, hcov⟩ := prepared ho h1
      exact absurd h2 (finishInit2_ne_throws w solve hcov lambda)
  | init3 data n lambda =>
    rcases twoSteps_throws h with h | ⟨s1, h1, h2, -⟩
    · exact h
    · obtain ⟨w, -, hcov⟩ := prepared ho h1
      exact absurd h2 (fitRegularised_ne_throws w solve hcov lambda).1
  | initSparse data n lambda =>
    rcases twoSteps_throws h with h | ⟨s1, h1, h2, -⟩
    · exact h
    · obtain ⟨w, -, hcov⟩ := prepared ho h1
      exact absurd h2 (fitRegularised_ne_throws w solve hcov lambda).2
  | initSparseKnots data knots lambda =>
    simp only [Mutation.run] at h ⊢
    unfold initSplineSparseKnotsObj at h ⊢
    split_ifs at h ⊢
    · rfl
    · rfl
    · rcases twoSteps_throws h with h | ⟨s1, h1, h2, -⟩
      · exact h
      · have w := set_wf ho hc.1 h1
        obtain ⟨rfl, -, -⟩ := set_inv (by omega) h1
        exact absurd h2 (fitRegularised_ne_throws w solve hc.2 lambda).2
  | initConstant => exact assign_throws h
  | append t p junk =>
    simp only [Mutation.run] at h ⊢
    unfold addCurveSegmentObj at h ⊢
    rcases hb : s.beforeExtend t with ⟨nt, p0, k⟩ | _ | _
    · rw [hb] at h
      rcases twoSteps_throws h with h | ⟨s1, h1, h2, -⟩
      · exact h
      · obtain ⟨w, -, hnt⟩ := preparedAppend ho hs hb h1
        exact absurd h2 (finishAppend_ne_throws w hnt solve p0 p 0).1
    · rfl
    · rfl
  | append2 t p lambda junk =>
    simp only [Mutation.run] at h ⊢
    unfold addCurveSegment2Obj at h ⊢
    rcases hb : s.beforeExtend t with ⟨nt, p0, k⟩ | _ | _
    · rw [hb] at h
      rcases twoSteps_throws h with h | ⟨s1, h1, h2, -⟩
      · exact h
      · obtain ⟨w, -, hnt⟩ := preparedAppend ho hs hb h1
        exact absurd h2 (finishAppend_ne_throws w hnt solve p0 p lambda).2
    · rfl
    · rfl
  | remove => simp [Mutation.run] at h
  | setVector => exact assign_throws h
  | setMatrix => exact assign_throws h
  | setLocal => exact assign_throws h
  | setVv => exact assign_throws h

/-! ### Given knots -/

theorem outside_throws {s : BSpline K D} (h : s.WF) {t : K}
    (ht : t < s.kn (s.order - 1) ∨ s.kn (s.knots.length - s.order) + snapTol ≤ t) : s.computeTIndex t = .throws := by
  rcases lookup_cases h t with ⟨h1, -⟩ | ⟨x, i, -, -, -, h1, h2⟩
  · exact h1
  · rcases ht with ht | ht
    · exact absurd ht (not_lt.2 h1)
    · exact absurd ht (not_le.2 h2)

theorem dataRows_throw {s : BSpline K D} (h : s.WF) (hD : 1 ≤ D) : ∀ data : List (K × (Fin D → K)),
    (∃ o ∈ data, o.1 < s.kn (s.order - 1) ∨ s.kn (s.knots.length - s.order) + snapTol ≤ o.1) →
    s.blockRows (fun t => (s.firstIndex t).map (fun o => o / D * D)) (dataConstraints data) = .throws
  | [], h0 => by simp at h0
  | p :: data, h0 => by
    change s.blockRows _ (⟨p.1, 0, 1, p.2⟩ :: dataConstraints data) = .throws
    unfold blockRows
    dsimp only
    rcases lookup_cases h p.1 with ⟨h1, -⟩ | ⟨x, i, h1, h2, h3, h4, h5⟩
    · unfold firstIndex localCoefficientVectorIndices
      rw [h1]
      rfl
    · obtain ⟨P, hP, -⟩ := phi_row h p.1 x i h1 h2 h3 0
      rw [firstIndex_ok h hD p.1 x i h1 h2]
      simp only [Outcome.map_ok, Outcome.bind_ok]
      rw [show s.phi p.1 0 = .ok P from hP, Outcome.bind_ok, dataRows_throw h hD data ?_]
      · rfl
      · obtain ⟨o, ho, hout⟩ := h0
        rcases List.mem_cons.1 ho with rfl | ho
        · rcases hout with hout | hout
          · exact absurd hout (not_lt.2 h4)
          · exact absurd hout (not_le.2 h5)
        · exact ⟨o, ho, hout⟩

/-- The spline with the given knots and zero coefficients. -/
def zeroSpline (s : BSpline K D) (knots : List K) : BSpline K D :=
  initializeBasisMatrices (BSpline.mk (K := K) s.order knots (List.replicate (knots.length - s.order) 0) s.basis)

/-- **C87**: a fit with given knots and a time outside of them throws, but the spline is replaced by zero with the given knots. -/
theorem C87_given_knots (solve : Solver K) (s : BSpline K D) (ho : 2 ≤ s.order) (hD : 1 ≤ D) (data : List (K × (Fin D → K)))
    (hlen : 2 ≤ data.length) (hs : (data.map Prod.fst).Pairwise (· ≤ ·)) (knots : List K) (hks : knots.Pairwise (· ≤ ·))
    (hkl : 2 * s.order ≤ knots.length) (hold : s.knots.length ≤ knots.length) (lambda : K)
    (hout : ∃ o ∈ data, o.1 < knots.getD (s.order - 1) 0 ∨ knots.getD (knots.length - s.order) 0 + snapTol ≤ o.1) :
    (Mutation.initSparseKnots data knots lambda).run solve s = (.throws, s.zeroSpline knots) ∧
      ∀ t der v, (s.zeroSpline knots).evalD t der = .ok v → v = 0 := by
  have hset := set_ok ho (kns := knots) (cs := List.replicate (knots.length - s.order) (0 : Fin D → K)) hold hks hkl
    (by rw [List.length_replicate]; omega)
  have hwf := set_wf ho hks hset
  refine ⟨?_, ?_⟩
  · simp only [Mutation.run]
    unfold initSplineSparseKnotsObj
    rw [if_neg (by omega), if_neg (by rw [(timesSorted_iff _).2 hs]; simp), if_neg (by omega)]
    have hf : (s.zeroSpline knots).fitRegularisedSparse solve data lambda = .throws := by
      unfold fitRegularisedSparse
      rw [dataRows_throw (s := s.zeroSpline knots) hwf hD data hout]
      rfl
    have hset : s.setKnotsAndCoefficients knots (List.replicate (knots.length - s.order) 0) = .ok (s.zeroSpline knots) := hset
    simp only [MSpline.andThen, assign, hset, hf]
  · intro t der v h
    unfold evalD evalDNat at h
    split_ifs at h
    obtain ⟨⟨u, i⟩, -, h⟩ := Outcome.bind_eq_ok.1 h
    obtain ⟨⟨b, B⟩, -, h⟩ := Outcome.bind_eq_ok.1 h
    rw [← Outcome.ok.inj h]
    funext d
    unfold blockMul
    refine Finset.sum_eq_zero fun c _ => ?_
    have : (s.zeroSpline knots).col (b + c) = 0 := by
      unfold col
      rw [List.getD_eq_getElem?_getD]
      change ((List.replicate (knots.length - s.order) (0 : Fin D → K))[b + c]?).getD 0 = 0
      rw [List.getElem?_replicate]
      split_ifs <;> rfl
    rw [this]
    simp

/-! ### Sequences of calls -/

/-- A returning call keeps the order and the order of the knots. -/
theorem result_sorted (solve : Solver K) (c : Mutation K D) (s s' : BSpline K D) (ho : 2 ≤ s.order) (hs : s.knots.Pairwise (· ≤ ·))
    (hc : c.Safe s.order) (h : c.result solve s = .ok s') : s'.order = s.order ∧ s'.knots.Pairwise (· ≤ ·) := by
  have hvec : ∀ (a b : BSpline K D) (n : ℕ) (A : Mat K) (y : ℕ → K), a.setSolved solve n A y = .ok b → b.order = a.order ∧ b.knots = a.knots := by
    intro a b n A y h
    unfold setSolved setCoefficientVector at h
    split_ifs at h
    rw [← Outcome.ok.inj h]
    exact ⟨rfl, rfl⟩
  have hdone : ∀ a b : BSpline K D, a.WF → a.order = s.order → (b.order = a.order ∧ b.knots = a.knots) →
      b.order = s.order ∧ b.knots.Pairwise (· ≤ ·) := by
    rintro a b w h1 ⟨h2, h3⟩
    exact ⟨h2.trans h1, by rw [h3]; exact w.sorted⟩
  cases c with
  | setKnots knots coeffs =>
    exact ⟨set_order h, (set_wf ho hc h).sorted⟩
  | init t0 t1 p0 p1 =>
    simp only [Mutation.result] at h
    rw [initSpline_eq] at h
    split_ifs at h with ht
    obtain ⟨s1, h1, h⟩ := Outcome.bind_eq_ok.1 h
    obtain ⟨w, e, -⟩ := preparedInit ho (not_le.1 ht) h1
    refine hdone s1 s' w e ?_
    unfold finishInit at h
    obtain ⟨_, -, h⟩ := Outcome.bind_eq_ok.1 h
    obtain ⟨_, -, h⟩ := Outcome.bind_eq_ok.1 h
    obtain ⟨_, -, h⟩ := Outcome.bind_eq_ok.1 h
    dsimp only at h
    split_ifs at h
    · exact hvec _ _ _ _ _ h
    · exact hvec _ _ _ _ _ h
  | init2 data n lambda =>
    obtain ⟨s1, h1, h⟩ := Outcome.bind_eq_ok.1 h
    obtain ⟨w, e, -⟩ := prepared ho h1
    refine hdone s1 s' w e ?_
    obtain ⟨_, -, h⟩ := Outcome.bind_eq_ok.1 h
    exact hvec _ _ _ _ _ h
  | init3 data n lambda =>
    obtain ⟨s1, h1, h⟩ := Outcome.bind_eq_ok.1 h
    obtain ⟨w, e, -⟩ := prepared ho h1
    refine hdone s1 s' w e ?_
    obtain ⟨_, -, h⟩ := Outcome.bind_eq_ok.1 h
    obtain ⟨_, -, h⟩ := Outcome.bind_eq_ok.1 h
    exact hvec _ _ _ _ _ h
  | initSparse data n lambda =>
    obtain ⟨s1, h1, h⟩ := Outcome.bind_eq_ok.1 h
    obtain ⟨w, e, -⟩ := prepared ho h1
    refine hdone s1 s' w e ?_
    obtain ⟨_, -, h⟩ := Outcome.bind_eq_ok.1 h
    obtain ⟨_, -, h⟩ := Outcome.bind_eq_ok.1 h
    exact hvec _ _ _ _ _ h
  | initSparseKnots data knots lambda =>
    simp only [Mutation.result] at h
    unfold initSplineSparseKnots at h
    split_ifs at h
    obtain ⟨s1, h1, h⟩ := Outcome.bind_eq_ok.1 h
    refine hdone s1 s' (set_wf ho hc.1 h1) (set_order h1) ?_
    obtain ⟨_, -, h⟩ := Outcome.bind_eq_ok.1 h
    obtain ⟨_, -, h⟩ := Outcome.bind_eq_ok.1 h
    exact hvec _ _ _ _ _ h
  | initConstant tmin tmax n const =>
    simp only [Mutation.result] at h
    unfold initConstantSpline at h
    split_ifs at h with h1 h2 h3
    refine ⟨set_order h, (set_wf ho ?_ h).sorted⟩
    apply pairwise_of_adjacent
    intro j hj1 hj2
    have hj2 : j < numKnotsRequired s.order n.toNat := by simpa [linSpaced] using hj2
    have hn : 1 ≤ n.toNat := by omega
    rw [const_knots s.order n.toNat ho hn tmin tmax j hj2, const_knots s.order n.toNat ho hn tmin tmax (j - 1) (by omega)]
    have hn0 : (0 : K) < (n.toNat : K) := by exact_mod_cast hn
    have : 0 ≤ (tmax - tmin) / (n.toNat : K) := div_nonneg (by linarith [not_le.1 h1]) hn0.le
    have e : ((j - 1 : ℕ) : K) = (j : K) - 1 := by push_cast [Nat.cast_sub hj1]; ring
    rw [e]
    nlinarith
  | append t p junk =>
    simp only [Mutation.result] at h
    rw [append_eq] at h
    obtain ⟨⟨nt, p0, k⟩, hb, h⟩ := Outcome.bind_eq_ok.1 h
    obtain ⟨s1, h1, h⟩ := Outcome.bind_eq_ok.1 h
    obtain ⟨w, e, -⟩ := preparedAppend ho hs hb h1
    refine hdone s1 s' w e ?_
    obtain ⟨⟨_, _⟩, -, h⟩ := Outcome.bind_eq_ok.1 h
    obtain ⟨_, -, h⟩ := Outcome.bind_eq_ok.1 h
    obtain ⟨_, -, h⟩ := Outcome.bind_eq_ok.1 h
    obtain ⟨_, -, h⟩ := Outcome.bind_eq_ok.1 h
    rw [← Outcome.ok.inj h]
    exact ⟨rfl, rfl⟩
  | append2 t p lambda junk =>
    simp only [Mutation.result] at h
    rw [append2_eq] at h
    obtain ⟨⟨nt, p0, k⟩, hb, h⟩ := Outcome.bind_eq_ok.1 h
    obtain ⟨s1, h1, h⟩ := Outcome.bind_eq_ok.1 h
    obtain ⟨w, e, -⟩ := preparedAppend ho hs hb h1
    refine hdone s1 s' w e ?_
    obtain ⟨⟨_, _⟩, -, h⟩ := Outcome.bind_eq_ok.1 h
    obtain ⟨_, -, h⟩ := Outcome.bind_eq_ok.1 h
    obtain ⟨_, -, h⟩ := Outcome.bind_eq_ok.1 h
    obtain ⟨_, -, h⟩ := Outcome.bind_eq_ok.1 h
    obtain ⟨_, -, h⟩ := Outcome.bind_eq_ok.1 h
    obtain ⟨_, -, h⟩ := Outcome.bind_eq_ok.1 h
    rw [← Outcome.ok.inj h]
    exact ⟨rfl, rfl⟩
  | remove =>
    have h := Outcome.ok.inj h
    subst h
    unfold removeCurveSegment
    split_ifs
    · exact ⟨rfl, hs.tail⟩
    · exact ⟨rfl, hs⟩
  | setVector c =>
    simp only [Mutation.result] at h
    unfold setCoefficientVector at h
    split_ifs at h
    rw [← Outcome.ok.inj h]
    exact ⟨rfl, hs⟩
  | setMatrix cs =>
    simp only [Mutation.result] at h
    unfold setCoefficientMatrix at h
    split_ifs at h
    rw [← Outcome.ok.inj h]
    exact ⟨rfl, hs⟩
  | setLocal t c =>
    simp only [Mutation.result] at h
    unfold setLocalCoefficientVector at h
    split_ifs at h
    obtain ⟨⟨_, _⟩, -, h⟩ := Outcome.bind_eq_ok.1 h
    obtain ⟨_, -, h⟩ := Outcome.bind_eq_ok.1 h
    split_ifs at h
    rw [← Outcome.ok.inj h]
    exact ⟨rfl, hs⟩
  | setVv i v =>
    simp only [Mutation.result] at h
    unfold setVvCoefficientVector at h
    split_ifs at h
    rw [← Outcome.ok.inj h]
    exact ⟨rfl, hs⟩

/-- What one expects of a program that catches exceptions: of the calls `cs` made on `s` the calls `ds` return, the others throw and have no
effect; in the end the spline is `s'`. -/
inductive Caught (solve : Solver K) : BSpline K D → List (Mutation K D) → List (Mutation K D) → BSpline K D → Prop
  | nil (s : BSpline K D) : Caught solve s [] [] s
  | keep {s s1 s' : BSpline K D} {c : Mutation K D} {cs ds : List (Mutation K D)} :
      c.result solve s = .ok s1 → Caught solve s1 cs ds s' → Caught solve s (c :: cs) (c :: ds) s'
  | drop {s s' : BSpline K D} {c : Mutation K D} {cs ds : List (Mutation K D)} :
      c.result solve s = .throws → Caught solve s cs ds s' → Caught solve s (c :: cs) ds s'

/-- All calls return, one after the other. -/
def runAll (solve : Solver K) : List (Mutation K D) → BSpline K D → Outcome (BSpline K D)
  | [], s => .ok s
  | c :: cs, s => (c.result solve s).bind (runAll solve cs)

/-- **C87**: a program that makes calls on a spline and catches all exceptions ends with the spline made by those calls alone that returned.
(For calls with `Safe` arguments; see `C87_unchanged_partial`.) -/
theorem C87_history_partial (solve : Solver K) : ∀ (cs : List (Mutation K D)) (s s' : BSpline K D), 2 ≤ s.order →
    s.knots.Pairwise (· ≤ ·) → (∀ c ∈ cs, c.Safe s.order) → runCatching solve cs s = (.ok (), s') →
    ∃ ds, Caught solve s cs ds s' ∧ ds.Sublist cs ∧ runAll solve ds s = .ok s'
  | [], s, s', _, _, _, h => by
    obtain rfl := (Prod.mk.inj h).2
    exact ⟨[], .nil s, .slnil, rfl⟩
  | c :: cs, s, s', ho, hs, hsafe, h => by
    have href := C87_refines solve c s
    have hc := hsafe c (by simp)
    have hun := C87_unchanged_partial solve c s ho hs hc
    unfold runCatching at h
    rcases hr : c.run solve s with ⟨o, s1⟩
    rw [hr] at h href hun
    rcases o with u | _ | _
    · have href : c.result solve s = .ok s1 := href.symm
      obtain ⟨e, hs1⟩ := result_sorted solve c s s1 ho hs hc href
      obtain ⟨ds, h1, h2, h3⟩ := C87_history_partial solve cs s1 s' (by omega) hs1
        (fun c hc => by rw [e]; exact hsafe c (by simp [hc])) h
      refine ⟨c :: ds, .keep href h1, h2.cons_cons c, ?_⟩
      unfold runAll
      rw [href]
      exact h3
    · have href : c.result solve s = .throws := href.symm
      obtain rfl : s1 = s := hun rfl
      obtain ⟨ds, h1, h2, h3⟩ := C87_history_partial solve cs s1 s' ho hs (fun c hc => hsafe c (by simp [hc])) h
      exact ⟨ds, .drop href h1, h2.cons c, h3⟩
    · simp at h

/-! ### Witnesses -/

/-- A line from 1 at time 1 to 2 at time 2. -/
def exLine : BSpline ℚ 1 := initializeBasisMatrices ⟨2, [0, 1, 2, 3], [![1], ![2]], []⟩

/-- **C87** is violated: the fit with given knots throws because of a time outside of the knots, and the line has become zero. -/
theorem C87_violated (solve : Solver ℚ) :
    let c : Mutation ℚ 1 := .initSparseKnots [(1, ![5]), (3, ![6])] [0, 1, 2, 3] 1
    (c.run solve exLine).1 = .throws ∧ exLine.evalD (3 / 2) 0 = .ok ![3 / 2] ∧ (c.run solve exLine).2.evalD (3 / 2) 0 = .ok ![0] := by
  intro c
  have h := (C87_given_knots solve exLine (by decide) (by decide) [(1, ![5]), (3, ![6])] (by decide) (by decide) [0, 1, 2, 3]
    (by decide) (by decide) (by decide) 1 ⟨(3, ![6]), by simp, Or.inr (by decide +kernel)⟩).1
  have h : c.run solve exLine = (.throws, exLine.zeroSpline [0, 1, 2, 3]) := h
  rw [h]
  exact ⟨rfl, by decide +kernel, by decide +kernel⟩

/-- The hypotheses of `C87_unchanged_partial` hold for a call that throws: `addCurveSegment` with a time that is not after the end. -/
example (solve : Solver ℚ) : let c : Mutation ℚ 1 := .append (3 / 2) ![0] ![0]
    (c.run solve exLine).1 = .throws ∧ (c.run solve exLine).2 = exLine := by
  intro c
  have h : (c.run solve exLine).1 = .throws := by
    have := C87_refines solve c exLine
    have h2 : c.result solve exLine = .throws := by
      simp only [c, Mutation.result]
      rw [append_eq]
      have : exLine.beforeExtend (3 / 2) = .throws := by decide +kernel
      rw [this]
      rfl
    rw [h2] at this
    rcases h3 : (c.run solve exLine).1 with _ | _ | _
    · rw [h3] at this; exact absurd this (by simp)
    · rfl
    · rw [h3] at this; exact absurd this (by simp)
  exact ⟨h, C87_unchanged_partial solve c exLine (by decide) (by decide) trivial h⟩

/-- The hypotheses of `C87_history_partial` hold for a removal, a rejected vector and a vector. -/
example (solve : Solver ℚ) : runCatching solve [.setMatrix [![1]], .setMatrix [![3], ![4]], .setMatrix []] exLine =
    (.ok (), initializeBasisMatrices ⟨2, [0, 1, 2, 3], [![3], ![4]], []⟩) ∧
    Caught solve exLine [.setMatrix [![1]], .setMatrix [![3], ![4]], .setMatrix []] [.setMatrix [![3], ![4]]]
      (initializeBasisMatrices ⟨2, [0, 1, 2, 3], [![3], ![4]], []⟩) := by
  exact ⟨rfl, .drop rfl (.keep rfl (.drop rfl (.nil _)))⟩

end BSpline

/-! ### `DeltaFreeKnotGenerator::extendBeyondTime` -/

section generator

variable {T : Type*} [CommRing T] [LinearOrder T]

theorem popBefore_eq (time : T) : ∀ l : List T,
    popBefore time l = if ∃ k ∈ l, time ≤ k then .ok (l.dropWhile (fun k => decide (k < time))) else .ub
  | [] => by simp [popBefore]
  | p :: ps => by
    unfold popBefore
    rcases lt_or_ge p time with h | h
    · rw [if_pos h, popBefore_eq time ps]
      simp only [List.mem_cons, exists_eq_or_imp, not_le.2 h, false_or, List.dropWhile_cons, h, decide_true, if_true]
    · rw [if_neg (not_lt.2 h)]
      simp only [List.mem_cons, exists_eq_or_imp, h, true_or, if_true, List.dropWhile_cons, not_lt.2 h, decide_false]
      rfl

/-- **C87**: the generator together with the outcome is the generator of C09. -/
theorem C87_generator_refines (time : T) (g : FreeGen T) :
    (g.extendBeyondObj time).1.map (fun _ => (g.extendBeyondObj time).2) = g.extendBeyond time := by
  unfold FreeGen.extendBeyondObj FreeGen.extendBeyond FreeGen.extendedEnd
  split_ifs with h
  · rfl
  · rcases popBefore time g.predefined with q | _ | _
    · simp only [Outcome.bind_ok]
      rcases q[(g.splineOrder - 1).toNat]? with _ | k <;> rfl
    · rfl
    · rfl

/-- **C87**: `extendBeyondTime` throws exactly if some predefined knot is at or after the time but fewer than the order of them are; then the
generator has lost the predefined knots before the time, and nothing else is changed. -/
theorem C87_generator (time : T) (g : FreeGen T) :
    ((g.extendBeyondObj time).1 = .throws ↔ (∃ k ∈ g.predefined, time ≤ k) ∧
        (g.predefined.dropWhile (fun k => decide (k < time))).length ≤ (g.splineOrder - 1).toNat) ∧
      ((g.extendBeyondObj time).1 = .throws →
        (g.extendBeyondObj time).2 = { g with predefined := g.predefined.dropWhile (fun k => decide (k < time)) }) := by
  unfold FreeGen.extendBeyondObj
  by_cases h : g.predefined.length < 1
  · rw [if_pos h]
    have h0 : g.predefined = [] := List.length_eq_zero_iff.1 (by omega)
    refine ⟨⟨fun h => by simp at h, ?_⟩, fun h => by simp at h⟩
    rintro ⟨⟨k, hk, -⟩, -⟩
    rw [h0] at hk
    simp at hk
  · rw [if_neg h, popBefore_eq]
    by_cases hk : ∃ k ∈ g.predefined, time ≤ k
    · simp only [if_pos hk]
      rcases hq : (g.predefined.dropWhile fun k => decide (k < time))[(g.splineOrder - 1).toNat]? with _ | k
      · exact ⟨⟨fun _ => ⟨hk, List.getElem?_eq_none_iff.1 hq⟩, fun _ => rfl⟩, fun _ => rfl⟩
      · refine ⟨⟨fun h => by simp at h, fun h => ?_⟩, fun h => by simp at h⟩
        rw [List.getElem?_eq_none_iff.2 h.2] at hq
        exact absurd hq (by simp)
    · simp only [if_neg hk]
      exact ⟨⟨fun h => by simp at h, fun h => absurd h.1 hk⟩, fun h => by simp at h⟩

/-- **C87** is violated by the generator: after the exception its next knot is 3 instead of 1. -/
theorem C87_generator_violated : let g : FreeGen ℤ := ⟨2, 1, 0, 2, [1, 2, 3]⟩
    (g.extendBeyondObj 3).1 = .throws ∧ g.next.1 = 1 ∧ (g.extendBeyondObj 3).2.next.1 = 3 := by
  decide

end generator
end Verif
