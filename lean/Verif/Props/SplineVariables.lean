import Verif.Model.SplineVariables
import Verif.Props.Append
import Verif.Props.State
import Verif.Lemmas.Weights

/-!
# C42: the design variables of a spline mirror its coefficients
-/

set_option linter.unusedSectionVars false

namespace Verif

open Finset BSpline

namespace SplineVars

variable {K : Type*} [Field K] [LinearOrder K] [IsStrictOrderedRing K] {D : ℕ}

/-! ### The spline inside -/

/-- What every operation keeps about the spline.  The basis matrices need not belong to the knots: removing a segment leaves
them (C13). -/
structure Sized (s : BSpline K D) : Prop where
  order : 2 ≤ s.order
  sorted : s.knots.Pairwise (· ≤ ·)
  coeffs : s.coeffs.length = s.knots.length - s.order
  basis : s.knots.length + 1 - 2 * s.order ≤ s.basis.length

theorem sized_of_wf {s : BSpline K D} (h : s.WF) : Sized s :=
  ⟨h.order_pos, h.sorted, by have := h.coeffs_len; omega, h.basis_len⟩

/-- A freshly constructed spline has neither knots nor coefficients. -/
theorem sized_empty (order : ℕ) (h : 2 ≤ order) : Sized (BSpline.mk (K := K) (D := D) order [] [] []) :=
  ⟨h, List.Pairwise.nil, by simp, by simp; omega⟩

theorem Sized.wf {s : BSpline K D} (h : Sized s) (hn : 2 * s.order ≤ s.knots.length) : s.initializeBasisMatrices.WF :=
  initializeBasisMatrices_wf s h.order h.sorted hn (by have := h.coeffs; omega)

theorem Sized.remove {s : BSpline K D} (h : Sized s) : Sized s.removeCurveSegment := by
  unfold removeCurveSegment
  split_ifs with hc
  · refine ⟨h.order, h.sorted.sublist (List.tail_sublist _), ?_, ?_⟩
    · have := h.coeffs
      simp only [List.length_tail]
      omega
    · have := h.basis
      simp only [List.length_tail]
      omega
  · exact h

theorem extend_sized {s : BSpline K D} (h : Sized s) (hn : 2 * s.order ≤ s.knots.length) (t : K)
    (ht : s.kn (s.knots.length - s.order) < t) (junk : Fin D → K) :
    ∃ s1 p0, s.extend t junk = .ok (s1, p0, s.kn (s.knots.length - s.order), t) ∧
      Extended s.initializeBasisMatrices s1 t junk := by
  have hw := h.wf hn
  obtain ⟨s1, p0, hext, hp0, e⟩ := extend_ok hw t ht junk
  have hev : ∃ q, s.eval (s.kn (s.knots.length - s.order)) = .ok q := by
    have h0 : s.initializeBasisMatrices.evalDNat (s.kn (s.knots.length - s.order)) 0 = .ok p0 := hp0
    show ∃ q, s.evalDNat (s.kn (s.knots.length - s.order)) 0 = .ok q
    unfold evalDNat at h0 ⊢
    obtain ⟨⟨u, idx⟩, h1, h2⟩ := Outcome.bind_eq_ok.1 h0
    obtain ⟨⟨b, B⟩, h3, -⟩ := Outcome.bind_eq_ok.1 h2
    have h1' : s.computeUAndTIndex (s.kn (s.knots.length - s.order)) = .ok (u, idx) := h1
    rw [h1']
    simp only [Outcome.bind_ok]
    unfold blockAt at h3 ⊢
    have hord : s.initializeBasisMatrices.order = s.order := rfl
    have hco : s.initializeBasisMatrices.coeffs = s.coeffs := rfl
    rw [hord, hco] at h3
    split_ifs at h3 ⊢ with hi
    have hbl : s.initializeBasisMatrices.basis.length = s.knots.length + 1 - 2 * s.order := by
      simp [initializeBasisMatrices, numValidTimeSegments, numValidTimeSegmentsOf]
    dsimp only at h3 ⊢
    cases hB : s.initializeBasisMatrices.basis[idx + 1 - s.order]? with
    | none => rw [hB] at h3; simp at h3
    | some B0 =>
      rw [hB] at h3
      have hlt : idx + 1 - s.order < s.basis.length := by
        obtain ⟨hlt, -⟩ := List.getElem?_eq_some_iff.1 hB
        have := h.basis
        omega
      rw [List.getElem?_eq_getElem hlt]
      dsimp only at h3 ⊢
      split_ifs at h3 ⊢ with hb
      exact ⟨_, rfl⟩
  obtain ⟨q, hq⟩ := hev
  refine ⟨s1, q, ?_, e⟩
  unfold extend at hext ⊢
  obtain ⟨tm, g1, g2⟩ := Outcome.bind_eq_ok.1 hext
  have g1' : s.tMax = .ok tm := g1
  rw [g1']
  simp only [Outcome.bind_ok]
  split_ifs at g2 ⊢ with hle
  obtain ⟨⟨a, b⟩, g3, g4⟩ := Outcome.bind_eq_ok.1 g2
  have g3' : s.timeIntervalOf ((s.numValidTimeSegments : ℤ) - 1) = .ok (a, b) := g3
  have hb : b = s.kn (s.knots.length - s.order) := by
    unfold timeIntervalOf at g3'
    split_ifs at g3' with c1 c2
    have hb := congrArg Prod.snd (Outcome.ok.inj g3')
    dsimp only at hb
    rw [← hb]
    congr 1
    have := h.order
    unfold numValidTimeSegments numValidTimeSegmentsOf
    omega
  subst hb
  rw [g3']
  simp only [Outcome.bind_ok]
  rw [hq]
  simp only [Outcome.bind_ok]
  obtain ⟨p0', -, g6⟩ := Outcome.bind_eq_ok.1 g4
  obtain ⟨⟨x, km1⟩, g7, g8⟩ := Outcome.bind_eq_ok.1 g6
  have g7' : s.computeTIndex a = .ok (x, km1) := g7
  rw [g7']
  simp only [Outcome.bind_ok]
  obtain ⟨s2, g9, g10⟩ := Outcome.bind_eq_ok.1 g8
  have g9' : s.setKnotsAndCoefficients (s.extendedKnots km1 t) (s.coeffs ++ [junk]) = .ok s2 := g9
  rw [g9']
  simp only [Outcome.bind_ok]
  obtain ⟨⟨u0, u1⟩, g11, g12⟩ := Outcome.bind_eq_ok.1 g10
  have g11' : s2.timeIntervalOf (s.numValidTimeSegments : ℤ) = .ok (u0, u1) := g11
  rw [g11']
  have := Outcome.ok.inj g12
  simp only [Prod.mk.injEq] at this
  obtain ⟨rfl, -, r3, r4⟩ := this
  subst r4
  have r3' : u0 = s.kn (s.knots.length - s.order) := r3
  subst r3'
  rfl

/-- What appending does to the sizes and the old coefficients. -/
structure Appended (s s' : BSpline K D) : Prop where
  wf : s'.WF
  order : s'.order = s.order
  knots : s'.knots.length = s.knots.length + 1
  coeffs : s'.coeffs.length = s.coeffs.length + 1
  old : ∀ i, i + 1 < s.coeffs.length → s'.coeffs[i]? = s.coeffs[i]?
  old_kn : ∀ i, i ≤ s.knots.length - s.order → s'.kn i = s.kn i

theorem appended_store {s s1 : BSpline K D} {t : K} {junk : Fin D → K}
    (e : Extended s.initializeBasisMatrices s1 t junk) (x : ℕ → K) : Appended s (s1.storeLastTwo x) := by
  have hco : s1.coeffs = s.coeffs ++ [junk] := e.coeffs
  refine ⟨storeLastTwo_wf e.wf x, e.order, e.len, ?_, ?_, e.old⟩
  · simp [storeLastTwo, hco]
  · intro i hi
    simp only [storeLastTwo, hco, List.length_append, List.length_singleton]
    rw [List.getElem?_set_ne (by omega), List.getElem?_set_ne (by omega), List.getElem?_append_left (by omega)]

theorem add_sized (solve : Solver K) {s : BSpline K D} (h : Sized s) (hn : 2 * s.order ≤ s.knots.length) (t : K)
    (ht : s.kn (s.knots.length - s.order) < t) (p junk : Fin D → K) :
    ∃ s', s.addCurveSegment solve t p junk = .ok s' ∧ Appended s s' := by
  have hw := h.wf hn
  have ht' : s.initializeBasisMatrices.kn (s.initializeBasisMatrices.knots.length - s.initializeBasisMatrices.order) < t := ht
  obtain ⟨s1, p0, hext, e⟩ := extend_sized h hn t ht junk
  obtain ⟨loc, hloc, -⟩ := e.fixed_eq hw ht'
  obtain ⟨w0, hP0, -⟩ := e.phi_eq hw ht' _ le_rfl ht.le 0
  obtain ⟨w1, hP1, -⟩ := e.phi_eq hw ht' t ht.le le_rfl 0
  have hloc' : s1.localCoefficientVector (s.kn (s.knots.length - s.order)) = .ok loc := hloc
  have hP0' : s1.phi (s.kn (s.knots.length - s.order)) 0 = .ok (identityBlocks D w0) := hP0
  have hP1' : s1.phi t 0 = .ok (identityBlocks D w1) := hP1
  unfold addCurveSegment
  rw [hext]
  simp only [Outcome.bind_ok]
  rw [hloc']
  simp only [Outcome.bind_ok]
  rw [hP0', hP1']
  simp only [Outcome.bind_ok]
  exact ⟨_, rfl, appended_store e _⟩

theorem add2_sized (solve : Solver K) {s : BSpline K D} (h : Sized s) (hn : 2 * s.order ≤ s.knots.length) (t : K)
    (ht : s.kn (s.knots.length - s.order) < t) (p : Fin D → K) (lambda : K) (junk : Fin D → K) :
    ∃ s', s.addCurveSegment2 solve t p lambda junk = .ok s' ∧ Appended s s' := by
  have hw := h.wf hn
  have ht' : s.initializeBasisMatrices.kn (s.initializeBasisMatrices.knots.length - s.initializeBasisMatrices.order) < t := ht
  obtain ⟨s1, p0, hext, e⟩ := extend_sized h hn t ht junk
  obtain ⟨loc, hloc, -⟩ := e.fixed_eq hw ht'
  obtain ⟨w0, hP0, -⟩ := e.phi_eq hw ht' _ le_rfl ht.le 0
  obtain ⟨w1, hP1, -⟩ := e.phi_eq hw ht' t ht.le le_rfl 0
  obtain ⟨a0, hA0, -⟩ := e.phi_eq hw ht' _ le_rfl ht.le 2
  obtain ⟨a1, hA1, -⟩ := e.phi_eq hw ht' t ht.le le_rfl 2
  have hloc' : s1.localCoefficientVector (s.kn (s.knots.length - s.order)) = .ok loc := hloc
  have hP0' : s1.phi (s.kn (s.knots.length - s.order)) 0 = .ok (identityBlocks D w0) := hP0
  have hP1' : s1.phi t 0 = .ok (identityBlocks D w1) := hP1
  have hA0' : s1.phi (s.kn (s.knots.length - s.order)) 2 = .ok (identityBlocks D a0) := hA0
  have hA1' : s1.phi t 2 = .ok (identityBlocks D a1) := hA1
  unfold addCurveSegment2
  rw [hext]
  simp only [Outcome.bind_ok]
  rw [hloc']
  simp only [Outcome.bind_ok]
  rw [hP0', hP1', hA0', hA1']
  simp only [Outcome.bind_ok]
  exact ⟨_, rfl, appended_store e _⟩

/-- Whether a segment can be appended: the spline has a segment, and the time is after its end. -/
def CanAppend (s : BSpline K D) (t : K) : Prop :=
  2 * s.order ≤ s.knots.length ∧ s.kn (s.knots.length - s.order) < t

theorem extend_throws {s : BSpline K D} {t : K} (h : ¬ CanAppend s t) (junk : Fin D → K) : s.extend t junk = .throws := by
  unfold extend tMax minimumKnotsRequired numKnotsRequired numCoefficientsRequired
  by_cases hn : 2 * s.order ≤ s.knots.length
  · have ht : t ≤ s.kn (s.knots.length - s.order) := by
      by_contra hc
      exact h ⟨hn, not_le.1 hc⟩
    split_ifs with c
    · rfl
    · simp only [Outcome.bind_ok]
      rw [if_pos ht]
  · split_ifs with c
    · rfl
    · exfalso
      omega

/-! ### The correspondence -/

/-- The identities of the design variables, in order. -/
def serials (v : SplineVars K D) : List ℕ := v.vars.map MappedVar.serial

/-- The invariant: as many design variables as coefficients, the `i`th one points to column `i` of the current
memory, all are different objects. -/
structure Mirror (v : SplineVars K D) : Prop where
  sized : Sized v.spline
  length : v.vars.length = v.spline.coeffs.length
  maps : ∀ (i : ℕ) (x : MappedVar K D), v.vars[i]? = some x → x.buffer = v.buffer ∧ x.column = i
  nodup : v.serials.Nodup
  fresh : ∀ n ∈ v.serials, n < v.fresh

theorem mirror_create {s : BSpline K D} (h : Sized s) : Mirror (create s) := by
  refine ⟨h, by simp [create], ?_, ?_, ?_⟩
  · intro i x hx
    simp only [create, List.getElem?_map, Option.map_eq_some_iff] at hx
    obtain ⟨j, hj, rfl⟩ := hx
    have := (List.getElem?_eq_some_iff.1 hj).2
    rw [List.getElem_range] at this
    exact ⟨rfl, this.symm⟩
  · have : (create s).serials = List.range s.coeffs.length := by
      simp [serials, create, Function.comp_def]
    rw [this]
    exact List.nodup_range
  · intro n hn
    simpa [serials, create, Function.comp_def] using hn

theorem remap_ok {buffer n : ℕ} {vars : List (MappedVar K D)} (h : n ≤ vars.length) :
    ∃ vars', remap buffer vars n = .ok vars' ∧ vars'.length = vars.length ∧
      vars'.map MappedVar.serial = vars.map MappedVar.serial ∧
      ∀ i x', vars'[i]? = some x' → ∃ x, vars[i]? = some x ∧ x'.serial = x.serial ∧ x'.saved = x.saved ∧
        (i < n → x'.buffer = buffer ∧ x'.column = i) ∧ (n ≤ i → x' = x) := by
  unfold remap
  rw [if_neg (by omega)]
  refine ⟨_, rfl, by simp, ?_, ?_⟩
  · apply List.ext_getElem
    · simp
    · intro i h1 h2
      simp only [List.map_map, List.getElem_map, List.getElem_zipIdx, Function.comp_apply]
      split_ifs <;> rfl
  · intro i x' hx'
    rw [List.getElem?_map, Option.map_eq_some_iff] at hx'
    obtain ⟨⟨x, j⟩, hx, rfl⟩ := hx'
    rw [List.getElem?_zipIdx, Option.map_eq_some_iff] at hx
    obtain ⟨x0, hx0, he⟩ := hx
    simp only [Prod.mk.injEq, Nat.zero_add] at he
    obtain ⟨rfl, rfl⟩ := he
    refine ⟨x0, hx0, ?_⟩
    by_cases hi : i < n
    · simp [hi]
    · simp only [if_neg hi]
      exact ⟨trivial, trivial, fun h => absurd h hi, fun _ => trivial⟩

theorem attach_ok {v : SplineVars K D} (h : Mirror v) {s' : BSpline K D} (a : Appended v.spline s') :
    ∃ v', v.attach s' = .ok v' ∧ Mirror v' ∧ v'.spline = s' ∧ v'.serials = v.serials ++ [v.fresh] := by
  have hl := h.length
  have hc := a.coeffs
  obtain ⟨vars', e1, e2, e3, e4⟩ := remap_ok (buffer := v.buffer + 1) (n := s'.coeffs.length - 1)
    (vars := v.vars ++ [MappedVar.mk v.fresh (v.buffer + 1) (s'.coeffs.length - 1) 0]) (by simp; omega)
  refine ⟨SplineVars.mk s' (v.buffer + 1) vars' (v.fresh + 1), ?_, ⟨sized_of_wf a.wf, ?_, ?_, ?_, ?_⟩, rfl, ?_⟩
  · unfold attach
    rw [if_neg (by omega)]
    dsimp only
    rw [e1]
    rfl
  · show vars'.length = s'.coeffs.length
    rw [e2]
    simp
    omega
  · intro i x' hx'
    obtain ⟨x, hx, -, -, hlt, hge⟩ := e4 i x' hx'
    rcases Nat.lt_or_ge i (s'.coeffs.length - 1) with hi | hi
    · exact hlt hi
    · rw [hge hi]
      rw [List.getElem?_append_right (by omega)] at hx
      have hi' : i - v.vars.length = 0 := by
        by_contra hne
        rw [List.getElem?_eq_none (by simp; omega)] at hx
        exact nomatch hx
      rw [hi'] at hx
      simp only [List.getElem?_cons_zero, Option.some.injEq] at hx
      rw [← hx]
      exact ⟨rfl, by show s'.coeffs.length - 1 = i; omega⟩
  · show (vars'.map MappedVar.serial).Nodup
    rw [e3, List.map_append]
    refine List.Nodup.append h.nodup (by simp) ?_
    intro n hn hn'
    simp only [List.map_cons, List.map_nil, List.mem_singleton] at hn'
    have := h.fresh n hn
    omega
  · intro n hn
    have hn' : n ∈ vars'.map MappedVar.serial := hn
    rw [e3, List.map_append] at hn'
    show n < v.fresh + 1
    rcases List.mem_append.1 hn' with h1 | h1
    · have := h.fresh n h1
      omega
    · simp only [List.map_cons, List.map_nil, List.mem_singleton] at h1
      omega
  · show vars'.map MappedVar.serial = _
    rw [e3, List.map_append]
    rfl

/-- The value a design variable (identified as an object) denotes. -/
def Denotes (v : SplineVars K D) (n : ℕ) (c : Fin D → K) : Prop :=
  ∃ x ∈ v.vars, x.serial = n ∧ v.deref x = .ok c

theorem Mirror.deref {v : SplineVars K D} (h : Mirror v) {i : ℕ} {x : MappedVar K D} (hx : v.vars[i]? = some x) :
    v.deref x = .ok (v.spline.col i) ∧ v.spline.coeffs[i]? = some (v.spline.col i) := by
  obtain ⟨hb, hcol⟩ := h.maps i x hx
  have hi : i < v.spline.coeffs.length := by
    have := (List.getElem?_eq_some_iff.1 hx).1
    have := h.length
    omega
  have he : v.spline.coeffs[i]? = some (v.spline.col i) := by
    unfold col
    rw [List.getD_eq_getElem?_getD, List.getElem?_eq_getElem hi]
    rfl
  refine ⟨?_, he⟩
  unfold SplineVars.deref
  rw [if_pos hb, hcol, he]

/-- In a consistent state the `i`th object denotes the `i`th coefficient and nothing else. -/
theorem Mirror.denotes {v : SplineVars K D} (h : Mirror v) (n : ℕ) (c : Fin D → K) :
    v.Denotes n c ↔ ∃ i : ℕ, v.serials[i]? = some n ∧ v.spline.coeffs[i]? = some c := by
  constructor
  · rintro ⟨x, hx, hn, hd⟩
    obtain ⟨i, hi⟩ := List.getElem?_of_mem hx
    obtain ⟨e1, e2⟩ := h.deref hi
    rw [e1] at hd
    obtain rfl := Outcome.ok.inj hd
    refine ⟨i, ?_, e2⟩
    rw [serials, List.getElem?_map, hi, ← hn]
    rfl
  · rintro ⟨i, hn, hc⟩
    rw [serials, List.getElem?_map, Option.map_eq_some_iff] at hn
    obtain ⟨x, hx, hn⟩ := hn
    obtain ⟨e1, e2⟩ := h.deref hx
    rw [hc] at e2
    obtain rfl := Option.some.inj e2
    exact ⟨x, List.mem_of_getElem? hx, hn, e1⟩

theorem remove_ok {v : SplineVars K D} (h : Mirror v) (hne : v.spline.coeffs ≠ []) :
    ∃ v', v.removeSegment = .ok v' ∧ Mirror v' ∧ v'.serials = v.serials.tail ∧
      v'.spline = v.spline.removeCurveSegment ∧ v'.spline.coeffs = v.spline.coeffs.tail := by
  have hl := h.length
  have hpos : 0 < v.spline.coeffs.length := List.length_pos_iff.2 hne
  have hk : 0 < v.spline.knots.length := by have := h.sized.coeffs; omega
  have hco : v.spline.removeCurveSegment.coeffs = v.spline.coeffs.tail := by
    unfold removeCurveSegment
    rw [if_pos ⟨hk, hpos⟩]
  cases hv : v.vars with
  | nil => rw [hv] at hl; simp at hl; omega
  | cons y rest =>
    have hlen : rest.length = v.spline.removeCurveSegment.coeffs.length := by
      rw [hv] at hl
      simp only [List.length_cons] at hl
      rw [hco, List.length_tail]
      omega
    obtain ⟨vars', e1, e2, e3, e4⟩ := remap_ok (buffer := v.buffer + 1) (n := v.spline.removeCurveSegment.coeffs.length)
      (vars := rest) (by omega)
    have htail : v.serials.tail = rest.map MappedVar.serial := by rw [serials, hv]; rfl
    refine ⟨SplineVars.mk v.spline.removeCurveSegment (v.buffer + 1) vars' v.fresh, ?_,
      ⟨h.sized.remove, e2.trans hlen, ?_, ?_, ?_⟩, ?_, rfl, hco⟩
    · unfold removeSegment
      rw [hv]
      dsimp only
      rw [if_neg (by rw [hco, List.length_tail]; omega), e1]
      rfl
    · intro i x' hx'
      obtain ⟨x, hx, -, -, hlt, -⟩ := e4 i x' hx'
      exact hlt (by have := (List.getElem?_eq_some_iff.1 hx).1; omega)
    · show (vars'.map MappedVar.serial).Nodup
      rw [e3, ← htail]
      exact h.nodup.sublist (List.tail_sublist _)
    · intro n hn
      have hn' : n ∈ vars'.map MappedVar.serial := hn
      rw [e3, ← htail] at hn'
      exact h.fresh n (List.mem_of_mem_tail hn')
    · show vars'.map MappedVar.serial = _
      rw [e3, htail]

theorem designVariable_ok {v : SplineVars K D} (h : Mirror v) (i : ℕ) (hi : i < v.spline.coeffs.length) :
    ∃ x, v.designVariable i = .ok x ∧ v.vars[i]? = some x := by
  have hx : v.vars[i]? = some (v.vars[i]'(by rw [h.length]; exact hi)) :=
    List.getElem?_eq_getElem (by rw [h.length]; exact hi)
  refine ⟨_, ?_, hx⟩
  unfold designVariable
  rw [hx]

theorem designVariable_throws {v : SplineVars K D} (h : Mirror v) (i : ℕ) (hi : v.spline.coeffs.length ≤ i) :
    v.designVariable i = .throws := by
  unfold designVariable
  rw [List.getElem?_eq_none (by rw [h.length]; exact hi)]

theorem store_ok {v : SplineVars K D} (h : Mirror v) {i : ℕ} {x : MappedVar K D} (hx : v.vars[i]? = some x)
    (c : Fin D → K) :
    v.store x c = .ok (BSpline.mk (K := K) v.spline.order v.spline.knots (v.spline.coeffs.set i c) v.spline.basis) := by
  unfold store
  rw [(h.deref hx).1, (h.maps i x hx).2]
  rfl

theorem sized_set {s : BSpline K D} (h : Sized s) (i : ℕ) (c : Fin D → K) :
    Sized (BSpline.mk (K := K) s.order s.knots (s.coeffs.set i c) s.basis) :=
  ⟨h.order, h.sorted, by simpa using h.coeffs, h.basis⟩

theorem serials_set {v : SplineVars K D} {i : ℕ} {x : MappedVar K D} (hx : v.vars[i]? = some x) (y : MappedVar K D)
    (hy : y.serial = x.serial) : (v.vars.set i y).map MappedVar.serial = v.serials := by
  unfold serials
  obtain ⟨hi, rfl⟩ := List.getElem?_eq_some_iff.1 hx
  rw [List.map_set, hy]
  apply List.ext_getElem
  · simp
  · intro j h1 h2
    by_cases hij : i = j
    · subst hij; simp
    · rw [List.getElem_set_ne hij]

theorem update_ok {v : SplineVars K D} (h : Mirror v) (i : ℕ) (hi : i < v.spline.coeffs.length) (dp : Fin D → K) :
    ∃ v' x, v.update i dp = .ok v' ∧ Mirror v' ∧ v'.serials = v.serials ∧ v'.buffer = v.buffer ∧
      v'.vars[i]? = some x ∧ x.saved = v.spline.col i ∧
      v'.spline = BSpline.mk (K := K) v.spline.order v.spline.knots
        (v.spline.coeffs.set i (fun d => v.spline.col i d + dp d)) v.spline.basis := by
  obtain ⟨x, hdv, hx⟩ := designVariable_ok h i hi
  have hlt := (List.getElem?_eq_some_iff.1 hx).1
  have hser := serials_set hx (MappedVar.mk x.serial x.buffer x.column (v.spline.col i)) rfl
  refine ⟨SplineVars.mk (BSpline.mk (K := K) v.spline.order v.spline.knots
      (v.spline.coeffs.set i (fun d => v.spline.col i d + dp d)) v.spline.basis) v.buffer
      (v.vars.set i (MappedVar.mk x.serial x.buffer x.column (v.spline.col i))) v.fresh,
      MappedVar.mk x.serial x.buffer x.column (v.spline.col i), ?_,
    ⟨sized_set h.sized _ _, ?_, ?_, ?_, ?_⟩, hser, rfl, ?_, rfl, rfl⟩
  · unfold update
    rw [hdv]
    simp only [Outcome.bind_ok]
    rw [(h.deref hx).1]
    simp only [Outcome.bind_ok]
    rw [store_ok h hx]
    rfl
  · simp [h.length]
  · intro j y hy
    have hy' : (v.vars.set i (MappedVar.mk x.serial x.buffer x.column (v.spline.col i)))[j]? = some y := hy
    by_cases hij : i = j
    · subst hij
      rw [List.getElem?_set_self hlt] at hy'
      obtain rfl := Option.some.inj hy'
      exact h.maps i x hx
    · rw [List.getElem?_set_ne hij] at hy'
      exact h.maps j y hy'
  · show (List.map _ _).Nodup
    rw [hser]
    exact h.nodup
  · intro n hn
    have hn' : n ∈ (v.vars.set i (MappedVar.mk x.serial x.buffer x.column (v.spline.col i))).map MappedVar.serial := hn
    rw [hser] at hn'
    exact h.fresh n hn'
  · exact List.getElem?_set_self hlt

theorem revert_ok {v : SplineVars K D} (h : Mirror v) (i : ℕ) (x : MappedVar K D) (hx : v.vars[i]? = some x) :
    ∃ v', v.revert i = .ok v' ∧ Mirror v' ∧ v'.serials = v.serials ∧
      v'.spline = BSpline.mk (K := K) v.spline.order v.spline.knots (v.spline.coeffs.set i x.saved) v.spline.basis := by
  refine ⟨SplineVars.mk (BSpline.mk (K := K) v.spline.order v.spline.knots (v.spline.coeffs.set i x.saved) v.spline.basis)
    v.buffer v.vars v.fresh, ?_, ⟨sized_set h.sized _ _, by simp [h.length], h.maps, h.nodup, h.fresh⟩, rfl, rfl⟩
  unfold revert designVariable
  rw [hx]
  simp only [Outcome.bind_ok]
  rw [store_ok h hx]
  rfl

theorem add_outcome (solve : Solver K) {v : SplineVars K D} (h : Mirror v) (t : K) (p junk : Fin D → K) :
    (¬ CanAppend v.spline t ∧ v.addSegment solve t p junk = .throws) ∨
    (CanAppend v.spline t ∧ ∃ v', v.addSegment solve t p junk = .ok v' ∧ Mirror v' ∧
      v'.serials = v.serials ++ [v.fresh] ∧ Appended v.spline v'.spline) := by
  by_cases hc : CanAppend v.spline t
  · obtain ⟨s', e1, a⟩ := add_sized solve h.sized hc.1 t hc.2 p junk
    obtain ⟨v', e2, hm, hs, hser⟩ := attach_ok h a
    refine Or.inr ⟨hc, v', ?_, hm, hser, hs ▸ a⟩
    unfold addSegment
    rw [e1]
    exact e2
  · refine Or.inl ⟨hc, ?_⟩
    unfold addSegment addCurveSegment
    rw [extend_throws hc]
    rfl

theorem add2_outcome (solve : Solver K) {v : SplineVars K D} (h : Mirror v) (t : K) (p : Fin D → K) (lambda : K)
    (junk : Fin D → K) :
    (¬ CanAppend v.spline t ∧ v.addSegment2 solve t p lambda junk = .throws) ∨
    (CanAppend v.spline t ∧ ∃ v', v.addSegment2 solve t p lambda junk = .ok v' ∧ Mirror v' ∧
      v'.serials = v.serials ++ [v.fresh] ∧ Appended v.spline v'.spline) := by
  by_cases hc : CanAppend v.spline t
  · obtain ⟨s', e1, a⟩ := add2_sized solve h.sized hc.1 t hc.2 p lambda junk
    obtain ⟨v', e2, hm, hs, hser⟩ := attach_ok h a
    refine Or.inr ⟨hc, v', ?_, hm, hser, hs ▸ a⟩
    unfold addSegment2
    rw [e1]
    exact e2
  · refine Or.inl ⟨hc, ?_⟩
    unfold addSegment2 addCurveSegment2
    rw [extend_throws hc]
    rfl

/-- One operation keeps the invariant, throws, or removes from an empty spline. -/
theorem step_mirror (solve : Solver K) {v : SplineVars K D} (h : Mirror v) (op : Op K D) :
    (∃ v', v.step solve op = .ok v' ∧ Mirror v') ∨ v.step solve op = .throws ∨
      (op = .remove ∧ v.spline.coeffs = [] ∧ v.step solve op = .ub) := by
  cases op with
  | add t p junk =>
    rcases add_outcome solve h t p junk with ⟨-, e⟩ | ⟨-, v', e, hm, -⟩
    · exact Or.inr (Or.inl e)
    · exact Or.inl ⟨v', e, hm⟩
  | add2 t p lambda junk =>
    rcases add2_outcome solve h t p lambda junk with ⟨-, e⟩ | ⟨-, v', e, hm, -⟩
    · exact Or.inr (Or.inl e)
    · exact Or.inl ⟨v', e, hm⟩
  | remove =>
    by_cases hc : v.spline.coeffs = []
    · refine Or.inr (Or.inr ⟨rfl, hc, ?_⟩)
      have hv : v.vars = [] := by
        have := h.length
        rw [hc] at this
        exact List.length_eq_zero_iff.1 this
      show v.removeSegment = .ub
      unfold removeSegment
      rw [hv]
    · obtain ⟨v', e, hm, -⟩ := remove_ok h hc
      exact Or.inl ⟨v', e, hm⟩
  | update i dp =>
    rcases Nat.lt_or_ge i v.spline.coeffs.length with hi | hi
    · obtain ⟨v', x, e, hm, -⟩ := update_ok h i hi dp
      exact Or.inl ⟨v', e, hm⟩
    · refine Or.inr (Or.inl ?_)
      show v.update i dp = .throws
      unfold update
      rw [designVariable_throws h i hi]
      rfl
  | revert i =>
    rcases Nat.lt_or_ge i v.spline.coeffs.length with hi | hi
    · obtain ⟨x, -, hx⟩ := designVariable_ok h i hi
      obtain ⟨v', e, hm, -⟩ := revert_ok h i x hx
      exact Or.inl ⟨v', e, hm⟩
    · refine Or.inr (Or.inl ?_)
      show v.revert i = .throws
      unfold revert
      rw [designVariable_throws h i hi]
      rfl

theorem run_mirror (solve : Solver K) : ∀ (ops : List (Op K D)) (v v' : SplineVars K D), Mirror v →
    v.run solve ops = .ok v' → Mirror v'
  | [], v, v', h, e => by
    obtain rfl := Outcome.ok.inj e
    exact h
  | op :: ops, v, v', h, e => by
    unfold run at e
    rcases step_mirror solve h op with ⟨v1, e1, hm⟩ | e1 | ⟨-, -, e1⟩
    · rw [e1] at e
      exact run_mirror solve ops v1 v' hm e
    · rw [e1] at e
      exact run_mirror solve ops v v' h e
    · rw [e1] at e
      exact nomatch e

/-! ### C42 -/

/-- **C42**: after any sequence of operations there are as many design variables as coefficients; the `i`th one is readable and
denotes the `i`th coefficient; they are pairwise different objects. -/
theorem C42_mirror (solve : Solver K) (s : BSpline K D) (h : Sized s) (ops : List (Op K D)) (v : SplineVars K D)
    (hv : (create s).run solve ops = .ok v) :
    v.vars.length = v.spline.coeffs.length ∧
      (∀ i < v.spline.coeffs.length, ∃ x, v.designVariable i = .ok x ∧ v.deref x = .ok (v.spline.col i)) ∧
      (∀ i, v.spline.coeffs.length ≤ i → v.designVariable i = .throws) ∧ v.serials.Nodup := by
  have hm := run_mirror solve ops _ v (mirror_create h) hv
  refine ⟨hm.length, fun i hi => ?_, fun i hi => designVariable_throws hm i hi, hm.nodup⟩
  obtain ⟨x, e1, hx⟩ := designVariable_ok hm i hi
  exact ⟨x, e1, (hm.deref hx).1⟩

/-- **C42**: updating a design variable changes exactly its coefficient: neither the others, nor the knots, nor the other
variables; an index out of range is refused. -/
theorem C42_update (solve : Solver K) (s : BSpline K D) (h : Sized s) (ops : List (Op K D)) (v : SplineVars K D)
    (hv : (create s).run solve ops = .ok v) (i : ℕ) (dp : Fin D → K) :
    (i < v.spline.coeffs.length → ∃ v', v.update i dp = .ok v' ∧ v'.serials = v.serials ∧
      v'.spline.order = v.spline.order ∧ v'.spline.knots = v.spline.knots ∧ v'.spline.basis = v.spline.basis ∧
      v'.spline.coeffs.length = v.spline.coeffs.length ∧ (∀ d, v'.spline.col i d = v.spline.col i d + dp d) ∧
      ∀ j, j ≠ i → v'.spline.col j = v.spline.col j) ∧
    (v.spline.coeffs.length ≤ i → v.update i dp = .throws) := by
  have hm := run_mirror solve ops _ v (mirror_create h) hv
  refine ⟨fun hi => ?_, fun hi => ?_⟩
  · obtain ⟨v', x, e, -, hser, -, -, -, hs⟩ := update_ok hm i hi dp
    refine ⟨v', e, hser, by rw [hs], by rw [hs], by rw [hs], by rw [hs]; simp, ?_, ?_⟩
    · intro d
      rw [hs]
      show (List.getD (v.spline.coeffs.set i (fun d => v.spline.col i d + dp d)) i 0) d = _
      rw [List.getD_eq_getElem?_getD, List.getElem?_set_self hi]
      rfl
    · intro j hj
      rw [hs]
      show List.getD _ j 0 = List.getD _ j 0
      rw [List.getD_eq_getElem?_getD, List.getD_eq_getElem?_getD, List.getElem?_set_ne (Ne.symm hj)]
  · unfold update
    rw [designVariable_throws hm i hi]
    rfl

/-- **C42**: reverting right after an update restores the spline. -/
theorem C42_revert (solve : Solver K) (s : BSpline K D) (h : Sized s) (ops : List (Op K D)) (v : SplineVars K D)
    (hv : (create s).run solve ops = .ok v) (i : ℕ) (hi : i < v.spline.coeffs.length) (dp : Fin D → K) :
    ∃ v' v'', v.update i dp = .ok v' ∧ v'.revert i = .ok v'' ∧ v''.spline = v.spline ∧ v''.serials = v.serials := by
  have hm := run_mirror solve ops _ v (mirror_create h) hv
  obtain ⟨v', x, e, hm', hser, -, hx, hsv, hs⟩ := update_ok hm i hi dp
  obtain ⟨v'', e', -, hser', hs'⟩ := revert_ok hm' i x hx
  refine ⟨v', v'', e, e', ?_, by rw [hser', hser]⟩
  rw [hs', hs, hsv]
  dsimp only
  rw [List.set_set]
  have : v.spline.coeffs.set i (v.spline.col i) = v.spline.coeffs := by
    apply List.ext_getElem
    · simp
    · intro j h1 h2
      by_cases hij : i = j
      · subst hij
        simp [col, hi]
      · rw [List.getElem_set_ne hij]
  rw [this]

/-- **C42**: removing a segment drops the first design variable; every other one, as an object, denotes the same
coefficient as before. -/
theorem C42_remove (solve : Solver K) (s : BSpline K D) (h : Sized s) (ops : List (Op K D)) (v : SplineVars K D)
    (hv : (create s).run solve ops = .ok v) (hne : v.spline.coeffs ≠ []) :
    ∃ v', v.removeSegment = .ok v' ∧ v'.serials = v.serials.tail ∧ v'.spline = v.spline.removeCurveSegment ∧
      v'.spline.coeffs = v.spline.coeffs.tail ∧ ∀ n ∈ v'.serials, ∀ c, v'.Denotes n c ↔ v.Denotes n c := by
  have hm := run_mirror solve ops _ v (mirror_create h) hv
  obtain ⟨v', e, hm', hser, hsp, hco⟩ := remove_ok hm hne
  refine ⟨v', e, hser, hsp, hco, fun n hn c => ?_⟩
  rw [hm.denotes, hm'.denotes, hser, hco]
  have hnd := hm.nodup
  constructor
  · rintro ⟨i, h1, h2⟩
    exact ⟨i + 1, by rwa [List.getElem?_tail] at h1, by rwa [List.getElem?_tail] at h2⟩
  · rintro ⟨i, h1, h2⟩
    rw [hser] at hn
    cases i with
    | zero =>
      exfalso
      cases hs : v.serials with
      | nil => rw [hs] at h1; exact nomatch h1
      | cons a l =>
        rw [hs] at h1 hn hnd
        obtain rfl := Option.some.inj h1
        exact (List.nodup_cons.1 hnd).1 hn
    | succ i => exact ⟨i, by rwa [List.getElem?_tail], by rwa [List.getElem?_tail]⟩

theorem appended_denotes {v v' : SplineVars K D} (hm : Mirror v) (hm' : Mirror v')
    (hser : v'.serials = v.serials ++ [v.fresh]) (a : Appended v.spline v'.spline) (n : ℕ)
    (hn : n ∈ v.serials.dropLast) (c : Fin D → K) : v'.Denotes n c ↔ v.Denotes n c := by
  rw [hm.denotes, hm'.denotes, hser]
  have hl : v.serials.length = v.spline.coeffs.length := by rw [serials, List.length_map, hm.length]
  have key : ∀ i, v.serials[i]? = some n → i + 1 < v.spline.coeffs.length := by
    intro i hi
    obtain ⟨j, hj⟩ := List.getElem?_of_mem hn
    have hjl : j < v.serials.length - 1 := by
      have := (List.getElem?_eq_some_iff.1 hj).1
      rwa [List.length_dropLast] at this
    rw [List.getElem?_dropLast, if_pos hjl] at hj
    have hij : i = j := by
      obtain ⟨hi1, hi2⟩ := List.getElem?_eq_some_iff.1 hi
      obtain ⟨hj1, hj2⟩ := List.getElem?_eq_some_iff.1 hj
      exact (hm.nodup.getElem_inj_iff).1 (hi2.trans hj2.symm)
    omega
  constructor
  · rintro ⟨i, h1, h2⟩
    have h1' : v.serials[i]? = some n := by
      rcases Nat.lt_or_ge i v.serials.length with hi | hi
      · rwa [List.getElem?_append_left hi] at h1
      · exfalso
        rw [List.getElem?_append_right hi] at h1
        have := List.mem_of_getElem? h1
        rw [List.mem_singleton] at this
        have h3 := hm.fresh n (List.dropLast_subset _ hn)
        omega
    exact ⟨i, h1', by rw [← a.old i (key i h1')]; exact h2⟩
  · rintro ⟨i, h1, h2⟩
    exact ⟨i, by rw [List.getElem?_append_left (List.getElem?_eq_some_iff.1 h1).1]; exact h1,
      by rw [a.old i (key i h1)]; exact h2⟩

/-- **C42**: adding a segment throws without effect if there is no segment yet or the time is not after the end, and otherwise
keeps all design variables, adds one behind them, and every old one except the last, as an object, denotes the same coefficient
as before.  (The last old coefficient is recomputed by the curve itself; its design variable denotes the new value.) -/
theorem C42_add (solve : Solver K) (s : BSpline K D) (h : Sized s) (ops : List (Op K D)) (v : SplineVars K D)
    (hv : (create s).run solve ops = .ok v) (t : K) (p junk : Fin D → K) :
    (¬ CanAppend v.spline t → v.addSegment solve t p junk = .throws) ∧
    (CanAppend v.spline t → ∃ v', v.addSegment solve t p junk = .ok v' ∧
      v.spline.addCurveSegment solve t p junk = .ok v'.spline ∧ v'.serials = v.serials ++ [v.fresh] ∧ v.fresh ∉ v.serials ∧
      ∀ n ∈ v.serials.dropLast, ∀ c, v'.Denotes n c ↔ v.Denotes n c) := by
  have hm := run_mirror solve ops _ v (mirror_create h) hv
  refine ⟨fun hc => ?_, fun hc => ?_⟩
  · rcases add_outcome solve hm t p junk with ⟨-, e⟩ | ⟨h', -⟩
    · exact e
    · exact absurd h' hc
  · rcases add_outcome solve hm t p junk with ⟨h', -⟩ | ⟨-, v', e, hm', hser, a⟩
    · exact absurd hc h'
    · refine ⟨v', e, ?_, hser, fun hf => absurd (hm.fresh _ hf) (lt_irrefl _),
        fun n hn c => appended_denotes hm hm' hser a n hn c⟩
      unfold addSegment at e
      obtain ⟨s', e1, e2⟩ := Outcome.bind_eq_ok.1 e
      rw [e1]
      obtain ⟨s'', e3, a'⟩ := add_sized solve hm.sized hc.1 t hc.2 p junk
      rw [e1] at e3
      obtain rfl := Outcome.ok.inj e3
      obtain ⟨v'', e4, -, hs, -⟩ := attach_ok hm a'
      rw [e4] at e2
      obtain rfl := Outcome.ok.inj e2
      rw [hs]

/-- **C42**: the same for `addSegment2`. -/
theorem C42_add2 (solve : Solver K) (s : BSpline K D) (h : Sized s) (ops : List (Op K D)) (v : SplineVars K D)
    (hv : (create s).run solve ops = .ok v) (t : K) (p : Fin D → K) (lambda : K) (junk : Fin D → K) :
    (¬ CanAppend v.spline t → v.addSegment2 solve t p lambda junk = .throws) ∧
    (CanAppend v.spline t → ∃ v', v.addSegment2 solve t p lambda junk = .ok v' ∧
      v.spline.addCurveSegment2 solve t p lambda junk = .ok v'.spline ∧ v'.serials = v.serials ++ [v.fresh] ∧
      v.fresh ∉ v.serials ∧ ∀ n ∈ v.serials.dropLast, ∀ c, v'.Denotes n c ↔ v.Denotes n c) := by
  have hm := run_mirror solve ops _ v (mirror_create h) hv
  refine ⟨fun hc => ?_, fun hc => ?_⟩
  · rcases add2_outcome solve hm t p lambda junk with ⟨-, e⟩ | ⟨h', -⟩
    · exact e
    · exact absurd h' hc
  · rcases add2_outcome solve hm t p lambda junk with ⟨h', -⟩ | ⟨-, v', e, hm', hser, a⟩
    · exact absurd hc h'
    · refine ⟨v', e, ?_, hser, fun hf => absurd (hm.fresh _ hf) (lt_irrefl _),
        fun n hn c => appended_denotes hm hm' hser a n hn c⟩
      unfold addSegment2 at e
      obtain ⟨s', e1, e2⟩ := Outcome.bind_eq_ok.1 e
      rw [e1]
      obtain ⟨s'', e3, a'⟩ := add2_sized solve hm.sized hc.1 t hc.2 p lambda junk
      rw [e1] at e3
      obtain rfl := Outcome.ok.inj e3
      obtain ⟨v'', e4, -, hs, -⟩ := attach_ok hm a'
      rw [e4] at e2
      obtain rfl := Outcome.ok.inj e2
      rw [hs]

theorem run_ub (solve : Solver K) : ∀ (ops : List (Op K D)) (v : SplineVars K D), Mirror v →
    (v.run solve ops = .ub ↔ ∃ pre post v', ops = pre ++ Op.remove :: post ∧ v.run solve pre = .ok v' ∧ v'.spline.coeffs = [])
  | [], v, h => by
    constructor
    · intro e; exact nomatch e
    · rintro ⟨pre, post, v', e, -⟩
      exact absurd e (by simp)
  | op :: ops, v, h => by
    have hrun : v.run solve (op :: ops) = (match v.step solve op with
      | .ok v' => v'.run solve ops
      | .throws => v.run solve ops
      | .ub => .ub) := rfl
    have hpre : ∀ l, v.run solve (op :: l) = (match v.step solve op with
      | .ok v' => v'.run solve l
      | .throws => v.run solve l
      | .ub => .ub) := fun _ => rfl
    rw [hrun]
    constructor
    · intro e
      rcases step_mirror solve h op with ⟨v1, e1, hm⟩ | e1 | ⟨rfl, hc, e1⟩
      · rw [e1] at e
        obtain ⟨pre, post, v', rfl, h1, h2⟩ := (run_ub solve ops v1 hm).1 e
        exact ⟨op :: pre, post, v', rfl, by rw [hpre, e1]; exact h1, h2⟩
      · rw [e1] at e
        obtain ⟨pre, post, v', rfl, h1, h2⟩ := (run_ub solve ops v h).1 e
        exact ⟨op :: pre, post, v', rfl, by rw [hpre, e1]; exact h1, h2⟩
      · exact ⟨[], ops, v, rfl, rfl, hc⟩
    · rintro ⟨pre, post, v', he, h1, h2⟩
      cases pre with
      | nil =>
        simp only [List.nil_append, List.cons.injEq] at he
        obtain ⟨rfl, rfl⟩ := he
        obtain rfl := Outcome.ok.inj h1
        rcases step_mirror solve h Op.remove with ⟨v1, e1, hm⟩ | e1 | ⟨-, -, e1⟩
        · exfalso
          have hv : v.vars = [] := by
            have := h.length
            rw [h2] at this
            exact List.length_eq_zero_iff.1 this
          have e1' : v.removeSegment = .ok v1 := e1
          unfold removeSegment at e1'
          rw [hv] at e1'
          exact nomatch e1'
        · exfalso
          have hv : v.vars = [] := by
            have := h.length
            rw [h2] at this
            exact List.length_eq_zero_iff.1 this
          have e1' : v.removeSegment = .throws := e1
          unfold removeSegment at e1'
          rw [hv] at e1'
          exact nomatch e1'
        · rw [e1]
      | cons o pre =>
        simp only [List.cons_append, List.cons.injEq] at he
        obtain ⟨rfl, rfl⟩ := he
        rw [hpre] at h1
        rcases step_mirror solve h op with ⟨v1, e1, hm⟩ | e1 | ⟨-, -, e1⟩
        · rw [e1] at h1 ⊢
          exact (run_ub solve _ v1 hm).2 ⟨pre, post, v', rfl, h1, h2⟩
        · rw [e1] at h1 ⊢
          exact (run_ub solve _ v h).2 ⟨pre, post, v', rfl, h1, h2⟩
        · rw [e1] at h1
          exact nomatch h1

/-- **C42** (memory): the only way to undefined behaviour is to remove a segment when no coefficient is left.  Missing for
the full claim: this case, see `C42_violated`. -/
theorem C42_memory_partial (solve : Solver K) (s : BSpline K D) (h : Sized s) (ops : List (Op K D)) :
    (create s).run solve ops = .ub ↔ ∃ pre post v, ops = pre ++ Op.remove :: post ∧
      (create s).run solve pre = .ok v ∧ v.spline.coeffs = [] :=
  run_ub solve ops _ (mirror_create h)

/-- Removing as often as there are coefficients is possible and empties the spline. -/
theorem remove_all (solve : Solver K) : ∀ (n : ℕ) (v : SplineVars K D), Mirror v → v.spline.coeffs.length = n →
    ∃ v', v.run solve (List.replicate n Op.remove) = .ok v' ∧ Mirror v' ∧ v'.spline.coeffs = []
  | 0, v, h, hn => ⟨v, rfl, h, List.length_eq_zero_iff.1 hn⟩
  | n + 1, v, h, hn => by
    obtain ⟨v1, e, hm, -, -, hco⟩ := remove_ok h (by intro hc; rw [hc] at hn; exact absurd hn (by simp))
    obtain ⟨v', e', hm', hc⟩ := remove_all solve n v1 hm (by rw [hco, List.length_tail]; omega)
    refine ⟨v', ?_, hm', hc⟩
    rw [List.replicate_succ]
    unfold run
    have : v.step solve Op.remove = .ok v1 := e
    rw [this]
    exact e'

/-- **C42**, where it fails: for every spline, removing a segment once more than there are coefficients erases the first element of
an empty vector.  There is no check, although the curve itself ignores the call. -/
theorem C42_violated (solve : Solver K) (s : BSpline K D) (h : Sized s) :
    (create s).run solve (List.replicate (s.coeffs.length + 1) Op.remove) = .ub := by
  obtain ⟨v, e, -, hc⟩ := remove_all solve s.coeffs.length (create s) (mirror_create h) rfl
  rw [C42_memory_partial solve s h]
  exact ⟨List.replicate s.coeffs.length Op.remove, [], v, by rw [List.replicate_succ'], e, hc⟩

/-! ### Expressions -/

/-- The design variables an expression for time `t` collects (BSplineDesignVariable.hpp 46-58): those with the indices
`localVvCoefficientVectorIndices(t)`, as objects. -/
def captured (v : SplineVars K D) (t : K) : Outcome (List (Option ℕ)) :=
  (v.spline.localVvCoefficientVectorIndices t).map fun is => is.map fun i => v.serials[i]?

theorem captured_eq {v : SplineVars K D} (h : Sized v.spline) {t x : K} {i : ℕ} (hT : v.spline.computeTIndex t = .ok (x, i))
    (h1 : v.spline.order - 1 ≤ i) :
    v.captured t = .ok ((List.range v.spline.order).map fun j => v.serials[i + 1 - v.spline.order + j]?) := by
  have hk := h.order
  unfold captured localVvCoefficientVectorIndices bidxOf linSpacedIdx
  rw [hT]
  simp only [Outcome.bind_ok]
  rw [if_neg (by omega)]
  simp only [Outcome.bind_ok, Outcome.map_ok, List.map_map]
  rfl

theorem captured_remove {v v' : SplineVars K D} (hm : Mirror v) (hr : v.removeSegment = .ok v') (t a b : K)
    (ha : v'.spline.tMin = .ok a) (hb : v'.spline.tMax = .ok b) (h1 : a ≤ t) (h2 : t ≤ b) :
    (∃ l, v'.captured t = .ok l) ∧ v.captured t = v'.captured t := by
  have hne : v.spline.coeffs ≠ [] := by
    intro hc
    have hv : v.vars = [] := by
      have := hm.length
      rw [hc] at this
      exact List.length_eq_zero_iff.1 this
    unfold removeSegment at hr
    rw [hv] at hr
    exact nomatch hr
  obtain ⟨v'', e, hm', hser, hsp, hco⟩ := remove_ok hm hne
  rw [hr] at e
  obtain rfl := Outcome.ok.inj e
  have hpos : 0 < v.spline.coeffs.length := List.length_pos_iff.2 hne
  have hkn : 0 < v.spline.knots.length := by have := hm.sized.coeffs; omega
  obtain ⟨r1, r2, -, -⟩ := remove_sizes v.spline hkn hpos
  have r3 := remove_kn v.spline hkn hpos
  rw [← hsp] at r1 r2 r3
  have hn' : 2 * v'.spline.order ≤ v'.spline.knots.length := by
    unfold tMin minimumKnotsRequired numKnotsRequired numCoefficientsRequired at ha
    split_ifs at ha with c
    omega
  have hw' := hm'.sized.wf hn'
  have hw := hm.sized.wf (by omega)
  have hk := hm.sized.order
  have ha' : v'.spline.kn (v'.spline.order - 1) = a := by
    unfold tMin at ha; split_ifs at ha; exact Outcome.ok.inj ha
  have hb' : v'.spline.kn (v'.spline.knots.length - v'.spline.order) = b := by
    unfold tMax at hb; split_ifs at hb; exact Outcome.ok.inj hb
  have hbe : v.spline.kn (v.spline.knots.length - v.spline.order) = b := by
    rw [← hb', r3]; congr 1; omega
  have hmono : MonoBelow v.spline.kn v.spline.knots.length := hw.mono
  have hae : v.spline.kn v.spline.order = a := by
    rw [← ha', r3]; congr 1; omega
  have h1' : v.spline.kn (v.spline.order - 1) ≤ t :=
    le_trans (hmono _ _ (by omega) (by omega)) (hae.le.trans h1)
  have fin : ∀ (x x' : K) (i i' : ℕ), v.spline.computeTIndex t = .ok (x, i) → v'.spline.computeTIndex t = .ok (x', i') →
      i = i' + 1 → v'.spline.order - 1 ≤ i' → (∃ l, v'.captured t = .ok l) ∧ v.captured t = v'.captured t := by
    intro x x' i i' e1 e2 hi hi'
    rw [captured_eq hm.sized e1 (by omega), captured_eq hm'.sized e2 hi']
    refine ⟨⟨_, rfl⟩, ?_⟩
    rw [r1]
    congr 1
    refine List.map_congr_left fun j _ => ?_
    rw [hser, List.getElem?_tail]
    congr 1
    omega
  by_cases hs : t + snapTol ≤ b
  · obtain ⟨i, e1, a1, a2, a3, a4⟩ := lookup_interior hw t h1' (by show _ ≤ v.spline.kn (v.spline.knots.length - v.spline.order); rw [hbe]; exact hs)
    obtain ⟨i', e1', a1', a2', a3', a4'⟩ := lookup_interior hw' t (by
      show v'.spline.kn (v'.spline.order - 1) ≤ t; rw [ha']; exact h1) (by
      show _ ≤ v'.spline.kn (v'.spline.knots.length - v'.spline.order); rw [hb']; exact hs)
    have b3 : v.spline.kn i ≤ t := a3
    have b4 : t < v.spline.kn (i + 1) := a4
    have b3' : v.spline.kn (i' + 1) ≤ t := by rw [← r3]; exact a3'
    have b4' : t < v.spline.kn (i' + 1 + 1) := by rw [← r3]; exact a4'
    have c2 : i + 1 ≤ v.spline.knots.length - v.spline.order := a2
    have c2' : i' + 1 ≤ v'.spline.knots.length - v'.spline.order := a2'
    refine fin _ _ i i' e1 e1' ?_ a1'
    rcases Nat.lt_trichotomy i (i' + 1) with hlt | heq | hgt
    · exfalso
      have := hmono (i + 1) (i' + 1) (by omega) (by omega)
      exact absurd (lt_of_lt_of_le b4 (this.trans b3')) (lt_irrefl _)
    · exact heq
    · exfalso
      have := hmono (i' + 1 + 1) i (by omega) (by omega)
      exact absurd (lt_of_lt_of_le b4' (this.trans b3)) (lt_irrefl _)
  · have habs : |b - t| < snapTol := by
      rw [abs_of_nonneg (by linarith)]
      linarith [not_le.1 hs]
    have e1 := lookup_end hw t h1' (by
      show |v.spline.kn (v.spline.knots.length - v.spline.order) - t| < _; rw [hbe]; exact habs)
    have e1' := lookup_end hw' t (by show v'.spline.kn (v'.spline.order - 1) ≤ t; rw [ha']; exact h1) (by
      show |v'.spline.kn (v'.spline.knots.length - v'.spline.order) - t| < _; rw [hb']; exact habs)
    refine fin _ _ (v.spline.knots.length - v.spline.order - 1) (v'.spline.knots.length - v'.spline.order - 1) e1 e1' ?_ ?_
    · omega
    · omega

/-- **C42**: an expression built before a segment is removed refers to exactly the design variables it would refer to if built
afterwards, as long as its time is still in the valid interval. -/
theorem C42_expression_remove (solve : Solver K) (s : BSpline K D) (h : Sized s) (ops : List (Op K D)) (v v' : SplineVars K D)
    (hv : (create s).run solve ops = .ok v) (hr : v.removeSegment = .ok v') (t a b : K)
    (ha : v'.spline.tMin = .ok a) (hb : v'.spline.tMax = .ok b) (h1 : a ≤ t) (h2 : t ≤ b) :
    (∃ l, v'.captured t = .ok l) ∧ v.captured t = v'.captured t :=
  captured_remove (run_mirror solve ops _ v (mirror_create h) hv) hr t a b ha hb h1 h2

theorem captured_append {v v' : SplineVars K D} (hm : Mirror v) (hm' : Mirror v') (hser : v'.serials = v.serials ++ [v.fresh])
    (ap : Appended v.spline v'.spline) (hn : 2 * v.spline.order ≤ v.spline.knots.length)
    (t a b : K) (ha : v.spline.tMin = .ok a) (hb : v.spline.tMax = .ok b) (h1 : a ≤ t) (h2 : t + snapTol ≤ b) :
    (∃ l, v.captured t = .ok l) ∧ v'.captured t = v.captured t := by
  have hw := hm.sized.wf hn
  have hw' := ap.wf
  have hk := hm.sized.order
  have ha' : v.spline.kn (v.spline.order - 1) = a := by
    unfold tMin at ha; split_ifs at ha; exact Outcome.ok.inj ha
  have hb' : v.spline.kn (v.spline.knots.length - v.spline.order) = b := by
    unfold tMax at hb; split_ifs at hb; exact Outcome.ok.inj hb
  have ho := ap.order
  have hl := ap.knots
  have hmono : MonoBelow v'.spline.kn v'.spline.knots.length := hw'.mono
  obtain ⟨i, e1, a1, a2, a3, a4⟩ := lookup_interior hw t (by
    show v.spline.kn (v.spline.order - 1) ≤ t; rw [ha']; exact h1) (by
    show _ ≤ v.spline.kn (v.spline.knots.length - v.spline.order); rw [hb']; exact h2)
  obtain ⟨i', e1', a1', a2', a3', a4'⟩ := lookup_interior hw' t (by
    rw [ho, ap.old_kn _ (by omega), ha']; exact h1) (by
    refine h2.trans ?_
    rw [← hb', ← ap.old_kn _ le_rfl]
    exact hmono _ _ (by omega) (by omega))
  have c2 : i + 1 ≤ v.spline.knots.length - v.spline.order := a2
  have b3 : v'.spline.kn i ≤ t := by rw [ap.old_kn _ (by omega)]; exact a3
  have b4 : t < v'.spline.kn (i + 1) := by rw [ap.old_kn _ c2]; exact a4
  have heq : i' = i := by
    rcases Nat.lt_trichotomy i i' with hlt | heq | hgt
    · exfalso
      have := hmono (i + 1) i' (by omega) (by omega)
      exact absurd (lt_of_lt_of_le b4 (this.trans a3')) (lt_irrefl _)
    · exact heq.symm
    · exfalso
      have := hmono (i' + 1) i (by omega) (by omega)
      exact absurd (lt_of_lt_of_le a4' (this.trans b3)) (lt_irrefl _)
  subst heq
  have hc' : v.serials.length = v.spline.coeffs.length := by rw [serials, List.length_map, hm.length]
  rw [captured_eq hm.sized e1 a1, captured_eq hm'.sized e1' (by rw [ho]; exact a1)]
  refine ⟨⟨_, rfl⟩, ?_⟩
  rw [ho]
  congr 1
  refine List.map_congr_left fun j hj => ?_
  have hj' := List.mem_range.1 hj
  have hco := hm.sized.coeffs
  have a1n : v.spline.order - 1 ≤ i' := a1
  rw [hser, List.getElem?_append_left (by omega)]

/-- **C42**: an expression for a time before the end (by more than the lookup tolerance) refers to the same design variables
after a segment is added. -/
theorem C42_expression_add (solve : Solver K) (s : BSpline K D) (h : Sized s) (ops : List (Op K D)) (v v' : SplineVars K D)
    (hv : (create s).run solve ops = .ok v) (te : K) (p junk : Fin D → K) (hr : v.addSegment solve te p junk = .ok v')
    (t a b : K) (ha : v.spline.tMin = .ok a) (hb : v.spline.tMax = .ok b) (h1 : a ≤ t) (h2 : t + snapTol ≤ b) :
    (∃ l, v.captured t = .ok l) ∧ v'.captured t = v.captured t := by
  have hm := run_mirror solve ops _ v (mirror_create h) hv
  rcases add_outcome solve hm te p junk with ⟨-, e⟩ | ⟨hc, v'', e, hm', hser, ap⟩
  · rw [hr] at e; exact nomatch e
  rw [hr] at e
  obtain rfl := Outcome.ok.inj e
  exact captured_append hm hm' hser ap hc.1 t a b ha hb h1 h2

/-! ### Examples -/

/-- A cubic spline (order 4, ten knots, six coefficients). -/
def demo : BSpline ℚ 1 := initializeBasisMatrices (BSpline.mk (K := ℚ) 4 [0, 1, 2, 3, 4, 5, 6, 7, 8, 9]
  [![1], ![2], ![0], ![5], ![4], ![3]] [])

theorem demo_wf : demo.WF :=
  initializeBasisMatrices_wf _ (by decide) (by decide +kernel) (by decide) (by decide)

/-- Cramer's rule for the two unknowns of an appended segment in dimension one. -/
def demoSolver : Solver ℚ := fun _ A b q =>
  if q = 0 then (b 0 * A 1 1 - A 0 1 * b 1) / (A 0 0 * A 1 1 - A 0 1 * A 1 0)
  else (A 0 0 * b 1 - b 0 * A 1 0) / (A 0 0 * A 1 1 - A 0 1 * A 1 0)

def demoOps : List (Op ℚ 1) := [.add 7 ![1] ![0], .update 4 ![10], .remove, .remove, .update 0 ![1], .add 2 ![0] ![0]]

/-- A reachable state in which everything has happened: a segment appended, two removed (the fifth object is now at index two and has its
updated coefficient), an addition refused. -/
example : Sized demo ∧ ((create demo).run demoSolver demoOps).map (fun v => (v.serials, v.spline.coeffs, v.buffer))
    = .ok ([2, 3, 4, 5, 6], [![1], ![5], ![14], ![3], ![-10]], 3) :=
  ⟨sized_of_wf demo_wf, by decide +kernel⟩

/-- `C42_violated` for this spline: six removals empty it, the seventh is undefined behaviour. -/
example : ((create demo).run demoSolver (List.replicate 6 .remove)).map (fun v => v.serials) = .ok [] ∧
    ((create demo).run demoSolver (List.replicate 7 .remove)).map (fun v => v.serials) = .ub := by
  decide +kernel

/-- The expressions for time `9/2`: four objects, the same before the first removal and after it. -/
example : ((create demo).run demoSolver []).bind (fun v => v.captured (9/2)) = .ok [some 1, some 2, some 3, some 4] ∧
    ((create demo).run demoSolver [.remove]).bind (fun v => v.captured (9/2)) = .ok [some 1, some 2, some 3, some 4] := by
  decide +kernel

end SplineVars
end Verif
