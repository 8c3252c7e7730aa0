import Verif.Props.Tutorial

/-!
# Which of its variables the tutorial's problem determines (C114)
-/

set_option linter.unusedSectionVars false

namespace Verif

open Finset Polynomial

namespace Tutorial

open MSpline OptWorld

/-! ## Specification: the cubic curve with a knot at every whole number -/

/-- The position at the time `k`, from the vertices. -/
noncomputable def Spec.position (v : ℕ → ℝ) (k : ℕ) : ℝ := (v k + 4 * v (k + 1) + v (k + 2)) / 6

/-- The velocity at the time `k`, from the vertices. -/
noncomputable def Spec.velocity (v : ℕ → ℝ) (k : ℕ) : ℝ := (v (k + 2) - v k) / 2

/-! ## The weights of the vertices at a knot -/

section weights

variable {kn : ℕ → ℝ} {k : ℕ} (h : ∀ j, j ≤ 7 → kn (k + j) = (k : ℝ) + j - 3)

include h

theorem knot_sub {a b : ℕ} (ha : a ≤ 7) (hb : b ≤ 7) : kn (k + a) - kn (k + b) = (a : ℝ) - b := by
  rw [h a ha, h b hb]
  ring

theorem piece_zero_at {c : ℕ} : piece kn (k + 3) 0 (k + c) = if c = 3 then 1 else 0 := by
  unfold piece
  simp

theorem piece_step {p c : ℕ} (hc : c + p + 2 ≤ 7) : piece kn (k + 3) (p + 1) (k + c) =
    C (1 / ((p : ℝ) + 1)) * (X - C ((k : ℝ) + c - 3)) * piece kn (k + 3) p (k + c) +
      C (1 / ((p : ℝ) + 1)) * (C ((k : ℝ) + (c + p + 2) - 3) - X) * piece kn (k + 3) p (k + (c + 1)) := by
  have e1 := knot_sub h (a := c + p + 1) (b := c) (by omega) (by omega)
  have e2 := knot_sub h (a := c + p + 2) (b := c + 1) (by omega) (by omega)
  have e3 := h c (by omega)
  have e4 := h (c + p + 2) hc
  rw [piece, show k + c + p + 1 = k + (c + p + 1) by omega, show k + c + p + 2 = k + (c + p + 2) by omega, show k + c + 1 = k + (c + 1) by omega,
    e1, e2, e3, e4]
  congr 4
  · push_cast; ring_nf
  · push_cast; ring_nf
  · push_cast; ring_nf

theorem weights_cubic : piece kn (k + 3) 3 (k + 0) = C (1 / 6) * (C ((k : ℝ) + 1) - X) ^ 3 ∧
    piece kn (k + 3) 3 (k + 1) = C (1 / 6) * (C 4 - C 6 * (X - C (k : ℝ)) ^ 2 + C 3 * (X - C (k : ℝ)) ^ 3) ∧
    piece kn (k + 3) 3 (k + 2) = C (1 / 6) * (1 + C 3 * (X - C (k : ℝ)) + C 3 * (X - C (k : ℝ)) ^ 2 - C 3 * (X - C (k : ℝ)) ^ 3) ∧
    piece kn (k + 3) 3 (k + 3) = C (1 / 6) * (X - C (k : ℝ)) ^ 3 := by
  have z : ∀ c, piece kn (k + 3) 0 (k + c) = if c = 3 then 1 else 0 := fun c => piece_zero_at h
  refine ⟨?_, ?_, ?_, ?_⟩
  all_goals
    refine Polynomial.funext fun x => ?_
    simp only [piece_step h (p := 2) (c := 0) (by norm_num), piece_step h (p := 1) (c := 0) (by norm_num), piece_step h (p := 0) (c := 0) (by norm_num),
      piece_step h (p := 2) (c := 1) (by norm_num), piece_step h (p := 1) (c := 1) (by norm_num), piece_step h (p := 0) (c := 1) (by norm_num),
      piece_step h (p := 2) (c := 2) (by norm_num), piece_step h (p := 1) (c := 2) (by norm_num), piece_step h (p := 0) (c := 2) (by norm_num),
      piece_step h (p := 2) (c := 3) (by norm_num), piece_step h (p := 1) (c := 3) (by norm_num), piece_step h (p := 0) (c := 3) (by norm_num),
      piece_step h (p := 1) (c := 4) (by norm_num), piece_step h (p := 0) (c := 4) (by norm_num), piece_step h (p := 0) (c := 5) (by norm_num),
      z, zero_add, Nat.reduceAdd, Nat.reduceEqDiff, if_true, if_false, eval_add, eval_mul, eval_sub, eval_C, eval_X, eval_one, eval_zero, eval_pow]
    push_cast
    ring

end weights

/-! ## The errors in terms of the vertices -/

section errors

variable {ν : Noise ℝ} {K : ℕ} {p : Problem ℝ}

theorem Built.kn (hp : Built ν K p) {s : MSpline ℝ (Fin 1 → ℝ)} (hs : SameKnots p.spline s) {j : ℕ} (hj : j < K + 7) : s.kn j = (j : ℝ) - 3 := by
  rw [kn_eq_knOf]
  unfold knOf
  rw [hs.keys, hp.knots, List.getD_eq_getElem?_getD, List.getElem?_map, List.getElem?_range hj]
  rfl

/-- The curve on the segment that begins at the whole number `k`. -/
theorem Built.value (hp : Built ν K p) {s : MSpline ℝ (Fin 1 → ℝ)} (hs : SameKnots p.spline s) {k : ℕ} (hk : k < K) {t : ℝ}
    (h0 : (k : ℝ) ≤ t) (h1 : t < k + 1 ∨ (t = k + 1 ∧ k + 1 = K)) (m d : ℕ) (hd : d ≤ m) :
    value s m t d = .ok (∑ c ∈ range 4, (derivative^[d] (piece s.kn (k + 3) 3 (k + c))).eval t • s.vert (k + c)) := by
  have ho : p.spline.order = 4 := (hp.reach.mwf (by norm_num)).2
  have hso : s.order = 4 := hs.order.trans ho
  have hlen : s.keys.length = K + 7 := by rw [hs.keys, hp.knots]; simp
  have e1 : s.kn (k + 3) = k := by rw [hp.kn hs (by omega)]; push_cast; ring
  have e2 : s.kn (k + 3 + 1) = k + 1 := by rw [hp.kn hs (by omega)]; push_cast; ring
  have hi : s.InSeg t (k + 3) := ⟨by omega, by omega, by rw [e1]; exact h0, by
    rw [e2]
    rcases h1 with h | ⟨h, h'⟩
    · exact .inl h
    · exact .inr ⟨h, by omega⟩⟩
  have := euclideanEvalD_eq hs.mwf hs.evaluable hi (some m) d (fun n hn => by cases hn; exact hd)
  rw [← segSum_local hs.mwf hi.lower hi.upper d t, hso] at this
  exact this

theorem Built.weights (hp : Built ν K p) {s : MSpline ℝ (Fin 1 → ℝ)} (hs : SameKnots p.spline s) {k : ℕ} (hk : k < K) :
    ∀ j, j ≤ 7 → s.kn (k + j) = (k : ℝ) + j - 3 := by
  intro j hj
  rw [hp.kn hs (by omega)]
  push_cast
  ring

/-- Position at a knot. -/
theorem Built.position (hp : Built ν K p) {s : MSpline ℝ (Fin 1 → ℝ)} (hs : SameKnots p.spline s) {k : ℕ} (hk : k < K) (m : ℕ) :
    ∃ x, Tutorial.value s m (k : ℝ) 0 = .ok x ∧ x 0 = Spec.position (fun j => s.vert j 0) k := by
  refine ⟨_, hp.value hs hk le_rfl (.inl (by linarith)) m 0 (Nat.zero_le _), ?_⟩
  obtain ⟨w0, w1, w2, w3⟩ := weights_cubic (hp.weights hs hk)
  simp only [sum_range_succ, sum_range_zero, Function.iterate_zero, id, Pi.add_apply, Pi.smul_apply, smul_eq_mul, w0, w1, w2, w3]
  simp only [eval_add, eval_mul, eval_sub, eval_C, eval_X, eval_one, eval_pow, Spec.position, Pi.zero_apply, add_zero]
  ring

/-- Velocity at a knot. -/
theorem Built.velocity (hp : Built ν K p) {s : MSpline ℝ (Fin 1 → ℝ)} (hs : SameKnots p.spline s) {k : ℕ} (hk : k < K) :
    ∃ x, Tutorial.value s 1 (k : ℝ) 1 = .ok x ∧ x 0 = Spec.velocity (fun j => s.vert j 0) k := by
  refine ⟨_, hp.value hs hk le_rfl (.inl (by linarith)) 1 1 le_rfl, ?_⟩
  obtain ⟨w0, w1, w2, w3⟩ := weights_cubic (hp.weights hs hk)
  simp only [sum_range_succ, sum_range_zero, Function.iterate_succ, Function.iterate_zero, Function.comp, id, Pi.add_apply, Pi.smul_apply, smul_eq_mul,
    w0, w1, w2, w3]
  simp only [derivative_add, derivative_sub, derivative_mul, derivative_pow, derivative_C, derivative_X, derivative_one, eval_add, eval_mul, eval_sub, eval_C,
    eval_X, eval_one, eval_zero, eval_pow, Spec.velocity, Pi.zero_apply, add_zero]
  push_cast
  ring

/-- Position at the end. -/
theorem Built.final (hp : Built ν K p) {s : MSpline ℝ (Fin 1 → ℝ)} (hs : SameKnots p.spline s) (hK : 1 ≤ K) (m : ℕ) :
    ∃ x, Tutorial.value s m (K : ℝ) 0 = .ok x ∧ x 0 = Spec.position (fun j => s.vert j 0) K := by
  obtain ⟨k, rfl⟩ : ∃ k, K = k + 1 := ⟨K - 1, by omega⟩
  have hk : k < k + 1 := by omega
  have := hp.value hs hk (t := ((k + 1 : ℕ) : ℝ)) (by push_cast; linarith) (.inr ⟨by push_cast; ring, rfl⟩) m 0 (Nat.zero_le _)
  refine ⟨_, this, ?_⟩
  obtain ⟨w0, w1, w2, w3⟩ := weights_cubic (hp.weights hs hk)
  simp only [sum_range_succ, sum_range_zero, Function.iterate_zero, id, Pi.add_apply, Pi.smul_apply, smul_eq_mul, w0, w1, w2, w3]
  simp only [eval_add, eval_mul, eval_sub, eval_C, eval_X, eval_one, eval_pow, Spec.position, Pi.zero_apply, add_zero]
  push_cast
  ring_nf

/-- **C114**: the errors of the terms, from the vertices and the wall. -/
theorem C114_errors (ν : Noise ℝ) (K : ℕ) (p : Problem ℝ) (hp : Built ν K p) (s : MSpline ℝ (Fin 1 → ℝ)) (hs : SameKnots p.spline s) (w : ℝ) (k : ℕ)
    (hk : k < K) (a r : ℝ) :
    (Term.prior a r).error s w = .ok (Spec.position (fun j => s.vert j 0) 0 - a) ∧
    (Term.motion k a r).error s w = .ok (a - Spec.velocity (fun j => s.vert j 0) k) ∧
    (Term.observation k a r).error s w = .ok (w / Spec.position (fun j => s.vert j 0) k - a) ∧
    (Defined s (.observation k a r) ↔ Spec.position (fun j => s.vert j 0) k ≠ 0) := by
  obtain ⟨x0, h0, e0⟩ := hp.position hs (k := 0) (by omega) 0
  obtain ⟨x1, h1, e1⟩ := hp.velocity hs hk
  obtain ⟨x2, h2, e2⟩ := hp.position hs hk 1
  rw [Nat.cast_zero] at h0
  unfold Term.error Defined
  dsimp only
  rw [h0, h1, h2, Outcome.map_ok, Outcome.map_ok, Outcome.map_ok, e0, e1, e2]
  refine ⟨rfl, rfl, rfl, ?_⟩
  constructor
  · intro h
    rw [← e2]
    exact h _ rfl
  · intro h x hx
    rw [Outcome.ok.injEq] at hx
    rw [← hx, e2]
    exact h

/-- Specification: two states of the variables that no term tells apart. -/
def Spec.SameErrors (p : Problem ℝ) (s : MSpline ℝ (Fin 1 → ℝ)) (w : ℝ) (s' : MSpline ℝ (Fin 1 → ℝ)) (w' : ℝ) : Prop :=
  ∀ e ∈ p.terms, e.error s w = e.error s' w'

theorem sameErrors_iff (hp : Built ν K p) (hK : 1 ≤ K) {s s' : MSpline ℝ (Fin 1 → ℝ)} (hs : SameKnots p.spline s) (hs' : SameKnots p.spline s')
    {w w' : ℝ} : Spec.SameErrors p s w s' w' ↔
      Spec.position (fun j => s.vert j 0) 0 = Spec.position (fun j => s'.vert j 0) 0 ∧
      ∀ k, k < K → Spec.velocity (fun j => s.vert j 0) k = Spec.velocity (fun j => s'.vert j 0) k ∧
        w / Spec.position (fun j => s.vert j 0) k = w' / Spec.position (fun j => s'.vert j 0) k := by
  unfold Spec.SameErrors
  constructor
  · intro h
    have mem : ∀ e, e ∈ p.terms ↔ _ := fun e => hp.terms ▸ mem_terms
    refine ⟨?_, fun k hk => ⟨?_, ?_⟩⟩
    · have := h _ ((mem _).2 (.inl rfl))
      rw [(C114_errors ν K p hp s hs w 0 hK _ _).1, (C114_errors ν K p hp s' hs' w' 0 hK _ _).1, Outcome.ok.injEq] at this
      linarith
    · have := h _ ((mem _).2 (.inr ⟨k, hk, .inl rfl⟩))
      rw [(C114_errors ν K p hp s hs w k hk _ _).2.1, (C114_errors ν K p hp s' hs' w' k hk _ _).2.1, Outcome.ok.injEq] at this
      linarith
    · have := h _ ((mem _).2 (.inr ⟨k, hk, .inr rfl⟩))
      rw [(C114_errors ν K p hp s hs w k hk _ _).2.2.1, (C114_errors ν K p hp s' hs' w' k hk _ _).2.2.1, Outcome.ok.injEq] at this
      linarith
  · rintro ⟨h0, h1⟩ e he
    rw [hp.terms, mem_terms] at he
    rcases he with rfl | ⟨k, hk, rfl | rfl⟩
    · rw [(C114_errors ν K p hp s hs w 0 hK _ _).1, (C114_errors ν K p hp s' hs' w' 0 hK _ _).1, h0]
    · rw [(C114_errors ν K p hp s hs w k hk _ _).2.1, (C114_errors ν K p hp s' hs' w' k hk _ _).2.1, (h1 k hk).1]
    · rw [(C114_errors ν K p hp s hs w k hk _ _).2.2.1, (C114_errors ν K p hp s' hs' w' k hk _ _).2.2.1, (h1 k hk).2]

/-- Positions and velocities at two or more knots determine the vertices they depend on. -/
theorem vertices_determined {v v' : ℕ → ℝ} {K : ℕ} (hK : 2 ≤ K) (h0 : ∀ k, k < K → Spec.position v k = Spec.position v' k)
    (h1 : ∀ k, k < K → Spec.velocity v k = Spec.velocity v' k) : ∀ j, j < K + 2 → v j = v' j := by
  unfold Spec.position at h0
  unfold Spec.velocity at h1
  have a0 := h0 0 (by omega)
  have a1 := h0 1 (by omega)
  have b0 := h1 0 (by omega)
  have b1 := h1 1 (by omega)
  norm_num at a0 a1 b0 b1
  intro j
  induction j using Nat.strong_induction_on with
  | _ j ih =>
    intro hj
    match j, ih, hj with
    | 0, _, _ => linarith
    | 1, _, _ => linarith
    | j + 2, ih, hj =>
      have := ih j (by omega) (by omega)
      have := h1 j (by omega)
      linarith

/-- **C114**: with two steps or more and the wall not at the origin, the terms determine the wall and all vertices but the last. -/
theorem C114_partial (ν : Noise ℝ) (K : ℕ) (hK : 2 ≤ K) (p : Problem ℝ) (hp : Built ν K p) (s s' : MSpline ℝ (Fin 1 → ℝ)) (hs : SameKnots p.spline s)
    (hs' : SameKnots p.spline s') (w w' : ℝ) (hw : w ≠ 0) (hd : ∀ e ∈ p.terms, Defined s e) (hd' : ∀ e ∈ p.terms, Defined s' e)
    (h : Spec.SameErrors p s w s' w') : w = w' ∧ ∀ j, j < K + 2 → s.vert j = s'.vert j := by
  have mem : ∀ e, e ∈ p.terms ↔ _ := fun e => hp.terms ▸ mem_terms
  have ne : ∀ k, k < K → Spec.position (fun j => s.vert j 0) k ≠ 0 := fun k hk =>
    (C114_errors ν K p hp s hs w k hk _ _).2.2.2.1 (hd _ ((mem _).2 (.inr ⟨k, hk, .inr rfl⟩)))
  have ne' : ∀ k, k < K → Spec.position (fun j => s'.vert j 0) k ≠ 0 := fun k hk =>
    (C114_errors ν K p hp s' hs' w' k hk _ _).2.2.2.1 (hd' _ ((mem _).2 (.inr ⟨k, hk, .inr rfl⟩)))
  obtain ⟨h0, h1⟩ := (sameErrors_iff hp (by omega) hs hs').1 h
  have e : w = w' := by
    have := (h1 0 (by omega)).2
    rw [h0] at this
    exact (div_left_inj' (ne' 0 (by omega))).1 this
  refine ⟨e, fun j hj => ?_⟩
  have := vertices_determined hK (v := fun j => s.vert j 0) (v' := fun j => s'.vert j 0) (fun k hk => ?_) (fun k hk => (h1 k hk).1) j hj
  · funext x
    rw [Subsingleton.elim x 0]
    exact this
  · have := (h1 k hk).2
    rw [← e, div_eq_div_iff (ne k hk) (ne' k hk)] at this
    exact (mul_left_cancel₀ hw this).symm

/-- The spline with its vertices moved. -/
noncomputable def shifted (s : MSpline ℝ (Fin 1 → ℝ)) (δ : ℕ → ℝ) : MSpline ℝ (Fin 1 → ℝ) := s.moved fun m v => v + fun _ => δ m

theorem shifted_knots {s : MSpline ℝ (Fin 1 → ℝ)} (hs : SameKnots p.spline s) (δ : ℕ → ℝ) : SameKnots p.spline (shifted s δ) :=
  ⟨moved_mwf hs.mwf _, hs.evaluable, hs.order, (moved_keys _ _).trans hs.keys⟩

theorem shifted_vert (hp : Built ν K p) {s : MSpline ℝ (Fin 1 → ℝ)} (hs : SameKnots p.spline s) (δ : ℕ → ℝ) {j : ℕ} (hj : j < K + 7) :
    (shifted s δ).vert j 0 = s.vert j 0 + δ j := by
  have hlt : j < s.verts.length := by
    have : s.verts.length = s.keys.length := by simp [verts, keys]
    rw [this, hs.keys, hp.knots]
    simpa using hj
  unfold vert shifted
  rw [List.getD_eq_getElem?_getD, moved_verts, List.getD_eq_getElem?_getD, List.getElem?_eq_getElem hlt]
  rfl

theorem shifted_position (hp : Built ν K p) {s : MSpline ℝ (Fin 1 → ℝ)} (hs : SameKnots p.spline s) (δ : ℕ → ℝ) {k : ℕ} (hk : k ≤ K) :
    Spec.position (fun j => (shifted s δ).vert j 0) k = Spec.position (fun j => s.vert j 0) k + Spec.position δ k := by
  unfold Spec.position
  dsimp only
  rw [shifted_vert hp hs δ (by omega), shifted_vert hp hs δ (by omega), shifted_vert hp hs δ (by omega)]
  ring

theorem shifted_velocity (hp : Built ν K p) {s : MSpline ℝ (Fin 1 → ℝ)} (hs : SameKnots p.spline s) (δ : ℕ → ℝ) {k : ℕ} (hk : k ≤ K) :
    Spec.velocity (fun j => (shifted s δ).vert j 0) k = Spec.velocity (fun j => s.vert j 0) k + Spec.velocity δ k := by
  unfold Spec.velocity
  dsimp only
  rw [shifted_vert hp hs δ (by omega), shifted_vert hp hs δ (by omega)]
  ring

/-- **C114** is violated: no term depends on the last vertex, although its segment is one of the variables.  Whatever the optimiser arrives at, the
position at the end of the spline can be anything with the same errors. -/
theorem C114_violated (ν : Noise ℝ) (K : ℕ) (hK : 1 ≤ K) (p : Problem ℝ) (hp : Built ν K p) :
    Var.seg ((K : ℝ) - 1) ∈ p.dvs ∧ ∀ (s : MSpline ℝ (Fin 1 → ℝ)) (w : ℝ), SameKnots p.spline s →
      (∀ s', SameKnots p.spline s' → (∀ j, j < K + 2 → s.vert j = s'.vert j) → Spec.SameErrors p s w s' w) ∧
      ∀ x : ℝ, ∃ s', SameKnots p.spline s' ∧ (∀ j, j < K + 2 → s.vert j = s'.vert j) ∧ Spec.SameErrors p s w s' w ∧
        ∃ y, Tutorial.value s' 0 (K : ℝ) 0 = .ok y ∧ y 0 = x := by
  have key : ∀ (s : MSpline ℝ (Fin 1 → ℝ)) (w : ℝ), SameKnots p.spline s →
      ∀ s', SameKnots p.spline s' → (∀ j, j < K + 2 → s.vert j = s'.vert j) → Spec.SameErrors p s w s' w := by
    intro s w hs s' hs' h
    have e0 : ∀ k, k < K → Spec.position (fun j => s.vert j 0) k = Spec.position (fun j => s'.vert j 0) k := by
      intro k hk
      unfold Spec.position
      dsimp only
      rw [h k (by omega), h (k + 1) (by omega), h (k + 2) (by omega)]
    refine (sameErrors_iff hp hK hs hs').2 ⟨e0 0 hK, fun k hk => ⟨?_, by rw [e0 k hk]⟩⟩
    unfold Spec.velocity
    dsimp only
    rw [h k (by omega), h (k + 2) (by omega)]
  refine ⟨?_, fun s w hs => ⟨key s w hs, fun x => ?_⟩⟩
  · rw [hp.dvs, List.mem_append]
    refine .inl (List.mem_map.2 ⟨K + 2, List.mem_range.2 (by omega), ?_⟩)
    push_cast
    congr 1
    ring
  · set δ : ℕ → ℝ := fun j => if j = K + 2 then 6 * (x - Spec.position (fun j => s.vert j 0) K) else 0 with hδ
    have hs' := shifted_knots hs δ
    have hv : ∀ j, j < K + 2 → s.vert j = (shifted s δ).vert j := by
      intro j hj
      funext i
      rw [Subsingleton.elim i 0, shifted_vert hp hs δ (by omega), hδ]
      simp only [if_neg hj.ne, add_zero]
    refine ⟨_, hs', hv, key s w hs _ hs' hv, ?_⟩
    obtain ⟨y, h1, h2⟩ := hp.final hs' hK 0
    refine ⟨y, h1, ?_⟩
    rw [h2, shifted_position hp hs δ le_rfl]
    have : Spec.position δ K = x - Spec.position (fun j => s.vert j 0) K := by
      set q := Spec.position (fun j => s.vert j 0) K with hq
      rw [hδ]
      unfold Spec.position
      simp
    rw [this]
    ring

/-- **C114** is violated further with one step only, and with any number of steps while the wall is at the origin: then vertices that are not the last
can be moved without any change of the errors. -/
theorem C114_further_violated (ν : Noise ℝ) (K : ℕ) (hK : 1 ≤ K) (p : Problem ℝ) (hp : Built ν K p) (s : MSpline ℝ (Fin 1 → ℝ))
    (hs : SameKnots p.spline s) (w : ℝ) (h : K = 1 ∨ w = 0) (x : ℝ) :
    ∃ s', SameKnots p.spline s' ∧ Spec.SameErrors p s w s' w ∧ s'.vert 0 = s.vert 0 + fun _ => x := by
  set δ : ℕ → ℝ := fun j => if j % 2 = 0 then x else -x / 2 with hδ
  refine ⟨shifted s δ, shifted_knots hs δ, ?_, ?_⟩
  · have p0 : Spec.position δ 0 = 0 := by
      rw [hδ]
      unfold Spec.position
      norm_num
      ring
    have v0 : ∀ k, Spec.velocity δ k = 0 := by
      intro k
      rw [hδ]
      unfold Spec.velocity
      simp
    refine (sameErrors_iff hp hK hs (shifted_knots hs δ)).2 ⟨?_, fun k hk => ⟨?_, ?_⟩⟩
    · rw [shifted_position hp hs δ (by omega), p0, add_zero]
    · rw [shifted_velocity hp hs δ hk.le, v0, add_zero]
    · rcases h with rfl | rfl
      · obtain rfl : k = 0 := by omega
        rw [shifted_position hp hs δ (by omega), p0, add_zero]
      · simp
  · funext i
    rw [Subsingleton.elim i 0, shifted_vert hp hs δ (by omega)]
    simp [hδ]

/-- **C114**: without noise and with two steps or more, the only states of the variables that leave no error have the true wall and, until one
step before the end, the true motion. -/
theorem C114_truth (ν : Noise ℝ) (h0 : ∀ k, ν.odometry k = 0) (h1 : ∀ k, ν.measurement k = 0) (K : ℕ) (hK : 2 ≤ K) (p : Problem ℝ) (hp : Built ν K p)
    (s : MSpline ℝ (Fin 1 → ℝ)) (hs : SameKnots p.spline s) (w : ℝ) (hd : ∀ e ∈ p.terms, Defined s e) :
    (∀ e ∈ p.terms, e.error s w = .ok 0) ↔ w = 5 ∧ ∀ j : ℕ, j < K + 2 → s.vert j = fun _ => 9 + (j : ℝ) := by
  set δ : ℕ → ℝ := fun j => 9 + (j : ℝ) - s.vert j 0 with hδ
  have hv : ∀ j : ℕ, j < K + 3 → (shifted s δ).vert j = fun _ => 9 + (j : ℝ) := by
    intro j hj
    funext i
    rw [Subsingleton.elim i 0, shifted_vert hp hs δ (by omega), hδ]
    ring
  have ht := C69_truth ν h0 h1 K p hp _ (shifted_knots hs δ) hv
  constructor
  · intro h
    obtain ⟨a, b⟩ := C114_partial ν K hK p hp _ s (shifted_knots hs δ) hs 5 w (by norm_num) (fun e he => (ht e he).2) hd
      (fun e he => by rw [(ht e he).1, h e he])
    exact ⟨a.symm, fun j hj => (b j hj).symm.trans (hv j (by omega))⟩
  · rintro ⟨rfl, h⟩ e he
    rw [((C114_violated ν K (by omega) p hp).2 s 5 hs).1 _ (shifted_knots hs δ) (fun j hj => (h j hj).trans (hv j (by omega)).symm) e he]
    exact (ht e he).1

/-- **C114**, the violation as the optimiser sees it: in the Jacobians of every term the column of the last segment is zero. -/
theorem C114_column (ν : Noise ℝ) (K : ℕ) (hK : 1 ≤ K) (p : Problem ℝ) (hp : Built ν K p) (s : MSpline ℝ (Fin 1 → ℝ)) (hs : SameKnots p.spline s) (w : ℝ)
    (e : Term ℝ) (he : e ∈ p.terms) (hd : Defined s e) (J : List (Var ℝ × List ℝ)) (hJ : e.jacobians s w = .ok J) (δ : Var ℝ → ℕ → ℝ)
    (hδ : ∀ v, v ≠ .seg ((K : ℝ) - 1) → δ v = 0) : change J δ = 0 := by
  obtain ⟨vars, J', err, -, -, -, h1, -, h3, -, h5⟩ := C69_terms ν K p hp e he s hs w
  obtain rfl : J = J' := by rw [hJ, Outcome.ok.injEq] at h3; exact h3
  obtain ⟨f, f1, f2, f3⟩ := h5 hd δ
  have hw : δ .wall 0 = 0 := by rw [hδ .wall (by simp)]; rfl
  have hc : ∀ x, f x = err := by
    intro x
    have hk : SameKnots p.spline (vectorUpdated s (seen δ) x) := ⟨moved_mwf hs.mwf _, hs.evaluable, hs.order, (moved_keys _ _).trans hs.keys⟩
    have := ((C114_violated ν K hK p hp).2 s w hs).1 _ hk (fun j hj => ?_) e he
    · have h6 := f1 x
      rw [hw, mul_zero, add_zero, ← this, h1, Outcome.ok.injEq] at h6
      exact h6.symm
    · have hlt : j < s.verts.length := by
        have : s.verts.length = s.keys.length := by simp [verts, keys]
        rw [this, hs.keys, hp.knots]
        simp
        omega
      have hz : δ (.seg (s.kn j)) = 0 := by
        refine hδ _ fun h => ?_
        rw [Var.seg.injEq, hp.kn hs (by omega)] at h
        have : ((j : ℕ) : ℝ) = ((K + 2 : ℕ) : ℝ) := by push_cast; linarith
        have := Nat.cast_injective this
        omega
      unfold vert vectorUpdated
      rw [List.getD_eq_getElem?_getD, List.getD_eq_getElem?_getD, moved_verts, List.getElem?_eq_getElem hlt, Option.map_some, Option.getD_some,
        Option.getD_some]
      funext i
      simp [euclidean, seen, hz]
  have hf : f = fun _ => err := funext hc
  rw [hf] at f3
  exact f3.unique (hasDerivAt_const 0 err)

/-- Not vacuous: with noise and three steps, the start of the optimisation meets the hypotheses, and the position at the end can be 1000 with the same errors. -/
example : ∃ p, build someNoise 3 = .ok p ∧ Built someNoise 3 p ∧ SameKnots p.spline p.spline ∧ p.wall ≠ 0 ∧ (∀ e ∈ p.terms, Defined p.spline e) ∧
    Var.seg (2 : ℝ) ∈ p.dvs ∧ ∃ s', SameKnots p.spline s' ∧ Spec.SameErrors p p.spline p.wall s' p.wall ∧
      ∃ y, Tutorial.value s' 0 3 0 = .ok y ∧ y 0 = 1000 := by
  obtain ⟨p, h1, h2⟩ := C69_build_partial someNoise 3 (by norm_num)
  have hs : SameKnots p.spline p.spline := ⟨(h2.reach.mwf (by norm_num)).1, h2.evaluable, rfl, rfl⟩
  obtain ⟨v1, v2⟩ := C114_violated someNoise 3 (by norm_num) p h2
  obtain ⟨s', a, -, b, c⟩ := (v2 p.spline p.wall hs).2 1000
  refine ⟨p, h1, h2, hs, by rw [h2.wall]; norm_num, fun e he => ?_, ?_, s', a, b, by exact_mod_cast c⟩
  · rw [h2.terms, mem_terms] at he
    rcases he with rfl | ⟨k, hk, rfl | rfl⟩
    · trivial
    · trivial
    · exact ((C69_start _ _ p h2).2 k hk).2.2
  · have : ((3 : ℕ) : ℝ) - 1 = 2 := by norm_num
    rwa [this] at v1

end errors

end Tutorial

end Verif
