import Verif.Model.FixedSizeMaps
import Verif.Props.SplineVariables

/-!
# C96: design variables of a fixed size are the coefficients of their spline

With the dimension of the spline the class is that of C42 (`C96_same`); with another one the design variables do not let an optimiser move
the coefficients (`C96_free_iff`).
-/

set_option linter.unusedSectionVars false

namespace Verif

open BSpline

namespace WideVars

variable {K : Type*} [Field K] [LinearOrder K] {D E : ℕ}

/-! ### Memory -/

theorem getD_at {α : Type*} {l : List α} {j : ℕ} {z : α} (h : j < l.length) : l.getD j z = l[j] := by
  rw [List.getD_eq_getElem?_getD, List.getElem?_eq_getElem h]
  rfl

theorem memory_entry (s : BSpline K D) (j : ℕ) (d : Fin D) : memory s (j * D + d) = s.col j d := by
  have h : 0 < D := by have := d.2; omega
  unfold memory
  rw [dif_pos h]
  have h1 : (j * D + (d : ℕ)) / D = j := by
    rw [Nat.add_comm, Nat.add_mul_div_right _ _ h, Nat.div_eq_of_lt d.2, Nat.zero_add]
  have h2 : (j * D + (d : ℕ)) % D = d := by
    rw [Nat.add_comm, Nat.add_mul_mod_self_right, Nat.mod_eq_of_lt d.2]
  simp only [h1, h2]

@[simp] theorem poke_length (s : BSpline K D) (o : ℕ) (c : Fin E → K) : (poke s o c).coeffs.length = s.coeffs.length := by simp [poke]

theorem poke_col (s : BSpline K D) (o : ℕ) (c : Fin E → K) {j : ℕ} (hj : j < s.coeffs.length) (d : Fin D) :
    (poke s o c).col j d =
      if h : o ≤ j * D + d ∧ j * D + d < o + E then c ⟨j * D + d - o, by omega⟩ else s.col j d := by
  have : (poke s o c).col j = fun d : Fin D =>
      if h : o ≤ j * D + d ∧ j * D + d < o + E then c ⟨j * D + d - o, by omega⟩ else s.col j d := by
    unfold BSpline.col poke
    rw [getD_at (by simpa using hj)]
    simp [BSpline.col]
  rw [this]

theorem coeffs_ext {s s' : BSpline K D} (hl : s.coeffs.length = s'.coeffs.length)
    (h : ∀ j < s.coeffs.length, ∀ d, s.col j d = s'.col j d) : s.coeffs = s'.coeffs := by
  refine List.ext_getElem hl fun j h1 h2 => ?_
  funext d
  have := h j h1 d
  unfold BSpline.col at this
  rwa [getD_at h1, getD_at h2] at this

theorem within {j i D e : ℕ} (he : e < D) : (i * D ≤ j * D + e ∧ j * D + e < i * D + D) ↔ j = i := by
  constructor
  · rintro ⟨h1, h2⟩
    rcases Nat.lt_trichotomy j i with h | h | h
    · have : (j + 1) * D ≤ i * D := Nat.mul_le_mul_right D h
      rw [Nat.add_mul] at this
      omega
    · exact h
    · have : (i + 1) * D ≤ j * D := Nat.mul_le_mul_right D h
      rw [Nat.add_mul] at this
      omega
  · rintro rfl
    omega

theorem poke_same (s : BSpline K D) (i : ℕ) (c : Fin D → K) :
    poke s (i * D) c = BSpline.mk (K := K) s.order s.knots (s.coeffs.set i c) s.basis := by
  have h : (poke s (i * D) c).coeffs = s.coeffs.set i c := by
    refine List.ext_getElem (by simp) fun j h1 h2 => ?_
    have hj : j < s.coeffs.length := by simpa using h1
    funext d
    have hc := poke_col s (i * D) c hj d
    unfold BSpline.col at hc
    rw [getD_at h1, getD_at hj] at hc
    rw [hc, List.getElem_set]
    by_cases hij : j = i
    · rw [dif_pos ((within d.2).2 hij), if_pos hij.symm]
      congr 1
      apply Fin.ext
      subst hij
      show j * D + (d : ℕ) - j * D = d
      omega
    · rw [dif_neg (fun h => hij ((within d.2).1 h)), if_neg (fun h => hij h.symm)]
  unfold poke at h ⊢
  exact congrArg (fun cs => BSpline.mk (K := K) s.order s.knots cs s.basis) h

/-! ### The dimension of the spline -/

/-- The object of C42 as an object with design variables of the size of the coefficients. -/
def ofSame (v : SplineVars K D) : WideVars K D D := ⟨v.spline, v.buffer, v.vars, v.fresh⟩

/-- The operations of C42. -/
def ofOp : SplineVars.Op K D → Op K D D
  | .add t p junk => .add t p junk
  | .add2 t p lambda junk => .add2 t p lambda junk
  | .remove => .remove
  | .update i dp => .update i dp
  | .revert i => .revert i

theorem deref_same (v : SplineVars K D) (x : MappedVar K D) : (ofSame v).deref x = v.deref x := by
  unfold deref SplineVars.deref ofSame
  dsimp only
  by_cases hb : x.buffer = v.buffer
  · by_cases hc : x.column < v.spline.coeffs.length
    · have : x.column * D + D ≤ v.spline.coeffs.length * D := by
        have : (x.column + 1) * D ≤ v.spline.coeffs.length * D := Nat.mul_le_mul_right D hc
        rwa [Nat.add_mul, Nat.one_mul] at this
      rw [if_pos ⟨hb, hc, this⟩, if_pos hb, List.getElem?_eq_getElem hc]
      congr 1
      funext e
      rw [memory_entry]
      unfold BSpline.col
      rw [getD_at hc]
    · rw [if_neg (fun h => hc h.2.1), if_pos hb, List.getElem?_eq_none (by omega)]
  · rw [if_neg (fun h => hb h.1), if_neg hb]

theorem store_same (v : SplineVars K D) (x : MappedVar K D) (c : Fin D → K) : (ofSame v).store x c = v.store x c := by
  unfold store SplineVars.store
  rw [deref_same]
  have : poke (ofSame v).spline (x.column * D) c = _ := poke_same v.spline x.column c
  rw [this]

theorem attach_same (v : SplineVars K D) (s : BSpline K D) : (ofSame v).attach s = (v.attach s).map ofSame := by
  unfold attach SplineVars.attach ofSame
  dsimp only
  split_ifs
  · rfl
  · rcases SplineVars.remap (v.buffer + 1) _ (s.coeffs.length - 1) with _ | _ | _ <;> rfl

theorem bind_map' {α β γ : Type*} (o : Outcome α) (f : α → Outcome β) (g : β → γ) :
    (o.bind f).map g = o.bind fun a => (f a).map g := by
  rcases o with _ | _ | _ <;> rfl

theorem map_map' {α β γ : Type*} (o : Outcome α) (f : α → β) (g : β → γ) : (o.map f).map g = o.map fun a => g (f a) := by
  rcases o with _ | _ | _ <;> rfl

theorem step_same (solve : Solver K) (v : SplineVars K D) (op : SplineVars.Op K D) :
    (ofSame v).step solve (ofOp op) = (v.step solve op).map ofSame := by
  cases op with
  | add t p junk =>
    show (v.spline.addCurveSegment solve t p junk).bind (ofSame v).attach = ((v.spline.addCurveSegment solve t p junk).bind v.attach).map ofSame
    rw [bind_map', funext (attach_same v)]
  | add2 t p lambda junk =>
    show (v.spline.addCurveSegment2 solve t p lambda junk).bind (ofSame v).attach =
      ((v.spline.addCurveSegment2 solve t p lambda junk).bind v.attach).map ofSame
    rw [bind_map', funext (attach_same v)]
  | remove =>
    show (ofSame v).removeSegment = v.removeSegment.map ofSame
    unfold removeSegment SplineVars.removeSegment ofSame
    dsimp only
    rcases v.vars with _ | ⟨x, rest⟩
    · rfl
    · rw [map_map']
  | update i dp =>
    show (ofSame v).update i dp = (v.update i dp).map ofSame
    unfold update SplineVars.update
    have : (ofSame v).designVariable i = v.designVariable i := rfl
    rw [this, bind_map']
    congr 1
    funext x
    rw [bind_map', deref_same]
    congr 1
    funext c
    rw [map_map', store_same]
    rfl
  | revert i =>
    show (ofSame v).revert i = (v.revert i).map ofSame
    unfold revert SplineVars.revert
    have : (ofSame v).designVariable i = v.designVariable i := rfl
    rw [this, bind_map']
    congr 1
    funext x
    rw [map_map', store_same]
    rfl

/-- **C96**: on a spline of the dimension of the design variables the class is that of C42, whatever is done with it. -/
theorem C96_same (solve : Solver K) (s : BSpline K D) :
    (create s : WideVars K D D) = ofSame (SplineVars.create s) ∧
    ∀ (ops : List (SplineVars.Op K D)) (v : SplineVars K D),
      (ofSame v).run solve (ops.map ofOp) = (v.run solve ops).map ofSame := by
  refine ⟨rfl, fun ops => ?_⟩
  induction ops with
  | nil => intro v; rfl
  | cons op ops ih =>
    intro v
    rw [List.map_cons, run, SplineVars.run, step_same]
    rcases v.step solve op with v' | _ | _
    · exact ih v'
    · exact ih v
    · rfl

/-! ### Other dimensions -/

/-- The pointers of the design variables are to the coefficients with their indices. -/
structure InPlace (v : WideVars K D E) : Prop where
  count : v.vars.length = v.spline.coeffs.length
  place : ∀ i (x : MappedVar K E), v.vars[i]? = some x → x.buffer = v.buffer ∧ x.column = i

theorem inPlace_create (s : BSpline K D) : InPlace (create s : WideVars K D E) := by
  constructor
  · simp [create]
  · intro i x h
    simp only [create, List.getElem?_map] at h
    rcases hi : (List.range s.coeffs.length)[i]? with _ | j
    · rw [hi] at h; simp at h
    · rw [hi] at h
      obtain ⟨h1, h2⟩ := List.getElem?_eq_some_iff.1 hi
      have h2 : i = j := by simpa using h2
      obtain rfl := Option.some.inj h
      exact ⟨rfl, h2.symm⟩

theorem deref_at {v : WideVars K D E} (h : InPlace v) {i : ℕ} {x : MappedVar K E} (hx : v.vars[i]? = some x) :
    v.deref x = if i * D + E ≤ v.spline.coeffs.length * D then .ok fun e => memory v.spline (i * D + e) else .ub := by
  obtain ⟨h1, h2⟩ := h.place i x hx
  have hi : i < v.spline.coeffs.length := by
    rw [← h.count]
    exact (List.getElem?_eq_some_iff.1 hx).1
  unfold deref
  rw [h1, h2]
  simp [hi]

theorem designVariable_at {v : WideVars K D E} (h : InPlace v) {i : ℕ} (hi : i < v.spline.coeffs.length) :
    ∃ x, v.vars[i]? = some x ∧ v.designVariable i = .ok x := by
  have hl : i < v.vars.length := by rw [h.count]; exact hi
  refine ⟨v.vars[i], List.getElem?_eq_getElem hl, ?_⟩
  unfold designVariable
  rw [List.getElem?_eq_getElem hl]

theorem update_at {v : WideVars K D E} (h : InPlace v) {i : ℕ} (hi : i < v.spline.coeffs.length) (dp : Fin E → K) :
    (i * D + E ≤ v.spline.coeffs.length * D →
      ∃ v', v.update i dp = .ok v' ∧ InPlace v' ∧ v'.buffer = v.buffer ∧
        v'.spline = poke v.spline (i * D) fun e => memory v.spline (i * D + e) + dp e) ∧
    (v.spline.coeffs.length * D < i * D + E → v.update i dp = .ub) := by
  obtain ⟨x, hx, hd⟩ := designVariable_at h hi
  obtain ⟨hp1, hp2⟩ := h.place i x hx
  have hr := deref_at h hx
  constructor
  · intro hb
    rw [if_pos hb] at hr
    unfold update store
    rw [hd, Outcome.bind_ok, hr, Outcome.bind_ok, Outcome.map_ok, Outcome.map_ok]
    refine ⟨_, rfl, ⟨?_, ?_⟩, rfl, ?_⟩
    · simp [h.count]
    · intro k y hy
      rw [List.getElem?_set] at hy
      split_ifs at hy with h1 h2
      · obtain rfl := Option.some.inj hy
        exact ⟨hp1, by rw [← h1]; exact hp2⟩
      · exact h.place k y hy
    · rw [hp2]
  · intro hb
    rw [if_neg (by omega)] at hr
    unfold update
    rw [hd, Outcome.bind_ok, hr]
    rfl

theorem revert_at {v : WideVars K D E} (h : InPlace v) {i : ℕ} (hi : i < v.spline.coeffs.length)
    (hb : i * D + E ≤ v.spline.coeffs.length * D) :
    ∃ v' c, v.revert i = .ok v' ∧ InPlace v' ∧ v'.buffer = v.buffer ∧ v'.spline = poke v.spline (i * D) (c : Fin E → K) := by
  obtain ⟨x, hx, hd⟩ := designVariable_at h hi
  obtain ⟨hp1, hp2⟩ := h.place i x hx
  have hr := deref_at h hx
  rw [if_pos hb] at hr
  unfold revert store
  rw [hd, Outcome.bind_ok, hr, Outcome.map_ok, Outcome.map_ok]
  refine ⟨_, x.saved, rfl, ⟨?_, h.place⟩, rfl, by rw [hp2]⟩
  simp [h.count]

/-- Every coefficient can be given any value by updating its design variable, without changing another coefficient. -/
def Free (v : WideVars K D E) : Prop :=
  ∀ i < v.spline.coeffs.length, ∀ target : Fin D → K, ∃ dp v', v.update i dp = .ok v' ∧
    v'.spline.coeffs = v.spline.coeffs.set i target

/-- **C96**: design variables of size `E` are the coefficients of a spline with at least one coefficient exactly if the dimension of the
spline is `E`. -/
theorem C96_free_iff (s : BSpline K D) (hs : s.coeffs ≠ []) : Free (create s : WideVars K D E) ↔ D = E := by
  have hn : 0 < s.coeffs.length := List.length_pos_of_ne_nil hs
  have hp : InPlace (create s : WideVars K D E) := inPlace_create s
  constructor
  · intro hf
    rcases Nat.lt_trichotomy D E with h | h | h
    · have hlast : s.coeffs.length * D < (s.coeffs.length - 1) * D + E := by
        obtain ⟨m, hm⟩ : ∃ m, s.coeffs.length = m + 1 := ⟨s.coeffs.length - 1, by omega⟩
        rw [hm, Nat.add_sub_cancel, Nat.add_mul]
        omega
      obtain ⟨dp, v', h1, -⟩ := hf (s.coeffs.length - 1) (by show _ < s.coeffs.length; omega) 0
      rw [(update_at hp (i := s.coeffs.length - 1) (by show _ < s.coeffs.length; omega) dp).2 hlast] at h1
      simp at h1
    · exact h
    · have hE : 0 * D + E ≤ s.coeffs.length * D := by
        have : 1 * D ≤ s.coeffs.length * D := Nat.mul_le_mul_right D hn
        omega
      obtain ⟨dp, v', h1, h2⟩ := hf 0 hn fun d => s.col 0 d + 1
      obtain ⟨w, h3, -, -, h4⟩ := (update_at hp (i := 0) hn dp).1 hE
      rw [h3] at h1
      obtain rfl := Outcome.ok.inj h1
      have hcol := poke_col s (0 * D) (fun e => memory s (0 * D + e) + dp e) hn ⟨E, h⟩
      rw [dif_neg (by simp)] at hcol
      have h5 : w.spline.col 0 ⟨E, h⟩ = s.col 0 ⟨E, h⟩ := by rw [h4]; exact hcol
      have h6 : w.spline.col 0 ⟨E, h⟩ = s.col 0 ⟨E, h⟩ + 1 := by
        unfold BSpline.col
        rw [h2]
        show (s.coeffs.set 0 (fun d => s.col 0 d + 1)).getD 0 0 ⟨E, h⟩ = _
        rw [getD_at (by simpa using hn), List.getElem_set_self]
        rfl
      rw [h5] at h6
      simp at h6
  · rintro rfl i hi target
    have hE : i * D + D ≤ s.coeffs.length * D := by
      have : (i + 1) * D ≤ s.coeffs.length * D := Nat.mul_le_mul_right D hi
      rwa [Nat.add_mul, Nat.one_mul] at this
    obtain ⟨w, h3, -, -, h4⟩ := (update_at hp hi fun e => target e - memory s (i * D + e)).1 hE
    refine ⟨_, w, h3, ?_⟩
    rw [h4]
    show (poke s (i * D) fun e => memory s (i * D + e) + (target e - memory s (i * D + e))).coeffs = _
    rw [poke_same]
    simp only [add_sub_cancel]
    rfl

/-- Only updates and reverts. -/
def OnlyValues : Op K D E → Prop
  | .update _ _ => True
  | .revert _ => True
  | _ => False

theorem frozen_step (solve : Solver K) {v : WideVars K D E} (hv : InPlace v) (hDE : E ≤ D) (op : Op K D E) (ho : OnlyValues op) :
    v.step solve op = .throws ∨ ∃ v', v.step solve op = .ok v' ∧ InPlace v' ∧ v'.spline.coeffs.length = v.spline.coeffs.length ∧
      ∀ j < v.spline.coeffs.length, ∀ d : Fin D, E ≤ d → v'.spline.col j d = v.spline.col j d := by
  have hfit : ∀ i < v.spline.coeffs.length, i * D + E ≤ v.spline.coeffs.length * D := by
    intro i hi
    have : (i + 1) * D ≤ v.spline.coeffs.length * D := Nat.mul_le_mul_right D hi
    rw [Nat.add_mul] at this
    omega
  have hkeep : ∀ (i : ℕ) (c : Fin E → K), ∀ j < v.spline.coeffs.length, ∀ d : Fin D, E ≤ d →
      (poke v.spline (i * D) c).col j d = v.spline.col j d := by
    intro i c j hj d hd
    rw [poke_col v.spline _ c hj d, dif_neg]
    rintro ⟨h1, h2⟩
    have h3 := (within (i := i) (j := j) d.2).1 ⟨h1, by omega⟩
    subst h3
    omega
  have hout : ∀ i, ¬ i < v.spline.coeffs.length → v.designVariable i = .throws := by
    intro i hi
    unfold designVariable
    rw [List.getElem?_eq_none (by rw [hv.count]; omega)]
  cases op with
  | add t p junk => exact absurd ho (by simp [OnlyValues])
  | add2 t p lambda junk => exact absurd ho (by simp [OnlyValues])
  | remove => exact absurd ho (by simp [OnlyValues])
  | update i dp =>
    by_cases hi : i < v.spline.coeffs.length
    · obtain ⟨w, h1, h2, -, h4⟩ := (update_at hv hi dp).1 (hfit i hi)
      exact Or.inr ⟨w, h1, h2, by rw [h4]; simp, fun j hj d hd => by rw [h4]; exact hkeep i _ j hj d hd⟩
    · refine Or.inl ?_
      show v.update i dp = .throws
      unfold update
      rw [hout i hi]
      rfl
  | revert i =>
    by_cases hi : i < v.spline.coeffs.length
    · obtain ⟨w, c, h1, h2, -, h4⟩ := revert_at hv hi (hfit i hi)
      exact Or.inr ⟨w, h1, h2, by rw [h4]; simp, fun j hj d hd => by rw [h4]; exact hkeep i _ j hj d hd⟩
    · refine Or.inl ?_
      show v.revert i = .throws
      unfold revert
      rw [hout i hi]
      rfl

theorem frozen_run (solve : Solver K) (hDE : E ≤ D) : ∀ (ops : List (Op K D E)) (v : WideVars K D E), InPlace v →
    (∀ op ∈ ops, OnlyValues op) → ∃ v', v.run solve ops = .ok v' ∧ v'.spline.coeffs.length = v.spline.coeffs.length ∧
      ∀ j < v.spline.coeffs.length, ∀ d : Fin D, E ≤ d → v'.spline.col j d = v.spline.col j d
  | [], v, _, _ => ⟨v, rfl, rfl, fun _ _ _ _ => rfl⟩
  | op :: ops, v, hv, ho => by
    rcases frozen_step solve hv hDE op (ho op (by simp)) with h | ⟨w, h, hw, hl, hk⟩
    · obtain ⟨v', h1, h2, h3⟩ := frozen_run solve hDE ops v hv fun o h => ho o (by simp [h])
      refine ⟨v', ?_, h2, h3⟩
      rw [run, h]
      exact h1
    · obtain ⟨v', h1, h2, h3⟩ := frozen_run solve hDE ops w hw fun o h => ho o (by simp [h])
      refine ⟨v', ?_, h2.trans hl, fun j hj d hd => ?_⟩
      · rw [run, h]
        exact h1
      · rw [h3 j (by rw [hl]; exact hj) d hd, hk j hj d hd]

/-- **C96** (what happens if the spline has a larger dimension): whatever updates and reverts an optimiser makes, the components from `E` on
of all coefficients stay what they were. -/
theorem C96_frozen (solve : Solver K) (s : BSpline K D) (hDE : E ≤ D) (ops : List (Op K D E)) (ho : ∀ op ∈ ops, OnlyValues op) :
    ∃ v', (create s : WideVars K D E).run solve ops = .ok v' ∧
      ∀ j < s.coeffs.length, ∀ d : Fin D, E ≤ d → v'.spline.col j d = s.col j d := by
  obtain ⟨v', h1, -, h3⟩ := frozen_run solve hDE ops (create s) (inPlace_create s) ho
  exact ⟨v', h1, h3⟩

/-- **C96** (what happens if the spline has a smaller dimension): the last design variable reaches beyond the memory of the coefficients, and
the update of another one that does not also changes the coefficient that follows. -/
theorem C96_overlap (s : BSpline K D) (hDE : D < E) (dp : Fin E → K) :
    (0 < s.coeffs.length → (create s : WideVars K D E).update (s.coeffs.length - 1) dp = .ub) ∧
    (∀ i, i + 1 < s.coeffs.length → i * D + E ≤ s.coeffs.length * D → ∃ v', (create s : WideVars K D E).update i dp = .ok v' ∧
      ∀ d : Fin D, (hd : D + d < E) → v'.spline.col (i + 1) d = s.col (i + 1) d + dp ⟨D + d, hd⟩) := by
  have hp : InPlace (create s : WideVars K D E) := inPlace_create s
  constructor
  · intro hn
    refine (update_at hp (i := s.coeffs.length - 1) (by show _ < s.coeffs.length; omega) dp).2 ?_
    show s.coeffs.length * D < _
    obtain ⟨m, hm⟩ : ∃ m, s.coeffs.length = m + 1 := ⟨s.coeffs.length - 1, by omega⟩
    rw [hm, Nat.add_sub_cancel, Nat.add_mul]
    omega
  · intro i hi hb
    obtain ⟨w, h3, -, -, h4⟩ := (update_at hp (i := i) (by show i < s.coeffs.length; omega) dp).1 hb
    refine ⟨w, h3, fun d hd => ?_⟩
    rw [h4]
    show (poke s (i * D) fun e => memory s (i * D + e) + dp e).col (i + 1) d = _
    have e1 : (i + 1) * D = i * D + D := by rw [Nat.add_mul, Nat.one_mul]
    rw [poke_col s _ _ hi d, dif_pos (by rw [e1]; omega)]
    have e2 : (i + 1) * D + (d : ℕ) - i * D = D + d := by rw [e1]; omega
    have e3 : i * D + ((i + 1) * D + (d : ℕ) - i * D) = (i + 1) * D + d := by rw [e1]; omega
    show memory s (i * D + ((i + 1) * D + (d : ℕ) - i * D)) + dp ⟨(i + 1) * D + (d : ℕ) - i * D, _⟩ = _
    rw [e3, memory_entry]
    congr 2
    exact Fin.ext e2

/-- **C96**: the vector expression of a spline of another dimension is refused; the Euclidean one is made, and its value is undefined. -/
theorem C96_expressions (s : BSpline K D) (hDE : D ≠ E) (t : K) (order : ℤ) (is : List ℕ) (x : Fin D → K)
    (hi : s.localVvCoefficientVectorIndices t = .ok is) (hx : s.evalD t order = .ok x) :
    (create s : WideVars K D E).toExpression t = .throws ∧
    (create s : WideVars K D E).toEuclideanExpression t = .ok is ∧
    (create s : WideVars K D E).euclideanValue t order = .ub := by
  refine ⟨?_, hi, ?_⟩
  · unfold toExpression
    rw [show (create s : WideVars K D E).spline = s from rfl, hi, Outcome.bind_ok, if_neg hDE]
  · unfold euclideanValue
    rw [show (create s : WideVars K D E).spline = s from rfl, hx, Outcome.bind_ok, dif_neg (fun h => hDE h.symm)]

/-- **C96**: expressions of a spline of the dimension of the design variables. -/
theorem C96_expressions_same (v : WideVars K D D) (t : K) (order : ℤ) :
    v.toExpression t = v.spline.localVvCoefficientVectorIndices t ∧
    v.toEuclideanExpression t = v.spline.localVvCoefficientVectorIndices t ∧
    v.euclideanValue t order = v.spline.evalD t order := by
  refine ⟨?_, rfl, ?_⟩
  · unfold toExpression
    rcases v.spline.localVvCoefficientVectorIndices t with _ | _ | _ <;> simp [Outcome.bind]
  · unfold euclideanValue
    rcases v.spline.evalD t order with _ | _ | _ <;> simp [Outcome.bind]

/-! ### Witnesses -/

/-- A line in the plane. -/
def planar : BSpline ℚ 2 := initializeBasisMatrices ⟨2, [0, 1, 2, 3, 4], [![1, 5], ![2, 7], ![4, 0]], []⟩

/-- **C96** is violated: the constructor takes a spline of the plane for design variables of size one and of size three.  With size one the
second components cannot be moved; with size three the update of the first design variable moves the second coefficient too, and
the last one is outside of the memory of the spline. -/
theorem C96_violated :
    ¬ Free (create planar : WideVars ℚ 2 1) ∧ ¬ Free (create planar : WideVars ℚ 2 3) ∧
    ((create planar : WideVars ℚ 2 3).update 0 ![0, 0, 10]).map (fun v => v.spline.coeffs) = .ok [![1, 5], ![12, 7], ![4, 0]] ∧
    ((create planar : WideVars ℚ 2 3).update 2 ![0, 0, 0]).map (fun v => v.spline.coeffs) = .ub ∧
    ((create planar : WideVars ℚ 2 3).euclideanValue 1 0) = .ub := by
  refine ⟨fun h => ?_, fun h => ?_, by decide +kernel, by decide +kernel, by decide +kernel⟩
  · exact absurd ((C96_free_iff planar (by decide)).1 h) (by decide)
  · exact absurd ((C96_free_iff planar (by decide)).1 h) (by decide)

/-- `C96_frozen` for two updates and a revert: the second components stay. -/
example (solve : Solver ℚ) : ∃ v', (create planar : WideVars ℚ 2 1).run solve [.update 0 ![1], .update 2 ![3], .revert 0] = .ok v' ∧
    ∀ j < 3, ∀ d : Fin 2, 1 ≤ (d : ℕ) → v'.spline.col j d = planar.col j d :=
  C96_frozen solve planar (by decide) _ (by simp [OnlyValues])

/-- `C96_overlap` for the second of three coefficients of dimension two and size three. -/
example : ∃ v', (create planar : WideVars ℚ 2 3).update 1 ![0, 0, 5] = .ok v' ∧ v'.spline.col 2 0 = 9 := by
  obtain ⟨v', h1, h2⟩ := (C96_overlap planar (E := 3) (by decide) ![0, 0, 5]).2 1 (by decide) (by decide)
  refine ⟨v', h1, (h2 0 (by decide)).trans ?_⟩
  decide +kernel

/-- The hypotheses of `C96_expressions` hold. -/
example : planar.localVvCoefficientVectorIndices 1 = .ok [0, 1] ∧ planar.evalD 1 0 = .ok ![1, 5] := by decide +kernel

end WideVars
end Verif
