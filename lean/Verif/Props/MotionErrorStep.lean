import Verif.Props.NullSpace
import Verif.Lemmas.FitterAlgebra

/-!
# Gauss-Newton steps with a motion error (C115)
-/

set_option linter.unusedSectionVars false

namespace Verif

open Finset

namespace MotionError

open BSpline

variable {D : ℕ}

/-! ## Specification -/

/-- The weight is positive semidefinite. -/
def Spec.Semidefinite (D : ℕ) (W : Mat ℝ) : Prop := ∀ y : Fin D → ℝ, 0 ≤ ∑ d : Fin D, ∑ e : Fin D, W d e * (y d * y e)

/-- `δ` solves the equations of a Gauss-Newton step for what one error term added to Hessian and right hand side. -/
def Spec.NormalEquations (D n : ℕ) (vars : ℕ → SolverVar) (dims : ℕ → ℕ) (H H' : SparseBlocks ℝ) (b b' : ℕ → ℝ) (δ : ℕ → Fin D → ℝ) : Prop :=
  ∀ i < n, (vars i).active = true → ∀ r : Fin D,
    ∑ j ∈ range n, ∑ c : Fin D, (if (vars j).active then completed H H' (vars i).blockIndex (vars j).blockIndex r c * δ j c else 0)
      = b' (colBase dims (vars i).blockIndex + r) - b (colBase dims (vars i).blockIndex + r)

/-- The spline after the active variables have been moved by `δ`. -/
structure Spec.Moved (vars : ℕ → SolverVar) (s : BSpline ℝ D) (δ : ℕ → Fin D → ℝ) (s' : BSpline ℝ D) : Prop where
  shape : SameShape s s'
  coeffs : ∀ i < s.coeffs.length, ∀ d, s'.col i d = s.col i d + if (vars i).active then δ i d else 0

/-! ## The quadratic form of a motion error -/

/-- The form of the matrix `Q`. -/
noncomputable def form (m : MotionError ℝ) (u v : ℕ → Fin D → ℝ) : ℝ :=
  ∑ i ∈ range m.blocks, ∑ r : Fin D, u i r * ∑ j ∈ range m.blocks, ∑ c : Fin D, entry m.Q i j r c * v j c

theorem form_eq (m : MotionError ℝ) (u v : ℕ → Fin D → ℝ) :
    form m u v = ∑ i ∈ range m.blocks, ∑ r : Fin D, ∑ j ∈ range m.blocks, ∑ c : Fin D, u i r * entry m.Q i j r c * v j c := by
  unfold form
  simp only [mul_sum, mul_assoc]

theorem form_congr {m : MotionError ℝ} {u u' v v' : ℕ → Fin D → ℝ} (hu : ∀ i < m.blocks, ∀ r, u i r = u' i r) (hv : ∀ i < m.blocks, ∀ r, v i r = v' i r) :
    form m u v = form m u' v' := by
  unfold form
  refine sum_congr rfl fun i hi => sum_congr rfl fun r _ => ?_
  rw [hu i (mem_range.1 hi)]
  congr 1
  refine sum_congr rfl fun j hj => sum_congr rfl fun c _ => ?_
  rw [hv j (mem_range.1 hj)]

theorem form_add (m : MotionError ℝ) (u v z : ℕ → Fin D → ℝ) : form m (fun i r => u i r + v i r) z = form m u z + form m v z := by
  unfold form
  simp only [add_mul, sum_add_distrib]

theorem form_smul (m : MotionError ℝ) (a : ℝ) (u z : ℕ → Fin D → ℝ) : form m (fun i r => a * u i r) z = a * form m u z := by
  unfold form
  simp only [mul_sum, mul_assoc]

/-- What the construction of a motion error gives. -/
structure Form (s : BSpline ℝ D) (m : MotionError ℝ) : Prop where
  blocks : m.blocks = s.coeffs.length
  symm : ∀ i < m.blocks, ∀ j < m.blocks, ∀ r c : Fin D, entry m.Q i j r c = entry m.Q j i c r
  symm' : ∀ i < m.blocks, ∀ j < m.blocks, ∀ r c : Fin D, entry m.Q i j r c = entry m.Q i j c r
  value : ∀ s' : BSpline ℝ D, SameShape s s' → m.evaluate s' = .ok (form m s'.col s'.col)
  nonneg : ∀ u : ℕ → Fin D → ℝ, 0 ≤ form m u u

theorem Form.comm {s : BSpline ℝ D} {m : MotionError ℝ} (F : Form s m) (u v : ℕ → Fin D → ℝ) : form m u v = form m v u := by
  rw [form_eq, form_eq]
  have flat : ∀ G : ℕ → Fin D → ℕ → Fin D → ℝ,
      ∑ i ∈ range m.blocks, ∑ r : Fin D, ∑ j ∈ range m.blocks, ∑ c : Fin D, G i r j c
        = ∑ x ∈ range m.blocks ×ˢ (univ : Finset (Fin D)), ∑ z ∈ range m.blocks ×ˢ (univ : Finset (Fin D)), G x.1 x.2 z.1 z.2 := by
    intro G
    simp only [sum_product]
  rw [flat, flat, sum_comm]
  refine sum_congr rfl fun x hx => sum_congr rfl fun y hy => ?_
  rw [F.symm y.1 (mem_range.1 (mem_product.1 hy).1) x.1 (mem_range.1 (mem_product.1 hx).1)]
  ring

theorem Form.expand {s : BSpline ℝ D} {m : MotionError ℝ} (F : Form s m) (u v : ℕ → Fin D → ℝ) :
    form m (fun i r => u i r + v i r) (fun i r => u i r + v i r) = form m u u + 2 * form m v u + form m v v := by
  rw [form_add, F.comm u, F.comm v, form_add, form_add, F.comm u v]
  ring

theorem Form.line {s : BSpline ℝ D} {m : MotionError ℝ} (F : Form s m) (u v : ℕ → Fin D → ℝ) (a : ℝ) :
    form m (fun i r => u i r + a * v i r) (fun i r => u i r + a * v i r) = form m u u + a * (2 * form m v u) + a ^ 2 * form m v v := by
  have e : form m v (fun i r => a * v i r) = a * form m v v := by rw [F.comm, form_smul]
  rw [F.expand u fun i r => a * v i r, form_smul, form_smul, e]
  ring

/-- A vector without error is orthogonal to everything. -/
theorem Form.null {s : BSpline ℝ D} {m : MotionError ℝ} (F : Form s m) {u v : ℕ → Fin D → ℝ} (h : ∀ a : ℝ, 0 ≤ a * (2 * form m u v) + a ^ 2 * form m u u) :
    form m u v = 0 := by
  have hq := F.nonneg u
  by_contra hne
  set f := form m u v
  set q := form m u u
  have h1 := h (-f / (q + 1))
  have hq1 : 0 < q + 1 := by linarith
  have : -f / (q + 1) * (2 * f) + (-f / (q + 1)) ^ 2 * q = -(f ^ 2 * (q + 2)) / (q + 1) ^ 2 := by
    field_simp
    ring
  rw [this] at h1
  have h2 : 0 < f ^ 2 * (q + 2) := mul_pos (by positivity) (by linarith)
  have h3 : -(f ^ 2 * (q + 2)) / (q + 1) ^ 2 < 0 := div_neg_of_neg_of_pos (by linarith) (by positivity)
  linarith

theorem exists_form (s : BSpline ℝ D) (h : s.WF) (hw : s.WideLast) (W : Mat ℝ) (hW : ∀ r < D, ∀ c < D, W r c = W c r)
    (hp : Spec.Semidefinite D W) (o : ℕ) (ho : o < 2 ^ 31) : ∃ m, create s W o = .ok m ∧ Form s m := by
  have hacc : AcceptedWeight D W := by
    intro r hr c hc
    rw [hW r hr c hc, sub_self, abs_zero]
    norm_num
  obtain ⟨m, Q, g, hm, hbl, -, hg, -, he⟩ := create_ok h W hacc o
  have val : ∀ s' : BSpline ℝ D, SameShape s s' → m.evaluate s' = .ok (form m s'.col s'.col) := by
    intro s' hs
    rw [evaluate_eq (hs.length.trans hbl.symm), form_eq]
  refine ⟨m, hm, hbl, fun i hi j hj r c => ?_, fun i hi j hj r c => ?_, val, fun u => ?_⟩
  · rw [hbl] at hi hj
    rw [he i hi j hj r r.2 c c.2, he j hj i hi c c.2 r r.2, hW r r.2 c c.2, hg i j]
  · rw [hbl] at hi hj
    rw [he i hi j hj r r.2 c c.2, he i hi j hj c c.2 r r.2, hW r r.2 c c.2]
  · set s' := withCoeffs s ((List.range s.coeffs.length).map u) with hs'
    have hs : SameShape s s' := ⟨rfl, rfl, rfl, by simp [hs', withCoeffs]⟩
    have hu : ∀ i < m.blocks, ∀ r, u i r = s'.col i r := by
      intro i hi r
      rw [hbl] at hi
      unfold BSpline.col
      rw [hs']
      simp [withCoeffs, List.getD_eq_getElem?_getD, hi]
    rw [form_congr hu hu]
    obtain ⟨m', hm', hval⟩ := C46_error s h hw W hacc o ho _ _ (tMin_eq h) (tMax_eq h)
    obtain rfl : m' = m := Outcome.ok.inj (hm'.symm.trans hm)
    have := hval s' hs.order hs.knots hs.basis hs.length
    rw [val s' hs, Outcome.ok.injEq] at this
    rw [this]
    have hn := h.enough
    have hk := h.order_pos
    exact intervalIntegral.integral_nonneg (h.mono _ _ (by omega) (by omega)) fun t _ => hp _

/-- What the Hessian and the right hand side of a motion error are. -/
theorem Form.system {s : BSpline ℝ D} {m : MotionError ℝ} (F : Form s m) {s' : BSpline ℝ D} (hs : SameShape s s') {vars : ℕ → SolverVar} {dims : ℕ → ℕ}
    (hl : GoodLayout D m.blocks vars dims) {H H' : SparseBlocks ℝ} {b b' : ℕ → ℝ} (hb : m.buildHessian s' vars dims H b = .ok (H', b')) :
    (∀ i < m.blocks, ∀ j < m.blocks, (vars i).active = true → (vars j).active = true → ∀ r c : Fin D,
      completed H H' (vars i).blockIndex (vars j).blockIndex r c = entry m.Q i j r c) ∧
    ∀ i < m.blocks, (vars i).active = true → ∀ d : Fin D,
      b' (colBase dims (vars i).blockIndex + d) - b (colBase dims (vars i).blockIndex + d)
        = -∑ j ∈ range m.blocks, ∑ c : Fin D, entry m.Q i j d c * s'.col j c := by
  have hlen : s'.coeffs.length = m.blocks := hs.length.trans F.blocks.symm
  unfold buildHessian at hb
  rw [if_pos hlen, Outcome.ok.injEq, Prod.ext_iff] at hb
  obtain ⟨rfl, rfl⟩ := hb
  refine ⟨fun i hi j hj ai aj r c => ?_, fun i hi ai d => ?_⟩
  · unfold completed
    by_cases hij : i = j
    · subst hij
      rw [if_pos rfl, added_eq hl i i hi hi ai ai, if_pos le_rfl]
    · rw [if_neg (fun h => hij (hl.inj i hi j hj ai aj h)), added_eq hl j i hj hi aj ai, added_eq hl i j hi hj ai aj]
      by_cases hle : i ≤ j
      · rw [if_pos hle, if_neg (by omega), add_zero, F.symm j hj i hi, F.symm' i hi j hj]
      · rw [if_neg hle, if_pos (by omega), zero_add, F.symm' i hi j hj]
  · rw [rhs_eq hl i hi ai d, times_at]
    have : ∑ j ∈ range m.blocks, ∑ c : Fin D, entry m.Q i j d c * s'.coefficientVector.getD (j * D + c) 0
        = ∑ j ∈ range m.blocks, ∑ c : Fin D, entry m.Q i j d c * s'.col j c := by
      refine sum_congr rfl fun j hj => sum_congr rfl fun c _ => ?_
      congr 1
      exact stack_getD _ _ j (by have := mem_range.1 hj; omega) c
    rw [this]
    ring

/-- The equations say that the gradient at the new coefficients is zero in all active variables. -/
theorem Form.equations {s : BSpline ℝ D} {m : MotionError ℝ} (F : Form s m) {s' : BSpline ℝ D} (hs : SameShape s s') {vars : ℕ → SolverVar}
    {dims : ℕ → ℕ} (hl : GoodLayout D m.blocks vars dims) {H H' : SparseBlocks ℝ} {b b' : ℕ → ℝ}
    (hb : m.buildHessian s' vars dims H b = .ok (H', b')) (δ : ℕ → Fin D → ℝ) {u : ℕ → Fin D → ℝ}
    (hu : ∀ i < m.blocks, ∀ d, u i d = s'.col i d + if (vars i).active then δ i d else 0) :
    Spec.NormalEquations D m.blocks vars dims H H' b b' δ ↔
      ∀ i < m.blocks, (vars i).active = true → ∀ r : Fin D, ∑ j ∈ range m.blocks, ∑ c : Fin D, entry m.Q i j r c * u j c = 0 := by
  obtain ⟨hA, hg⟩ := F.system hs hl hb
  unfold Spec.NormalEquations
  refine forall_congr' fun i => forall_congr' fun hi => forall_congr' fun ai => forall_congr' fun r => ?_
  rw [hg i hi ai r]
  have e : ∑ j ∈ range m.blocks, ∑ c : Fin D, entry m.Q i j r c * u j c =
      (∑ j ∈ range m.blocks, ∑ c : Fin D, (if (vars j).active then completed H H' (vars i).blockIndex (vars j).blockIndex r c * δ j c else 0)) +
        ∑ j ∈ range m.blocks, ∑ c : Fin D, entry m.Q i j r c * s'.col j c := by
    rw [← sum_add_distrib]
    refine sum_congr rfl fun j hj => ?_
    rw [← sum_add_distrib]
    refine sum_congr rfl fun c _ => ?_
    rw [hu j (mem_range.1 hj)]
    by_cases aj : (vars j).active = true
    · rw [if_pos aj, if_pos aj, hA i hi j (mem_range.1 hj) ai aj]
      ring
    · rw [if_neg aj, if_neg aj]
      ring
  rw [e]
  constructor
  · intro h
    linarith
  · intro h
    linarith

theorem Form.moved_form {s : BSpline ℝ D} {m : MotionError ℝ} (F : Form s m) {vars : ℕ → SolverVar} {s' s1 : BSpline ℝ D} {δ : ℕ → Fin D → ℝ}
    (hs : SameShape s s') (h1 : Spec.Moved vars s' δ s1) :
    SameShape s s1 ∧ ∀ i < m.blocks, ∀ d, s1.col i d = s'.col i d + if (vars i).active then δ i d else 0 := by
  refine ⟨⟨h1.shape.order.trans hs.order, h1.shape.knots.trans hs.knots, h1.shape.basis.trans hs.basis, h1.shape.length.trans hs.length⟩, fun i hi d => ?_⟩
  exact h1.coeffs i (by rw [hs.length, ← F.blocks]; exact hi) d

/-- There is a spline with the active variables moved. -/
theorem exists_moved (vars : ℕ → SolverVar) (s : BSpline ℝ D) (δ : ℕ → Fin D → ℝ) : ∃ s', Spec.Moved vars s δ s' := by
  refine ⟨withCoeffs s ((List.range s.coeffs.length).map fun i d => s.col i d + if (vars i).active then δ i d else 0),
    ⟨rfl, rfl, rfl, by simp [withCoeffs]⟩, fun i hi d => ?_⟩
  conv_lhs => unfold BSpline.col
  simp [withCoeffs, List.getD_eq_getElem?_getD, hi, BSpline.col]

/-- **C115**, the step minimises: whatever other terms have been accumulated, the changes of the active variables that solve the equations of the
motion error are exactly those with the smallest motion error that can be reached by changing active variables. -/
theorem C115_step (s : BSpline ℝ D) (h : s.WF) (hw : s.WideLast) (W : Mat ℝ) (hW : ∀ r < D, ∀ c < D, W r c = W c r)
    (hp : Spec.Semidefinite D W) (o : ℕ) (ho : o < 2 ^ 31) :
    ∃ m, create s W o = .ok m ∧ ∀ (s' : BSpline ℝ D) (vars : ℕ → SolverVar) (dims : ℕ → ℕ) (H H' : SparseBlocks ℝ) (b b' : ℕ → ℝ),
      SameShape s s' → GoodLayout D m.blocks vars dims → m.buildHessian s' vars dims H b = .ok (H', b') →
      ∀ (δ : ℕ → Fin D → ℝ) (s1 : BSpline ℝ D), Spec.Moved vars s' δ s1 →
        (Spec.NormalEquations D m.blocks vars dims H H' b b' δ ↔
          ∃ E, m.evaluate s1 = .ok E ∧ ∀ δ2 s2, Spec.Moved vars s' δ2 s2 → ∃ E2, m.evaluate s2 = .ok E2 ∧ E ≤ E2) := by
  obtain ⟨m, hm, F⟩ := exists_form s h hw W hW hp o ho
  refine ⟨m, hm, fun s' vars dims H H' b b' hs hl hb δ s1 h1 => ?_⟩
  obtain ⟨hs1, c1⟩ := F.moved_form hs h1
  rw [F.equations hs hl hb δ (u := s1.col) c1]
  constructor
  · intro hz
    refine ⟨_, F.value s1 hs1, fun δ2 s2 h2 => ?_⟩
    obtain ⟨hs2, c2⟩ := F.moved_form hs h2
    refine ⟨_, F.value s2 hs2, ?_⟩
    set z : ℕ → Fin D → ℝ := fun i d => if (vars i).active then δ2 i d - δ i d else 0 with hzd
    have e : form m s2.col s2.col = form m (fun i d => s1.col i d + z i d) (fun i d => s1.col i d + z i d) := by
      have : ∀ i < m.blocks, ∀ d, s2.col i d = s1.col i d + z i d := by
        intro i hi d
        rw [c2 i hi d, c1 i hi d, hzd]
        dsimp only
        split_ifs <;> ring
      exact form_congr this this
    rw [e, F.expand]
    have h0 : form m z s1.col = 0 := by
      unfold form
      refine sum_eq_zero fun i hi => sum_eq_zero fun r _ => ?_
      by_cases ai : (vars i).active = true
      · rw [hz i (mem_range.1 hi) ai r, mul_zero]
      · rw [hzd]
        simp [ai]
    have := F.nonneg z
    rw [h0]
    linarith
  · rintro ⟨E, hE, hmin⟩ i hi ai r
    rw [F.value s1 hs1, Outcome.ok.injEq] at hE
    set z : ℕ → Fin D → ℝ := fun j d => if j = i ∧ d = r then 1 else 0 with hzd
    have h0 : form m z s1.col = 0 := by
      refine F.null fun a => ?_
      obtain ⟨s2, h2⟩ := exists_moved vars s' (fun j d => δ j d + a * z j d)
      obtain ⟨hs2, c2⟩ := F.moved_form hs h2
      obtain ⟨E2, e2, le⟩ := hmin _ s2 h2
      rw [F.value s2 hs2, Outcome.ok.injEq] at e2
      have e : form m s2.col s2.col = form m (fun i d => s1.col i d + a * z i d) (fun i d => s1.col i d + a * z i d) := by
        have : ∀ j < m.blocks, ∀ d, s2.col j d = s1.col j d + a * z j d := by
          intro j hj d
          rw [c2 j hj d, c1 j hj d, hzd]
          dsimp only
          by_cases aj : (vars j).active = true
          · rw [if_pos aj, if_pos aj]
            ring
          · rw [if_neg aj, if_neg aj, if_neg (by rintro ⟨rfl, -⟩; exact aj ai)]
            ring
        exact form_congr this this
      rw [e, F.line] at e2
      have : a * (2 * form m z s1.col) + a ^ 2 * form m z z = E2 - E := by
        rw [← e2, ← hE]
        ring
      linarith
    unfold form at h0
    rw [sum_eq_single i, sum_eq_single r] at h0
    · simpa [hzd] using h0
    · intro d _ hd
      simp [hzd, hd]
    · intro hn
      exact absurd (mem_univ r) hn
    · intro j _ hj
      refine sum_eq_zero fun d _ => ?_
      simp [hzd, hj]
    · intro hn
      exact absurd (mem_range.2 hi) hn

/-- **C115**, a step exists: the equations of a motion error have a solution whichever variables are active. -/
theorem C115_exists (s : BSpline ℝ D) (h : s.WF) (hw : s.WideLast) (W : Mat ℝ) (hW : ∀ r < D, ∀ c < D, W r c = W c r)
    (hp : Spec.Semidefinite D W) (o : ℕ) (ho : o < 2 ^ 31) :
    ∃ m, create s W o = .ok m ∧ ∀ (s' : BSpline ℝ D) (vars : ℕ → SolverVar) (dims : ℕ → ℕ) (H H' : SparseBlocks ℝ) (b b' : ℕ → ℝ),
      SameShape s s' → GoodLayout D m.blocks vars dims → m.buildHessian s' vars dims H b = .ok (H', b') →
      ∃ δ : ℕ → Fin D → ℝ, Spec.NormalEquations D m.blocks vars dims H H' b b' δ := by
  obtain ⟨m, hm, F⟩ := exists_form s h hw W hW hp o ho
  refine ⟨m, hm, fun s' vars dims H H' b b' hs hl hb => ?_⟩
  set act : ℕ → (ℕ → ℝ) → Fin D → ℝ := fun i x d => if (vars i).active then x (i * D + d) else 0 with hact
  set T : Mat ℝ := fun p q => if (vars (p / D)).active ∧ (vars (q / D)).active then sparseDense D m.Q p q else 0 with hT
  set g : ℕ → ℝ := fun p => if (vars (p / D)).active then -m.times D (fun q => s'.coefficientVector.getD q 0) p else 0 with hg
  have div : ∀ (i : ℕ) (r : Fin D), (i * D + (r : ℕ)) / D = i := by
    intro i r
    have hD : 0 < D := Nat.lt_of_le_of_lt (Nat.zero_le _) r.2
    rw [show i * D + (r : ℕ) = r + D * i by ring, Nat.add_mul_div_left _ _ hD, Nat.div_eq_of_lt r.2, zero_add]
  have hrow : ∀ (x : ℕ → ℝ) (i : ℕ) (r : Fin D), (vars i).active = true →
      mulV (m.blocks * D) T x (i * D + r) = ∑ j ∈ range m.blocks, ∑ c : Fin D, entry m.Q i j r c * act j x c := by
    intro x i r ai
    unfold mulV
    rw [sum_blocks (D := D)]
    refine sum_congr rfl fun j _ => sum_congr rfl fun c _ => ?_
    rw [hT, hact]
    dsimp only
    rw [div, div, sparse_at]
    by_cases aj : (vars j).active = true
    · rw [if_pos ⟨ai, aj⟩, if_pos aj]
    · rw [if_neg (fun h => aj h.2), if_neg aj]
      ring
  have hrow0 : ∀ (x : ℕ → ℝ) (i : ℕ) (r : Fin D), (vars i).active ≠ true → mulV (m.blocks * D) T x (i * D + r) = 0 := by
    intro x i r ai
    unfold mulV
    rw [sum_blocks (D := D)]
    refine sum_eq_zero fun j _ => sum_eq_zero fun c _ => ?_
    rw [hT]
    dsimp only
    rw [div, div, if_neg (fun h => ai h.1), zero_mul]
  have hgi : ∀ (i : ℕ) (r : Fin D), g (i * D + r) = if (vars i).active then -∑ j ∈ range m.blocks, ∑ c : Fin D, entry m.Q i j r c * s'.col j c else 0 := by
    intro i r
    rw [hg]
    dsimp only
    rw [div, times_at]
    refine if_congr Iff.rfl (congrArg Neg.neg ?_) rfl
    refine sum_congr rfl fun j hj => sum_congr rfl fun c _ => ?_
    congr 1
    exact stack_getD _ _ j (by have := mem_range.1 hj; rw [hs.length, ← F.blocks]; exact this) c
  have hquad : ∀ x y : ℕ → ℝ, bil (m.blocks * D) T x y = form m (fun i d => act i x d) (fun i d => act i y d) := by
    intro x y
    rw [bil_eq_dot, sum_blocks (D := D)]
    unfold form
    refine sum_congr rfl fun i _ => sum_congr rfl fun r _ => ?_
    by_cases ai : (vars i).active = true
    · rw [hrow y i r ai, hact]
      dsimp only
      rw [if_pos ai]
    · rw [hrow0 y i r ai, hact]
      simp [ai]
  obtain ⟨x, hx⟩ := form_solvable (m.blocks * D) T g fun z hz => by
    rw [hquad] at hz
    have h0 : form m (fun i d => act i z d) s'.col = 0 := by
      refine F.null fun a => ?_
      rw [hz, mul_zero, add_zero]
      by_contra hneg
      push Not at hneg
      -- the error would become negative along the null direction
      set f := form m (fun i d => act i z d) s'.col with hf
      have hfn : f ≠ 0 := by
        rintro h0
        rw [h0] at hneg
        simp at hneg
      set q := form m s'.col s'.col
      have := F.nonneg (fun i d => s'.col i d + (-(q + 1) / (2 * f)) * act i z d)
      rw [F.line s'.col (fun i d => act i z d) (-(q + 1) / (2 * f)), hz, ← hf] at this
      have e : -(q + 1) / (2 * f) * (2 * f) = -(q + 1) := by field_simp
      rw [e] at this
      linarith
    rw [sum_blocks (D := D)]
    have : ∑ i ∈ range m.blocks, ∑ d : Fin D, z (i * D + d) * g (i * D + d) = -form m (fun i d => act i z d) s'.col := by
      unfold form
      rw [← sum_neg_distrib]
      refine sum_congr rfl fun i _ => ?_
      rw [← sum_neg_distrib]
      refine sum_congr rfl fun r _ => ?_
      rw [hgi i r, hact]
      dsimp only
      by_cases ai : (vars i).active = true
      · rw [if_pos ai, if_pos ai]
        ring
      · rw [if_neg ai, if_neg ai]
        ring
    rw [this, h0, neg_zero]
  refine ⟨fun j c => x (j * D + c), (F.equations hs hl hb _ (u := fun i d => s'.col i d + if (vars i).active then x (i * D + d) else 0)
    fun _ _ _ => rfl).2 fun i hi ai r => ?_⟩
  have hlt : i * D + (r : ℕ) < m.blocks * D := by
    have := r.2
    calc i * D + (r : ℕ) < i * D + D := by omega
      _ = (i + 1) * D := by ring
      _ ≤ m.blocks * D := Nat.mul_le_mul_right D hi
  have := hx _ hlt
  rw [hrow x i r ai, hgi i r, if_pos ai] at this
  simp only [mul_add, sum_add_distrib]
  rw [add_comm]
  rw [hact] at this
  linarith

/-- **C115**, one step is enough: after a step the motion error adds nothing to the right hand side of an active variable, and if all variables are active
it is zero. -/
theorem C115_once (s : BSpline ℝ D) (h : s.WF) (hw : s.WideLast) (W : Mat ℝ) (hW : ∀ r < D, ∀ c < D, W r c = W c r)
    (hp : Spec.Semidefinite D W) (o : ℕ) (ho : o < 2 ^ 31) :
    ∃ m, create s W o = .ok m ∧ ∀ (s' : BSpline ℝ D) (vars : ℕ → SolverVar) (dims : ℕ → ℕ) (H H' : SparseBlocks ℝ) (b b' : ℕ → ℝ),
      SameShape s s' → GoodLayout D m.blocks vars dims → m.buildHessian s' vars dims H b = .ok (H', b') →
      ∀ (δ : ℕ → Fin D → ℝ) (s1 : BSpline ℝ D), Spec.Moved vars s' δ s1 → Spec.NormalEquations D m.blocks vars dims H H' b b' δ →
        (∀ (H1 H1' : SparseBlocks ℝ) (b1 b1' : ℕ → ℝ), m.buildHessian s1 vars dims H1 b1 = .ok (H1', b1') → ∀ i < m.blocks, (vars i).active = true →
          ∀ d : Fin D, b1' (colBase dims (vars i).blockIndex + d) = b1 (colBase dims (vars i).blockIndex + d)) ∧
        ((∀ i < m.blocks, (vars i).active = true) → m.evaluate s1 = .ok 0) := by
  obtain ⟨m, hm, F⟩ := exists_form s h hw W hW hp o ho
  refine ⟨m, hm, fun s' vars dims H H' b b' hs hl hb δ s1 h1 hn => ?_⟩
  obtain ⟨hs1, c1⟩ := F.moved_form hs h1
  rw [F.equations hs hl hb δ (u := s1.col) c1] at hn
  refine ⟨fun H1 H1' b1 b1' hb1 i hi ai d => ?_, fun ha => ?_⟩
  · have := (F.system hs1 hl hb1).2 i hi ai d
    rw [hn i hi ai d, neg_zero] at this
    linarith
  · rw [F.value s1 hs1]
    refine congrArg Outcome.ok ?_
    unfold form
    refine sum_eq_zero fun i hi => sum_eq_zero fun r _ => ?_
    rw [hn i (mem_range.1 hi) (ha i (mem_range.1 hi)) r, mul_zero]

/-- **C115**, steps with a motion error alone are not determined: if all variables are active and a derivative is penalised, then for every solution of the
equations there is a second one, which moves the whole curve by one more unit. -/
theorem C115_ambiguous (s : BSpline ℝ D) (h : s.WF) (hw : s.WideLast) (hd : DistinctKnots s) (hD : 1 ≤ D) (W : Mat ℝ) (hW : ∀ r < D, ∀ c < D, W r c = W c r)
    (hp : PositiveWeight D W) (o : ℕ) (ho : o < 2 ^ 31) (h1 : 1 ≤ min o (s.order - 1)) :
    ∃ m, create s W o = .ok m ∧ ∃ z : ℕ → Fin D → ℝ, (∃ i < m.blocks, z i ≠ 0) ∧
      (∀ t, Valid s t → (withCoeffs s ((List.range s.coeffs.length).map z)).eval t = .ok (fun _ => 1)) ∧
      ∀ (s' : BSpline ℝ D) (vars : ℕ → SolverVar) (dims : ℕ → ℕ) (H H' : SparseBlocks ℝ) (b b' : ℕ → ℝ),
      SameShape s s' → GoodLayout D m.blocks vars dims → (∀ i < m.blocks, (vars i).active = true) →
      m.buildHessian s' vars dims H b = .ok (H', b') → ∀ δ : ℕ → Fin D → ℝ, Spec.NormalEquations D m.blocks vars dims H H' b b' δ →
        Spec.NormalEquations D m.blocks vars dims H H' b b' (fun i d => δ i d + z i d) := by
  have hsemi : Spec.Semidefinite D W := by
    intro y
    by_cases hy : y = 0
    · simp [hy]
    · exact (hp y hy).le
  have hacc : AcceptedWeight D W := by
    intro r hr c hc
    rw [hW r hr c hc, sub_self, abs_zero]
    norm_num
  obtain ⟨m, hm, F⟩ := exists_form s h hw W hW hsemi o ho
  obtain ⟨m', hm', hall⟩ := C98_each s h hw hd W hacc hp o ho
  obtain rfl : m' = m := Outcome.ok.inj (hm'.symm.trans hm)
  obtain ⟨cs, hlen, hz, hev, -⟩ := hall (fun _ => 1) (fun _ => by rw [Polynomial.degree_one]; exact_mod_cast h1)
  set z : ℕ → Fin D → ℝ := fun i => cs.getD i 0 with hzd
  have hcs : (List.range s.coeffs.length).map z = cs := by
    refine List.ext_getElem (by simp [hlen]) fun i h1 h2 => ?_
    simp [hzd, List.getD_eq_getElem?_getD, h2]
  have hcol : (withCoeffs s cs).col = z := rfl
  have hev' : ∀ t, Valid s t → (withCoeffs s ((List.range s.coeffs.length).map z)).eval t = .ok (fun _ => 1) := by
    intro t ht
    rw [hcs, hev t ht]
    simp
  have hz0 : form m' z z = 0 := by
    have := F.value (withCoeffs s cs) ⟨rfl, rfl, rfl, hlen⟩
    rw [hz, Outcome.ok.injEq, hcol] at this
    exact this.symm
  have hnull : ∀ v : ℕ → Fin D → ℝ, form m' v z = 0 := by
    intro v
    refine F.null fun a => ?_
    have := F.nonneg (fun i d => z i d + a * v i d)
    rw [F.line, hz0] at this
    linarith
  refine ⟨m', hm, z, ?_, hev', fun s' vars dims H H' b b' hs hl ha hb δ hδ => ?_⟩
  · by_contra hcon
    push Not at hcon
    have hn := h.enough
    have hk := h.order_pos
    have hv : Valid s (s.kn (s.order - 1)) := ⟨le_rfl, h.mono _ _ (by omega) (by omega)⟩
    have e1 := hev' _ hv
    have hwf := WF.withCoeffs h ((List.range s.coeffs.length).map z) (by simp)
    obtain ⟨-, i, -, e⟩ := evalD_repro hwf hw 0 _ hv.1 hv.2
    have e2 := e1.symm.trans e
    rw [Outcome.ok.injEq] at e2
    have e3 := congrFun e2 ⟨0, hD⟩
    have hc0 : ∀ j, (BSpline.mk (K := ℝ) s.order s.knots ((List.range s.coeffs.length).map z) s.basis).col j = 0 := by
      intro j
      unfold BSpline.col
      rw [List.getD_eq_getElem?_getD]
      by_cases hj : j < s.coeffs.length
      · simp [hj, hcon j (by rw [F.blocks]; exact hj)]
      · simp [hj]
    unfold segPoly at e3
    simp [hc0] at e3
  · rw [F.equations hs hl hb _ (u := fun i d => (s'.col i d + if (vars i).active then δ i d else 0) + z i d) (fun i hi d => by
      rw [if_pos (ha i hi), if_pos (ha i hi)]; ring)]
    rw [F.equations hs hl hb δ (u := fun i d => s'.col i d + if (vars i).active then δ i d else 0) (fun _ _ _ => rfl)] at hδ
    intro i hi ai r
    have h0 := hnull (fun j d => if j = i ∧ d = r then 1 else 0)
    unfold form at h0
    rw [sum_eq_single i, sum_eq_single r] at h0
    · simp only [mul_add, sum_add_distrib]
      have h2 := hδ i hi ai r
      simp only [mul_add, sum_add_distrib] at h2
      simp only [and_self, if_true, one_mul] at h0
      rw [h0, add_zero]
      exact h2
    · intro d _ hd
      simp [hd]
    · intro hn
      exact absurd (mem_univ r) hn
    · intro j _ hj
      refine sum_eq_zero fun d _ => ?_
      simp [hj]
    · intro hn
      exact absurd (mem_range.2 hi) hn

/-- **C64**, derivatives of the order of the spline and above: the factory does not reduce them, as the motion error does.  Its terms add up to zero for all
coefficients, while the motion error with the same arguments is zero only for curves whose highest derivative vanishes. -/
theorem C64_high_order (svd : SvdSolver) (hsvd : SvdSound svd) (v : SplineVars ℝ D) (hm : SplineVars.Mirror v) (h : v.spline.WF) (hw : v.spline.WideLast)
    (W : Mat ℝ) (hW : GoodWeight D W) (hp : PositiveWeight D W) (o : ℕ) (ho : o < 2 ^ 31) (hos : v.spline.order ≤ o) :
    ∃ ts m, addMotionErrorTerms svd v W o = .ok ts ∧ MotionError.create v.spline W o = .ok m ∧ ∀ s', SameShape v.spline s' →
      ((ts.zipIdx).map fun p => p.1.costPlus v.spline s' p.2).sum = 0 ∧
      (m.evaluate s' = .ok 0 ↔ ∀ t, Valid v.spline t → s'.evalD t (v.spline.order - 1 : ℕ) = .ok 0) := by
  obtain ⟨ts, h1, h2⟩ := C64_total svd hsvd v hm h hw W hW o ho _ _ (tMin_eq h) (tMax_eq h)
  obtain ⟨m, h3, h4⟩ := C98_zero_iff v.spline h hw W hW.accepted hp o ho
  refine ⟨ts, m, h1, h3, fun s' hs => ⟨?_, ?_⟩⟩
  · have hwf := hs.wf h
    have hn := h.enough
    have hk := h.order_pos
    rw [h2 s' hs]
    unfold energy
    rw [intervalIntegral.integral_congr (g := fun _ => (0 : ℝ)) fun t ht => ?_]
    · exact intervalIntegral.integral_zero
    · rw [Set.uIcc_of_le (h.mono _ _ (by omega) (by omega))] at ht
      have hv := (hs.valid t).2 ht
      obtain ⟨-, i, -, e⟩ := evalD_repro hwf (hs.wide hw) o t hv.1 hv.2
      have hz : ∀ d, (Polynomial.derivative^[o] (s'.segPoly i d)).eval t = 0 := by
        intro d
        rw [Polynomial.iterate_derivative_eq_zero]
        · exact Polynomial.eval_zero
        · have : (s'.segPoly i d).natDegree ≤ s'.order - 1 := by
            unfold segPoly
            exact Polynomial.natDegree_sum_le_of_forall_le _ _ fun j _ => (Polynomial.natDegree_C_mul_le _ _).trans (piece_natDegree _ _ _ _)
          rw [hs.order] at this
          omega
      beta_reduce
      rw [e]
      simp [Outcome.getD, hz]
  · have := h4 s' hs
    rwa [min_eq_right (by omega)] at this

/-- **C64** is violated for derivatives of the order of the spline and above: for every spline there are coefficients for which the terms of the factory add up
to zero and the motion error made with the same arguments does not. -/
theorem C64_order_violated (svd : SvdSolver) (hsvd : SvdSound svd) (v : SplineVars ℝ D) (hm : SplineVars.Mirror v) (h : v.spline.WF)
    (hw : v.spline.WideLast) (hD : 1 ≤ D) (W : Mat ℝ) (hW : GoodWeight D W) (hp : PositiveWeight D W) (o : ℕ) (ho : o < 2 ^ 31) (hos : v.spline.order ≤ o) :
    ∃ ts m s', addMotionErrorTerms svd v W o = .ok ts ∧ MotionError.create v.spline W o = .ok m ∧ SameShape v.spline s' ∧
      ((ts.zipIdx).map fun p => p.1.costPlus v.spline s' p.2).sum = 0 ∧ ∃ E, m.evaluate s' = .ok E ∧ E ≠ 0 := by
  obtain ⟨ts, m, h1, h2, h3⟩ := C64_high_order svd hsvd v hm h hw W hW hp o ho hos
  have hk := h.order_pos
  have hn := h.enough
  obtain ⟨cs, hl, hev⟩ := C76_reproduces v.spline h (fun _ => Polynomial.X ^ (v.spline.order - 1)) fun d => by
    rw [Polynomial.natDegree_X_pow]
    omega
  have hs : SameShape v.spline (withCoeffs v.spline cs) := ⟨rfl, rfl, rfl, hl⟩
  obtain ⟨a, b⟩ := h3 _ hs
  obtain ⟨m', e1, e2⟩ := C46_error v.spline h hw W hW.accepted o ho _ _ (tMin_eq h) (tMax_eq h)
  obtain rfl : m' = m := Outcome.ok.inj (e1.symm.trans h2)
  refine ⟨ts, m', _, h1, h2, hs, a, _, e2 _ hs.order hs.knots hs.basis hs.length, fun h0 => ?_⟩
  have hv : Valid v.spline (v.spline.kn (v.spline.order - 1)) := ⟨le_rfl, h.mono _ _ (by omega) (by omega)⟩
  have z := b.1 (by rw [e2 _ hs.order hs.knots hs.basis hs.length, h0]) _ hv
  have y := hev _ (admissible_of_wide _ (WideLast.wide h hw) hv.1 hv.2) (v.spline.order - 1)
  have := congrFun (Outcome.ok.inj (y.symm.trans z)) ⟨0, hD⟩
  rw [Polynomial.iterate_derivative_X_pow_eq_natCast_mul, Nat.descFactorial_self] at this
  simp at this
  exact Nat.factorial_ne_zero _ this

/-- Not vacuous: the fourth derivative of a cubic spline. -/
example : ∃ svd, SvdSound svd ∧ SplineVars.Mirror (SplineVars.create exMotion) ∧ (SplineVars.create exMotion).spline.WF ∧
    (SplineVars.create exMotion).spline.WideLast ∧ GoodWeight 2 exWeight ∧ PositiveWeight 2 exWeight ∧ (SplineVars.create exMotion).spline.order ≤ 4 := by
  obtain ⟨svd, h⟩ := exists_sound_svd
  refine ⟨svd, h, SplineVars.mirror_create (SplineVars.sized_of_wf exMotion_wf), exMotion_wf, exMotion_wide, ⟨fun r _ c _ => ?_, fun y => ?_⟩,
    exWeight_ok.2, by decide⟩
  · unfold exWeight
    simp [eq_comm]
  · simp only [sum_range_succ, sum_range_zero, exWeight]
    norm_num
    nlinarith [sq_nonneg (y 0 + y 1), sq_nonneg (y 0), sq_nonneg (y 1)]

/-- A layout with the second variable inactive and the others in blocks of their own. -/
def exVars (i : ℕ) : SolverVar := ⟨i != 1, i⟩

theorem exVars_layout (n : ℕ) : GoodLayout 1 n exVars (fun _ => 1) := ⟨fun _ _ _ _ _ _ h => h, fun _ _ _ => rfl⟩

/-- Not vacuous: a cubic spline with the square of its acceleration, one variable not active. -/
example : Spec.Semidefinite 1 (fun _ _ => 3) ∧ ∃ m H' b' δ s1, create exReal (fun _ _ => 3) 2 = .ok m ∧
    m.buildHessian exReal exVars (fun _ => 1) (fun _ _ => none) 0 = .ok (H', b') ∧ GoodLayout 1 m.blocks exVars (fun _ => 1) ∧
    Spec.NormalEquations 1 m.blocks exVars (fun _ => 1) (fun _ _ => none) H' 0 b' δ ∧ Spec.Moved exVars exReal δ s1 ∧
    (exVars 1).active = false ∧ (exVars 2).active = true := by
  have hp : Spec.Semidefinite 1 (fun _ _ => 3) := by
    intro y
    simp only [univ_unique, sum_singleton]
    nlinarith [mul_self_nonneg (y default)]
  obtain ⟨m, hm, hx⟩ := C115_exists exReal exReal_wf exReal_wide (fun _ _ => 3) (fun _ _ _ _ => rfl) hp 2 (by norm_num)
  obtain ⟨m', hm', F⟩ := exists_form exReal exReal_wf exReal_wide (fun _ _ => 3) (fun _ _ _ _ => rfl) hp 2 (by norm_num)
  obtain rfl : m' = m := Outcome.ok.inj (hm'.symm.trans hm)
  obtain ⟨⟨H', b'⟩, hb⟩ : ∃ x, m'.buildHessian exReal exVars (fun _ => 1) (fun _ _ => none) 0 = .ok x := by
    unfold buildHessian
    rw [if_pos F.blocks.symm]
    exact ⟨_, rfl⟩
  obtain ⟨δ, hδ⟩ := hx exReal exVars (fun _ => 1) _ _ _ _ ⟨rfl, rfl, rfl, rfl⟩ (exVars_layout _) hb
  obtain ⟨s1, h1⟩ := exists_moved exVars exReal δ
  exact ⟨hp, m', _, _, δ, s1, hm, hb, exVars_layout _, hδ, h1, rfl, rfl⟩

/-- Not vacuous: a spline in the plane with distinct knots. -/
example := C115_ambiguous exMotion exMotion_wf exMotion_wide exMotion_distinct (by norm_num) exWeight
  (by intro r hr c hc; interval_cases r <;> interval_cases c <;> simp [exWeight]) exWeight_ok.2 2 (by norm_num) (by decide)

end MotionError

end Verif
