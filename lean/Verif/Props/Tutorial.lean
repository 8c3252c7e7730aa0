import Verif.Model.Tutorial
import Verif.Props.ManifoldConstant
import Verif.Props.OptExpressions
import Verif.Props.OptSpline
import Verif.Props.TimeExpr
import Verif.Lemmas.Linear

/-!
# The tutorial program (C69)
-/

set_option linter.unusedSectionVars false

namespace Verif

open Finset

/-! ## Linear precision of Euclidean splines -/

namespace MSpline

section Linear

variable {K : Type*} [Field K] [LinearOrder K] [IsStrictOrderedRing K] {P : Type*} [AddCommGroup P] [Module K P]

/-- **C69**, linear precision: if every vertex is the value of an affine function at the mean of the `order - 1` knots after its own, the curve is this function. -/
theorem C69_affine {s : MSpline K P} (hw : s.MWF) (he : s.state = .evaluable) (ho : 2 ≤ s.order) (a b : P)
    (hv : ∀ j, j < s.keys.length - s.order → s.vert j = a + (knotSum s.kn (s.order - 1) j / ((s.order - 1 : ℕ) : K)) • b) {t : K} {i : ℕ}
    (hi : s.InSeg t i) (m : Option ℕ) (d : ℕ) (hd : ∀ n, m = some n → d ≤ n) :
    s.euclideanEvalD m t d = .ok (if d = 0 then a + t • b else if d = 1 then b else 0) := by
  have hl := hi.lower
  have hu := hi.upper
  have hlt : s.kn i < s.kn (i + 1) := hw.strict (by omega) (by omega)
  have hsum : ∑ j ∈ range s.order, piece s.kn i (s.order - 1) (i + 1 - s.order + j) = 1 := by
    have := piece_sum_one s.kn s.keys.length i hw.mono hlt (s.order - 1) (by omega) (by omega)
    rw [← this, Finset.sum_Ico_eq_sum_range]
    rw [show i + 1 - (i - (s.order - 1)) = s.order by omega, show i - (s.order - 1) = i + 1 - s.order by omega]
  have hlin : ∑ j ∈ range s.order, Polynomial.C (knotSum s.kn (s.order - 1) (i + 1 - s.order + j)) *
      piece s.kn i (s.order - 1) (i + 1 - s.order + j) = Polynomial.C (((s.order - 1 : ℕ) : K)) * Polynomial.X := by
    have := piece_linear s.kn s.keys.length i hw.mono hlt (s.order - 1) (by omega) (by omega)
    rw [← this, Finset.sum_Ico_eq_sum_range]
    rw [show i + 1 - (i - (s.order - 1)) = s.order by omega, show i - (s.order - 1) = i + 1 - s.order by omega]
  have hp : ((s.order - 1 : ℕ) : K) ≠ 0 := by
    have : s.order - 1 ≠ 0 := by omega
    exact_mod_cast this
  rw [euclideanEvalD_eq hw he hi m d hd, ← segSum_local hw hi.lower hi.upper d t]
  refine congrArg Outcome.ok ?_
  have e : ∑ c ∈ range s.order, (Polynomial.derivative^[d] (piece s.kn i (s.order - 1) (i + 1 - s.order + c))).eval t •
      s.vert (i + 1 - s.order + c) =
      (Polynomial.derivative^[d] (∑ j ∈ range s.order, piece s.kn i (s.order - 1) (i + 1 - s.order + j))).eval t • a +
      ((((s.order - 1 : ℕ) : K))⁻¹ * (Polynomial.derivative^[d] (∑ j ∈ range s.order, Polynomial.C (knotSum s.kn (s.order - 1)
        (i + 1 - s.order + j)) * piece s.kn i (s.order - 1) (i + 1 - s.order + j))).eval t) • b := by
    rw [Polynomial.iterate_derivative_sum, Polynomial.iterate_derivative_sum, Polynomial.eval_finsetSum, Polynomial.eval_finsetSum, sum_smul,
      Finset.mul_sum, sum_smul, ← sum_add_distrib]
    refine sum_congr rfl fun c hc => ?_
    rw [mem_range] at hc
    rw [hv _ (by omega), smul_add, smul_smul, Polynomial.iterate_derivative_C_mul, Polynomial.eval_mul, Polynomial.eval_C]
    congr 2
    field_simp
  rw [e, hsum, hlin]
  match d with
  | 0 => simp [hp]
  | 1 => simp [hp]
  | d + 2 =>
    have h1 : Polynomial.derivative^[d + 2] (1 : Polynomial K) = 0 := Polynomial.iterate_derivative_one (by omega)
    have h2 : Polynomial.derivative^[d + 2] (Polynomial.C (((s.order - 1 : ℕ) : K)) * Polynomial.X) = 0 := by
      rw [Polynomial.iterate_derivative_C_mul, Polynomial.iterate_derivative_X (by omega), mul_zero]
    rw [h1, h2]
    simp

end Linear

end MSpline

/-! ## What the program builds -/

namespace Tutorial

open MSpline OptWorld

/-- What the optimiser gets from `K` steps: a cubic spline on `[0, K]` with one segment for each step, and one variable for each of its
`K + 3` control vertices, then the wall. -/
structure Built (ν : Noise ℝ) (K : ℕ) (p : Problem ℝ) : Prop where
  reach : RegularReach (euclidean ℝ (Fin 1 → ℝ)) 4 p.spline
  evaluable : p.spline.state = .evaluable
  knots : p.spline.keys = (List.range (K + 7)).map fun j : ℕ => (j : ℝ) - 3
  verts : ∀ v ∈ p.spline.verts, v = fun _ => 10
  minTime : p.spline.getMinTime = .ok 0
  maxTime : p.spline.getMaxTime = .ok (K : ℝ)
  wall : p.wall = 5
  dvs : p.dvs = ((List.range (K + 3)).map fun j : ℕ => Var.seg ((j : ℝ) - 3)) ++ [.wall]
  terms : p.terms = terms ν K

/-- **C69**: with at least one step the program builds this problem, whatever the random numbers. -/
theorem C69_build_partial (ν : Noise ℝ) (K : ℕ) (hK : 1 ≤ K) : ∃ p, build ν K = .ok p ∧ Built ν K p := by
  obtain ⟨s, h1, h2, h3, h4, h5, h6, h7, h8, h9, h10, h11⟩ := C67_uniform (euclidean ℝ (Fin 1 → ℝ)) 4 (by norm_num) 0 (K : ℝ)
    (by exact_mod_cast hK) K hK (fun _ => initialX ν 0) rfl
  have hcr : IntervalGen.create 4 (0 : ℝ) (K : ℝ) (K : ℤ) = .ok ⟨⟨0, (K : ℝ), K, 4⟩, 0, numKnotsRequiredInt K 4⟩ := by
    unfold IntervalGen.create
    rw [if_neg (by omega), if_neg (by push Not; exact_mod_cast hK)]
  have hrun : Call.run (euclidean ℝ (Fin 1 → ℝ)) (.initConstant (IntervalGen.knots (fieldPolicy ℝ)
      ⟨⟨0, (K : ℝ), K, 4⟩, 0, numKnotsRequiredInt K 4⟩) fun _ => initialX ν 0) (MSpline.create 4) = (.ok (), s) := by
    rw [← h1]
    unfold initConstantUniformSpline
    rw [show ((MSpline.create (K := ℝ) (P := Fin 1 → ℝ) 4).order : ℤ) = 4 from rfl, hcr]
    rfl
  have hkeys : s.keys = (List.range (K + 7)).map fun j : ℕ => (j : ℝ) - 3 := by
    apply List.ext_getElem?
    intro j
    by_cases hj : j < K + 7
    · rw [h5 j (by omega), List.getElem?_map, List.getElem?_range hj, Option.map_some]
      congr 1
      have : (K : ℝ) ≠ 0 := by
        have : K ≠ 0 := by omega
        exact_mod_cast this
      push_cast
      field_simp
      ring
    · rw [List.getElem?_eq_none (by rw [h4]; omega), List.getElem?_eq_none (by simp; omega)]
  set c : Call ℝ (Fin 1 → ℝ) := .initConstant (IntervalGen.knots (fieldPolicy ℝ)
      ⟨⟨0, (K : ℝ), K, 4⟩, 0, numKnotsRequiredInt K 4⟩) fun _ => initialX ν 0 with hc
  set M := euclidean ℝ (Fin 1 → ℝ) with hM
  have r0 : OReach M (OptWorld.empty : OptWorld ℝ (Fin 1 → ℝ)) (fun _ => False) := .empty
  have r1 : OReach M ((OOp.create 0 4).run M OptWorld.empty).2 ((OOp.create 0 4).listed M OptWorld.empty fun _ => False) :=
    .step _ r0 (show 1 ≤ 4 by norm_num)
  have hv1 : ((OOp.create 0 4).run M (OptWorld.empty : OptWorld ℝ (Fin 1 → ℝ))).2.base.view 0 = some (MSpline.create 4) := by
    change (World.create 0 4 _).view 0 = _
    unfold World.create World.view MSpline.create
    simp
  have hreg : ∀ x, ((OOp.create 0 4).run M (OptWorld.empty : OptWorld ℝ (Fin 1 → ℝ))).2.base.view 0 = some x → c.Regular x := by
    intro x _
    trivial
  obtain ⟨hinv, hcall⟩ := inv_call M r1.inv 0 c hreg
  obtain ⟨e1, e2⟩ := hcall _ hv1
  have r2 := OReach.step (M := M) (.call 0 c) r1 hreg
  rw [hrun] at e1 e2
  have hlist := C43_list_partial M _ _ r2 0 (.inr ⟨rfl, .inl (.inl rfl)⟩) s e2 h3
  obtain ⟨n, m, l1, -, -, l3⟩ := hlist
  obtain rfl : n = K + 3 := by
    have := h8.symm.trans l1
    rw [Outcome.ok.injEq] at this
    omega
  have hinit : initialised ν (K : ℤ) = ((.ok () : Outcome Unit), (OptWorld.call M 0 c ((OOp.create 0 4).run M OptWorld.empty).2).2) := by
    unfold initialised
    have : ((K : ℤ) : ℝ) = (K : ℝ) := by push_cast; rfl
    rw [this, hcr]
    exact Prod.ext e1 rfl
  refine ⟨⟨s, 5, ((OptWorld.call M 0 c ((OOp.create 0 4).run M OptWorld.empty).2).2.dvs 0).map (fun x => Var.seg x.2) ++ [.wall], terms ν K⟩, ?_, ⟨h2, h3, hkeys, h6, h10, h11, rfl, ?_, rfl⟩⟩
  · unfold build
    rw [if_neg (by omega), if_neg (by omega), hinit]
    dsimp only
    rw [e2]
    rfl
  · dsimp only
    congr 1
    have : (OptWorld.call M 0 c ((OOp.create 0 4).run M OptWorld.empty).2).2.dvs 0 = (s.segs.take (K + 3)).map fun g => (m, g.knot) := l3
    rw [this, List.map_map]
    have hk : (s.segs.take (K + 3)).map (fun g => g.knot) = (List.range (K + 3)).map fun j : ℕ => (j : ℝ) - 3 := by
      have : s.segs.map (fun g => g.knot) = s.keys := rfl
      rw [List.map_take, this, hkeys, ← List.map_take, List.take_range]
      congr 2
      omega
    calc _ = ((s.segs.take (K + 3)).map (fun g => g.knot)).map Var.seg := by rw [List.map_map]; rfl
      _ = _ := by rw [hk, List.map_map]; rfl

/-- **C69**: one prior and two terms for each step, one variable for each control vertex and the wall. -/
theorem C69_counts (ν : Noise ℝ) (K : ℕ) (p : Problem ℝ) (hp : Built ν K p) :
    p.terms.length = 2 * K + 1 ∧ p.dvs.length = K + 4 ∧ p.dvs.Nodup := by
  refine ⟨?_, ?_, ?_⟩
  · rw [hp.terms]
    unfold terms
    simp [Function.comp_def]
    omega
  · rw [hp.dvs]
    simp
  · rw [hp.dvs]
    refine List.Nodup.append (List.Nodup.map ?_ List.nodup_range) (by simp) (by simp)
    intro a b h
    rw [Var.seg.injEq] at h
    have : (a : ℝ) = b := by linarith
    exact_mod_cast this

/-- **C69** is violated: with zero steps the program reads the first element of an empty vector. -/
theorem C69_violated (ν : Noise ℝ) : build ν 0 = .ub := by
  unfold build
  simp

/-- **C69**: a negative number of steps is rejected. -/
theorem C69_negative (ν : Noise ℝ) (K : ℤ) (hK : K < 0) : build ν K = .throws := by
  unfold build
  rw [if_pos hK]

/-! ## The error terms -/

/-- The change of a term by its Jacobians if variable `v` changes by `δ v 0`. -/
noncomputable def change (J : List (Var ℝ × List ℝ)) (δ : Var ℝ → ℕ → ℝ) : ℝ := (J.map fun e => applyCols e.2 (δ e.1)).sum

/-- A change of the variables as seen by the spline expressions. -/
def seen (δ : Var ℝ → ℕ → ℝ) : ExprVar ℝ → ℕ → ℝ
  | .seg k => δ (.seg k)
  | .time _ => 0

/-- An observation can only be made away from the origin. -/
def Defined (s : MSpline ℝ (Fin 1 → ℝ)) : Term ℝ → Prop
  | .observation k _ _ => ∀ x, value s 1 k 0 = .ok x → x 0 ≠ 0
  | _ => True

theorem change_filter (δ : Var ℝ → ℕ → ℝ) : ∀ J : List (ExprVar ℝ × List ℝ),
    change (J.filterMap fun b => (ofExpr b.1).map fun v => (v, b.2)) δ = totalChange J (seen δ)
  | [] => rfl
  | (.seg k, b) :: J => by
    have ih := change_filter δ J
    show change ((Var.seg k, b) :: J.filterMap fun b => (ofExpr b.1).map fun v => (v, b.2)) δ = _
    unfold change totalChange at *
    rw [List.map_cons, List.sum_cons, List.map_cons, List.sum_cons, ih]
    rfl
  | (.time n, b) :: J => by
    have ih := change_filter δ J
    rw [List.filterMap_cons_none rfl]
    unfold totalChange at *
    rw [List.map_cons, List.sum_cons, ih]
    have : applyCols (K := ℝ) b (seen δ (ExprVar.time n)) = 0 := by simp [applyCols, seen]
    rw [this, zero_add]

theorem fst_filter : ∀ J : List (ExprVar ℝ × List ℝ),
    (J.filterMap fun b => (ofExpr b.1).map fun v => (v, b.2)).map Prod.fst = (J.map Prod.fst).filterMap ofExpr
  | [] => rfl
  | (.seg k, b) :: J => by
    show ((Var.seg k, b) :: J.filterMap fun b => (ofExpr b.1).map fun v => (v, b.2)).map Prod.fst = Var.seg k :: _
    rw [List.map_cons, fst_filter J]
  | (.time n, b) :: J => by
    rw [List.filterMap_cons_none rfl, List.map_cons, fst_filter J, List.filterMap_cons_none rfl]

/-- The part of a term that is a spline expression. -/
theorem spline_part {ν : Noise ℝ} {K : ℕ} {p : Problem ℝ} (hp : Built ν K p) {s : MSpline ℝ (Fin 1 → ℝ)} (hs : SameKnots p.spline s)
    (k : ℕ) (hk : k ≤ K) (m d : ℕ) (hd : d ≤ m) (c : ℝ) :
    ∃ J vars, splineJacobians s m k d c = .ok J ∧
      ((FactoryData.constTime (k : ℝ)).designVariables s noTime).map (fun l => l.filterMap ofExpr) = .ok vars ∧ vars.length = 4 ∧ vars.Nodup ∧
      (∀ v ∈ vars, v ∈ p.dvs ∧ v ≠ .wall) ∧ J.map Prod.fst = vars ∧
      ∀ δ : Var ℝ → ℕ → ℝ, ∃ f : ℝ → Fin 1 → ℝ, (∀ x, value (vectorUpdated s (seen δ) x) m k d = .ok (f x)) ∧ value s m k d = .ok (f 0) ∧
        HasDerivAt (fun x => c * f x 0) (change J δ) 0 := by
  have ho : p.spline.order = 4 := (hp.reach.mwf (by norm_num)).2
  have hmin := hp.minTime
  have hmax := hp.maxTime
  have hw0 := (hp.reach.mwf (by norm_num)).1
  rw [getMinTime_eq hw0 hp.evaluable, Outcome.ok.injEq] at hmin
  rw [getMaxTime_eq hw0 hp.evaluable, Outcome.ok.injEq] at hmax
  obtain ⟨i, hi0, -⟩ := getSegmentIterator_ok hw0 hp.evaluable (k : ℝ) (by rw [hmin]; positivity) (by rw [hmax]; exact_mod_cast hk)
  have hi : s.InSeg k i := hs.inSeg.2 hi0
  have hso : s.order = 4 := hs.order.trans ho
  have hl := hi.lower
  have hu := hi.upper
  have hlen : s.keys.length = K + 7 := by rw [hs.keys, hp.knots]; simp
  set chain : (Fin 1 → ℝ) →L[ℝ] ℝ := c • ContinuousLinearMap.proj 0 with hchain
  obtain ⟨J, vars, c1, c2, c3, c4, c5, c6⟩ := euclidean_const_node hs.mwf hs.evaluable hi (some m) d
    (fun n hn => by cases hn; exact hd) noTime chain
  have hfun : (fun v : Fin 1 → ℝ => c * v 0) = chain := by
    funext v
    simp [hchain]
  have hkn : ∀ j : ℕ, j < K + 7 → s.kn j = (j : ℝ) - 3 := by
    intro j hj
    rw [kn_eq_knOf]
    unfold knOf
    rw [hs.keys, hp.knots, List.getD_eq_getElem?_getD, List.getElem?_map, List.getElem?_range hj]
    rfl
  have hv : vars.filterMap ofExpr = (List.range 4).map fun j : ℕ => Var.seg (s.kn (i + 1 - 4 + j)) := by
    rw [c3, hso, List.filterMap_map]
    exact List.filterMap_eq_map_iff_forall_eq_some.2 fun _ _ => rfl
  refine ⟨J.filterMap fun b => (ofExpr b.1).map fun v => (v, b.2), vars.filterMap ofExpr, ?_, by rw [c2]; rfl, by rw [hv]; simp, ?_, ?_,
    ?_, fun δ => ?_⟩
  · unfold splineJacobians
    rw [hfun, c1]
    rfl
  · rw [hv]
    refine List.Nodup.map_on ?_ List.nodup_range
    intro a ha b hb hab
    rw [List.mem_range] at ha hb
    rw [hkn _ (by omega), hkn _ (by omega), Var.seg.injEq] at hab
    have : ((i + 1 - 4 + a : ℕ) : ℝ) = ((i + 1 - 4 + b : ℕ) : ℝ) := by linarith
    have := Nat.cast_injective this
    omega
  · intro v hvm
    rw [hv] at hvm
    obtain ⟨j, hj, rfl⟩ := List.mem_map.1 hvm
    rw [List.mem_range] at hj
    refine ⟨?_, fun h => nomatch h⟩
    rw [hp.dvs, List.mem_append]
    refine .inl (List.mem_map.2 ⟨i + 1 - 4 + j, List.mem_range.2 (by omega), ?_⟩)
    rw [hkn _ (by omega)]
  · rw [fst_filter, c5]
  · obtain ⟨f, f1, f2, f3⟩ := c6 (seen δ)
    refine ⟨f, f1, f2, ?_⟩
    rw [change_filter]
    refine f3.congr_of_eventuallyEq (Filter.Eventually.of_forall fun x => ?_)
    simp [hchain]

/-- The terms are the prior and, for every step, an odometry and an observation. -/
theorem mem_terms {ν : Noise ℝ} {K : ℕ} {e : Term ℝ} : e ∈ terms ν K ↔
    e = .prior 10 10000 ∨ ∃ k, k < K ∧ (e = .motion k (1 + ν.odometry k / 10) 100 ∨
      e = .observation k (5 / (10 + k) + ν.measurement k / 100) 10000) := by
  have hx : ∀ k : ℕ, (trueX k : ℝ) = 10 + k := by
    intro k
    induction k with
    | zero => simp [trueX]
    | succ k ih =>
      unfold trueX trueU
      rw [ih]
      push_cast
      ring
  have h1 : ∀ k, odometry ν k = 1 + ν.odometry k / 10 := by
    intro k
    unfold odometry trueU
    ring
  have h2 : ∀ k : ℕ, measured ν k = 5 / (10 + k) + ν.measurement k / 100 := by
    intro k
    unfold measured
    rw [hx]
    ring
  have e1 : (1 / (1 / 10 * (1 / 10)) : ℝ) = 100 := by norm_num
  have e2 : (1 / (1 / 100 * (1 / 100)) : ℝ) = 10000 := by norm_num
  unfold terms
  rw [List.mem_cons, List.mem_flatMap, e1, e2, show (trueX 0 : ℝ) = 10 from rfl]
  simp only [List.mem_range, List.mem_cons, List.not_mem_nil, or_false, h1, h2]

/-- **C69**: at every moment of an optimisation (same knots, any vertices, any wall) every term announces distinct variables of the problem
and has an error; its Jacobians concern exactly the announced variables and, if the term is defined, are the derivative of the error. -/
theorem C69_terms (ν : Noise ℝ) (K : ℕ) (p : Problem ℝ) (hp : Built ν K p) (e : Term ℝ) (he : e ∈ p.terms)
    (s : MSpline ℝ (Fin 1 → ℝ)) (hs : SameKnots p.spline s) (w : ℝ) :
    ∃ vars J err, e.designVariables s = .ok vars ∧ vars.Nodup ∧ (∀ v ∈ vars, v ∈ p.dvs) ∧ e.error s w = .ok err ∧
      e.cost s w = .ok (e.invR * err ^ 2) ∧ e.jacobians s w = .ok J ∧ J.map Prod.fst = vars ∧
      (Defined s e → ∀ δ : Var ℝ → ℕ → ℝ, ∃ f : ℝ → ℝ,
        (∀ x, e.error (vectorUpdated s (seen δ) x) (w + x * δ .wall 0) = .ok (f x)) ∧ f 0 = err ∧ HasDerivAt f (change J δ) 0) := by
  rw [hp.terms, mem_terms] at he
  have hcost : ∀ err, e.error s w = .ok err → e.cost s w = .ok (e.invR * err ^ 2) := by
    intro err h
    unfold Term.cost
    rw [h, Outcome.map_ok]
    refine congrArg Outcome.ok ?_
    ring
  rcases he with rfl | ⟨k, hk, rfl | rfl⟩
  · obtain ⟨J, vars, h1, h2, -, h4, h5, h6, h7⟩ := spline_part hp hs 0 (Nat.zero_le _) 0 0 le_rfl 1
    obtain ⟨f0, -, g0, -⟩ := h7 0
    rw [Nat.cast_zero] at h1 h2 g0
    have herr : Term.error s w (.prior 10 10000) = .ok (f0 0 0 - 10) := by
      unfold Term.error
      dsimp only
      rw [g0, Outcome.map_ok]
    refine ⟨vars, J, _, h2, h4, fun v hv => (h5 v hv).1, herr, hcost _ herr, h1, h6, fun _ δ => ?_⟩
    obtain ⟨f, f1, f2, f3⟩ := h7 δ
    rw [Nat.cast_zero] at f2
    have f1' : ∀ x, value (vectorUpdated s (seen δ) x) 0 0 0 = .ok (f x) := by
      intro x
      have := f1 x
      rwa [Nat.cast_zero] at this
    refine ⟨fun x => f x 0 - 10, fun x => ?_, ?_, ?_⟩
    · unfold Term.error
      dsimp only
      rw [f1', Outcome.map_ok]
    · obtain h := Outcome.ok.inj (g0.symm.trans f2)
      rw [h]
    · refine (f3.sub_const 10).congr_of_eventuallyEq (Filter.Eventually.of_forall fun x => ?_)
      simp
  · obtain ⟨J, vars, h1, h2, -, h4, h5, h6, h7⟩ := spline_part hp hs k hk.le 1 1 le_rfl (-1)
    obtain ⟨f0, -, g0, -⟩ := h7 0
    have herr : Term.error s w (.motion k (1 + ν.odometry k / 10) 100) = .ok (1 + ν.odometry k / 10 - f0 0 0) := by
      unfold Term.error
      dsimp only
      rw [g0, Outcome.map_ok]
    refine ⟨vars, J, _, h2, h4, fun v hv => (h5 v hv).1, herr, hcost _ herr, h1, h6, fun _ δ => ?_⟩
    obtain ⟨f, f1, f2, f3⟩ := h7 δ
    refine ⟨fun x => 1 + ν.odometry k / 10 - f x 0, fun x => ?_, ?_, ?_⟩
    · unfold Term.error
      dsimp only
      rw [f1, Outcome.map_ok]
    · obtain h := Outcome.ok.inj (g0.symm.trans f2)
      rw [h]
    · refine (f3.const_add (1 + ν.odometry k / 10)).congr_of_eventuallyEq (Filter.Eventually.of_forall fun x => ?_)
      simp
      ring
  · obtain ⟨J0, v0, -, -, -, -, -, -, h70⟩ := spline_part hp hs k hk.le 1 0 (by norm_num) 1
    obtain ⟨f0, -, g0, -⟩ := h70 0
    set x0 := f0 0 0 with hx0
    obtain ⟨J, vars, h1, h2, -, h4, h5, h6, h7⟩ := spline_part hp hs k hk.le 1 0 (by norm_num) (-(w / (x0 * x0)))
    have herr : Term.error s w (.observation k (5 / (10 + k) + ν.measurement k / 100) 10000) =
        .ok (w / x0 - (5 / (10 + k) + ν.measurement k / 100)) := by
      unfold Term.error
      dsimp only
      rw [g0, Outcome.map_ok]
    refine ⟨.wall :: vars, (.wall, [1 / x0]) :: J, _, ?_, ?_, ?_, herr, hcost _ herr, ?_, ?_, fun hdef δ => ?_⟩
    · unfold Term.designVariables
      dsimp only
      cases hd : (FactoryData.constTime (k : ℝ)).designVariables s noTime with
      | ok l =>
        rw [hd, Outcome.map_ok, Outcome.ok.injEq] at h2
        rw [Outcome.map_ok, h2]
      | throws => rw [hd] at h2; exact nomatch h2
      | ub => rw [hd] at h2; exact nomatch h2
    · exact List.nodup_cons.2 ⟨fun h => (h5 _ h).2 rfl, h4⟩
    · intro v hv
      rcases List.mem_cons.1 hv with rfl | hv
      · rw [hp.dvs]
        simp
      · exact (h5 v hv).1
    · unfold Term.jacobians
      dsimp only
      rw [g0, Outcome.bind_ok, ← hx0, h1, Outcome.map_ok]
    · rw [List.map_cons, h6]
    · obtain ⟨f, f1, f2, f3⟩ := h7 δ
      have hne : x0 ≠ 0 := hdef _ g0
      have hf0 : f 0 0 = x0 := by
        obtain h := Outcome.ok.inj (g0.symm.trans f2)
        rw [hx0, h]
      refine ⟨fun x => (w + x * δ .wall 0) / f x 0 - (5 / (10 + k) + ν.measurement k / 100), fun x => ?_, ?_, ?_⟩
      · unfold Term.error
        dsimp only
        rw [f1, Outcome.map_ok]
      · simp [hf0]
      · have hJ : change ((.wall, [1 / x0]) :: J) δ = δ .wall 0 * (1 / x0) + change J δ := by
          unfold change
          rw [List.map_cons, List.sum_cons]
          simp [applyCols]
        rw [hJ]
        -- the derivative of the position itself
        obtain ⟨J1, -, j1, -, -, -, -, -, j7⟩ := spline_part hp hs k hk.le 1 0 (by norm_num) 1
        obtain ⟨f', f1', -, f3'⟩ := j7 δ
        have hff : f' = f := by
          funext x
          exact Outcome.ok.inj ((f1' x).symm.trans (f1 x))
        rw [hff] at f3'
        have hpos : HasDerivAt (fun x => f x 0) (change J1 δ) 0 := by simpa using f3'
        have hcJ : change J δ = -(w / (x0 * x0)) * change J1 δ := f3.unique (hpos.const_mul _)
        have hnum : HasDerivAt (fun x : ℝ => w + x * δ .wall 0) (δ .wall 0) 0 := by
          simpa using ((hasDerivAt_id' (0 : ℝ)).mul_const (δ .wall 0)).const_add w
        have hq := (hnum.div hpos (by rw [hf0]; exact hne)).sub_const (5 / (10 + k) + ν.measurement k / 100)
        refine hq.congr_deriv ?_
        rw [hcJ, hf0]
        field_simp
        ring

/-- **C69**: the errors the optimiser starts with: none of the prior, the odometry of the motion, and that of a robot standing at 10. -/
theorem C69_start (ν : Noise ℝ) (K : ℕ) (p : Problem ℝ) (hp : Built ν K p) :
    (Term.prior 10 10000).error p.spline p.wall = .ok 0 ∧ ∀ k, k < K →
      (∀ u r, (Term.motion k u r).error p.spline p.wall = .ok u) ∧
      (∀ y r, (Term.observation k y r).error p.spline p.wall = .ok (1 / 2 - y)) ∧ Defined p.spline (.observation k 0 1) := by
  have hval : ∀ k : ℕ, k ≤ K → ∀ m d : ℕ, d ≤ m → value p.spline m k d = .ok (if d = 0 then (fun _ => 10) else 0) := by
    intro k hk m d hd
    exact C67_euclidean_constant (euclidean ℝ (Fin 1 → ℝ)) 4 (by norm_num) p.spline hp.reach hp.evaluable (fun _ => 10) hp.verts 0 K hp.minTime
      hp.maxTime k (by positivity) (by exact_mod_cast hk) (some m) d (fun n hn => by cases hn; exact hd)
  have h0 := hval 0 (Nat.zero_le _) 0 0 le_rfl
  rw [Nat.cast_zero] at h0
  refine ⟨?_, fun k hk => ⟨fun u r => ?_, fun y r => ?_, fun x hx => ?_⟩⟩
  · unfold Term.error
    dsimp only
    rw [h0, Outcome.map_ok]
    simp
  · unfold Term.error
    dsimp only
    rw [hval k hk.le 1 1 le_rfl, Outcome.map_ok]
    simp
  · unfold Term.error
    dsimp only
    rw [hval k hk.le 1 0 (by norm_num), Outcome.map_ok, hp.wall]
    refine congrArg Outcome.ok ?_
    norm_num
  · rw [hval k hk.le 1 0 (by norm_num), Outcome.ok.injEq] at hx
    rw [← hx]
    norm_num

/-- **C69**: without noise the true motion, at position `10 + t` at time `t`, and the true wall leave no error. -/
theorem C69_truth (ν : Noise ℝ) (h0 : ∀ k, ν.odometry k = 0) (h1 : ∀ k, ν.measurement k = 0) (K : ℕ) (p : Problem ℝ) (hp : Built ν K p)
    (s : MSpline ℝ (Fin 1 → ℝ)) (hs : SameKnots p.spline s) (hv : ∀ j : ℕ, j < K + 3 → s.vert j = fun _ => 9 + (j : ℝ))
    (e : Term ℝ) (he : e ∈ p.terms) : e.error s 5 = .ok 0 ∧ Defined s e := by
  have ho : p.spline.order = 4 := (hp.reach.mwf (by norm_num)).2
  have hmin := hp.minTime
  have hmax := hp.maxTime
  have hw0 := (hp.reach.mwf (by norm_num)).1
  rw [getMinTime_eq hw0 hp.evaluable, Outcome.ok.injEq] at hmin
  rw [getMaxTime_eq hw0 hp.evaluable, Outcome.ok.injEq] at hmax
  have hso : s.order = 4 := hs.order.trans ho
  have hlen : s.keys.length = K + 7 := by rw [hs.keys, hp.knots]; simp
  have hkn : ∀ j : ℕ, j < K + 7 → s.kn j = (j : ℝ) - 3 := by
    intro j hj
    rw [kn_eq_knOf]
    unfold knOf
    rw [hs.keys, hp.knots, List.getD_eq_getElem?_getD, List.getElem?_map, List.getElem?_range hj]
    rfl
  have hval : ∀ k : ℕ, k ≤ K → ∀ m d : ℕ, d ≤ m → value s m k d = .ok (if d = 0 then (fun _ => 10 + (k : ℝ)) else if d = 1 then (fun _ => 1) else 0) := by
    intro k hk m d hd
    obtain ⟨i, hi0, -⟩ := getSegmentIterator_ok hw0 hp.evaluable (k : ℝ) (by rw [hmin]; positivity) (by rw [hmax]; exact_mod_cast hk)
    have hi : s.InSeg k i := hs.inSeg.2 hi0
    have := C69_affine hs.mwf hs.evaluable (by omega) (fun _ => 10) (fun _ => 1) (fun j hj => ?_) hi (some m) d
      (fun n hn => by cases hn; exact hd)
    · refine this.trans (congrArg Outcome.ok ?_)
      split_ifs
      · funext x
        simp
      · rfl
      · rfl
    · rw [hv j (by omega)]
      funext x
      rw [hso]
      simp only [knotSum, sum_range_succ, sum_range_zero, Pi.add_apply, Pi.smul_apply, smul_eq_mul]
      rw [hkn _ (by omega), hkn _ (by omega), hkn _ (by omega)]
      push_cast
      ring
  rw [hp.terms, mem_terms] at he
  rcases he with rfl | ⟨k, hk, rfl | rfl⟩
  · have := hval 0 (Nat.zero_le _) 0 0 le_rfl
    rw [Nat.cast_zero] at this
    refine ⟨?_, trivial⟩
    unfold Term.error
    dsimp only
    rw [this, Outcome.map_ok]
    simp
  · refine ⟨?_, trivial⟩
    unfold Term.error
    dsimp only
    rw [hval k hk.le 1 1 le_rfl, Outcome.map_ok, h0]
    simp
  · refine ⟨?_, fun x hx => ?_⟩
    · unfold Term.error
      dsimp only
      rw [hval k hk.le 1 0 (by norm_num), Outcome.map_ok, h1]
      simp
    · rw [hval k hk.le 1 0 (by norm_num), Outcome.ok.injEq] at hx
      rw [← hx, if_pos rfl]
      positivity

/-- Noise that is not zero. -/
def someNoise : Noise ℝ := ⟨fun k => k, fun k => -k, 7⟩

/-- Not vacuous: a problem with three steps, its seven terms, its variables, and an error at the start that is not zero. -/
example : ∃ p, build someNoise 3 = .ok p ∧ Built someNoise 3 p ∧ p.terms.length = 7 ∧ p.dvs.length = 7 ∧
    .motion 2 (1 + 2 / 10) 100 ∈ p.terms ∧ (Term.motion 2 (1 + 2 / 10) 100).error p.spline p.wall = .ok (1 + 2 / 10) := by
  obtain ⟨p, h1, h2⟩ := C69_build_partial someNoise 3 (by norm_num)
  refine ⟨p, h1, h2, by rw [h2.terms]; rfl, by rw [h2.dvs]; rfl, ?_, ((C69_start _ _ p h2).2 2 (by norm_num)).1 _ _⟩
  rw [h2.terms, mem_terms]
  exact .inr ⟨2, by norm_num, .inl (by simp [someNoise])⟩

/-- **C69**: the costs are the squared errors over the variances: a hundredth squared for the prior and the observations, a tenth squared for
the odometry. -/
theorem C69_weights (ν : Noise ℝ) (K : ℕ) (p : Problem ℝ) (hp : Built ν K p) (e : Term ℝ) (he : e ∈ p.terms)
    (s : MSpline ℝ (Fin 1 → ℝ)) (w err : ℝ) (h : e.error s w = .ok err) :
    e.cost s w = .ok (match e with
      | .prior _ _ => err ^ 2 / (1 / 100) ^ 2
      | .motion _ _ _ => err ^ 2 / (1 / 10) ^ 2
      | .observation _ _ _ => err ^ 2 / (1 / 100) ^ 2) := by
  rw [hp.terms, mem_terms] at he
  unfold Term.cost
  rw [h, Outcome.map_ok]
  rcases he with rfl | ⟨k, hk, rfl | rfl⟩
  all_goals
    refine congrArg Outcome.ok ?_
    simp only [Term.invR]
    ring

/-- **C69**: the initial positions are the true ones with the noise of the odometry added up. -/
theorem C69_dead_reckoning (ν : Noise ℝ) (k : ℕ) :
    (trueX k : ℝ) = 10 + k ∧ initialX ν k = 10 + k + (∑ j ∈ Finset.Icc 1 k, ν.odometry j) / 10 := by
  induction k with
  | zero => simp [trueX, initialX]
  | succ k ih =>
    rw [trueX, initialX, ih.1, ih.2, Finset.sum_Icc_succ_top (by omega)]
    unfold odometry trueU
    push_cast
    constructor <;> ring

example : ∃ p, build someNoise 3 = .ok p ∧ (Term.motion 2 (1 + 2 / 10) 100).cost p.spline p.wall = .ok ((1 + 2 / 10) ^ 2 / (1 / 10) ^ 2) := by
  obtain ⟨p, h1, h2⟩ := C69_build_partial someNoise 3 (by norm_num)
  exact ⟨p, h1, C69_weights someNoise 3 p h2 _ (by rw [h2.terms, mem_terms]; exact .inr ⟨2, by norm_num, .inl (by simp [someNoise])⟩) _ _ _
    (((C69_start _ _ p h2).2 2 (by norm_num)).1 _ _)⟩

/-- Not vacuous: a spline with the knots of the problem and the vertices of the true motion. -/
example : ∃ p s, build (⟨0, 0, 0⟩ : Noise ℝ) 2 = .ok p ∧ SameKnots p.spline s ∧ ∀ j : ℕ, j < 2 + 3 → s.vert j = fun _ => 9 + (j : ℝ) := by
  obtain ⟨p, h1, h2⟩ := C69_build_partial (⟨0, 0, 0⟩ : Noise ℝ) 2 (by norm_num)
  obtain ⟨hw, ho⟩ := h2.reach.mwf (by norm_num)
  refine ⟨p, p.spline.moved fun m _ => fun _ => 9 + (m : ℝ), h1, ⟨moved_mwf hw _, h2.evaluable, rfl, moved_keys _ _⟩, fun j hj => ?_⟩
  have hlt : j < p.spline.verts.length := by
    have : p.spline.verts.length = p.spline.keys.length := by simp [verts, keys]
    rw [this, h2.knots]
    simp
    omega
  unfold vert
  rw [List.getD_eq_getElem?_getD, moved_verts, List.getElem?_eq_getElem hlt, Option.map_some, Option.getD_some]

end Tutorial

end Verif
