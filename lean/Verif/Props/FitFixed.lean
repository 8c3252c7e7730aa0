import Verif.Props.Fitter

/-!
# C38, C113: what a fit with fixed vertices and a regularisation does

The terms of the regularisation are added to the equations of the wrong vertices (C38).  Here is what the fit minimises instead, for all
numbers of fixed vertices and all weights: the regularisation is that of another curve, whose vertices come too early by the number of fixed
ones.  In particular such a fit succeeds too and changes only free vertices.
-/

set_option linter.unusedSectionVars false

namespace Verif.MSpline

open Finset Polynomial BSpline MeasureTheory

variable {D : ℕ}

/-- Curves that keep all vertices a fit does not change. -/
def Keeps (s : MSpline ℝ (Fin D → ℝ)) (fix i0 il : ℕ) (v : ℕ → Fin D → ℝ) : Prop :=
  ∀ j, ¬ (i0 + 1 - s.order + fix ≤ j ∧ j ≤ il) → v j = s.vert j

namespace Spec

/-- The weighted squares of the distances between the points and the curve. -/
noncomputable def fitMisfit (s : MSpline ℝ (Fin D → ℝ)) (data : List (ℝ × (Fin D → ℝ))) (weights : Option (ℕ → ℝ)) : ℝ :=
  ∑ m : Fin data.length, ∑ d : Fin D, (weightOf weights m * ((s.euclideanEval data[m].1).getD 0 d - data[m].2 d)) ^ 2

/-- The integral of the squared second derivative between two times. -/
noncomputable def fitBending (s : MSpline ℝ (Fin D → ℝ)) (tmin tmax : ℝ) : ℝ :=
  ∫ t in tmin..tmax, ∑ d : Fin D, ((s.euclideanEvalD none t 2).getD 0 d) ^ 2

/-- The curve passes through all points. -/
def Meets (s : MSpline ℝ (Fin D → ℝ)) (data : List (ℝ × (Fin D → ℝ))) : Prop := ∀ x ∈ data, s.euclideanEval x.1 = .ok x.2

end Spec

theorem withVerts_self (s : MSpline ℝ (Fin D → ℝ)) : s.withVerts s.vert = s := by
  unfold withVerts
  have : s.segs.mapIdx (fun j g => (⟨g.knot, s.vert j, g.basis⟩ : Seg ℝ (Fin D → ℝ))) = s.segs := by
    refine List.ext_getElem? fun j => ?_
    rw [List.getElem?_mapIdx]
    rcases hg : s.segs[j]? with _ | g
    · rfl
    · have : s.vert j = g.vertex := by unfold vert verts; rw [List.getD_eq_getElem?_getD, List.getElem?_map, hg]; rfl
      rw [Option.map_some, this]
  rw [this]

theorem regularise_shifted {s : MSpline ℝ (Fin D → ℝ)} (h : s.MWF) (he : s.state = .evaluable) (dense : Bool) (lambda : ℝ) (t0 tl : ℝ)
    (i0 il : ℕ) (h0 : s.InSeg t0 i0) (hl : s.InSeg tl il) (hle : i0 ≤ il) (fix : ℕ) (hfree : i0 + 1 - s.order + fix ≤ il) (A : Mat ℝ) (b : ℕ → ℝ)
    (n : ℕ) (hA : ∀ x y, bil (n * D) A x y = bil (n * D) A y x) :
    ∃ A' b' c, s.regularise dense lambda n fix t0 tl (A, b) = .ok (A', b') ∧
      (∀ x y, bil (n * D) A' x y = bil (n * D) A' y x) ∧
      ∀ x, bil (n * D) A' x x - 2 * ∑ p ∈ range (n * D), x p * b' p
        = bil (n * D) A x x - 2 * ∑ p ∈ range (n * D), x p * b p +
          (∑ j ∈ Ico (max (i0 + 1 - s.order + fix) (s.order - 1)) (min (il + s.order) (s.keys.length - s.order)),
            s.segEnergy lambda j (fullV n (i0 + 1 - s.order) D x s.vertN) - c) := by
  have hk := h.order_pos
  have hnk := h.enough he
  have hnd := h.nodup
  have l01 := h0.lower
  have l02 := h0.upper
  have ll1 := hl.lower
  have ll2 := hl.upper
  by_cases hl0 : lambda = 0
  · refine ⟨A, b, 0, ?_, hA, fun x => ?_⟩
    · unfold regularise
      rw [if_pos hl0]
    · have z : ∀ j w, s.segEnergy lambda j w = 0 := fun j w => by
        unfold segEnergy
        exact sum_eq_zero fun d _ => by rw [hl0, zero_mul]
      rw [sum_eq_zero fun j _ => z j _]
      ring
  obtain ⟨j0, hj0, g0⟩ := getSegmentIterator_ok h he t0 (h0.range h).1 (h0.range h).2
  obtain rfl := hj0.unique h h0
  obtain ⟨jl, hjl, gl⟩ := getSegmentIterator_ok h he tl (hl.range h).1 (hl.range h).2
  obtain rfl := hjl.unique h hl
  have m1 : moveIter s.keys s.keys[j0]? (if ((fix : ℤ) - ((s.order : ℤ) - 1)) < 0 then s.keys[s.order - 1]? else s.keys[jl]?)
      ((fix : ℤ) - ((s.order : ℤ) - 1)) = .ok s.keys[max (j0 + 1 - s.order + fix) (s.order - 1)]? := by
    by_cases h1 : s.order ≤ fix + 1
    · rw [if_neg (by omega)]
      have := moveIter_fwd hnd (l := jl) (i := j0) (by omega) hle (fix + 1 - s.order)
      rw [show ((fix : ℤ) - ((s.order : ℤ) - 1)) = ((fix + 1 - s.order : ℕ) : ℤ) by omega, this]
      congr 2
      omega
    · rw [if_pos (by omega)]
      have := moveIter_bwd hnd (l := s.order - 1) (i := j0) (by omega) (by omega) (s.order - 1 - fix)
      rw [show ((fix : ℤ) - ((s.order : ℤ) - 1)) = -((s.order - 1 - fix : ℕ) : ℤ) by omega, this]
      congr 3
      omega
  have m2 : moveIter s.keys s.keys[jl]? s.keys[s.keys.length - s.order]? (s.order : ℤ)
      = .ok s.keys[min (jl + s.order) (s.keys.length - s.order)]? :=
    moveIter_fwd hnd (by omega) (by omega) s.order
  set a := max (j0 + 1 - s.order + fix) (s.order - 1) with ha
  set e := min (jl + s.order) (s.keys.length - s.order) with hee
  obtain ⟨A', b', c, r1, r2, r3⟩ := regLoop_ok h dense lambda n (j0 + 1 - s.order) e (by omega) (s.segEnergy lambda)
    (fun i h1 h2 => segEnergy_spec h he lambda i h1 h2) _ a rfl (by omega) ((a : ℤ) - j0) (by omega) A b hA
  refine ⟨A', b', c, ?_, r2, r3⟩
  unfold regularise
  rw [if_neg hl0, h.iters_eq he]
  dsimp only
  rw [g0, Outcome.bind_ok, gl, Outcome.bind_ok, m1, Outcome.bind_ok, m2, Outcome.bind_ok, itPos_at hnd (by omega),
    itPos_at hnd (by omega), itPos_at hnd (by omega), if_pos (by omega), if_pos (by omega)]
  exact r1

/-- The curve whose regularisation is added: the free vertices `v` come `fix` places earlier. -/
def earlier (s : MSpline ℝ (Fin D → ℝ)) (fix i0 il : ℕ) (v : ℕ → Fin D → ℝ) : MSpline ℝ (Fin D → ℝ) :=
  s.withVerts fun j => if i0 + 1 - s.order ≤ j ∧ j + fix ≤ il then v (j + fix) else s.vert j

/-- The regularisation of a curve between two knots. -/
theorem bending_eq {s : MSpline ℝ (Fin D → ℝ)} (h : s.MWF) (he : s.state = .evaluable) (v : ℕ → Fin D → ℝ) (w : ℕ → ℕ → ℝ)
    (hvw : ∀ j d, j < s.keys.length → w j (d : Fin D) = v j d) (lambda : ℝ) (a e : ℕ) (ha : s.order ≤ a + 1) (hae : a ≤ e)
    (hek : e + s.order ≤ s.keys.length) :
    lambda * Spec.fitBending (s.withVerts v) (s.kn a) (s.kn e) = ∑ i ∈ Ico a e, s.segEnergy lambda i w := by
  have hk := h.order_pos
  have := (pieces_integral (kn := s.kn) (lo := a) (hi := e)
    (g := fun t => ∑ d : Fin D, (((s.withVerts v).euclideanEvalD none t 2).getD 0 d) ^ 2)
    (P := fun i t => ∑ d : Fin D, s.curveVal w i 2 t d ^ 2)
    (fun i => continuous_finsetSum _ fun d _ => (curveVal_continuous s w i 2 d).pow 2)
    (fun i _ h2 => h.mono i (i + 1) (by omega) (by omega))
    (by
      intro i h1 h2 x hx1 hx2
      have hi : s.InSeg x i := ⟨by omega, by omega, hx1.le, Or.inl hx2⟩
      obtain ⟨p, hp, hp'⟩ := withVerts_eval h he v w hvw hi 2
      have hp2 : (s.withVerts v).euclideanEvalD none x 2 = .ok p := hp
      rw [hp2, Outcome.getD_ok]
      exact sum_congr rfl fun d _ => by rw [hp'])
    e hae le_rfl).2
  unfold Spec.fitBending
  rw [this, mul_sum]
  refine sum_congr rfl fun i _ => ?_
  unfold segEnergy
  rw [intervalIntegral.integral_finsetSum
    (f := fun (d : Fin D) (t : ℝ) => s.curveVal w i 2 t d ^ 2)
    (fun d _ => ((curveVal_continuous s w i 2 d).pow 2).intervalIntegrable _ _), mul_sum,
    Finset.sum_range fun d => lambda * ∫ t in s.kn i..s.kn (i + 1), s.curveVal w i 2 t d ^ 2]

theorem misfit_eq {s : MSpline ℝ (Fin D → ℝ)} (h : s.MWF) (he : s.state = .evaluable) (v : ℕ → Fin D → ℝ) (w : ℕ → ℕ → ℝ)
    (hvw : ∀ j d, j < s.keys.length → w j (d : Fin D) = v j d) (data : List (ℝ × (Fin D → ℝ))) (idx : ℝ → ℕ)
    (hidx : ∀ x ∈ data, s.InSeg x.1 (idx x.1)) (weights : Option (ℕ → ℝ)) :
    Spec.fitMisfit (s.withVerts v) data weights
      = ∑ m : Fin data.length, ∑ d : Fin D, (weightOf weights m * (s.curveVal w (idx data[m].1) 0 data[m].1 d - data[m].2 d)) ^ 2 := by
  unfold Spec.fitMisfit
  refine sum_congr rfl fun m _ => sum_congr rfl fun d _ => ?_
  obtain ⟨p, hp, hp'⟩ := withVerts_eval h he v w hvw (hidx data[m] (List.getElem_mem _)) 0
  have : (s.withVerts v).euclideanEval data[m].1 = .ok p := hp
  rw [this, Outcome.getD_ok, hp']

theorem calcFitted_shifted {s : MSpline ℝ (Fin D → ℝ)} (h : s.MWF) (he : s.state = .evaluable) (hD : 1 ≤ D) (dense : Bool)
    (solve : Solver ℝ) (hsolve : SolvesSemidefinite solve)
    {resolver : Resolver ℝ} {data : List (ℝ × (Fin D → ℝ))} {t0 tl : ℝ} {i0 il : ℕ} {idx : ℝ → ℕ} {r : ℤ}
    (hin : s.FitInput resolver data t0 tl i0 il idx r) (weights : Option (ℕ → ℝ)) (lambda : ℝ) (hl : 0 ≤ lambda) (fix : ℕ)
    (offsets : Bool) (hoff : offsets = true → lambda = 0) :
    ∃ v, s.calcFitted dense solve id resolver data weights lambda fix offsets = (.ok (), s.withVerts v) ∧ s.Keeps fix i0 il v ∧
      ∀ v', s.Keeps fix i0 il v' →
        Spec.fitMisfit (s.withVerts v) data weights + lambda * Spec.fitBending (s.earlier fix i0 il v)
            (s.kn (max (i0 + 1 - s.order + fix) (s.order - 1))) (s.kn (min (il + s.order) (s.keys.length - s.order)))
          ≤ Spec.fitMisfit (s.withVerts v') data weights + lambda * Spec.fitBending (s.earlier fix i0 il v')
            (s.kn (max (i0 + 1 - s.order + fix) (s.order - 1))) (s.kn (min (il + s.order) (s.keys.length - s.order))) := by
  have hk := h.order_pos
  have hnk := h.enough he
  obtain ⟨p0, hp0⟩ := hin.first
  obtain ⟨pl, hpl⟩ := hin.last
  have m0 : (t0, p0) ∈ data := List.mem_of_mem_head? hp0
  have ml : (tl, pl) ∈ data := List.mem_of_mem_getLast? hpl
  have s0 := hin.seg _ m0
  have sl := hin.seg _ ml
  have hle := hin.upper _ m0
  have r0 := hin.res _ m0
  have rl := hin.res _ ml
  dsimp only at s0 sl hle r0 rl
  rw [← hin.i0_eq] at s0 hle r0
  rw [← hin.il_eq] at sl rl
  have l1 := s0.lower
  have l2 := sl.upper
  have l3 := sl.lower
  by_cases hfree : i0 + 1 - s.order + fix ≤ il
  · obtain ⟨rows, current, hcur, hrows, hrun⟩ := calcFitted_run h he dense solve hin weights lambda fix offsets hoff hfree
    set base := i0 + 1 - s.order + fix with hbase
    set n := il + 1 - base with hn
    set A := fitMatrix s.order rows with hA
    set b := fitVector s.order fix offsets current rows with hb
    set o : ℕ → ℝ := fun q => if offsets then s.vertN (base + q / D) (q % D) else 0 with ho
    set a := max base (s.order - 1) with ha
    set e := min (il + s.order) (s.keys.length - s.order) with hee
    obtain ⟨A', b', c, q1, q2, q3⟩ := regularise_shifted h he dense lambda t0 tl i0 il s0 sl hle fix hfree (gram (data.length * D) A)
      (transposeVec (data.length * D) A b) n (fun x y => by
        rw [bil_gram, bil_gram]
        exact sum_congr rfl fun r _ => mul_comm _ _)
    rw [← hbase, ← ha, ← hee] at q3
    have hres : ∀ x, ∑ r ∈ range (data.length * D), (mulV (n * D) A x r - b r) ^ 2
        = ∑ m : Fin data.length, ∑ d : Fin D,
          (weightOf weights m * (s.curveVal (fullV n base D (fun q => x q + o q) s.vertN) (idx data[m].1) 0 data[m].1 d
            - data[m].2 d)) ^ 2 := by
      intro x
      rw [sum_stacked, Finset.sum_range]
      refine sum_congr rfl fun m _ => ?_
      rw [Finset.sum_range]
      refine sum_congr rfl fun d _ => ?_
      obtain ⟨R, a1, a2, a3, a4⟩ := hrows m data[m] (List.getElem?_eq_getElem m.2)
      have b1 := hin.lower _ (List.getElem_mem m.2)
      have b2 := hin.upper _ (List.getElem_mem m.2)
      have b3 := (hin.seg _ (List.getElem_mem m.2)).lower
      congr 1
      by_cases hof : offsets = true
      · rw [if_pos hof] at hcur
        have e : (fun q => x q + o q) = fun q => x q + s.vertN (base + q / D) (q % D) := by
          funext q
          rw [ho]
          dsimp only
          rw [if_pos hof]
        rw [e, hb, hof]
        exact residual_offsets n base fix _ hbase current hcur rows m _ R a1 b3 a2 (by omega)
          (by
            have : idx data[m].1 ≤ il := b2
            omega) _ _ _ a3 a4 x d
      · rw [if_neg hof] at hcur
        have e : (fun q => x q + o q) = x := by
          funext q
          rw [ho]
          dsimp only
          rw [if_neg hof, add_zero]
        have hof' : offsets = false := by simpa using hof
        rw [e, hb, hof']
        exact residual_eq n base fix _ hbase current hcur rows m _ R a1 b3 a2 (by omega)
          (by
            have : idx data[m].1 ≤ il := b2
            omega) _ _ _ a3 a4 x d
    have hen : ∀ x, ∑ j ∈ Ico a e, s.segEnergy lambda j (fullV n (i0 + 1 - s.order) D x s.vertN)
        = ∑ j ∈ Ico a e, s.segEnergy lambda j (fullV n (i0 + 1 - s.order) D (fun q => x q + o q) s.vertN) := by
      intro x
      by_cases hof : offsets = true
      · refine sum_congr rfl fun j _ => ?_
        unfold segEnergy
        refine sum_congr rfl fun d _ => ?_
        rw [hoff hof, zero_mul, zero_mul]
      · have e : (fun q => x q + o q) = x := by
          funext q
          rw [ho]
          dsimp only
          rw [if_neg hof, add_zero]
        rw [e]
    set cost : (ℕ → ℝ) → ℝ := fun x => ∑ m : Fin data.length, ∑ d : Fin D,
          (weightOf weights m * (s.curveVal (fullV n base D (fun q => x q + o q) s.vertN) (idx data[m].1) 0 data[m].1 d
            - data[m].2 d)) ^ 2
        + ∑ j ∈ Ico a e, s.segEnergy lambda j (fullV n (i0 + 1 - s.order) D (fun q => x q + o q) s.vertN) with hcost
    have hF : ∀ x, bil (n * D) A' x x - 2 * ∑ p ∈ range (n * D), x p * b' p
        = cost x - (c + ∑ r ∈ range (data.length * D), b r ^ 2) := by
      intro x
      rw [q3 x, gram_cost, hres, hen]
      rw [hcost]
      ring
    have hmin := solve_minimises solve hsolve (n * D) A' b' q2 cost _ hF (fun x => by
      rw [hcost]
      refine add_nonneg (sum_nonneg fun m _ => sum_nonneg fun d _ => sq_nonneg _) (sum_nonneg fun i hi => sum_nonneg fun d _ => ?_)
      have := mem_Ico.1 hi
      exact mul_nonneg hl (intervalIntegral.integral_nonneg (h.mono i (i + 1) (by omega) (by omega)) fun t _ => sq_nonneg _))
    set z := solve (n * D) A' b' with hz
    set v : ℕ → Fin D → ℝ := fun j d => fullV n base D (fun q => z q + o q) s.vertN j d with hv
    -- the cost of a choice of vertices
    have hval : ∀ (u : ℕ → Fin D → ℝ) (x : ℕ → ℝ), (∀ (j : ℕ) (d : Fin D), fullV n base D (fun q => x q + o q) s.vertN j d = u j d) →
        Spec.fitMisfit (s.withVerts u) data weights + lambda * Spec.fitBending (s.earlier fix i0 il u) (s.kn a) (s.kn e) = cost x := by
      intro u x hu
      unfold earlier
      rw [misfit_eq h he u (fullV n base D (fun q => x q + o q) s.vertN) (fun j d _ => hu j d) data idx hin.seg,
        bending_eq h he _ (fullV n (i0 + 1 - s.order) D (fun q => x q + o q) s.vertN) (fun j d _ => ?_) lambda a e (by omega) (by omega)
          (by omega)]
      split_ifs with hj
      · rw [← hu]
        unfold fullV
        rw [if_pos (by omega), if_pos (by omega), show j + fix - base = j - (i0 + 1 - s.order) by omega]
      · unfold fullV
        rw [if_neg (by omega), vertN_fin]
    refine ⟨v, ?_, fun j hj => ?_, fun v' hv' => ?_⟩
    · rw [hrun _ q1]
      dsimp only
      rw [← hz]
      have hfits : i0 + 1 - s.order + fix + n ≤ s.keys.length - s.order := by omega
      by_cases hof : offsets = true
      · rw [if_pos hof, manipulate_withVerts h he s0 n fix hfits, ← hbase]
        congr 2
        funext j d
        rw [hv]
        unfold fullV
        dsimp only
        split_ifs with hj
        · rw [ho]
          dsimp only
          rw [if_pos hof, stack_div _ _ d.2, stack_mod _ _ d.2, show base + (j - base) = j by omega, vertN_fin, add_comm]
        · rw [vertN_fin]
      · rw [if_neg hof]
        obtain ⟨f, g1, g2⟩ := set_stacked hD n (by omega) z t0 fix s
        rw [g2, manipulate_withVerts h he s0 n fix hfits, ← hbase]
        congr 2
        funext j
        funext d
        rw [hv]
        unfold fullV
        dsimp only
        split_ifs with hj
        · rw [g1 _ (by omega), ho]
          dsimp only
          rw [if_neg hof, add_zero]
        · rw [vertN_fin]
    · funext d
      rw [hv]
      dsimp only
      unfold fullV
      rw [if_neg (by omega), vertN_fin]
    · set y : ℕ → ℝ := fun q => (if hq : q % D < D then v' (base + q / D) ⟨q % D, hq⟩ else 0) - o q with hy
      have h1 := hmin y
      rw [hval v z fun _ _ => rfl, hval v' y fun j d => ?_]
      · exact h1
      · unfold fullV
        split_ifs with hj
        · rw [hy]
          dsimp only
          rw [sub_add_cancel, dif_pos (by rw [stack_mod _ _ d.2]; exact d.2)]
          have e : (⟨((j - base) * D + d) % D, by rw [stack_mod _ _ d.2]; exact d.2⟩ : Fin D) = d := Fin.ext (stack_mod _ _ d.2)
          rw [e, stack_div _ _ d.2, show base + (j - base) = j by omega]
        · rw [vertN_fin, hv' j (by omega)]
  · refine ⟨s.vert, ?_, fun j _ => rfl, fun v' hv' => ?_⟩
    · rw [withVerts_self]
      unfold calcFitted
      rw [if_neg (by rintro ⟨h1, h2⟩; exact h2 (hoff h1)), hp0, hpl]
      dsimp only
      rw [getMaxTime_eq h he, Outcome.bind_ok, r0, Outcome.bind_ok, rl, Outcome.bind_ok, if_pos (by omega)]
      rfl
    · have e : ∀ j, v' j = s.vert j := fun j => hv' j (by omega)
      rw [funext e]

theorem fitSpline_shifted {s : MSpline ℝ (Fin D → ℝ)} (h : s.MWF) (he : s.state = .evaluable) (hD : 1 ≤ D) (dense : Bool) (solve : Solver ℝ)
    (hsolve : SolvesSemidefinite solve) (times : List ℝ) (points : List (Fin D → ℝ)) (t0 tl : ℝ) (hlen : times.length = points.length)
    (ht0 : times.head? = some t0) (htl : times.getLast? = some tl) (hb : ∀ t ∈ times, t0 ≤ t ∧ t ≤ tl) (i0 il : ℕ) (h0 : s.InSeg t0 i0)
    (hl : s.InSeg tl il) (weights : Option (ℕ → ℝ)) (lambda : ℝ) (hlam : 0 ≤ lambda) (fix : ℕ) (offsets : Bool)
    (hoff : offsets = true → lambda = 0) :
    ∃ v, s.fitSpline dense solve id times points lambda fix weights offsets = (.ok (), s.withVerts v) ∧ s.Keeps fix i0 il v ∧
      ∀ v', s.Keeps fix i0 il v' →
        Spec.fitMisfit (s.withVerts v) (times.zip points) weights + lambda * Spec.fitBending (s.earlier fix i0 il v)
            (s.kn (max (i0 + 1 - s.order + fix) (s.order - 1))) (s.kn (min (il + s.order) (s.keys.length - s.order)))
          ≤ Spec.fitMisfit (s.withVerts v') (times.zip points) weights + lambda * Spec.fitBending (s.earlier fix i0 il v')
            (s.kn (max (i0 + 1 - s.order + fix) (s.order - 1))) (s.kn (min (il + s.order) (s.keys.length - s.order))) := by
  obtain ⟨ks, k1, k2⟩ := fitKnots_resolver h he h0 hl
  have hin := fit_input h he hlen ht0 htl hb h0 hl (mapResolver (fitMap ks)) _ fun t i _ h1 h2 h3 => k2 t i h1 h2 h3
  obtain ⟨v, v1, v2, v3⟩ := calcFitted_shifted h he hD dense solve hsolve hin weights lambda hlam fix offsets hoff
  refine ⟨v, ?_, v2, v3⟩
  unfold fitSpline
  rw [fitGuard_ok h he ht0 htl hb h0 hl points.length hlen, Outcome.bind_ok, k1]
  exact v1

/-- C38, for all numbers of fixed vertices and all weights: the fit succeeds and the fixed vertices keep their values.  It minimises the
distance from the points plus the regularisation, between two knots, of a curve whose free vertices come too early by the number of fixed
ones; without fixed vertices that is the curve itself. -/
theorem C38_shifted (dense : Bool) (solve : Solver ℝ) (hsolve : SolvesSemidefinite solve) (order : ℕ) (ho : 1 ≤ order) (hD : 1 ≤ D)
    (s : MSpline ℝ (Fin D → ℝ)) (hr : RegularReach (euclidean ℝ (Fin D → ℝ)) order s) (he : s.state = .evaluable)
    (times : List ℝ) (points : List (Fin D → ℝ)) (t0 tl : ℝ)
    (hlen : times.length = points.length) (ht0 : times.head? = some t0) (htl : times.getLast? = some tl)
    (hb : ∀ t ∈ times, t0 ≤ t ∧ t ≤ tl) (i0 il : ℕ) (h0 : s.InSeg t0 i0) (hl : s.InSeg tl il) (weights : Option (ℕ → ℝ)) (lambda : ℝ)
    (hlam : 0 ≤ lambda) (fix : ℕ) (offsets : Bool) (hoff : offsets = true → lambda = 0) (first last : ℝ)
    (hfirst : s.keys[max (i0 + 1 - order + fix) (order - 1)]? = some first)
    (hlast : s.keys[min (il + order) (s.keys.length - order)]? = some last) :
    ∃ v, s.fitSpline dense solve id times points lambda fix weights offsets = (.ok (), s.withVerts v) ∧ s.Keeps fix i0 il v ∧
      ∀ v', s.Keeps fix i0 il v' →
        Spec.fitMisfit (s.withVerts v) (times.zip points) weights + lambda * Spec.fitBending (s.earlier fix i0 il v) first last
          ≤ Spec.fitMisfit (s.withVerts v') (times.zip points) weights + lambda * Spec.fitBending (s.earlier fix i0 il v') first last := by
  obtain ⟨h, rfl⟩ := hr.mwf ho
  have e1 : s.kn (max (i0 + 1 - s.order + fix) (s.order - 1)) = first := by unfold kn; rw [List.getD_eq_getElem?_getD, hfirst]; rfl
  have e2 : s.kn (min (il + s.order) (s.keys.length - s.order)) = last := by unfold kn; rw [List.getD_eq_getElem?_getD, hlast]; rfl
  rw [← e1, ← e2]
  exact fitSpline_shifted h he hD dense solve hsolve times points t0 tl hlen ht0 htl hb i0 il h0 hl weights lambda hlam fix offsets hoff

/-- Without fixed vertices the regularised curve is the fitted one. -/
theorem earlier_zero {s : MSpline ℝ (Fin D → ℝ)} {i0 il : ℕ} {v : ℕ → Fin D → ℝ} (h : s.Keeps 0 i0 il v) :
    s.earlier 0 i0 il v = s.withVerts v := by
  unfold earlier
  congr 1
  funext j
  split_ifs with hj
  · rfl
  · exact (h j (by simpa using hj)).symm

/-- Not vacuous: order 3, three points, one fixed vertex and a regularisation. -/
example : ∃ s : MSpline ℝ (Fin 1 → ℝ), RegularReach (euclidean ℝ (Fin 1 → ℝ)) 3 s ∧ s.state = .evaluable ∧
    ∃ v, s.fitSpline false choiceSolver id [2, 5 / 2, 3] [![1], ![2], ![5]] 7 1 none false = (.ok (), s.withVerts v) ∧ v 0 = s.vert 0 := by
  obtain ⟨s1, s, b1, b2, b3, b4, b5, -⟩ := build_ok (euclidean ℝ (Fin 1 → ℝ)) 3 (by omega) ([0, 1, 2, 3, 4, 5, 6] : List ℝ)
    (by simp only [List.pairwise_cons, List.mem_cons, List.not_mem_nil]; norm_num) (by simp)
  obtain ⟨h, ho⟩ := b5.mwf (by omega)
  have hk : ∀ j : ℕ, s.kn j = ([0, 1, 2, 3, 4, 5, 6] : List ℝ).getD j 0 := fun j => by unfold kn; rw [b3]
  have h0 : s.InSeg 2 2 := ⟨by omega, by rw [b3, ho]; simp, by rw [hk]; simp, Or.inl (by rw [hk]; simp; norm_num)⟩
  have hl : s.InSeg 3 3 := ⟨by omega, by rw [b3, ho]; simp, by rw [hk]; simp, Or.inl (by rw [hk]; simp; norm_num)⟩
  obtain ⟨v, v1, v2, -⟩ := C38_shifted false choiceSolver choiceSolver_semidefinite 3 (by omega) (by omega) s b5 b4
    [2, 5 / 2, 3] [![1], ![2], ![5]] 2 3 rfl rfl rfl (by simp; norm_num) 2 3 h0 hl none 7 (by norm_num) 1
    false (by simp) 2 4 (by rw [b3]; rfl) (by rw [b3]; rfl)
  exact ⟨s, b5, b4, v, v1, v2 0 (by omega)⟩

end Verif.MSpline
