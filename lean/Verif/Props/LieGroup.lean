import Verif.Lemmas.Generic
import Verif.Props.ManifoldInit
import Verif.Model.QuaternionSpline
import Mathlib.Analysis.Normed.Algebra.QuaternionExponential
import Mathlib.Analysis.SpecialFunctions.Trigonometric.Inverse

/-!
# C27, C28: Lie group splines and unit quaternion splines
-/

set_option linter.unusedSectionVars false

namespace Verif.MSpline

open Finset

/-- The points `H` with the operations of `G` form a group that contains all exponentials. -/
structure IsGroupOn {P V : Type*} (G : LieGrp P V) (H : Set P) : Prop where
  one_mem : G.identity ∈ H
  mul_mem : ∀ {a b}, a ∈ H → b ∈ H → G.mult a b ∈ H
  inv_mem : ∀ {a}, a ∈ H → G.invert a ∈ H
  exp_mem : ∀ v, G.expAtId v ∈ H
  assoc : ∀ {a b c}, a ∈ H → b ∈ H → c ∈ H → G.mult (G.mult a b) c = G.mult a (G.mult b c)
  one_mul : ∀ {a}, a ∈ H → G.mult G.identity a = a
  mul_one : ∀ {a}, a ∈ H → G.mult a G.identity = a
  inv_mul : ∀ {a}, a ∈ H → G.mult (G.invert a) a = G.identity

section Group
variable {P V : Type*} {G : LieGrp P V} {H : Set P}

theorem IsGroupOn.mul_inv (h : IsGroupOn G H) {a : P} (ha : a ∈ H) : G.mult a (G.invert a) = G.identity := by
  have hi := h.inv_mem ha
  have hii := h.inv_mem hi
  have hm := h.mul_mem ha hi
  rw [← h.one_mul hm, ← h.inv_mul hi, h.assoc hii hi hm, ← h.assoc hi ha hi, h.inv_mul ha, h.one_mul hi]

theorem IsGroupOn.inv_unique (h : IsGroupOn G H) {a b : P} (ha : a ∈ H) (hb : b ∈ H) (hab : G.mult b a = G.identity) :
    b = G.invert a := by
  rw [← h.mul_one hb, ← h.mul_inv ha, ← h.assoc hb ha (h.inv_mem ha), hab, h.one_mul (h.inv_mem ha)]

theorem IsGroupOn.inv_mult (h : IsGroupOn G H) {a b : P} (ha : a ∈ H) (hb : b ∈ H) :
    G.invert (G.mult a b) = G.mult (G.invert b) (G.invert a) := by
  have hia := h.inv_mem ha
  have hib := h.inv_mem hb
  symm
  apply h.inv_unique (h.mul_mem ha hb) (h.mul_mem hib hia)
  rw [h.assoc hib hia (h.mul_mem ha hb), ← h.assoc hia ha hb, h.inv_mul ha, h.one_mul hb, h.inv_mul hb]

theorem IsGroupOn.log_left (h : IsGroupOn G H) {g a b : P} (hg : g ∈ H) (ha : a ∈ H) (hb : b ∈ H) :
    G.log (G.mult g a) (G.mult g b) = G.log a b := by
  have hig := h.inv_mem hg
  have hia := h.inv_mem ha
  unfold LieGrp.log LieGrp.canonicalMult LieGrp.multCO
  simp only [Bool.false_eq_true, if_false]
  rw [h.inv_mult hg ha, h.assoc hia hig (h.mul_mem hg hb), ← h.assoc hig hg hb, h.inv_mul hg, h.one_mul hb]

variable {K : Type*} [Field K] [LinearOrder K] [IsStrictOrderedRing K] [SMul K V]

theorem exp_toMfd (p : P) (v : V) : (G.toMfd (K := K)).exp p v = G.mult p (G.expAtId v) := rfl

theorem genericLoop_mem (hc : ∀ {a b}, a ∈ H → b ∈ H → G.mult a b ∈ H) (he : ∀ v, G.expAtId v ∈ H) (w : ℕ → K) :
    ∀ (cs : List P) (i : ℕ) (a p : P), p ∈ H → genericLoop G.toMfd w i a p cs ∈ H
  | [], _, _, _, hp => hp
  | c :: cs, i, a, p, hp => by
    unfold genericLoop
    apply genericLoop_mem hc he w cs
    split
    · exact hp
    · rw [exp_toMfd]; exact hc hp (he _)

theorem genericLoop_left (h : IsGroupOn G H) {g : P} (hg : g ∈ H) (w : ℕ → K) :
    ∀ (cs : List P) (i : ℕ) (a p : P), a ∈ H → p ∈ H → (∀ c ∈ cs, c ∈ H) →
      genericLoop G.toMfd w i (G.mult g a) (G.mult g p) (cs.map (G.mult g)) = G.mult g (genericLoop G.toMfd w i a p cs)
  | [], _, _, _, _, _, _ => rfl
  | c :: cs, i, a, p, ha, hp, hcs => by
    have hc := hcs c (by simp)
    rw [List.map_cons]
    unfold genericLoop
    have hl : (G.toMfd (K := K)).log (G.mult g a) (G.mult g c) = (G.toMfd (K := K)).log a c := h.log_left hg ha hc
    rw [hl]
    have hstep : (if w i = 0 then G.mult g p else (G.toMfd (K := K)).exp (G.mult g p) ((G.toMfd (K := K)).scale ((G.toMfd (K := K)).log a c) (w i)))
        = G.mult g (if w i = 0 then p else (G.toMfd (K := K)).exp p ((G.toMfd (K := K)).scale ((G.toMfd (K := K)).log a c) (w i))) := by
      split
      · rfl
      · rw [exp_toMfd, exp_toMfd, h.assoc hg hp (h.exp_mem _)]
    rw [hstep]
    refine genericLoop_left h hg w cs _ _ _ hc ?_ fun x hx => hcs x (by simp [hx])
    split
    · exact hp
    · rw [exp_toMfd]; exact h.mul_mem hp (h.exp_mem _)

theorem genericLoop_right (h : IsGroupOn G H) {g : P} (hg : g ∈ H)
    (hconj : ∀ x ∈ H, ∀ c : K, G.mult g (G.expAtId (c • G.logAtId (G.mult (G.invert g) (G.mult x g)))) =
      G.mult (G.expAtId (c • G.logAtId x)) g) (w : ℕ → K) :
    ∀ (cs : List P) (i : ℕ) (a p : P), a ∈ H → p ∈ H → (∀ c ∈ cs, c ∈ H) →
      genericLoop G.toMfd w i (G.mult a g) (G.mult p g) (cs.map fun x => G.mult x g) = G.mult (genericLoop G.toMfd w i a p cs) g
  | [], _, _, _, _, _, _ => rfl
  | c :: cs, i, a, p, ha, hp, hcs => by
    have hc := hcs c (by simp)
    have hia := h.inv_mem ha
    have hig := h.inv_mem hg
    rw [List.map_cons]
    unfold genericLoop
    have hl : (G.toMfd (K := K)).log (G.mult a g) (G.mult c g) = G.logAtId (G.mult (G.invert g) (G.mult (G.mult (G.invert a) c) g)) := by
      show G.logAtId (G.mult (G.invert (G.mult a g)) (G.mult c g)) = _
      rw [h.inv_mult ha hg, h.assoc hig hia (h.mul_mem hc hg), ← h.assoc hia hc hg]
    rw [hl]
    have hstep : (if w i = 0 then G.mult p g else (G.toMfd (K := K)).exp (G.mult p g)
          ((G.toMfd (K := K)).scale (G.logAtId (G.mult (G.invert g) (G.mult (G.mult (G.invert a) c) g))) (w i)))
        = G.mult (if w i = 0 then p else (G.toMfd (K := K)).exp p ((G.toMfd (K := K)).scale ((G.toMfd (K := K)).log a c) (w i))) g := by
      split
      · rfl
      · rw [exp_toMfd, exp_toMfd, h.assoc hp hg (h.exp_mem _), h.assoc hp (h.exp_mem _) hg]
        congr 1
        exact hconj (G.mult (G.invert a) c) (h.mul_mem hia hc) (w i)
    rw [hstep]
    refine genericLoop_right h hg hconj w cs _ _ _ hc ?_ fun x hx => hcs x (by simp [hx])
    split
    · exact hp
    · rw [exp_toMfd]; exact h.mul_mem hp (h.exp_mem _)

theorem genericLoop_const (h : IsGroupOn G H) (hlog : ∀ c : K, G.expAtId (c • G.logAtId G.identity) = G.identity) {p : P} (hp : p ∈ H)
    (w : ℕ → K) : ∀ (cs : List P) (i : ℕ), (∀ c ∈ cs, c = p) → genericLoop G.toMfd w i p p cs = p
  | [], _, _ => rfl
  | c :: cs, i, hcs => by
    have hc := hcs c (by simp)
    unfold genericLoop
    have : (if w i = 0 then p else (G.toMfd (K := K)).exp p ((G.toMfd (K := K)).scale ((G.toMfd (K := K)).log p c) (w i))) = p := by
      split
      · rfl
      · rw [exp_toMfd, hc]
        have : (G.toMfd (K := K)).scale ((G.toMfd (K := K)).log p p) (w i) = w i • G.logAtId (G.mult (G.invert p) p) := rfl
        rw [this, h.inv_mul hp, hlog, h.mul_one hp]
    rw [this, hc]
    exact genericLoop_const h hlog hp w cs _ fun x hx => hcs x (by simp [hx])

theorem segVerts_mem {s : MSpline K P} {t : K} {i : ℕ} (hi : s.InSeg t i) (nv : ℕ) (hnv : nv = s.keys.length - s.order)
    {c : P} {cs : List P} (hv : (s.verts.drop (i + 1 - s.order)).take s.order = c :: cs) : ∀ x ∈ c :: cs, x ∈ s.verts.take nv := by
  intro x hx
  have h2 := hi.upper
  have h1 := hi.lower
  rw [← hv] at hx
  rw [List.mem_iff_getElem?] at hx ⊢
  obtain ⟨m, hm⟩ := hx
  rw [List.getElem?_take] at hm
  split at hm
  · rw [List.getElem?_drop] at hm
    refine ⟨i + 1 - s.order + m, ?_⟩
    rw [List.getElem?_take, if_pos (by omega), hm]
  · cases hm

/-- C27: a curve with control vertices in the group stays in the group. -/
theorem C27_stays_in_group (hG : IsGroupOn G H) (order : ℕ) (ho : 1 ≤ order) (s : MSpline K P) (h : RegularReach G.toMfd order s)
    (he : s.state = .evaluable) (nv : ℕ) (hnv : s.numControlVertices = .ok nv) (hverts : ∀ v ∈ s.verts.take nv, v ∈ H)
    (t : K) (p : P) (hp : s.evalGeneric G.toMfd t = .ok p) : p ∈ H := by
  obtain ⟨hw, rfl⟩ := h.mwf ho
  rw [numControlVertices_eq hw he, Outcome.ok.injEq] at hnv
  rcases evaluable_total hw he t with ⟨i, hi⟩ | ht
  · obtain ⟨w, c, cs, -, hv, hev⟩ := evalGeneric_eq hw he G.toMfd hi
    rw [hev, Outcome.ok.injEq] at hp
    rw [← hp]
    refine genericLoop_mem hG.mul_mem hG.exp_mem _ _ _ _ _ (hverts _ ?_)
    exact segVerts_mem hi nv hnv.symm hv c (by simp)
  · unfold evalGeneric at hp
    rw [evaluatorAt_throws hw t (Or.inr ht)] at hp
    cases hp

theorem two_splines {s s' : MSpline K P} (h : s.MWF) (h' : s'.MWF) (ho : s'.order = s.order) (hk : s'.keys = s.keys)
    (he : s.state = .evaluable) (he' : s'.state = .evaluable) (f : P → P) (hvs : s'.verts.take (s.keys.length - s.order) =
      (s.verts.take (s.keys.length - s.order)).map f)
    (F : P → P) (M : Mfd K P V) (hloop : ∀ (w : ℕ → K) c cs, (∀ x ∈ c :: cs, x ∈ s.verts.take (s.keys.length - s.order)) →
      genericLoop M w 1 (f c) (f c) (cs.map f) = F (genericLoop M w 1 c c cs)) (t : K) :
    s'.evalGeneric M t = (s.evalGeneric M t).map F := by
  have hkn : s'.kn = s.kn := by unfold kn; rw [hk]
  rcases evaluable_total h he t with ⟨i, hi⟩ | ht
  · have hi' : s'.InSeg t i := by
      refine ⟨by rw [ho]; exact hi.lower, by rw [ho, hk]; exact hi.upper, by rw [hkn]; exact hi.left, ?_⟩
      rw [hkn, hk, ho]; exact hi.right
    have h1 := hi.lower
    have h2 := hi.upper
    obtain ⟨w, c, cs, hw, hv, hev⟩ := evalGeneric_eq h he M hi
    obtain ⟨w', c', cs', hw', hv', hev'⟩ := evalGeneric_eq h' he' M hi'
    have hvv : (s'.verts.drop (i + 1 - s.order)).take s.order = ((s.verts.drop (i + 1 - s.order)).take s.order).map f := by
      apply List.ext_getElem?
      intro j
      rw [List.getElem?_map, List.getElem?_take, List.getElem?_take]
      split
      · rename_i hj
        rw [List.getElem?_drop, List.getElem?_drop]
        have e := congrArg (fun l => l[i + 1 - s.order + j]?) hvs
        simp only [List.getElem?_map, List.getElem?_take] at e
        rw [if_pos (by omega), if_pos (by omega)] at e
        exact e
      · rfl
    rw [ho, hvv, hv, List.map_cons, List.cons.injEq] at hv'
    obtain ⟨rfl, rfl⟩ := hv'
    rw [hev, hev', Outcome.map_ok, ho, ← hloop _ c cs (fun x hx => segVerts_mem hi _ rfl hv x hx)]
    congr 1
    have hl : cs.length + 1 ≤ s.order := by
      have : (c :: cs).length ≤ s.order := by rw [← hv, List.length_take]; omega
      simpa using this
    refine genericLoop_congr M _ _ _ 1 _ _ fun j h3 h4 => ?_
    rw [List.length_map] at h4
    rw [cumulativeOf_eq _ _ _ (by omega) (by omega), cumulativeOf_eq _ _ _ (by omega) (by omega)]
    refine sum_congr rfl fun x hx => ?_
    have := mem_Ico.1 hx
    rw [hw x (by omega), hw' x (by omega), hkn, ho]
  · unfold evalGeneric
    rw [evaluatorAt_throws h t (Or.inr ht), evaluatorAt_throws h' t (Or.inr (by rw [hkn, hk, ho]; exact ht))]
    rfl

/-- C27: multiplying all control vertices from the left by a group element multiplies the curve by it; invalid times are invalid
for both. -/
theorem C27_left_invariant (hG : IsGroupOn G H) (order : ℕ) (ho : 1 ≤ order) (s s' : MSpline K P) (h : RegularReach G.toMfd order s)
    (h' : RegularReach G.toMfd order s') (he : s.state = .evaluable) (he' : s'.state = .evaluable) (hk : s'.keys = s.keys)
    (nv : ℕ) (hnv : s.numControlVertices = .ok nv) (hverts : ∀ v ∈ s.verts.take nv, v ∈ H) (g : P) (hg : g ∈ H)
    (hv : s'.verts.take nv = (s.verts.take nv).map fun v => G.mult g v) (t : K) :
    s'.evalGeneric G.toMfd t = (s.evalGeneric G.toMfd t).map fun p => G.mult g p := by
  obtain ⟨hw, rfl⟩ := h.mwf ho
  obtain ⟨hw', ho'⟩ := h'.mwf ho
  rw [numControlVertices_eq hw he, Outcome.ok.injEq] at hnv
  subst hnv
  exact two_splines hw hw' ho' hk he he' _ hv _ _ (fun w c cs hcs =>
    genericLoop_left hG hg w cs 1 c c (hverts _ (hcs c (by simp))) (hverts _ (hcs c (by simp)))
      fun x hx => hverts _ (hcs x (by simp [hx]))) t

/-- C27: if `exp` and `log` commute with conjugation by a group element, multiplying all control vertices from the right by it
multiplies the curve from the right. -/
theorem C27_right_invariant (hG : IsGroupOn G H) (order : ℕ) (ho : 1 ≤ order) (s s' : MSpline K P) (h : RegularReach G.toMfd order s)
    (h' : RegularReach G.toMfd order s') (he : s.state = .evaluable) (he' : s'.state = .evaluable) (hk : s'.keys = s.keys)
    (nv : ℕ) (hnv : s.numControlVertices = .ok nv) (hverts : ∀ v ∈ s.verts.take nv, v ∈ H) (g : P) (hg : g ∈ H)
    (hconj : ∀ x ∈ H, ∀ c : K, G.mult g (G.expAtId (c • G.logAtId (G.mult (G.invert g) (G.mult x g)))) =
      G.mult (G.expAtId (c • G.logAtId x)) g)
    (hv : s'.verts.take nv = (s.verts.take nv).map fun v => G.mult v g) (t : K) :
    s'.evalGeneric G.toMfd t = (s.evalGeneric G.toMfd t).map fun p => G.mult p g := by
  obtain ⟨hw, rfl⟩ := h.mwf ho
  obtain ⟨hw', ho'⟩ := h'.mwf ho
  rw [numControlVertices_eq hw he, Outcome.ok.injEq] at hnv
  subst hnv
  exact two_splines hw hw' ho' hk he he' _ hv _ _ (fun w c cs hcs =>
    genericLoop_right hG hg hconj w cs 1 c c (hverts _ (hcs c (by simp))) (hverts _ (hcs c (by simp)))
      fun x hx => hverts _ (hcs x (by simp [hx]))) t

/-- C27: a spline with equal control vertices is constant. -/
theorem C27_constant (hG : IsGroupOn G H) (hlog : ∀ c : K, G.expAtId (c • G.logAtId G.identity) = G.identity)
    (order : ℕ) (ho : 1 ≤ order) (s : MSpline K P) (h : RegularReach G.toMfd order s)
    (he : s.state = .evaluable) (nv : ℕ) (hnv : s.numControlVertices = .ok nv) (p : P) (hp : p ∈ H)
    (hverts : ∀ v ∈ s.verts.take nv, v = p) (tmin tmax : K) (hmin : s.getMinTime = .ok tmin) (hmax : s.getMaxTime = .ok tmax)
    (t : K) (h1 : tmin ≤ t) (h2 : t ≤ tmax) : s.evalGeneric G.toMfd t = .ok p := by
  obtain ⟨hw, rfl⟩ := h.mwf ho
  rw [numControlVertices_eq hw he, Outcome.ok.injEq] at hnv
  rw [getMinTime_eq hw he, Outcome.ok.injEq] at hmin
  rw [getMaxTime_eq hw he, Outcome.ok.injEq] at hmax
  subst hmin hmax
  obtain ⟨i, hi, -⟩ := getSegmentIterator_ok hw he t h1 h2
  obtain ⟨w, c, cs, -, hv, hev⟩ := evalGeneric_eq hw he G.toMfd hi
  have hm := segVerts_mem hi nv hnv.symm hv
  have hc : c = p := hverts c (hm c (by simp))
  rw [hev, hc, genericLoop_const hG hlog hp _ cs 1 fun x hx => hverts x (hm x (by simp [hx]))]

end Group

/-! ### Quaternions -/

open Quaternion

theorem qplus_eq (a b : ℍ[ℝ]) : qplus a b = b * a := by
  ext <;> simp [qplus, Quaternion.re_mul, Quaternion.imI_mul, Quaternion.imJ_mul, Quaternion.imK_mul] <;> ring

theorem quatInv_eq (a : ℍ[ℝ]) : quatInv a = star a := by
  ext <;> simp [quatInv]

@[simp] theorem quatV_re (v : V3) : (quatV v).re = 0 := rfl
@[simp] theorem quatV_imI (v : V3) : (quatV v).imI = v 0 / 2 := rfl
@[simp] theorem quatV_imJ (v : V3) : (quatV v).imJ = v 1 / 2 := rfl
@[simp] theorem quatV_imK (v : V3) : (quatV v).imK = v 2 / 2 := rfl

theorem norm_quatV (v : V3) : ‖quatV v‖ = norm3 v / 2 := by
  have h1 : ‖quatV v‖ ^ 2 = (norm3 v / 2) ^ 2 := by
    rw [sq, ← Quaternion.normSq_eq_norm_mul_self, Quaternion.normSq_def', div_pow, norm3, Real.sq_sqrt (by positivity)]
    simp; ring
  have h2 : 0 ≤ norm3 v / 2 := by unfold norm3; positivity
  exact (sq_eq_sq₀ (norm_nonneg _) h2).1 h1

theorem axisAngle2quat_eq (v : V3) : axisAngle2quat v = NormedSpace.exp (quatV v) := by
  rw [Quaternion.exp_of_re_eq_zero _ rfl, norm_quatV]
  have key : ∀ x : ℝ, x * (Real.sin (norm3 v / 2) / norm3 v) = Real.sin (norm3 v / 2) / (norm3 v / 2) * (x / 2) := by
    intro x
    rcases eq_or_ne (norm3 v) 0 with h | h
    · rw [h]; simp
    · field_simp
  ext <;> simp [axisAngle2quat, key]

theorem quatV_smul (c : ℝ) (v : V3) : quatV (c • v) = c • quatV v := by
  ext <;> simp <;> ring

theorem norm_axisAngle2quat (v : V3) : ‖axisAngle2quat v‖ = 1 := by
  rw [axisAngle2quat_eq, Quaternion.norm_exp]
  simp

/-- The unit quaternions are a group in the sense of C27. -/
theorem quat_group (lg : ℍ[ℝ] → V3) : IsGroupOn (quatGroup lg) {q | ‖q‖ = 1} where
  one_mem := norm_one
  mul_mem := by
    intro a b ha hb
    show ‖qplus a b‖ = 1
    rw [qplus_eq, norm_mul, show ‖a‖ = 1 from ha, show ‖b‖ = 1 from hb, _root_.one_mul]
  inv_mem := by
    intro a ha
    show ‖quatInv a‖ = 1
    rw [quatInv_eq, norm_star]; exact ha
  exp_mem := norm_axisAngle2quat
  assoc := by
    intro a b c _ _ _
    show qplus (qplus a b) c = qplus a (qplus b c)
    rw [qplus_eq, qplus_eq, qplus_eq, qplus_eq, mul_assoc]
  one_mul := by
    intro a _
    show qplus 1 a = a
    rw [qplus_eq, _root_.mul_one]
  mul_one := by
    intro a _
    show qplus a 1 = a
    rw [qplus_eq, _root_.one_mul]
  inv_mul := by
    intro a ha
    show qplus (quatInv a) a = 1
    rw [qplus_eq, quatInv_eq, Quaternion.self_mul_star, Quaternion.normSq_eq_norm_mul_self, ha]
    simp

theorem genericLoop_norm (lg : ℍ[ℝ] → V3) (w : ℕ → ℝ) :
    ∀ (cs : List ℍ[ℝ]) (i : ℕ) (a p : ℍ[ℝ]), ‖genericLoop (quatGroup lg).toMfd w i a p cs‖ = ‖p‖
  | [], _, _, _ => rfl
  | c :: cs, i, a, p => by
    unfold genericLoop
    rw [genericLoop_norm lg w cs]
    split
    · rfl
    · rw [exp_toMfd]
      show ‖qplus p (axisAngle2quat _)‖ = _
      rw [qplus_eq, norm_mul, norm_axisAngle2quat, _root_.one_mul]

/-- C28: whatever logarithm is used, the norm of the evaluated quaternion lies between the smallest and the largest norm of the
control vertices. -/
theorem C28_norm_bounds (lg : ℍ[ℝ] → V3) (order : ℕ) (ho : 1 ≤ order) (s : MSpline ℝ ℍ[ℝ])
    (h : RegularReach (quatGroup lg).toMfd order s) (he : s.state = .evaluable) (nv : ℕ) (hnv : s.numControlVertices = .ok nv)
    (lo hi : ℝ) (hverts : ∀ v ∈ s.verts.take nv, lo ≤ ‖v‖ ∧ ‖v‖ ≤ hi) (t : ℝ) (q : ℍ[ℝ]) (hq : s.quatEvalD lg t 0 = .ok q) :
    lo ≤ ‖q‖ ∧ ‖q‖ ≤ hi := by
  obtain ⟨hw, rfl⟩ := h.mwf ho
  rw [numControlVertices_eq hw he, Outcome.ok.injEq] at hnv
  unfold quatEvalD at hq
  rw [if_pos rfl] at hq
  rcases evaluable_total hw he t with ⟨i, hi⟩ | ht
  · obtain ⟨w, c, cs, -, hv, hev⟩ := evalGeneric_eq hw he (quatGroup lg).toMfd hi
    rw [hev, Outcome.ok.injEq] at hq
    rw [← hq, genericLoop_norm]
    exact hverts _ (segVerts_mem hi nv hnv.symm hv c (by simp))
  · unfold evalGeneric at hq
    rw [evaluatorAt_throws hw t (Or.inr ht)] at hq
    cases hq

/-- C28: a spline with unit quaternions as control vertices evaluates to unit quaternions. -/
theorem C28_unit (lg : ℍ[ℝ] → V3) (order : ℕ) (ho : 1 ≤ order) (s : MSpline ℝ ℍ[ℝ])
    (h : RegularReach (quatGroup lg).toMfd order s) (he : s.state = .evaluable) (nv : ℕ) (hnv : s.numControlVertices = .ok nv)
    (hverts : ∀ v ∈ s.verts.take nv, ‖v‖ = 1) (tmin tmax : ℝ) (hmin : s.getMinTime = .ok tmin) (hmax : s.getMaxTime = .ok tmax)
    (t : ℝ) (h1 : tmin ≤ t) (h2 : t ≤ tmax) : ∃ q, s.quatEvalD lg t 0 = .ok q ∧ ‖q‖ = 1 := by
  obtain ⟨hw, -⟩ := h.mwf ho
  have e1 := getMinTime_eq hw he
  have e2 := getMaxTime_eq hw he
  rw [hmin, Outcome.ok.injEq] at e1
  rw [hmax, Outcome.ok.injEq] at e2
  obtain ⟨i, hi, -⟩ := getSegmentIterator_ok hw he t (e1 ▸ h1) (e2 ▸ h2)
  obtain ⟨w, c, cs, -, hv, hev⟩ := evalGeneric_eq hw he (quatGroup lg).toMfd hi
  have hq : s.quatEvalD lg t 0 = .ok (genericLoop (quatGroup lg).toMfd (cumulativeOf s.order w 0) 1 c c cs) := by
    unfold quatEvalD
    rw [if_pos rfl, hev]
  refine ⟨_, hq, ?_⟩
  obtain ⟨l1, l2⟩ := C28_norm_bounds lg order ho s h he nv hnv 1 1 (fun v hv => by rw [hverts v hv]; simp) t _ hq
  exact le_antisymm l2 l1

/-- C28: the program's own test of being a unit quaternion (tolerance `1e-9`) holds for the curve if it holds for the control
vertices. -/
theorem C28_is_in_manifold (lg : ℍ[ℝ] → V3) (order : ℕ) (ho : 1 ≤ order) (s : MSpline ℝ ℍ[ℝ])
    (h : RegularReach (quatGroup lg).toMfd order s) (he : s.state = .evaluable) (nv : ℕ) (hnv : s.numControlVertices = .ok nv)
    (hverts : ∀ v ∈ s.verts.take nv, (quatGroup lg).isIn v = true) (t : ℝ) (q : ℍ[ℝ]) (hq : s.quatEvalD lg t 0 = .ok q) :
    (quatGroup lg).isIn q = true := by
  obtain ⟨hw, rfl⟩ := h.mwf ho
  rw [numControlVertices_eq hw he, Outcome.ok.injEq] at hnv
  unfold quatEvalD at hq
  rw [if_pos rfl] at hq
  rcases evaluable_total hw he t with ⟨i, hi⟩ | ht
  · obtain ⟨w, c, cs, -, hv, hev⟩ := evalGeneric_eq hw he (quatGroup lg).toMfd hi
    rw [hev, Outcome.ok.injEq] at hq
    have := hverts _ (segVerts_mem hi nv hnv.symm hv c (by simp))
    simp only [quatGroup] at this ⊢
    rw [← hq]
    have e := genericLoop_norm lg (cumulativeOf s.order w 0) cs 1 c c
    rw [e]
    exact this
  · unfold evalGeneric at hq
    rw [evaluatorAt_throws hw t (Or.inr ht)] at hq
    cases hq

/-! ### The theorems are not vacuous -/

theorem norm_of_normSq {q : ℍ[ℝ]} (h : Quaternion.normSq q = 1) : ‖q‖ = 1 := by
  rw [Quaternion.normSq_eq_norm_mul_self] at h
  nlinarith [norm_nonneg q]

theorem isIn_of_unit (lg : ℍ[ℝ] → V3) {q : ℍ[ℝ]} (h : ‖q‖ = 1) : (quatGroup lg).isIn q = true := by
  simp only [quatGroup, h, sub_self, abs_zero]
  norm_num

/-- Any unit quaternions can be the control vertices of a quaternion spline of any order over any increasing knots. -/
theorem quat_spline_exists (lg : ℍ[ℝ] → V3) (order : ℕ) (ho : 1 ≤ order) (ts : List ℝ) (cs : List ℍ[ℝ]) (hts : ts.Pairwise (· < ·))
    (hlen : ts.length = cs.length + order) (hcs : order ≤ cs.length) (hin : ∀ c ∈ cs, ‖c‖ = 1) :
    ∃ s, RegularReach (quatGroup lg).toMfd order s ∧ s.state = .evaluable ∧ s.keys = ts ∧ s.numControlVertices = .ok cs.length ∧
      s.verts.take cs.length = cs ∧ s.getMinTime = .ok (ts.getD (order - 1) 0) ∧ s.getMaxTime = .ok (ts.getD cs.length 0) := by
  obtain ⟨s, -, h⟩ := C55_init_with_vertices (quatGroup lg).toMfd order ho ts cs hts hlen hcs fun c hc => isIn_of_unit lg (hin c hc)
  exact ⟨s, h⟩

/-- The unit quaternions of the examples. -/
noncomputable def quatI : ℍ[ℝ] := ⟨0, 1, 0, 0⟩
noncomputable def quatJ : ℍ[ℝ] := ⟨0, 0, 1, 0⟩
noncomputable def quatIJ : ℍ[ℝ] := ⟨0, 3 / 5, 4 / 5, 0⟩
noncomputable def demoQuats : List ℍ[ℝ] := [1, quatI, quatIJ]

theorem norm_quatI : ‖quatI‖ = 1 := by
  apply norm_of_normSq; rw [Quaternion.normSq_def']; norm_num [quatI]
theorem norm_quatJ : ‖quatJ‖ = 1 := by
  apply norm_of_normSq; rw [Quaternion.normSq_def']; norm_num [quatJ]
theorem norm_quatIJ : ‖quatIJ‖ = 1 := by
  apply norm_of_normSq; rw [Quaternion.normSq_def']; norm_num [quatIJ]

theorem demoQuats_unit : ∀ c ∈ demoQuats, ‖c‖ = 1 := by
  refine List.forall_mem_cons.2 ⟨norm_one, List.forall_mem_cons.2 ⟨norm_quatI, List.forall_mem_cons.2 ⟨norm_quatIJ, ?_⟩⟩⟩
  intro c hc
  exact absurd hc (List.not_mem_nil)

/-- C28 applies to a spline of order two through three different rotations. -/
example (lg : ℍ[ℝ] → V3) : ∃ s : MSpline ℝ ℍ[ℝ], s.verts.take 3 = demoQuats ∧ ∃ q, s.quatEvalD lg (3 / 2) 0 = .ok q ∧ ‖q‖ = 1 := by
  obtain ⟨s, h1, h2, -, h4, h5, h6, h7⟩ := quat_spline_exists lg 2 (by norm_num) [0, 1, 2, 3, 4] demoQuats (by
    simp [List.pairwise_cons]; norm_num) rfl (by decide) demoQuats_unit
  refine ⟨s, h5, C28_unit lg 2 (by norm_num) s h1 h2 3 h4 (by rw [show (3 : ℕ) = demoQuats.length from rfl, h5]; exact demoQuats_unit)
    1 3 h6 h7 (3 / 2) (by norm_num) (by norm_num)⟩

/-- C27 applies to it and the spline rotated from the left. -/
example (lg : ℍ[ℝ] → V3) : ∃ s s' : MSpline ℝ ℍ[ℝ], s.verts.take 3 = demoQuats ∧
    s'.verts.take 3 = demoQuats.map (fun v => qplus quatJ v) ∧
    ∀ t, s'.evalGeneric (quatGroup lg).toMfd t = (s.evalGeneric (quatGroup lg).toMfd t).map fun p => qplus quatJ p := by
  have hg := norm_quatJ
  have hts : ([0, 1, 2, 3, 4] : List ℝ).Pairwise (· < ·) := by simp [List.pairwise_cons]; norm_num
  obtain ⟨s, h1, h2, h3, h4, h5, -⟩ := quat_spline_exists lg 2 (by norm_num) [0, 1, 2, 3, 4] demoQuats hts rfl (by decide) demoQuats_unit
  obtain ⟨s', h1', h2', h3', h4', h5', -⟩ := quat_spline_exists lg 2 (by norm_num) [0, 1, 2, 3, 4]
    (demoQuats.map (fun v => qplus quatJ v)) hts rfl (by decide) (by
      intro c hc
      obtain ⟨d, hd, rfl⟩ := List.mem_map.1 hc
      exact (quat_group lg).mul_mem hg (demoQuats_unit d hd))
  have h5 : s.verts.take 3 = demoQuats := h5
  have h5' : s'.verts.take 3 = demoQuats.map (fun v => qplus quatJ v) := h5'
  refine ⟨s, s', h5, h5', fun t => ?_⟩
  exact C27_left_invariant (quat_group lg) 2 (by norm_num) s s' h1 h1' h2 h2' (by rw [h3, h3']) 3 h4
    (by rw [h5]; exact demoQuats_unit) quatJ hg (by rw [h5, h5']; rfl) t

/-- The hypothesis of C27 on conjugation holds for quaternions and every logarithm along the vector part, such as the true one. -/
theorem quat_conj (f : ℝ → ℝ) (g : ℍ[ℝ]) (hg : ‖g‖ = 1) (x : ℍ[ℝ]) (c : ℝ) :
    let G := quatGroup fun q => f q.re • qeps q
    G.mult g (G.expAtId (c • G.logAtId (G.mult (G.invert g) (G.mult x g)))) = G.mult (G.expAtId (c • G.logAtId x)) g := by
  intro G
  have hgs : g * star g = 1 := by
    rw [Quaternion.self_mul_star, Quaternion.normSq_eq_norm_mul_self, hg]; simp
  have hsg : star g * g = 1 := by
    rw [Quaternion.star_mul_self, Quaternion.normSq_eq_norm_mul_self, hg]; simp
  set y := g * x * star g with hy
  have e1 : G.mult (G.invert g) (G.mult x g) = y := by
    show qplus (quatInv g) (qplus x g) = y
    rw [qplus_eq, qplus_eq, quatInv_eq]
  have hV : ∀ q : ℍ[ℝ], quatV (qeps q) = (1 / 2 : ℝ) • (q - (q.re : ℍ[ℝ])) := by
    intro q
    ext <;> simp [qeps] <;> ring
  have hre : y.re = x.re := by
    have : y.re = (star g * g * x).re := by
      rw [hy]
      simp only [Quaternion.re_mul, Quaternion.imI_mul, Quaternion.imJ_mul, Quaternion.imK_mul, Quaternion.re_star,
        Quaternion.imI_star, Quaternion.imJ_star, Quaternion.imK_star]
      ring
    rw [this, hsg, _root_.one_mul]
  have hexp : G.expAtId (c • G.logAtId y) = g * G.expAtId (c • G.logAtId x) * star g := by
    show axisAngle2quat (c • f y.re • qeps y) = g * axisAngle2quat (c • f x.re • qeps x) * star g
    rw [axisAngle2quat_eq, axisAngle2quat_eq, quatV_smul, quatV_smul, quatV_smul, quatV_smul, hV, hV, hre]
    let u : (ℍ[ℝ])ˣ := ⟨g, star g, hgs, hsg⟩
    let +nondep : NormedAlgebra ℚ ℍ[ℝ] := .restrictScalars ℚ ℝ ℍ[ℝ]
    have := NormedSpace.exp_units_conj u (c • f x.re • (1 / 2 : ℝ) • (x - (x.re : ℍ[ℝ])))
    have e2 : (u : ℍ[ℝ]) * (c • f x.re • (1 / 2 : ℝ) • (x - (x.re : ℍ[ℝ]))) * (u⁻¹ : (ℍ[ℝ])ˣ) =
        c • f x.re • (1 / 2 : ℝ) • (y - (x.re : ℍ[ℝ])) := by
      show g * _ * star g = _
      rw [mul_smul_comm, mul_smul_comm, mul_smul_comm, smul_mul_assoc, smul_mul_assoc, smul_mul_assoc, mul_sub, sub_mul, ← hy]
      have : g * (x.re : ℍ[ℝ]) * star g = (x.re : ℍ[ℝ]) := by
        rw [← Quaternion.coe_commutes, mul_assoc, hgs, _root_.mul_one]
      rw [this]
    rw [e2] at this
    exact this
  rw [e1, hexp]
  show qplus g (g * G.expAtId (c • G.logAtId x) * star g) = qplus (G.expAtId (c • G.logAtId x)) g
  rw [qplus_eq, qplus_eq, mul_assoc, mul_assoc, hsg, _root_.mul_one]

example (g : ℍ[ℝ]) (hg : ‖g‖ = 1) : ∀ x ∈ {q : ℍ[ℝ] | ‖q‖ = 1}, ∀ c : ℝ,
    let G := quatGroup fun q => (2 * Real.arccos q.re / Real.sqrt (1 - q.re ^ 2)) • qeps q
    G.mult g (G.expAtId (c • G.logAtId (G.mult (G.invert g) (G.mult x g)))) = G.mult (G.expAtId (c • G.logAtId x)) g :=
  fun x _ c => quat_conj (fun r => 2 * Real.arccos r / Real.sqrt (1 - r ^ 2)) g hg x c

end Verif.MSpline
