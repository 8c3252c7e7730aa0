import Verif.Props.Influence
import Verif.Props.LieGroup
import Verif.Props.OptUpdate
import Verif.Props.QuaternionJacobian
import Verif.Props.RotationRate

/-!
# Property C109 for splines with values in a Lie group

Each control vertex in use at a time between two knots has influence on the value there.
-/

set_option linter.unusedSectionVars false

namespace Verif.MSpline

open Finset

/-- What the logarithm of a group does: the exponential undoes it, the way from the identity to a point along it passes no point twice, and
it changes sign for the inverse of at least one point other than the identity. -/
structure Spec.Geodesic {P V : Type*} [SMul ℝ V] (G : LieGrp P V) (H : Set P) : Prop where
  one : ∀ c : ℝ, G.expAtId (c • G.logAtId G.identity) = G.identity
  start : ∀ x ∈ H, G.expAtId ((0 : ℝ) • G.logAtId x) = G.identity
  finish : ∀ x ∈ H, G.expAtId ((1 : ℝ) • G.logAtId x) = x
  once : ∀ x ∈ H, x ≠ G.identity → ∀ a b : ℝ, 0 ≤ a → a < b → b ≤ 1 → G.expAtId (a • G.logAtId x) ≠ G.expAtId (b • G.logAtId x)
  back : ∃ y ∈ H, y ≠ G.identity ∧ ∀ a b : ℝ, 0 ≤ b → b ≤ a → a ≤ 1 →
    G.mult (G.expAtId (a • G.logAtId y)) (G.expAtId (b • G.logAtId (G.invert y))) = G.expAtId ((a - b) • G.logAtId y)

variable {P V : Type*} [SMul ℝ V] {G : LieGrp P V} {H : Set P}

theorem IsGroupOn.left_cancel (h : IsGroupOn G H) {a b c : P} (ha : a ∈ H) (hb : b ∈ H) (hc : c ∈ H) (he : G.mult a b = G.mult a c) : b = c := by
  rw [← h.one_mul hb, ← h.one_mul hc, ← h.inv_mul ha, h.assoc (h.inv_mem ha) ha hb, h.assoc (h.inv_mem ha) ha hc, he]

theorem IsGroupOn.right_cancel (h : IsGroupOn G H) {a b c : P} (ha : a ∈ H) (hb : b ∈ H) (hc : c ∈ H) (he : G.mult b a = G.mult c a) : b = c := by
  rw [← h.mul_one hb, ← h.mul_one hc, ← h.mul_inv ha, ← h.assoc hb ha (h.inv_mem ha), ← h.assoc hc ha (h.inv_mem ha), he]

theorem genericLoop_split (h : IsGroupOn G H) (w : ℕ → ℝ) : ∀ (cs : List P) (i : ℕ) (a p : P), p ∈ H →
    genericLoop G.toMfd w i a p cs = G.mult p (genericLoop G.toMfd w i a G.identity cs)
  | [], _, _, _, hp => (h.mul_one hp).symm
  | c :: cs, i, a, p, hp => by
    unfold genericLoop
    by_cases hw : w i = 0
    · rw [if_pos hw, if_pos hw]
      exact genericLoop_split h w cs (i + 1) c p hp
    · rw [if_neg hw, if_neg hw, exp_toMfd, exp_toMfd, genericLoop_split h w cs (i + 1) c _ (h.mul_mem hp (h.exp_mem _)),
        genericLoop_split h w cs (i + 1) c (G.mult G.identity _) (h.mul_mem h.one_mem (h.exp_mem _)),
        h.one_mul (h.exp_mem _), h.assoc hp (h.exp_mem _) (genericLoop_mem h.mul_mem h.exp_mem w _ _ _ _ h.one_mem)]

theorem genericLoop_append (w : ℕ → ℝ) : ∀ (as bs : List P) (i : ℕ) (a p : P),
    genericLoop G.toMfd w i a p (as ++ bs) = genericLoop G.toMfd w (i + as.length) (as.getLastD a) (genericLoop G.toMfd w i a p as) bs
  | [], _, _, _, _ => rfl
  | c :: as, bs, i, a, p => by
    have e1 : genericLoop G.toMfd w i a p (c :: as ++ bs) = genericLoop G.toMfd w (i + 1) c
        (if w i = 0 then p else G.toMfd.exp p (G.toMfd.scale (G.toMfd.log a c) (w i))) (as ++ bs) := rfl
    have e2 : genericLoop G.toMfd w i a p (c :: as) = genericLoop G.toMfd w (i + 1) c
        (if w i = 0 then p else G.toMfd.exp p (G.toMfd.scale (G.toMfd.log a c) (w i))) as := rfl
    rw [e1, e2, genericLoop_append w as bs, List.length_cons, show i + 1 + as.length = i + (as.length + 1) by omega]
    cases as <;> rfl

/-- The value for a window of control vertices. -/
noncomputable def windowValue (G : LieGrp P V) (w : ℕ → ℝ) : List P → P
  | [] => G.identity
  | c :: cs => genericLoop G.toMfd w 1 c c cs

/-- Weights as they are between two knots: between zero and one and decreasing. -/
structure InnerWeights (k : ℕ) (w : ℕ → ℝ) : Prop where
  pos : ∀ l, 1 ≤ l → l < k → 0 < w l
  one : 1 < k → w 1 < 1
  down : ∀ l, 1 ≤ l → l + 1 < k → w (l + 1) < w l

theorem InnerWeights.lt_one {k : ℕ} {w : ℕ → ℝ} (h : InnerWeights k w) : ∀ l, 1 ≤ l → l < k → w l < 1 := by
  intro l h1 h2
  induction l with
  | zero => omega
  | succ l ih =>
    rcases Nat.eq_zero_or_pos l with rfl | h3
    · exact h.one h2
    · exact (h.down l h3 h2).trans (ih h3 (by omega))

theorem log_eq (a b : P) : (G.toMfd (K := ℝ)).log a b = G.logAtId (G.mult (G.invert a) b) := rfl

theorem scale_eq (v : V) (c : ℝ) : (G.toMfd (K := ℝ)).scale v c = c • v := rfl

/-- One step of the loop from `a` to `c` with positive weight. -/
theorem genericLoop_cons (w : ℕ → ℝ) (i : ℕ) (a p c : P) (cs : List P) (hw : 0 < w i) :
    genericLoop G.toMfd w i a p (c :: cs) =
      genericLoop G.toMfd w (i + 1) c (G.mult p (G.expAtId (w i • G.logAtId (G.mult (G.invert a) c)))) cs := by
  conv_lhs => unfold genericLoop
  rw [if_neg hw.ne', exp_toMfd, log_eq, scale_eq]

theorem window_two (h : IsGroupOn G H) (hg : Spec.Geodesic G H) {k : ℕ} {w : ℕ → ℝ} (hw : InnerWeights k w) (L : List P) (hL : L.length = k)
    (hk : 2 ≤ k) (hH : ∀ x ∈ L, x ∈ H) (m : ℕ) (hm : m < k) :
    ∃ u ∈ H, ∃ u' ∈ H, windowValue G w (L.set m u) ≠ windowValue G w (L.set m u') := by
  obtain ⟨y, hy, hy1, hback⟩ := hg.back
  cases L with
  | nil => simp at hL; omega
  | cons c cs =>
  rcases Nat.eq_zero_or_pos m with rfl | hm0
  · -- the first control vertex
    cases cs with
    | nil => simp at hL; omega
    | cons c1 cs =>
    have hc1 : c1 ∈ H := hH c1 (by simp)
    have hw1 := hw.pos 1 le_rfl (by omega)
    refine ⟨c1, hc1, G.mult c1 (G.invert y), h.mul_mem hc1 (h.inv_mem hy), ?_⟩
    simp only [List.set_cons_zero, windowValue]
    rw [genericLoop_cons w 1 _ _ _ _ hw1, genericLoop_cons w 1 _ _ _ _ hw1, h.inv_mul hc1, hg.one, h.mul_one hc1,
      h.inv_mult hc1 (h.inv_mem hy), h.assoc (h.inv_mem (h.inv_mem hy)) (h.inv_mem hc1) hc1, h.inv_mul hc1, h.mul_one (h.inv_mem (h.inv_mem hy)),
      ← h.inv_unique (h.inv_mem hy) hy (h.mul_inv hy)]
    intro he
    have he1 := h.mul_mem (h.mul_mem hc1 (h.inv_mem hy)) (h.exp_mem (w 1 • G.logAtId y))
    rw [genericLoop_split h w _ _ _ c1 hc1, genericLoop_split h w _ _ _ _ he1] at he
    have e1 := h.right_cancel (genericLoop_mem h.mul_mem h.exp_mem w _ _ _ _ h.one_mem) hc1 he1 he
    rw [h.assoc hc1 (h.inv_mem hy) (h.exp_mem _)] at e1
    have e2 := h.left_cancel hc1 h.one_mem (h.mul_mem (h.inv_mem hy) (h.exp_mem (w 1 • G.logAtId y))) (by rw [h.mul_one hc1]; exact e1)
    have e3 : y = G.expAtId (w 1 • G.logAtId y) := by
      refine h.left_cancel (h.inv_mem hy) hy (h.exp_mem _) ?_
      rw [h.inv_mul hy]
      exact e2
    refine hg.once y hy hy1 (w 1) 1 hw1.le (hw.one (by omega)) le_rfl ?_
    rw [hg.finish y hy]
    exact e3.symm
  · -- a later one, after `a`
    obtain ⟨m', rfl⟩ : ∃ m', m = m' + 1 := ⟨m - 1, by omega⟩
    have hlen : m' < cs.length := by simp at hL; omega
    have hset : ∀ u, cs.set m' u = cs.take m' ++ u :: cs.drop (m' + 1) := fun u => by rw [List.set_eq_take_append_cons_drop, if_pos hlen]
    set as := cs.take m' with has
    have hasl : as.length = m' := by rw [has, List.length_take]; omega
    set a := as.getLastD c with ha
    have haH : a ∈ H := by
      rw [ha]
      rcases List.eq_nil_or_concat as with e | ⟨l, x, e⟩
      · rw [e]; exact hH c (by simp)
      · rw [e, List.concat_eq_append, List.getLastD_eq_getLast?, List.getLast?_concat, Option.getD_some]
        refine hH x (List.mem_cons_of_mem _ (List.mem_of_mem_take (i := m') ?_))
        rw [← has, e]
        simp
    set Q := genericLoop G.toMfd w 1 c c as with hQ
    have hQH : Q ∈ H := genericLoop_mem h.mul_mem h.exp_mem w _ _ _ _ (hH c (by simp))
    have hwm := hw.pos (1 + m') (by omega) (by omega)
    have hval : ∀ u, windowValue G w ((c :: cs).set (m' + 1) u) =
        genericLoop G.toMfd w (1 + m' + 1) u (G.mult Q (G.expAtId (w (1 + m') • G.logAtId (G.mult (G.invert a) u)))) (cs.drop (m' + 1)) := by
      intro u
      rw [List.set_cons_succ, hset]
      simp only [windowValue]
      rw [genericLoop_append, hasl, genericLoop_cons w _ _ _ _ _ hwm]
    have hinv : ∀ u, u ∈ H → G.mult (G.invert a) (G.mult a u) = u := fun u hu => by
      rw [← h.assoc (h.inv_mem haH) haH hu, h.inv_mul haH, h.one_mul hu]
    cases hd : cs.drop (m' + 1) with
    | nil =>
      -- the last control vertex
      refine ⟨a, haH, G.mult a y, h.mul_mem haH hy, ?_⟩
      rw [hval, hval, hd, h.inv_mul haH, hg.one, h.mul_one hQH, hinv y hy]
      intro he
      have he' : Q = G.mult Q (G.expAtId (w (1 + m') • G.logAtId y)) := he
      have e1 := h.left_cancel hQH h.one_mem (h.exp_mem (w (1 + m') • G.logAtId y)) (by rw [h.mul_one hQH]; exact he')
      refine hg.once y hy hy1 0 (w (1 + m')) le_rfl hwm (hw.lt_one _ (by omega) (by omega)).le ?_
      rw [hg.start y hy]
      exact e1
    | cons b bs =>
      have hbm : b ∈ cs := List.mem_of_mem_drop (i := m' + 1) (by rw [hd]; simp)
      have hb : b ∈ H := hH b (List.mem_cons_of_mem _ hbm)
      have hlt : m' + 1 < cs.length := by
        by_contra hcon
        rw [List.drop_eq_nil_of_le (by omega)] at hd
        exact absurd hd (by simp)
      have hwl := hw.pos (1 + m' + 1) (by omega) (by simp at hL; omega)
      have hdown := hw.down (1 + m') (by omega) (by simp at hL; omega)
      have hone := hw.lt_one (1 + m') (by omega) (by simp at hL; omega)
      have hval2 : ∀ u ∈ H, windowValue G w ((c :: cs).set (m' + 1) u) = G.mult (G.mult Q (G.mult (G.expAtId (w (1 + m') • G.logAtId (G.mult (G.invert a) u)))
          (G.expAtId (w (1 + m' + 1) • G.logAtId (G.mult (G.invert u) b))))) (genericLoop G.toMfd w (1 + m' + 1 + 1) b G.identity bs) := by
        intro u _
        rw [hval, hd, genericLoop_cons w _ _ _ _ _ hwl, h.assoc hQH (h.exp_mem _) (h.exp_mem _),
          genericLoop_split h w _ _ _ _ (h.mul_mem hQH (h.mul_mem (h.exp_mem _) (h.exp_mem _)))]
      have hR := genericLoop_mem h.mul_mem h.exp_mem w bs (1 + m' + 1 + 1) b G.identity h.one_mem
      have cancel : ∀ u ∈ H, ∀ u' ∈ H, windowValue G w ((c :: cs).set (m' + 1) u) = windowValue G w ((c :: cs).set (m' + 1) u') →
          G.mult (G.expAtId (w (1 + m') • G.logAtId (G.mult (G.invert a) u))) (G.expAtId (w (1 + m' + 1) • G.logAtId (G.mult (G.invert u) b))) =
          G.mult (G.expAtId (w (1 + m') • G.logAtId (G.mult (G.invert a) u'))) (G.expAtId (w (1 + m' + 1) • G.logAtId (G.mult (G.invert u') b))) := by
        intro u hu u' hu' he
        rw [hval2 u hu, hval2 u' hu'] at he
        exact h.left_cancel hQH (h.mul_mem (h.exp_mem _) (h.exp_mem _)) (h.mul_mem (h.exp_mem _) (h.exp_mem _))
          (h.right_cancel hR (h.mul_mem hQH (h.mul_mem (h.exp_mem _) (h.exp_mem _))) (h.mul_mem hQH (h.mul_mem (h.exp_mem _) (h.exp_mem _))) he)
      by_cases hab : G.mult (G.invert a) b = G.identity
      · have hba : b = a := by
          refine h.left_cancel (h.inv_mem haH) hb haH ?_
          rw [hab, h.inv_mul haH]
        clear_value a
        subst hba
        refine ⟨b, hb, G.mult b y, h.mul_mem hb hy, fun he => ?_⟩
        have e := cancel _ hb _ (h.mul_mem hb hy) he
        rw [h.inv_mul hb, hg.one, hg.one, h.mul_one h.one_mem, hinv y hy, h.inv_mult hb hy, h.assoc (h.inv_mem hy) (h.inv_mem hb) hb, h.inv_mul hb,
          h.mul_one (h.inv_mem hy), hback _ _ hwl.le hdown.le hone.le] at e
        refine hg.once y hy hy1 0 (w (1 + m') - w (1 + m' + 1)) le_rfl (by linarith) (by linarith) ?_
        rw [hg.start y hy]
        exact e
      · refine ⟨a, haH, b, hb, fun he => ?_⟩
        have e := cancel _ haH _ hb he
        rw [h.inv_mul haH, hg.one, h.inv_mul hb, hg.one, h.one_mul (h.exp_mem _), h.mul_one (h.exp_mem _)] at e
        exact hg.once _ (h.mul_mem (h.inv_mem haH) hb) hab _ _ hwl.le hdown hone.le e

/-- The weights of the loop: sums of the values of the basis functions of the segment from one of them on. -/
noncomputable def sumFrom (kn : ℕ → ℝ) (k i : ℕ) (t : ℝ) (l : ℕ) : ℝ := ∑ c ∈ Ico l k, (piece kn i (k - 1) (i + 1 - k + c)).eval t

theorem evalGeneric_window {s : MSpline ℝ P} (h : s.MWF) (he : s.state = .evaluable) (G : LieGrp P V) {t : ℝ} {i : ℕ} (hi : s.InSeg t i) :
    s.evalGeneric G.toMfd t = .ok (windowValue G (sumFrom s.kn s.order i t) ((s.verts.drop (i + 1 - s.order)).take s.order)) := by
  obtain ⟨w, c, cs, hw, hv, hev⟩ := evalGeneric_eq h he G.toMfd hi
  have hl : cs.length + 1 ≤ s.order := by
    have : (c :: cs).length ≤ s.order := by rw [← hv, List.length_take]; omega
    simpa using this
  rw [hev, hv]
  refine congrArg Outcome.ok (genericLoop_congr _ _ _ cs 1 c c fun j h3 h4 => ?_)
  rw [cumulativeOf_eq _ _ _ (by omega) (by omega)]
  refine sum_congr rfl fun x hx => ?_
  have := mem_Ico.1 hx
  exact hw x (by omega)

theorem sumFrom_inner {s : MSpline ℝ P} (h : s.MWF) {t : ℝ} {i : ℕ} (h1 : s.order ≤ i + 1) (h2 : i + s.order < s.keys.length) (h3 : s.kn i < t)
    (h4 : t < s.kn (i + 1)) : InnerWeights s.order (sumFrom s.kn s.order i t) := by
  have ho := h.order_pos
  have hpos : ∀ c, c < s.order → 0 < (piece s.kn i (s.order - 1) (i + 1 - s.order + c)).eval t := fun c hc =>
    piece_pos s.kn s.keys.length i h.mono t h3 h4 _ _ (by omega) (by omega) (by omega)
  have hstep : ∀ l, l < s.order → sumFrom s.kn s.order i t l = (piece s.kn i (s.order - 1) (i + 1 - s.order + l)).eval t +
      sumFrom s.kn s.order i t (l + 1) := fun l hl => sum_eq_sum_Ico_succ_bot hl _
  refine ⟨fun l _ hl => sum_pos (fun c hc => hpos c (mem_Ico.1 hc).2) ⟨l, mem_Ico.2 ⟨le_rfl, hl⟩⟩, fun hk => ?_, fun l _ hl => ?_⟩
  · have hone := congrArg (Polynomial.eval t) (piece_sum_one s.kn s.keys.length i h.mono (h3.trans h4) (s.order - 1) (by omega) (by omega))
    have hI : Ico (i - (s.order - 1)) (i + 1) = Ico (0 + (i + 1 - s.order)) (s.order + (i + 1 - s.order)) := by
      rw [show i - (s.order - 1) = 0 + (i + 1 - s.order) by omega, show s.order + (i + 1 - s.order) = i + 1 by omega]
    rw [Polynomial.eval_finsetSum, Polynomial.eval_one, hI, ← sum_Ico_add' (fun j => (piece s.kn i (s.order - 1) j).eval t)] at hone
    have e : sumFrom s.kn s.order i t 0 = 1 := by
      rw [← hone]
      refine sum_congr rfl fun c _ => ?_
      rw [Nat.add_comm c]
    rw [hstep 0 (by omega)] at e
    have := hpos 0 (by omega)
    simp only [zero_add] at e
    linarith
  · rw [hstep l (by omega)]
    have := hpos l (by omega)
    linarith

/-- **C109** for splines with values in a group: at a time between two knots exactly the control vertices whose basis function reaches over it
have influence on the value. -/
theorem C109_group (hG : IsGroupOn G H) (hg : Spec.Geodesic G H) (order : ℕ) (ho : 2 ≤ order) (s : MSpline ℝ P) (h : RegularReach G.toMfd order s)
    (he : s.state = .evaluable) (nv : ℕ) (hnv : s.numControlVertices = .ok nv) (hverts : ∀ v ∈ s.verts.take nv, v ∈ H)
    (t a b : ℝ) (ha : s.getMinTime = .ok a) (hb : s.getMaxTime = .ok b) (h1 : a ≤ t) (h2 : t ≤ b) (hk : t ∉ s.keys)
    (j : ℕ) (x y : ℝ) (hj : j < nv) (hx : s.keys[j]? = some x) (hy : s.keys[j + order]? = some y) :
    (x < t ∧ t < y → ∃ u ∈ H, ∀ s', RegularReach G.toMfd order s' → s'.state = .evaluable → s'.keys = s.keys →
      s'.verts.take nv = (s.verts.take nv).set j u → s'.evalGeneric G.toMfd t ≠ s.evalGeneric G.toMfd t) ∧
    (¬(x < t ∧ t < y) → ∀ u s', RegularReach G.toMfd order s' → s'.state = .evaluable → s'.keys = s.keys →
      s'.verts.take nv = (s.verts.take nv).set j u → s'.evalGeneric G.toMfd t = s.evalGeneric G.toMfd t) := by
  obtain ⟨hw, rfl⟩ := h.mwf (by omega)
  have hen := hw.enough he
  rw [numControlVertices_eq hw he, Outcome.ok.injEq] at hnv
  rw [getMinTime_eq hw he, Outcome.ok.injEq] at ha
  rw [getMaxTime_eq hw he, Outcome.ok.injEq] at hb
  rw [kn_getElem s (by omega), Option.some.injEq] at hx hy
  subst ha hb hx hy
  obtain ⟨i, hi, -⟩ := getSegmentIterator_ok hw he t h1 h2
  have g1 := hi.lower
  have g2 := hi.upper
  have hmem : ∀ l < s.keys.length, s.kn l ∈ s.keys := fun l hl => by
    have := kn_getElem s hl
    exact List.mem_of_getElem? this
  have g3 : s.kn i < t := lt_of_le_of_ne hi.left fun e => hk (e ▸ hmem i (by omega))
  have g4 : t < s.kn (i + 1) := lt_of_le_of_ne hi.right_le fun e => hk (e.symm ▸ hmem (i + 1) (by omega))
  have hin : (s.kn j < t ∧ t < s.kn (j + s.order)) ↔ i + 1 - s.order ≤ j ∧ j ≤ i := by
    constructor
    · rintro ⟨k1, k2⟩
      constructor
      · by_contra hcon
        have := hw.mono (j + s.order) i (by omega) (by omega)
        linarith
      · by_contra hcon
        have := hw.mono (i + 1) j (by omega) (by omega)
        linarith
    · rintro ⟨k1, k2⟩
      have l1 := hw.mono j i k2 (by omega)
      have l2 := hw.mono (i + 1) (j + s.order) (by omega) (by omega)
      constructor <;> linarith
  set L := (s.verts.drop (i + 1 - s.order)).take s.order with hL
  have hvl : s.verts.length = s.keys.length := by rw [keys_length]; simp [verts]
  have hLl : L.length = s.order := by rw [hL, List.length_take, List.length_drop]; omega
  have hval := evalGeneric_window hw he G hi
  rw [← hL] at hval
  have hval' : ∀ u s', RegularReach G.toMfd s.order s' → s'.state = .evaluable → s'.keys = s.keys →
      s'.verts.take nv = (s.verts.take nv).set j u →
      s'.evalGeneric G.toMfd t = .ok (windowValue G (sumFrom s.kn s.order i t) (if i + 1 - s.order ≤ j then L.set (j - (i + 1 - s.order)) u else L)) := by
    intro u s' h' he' hk' hv'
    obtain ⟨hw', ho'⟩ := h'.mwf (by omega)
    have hkn : s'.kn = s.kn := by unfold kn; rw [hk']
    have hi' : s'.InSeg t i := by
      refine ⟨by rw [ho']; exact hi.lower, by rw [ho', hk']; exact hi.upper, by rw [hkn]; exact hi.left, ?_⟩
      rw [hkn, hk', ho']; exact hi.right
    rw [evalGeneric_window hw' he' G hi', ho', hkn]
    congr 2
    apply List.ext_getElem?
    intro m
    have hve : ∀ l, l < nv → s'.verts[l]? = if j = l then some u else s.verts[l]? := by
      intro l hl
      have e := congrArg (fun r => r[l]?) hv'
      simp only [List.getElem?_take, List.getElem?_set, List.length_take] at e
      rw [if_pos hl] at e
      rw [e]
      by_cases hjl : j = l
      · subst hjl
        rw [if_pos rfl, if_pos rfl, if_pos (by omega)]
      · rw [if_neg hjl, if_neg hjl, if_pos hl]
    by_cases hm : m < s.order
    · rw [List.getElem?_take, if_pos hm, List.getElem?_drop, hve _ (by omega)]
      have hLm : L[m]? = s.verts[i + 1 - s.order + m]? := by rw [hL, List.getElem?_take, if_pos hm, List.getElem?_drop]
      by_cases hc : i + 1 - s.order ≤ j
      · rw [if_pos hc, List.getElem?_set, hLl, hLm]
        by_cases hjm : j = i + 1 - s.order + m
        · rw [if_pos hjm, if_pos (by omega), if_pos (by omega)]
        · rw [if_neg hjm, if_neg (by omega)]
      · rw [if_neg hc, hLm, if_neg (by omega)]
    · rw [List.getElem?_eq_none (by rw [List.length_take]; omega), List.getElem?_eq_none]
      split
      · rw [List.length_set]; omega
      · omega
  rw [hin]
  constructor
  · rintro ⟨k1, k2⟩
    have hLH : ∀ x ∈ L, x ∈ H := by
      intro x hx
      refine hverts x ?_
      cases hc : L with
      | nil => rw [hc] at hx; simp at hx
      | cons c cs => exact segVerts_mem hi nv hnv.symm (hL ▸ hc) x (hc ▸ hx)
    obtain ⟨u, hu, u', hu', hne⟩ := window_two hG hg (sumFrom_inner hw g1 g2 g3 g4) L hLl ho hLH (j - (i + 1 - s.order)) (by omega)
    by_cases hd : windowValue G (sumFrom s.kn s.order i t) (L.set (j - (i + 1 - s.order)) u) = windowValue G (sumFrom s.kn s.order i t) L
    · refine ⟨u', hu', fun s' c1 c2 c3 c4 => ?_⟩
      rw [hval' u' s' c1 c2 c3 c4, hval, if_pos k1]
      intro e
      exact hne (hd.trans (Outcome.ok.inj e).symm)
    · refine ⟨u, hu, fun s' c1 c2 c3 c4 => ?_⟩
      rw [hval' u s' c1 c2 c3 c4, hval, if_pos k1]
      exact fun e => hd (Outcome.ok.inj e)
  · intro hn u s' c1 c2 c3 c4
    rw [hval' u s' c1 c2 c3 c4, hval]
    split
    · rename_i hc
      rw [List.set_eq_of_length_le (by omega)]
    · rfl

/-! ### Quaternions -/

open Quaternion

theorem axisAngle2quat_zero' : axisAngle2quat 0 = 1 := by
  rw [axisAngle2quat_eq, show quatV 0 = 0 by ext <;> simp, NormedSpace.exp_zero]

theorem axisAngle2quat_mul (v : V3) (a b : ℝ) : axisAngle2quat (a • v) * axisAngle2quat (b • v) = axisAngle2quat ((a + b) • v) := by
  rw [axisAngle2quat_eq, axisAngle2quat_eq, axisAngle2quat_eq, quatV_smul, quatV_smul, quatV_smul, exp_add_smul]

/-- Unit quaternions and a logarithm with turns of at most one full turn. -/
theorem quat_geodesic (lg : ℍ[ℝ] → V3) (hexp : ∀ q : ℍ[ℝ], ‖q‖ = 1 → axisAngle2quat (lg q) = q) (hlen : ∀ q : ℍ[ℝ], ‖q‖ = 1 → norm3 (lg q) ≤ 2 * Real.pi)
    (hone : lg 1 = 0) (hback : ∃ y : ℍ[ℝ], ‖y‖ = 1 ∧ y ≠ 1 ∧ lg (star y) = -lg y) : Spec.Geodesic (quatGroup lg) {q | ‖q‖ = 1} where
  one c := by
    show axisAngle2quat (c • lg 1) = 1
    rw [hone, smul_zero, axisAngle2quat_zero']
  start x _ := by
    show axisAngle2quat ((0 : ℝ) • lg x) = 1
    rw [zero_smul, axisAngle2quat_zero']
  finish x hx := by
    show axisAngle2quat ((1 : ℝ) • lg x) = x
    rw [one_smul, hexp x hx]
  once x hx hx1 a b ha hab hb he := by
    change axisAngle2quat (a • lg x) = axisAngle2quat (b • lg x) at he
    have e1 : axisAngle2quat ((b - a) • lg x) = 1 := by
      have := axisAngle2quat_mul (lg x) (b - a) a
      rw [he, sub_add_cancel] at this
      have hu : axisAngle2quat (b • lg x) ≠ 0 := by
        rw [← norm_ne_zero_iff, norm_axisAngle2quat]
        exact one_ne_zero
      exact mul_right_cancel₀ hu (this.trans (_root_.one_mul _).symm)
    have e2 := congrArg QuaternionAlgebra.re e1
    change Real.cos (norm3 ((b - a) • lg x) / 2) = 1 at e2
    rw [norm3_smul, abs_of_pos (by linarith)] at e2
    have hn : 0 ≤ norm3 (lg x) := Real.sqrt_nonneg _
    have hl := hlen x hx
    have hpi := Real.pi_pos
    have e3 := (Real.cos_eq_one_iff_of_lt_of_lt (by nlinarith) (by nlinarith)).1 e2
    have e4 : norm3 (lg x) = 0 := by
      rcases mul_eq_zero.1 (div_eq_zero_iff.1 e3 |>.resolve_right (by norm_num)) with e | e
      · linarith
      · exact e
    refine hx1 ?_
    rw [← hexp x hx, norm3_eq_zero e4]
    exact axisAngle2quat_zero'
  back := by
    obtain ⟨y, hy, hy1, hs⟩ := hback
    refine ⟨y, hy, hy1, fun a b _ _ _ => ?_⟩
    show qplus (axisAngle2quat (a • lg y)) (axisAngle2quat (b • lg (quatInv y))) = axisAngle2quat ((a - b) • lg y)
    rw [qplus_eq, quatInv_eq, hs, smul_neg, ← neg_smul, axisAngle2quat_mul, neg_add_eq_sub]

/-- **C109** for rotations: at a time between two knots exactly the control vertices whose basis function reaches over it have influence on the
quaternion. -/
theorem C109_quaternion (lg : ℍ[ℝ] → V3) (hexp : ∀ q : ℍ[ℝ], ‖q‖ = 1 → axisAngle2quat (lg q) = q) (hlen : ∀ q : ℍ[ℝ], ‖q‖ = 1 → norm3 (lg q) ≤ 2 * Real.pi)
    (hone : lg 1 = 0) (hback : ∃ y : ℍ[ℝ], ‖y‖ = 1 ∧ y ≠ 1 ∧ lg (star y) = -lg y)
    (order : ℕ) (ho : 2 ≤ order) (s : MSpline ℝ ℍ[ℝ]) (h : RegularReach (quatGroup lg).toMfd order s)
    (he : s.state = .evaluable) (nv : ℕ) (hnv : s.numControlVertices = .ok nv) (hverts : ∀ v ∈ s.verts.take nv, ‖v‖ = 1)
    (t a b : ℝ) (ha : s.getMinTime = .ok a) (hb : s.getMaxTime = .ok b) (h1 : a ≤ t) (h2 : t ≤ b) (hk : t ∉ s.keys)
    (j : ℕ) (x y : ℝ) (hj : j < nv) (hx : s.keys[j]? = some x) (hy : s.keys[j + order]? = some y) :
    (x < t ∧ t < y → ∃ u : ℍ[ℝ], ‖u‖ = 1 ∧ ∀ s', RegularReach (quatGroup lg).toMfd order s' → s'.state = .evaluable → s'.keys = s.keys →
      s'.verts.take nv = (s.verts.take nv).set j u → s'.quatEvalD lg t 0 ≠ s.quatEvalD lg t 0) ∧
    (¬(x < t ∧ t < y) → ∀ u s', RegularReach (quatGroup lg).toMfd order s' → s'.state = .evaluable → s'.keys = s.keys →
      s'.verts.take nv = (s.verts.take nv).set j u → s'.quatEvalD lg t 0 = s.quatEvalD lg t 0) := by
  have e : ∀ r : MSpline ℝ ℍ[ℝ], r.quatEvalD lg t 0 = r.evalGeneric (quatGroup lg).toMfd t := fun r => by
    unfold quatEvalD
    rw [if_pos rfl]
  simp only [e]
  exact C109_group (quat_group lg) (quat_geodesic lg hexp hlen hone hback) order ho s h he nv hnv hverts t a b ha hb h1 h2 hk j x y hj hx hy

/-- A logarithm of all unit quaternions. -/
noncomputable def turnLog (q : ℍ[ℝ]) : V3 := if q.re ≤ -1 then ![2 * Real.pi, 0, 0] else if 1 ≤ q.re then 0 else arcLog q

theorem unit_parts {q : ℍ[ℝ]} (hq : ‖q‖ = 1) : q.re ^ 2 + q.imI ^ 2 + q.imJ ^ 2 + q.imK ^ 2 = 1 := by
  rw [← Quaternion.normSq_def', Quaternion.normSq_eq_norm_mul_self, hq]; norm_num

theorem norm_arcLog {q : ℍ[ℝ]} (hq : ‖q‖ = 1) (h1 : -1 < q.re) (h2 : q.re < 1) : norm3 (arcLog q) = 2 * Real.arccos q.re := by
  have hpos : 0 < 1 - q.re ^ 2 := by nlinarith
  have hn := unit_parts hq
  have hsn : 0 < Real.sqrt (1 - q.re ^ 2) := Real.sqrt_pos.2 hpos
  have hsq : Real.sqrt (1 - q.re ^ 2) ^ 2 = 1 - q.re ^ 2 := Real.sq_sqrt hpos.le
  unfold arcLog
  rw [norm3_smul, abs_of_nonneg (div_nonneg (Real.arccos_nonneg _) hsn.le)]
  have : norm3 (angL q) = 2 * Real.sqrt (1 - q.re ^ 2) := by
    have e : norm3 (angL q) ^ 2 = (2 * Real.sqrt (1 - q.re ^ 2)) ^ 2 := by
      rw [norm3_sq, mul_pow, hsq]
      simp [angL, qeps]
      linarith
    exact (sq_eq_sq₀ (Real.sqrt_nonneg _) (by positivity)).1 e
  rw [this]
  field_simp

theorem turnLog_ok : (∀ q : ℍ[ℝ], ‖q‖ = 1 → axisAngle2quat (turnLog q) = q) ∧ (∀ q : ℍ[ℝ], ‖q‖ = 1 → norm3 (turnLog q) ≤ 2 * Real.pi) ∧
    turnLog 1 = 0 ∧ ∃ y : ℍ[ℝ], ‖y‖ = 1 ∧ y ≠ 1 ∧ turnLog (star y) = -turnLog y := by
  have hpi := Real.pi_pos
  have hnp : norm3 ![2 * Real.pi, 0, 0] = 2 * Real.pi := by
    unfold norm3
    simp
    rw [Real.sqrt_sq (by positivity)]
  refine ⟨fun q hq => ?_, fun q hq => ?_, ?_, quatI, ?_, ?_, ?_⟩
  · have hn := unit_parts hq
    unfold turnLog
    split_ifs with c1 c2
    · have e0 : q.re = -1 := by nlinarith [sq_nonneg q.imI, sq_nonneg q.imJ, sq_nonneg q.imK]
      rw [e0] at hn
      have e1 : q.imI = 0 := by nlinarith [sq_nonneg q.imI, sq_nonneg q.imJ, sq_nonneg q.imK]
      have e2 : q.imJ = 0 := by nlinarith [sq_nonneg q.imI, sq_nonneg q.imJ, sq_nonneg q.imK]
      have e3 : q.imK = 0 := by nlinarith [sq_nonneg q.imI, sq_nonneg q.imJ, sq_nonneg q.imK]
      unfold axisAngle2quat
      rw [hnp]
      ext <;> simp [e0, e1, e2, e3, Real.cos_pi]
    · have e0 : q.re = 1 := by nlinarith [sq_nonneg q.imI, sq_nonneg q.imJ, sq_nonneg q.imK]
      rw [e0] at hn
      have e1 : q.imI = 0 := by nlinarith [sq_nonneg q.imI, sq_nonneg q.imJ, sq_nonneg q.imK]
      have e2 : q.imJ = 0 := by nlinarith [sq_nonneg q.imI, sq_nonneg q.imJ, sq_nonneg q.imK]
      have e3 : q.imK = 0 := by nlinarith [sq_nonneg q.imI, sq_nonneg q.imJ, sq_nonneg q.imK]
      rw [axisAngle2quat_zero']
      ext <;> simp [e0, e1, e2, e3]
    · exact exp_arcLog hq (by linarith) (by linarith)
  · unfold turnLog
    split_ifs with c1 c2
    · exact hnp.le
    · simp [norm3]; positivity
    · rw [norm_arcLog hq (by linarith) (by linarith)]
      linarith [Real.arccos_le_pi q.re]
  · unfold turnLog
    norm_num
  · exact demoQuats_unit quatI (by simp [demoQuats])
  · intro e
    have := congrArg QuaternionAlgebra.re e
    simp [quatI] at this
  · unfold turnLog
    have e1 : (star quatI).re = 0 := by rw [← quatInv_eq]; simp [quatI, quatInv]
    have e2 : quatI.re = 0 := by simp [quatI]
    rw [e1, e2]
    norm_num
    unfold arcLog
    rw [e1, e2, ← quatInv_eq]
    ext m
    fin_cases m <;> simp [angL, qeps, quatI, quatInv]

/-- A spline of order two through three rotations: all but the last control vertex have influence at 3/2. -/
example : ∃ s : MSpline ℝ ℍ[ℝ], s.verts.take 3 = demoQuats ∧
    (∀ j, j < 2 → ∃ u : ℍ[ℝ], ‖u‖ = 1 ∧ ∀ s', RegularReach (quatGroup turnLog).toMfd 2 s' → s'.state = .evaluable → s'.keys = s.keys →
      s'.verts.take 3 = (s.verts.take 3).set j u → s'.quatEvalD turnLog (3 / 2) 0 ≠ s.quatEvalD turnLog (3 / 2) 0) ∧
    ∀ u s', RegularReach (quatGroup turnLog).toMfd 2 s' → s'.state = .evaluable → s'.keys = s.keys →
      s'.verts.take 3 = (s.verts.take 3).set 2 u → s'.quatEvalD turnLog (3 / 2) 0 = s.quatEvalD turnLog (3 / 2) 0 := by
  obtain ⟨s, g1, g2, g3, g4, g5, g6, g7⟩ := quat_spline_exists turnLog 2 (by norm_num) [0, 1, 2, 3, 4] demoQuats (by
    simp [List.pairwise_cons]; norm_num) rfl (by decide) demoQuats_unit
  obtain ⟨l1, l2, l3, l4⟩ := turnLog_ok
  have hv : ∀ v ∈ s.verts.take 3, ‖v‖ = 1 := by
    rw [show (3 : ℕ) = demoQuats.length from rfl, g5]; exact demoQuats_unit
  have key := fun j x y => C109_quaternion turnLog l1 l2 l3 l4 2 le_rfl s g1 g2 3 g4 hv (3 / 2) _ _ g6 g7 (by norm_num) (by
    simp [demoQuats]) (by rw [g3]; norm_num) j x y
  refine ⟨s, g5, fun j hj => ?_, ?_⟩
  · interval_cases j
    · exact (key 0 0 2 (by norm_num) (by rw [g3]; rfl) (by rw [g3]; rfl)).1 (by norm_num)
    · exact (key 1 1 3 (by norm_num) (by rw [g3]; rfl) (by rw [g3]; rfl)).1 (by norm_num)
  · exact (key 2 2 4 (by norm_num) (by rw [g3]; rfl) (by rw [g3]; rfl)).2 (by norm_num)

end Verif.MSpline
