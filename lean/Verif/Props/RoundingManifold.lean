import Verif.Model.RoundingManifold
import Verif.Props.RoundingEval
import Verif.Lemmas.Euclidean
import Verif.Props.ManifoldInit

/-!
# Property C107: evaluation of manifold splines in floating point — weights and Euclidean splines
-/

set_option linter.unusedSectionVars false

namespace Verif

namespace Rounding

open Finset MSpline

variable {K : Type*} [Field K] [LinearOrder K] [IsStrictOrderedRing K] {R : Rounding K} {X V : Type*}

/-! ### The spline with rounded basis matrices -/

theorem keys_float (S : Summation R) (s : MSpline K X) : (withFloatBasis S s).keys = s.keys := by
  unfold withFloatBasis MSpline.keys
  apply List.ext_getElem
  · simp
  · intro j h1 h2
    simp

theorem verts_float (S : Summation R) (s : MSpline K X) : (withFloatBasis S s).verts = s.verts := by
  unfold withFloatBasis MSpline.verts
  apply List.ext_getElem
  · simp
  · intro j h1 h2
    simp

/-- The same segments while the spline is under construction: nothing is said about its basis matrices then. -/
theorem mwf_float (S : Summation R) {s : MSpline K X} (h : s.MWF) : ({ withFloatBasis S s with state := .constructing } : MSpline K X).MWF where
  order_pos := h.order_pos
  sorted := by
    have : ({ withFloatBasis S s with state := .constructing } : MSpline K X).keys = s.keys := keys_float S s
    rw [this]
    exact h.sorted
  enough := nofun
  iters_eq := nofun
  basis_eq := nofun

theorem segAt_float (S : Summation R) {s : MSpline K X} (h : s.MWF) (he : s.state = .evaluable) {t : K} {i : ℕ} (hi : s.InSeg t i) :
    ∃ g, (withFloatBasis S s).segAt s.keys[i]? = .ok g ∧
      g.basis = some (localM S s.order ((s.keys.drop (i + 1 - s.order)).take (2 * s.order))) := by
  have h2 := hi.upper
  rw [MSpline.keys_length] at h2
  have hlt : i < s.segs.length := by omega
  have hg := List.getElem?_eq_getElem hlt
  have hb := h.basis_eq he i _ hi.lower hi.upper hg
  have hg' : ({ withFloatBasis S s with state := .constructing } : MSpline K X).segs[i]? = some { s.segs[i] with
      basis := some (localM S s.order ((s.keys.drop (i + 1 - s.order)).take (2 * s.order))) } := by
    show (withFloatBasis S s).segs[i]? = _
    unfold withFloatBasis
    simp only [List.getElem?_mapIdx, hg, Option.map_some, hb]
  have := MSpline.segAt_eq (mwf_float S h) hg'
  have ek : ({ withFloatBasis S s with state := .constructing } : MSpline K X).keys = s.keys := keys_float S s
  rw [ek] at this
  exact ⟨_, this, rfl⟩

theorem readVertices_state (s : MSpline K X) (c : SplineState) : ∀ (n : ℕ) (it : Iter K),
    ({ s with state := c } : MSpline K X).readVertices n it = s.readVertices n it
  | 0, _ => rfl
  | n + 1, it => by
    unfold MSpline.readVertices
    simp only [readVertices_state s c n]
    rfl

theorem readVerticesBack_state [AddCommGroup X] [Module K X] (s : MSpline K X) (c : SplineState) : ∀ (n : ℕ) (it : Iter K),
    ({ s with state := c } : MSpline K X).readVerticesBack n it = s.readVerticesBack n it
  | 0, _ => rfl
  | 1, _ => rfl
  | n + 2, it => by
    unfold MSpline.readVerticesBack
    simp only [readVerticesBack_state s c (n + 1)]
    rfl

theorem readVertices_float (S : Summation R) {s : MSpline K X} (h : s.MWF) (n i : ℕ) (hi : i + n ≤ s.segs.length) :
    (withFloatBasis S s).readVertices n s.keys[i]? = .ok ((s.verts.drop i).take n) := by
  have ek : ({ withFloatBasis S s with state := .constructing } : MSpline K X).keys = s.keys := keys_float S s
  have ev : ({ withFloatBasis S s with state := .constructing } : MSpline K X).verts = s.verts := verts_float S s
  have := MSpline.readVertices_eq (mwf_float S h) n i (by simpa [withFloatBasis] using hi)
  rw [ek, ev] at this
  rw [← this]
  exact (readVertices_state (withFloatBasis S s) .constructing n _).symm

theorem readVerticesBack_float [AddCommGroup X] [Module K X] (S : Summation R) {s : MSpline K X} (h : s.MWF) (n i : ℕ) (hi : i < s.segs.length)
    (hn : n ≤ i + 1) :
    ∃ vs, (withFloatBasis S s).readVerticesBack n s.keys[i]? = .ok vs ∧ vs.length = n ∧ ∀ j, j < n → vs[j]? = s.verts[i - j]? := by
  have ek : ({ withFloatBasis S s with state := .constructing } : MSpline K X).keys = s.keys := keys_float S s
  have ev : ({ withFloatBasis S s with state := .constructing } : MSpline K X).verts = s.verts := verts_float S s
  have := MSpline.readVerticesBack_eq (mwf_float S h) n i (by simpa [withFloatBasis] using hi) hn
  rw [ek, ev] at this
  rw [← readVerticesBack_state (withFloatBasis S s) .constructing n]
  exact this

/-- The knots of a manifold spline are floating point numbers. -/
def FloatKeys (R : Rounding K) (s : MSpline K X) : Prop := ∀ x ∈ s.keys, R.IsFloat x

theorem FloatKeys.kn {s : MSpline K X} (hf : R.FloatKeys s) {i : ℕ} (hi : i < s.keys.length) : R.IsFloat (s.kn i) := by
  have e := MSpline.kn_getElem s hi
  exact hf _ (List.mem_of_getElem? e)

/-- The relative position computed for a time. -/
def relOf (R : Rounding K) (s : MSpline K X) (t : K) (i : ℕ) : K := R.div (R.sub t (s.kn i)) (R.sub (s.kn (i + 1)) (s.kn i))

theorem evaluatorAt_float (S : Summation R) {s : MSpline K X} (h : s.MWF) (he : s.state = .evaluable) (hf : R.FloatKeys s) {t : K} {i : ℕ}
    (hi : s.InSeg t i) :
    R.evaluatorAt (withFloatBasis S s) t =
      .ok ⟨s.keys[i]?, s.keys[i + 1 - s.order]?, s.keys[i + 1]?, R.sub (s.kn (i + 1)) (s.kn i), R.relOf s t i⟩ := by
  have h1 := hi.lower
  have h2 := hi.upper
  have h3 := h.order_pos
  have hd := h.nodup
  have ek := keys_float S s
  obtain ⟨hr1, hr2⟩ := hi.range h
  obtain ⟨i', hi', hit⟩ := MSpline.getSegmentIterator_ok h he t hr1 hr2
  obtain rfl := hi.unique h hi'
  have hit' : (withFloatBasis S s).getSegmentIterator t = .ok s.keys[i]? := by
    rw [← hit]
    unfold MSpline.getSegmentIterator
    rw [ek]
    rfl
  unfold Rounding.evaluatorAt
  rw [show (withFloatBasis S s).state = .evaluable from he]
  simp only []
  rw [hit', Outcome.bind_ok]
  unfold MSpline.firstRelevantByLast MSpline.absBegin
  rw [ek, show (withFloatBasis S s).order = s.order from rfl]
  rw [show -((s.order : ℤ) - 1) = -((s.order - 1 : ℕ) : ℤ) by omega, moveIter_bwd hd (Nat.zero_le _) (by omega),
    Outcome.bind_ok]
  have hm := moveIter_fwd hd le_rfl (show i ≤ s.keys.length by omega) 1
  rw [← at_end, Nat.cast_one] at hm
  have hlen : R.segmentLength (withFloatBasis S s) s.keys[i]? = .ok (R.sub (s.kn (i + 1)) (s.kn i)) := by
    unfold Rounding.segmentLength
    rw [ek, MSpline.kn_getElem s (show i < s.keys.length by omega)]
    simp only []
    rw [← MSpline.kn_getElem s (by omega), hm, Outcome.bind_ok, show min (i + 1) s.keys.length = i + 1 by omega,
      MSpline.kn_getElem s (show i + 1 < s.keys.length by omega)]
  rw [hm, Outcome.bind_ok, hlen, Outcome.bind_ok]
  rw [MSpline.kn_getElem s (show i < s.keys.length by omega)]
  simp only []
  have hp := R.sub_pos' (hf.kn (show i < s.keys.length by omega)) (hf.kn (show i + 1 < s.keys.length by omega)) (hi.lt h)
  rw [if_neg (ne_of_gt hp)]
  rw [← MSpline.kn_getElem s (show i < s.keys.length by omega)]
  unfold relOf
  congr 2
  · congr 1; omega
  · congr 1; omega

theorem evalU_computeU (P : Power R) (kn : ℕ → K) (k i der : ℕ) (rel : K) :
    evalU P k (R.sub (kn (i + 1)) (kn i)) rel der = Rounding.computeU P kn k rel i der := by
  funext j
  unfold evalU Rounding.computeU
  dsimp only
  by_cases h : 0 < R.sub (kn (i + 1)) (kn i)
  · rw [if_pos h, if_pos h]
  · rw [if_neg h, if_neg h]
    split
    · unfold Rounding.mul
      simp [R.rnd_zero]
    · rfl

theorem goodKnots_manifold {s : MSpline K X} (h : s.MWF) (hf : R.FloatKeys s) {t : K} {i : ℕ} (hi : s.InSeg t i) : GoodKnots R s.kn i s.order := by
  have h2 := hi.upper
  exact ⟨fun a b hab hb => h.mono a b hab (by omega), fun a ha => hf.kn (by omega), hi.lt h, hi.lower⟩

/-- The basis matrix, computed from the knots around the segment. -/
theorem localM_near (S : Summation R) {s : MSpline K X} (h : s.MWF) (hf : R.FloatKeys s) {t : K} {i p : ℕ} (hi : s.InSeg t i)
    (hp : s.order = p + 1) (r c : ℕ) :
    R.IsFloat (localM S s.order ((s.keys.drop (i + 1 - s.order)).take (2 * s.order)) r c) ∧
      Near (8 * p) (localM S s.order ((s.keys.drop (i + 1 - s.order)).take (2 * s.order)) r c) (Verif.basisM s.kn i s.order r c)
        ((p.choose r * p.choose c : ℕ) : K) := by
  have g := goodKnots_manifold h hf hi
  have h1 := hi.lower
  have h2 := hi.upper
  have e : ∀ j, j < 2 * s.order → ((s.keys.drop (i + 1 - s.order)).take (2 * s.order)).getD j 0 = s.kn (i + 1 - s.order + j) := by
    intro j hj
    rw [MSpline.kn_eq_knOf]
    simp [knOf, List.getD_eq_getElem?_getD, hj]
  have gw : GoodKnots R (fun j => ((s.keys.drop (i + 1 - s.order)).take (2 * s.order)).getD j 0) p (p + 1) := by
    refine ⟨fun a b hab hb => ?_, fun a ha => ?_, ?_, le_rfl⟩
    · rw [e a (by omega), e b (by omega)]
      exact g.mono _ _ (by omega) (by omega)
    · rw [e a (by omega)]
      exact g.float _ (by omega)
    · rw [e p (by omega), e (p + 1) (by omega), show i + 1 - s.order + p = i by omega, show i + 1 - s.order + (p + 1) = i + 1 by omega]
      exact g.pos
  have el := MSpline.localM_eq s.keys s.order i h1 h2
  rw [← MSpline.kn_eq_knOf] at el
  rw [← el]
  unfold localM MSpline.localM
  have := C89_basis S gw r c
  rw [show s.order - 1 = p by omega]
  rw [show basisM S (fun j => ((s.keys.drop (i + 1 - s.order)).take (2 * s.order)).getD j 0) p s.order =
    basisM S (fun j => ((s.keys.drop (i + 1 - s.order)).take (2 * s.order)).getD j 0) p (p + 1) by rw [← hp]]
  rw [show Verif.basisM (fun j => ((s.keys.drop (i + 1 - s.order)).take (2 * s.order)).getD j 0) p s.order =
    Verif.basisM (fun j => ((s.keys.drop (i + 1 - s.order)).take (2 * s.order)).getD j 0) p (p + 1) by rw [← hp]]
  exact this

/-! ### Weights -/

/-- What underflow is excluded by: neither the power of the segment width nor its reciprocal is below the normal numbers. -/
structure NormalWidth (R : Rounding K) (s : MSpline K X) (i der : ℕ) : Prop where
  low : 1 / 2 ^ 1022 ≤ R.sub (s.kn (i + 1)) (s.kn i) ^ der
  high : 1 / 2 ^ 1022 ≤ 1 / (s.kn (i + 1) - s.kn i) ^ der

theorem normalWidth_zero (s : MSpline K X) (i : ℕ) : NormalWidth R s i 0 := by
  have hone : (1 : K) / 2 ^ 1022 ≤ 1 := by
    rw [div_le_one (by positivity)]
    exact one_le_pow₀ (by norm_num)
  exact ⟨by simpa using hone, by simpa using hone⟩

theorem weights_near (S : Summation R) (P : Power R) {s : MSpline K X} (h : s.MWF) (he : s.state = .evaluable) (hf : R.FloatKeys s) {t : K}
    (ht : R.IsFloat t) {i p : ℕ} (hi : s.InSeg t i) (hp : s.order = p + 1) (hp1 : 1 ≤ p) (der : ℕ) (hw : NormalWidth R s i der) :
    ∃ e w, R.evaluatorAt (withFloatBasis S s) t = .ok e ∧ e.ti = s.keys[i]? ∧ e.firstIt = s.keys[i + 1 - s.order]? ∧
      localBi S P (withFloatBasis S s) e der = .ok w ∧ ∀ c, c < s.order → R.IsFloat (w c) ∧
        Near (13 * p + 7) (w c) ((Polynomial.derivative^[der] (piece s.kn i p (i - p + c))).eval t)
          (2 ^ p * (p.choose c : K) * (1 / (s.kn (i + 1) - s.kn i) ^ der * (p.descFactorial der : ℕ))) := by
  have h1 := hi.lower
  have h2 := hi.upper
  have g := goodKnots_manifold h hf hi
  have hlt := hi.lt h
  obtain ⟨G, hG, hGb⟩ := segAt_float S h he hi
  refine ⟨_, transposeMul S s.order (localM S s.order ((s.keys.drop (i + 1 - s.order)).take (2 * s.order)))
    (Rounding.computeU P s.kn s.order (R.relOf s t i) i der), evaluatorAt_float S h he hf hi, rfl, rfl, ?_, ?_⟩
  · unfold localBi
    dsimp only
    rw [hG, Outcome.bind_ok, hGb, ← evalU_computeU]
    rfl
  intro c hc
  obtain ⟨-, -, -, qn⟩ := quotient (R := R) ht (g.float i (by omega)) (g.float (i + 1) (by omega)) (g.float i (by omega)) hi.left hlt
    (by linarith [hi.right_le])
  have nu := fun r hr => computeU_near P g (by omega) qn der hw.low hw.high r hr
  have nB := localM_near S h hf hi hp
  set B := localM S s.order ((s.keys.drop (i + 1 - s.order)).take (2 * s.order)) with hB
  set uh := Rounding.computeU P s.kn s.order (R.relOf s t i) i der with huh
  set ue := Verif.computeU s.kn s.order ((t - s.kn i) / (s.kn (i + 1) - s.kn i)) i der with hue
  set μ := 1 / (s.kn (i + 1) - s.kn i) ^ der with hμ
  have fl : ∀ r ∈ List.range s.order, R.IsFloat (R.mul (B r c) (uh r)) := fun r _ => R.idem _
  refine ⟨(S.tree _).float ?_, ?_⟩
  · intro a ha
    rw [Multiset.mem_coe, List.mem_map] at ha
    obtain ⟨r, hr, rfl⟩ := ha
    exact fl r hr
  · have n := Near.sum S (List.range s.order) (fun r => R.mul (B r c) (uh r))
      (fun r => Verif.basisM s.kn i s.order r c * ue r) (fun r => ((p.choose r * p.choose c : ℕ) : K) * (μ * (p.descFactorial der : ℕ)))
      (8 * p + (4 * p + 6) + 1) p fl
      (by
        intro r hr
        have n2 := (nu r (List.mem_range.1 hr)).2
        rw [show s.order - 1 = p by omega] at n2
        refine (nB r c).2.mul n2 ?_
        rw [show ((p.choose r * p.choose c : ℕ) : K) * (μ * (p.descFactorial der : ℕ)) =
          μ * ((p.choose r * p.choose c * p.descFactorial der : ℕ) : K) by push_cast; ring]
        exact normal_mul_nat hw.high _)
      (countP_le_length' _ _ (by simp; omega))
    rw [list_sum_range, list_sum_range] at n
    have ew : ∑ r ∈ range s.order, Verif.basisM s.kn i s.order r c * ue r =
        (Polynomial.derivative^[der] (piece s.kn i p (i - p + c))).eval t := by
      have := weight_eq_piece s.kn s.keys.length i p der c h.mono hlt (by omega) (by omega) (by omega) t
      rw [← hp] at this
      exact this
    rw [ew] at n
    unfold transposeMul
    refine n.mono (by omega) (le_of_eq ?_)
    rw [← sum_mul, hp]
    congr 1
    push_cast
    rw [← sum_mul, sum_choose]

/-! ### Euclidean splines -/

/-- The first number, then the others added to it one by one. -/
def Summation.fromFirst (R : Rounding K) : Summation R where
  sum l := match l with
    | [] => 0
    | a :: l => l.foldl R.add a
  tree l := by
    rcases l with _ | ⟨a, l⟩
    · exact SumTree.nil
    · have := SumTree.foldl (R := R) l {a} a (SumTree.single a)
      rw [Multiset.singleton_add, Multiset.cons_coe] at this
      exact this

/-- The first number added to the sum of the others. -/
def Summation.firstLast (R : Rounding K) : Summation R where
  sum l := match l with
    | [] => 0
    | a :: l => R.add a (l.foldl R.add 0)
  tree l := by
    rcases l with _ | ⟨a, l⟩
    · exact SumTree.nil
    · have := (SumTree.single (R := R) a).add (SumTree.foldl (R := R) l 0 0 SumTree.nil)
      rw [zero_add, Multiset.singleton_add, Multiset.cons_coe] at this
      exact this

/-- **C107**: values and derivatives of a Euclidean spline.  The evaluator's answer in floating point differs in every coordinate from the exact
one by no more than the error of `14 (order - 1) + 8` operations on numbers of the magnitude of the control vertices in use. -/
theorem C107_euclidean {D : ℕ} (S : Summation R) (P : Power R) {s : MSpline K (Fin D → K)} {order : ℕ} (ho : 2 ≤ order)
    (h : RegularReach (euclidean K (Fin D → K)) order s) (he : s.state = .evaluable) (hf : R.FloatKeys s) {t : K} (ht : R.IsFloat t) {i : ℕ} (hi : s.InSeg t i)
    (der : ℕ) (hd : der < order) (hw : NormalWidth R s i der) (C : K) (hC : 1 / 2 ^ 1022 ≤ C / (s.kn (i + 1) - s.kn i) ^ der)
    (hc : ∀ j, i + 1 ≤ j + order → j ≤ i → ∀ v, s.verts[j]? = some v → ∀ d, |v d| ≤ C) :
    ∃ v v', s.euclideanEvalD none t der = .ok v ∧ euclideanEvalD S P (withFloatBasis S s) t der = .ok v' ∧
      ∀ d, |v' d - v d| ≤ (grow ^ operations order - 1) * magnitude order der (s.kn (i + 1) - s.kn i) C := by
  obtain ⟨hm, hord⟩ := h.mwf (by omega)
  subst hord
  obtain ⟨p, hp⟩ : ∃ p, s.order = p + 1 := ⟨s.order - 1, by omega⟩
  have h1 := hi.lower
  have h2 := hi.upper
  rw [MSpline.keys_length] at h2
  have hlt := hi.lt hm
  obtain ⟨e, w, e1, e2, -, e4, e5⟩ := weights_near S P hm he hf ht hi hp (by omega) der hw
  obtain ⟨vs, r1, r2, r3⟩ := readVerticesBack_float S hm s.order i (by omega) h1
  refine ⟨_, fun d => (Summation.fromFirst R).sum ((List.range s.order).map fun j => R.mul (w (s.order - 1 - j)) (vs.getD j 0 d)),
    MSpline.euclideanEvalD_eq hm he hi none der (by simp), ?_, ?_⟩
  · unfold euclideanEvalD
    rw [e1, Outcome.bind_ok, if_pos (show der < (withFloatBasis S s).order from hd), e4, Outcome.bind_ok, e2]
    unfold Rounding.linCombLast
    rw [show (withFloatBasis S s).order = s.order from rfl, r1, Outcome.bind_ok]
    congr 1
    funext d
    rw [hp, List.range_succ_eq_map, List.map_cons, List.map_map]
    show _ = List.foldl R.add _ _
    rw [List.foldl_map]
    rfl
  intro d
  set μ := 1 / (s.kn (i + 1) - s.kn i) ^ der with hμ
  set F := p.descFactorial der with hF
  have hΔ : 0 < s.kn (i + 1) - s.kn i := by linarith
  have hC0 : 0 ≤ C := by
    have a1 : (0 : K) < C / (s.kn (i + 1) - s.kn i) ^ der := lt_of_lt_of_le (by positivity) hC
    have a2 : 0 < (s.kn (i + 1) - s.kn i) ^ der := by positivity
    by_contra hneg
    have := div_neg_of_neg_of_pos (not_le.1 hneg) a2
    linarith
  have hvert : ∀ j, j < s.order → |vs.getD j 0 d| ≤ C ∧ vs.getD j 0 d = s.vert (i - j) d := by
    intro j hj
    have a1 := r3 j hj
    have a2 : i - j < s.verts.length := by simp [MSpline.verts]; omega
    have a3 := List.getElem?_eq_getElem a2
    rw [a3] at a1
    unfold MSpline.vert
    rw [List.getD_eq_getElem?_getD, List.getD_eq_getElem?_getD, a1, a3]
    exact ⟨hc (i - j) (by omega) (by omega) _ a3 d, rfl⟩
  have n := Near.sum (Summation.fromFirst R) (List.range s.order)
    (fun j => R.mul (w (s.order - 1 - j)) (vs.getD j 0 d))
    (fun j => (Polynomial.derivative^[der] (piece s.kn i p (i - p + (s.order - 1 - j)))).eval t * vs.getD j 0 d)
    (fun j => 2 ^ p * (p.choose (s.order - 1 - j) : K) * (μ * F) * C) (13 * p + 7 + 0 + 1) p (fun r _ => R.idem _)
    (by
      intro j hj
      have hj := List.mem_range.1 hj
      refine (e5 (s.order - 1 - j) (by omega)).2.mul (Near.exact (hvert j hj).1) ?_
      rw [show 2 ^ p * (p.choose (s.order - 1 - j) : K) * (μ * F) * C =
        C / (s.kn (i + 1) - s.kn i) ^ der * ((2 ^ p * p.choose (s.order - 1 - j) * F : ℕ) : K) by rw [hμ]; push_cast; ring]
      exact normal_mul_nat hC _)
    (countP_le_length' _ _ (by simp; omega))
  rw [list_sum_range, list_sum_range] at n
  have ev : s.segSum i der t d = ∑ j ∈ range s.order,
      (Polynomial.derivative^[der] (piece s.kn i p (i - p + (s.order - 1 - j)))).eval t * vs.getD j 0 d := by
    rw [← MSpline.segSum_local hm h1 hi.upper der t, ← sum_range_reflect, Finset.sum_apply]
    refine sum_congr rfl fun j hj => ?_
    have hj := mem_range.1 hj
    rw [(hvert j hj).2, Pi.smul_apply, smul_eq_mul, show s.order - 1 = p by omega, show i + 1 - s.order = i - p by omega,
      show i - p + (p - j) = i - j by omega]
  have em : ∑ j ∈ range s.order, 2 ^ p * (p.choose (s.order - 1 - j) : K) * (μ * F) * C =
      magnitude s.order der (s.kn (i + 1) - s.kn i) C := by
    rw [sum_range_reflect (fun c => 2 ^ p * (p.choose c : K) * (μ * F) * C) s.order, ← sum_mul, ← sum_mul, ← mul_sum, hp, sum_choose]
    unfold magnitude
    rw [Nat.add_sub_cancel, ← hF, hμ, show (4 : K) ^ p = 2 ^ p * 2 ^ p by rw [← mul_pow]; norm_num]
    ring
  rw [← ev, em] at n
  exact (n.mono (show _ ≤ operations s.order by unfold operations; omega) le_rfl).2

/-- **C107**: values of a cubic Euclidean spline are those of the curve to within `10 ^ -12` of the magnitude of the four control vertices in
use. -/
theorem C107_euclidean_cubic {D : ℕ} (S : Summation R) (P : Power R) {s : MSpline K (Fin D → K)}
    (h : RegularReach (euclidean K (Fin D → K)) 4 s) (he : s.state = .evaluable) (hf : R.FloatKeys s) {t : K} (ht : R.IsFloat t) {i : ℕ} (hi : s.InSeg t i)
    (C : K) (hC : 1 / 2 ^ 1022 ≤ C) (hc : ∀ j, i ≤ j + 3 → j ≤ i → ∀ v, s.verts[j]? = some v → ∀ d, |v d| ≤ C) :
    ∃ v v', s.euclideanEvalD none t 0 = .ok v ∧ euclideanEvalD S P (withFloatBasis S s) t 0 = .ok v' ∧ ∀ d, |v' d - v d| ≤ 1 / 10 ^ 12 * C := by
  obtain ⟨v, v', e1, e2, b⟩ := C107_euclidean S P (by omega) h he hf ht hi 0 (by omega) (normalWidth_zero s i) C (by simpa using hC)
    fun j h1 h2 => hc j (by omega) h2
  refine ⟨v, v', e1, e2, fun d => (b d).trans ?_⟩
  have hCp : 0 ≤ C := by
    have : (0 : K) < 1 / 2 ^ 1022 := by positivity
    linarith
  unfold magnitude operations
  have : ((grow : K) ^ 50 - 1) * 64 ≤ 1 / 10 ^ 12 := by unfold grow; norm_num
  have := mul_le_mul_of_nonneg_right this hCp
  simp only [Nat.descFactorial_zero, Nat.cast_one, mul_one, pow_zero, div_one]
  norm_num at this ⊢
  linarith

/-! ### Cumulative weights -/

/-- **C107**: the cumulative weights of the generic evaluation. -/
theorem C107_weights (S : Summation R) (P : Power R) (M : Mfd K X V) {s : MSpline K X} {order : ℕ} (ho : 2 ≤ order) (h : RegularReach M order s)
    (he : s.state = .evaluable) (hf : R.FloatKeys s) {t : K} (ht : R.IsFloat t) {i : ℕ} (hi : s.InSeg t i) :
    ∃ e e' w w', s.evaluatorAt t = .ok e ∧ s.localCumulativeBi e 0 = .ok w ∧ R.evaluatorAt (withFloatBasis S s) t = .ok e' ∧
      e'.firstIt = e.firstIt ∧ localCumulativeBi S P (withFloatBasis S s) e' 0 = .ok w' ∧
      ∀ c, c < order → (0 ≤ w c ∧ w c ≤ 1) ∧ R.IsFloat (w' c) ∧ |w' c - w c| ≤ (grow ^ operations order - 1) * 4 ^ (order - 1) := by
  obtain ⟨hm, hord⟩ := h.mwf (by omega)
  subst hord
  obtain ⟨p, hp⟩ : ∃ p, s.order = p + 1 := ⟨s.order - 1, by omega⟩
  have h1 := hi.lower
  have h2 := hi.upper
  obtain ⟨e', b', e1, -, e3, e4, e5⟩ := weights_near S P hm he hf ht hi hp (by omega) 0 (normalWidth_zero s i)
  obtain ⟨b, hb, hbc⟩ := MSpline.localBi_eq hm he hi 0
  refine ⟨s.evaluatorOf t i, e', MSpline.cumulativeOf s.order b 0, R.cumulativeOf s.order b' 0, MSpline.evaluatorAt_eq hm he hi, ?_, e1,
    by rw [e3]; rfl, ?_, ?_⟩
  · unfold MSpline.localCumulativeBi
    rw [hb, Outcome.map_ok]
  · unfold localCumulativeBi
    rw [e4, Outcome.map_ok]
    rfl
  intro c hc
  have hlt := hi.lt hm
  have hp' : s.order - 1 = p := by omega
  have hip : i + 1 - s.order = i - p := by omega
  rw [hp', hip] at hbc
  simp only [Function.iterate_zero, id_eq] at hbc e5
  have hnn : ∀ j, j < s.order → 0 ≤ b j := by
    intro j hj
    rw [hbc j hj]
    exact piece_nonneg s.kn s.keys.length i hm.mono t hi.left hi.right_le p _ (by omega)
  have hsum : ∑ j ∈ range s.order, b j = 1 := by
    have := piece_sum_one s.kn s.keys.length i hm.mono hlt p (by omega) (by omega)
    have h3 := congrArg (Polynomial.eval t) this
    rw [Polynomial.eval_finsetSum, Polynomial.eval_one] at h3
    rw [← h3, sum_Ico_eq_sum_range, show i + 1 - (i - p) = s.order by omega]
    exact sum_congr rfl fun j hj => hbc j (mem_range.1 hj)
  have hg := one_le_grow_pow (K := K) (operations s.order)
  rcases Nat.eq_zero_or_pos c with rfl | hc0
  · have a1 : MSpline.cumulativeOf s.order b 0 0 = 1 := by simp [MSpline.cumulativeOf]
    have a2 : R.cumulativeOf s.order b' 0 0 = 1 := by simp [Rounding.cumulativeOf]
    rw [a1, a2, sub_self, abs_zero]
    exact ⟨⟨zero_le_one, le_rfl⟩, R.rnd_one, mul_nonneg (by linarith) (by positivity)⟩
  have a1 := MSpline.cumulativeOf_eq s.order b 0 (show c ≠ 0 by omega) hc
  have hsub : Ico c s.order ⊆ range s.order := fun x hx => mem_range.2 (mem_Ico.1 hx).2
  refine ⟨⟨?_, ?_⟩, ?_, ?_⟩
  · rw [a1]
    exact sum_nonneg fun j hj => hnn j (mem_Ico.1 hj).2
  · rw [a1, ← hsum]
    exact sum_le_sum_of_subset_of_nonneg hsub fun j hj _ => hnn j (mem_range.1 hj)
  · unfold Rounding.cumulativeOf
    rw [if_neg (by omega)]
    exact R.idem _
  · set f : ℕ → ℕ := fun j => if j = 0 then c else s.order - j with hfd
    have ef : R.cumulativeOf s.order b' 0 c = (Summation.firstLast R).sum ((List.range (s.order - c)).map fun j => b' (f j)) := by
      unfold Rounding.cumulativeOf
      rw [if_neg (by omega), show s.order - c = s.order - 1 - c + 1 by omega, List.range_succ_eq_map, List.map_cons, List.map_map]
      show R.add (b' c) _ = R.add _ _
      have : (fun j => b' (s.order - 1 - j)) = (fun j => b' (f j)) ∘ Nat.succ := by
        funext j
        simp only [Function.comp, hfd]
        rw [if_neg (by omega)]
        congr 1; omega
      rw [this]
      simp [hfd]
    have fin : ∀ j ∈ List.range (s.order - c), f j < s.order := by
      intro j hj
      have := List.mem_range.1 hj
      simp only [hfd]
      split <;> omega
    have n := Near.sum (Summation.firstLast R) (List.range (s.order - c)) (fun j => b' (f j)) (fun j => b (f j))
      (fun j => 2 ^ p * (p.choose (f j) : K)) (13 * p + 7) p (fun j hj => (e5 (f j) (fin j hj)).1)
      (by
        intro j hj
        have := (e5 (f j) (fin j hj)).2
        rw [← hbc (f j) (fin j hj)] at this
        refine this.mono le_rfl (le_of_eq ?_)
        simp)
      (countP_le_length' _ _ (by simp; omega))
    rw [← ef, list_sum_range, list_sum_range] at n
    have re : ∀ g : ℕ → K, ∑ j ∈ range (s.order - c), g (f j) = ∑ j ∈ Ico c s.order, g j := by
      intro g
      rw [show s.order - c = s.order - 1 - c + 1 by omega, sum_range_succ']
      have e0 : f 0 = c := by simp [hfd]
      have e1 : ∑ j ∈ range (s.order - 1 - c), g (f (j + 1)) = ∑ j ∈ range (s.order - 1 - c), g (c + 1 + j) := by
        rw [← sum_range_reflect (fun j => g (c + 1 + j))]
        refine sum_congr rfl fun j hj => ?_
        have := mem_range.1 hj
        simp only [hfd]
        rw [if_neg (by omega)]
        congr 1; omega
      rw [e0, e1, sum_eq_sum_Ico_succ_bot hc, add_comm, sum_Ico_eq_sum_range (fun j => g j) (c + 1),
        show s.order - (c + 1) = s.order - 1 - c by omega]
    rw [re b, ← a1] at n
    have n' := (n.mono (show _ ≤ operations s.order by unfold operations; omega) (Y := 4 ^ (s.order - 1)) (by
      rw [re fun j => 2 ^ p * (p.choose j : K), hp']
      have : ∑ j ∈ Ico c s.order, 2 ^ p * (p.choose j : K) ≤ ∑ j ∈ range s.order, 2 ^ p * (p.choose j : K) :=
        sum_le_sum_of_subset_of_nonneg hsub fun j _ _ => by positivity
      refine this.trans (le_of_eq ?_)
      rw [← mul_sum, hp, sum_choose, ← mul_pow]
      norm_num)).2
    exact n'

end Rounding

end Verif
