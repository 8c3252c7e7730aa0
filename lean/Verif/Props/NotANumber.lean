import Verif.Model.NotANumber
import Verif.Lemmas.Weights
import Verif.Lemmas.Evaluator
import Verif.Props.LeastSquares
import Verif.Props.ManifoldUpdate

/-!
# Property C80: times that are infinite or not a number

Every function of a time either answers for a number inside the interval or throws.  With assertions that throw unless the condition is
true this holds for every `double`.  With assertions that throw if the opposite is true, "not a number" passes all of them.
-/

set_option linter.unusedSectionVars false

namespace Verif

variable {K : Type*} [Field K] [LinearOrder K] [IsStrictOrderedRing K]

namespace Flt

@[simp] theorem lt_fin (a b : K) : lt (fin a) (fin b) = decide (a < b) := rfl
@[simp] theorem eq_fin (a b : K) : eq (fin a) (fin b) = decide (a = b) := rfl
@[simp] theorem lt_nan (a : Flt K) : lt a nan = false := by cases a <;> rfl
@[simp] theorem nan_lt (a : Flt K) : lt nan a = false := rfl
@[simp] theorem eq_nan (a : Flt K) : eq a nan = false := by cases a <;> rfl
@[simp] theorem nan_eq (a : Flt K) : eq nan a = false := rfl
@[simp] theorem le_nan (a : Flt K) : le a nan = false := by simp [le]
@[simp] theorem nan_le (a : Flt K) : le nan a = false := by simp [le]
@[simp] theorem add_nan (a : Flt K) : add a nan = nan := by cases a <;> rfl
@[simp] theorem nan_add (a : Flt K) : add nan a = nan := rfl
@[simp] theorem sub_nan (a : Flt K) : sub a nan = nan := by simp [sub, neg]
@[simp] theorem nan_sub (a : Flt K) : sub nan a = nan := rfl
@[simp] theorem abs_nan : abs (nan : Flt K) = nan := rfl
@[simp] theorem scale_nan (c : K) : scale c nan = nan := rfl
@[simp] theorem sub_fin (a b : K) : sub (fin a) (fin b) = fin (a - b) := by simp [sub, neg, add, sub_eq_add_neg]
@[simp] theorem abs_fin (a : K) : abs (fin a) = fin |a| := rfl
@[simp] theorem add_fin (a b : K) : add (fin a) (fin b) = fin (a + b) := rfl
@[simp] theorem scale_fin (c a : K) : scale c (fin a) = fin (c * a) := rfl

theorem le_fin (a b : K) : le (fin a) (fin b) = decide (a ≤ b) := by
  simp only [le, lt_fin, eq_fin]
  rcases lt_trichotomy a b with h | h | h
  · simp [h, h.le]
  · simp [h]
  · simp [not_lt.2 h.le, h.ne', not_le.2 h]

end Flt

theorem Check.le_fin (c : Check) (a b : K) : c.le (.fin a) (.fin b) = decide (a ≤ b) := by
  cases c
  · simp [Check.le, ← not_lt]
  · simp [Check.le, Flt.le_fin]

theorem Check.gt_fin (c : Check) (a b : K) : c.gt (.fin a) (.fin b) = decide (b < a) := by
  cases c
  · simp [Check.gt, Flt.le_fin, ← not_le]
  · simp [Check.gt]

/-- "Not a number" passes assertions of the one kind and fails those of the other. -/
theorem Check.le_nan (c : Check) (a : Flt K) : c.le a .nan = decide (c = .refuted) ∧ c.le .nan a = decide (c = .refuted) := by
  cases c <;> simp [Check.le]

theorem Check.le_nan_right (c : Check) (a : Flt K) : c.le a .nan = decide (c = .refuted) := (Check.le_nan c a).1

theorem Check.nan_le_left (c : Check) (a : Flt K) : c.le .nan a = decide (c = .refuted) := (Check.le_nan c a).2

namespace BSpline

variable {D : ℕ}

theorem findIdx_map_fin (l : List K) (t : K) :
    ((l.map Flt.fin).findIdx fun x => Flt.lt (Flt.fin t) x) = upperBound l t := by
  rw [List.findIdx_map]
  rfl

theorem upperBoundF_fin (l : List K) (hs : l.Pairwise (· ≤ ·)) (t : K) :
    upperBoundF (l.map Flt.fin) (Flt.fin t) = .ok (upperBound l t) := by
  unfold upperBoundF
  dsimp only
  rw [findIdx_map_fin, if_pos]
  rw [List.all_eq_true]
  intro x hx
  rw [← List.map_drop, List.mem_map] at hx
  obtain ⟨y, hy, rfl⟩ := hx
  rw [Flt.lt_fin, decide_eq_true_eq]
  obtain ⟨j, hj, rfl⟩ := List.mem_iff_getElem.1 hy
  rw [List.length_drop] at hj
  rw [List.getElem_drop]
  have hu : upperBound l t < l.length := by omega
  have h0 : t < l[upperBound l t] := by
    have := List.findIdx_getElem (p := fun x => decide (t < x)) (xs := l) (w := hu)
    rw [decide_eq_true_eq] at this
    exact this
  rcases Nat.eq_zero_or_pos j with rfl | hp
  · exact h0
  · exact h0.trans_le (List.pairwise_iff_getElem.1 hs _ _ hu (by omega) (by omega))

theorem computeTIndexF_fin (c : Check) (s : BSpline K D) (hs : s.knots.Pairwise (· ≤ ·)) (ho : 1 ≤ s.order) (t : K) :
    computeTIndexF c s.order (s.knots.map Flt.fin) (Flt.fin t) = (s.computeTIndex t).map fun r => (Flt.fin r.1, r.2) := by
  unfold computeTIndexF computeTIndex tMin tMax
  rw [List.length_map]
  by_cases hl : s.knots.length < minimumKnotsRequired s.order
  · rw [if_pos hl, if_pos hl]
    rfl
  rw [if_neg hl, if_neg hl, if_neg hl]
  have hm : s.order < s.knots.length ∧ s.order - 1 < s.knots.length := by
    unfold minimumKnotsRequired numKnotsRequired numCoefficientsRequired at hl
    omega
  have e1 : (s.knots.map Flt.fin)[s.order - 1]? = some (Flt.fin (s.kn (s.order - 1))) := by
    rw [List.getElem?_map, List.getElem?_eq_getElem hm.2]
    simp [kn, List.getD_eq_getElem?_getD, List.getElem?_eq_getElem hm.2]
  have e2 : (s.knots.map Flt.fin)[s.knots.length - s.order]? = some (Flt.fin (s.kn (s.knots.length - s.order))) := by
    have h2 : s.knots.length - s.order < s.knots.length := by omega
    rw [List.getElem?_map, List.getElem?_eq_getElem h2]
    simp [kn, List.getD_eq_getElem?_getD, List.getElem?_eq_getElem h2]
  rw [e1, e2]
  simp only [Outcome.bind_ok, Check.le_fin, Flt.sub_fin, Flt.abs_fin, Flt.lt_fin]
  by_cases h1 : t < s.kn (s.order - 1)
  · rw [if_pos h1, if_pos (by simpa using h1)]
    rfl
  rw [if_neg h1, if_neg (by simpa using h1)]
  have e3 : (if decide (|s.kn (s.knots.length - s.order) - t| < snapTol) = true then Flt.fin (s.kn (s.knots.length - s.order)) else Flt.fin t) =
      Flt.fin (if |s.kn (s.knots.length - s.order) - t| < snapTol then s.kn (s.knots.length - s.order) else t) := by
    split_ifs <;> simp_all
  rw [e3]
  generalize (if |s.kn (s.knots.length - s.order) - t| < snapTol then s.kn (s.knots.length - s.order) else t) = t'
  rw [Check.le_fin, Flt.eq_fin, upperBoundF_fin _ hs]
  by_cases h2 : s.kn (s.knots.length - s.order) < t'
  · rw [if_pos h2, if_pos (by simpa using h2)]
    rfl
  rw [if_neg h2, if_neg (by simpa using h2)]
  have e4 : (if decide (t' = s.kn (s.knots.length - s.order)) = true then Outcome.ok (s.knots.length - s.order)
      else .ok (upperBound s.knots t')) = Outcome.ok (if t' = s.kn (s.knots.length - s.order) then s.knots.length - s.order
        else upperBound s.knots t') := by
    split_ifs <;> simp_all
  rw [e4]
  generalize (if t' = s.kn (s.knots.length - s.order) then s.knots.length - s.order else upperBound s.knots t') = i
  simp only [Outcome.bind_ok]
  by_cases h3 : i = 0
  · rw [if_pos h3, if_pos h3]
    rfl
  rw [if_neg h3, if_neg h3, List.getElem?_map, List.getElem?_map]
  rcases s.knots[i]? with _ | b
  · rfl
  rcases s.knots[i - 1]? with _ | a
  · rfl
  simp

/-- A lookup of "not a number". -/
theorem computeTIndexF_nan (c : Check) (order : ℕ) (ho : 1 ≤ order) (knots : List (Flt K)) (hn : minimumKnotsRequired order ≤ knots.length) :
    computeTIndexF c order knots .nan = if c = .refuted then .ub else .throws := by
  unfold computeTIndexF
  rw [if_neg (not_lt.2 hn)]
  have hm : order < knots.length ∧ order - 1 < knots.length := by
    unfold minimumKnotsRequired numKnotsRequired numCoefficientsRequired at hn
    omega
  rw [List.getElem?_eq_getElem hm.2, List.getElem?_eq_getElem (show knots.length - order < knots.length by omega)]
  simp only [Flt.sub_nan, Flt.abs_nan, Flt.nan_lt, Flt.nan_eq, Check.le_nan_right, Check.nan_le_left]
  cases c
  · have : upperBoundF knots Flt.nan = .ok knots.length := by
      unfold upperBoundF
      have e : (knots.findIdx fun x => Flt.lt Flt.nan x) = knots.length := by
        rw [List.findIdx_eq_length]
        simp
      dsimp only
      rw [e]
      simp
    simp only [Bool.false_eq_true, ↓reduceIte, decide_true, Bool.not_true, this, Outcome.bind_ok, Flt.nan_eq, Check.nan_le_left]
    have hz : knots.length ≠ 0 := by omega
    rw [if_neg hz, List.getElem?_eq_none (le_refl _)]
  · rfl

/-- A lookup in knots that are not numbers. -/
theorem computeTIndexF_all_nan (c : Check) (order : ℕ) (ho : 1 ≤ order) (n : ℕ) (hn : minimumKnotsRequired order ≤ n) (t : Flt K) :
    computeTIndexF c order (List.replicate n .nan) t = if c = .refuted then .ub else .throws := by
  unfold computeTIndexF
  have hm : order < n ∧ order - 1 < n := by
    unfold minimumKnotsRequired numKnotsRequired numCoefficientsRequired at hn
    omega
  rw [List.length_replicate, if_neg (not_lt.2 hn), List.getElem?_replicate_of_lt hm.2,
    List.getElem?_replicate_of_lt (show n - order < n by omega)]
  simp only [Flt.nan_sub, Flt.abs_nan, Flt.nan_lt, Flt.eq_nan, Check.le_nan_right, Check.nan_le_left]
  cases c
  · have : upperBoundF (List.replicate n Flt.nan) t = .ok n := by
      unfold upperBoundF
      have e : ((List.replicate n Flt.nan).findIdx fun x => Flt.lt t x) = n := by
        have := List.findIdx_eq_length (xs := List.replicate n Flt.nan) (p := fun x => Flt.lt t x)
        rw [List.length_replicate] at this
        rw [this]
        intro x hx
        rw [List.eq_of_mem_replicate hx, Flt.lt_nan]
      dsimp only
      rw [e]
      simp
    simp only [Bool.false_eq_true, ↓reduceIte, decide_true, Bool.not_true, this, Outcome.bind_ok]
    rw [if_neg (by omega), List.getElem?_eq_none (by simp)]
  · rfl

/-! ### Lookup -/

/-- **C80** (numbers): for numbers the lookup is the one all other theorems are about, whatever the assertions. -/
theorem C80_numbers (c : Check) (s : BSpline K D) (h : s.WF) (t : K) :
    computeTIndexF c s.order (s.knots.map Flt.fin) (Flt.fin t) = (s.computeTIndex t).map fun r => (Flt.fin r.1, r.2) :=
  computeTIndexF_fin c s h.sorted (by have := h.order_pos; omega) t

/-- **C80** (arithmetic): the laws of infinities and "not a number" this property relies on.  Negation reverses the order and is its own
inverse, sums commute, a difference of a `double` and itself is zero for numbers only, absolute values are the larger of the two signs,
and a `double` is equal to itself unless it is not a number. -/
theorem C80_arithmetic (a b : Flt K) : a.neg.neg = a ∧ Flt.lt a.neg b.neg = Flt.lt b a ∧ Flt.add a b = Flt.add b a ∧
    (Flt.sub a a = .fin 0 ↔ ∃ x, a = .fin x) ∧ (Flt.sub a a = .nan ↔ ¬ ∃ x, a = .fin x) ∧
    (a.abs = if Flt.lt a.neg a then a else a.neg) ∧ (Flt.eq a a = true ↔ a ≠ .nan) ∧ Flt.scale (-1) a = a.neg ∧
    (Flt.lt a b = true ∨ Flt.eq a b = true ∨ Flt.lt b a = true ↔ a ≠ .nan ∧ b ≠ .nan) := by
  refine ⟨?_, ?_, ?_, ?_, ?_, ?_, ?_, ?_, ?_⟩
  · cases a <;> simp [Flt.neg]
  · cases a <;> cases b <;> simp [Flt.neg, Flt.lt]
  · cases a <;> cases b <;> simp [Flt.add, add_comm]
  · cases a <;> simp [Flt.sub, Flt.neg, Flt.add]
  · cases a <;> simp [Flt.sub, Flt.neg, Flt.add]
  · rcases a with _ | _ | x | _
    · rfl
    · rfl
    · simp only [Flt.abs, Flt.neg, Flt.lt, decide_eq_true_eq]
      split
      · rw [abs_of_pos (by linarith)]
      · rw [abs_of_nonpos (by linarith)]
    · rfl
  · cases a <;> simp [Flt.eq]
  · cases a <;> simp [Flt.scale, Flt.neg]
  · rcases a with _ | _ | x | _ <;> rcases b with _ | _ | y | _ <;> simp [Flt.lt, Flt.eq]
    exact lt_trichotomy x y

/-- Not vacuous: the infinite, a number and "not a number". -/
example : Flt.sub (Flt.posInf : Flt ℚ) .posInf = .nan ∧ Flt.sub (Flt.fin 3 : Flt ℚ) (.fin 3) = .fin 0 ∧
    Flt.lt (.fin 3) (Flt.negInf : Flt ℚ).neg = true := by decide +kernel

/-- **C80** (infinite times): they are rejected like any time outside, whatever the assertions. -/
theorem C80_infinite (c : Check) (s : BSpline K D) (h : s.WF) (t : Flt K) (ht : t = .negInf ∨ t = .posInf) :
    computeTIndexF c s.order (s.knots.map Flt.fin) t = .throws := by
  have hk := h.order_pos
  have hn := h.enough
  unfold computeTIndexF
  rw [List.length_map]
  have hm : ¬ s.knots.length < minimumKnotsRequired s.order := by
    unfold minimumKnotsRequired numKnotsRequired numCoefficientsRequired
    omega
  rw [if_neg hm, List.getElem?_map, List.getElem?_map, List.getElem?_eq_getElem (show s.order - 1 < s.knots.length by omega),
    List.getElem?_eq_getElem (show s.knots.length - s.order < s.knots.length by omega)]
  rcases ht with rfl | rfl <;> cases c <;> rfl

/-- **C80** (partial, see `C80_violated`): if the assertions throw unless their condition is true, then every `double` that is not a
number of the valid interval (up to the tolerance at its end) is rejected and the lookup never has undefined behaviour. -/
theorem C80_lookup_partial (s : BSpline K D) (h : s.WF) (t : Flt K) :
    (∃ x i, t = .fin x ∧ s.kn (s.order - 1) ≤ x ∧ x < s.kn (s.knots.length - s.order) + snapTol ∧
        computeTIndexF .unconfirmed s.order (s.knots.map Flt.fin) t = .ok (.fin (s.kn (i + 1) - s.kn i), i) ∧ s.order - 1 ≤ i ∧
        i + 1 ≤ s.knots.length - s.order) ∨
      computeTIndexF .unconfirmed s.order (s.knots.map Flt.fin) t = .throws := by
  have hk := h.order_pos
  have hn := h.enough
  rcases t with _ | _ | x | _
  · right
    rw [computeTIndexF_nan _ _ (by omega) _ (by
      rw [List.length_map]
      unfold minimumKnotsRequired numKnotsRequired numCoefficientsRequired
      omega)]
    rfl
  · exact Or.inr (C80_infinite _ s h _ (Or.inl rfl))
  · rw [C80_numbers _ s h]
    by_cases h1 : s.kn (s.order - 1) ≤ x ∧ x < s.kn (s.knots.length - s.order) + snapTol
    · obtain ⟨i, e, a, b⟩ := lookup_valid h x h1.1 h1.2
      refine Or.inl ⟨x, i, rfl, h1.1, h1.2, ?_, a, b⟩
      rw [e]
      rfl
    · right
      have : s.computeTIndex x = .throws := by
        unfold computeTIndex
        rw [tMin_eq h, tMax_eq h]
        simp only [Outcome.bind_ok]
        by_cases h2 : s.kn (s.order - 1) ≤ x
        · have h3 : s.kn (s.knots.length - s.order) + snapTol ≤ x := not_lt.1 fun hc => h1 ⟨h2, hc⟩
          have htol : (0 : K) < snapTol := by unfold snapTol; positivity
          have h4 : ¬ |s.kn (s.knots.length - s.order) - x| < snapTol := by
            rw [abs_sub_comm, abs_of_nonneg (by linarith)]
            intro hc
            linarith
          rw [if_neg (not_lt.2 h2), if_neg h4, if_pos (by linarith)]
        · rw [if_pos (not_le.1 h2)]
      rw [this]
      rfl
  · exact Or.inr (C80_infinite _ s h _ (Or.inr rfl))

/-- C80 is violated if the assertions only throw when the opposite is true: looking up "not a number" reads behind the last knot, for
every initialised spline. -/
theorem C80_violated (s : BSpline K D) (h : s.WF) : computeTIndexF .refuted s.order (s.knots.map Flt.fin) .nan = .ub := by
  have hk := h.order_pos
  have hn := h.enough
  rw [computeTIndexF_nan _ _ (by omega) _ (by
    rw [List.length_map]
    unfold minimumKnotsRequired numKnotsRequired numCoefficientsRequired
    omega)]
  rfl

/-- Not vacuous: the example spline, looked up at a number, at both infinities and at "not a number". -/
example : exSpline.WF ∧ computeTIndexF .refuted exSpline.order (exSpline.knots.map Flt.fin) .nan = .ub ∧
    computeTIndexF .unconfirmed exSpline.order (exSpline.knots.map Flt.fin) .nan = .throws ∧
    computeTIndexF .refuted exSpline.order (exSpline.knots.map Flt.fin) .posInf = .throws ∧
    computeTIndexF .refuted exSpline.order (exSpline.knots.map Flt.fin) .negInf = .throws ∧
    (computeTIndexF .refuted exSpline.order (exSpline.knots.map Flt.fin) (.fin 2)).map (·.2) = .ok 3 :=
  ⟨exSpline_wf, C80_violated _ exSpline_wf, by decide +kernel, C80_infinite _ _ exSpline_wf _ (Or.inr rfl),
    C80_infinite _ _ exSpline_wf _ (Or.inl rfl), by decide +kernel⟩

/-! ### Initialisation -/

theorem uniformKnotsF_fin (order nK : ℕ) (t0 dt : K) : uniformKnotsF order nK (.fin t0) (.fin dt) = (uniformKnots order nK t0 dt).map Flt.fin := by
  simp [uniformKnotsF, uniformKnots]

theorem uniformKnotsF_nan (order nK : ℕ) (t0 dt : Flt K) (h : t0 = .nan ∨ dt = .nan) :
    uniformKnotsF order nK t0 dt = List.replicate nK .nan := by
  unfold uniformKnotsF
  rw [List.eq_replicate_iff]
  refine ⟨by simp, ?_⟩
  intro x hx
  obtain ⟨i, -, rfl⟩ := List.mem_map.1 hx
  rcases h with rfl | rfl <;> simp

theorem uniformKnotsF_length (order nK : ℕ) (t0 dt : Flt K) : (uniformKnotsF order nK t0 dt).length = nK := by
  simp [uniformKnotsF]

theorem min_required (order : ℕ) (n : ℕ) (hn : 1 ≤ n) : minimumKnotsRequired order ≤ numKnotsRequired order n := by
  unfold minimumKnotsRequired numKnotsRequired numCoefficientsRequired
  omega

/-- The first valid knot of an initialisation with an infinite duration is not a number. -/
theorem initStartF_nonfinite (c : Check) (order : ℕ) (ho : 1 ≤ order) (t0 t1 : Flt K) (hx : ∀ a b, ¬ (t0 = .fin a ∧ t1 = .fin b))
    (hgt : c.gt t1 t0 = true) : initStartF c order t0 t1 = if c = .refuted then .ub else .throws := by
  unfold initStartF
  rw [hgt]
  dsimp only [Bool.not_true]
  rw [if_neg (by simp)]
  have hlen := uniformKnotsF_length order (numKnotsRequired order 1) t0 (Flt.sub t1 t0)
  have hmin := min_required order 1 le_rfl
  have hlt : order - 1 < numKnotsRequired order 1 := by
    unfold numKnotsRequired numCoefficientsRequired
    omega
  have e : (uniformKnotsF order (numKnotsRequired order 1) t0 (Flt.sub t1 t0))[order - 1]? = some .nan := by
    unfold uniformKnotsF
    rw [List.getElem?_map, List.getElem?_range hlt]
    have z : (((order - 1 : ℕ) : K) - (order : K) + 1) = 0 := by
      rw [Nat.cast_sub ho]
      ring
    simp only [Option.map_some, z]
    congr 1
    rcases t0 with _ | _ | a | _ <;> rcases t1 with _ | _ | b | _ <;>
      first
        | exact absurd ⟨rfl, rfl⟩ (hx _ _)
        | simp [Flt.sub, Flt.neg, Flt.add, Flt.scale]
  rw [e]
  exact computeTIndexF_nan c order ho _ (by rw [hlen]; exact hmin)

/-- A spline with uniform knots. -/
theorem exists_uniform (order : ℕ) (ho : 2 ≤ order) (n : ℕ) (hn : 1 ≤ n) (t0 dt : K) (hdt : 0 ≤ dt) :
    ∃ s : BSpline K 0, s.WF ∧ s.order = order ∧ s.knots = uniformKnots order (numKnotsRequired order n) t0 dt ∧
      s.knots.length = n + 2 * order - 1 ∧ s.kn (order - 1) = t0 ∧ s.kn (n + order - 1) = t0 + n * dt ∧ s.kn order = t0 + dt := by
  have hnK : numKnotsRequired order n = n + 2 * order - 1 := by
    unfold numKnotsRequired numCoefficientsRequired; omega
  set kns := uniformKnots order (numKnotsRequired order n) t0 dt with hkns
  have hklen : kns.length = n + 2 * order - 1 := by simp [hkns, uniformKnots, hnK]
  have hsorted : kns.Pairwise (· ≤ ·) := uniformKnots_sorted _ _ _ _ hdt
  have hset := set_ok (s := BSpline.mk (K := K) (D := 0) order [] [] []) ho (kns := kns)
    (cs := List.replicate (n + order - 1) (0 : Fin 0 → K)) (by simp) hsorted
    (by change 2 * order ≤ kns.length; omega) (by rw [List.length_replicate, hklen]; change n + order - 1 + order = _; omega)
  have hkn : ∀ i, i < n + 2 * order - 1 → kns.getD i 0 = t0 + ((i : K) - (order : K) + 1) * dt := by
    intro i hi
    exact uniformKnots_getD _ _ _ _ _ (by omega)
  refine ⟨_, set_wf ho hsorted hset, rfl, rfl, hklen, ?_, ?_, ?_⟩
  · refine (hkn _ (by omega)).trans ?_
    push_cast [Nat.cast_sub (show 1 ≤ order by omega)]
    ring
  · refine (hkn _ (by omega)).trans ?_
    push_cast [Nat.cast_sub (show 1 ≤ n + order by omega)]
    ring
  · refine (hkn _ (by omega)).trans ?_
    ring

/-- **C80** (initialisation, numbers): `initSpline` of numbers finds the first segment if the times increase and throws otherwise. -/
theorem C80_init_numbers (c : Check) (order : ℕ) (ho : 2 ≤ order) (t0 t1 : K) :
    initStartF c order (.fin t0) (.fin t1) =
      if t0 < t1 then .ok (.fin (t1 - t0), order - 1) else .throws := by
  unfold initStartF
  rw [Check.gt_fin]
  by_cases h : t0 < t1
  · rw [if_pos h]
    simp only [h, decide_true, Bool.not_true, Bool.false_eq_true, ↓reduceIte, Flt.sub_fin, uniformKnotsF_fin]
    obtain ⟨s, hw, e1, e2, e3, e4, e5, e6⟩ := exists_uniform order ho 1 le_rfl t0 (t1 - t0) (by linarith)
    rw [← e2]
    have hx : (s.knots.map Flt.fin)[order - 1]? = some (Flt.fin t0) := by
      rw [List.getElem?_map, List.getElem?_eq_getElem (show order - 1 < s.knots.length by omega)]
      rw [kn, List.getD_eq_getElem?_getD, List.getElem?_eq_getElem (show order - 1 < s.knots.length by omega)] at e4
      simp only [Option.getD_some] at e4
      rw [Option.map_some, e4]
    rw [hx]
    dsimp only
    have htol : (0 : K) < snapTol := by unfold snapTol; positivity
    have hl : s.knots.length - s.order = 1 + order - 1 := by omega
    obtain ⟨i, f1, f2, f3⟩ := lookup_valid hw t0 (by rw [e1, e4]) (by rw [hl, e5]; push_cast; linarith)
    have hi : i = order - 1 := by omega
    subst hi
    rw [← e1, computeTIndexF_fin c s hw.sorted (by omega) t0, f1, e1, Nat.sub_add_cancel (by omega), e4, e6]
    simp
  · rw [if_neg h]
    simp [h]

/-- **C80** (initialisation, partial, see `C80_init_violated`): if the assertions throw unless their condition is true, `initSpline` of
any two `double`s that are not increasing numbers throws. -/
theorem C80_init_partial (order : ℕ) (ho : 2 ≤ order) (t0 t1 : Flt K) (hx : ∀ a b, t0 = .fin a → t1 = .fin b → ¬ a < b) :
    initStartF .unconfirmed order t0 t1 = .throws := by
  by_cases hgt : Check.unconfirmed.gt t1 t0 = true
  · refine (initStartF_nonfinite .unconfirmed order (by omega) t0 t1 ?_ hgt).trans (by rfl)
    rintro a b ⟨rfl, rfl⟩
    rw [Check.gt_fin, decide_eq_true_eq] at hgt
    exact hx a b rfl rfl hgt
  · unfold initStartF
    simp [hgt]

/-- C80 is violated if the assertions only throw when the opposite is true: `initSpline` reads behind the last knot whenever one of the
times is infinite or not a number and the end is not before or at the start. -/
theorem C80_init_violated (order : ℕ) (ho : 2 ≤ order) (t0 t1 : Flt K) (hx : ∀ a b, ¬ (t0 = .fin a ∧ t1 = .fin b))
    (hle : Flt.le t1 t0 = false) : initStartF .refuted order t0 t1 = .ub :=
  (initStartF_nonfinite .refuted order (by omega) t0 t1 hx (by simp [Check.gt, hle])).trans (by rfl)

example : initStartF .refuted 4 (Flt.fin (0 : ℚ)) .nan = .ub ∧ initStartF .refuted 4 (Flt.fin (0 : ℚ)) .posInf = .ub ∧
    initStartF .unconfirmed 4 (Flt.fin (0 : ℚ)) .nan = .throws ∧ initStartF .unconfirmed 4 (Flt.fin (0 : ℚ)) .posInf = .throws ∧
    initStartF .refuted 4 (Flt.fin (0 : ℚ)) (.fin 2) = .ok (.fin 2, 3) := by decide +kernel

/-! ### Fits -/

theorem timesSortedF_fin (c : Check) (l : List K) : timesSortedF c (l.map Flt.fin) = timesSorted l := by
  induction l with
  | nil => rfl
  | cons a l ih =>
    rcases l with _ | ⟨b, l⟩
    · rfl
    · simp only [List.map_cons] at ih ⊢
      rw [timesSortedF, timesSorted, ih, Check.le_fin]

theorem lookupsF_fin (c : Check) (s : BSpline K D) (h : s.WF) (ts : List K)
    (hr : ∀ t ∈ ts, s.kn (s.order - 1) ≤ t ∧ t ≤ s.kn (s.knots.length - s.order)) :
    ∃ rs, lookupsF c s.order (s.knots.map Flt.fin) (ts.map Flt.fin) = .ok rs ∧ rs.length = ts.length := by
  induction ts with
  | nil => exact ⟨[], rfl, rfl⟩
  | cons t ts ih =>
    obtain ⟨rs, e, hl⟩ := ih fun x hx => hr x (List.mem_cons_of_mem _ hx)
    have htol : (0 : K) < snapTol := by unfold snapTol; positivity
    obtain ⟨h1, h2⟩ := hr t List.mem_cons_self
    obtain ⟨i, f, -, -⟩ := lookup_valid h t h1 (by linarith)
    refine ⟨(.fin (s.kn (i + 1) - s.kn i), i) :: rs, ?_, by simp [hl]⟩
    rw [List.map_cons, lookupsF, C80_numbers c s h, f, e]
    rfl

/-- Lookups of numbers of the interval and some that are not numbers. -/
theorem lookupsF_some_nan (s : BSpline K D) (h : s.WF) (ts : List (Flt K))
    (hr : ∀ t ∈ ts, t = .nan ∨ ∃ x, t = .fin x ∧ s.kn (s.order - 1) ≤ x ∧ x ≤ s.kn (s.knots.length - s.order)) (hn : Flt.nan ∈ ts) :
    lookupsF .refuted s.order (s.knots.map Flt.fin) ts = .ub := by
  induction ts with
  | nil => exact absurd hn (by simp)
  | cons t ts ih =>
    rw [lookupsF]
    rcases hr t List.mem_cons_self with rfl | ⟨x, rfl, h1, h2⟩
    · rw [C80_violated s h]
      rfl
    · have htol : (0 : K) < snapTol := by unfold snapTol; positivity
      obtain ⟨i, f, -, -⟩ := lookup_valid h x h1 (by linarith)
      rw [C80_numbers _ s h, f, ih (fun y hy => hr y (List.mem_cons_of_mem _ hy)) (by simpa using hn)]
      rfl

/-- **C80** (fits, numbers): with at least two sorted numbers every observation is found. -/
theorem C80_fit_numbers (c : Check) (order : ℕ) (ho : 2 ≤ order) (ts : List K) (hl : 2 ≤ ts.length) (hs : ts.Pairwise (· ≤ ·)) (n : ℕ)
    (hn : 1 ≤ n) : ∃ rs, fitStartF c order (ts.map Flt.fin) n = .ok rs ∧ rs.length = ts.length := by
  have hne : ts ≠ [] := by rintro rfl; simp at hl
  unfold fitStartF
  rw [List.length_map, if_neg (by omega), if_neg (by omega), timesSortedF_fin, if_neg (by rw [(timesSorted_iff ts).2 hs]; simp),
    List.head?_map, List.getLast?_map, List.head?_eq_some_head hne, List.getLast?_eq_some_getLast hne]
  simp only [Option.map_some, Flt.sub_fin, Flt.scale_fin, uniformKnotsF_fin]
  have hb : ∀ t ∈ ts, ts.head hne ≤ t ∧ t ≤ ts.getLast hne := by
    intro t ht
    obtain ⟨j, hj, rfl⟩ := List.mem_iff_getElem.1 ht
    have hm : ∀ (a b : ℕ) (ha : a < ts.length) (hb : b < ts.length), a ≤ b → ts[a] ≤ ts[b] := by
      intro a b ha hb hab
      rcases hab.eq_or_lt with rfl | hlt
      · exact le_rfl
      · exact List.pairwise_iff_getElem.1 hs a b ha hb hlt
    rw [List.head_eq_getElem, List.getLast_eq_getElem]
    exact ⟨hm _ _ _ _ (by omega), hm _ _ _ _ (by omega)⟩
  have hn0 : (0 : K) < n := by exact_mod_cast hn
  have hle := (hb _ (List.getLast_mem hne)).1
  obtain ⟨s, hw, e1, e2, e3, e4, e5, -⟩ := exists_uniform order ho n hn (ts.head hne) (1 / (n : K) * (ts.getLast hne - ts.head hne))
    (mul_nonneg (by positivity) (by linarith))
  rw [← e2, ← e1]
  refine lookupsF_fin c s hw ts fun t ht => ?_
  rw [show s.knots.length - s.order = n + order - 1 by omega, e5, e1, e4]
  have : ts.head hne + (n : K) * (1 / (n : K) * (ts.getLast hne - ts.head hne)) = ts.getLast hne := by
    field_simp
    ring
  rw [this]
  exact hb t ht

/-- C80 is violated for fits if the assertions only throw when the opposite is true: when some of the times are not numbers, and the check
of the order lets them pass, then the observations are looked up behind the last knot. -/
theorem C80_fit_violated (order : ℕ) (ho : 2 ≤ order) (times : List (Flt K)) (hl : 2 ≤ times.length) (n : ℕ) (hn : 1 ≤ n)
    (hs : timesSortedF .refuted times = true) (hnan : Flt.nan ∈ times) (hfin : ∀ t ∈ times, t = .nan ∨ ∃ x, t = .fin x)
    (hb : ∀ a b x, times.head? = some (.fin a) → times.getLast? = some (.fin b) → Flt.fin x ∈ times → a ≤ x ∧ x ≤ b) :
    fitStartF .refuted order times n = .ub := by
  have hne : times ≠ [] := by rintro rfl; simp at hl
  unfold fitStartF
  rw [if_neg (by omega), if_neg (by omega), if_neg (by rw [hs]; simp), List.head?_eq_some_head hne, List.getLast?_eq_some_getLast hne]
  dsimp only
  have hall : ∀ knots : List (Flt K), knots = List.replicate (numKnotsRequired order n) .nan → lookupsF .refuted order knots times = .ub := by
    rintro _ rfl
    rcases times with _ | ⟨t, ts⟩
    · exact absurd rfl hne
    · rw [lookupsF, computeTIndexF_all_nan .refuted order (by omega) _ (min_required order n hn)]
      rfl
  rcases hfin _ (List.head_mem hne) with h0 | ⟨a, h0⟩
  · exact hall _ (uniformKnotsF_nan _ _ _ _ (Or.inl h0))
  rcases hfin _ (List.getLast_mem hne) with h1 | ⟨b, h1⟩
  · refine hall _ (uniformKnotsF_nan _ _ _ _ (Or.inr ?_))
    rw [h1]
    simp
  have hb' := fun x => hb a b x (by rw [List.head?_eq_some_head hne, h0]) (by rw [List.getLast?_eq_some_getLast hne, h1])
  have hle : a ≤ b := (hb' b (by rw [← h1]; exact List.getLast_mem hne)).1
  have hn0 : (0 : K) < n := by exact_mod_cast hn
  rw [h0, h1]
  simp only [Flt.sub_fin, Flt.scale_fin, uniformKnotsF_fin]
  obtain ⟨s, hw, e1, e2, e3, e4, e5, -⟩ := exists_uniform order ho n hn a (1 / (n : K) * (b - a)) (mul_nonneg (by positivity) (by linarith))
  rw [← e2, ← e1]
  refine lookupsF_some_nan s hw times (fun t ht => ?_) hnan
  rcases hfin t ht with rfl | ⟨x, rfl⟩
  · exact Or.inl rfl
  · refine Or.inr ⟨x, rfl, ?_⟩
    rw [show s.knots.length - s.order = n + order - 1 by omega, e5, e1, e4]
    have : a + (n : K) * (1 / (n : K) * (b - a)) = b := by
      field_simp
      ring
    rw [this]
    exact hb' x ht

/-- A lookup in knots whose first valid one is not a number. -/
theorem computeTIndexF_nan_min (order : ℕ) (ho : 1 ≤ order) (knots : List (Flt K)) (hn : minimumKnotsRequired order ≤ knots.length)
    (h0 : knots[order - 1]? = some .nan) (t : Flt K) : computeTIndexF .unconfirmed order knots t = .throws := by
  have hm : order < knots.length := by
    unfold minimumKnotsRequired numKnotsRequired numCoefficientsRequired at hn
    omega
  unfold computeTIndexF
  rw [if_neg (not_lt.2 hn), h0, List.getElem?_eq_getElem (show knots.length - order < knots.length by omega)]
  simp only [Check.nan_le_left]
  rfl

theorem timesSortedF_nan (a : Flt K) (l : List (Flt K)) (hl : l ≠ []) (hn : Flt.nan ∈ a :: l) : timesSortedF .unconfirmed (a :: l) = false := by
  induction l generalizing a with
  | nil => exact absurd rfl hl
  | cons b l ih =>
    rw [timesSortedF]
    rcases List.mem_cons.1 hn with rfl | h
    · rw [Check.nan_le_left]
      rfl
    · rcases l with _ | ⟨d, l⟩
      · obtain rfl := List.mem_singleton.1 h
        rw [Check.le_nan_right]
        rfl
      · rw [ih b (by simp) h, Bool.and_false]

/-- The comparison of the times, as a relation. -/
def Upto (a b : Flt K) : Prop := Flt.le a b = true

theorem Upto.trans {a b d : Flt K} (h1 : Upto a b) (h2 : Upto b d) : Upto a d := by
  unfold Upto at *
  rcases a with _ | _ | x | _ <;> rcases b with _ | _ | y | _ <;> rcases d with _ | _ | z | _ <;>
    first
      | (simp [Flt.le, Flt.lt, Flt.eq] at h1; done)
      | (simp [Flt.le, Flt.lt, Flt.eq] at h2; done)
      | (simp [Flt.le, Flt.lt, Flt.eq]; done)
      | (rw [Flt.le_fin, decide_eq_true_eq] at *; exact h1.trans h2)

theorem timesSortedF_pairwise (l : List (Flt K)) (h : timesSortedF .unconfirmed l = true) : l.Pairwise Upto := by
  have hc : l.IsChain Upto := by
    induction l with
    | nil => exact List.IsChain.nil
    | cons a l ih =>
      rcases l with _ | ⟨b, l⟩
      · exact List.isChain_singleton a
      · rw [timesSortedF, Bool.and_eq_true] at h
        exact List.isChain_cons_cons.2 ⟨h.1, ih h.2⟩
  have : IsTrans (Flt K) Upto := ⟨fun _ _ _ => Upto.trans⟩
  exact List.isChain_iff_pairwise.1 hc

/-- **C80** (fits, partial, see `C80_fit_violated`): if the assertions throw unless their condition is true, the initialisations from data
find all observations if the times are sorted numbers, and throw in all other cases. -/
theorem C80_fit_partial (order : ℕ) (ho : 2 ≤ order) (times : List (Flt K)) (n : ℕ) :
    (∃ (ts : List K) (rs : List (Flt K × ℕ)), times = ts.map Flt.fin ∧ ts.Pairwise (· ≤ ·) ∧ fitStartF .unconfirmed order times n = .ok rs ∧ rs.length = times.length) ∨
      fitStartF .unconfirmed order times n = .throws := by
  by_cases hl : times.length < 2
  · right
    unfold fitStartF
    rw [if_pos hl]
  by_cases hn : n < 1
  · right
    unfold fitStartF
    rw [if_neg hl, if_pos hn]
  by_cases hs : timesSortedF .unconfirmed times = false
  · right
    unfold fitStartF
    rw [if_neg hl, if_neg hn, if_pos hs]
  rw [Bool.not_eq_false] at hs
  have hnan : Flt.nan ∉ times := by
    intro hc
    rcases times with _ | ⟨a, l⟩
    · simp at hl
    · rw [timesSortedF_nan a l (by rintro rfl; simp at hl) hc] at hs
      cases hs
  have hne : times ≠ [] := by rintro rfl; simp at hl
  have hp := timesSortedF_pairwise times hs
  by_cases hends : ∃ a b, times.head hne = .fin a ∧ times.getLast hne = .fin b
  · left
    obtain ⟨a, b, ha, hb⟩ := hends
    have hfin : ∀ t ∈ times, ∃ x, t = Flt.fin x := by
      intro t ht
      obtain ⟨j, hj, rfl⟩ := List.mem_iff_getElem.1 ht
      rw [List.head_eq_getElem] at ha
      rw [List.getLast_eq_getElem] at hb
      have h1 : Upto (Flt.fin a) times[j] := by
        rcases Nat.eq_zero_or_pos j with rfl | hp0
        · rw [ha, Upto, Flt.le_fin]
          simp
        · rw [← ha]
          exact List.pairwise_iff_getElem.1 hp 0 j _ _ hp0
      have h2 : Upto times[j] (Flt.fin b) := by
        rcases (show j ≤ times.length - 1 by omega).eq_or_lt with rfl | hp0
        · rw [hb, Upto, Flt.le_fin]
          simp
        · rw [← hb]
          exact List.pairwise_iff_getElem.1 hp j _ _ _ hp0
      generalize times[j] = t at *
      unfold Upto at h1 h2
      rcases t with _ | _ | x | _
      · simp at h1
      · simp [Flt.le, Flt.lt, Flt.eq] at h1
      · exact ⟨x, rfl⟩
      · simp [Flt.le, Flt.lt, Flt.eq] at h2
    obtain ⟨ts, rfl⟩ : ∃ ts : List K, times = ts.map Flt.fin := by
      clear hs hp hnan hl ha hb
      induction times with
      | nil => exact ⟨[], rfl⟩
      | cons t l ih =>
        obtain ⟨x, rfl⟩ := hfin t List.mem_cons_self
        rcases l with _ | ⟨y, l⟩
        · exact ⟨[x], rfl⟩
        · obtain ⟨ts, e⟩ := ih (by simp) fun y hy => hfin y (List.mem_cons_of_mem _ hy)
          exact ⟨x :: ts, by rw [e]; rfl⟩
    rw [timesSortedF_fin, timesSorted_iff] at hs
    obtain ⟨rs, e, hlen⟩ := C80_fit_numbers .unconfirmed order ho ts (by rw [List.length_map] at hl; omega) hs n (by omega)
    exact ⟨ts, rs, rfl, hs, e, by simpa using hlen⟩
  · right
    have h0 : times.head hne ≠ .nan := fun hc => hnan (by rw [← hc]; exact List.head_mem hne)
    have h1 : times.getLast hne ≠ .nan := fun hc => hnan (by rw [← hc]; exact List.getLast_mem hne)
    unfold fitStartF
    rw [if_neg hl, if_neg hn, if_neg (by rw [hs]; simp), List.head?_eq_some_head hne, List.getLast?_eq_some_getLast hne]
    dsimp only
    have key : ∀ knots : List (Flt K), minimumKnotsRequired order ≤ knots.length → knots[order - 1]? = some .nan →
        lookupsF .unconfirmed order knots times = .throws := by
      intro knots k1 k2
      rcases times with _ | ⟨t, ts⟩
      · exact absurd rfl hne
      · rw [lookupsF, computeTIndexF_nan_min order (by omega) knots k1 k2]
        rfl
    refine key _ (by rw [uniformKnotsF_length]; exact min_required order n (by omega)) ?_
    have hlt : order - 1 < numKnotsRequired order n := by
      unfold numKnotsRequired numCoefficientsRequired
      omega
    unfold uniformKnotsF
    rw [List.getElem?_map, List.getElem?_range hlt]
    have z : (((order - 1 : ℕ) : K) - (order : K) + 1) = 0 := by
      rw [Nat.cast_sub (by omega)]
      ring
    simp only [Option.map_some, z]
    congr 1
    have hn0 : (0 : K) < n := by exact_mod_cast (show 0 < n by omega)
    have q1 : (1 / (n : K)) ≠ 0 := by positivity
    have q2 : 0 < (1 / (n : K)) := by positivity
    generalize times.head hne = t0 at *
    generalize times.getLast hne = t1 at *
    rcases t0 with _ | _ | a | _ <;> rcases t1 with _ | _ | b | _ <;>
      first
        | exact absurd rfl h0
        | exact absurd rfl h1
        | exact absurd ⟨_, _, rfl, rfl⟩ hends
        | simp only [Flt.sub, Flt.neg, Flt.add, Flt.scale, q1, q2, if_true, if_false]

/-- C80 is violated if the assertions only throw when the opposite is true: an infinite last time is accepted and the width of the segment
found is not a number. -/
theorem C80_fit_infinite : fitStartF .refuted 2 [Flt.fin (0 : ℚ), .posInf] 1 = .ok [(.nan, 1), (.nan, 1)] := by decide +kernel

example : fitStartF .refuted 3 [Flt.fin (0 : ℚ), .nan, .fin 2] 2 = .ub ∧ fitStartF .unconfirmed 3 [Flt.fin (0 : ℚ), .nan, .fin 2] 2 = .throws ∧
    fitStartF .refuted 3 [Flt.fin (0 : ℚ), .fin 1, .fin 2] 2 = .ok [(.fin 1, 2), (.fin 1, 3), (.fin 1, 3)] := by decide +kernel

/-! ### The checks of the order -/

/-- The loop of `verifyKnotSequence` for numbers. -/
theorem C80_verify_numbers (c : Check) (l : List K) (i n : ℕ) : verifyLoopF c (l.map Flt.fin) i n = verifyLoop l i n := by
  induction n generalizing i with
  | zero => rfl
  | succ n ih =>
    rw [verifyLoopF, verifyLoop, List.getElem?_map, List.getElem?_map]
    rcases l[i - 1]? with _ | a
    · rfl
    rcases l[i]? with _ | b
    · rfl
    simp only [Option.map_some, Check.le_fin, ih, decide_eq_true_eq]

/-- C80 is violated if the assertions only throw when the opposite is true: a time that is not a number hides that the times before and
after it are in the wrong order, and likewise for knots. -/
theorem C80_order_violated (a b : K) :
    timesSortedF .refuted [.fin a, .nan, .fin b] = true ∧ verifyLoopF .refuted [.fin a, .nan, .fin b] 1 2 = .ok () := by
  simp [timesSortedF, verifyLoopF, Check.le]

end BSpline

/-- `checkTimesBounds` for numbers. -/
theorem C80_bounds_numbers (c : Check) (l : List K) : timesBoundedF c (l.map Flt.fin) = timesBounded l := by
  unfold timesBoundedF timesBounded
  rw [List.head?_map, List.getLast?_map]
  rcases l.head? with _ | a
  · rfl
  rcases l.getLast? with _ | b
  · rfl
  simp [Check.le_fin, List.all_map, Function.comp_def]

/-- With assertions that throw unless their condition is true, times that pass `checkTimesBounds` are numbers between the first and the
last, if these are numbers. -/
theorem C80_bounds_partial (times : List (Flt K)) (hl : 2 ≤ times.length) (a b : K) (h0 : times.head? = some (.fin a))
    (h1 : times.getLast? = some (.fin b)) (h : timesBoundedF .unconfirmed times = true) : ∀ t ∈ times, ∃ x, t = .fin x ∧ a ≤ x ∧ x ≤ b := by
  unfold timesBoundedF at h
  rw [h0, h1] at h
  dsimp only at h
  rw [Bool.or_eq_true, decide_eq_true_eq] at h
  rcases h with h | h
  · omega
  intro t ht
  have := List.all_eq_true.1 h t ht
  rw [Bool.and_eq_true] at this
  obtain ⟨q1, q2⟩ := this
  simp only [Check.le] at q1 q2
  rcases t with _ | _ | x | _
  · simp at q1
  · simp [Flt.le, Flt.lt, Flt.eq] at q1
  · rw [Flt.le_fin, decide_eq_true_eq] at q1 q2
    exact ⟨x, rfl, q1, q2⟩
  · simp [Flt.le, Flt.lt, Flt.eq] at q2

/-- C80 is violated if the assertions only throw when the opposite is true: any number of times that are not numbers pass
`checkTimesBounds`, and if the first is one of them, all do. -/
theorem C80_bounds_violated (a b : K) (n : ℕ) (hab : a ≤ b) (ts : List (Flt K)) :
    timesBoundedF .refuted (.fin a :: List.replicate n .nan ++ [.fin b]) = true ∧ timesBoundedF .refuted (.nan :: ts ++ [.nan]) = true := by
  constructor
  · unfold timesBoundedF
    simp only [List.cons_append, List.head?_cons, List.getLast?_cons, List.getLast?_append, Option.some_or, Option.getD_some]
    rw [Bool.or_eq_true]
    right
    rw [List.all_eq_true]
    intro t ht
    rcases List.mem_cons.1 ht with rfl | ht
    · simp [Check.le_fin, hab]
    rcases List.mem_append.1 ht with ht | ht
    · rw [List.eq_of_mem_replicate ht]
      simp [Check.le]
    · rw [List.mem_singleton.1 ht]
      simp [Check.le_fin, hab]
  · unfold timesBoundedF
    simp only [List.cons_append, List.head?_cons, List.getLast?_cons, List.getLast?_append, Option.some_or, Option.getD_some,
      Check.nan_le_left]
    simp [Check.le_nan_right]

example : timesBoundedF .unconfirmed [Flt.fin (0 : ℚ), .fin 2, .fin 1, .fin 3] = true ∧
    timesBoundedF .unconfirmed [Flt.fin (0 : ℚ), .nan, .fin 3] = false ∧
    timesBoundedF .refuted [Flt.fin (0 : ℚ), .nan, .fin 3] = true := by decide +kernel

/-! ### Manifold splines -/

namespace MSpline

variable {P V : Type*}

/-- **C80** (manifold splines, numbers): for numbers the lookup is the one all other theorems are about. -/
theorem C80_manifold_numbers (c : Check) (s : MSpline K P) (t : K) : s.getSegmentIteratorF c (.fin t) = s.getSegmentIterator t := by
  unfold getSegmentIteratorF getSegmentIterator
  congr 1
  funext tmin
  congr 1
  funext tmax
  rw [Check.le_fin, Check.le_fin, Flt.eq_fin]
  by_cases h1 : t < tmin
  · simp [h1]
  by_cases h2 : tmax < t
  · simp [h1, h2]
  by_cases h3 : t = tmax
  · simp [h3]
  · simp [h1, h2, h3, getSegmentIterator.upperBoundIdx]

/-- **C80** (manifold splines, partial, see `C80_manifold_violated`): infinite times are rejected whatever the assertions, and times that
are not numbers if the assertions throw unless their condition is true. -/
theorem C80_manifold_partial (M : Mfd K P V) (order : ℕ) (ho : 1 ≤ order) (s : MSpline K P) (hr : RegularReach M order s) (c : Check) (t : Flt K)
    (ht : t = .negInf ∨ t = .posInf ∨ t = .nan ∧ c = .unconfirmed) : s.evaluatorF c t = .throws := by
  obtain ⟨h, rfl⟩ := hr.mwf ho
  unfold evaluatorF
  rcases he : s.state with _ | _
  · rfl
  dsimp only
  have : s.getSegmentIteratorF c t = .throws := by
    unfold getSegmentIteratorF
    rw [getMinTime_eq h he, getMaxTime_eq h he]
    simp only [Outcome.bind_ok]
    rcases ht with rfl | rfl | ⟨rfl, rfl⟩
    · cases c <;> rfl
    · cases c <;> rfl
    · rw [Check.le_nan_right]
      rfl
  rw [this]
  rfl

/-- C80 is violated for manifold splines if the assertions only throw when the opposite is true: the lookup of "not a number" returns the
last of all knots, outside the valid interval, and making an evaluator there dereferences the end of the map. -/
theorem C80_manifold_violated (M : Mfd K P V) (order : ℕ) (ho : 1 ≤ order) (s : MSpline K P) (hr : RegularReach M order s)
    (he : s.state = .evaluable) : s.getSegmentIteratorF .refuted .nan = .ok s.keys[s.keys.length - 1]? ∧ s.evaluatorF .refuted .nan = .ub := by
  obtain ⟨h, rfl⟩ := hr.mwf ho
  have hn := h.enough he
  have hk := h.order_pos
  have hd := h.nodup
  have e : s.getSegmentIteratorF .refuted .nan = .ok s.keys[s.keys.length - 1]? := by
    unfold getSegmentIteratorF
    rw [getMinTime_eq h he, getMaxTime_eq h he]
    simp only [Outcome.bind_ok, Check.le_nan_right, Check.nan_le_left, Flt.nan_eq, Flt.nan_lt, decide_true, Bool.not_true, Bool.false_eq_true,
      if_false]
    have e1 : (s.keys.findIdx fun _ => false) = s.keys.length := by
      rw [List.findIdx_eq_length]
      simp
    rw [e1]
    exact itDec_at hd (by omega) le_rfl
  refine ⟨e, ?_⟩
  unfold evaluatorF firstRelevantByLast absBegin
  rw [he, e]
  dsimp only [Outcome.bind_ok]
  have e2 := moveIter_bwd hd (Nat.zero_le (s.keys.length - 1)) (by omega) (s.order - 1)
  rw [Nat.cast_sub hk, Nat.cast_one] at e2
  have e3 := moveIter_fwd hd le_rfl (show s.keys.length - 1 ≤ s.keys.length by omega) 1
  rw [Nat.cast_one, ← at_end s.keys, show min (s.keys.length - 1 + 1) s.keys.length = s.keys.length by omega, ← at_end s.keys] at e3
  have e4 : s.segmentLength s.keys[s.keys.length - 1]? = .ub := by
    unfold segmentLength
    rw [List.getElem?_eq_getElem (show s.keys.length - 1 < s.keys.length by omega)] at e3 ⊢
    dsimp only
    rw [e3]
    rfl
  rw [e2, Outcome.bind_ok, e3, Outcome.bind_ok, e4]
  rfl

/-- Not vacuous: the example spline. -/
example : demo.state = .evaluable ∧ demo.evaluatorF .refuted .nan = .ub ∧ demo.evaluatorF .unconfirmed .nan = .throws ∧
    demo.evaluatorF .refuted .posInf = .throws ∧ demo.evaluatorF .refuted (.fin (3 / 2)) = .ok (some 1, some 0, some 2, 1) :=
  ⟨by decide +kernel, (C80_manifold_violated _ 2 (by omega) demo demo_reach (by decide +kernel)).2,
    C80_manifold_partial _ 2 (by omega) demo demo_reach _ _ (Or.inr (Or.inr ⟨rfl, rfl⟩)),
    C80_manifold_partial _ 2 (by omega) demo demo_reach _ _ (Or.inr (Or.inl rfl)), by decide +kernel⟩

end MSpline
end Verif
