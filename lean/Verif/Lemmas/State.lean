import Verif.Lemmas.Eval
import Verif.Model.BSplineViews

/-!
# The consistency predicate `WF` is established and kept by the operations
-/

set_option linter.unusedSectionVars false

namespace Verif.BSpline

open Finset

variable {K : Type*} [Field K] [LinearOrder K] [IsStrictOrderedRing K] {D : ℕ}

theorem initializeBasisMatrices_wf (s : BSpline K D) (h2 : 2 ≤ s.order)
    (hs : s.knots.Pairwise (· ≤ ·)) (hn : 2 * s.order ≤ s.knots.length)
    (hc : s.coeffs.length + s.order = s.knots.length) : s.initializeBasisMatrices.WF := by
  refine ⟨h2, hs, hn, hc, ?_, ?_⟩
  · simp [initializeBasisMatrices, numValidTimeSegments, numValidTimeSegmentsOf]
  · intro b B hb hB r _ c _
    have hb' : b < s.numValidTimeSegments := hb
    simp only [initializeBasisMatrices, List.getElem?_map, List.getElem?_range hb',
      Option.map_some, Option.some.injEq] at hB
    rw [← hB]
    rfl

/-- What a successful `setKnotsAndCoefficients` leaves behind. -/
theorem set_inv {s s' : BSpline K D} {kns : List K} {cs : List (Fin D → K)} (h2 : 1 ≤ s.order)
    (h : s.setKnotsAndCoefficients kns cs = .ok s') :
    s' = initializeBasisMatrices { s with knots := kns, coeffs := cs } ∧
      2 * s.order ≤ kns.length ∧ cs.length + s.order = kns.length := by
  unfold setKnotsAndCoefficients at h
  obtain ⟨u, hv, h⟩ := Outcome.bind_eq_ok.1 h
  unfold verifyKnotSequence at hv
  split_ifs at hv with h1
  split_ifs at h with h3
  refine ⟨(Outcome.ok.inj h).symm, ?_, ?_⟩
  · unfold minimumKnotsRequired numKnotsRequired numCoefficientsRequired at h1; omega
  · unfold minimumKnotsRequired numKnotsRequired numCoefficientsRequired at h1
    unfold numCoefficientsRequired numValidTimeSegmentsOf at h3; omega

theorem set_wf {s s' : BSpline K D} {kns : List K} {cs : List (Fin D → K)} (h2 : 2 ≤ s.order)
    (hs : kns.Pairwise (· ≤ ·)) (h : s.setKnotsAndCoefficients kns cs = .ok s') : s'.WF := by
  obtain ⟨rfl, h3, h4⟩ := set_inv (by omega) h
  exact initializeBasisMatrices_wf _ h2 hs h3 h4

/-- Replacing the coefficients by the same number of coefficients keeps the spline consistent. -/
theorem WF.withCoeffs {s : BSpline K D} (h : s.WF) (cs : List (Fin D → K))
    (hc : cs.length = s.coeffs.length) : ({ s with coeffs := cs } : BSpline K D).WF :=
  ⟨h.order_pos, h.sorted, h.enough, by simpa [hc] using h.coeffs_len, h.basis_len, h.basis_eq⟩

/-- With a last segment of at least `1e-10` every time of the valid interval is admissible. -/
theorem admissible_of_wide {s : BSpline K D} (t : K)
    (hw : snapTol ≤ s.kn (s.knots.length - s.order) - s.kn (s.knots.length - s.order - 1))
    (h1 : s.kn (s.order - 1) ≤ t) (h2 : t ≤ s.kn (s.knots.length - s.order)) : s.Admissible t := by
  have htol : (0 : K) < snapTol := by unfold snapTol; positivity
  refine ⟨h1, h2, ?_⟩
  by_cases h : t + snapTol ≤ s.kn (s.knots.length - s.order)
  · exact Or.inl h
  · right
    constructor <;> linarith [not_le.1 h]

end Verif.BSpline
