import Verif.Props.Knots

/-!
# C35: a free generator without predefined knots

Without predefined knots `DeltaFreeKnotGenerator` behaves like `DeltaUniformKnotGenerator`: same knots, same ends, same extensions.
-/

namespace Verif

variable {T : Type*} [CommRing T] [LinearOrder T] [IsStrictOrderedRing T]

theorem free_drain_of_delta {g g' : DeltaGen T} {ks : List T} (h : Drain DeltaGen.hasNext DeltaGen.next g ks g') :
    Drain FreeGen.hasNext FreeGen.next ⟨g.splineOrder, g.delta, g.lastKnot, g.beyond, []⟩ ks
      ⟨g'.splineOrder, g'.delta, g'.lastKnot, g'.beyond, []⟩ := by
  induction h with
  | stop g hg => exact Drain.stop _ hg
  | step g g' ks hg _ ih => exact Drain.step (⟨g.splineOrder, g.delta, g.lastKnot, g.beyond, []⟩ : FreeGen T) _ ks hg ih

/-- **C35, without predefined knots.** For every order, positive step and end after the start: the loop over a free generator without
predefined knots ends, with strictly increasing knots that are exactly one step apart; the valid interval starts at `start`, and its end
is the first knot that is not before `beyond`. -/
theorem C35_without_queue [Archimedean T] (k : ℕ) (hk : 1 ≤ k) (start beyond d : T) (hd : 0 < d) (hb : start < beyond) :
    ∃ g' ks, Drain FreeGen.hasNext FreeGen.next (FreeGen.create (k : ℤ) start beyond d false) ks g' ∧
      ks.Pairwise (· < ·) ∧ (∀ j x y, ks[j]? = some x → ks[j + 1]? = some y → y - x = d) ∧
      2 * k ≤ ks.length ∧ ks[k - 1]? = some start ∧
      (∃ e, ks[ks.length - k]? = some e ∧ beyond ≤ e) ∧
      (∃ e, ks[ks.length - k - 1]? = some e ∧ e < beyond) := by
  obtain ⟨g', ks, h, h'⟩ := C33_delta_generator k hk start beyond d hd hb
  exact ⟨_, ks, free_drain_of_delta h, h'⟩

/-- **C35, continuing an initialised spline.** A free generator made for a spline that has its knots already emits `start` first and then
goes on in steps of `d` up to the first knot that is at least `k - 1` steps after `beyond`. -/
theorem C35_continued [Archimedean T] (k : ℕ) (hk : 1 ≤ k) (start beyond d : T) (hd : 0 < d) (hb : start ≤ beyond) :
    ∃ g' m, Drain FreeGen.hasNext FreeGen.next (FreeGen.create (k : ℤ) start beyond d true)
        ((List.range m).map fun j : ℕ => start + d * (j : T)) g' ∧
      1 ≤ m ∧ beyond + d * ((k : T) - 1) ≤ start + d * ((m : T) - 1) ∧ start + d * ((m : T) - 2) < beyond + d * ((k : T) - 1) := by
  obtain ⟨m, hm1, hm2⟩ := delta_steps d (beyond + d * ((k : T) - 1)) (start - d) hd
  have hdr := free_drain_of_delta (deltaGen_drain (k : ℤ) d (beyond + d * ((k : T) - 1)) m (start - d) hm1 hm2)
  have e : FreeGen.create (k : ℤ) start beyond d true = ⟨k, d, start - d, beyond + d * ((k : T) - 1), []⟩ := by
    simp only [FreeGen.create, firstLastKnot, addScaledDuration, if_true, FreeGen.mk.injEq, true_and, and_true]
    push_cast
    constructor <;> ring
  have hk' : (1 : T) ≤ k := by exact_mod_cast hk
  have hm : 1 ≤ m := by
    by_contra h0
    have : m = 0 := by omega
    subst this
    have : 0 ≤ d * ((k : T) - 1) := mul_nonneg hd.le (by linarith)
    simp only [Nat.cast_zero, mul_zero, add_zero] at hm2
    linarith
  rw [e]
  have e1 : ((List.range m).map fun j : ℕ => start - d + d * ((j : T) + 1)) = (List.range m).map fun j : ℕ => start + d * (j : T) :=
    List.map_congr_left fun j _ => by ring
  rw [e1] at hdr
  refine ⟨_, m, hdr, hm, by linarith, ?_⟩
  have := hm1 (m - 1) (by omega)
  rw [Nat.cast_sub hm] at this
  push_cast at this
  linarith

/-- **C35, extension without predefined knots** is the extension of the uniform generator: it never fails, and going on after it emits
together exactly the knots of a generator made for the later of both ends. -/
theorem C35_extend_without_queue [Archimedean T] (k : ℕ) (start beyond beyond' d : T) (hd : 0 < d) :
    ∃ ks₁ ks₂ g₁ g₂ g₃ g', Drain FreeGen.hasNext FreeGen.next (FreeGen.create (k : ℤ) start beyond d false) ks₁ g₁ ∧
      g₁.extendBeyond beyond' = .ok g₂ ∧ Drain FreeGen.hasNext FreeGen.next g₂ ks₂ g₃ ∧
      Drain FreeGen.hasNext FreeGen.next (FreeGen.create (k : ℤ) start (max beyond beyond') d false) (ks₁ ++ ks₂) g' := by
  obtain ⟨m, a1, a2⟩ := delta_steps d (DeltaGen.create (k : ℤ) start beyond d false).beyond
    (firstLastKnot (k : ℤ) start d false) hd
  have h₁ := deltaGen_drain (k : ℤ) d _ m _ a1 a2
  obtain ⟨m', b1, b2⟩ := delta_steps d (addScaledDuration beyond' d ((k : ℤ) - 1))
    (firstLastKnot (k : ℤ) start d false + d * (m : T)) hd
  have h₂ := deltaGen_drain (k : ℤ) d _ m' _ b1 b2
  obtain ⟨g', h₃⟩ := C33_extend k start beyond beyond' d hd _ _ _ _ h₁ h₂
  exact ⟨_, _, _, _, _, _, free_drain_of_delta h₁, rfl, free_drain_of_delta h₂, free_drain_of_delta h₃⟩

/-- C35 at work: order 3, steps of 2 from 0 beyond 3. -/
example : ∃ g', Drain FreeGen.hasNext FreeGen.next (FreeGen.create 3 (0 : ℤ) 3 2 false) [-4, -2, 0, 2, 4, 6, 8] g' := by
  refine ⟨⟨3, 2, 8, 7, []⟩, ?_⟩
  iterate 7 refine Drain.step _ _ _ (by unfold FreeGen.hasNext; decide) ?_
  exact Drain.stop _ (by unfold FreeGen.hasNext; decide)

end Verif
