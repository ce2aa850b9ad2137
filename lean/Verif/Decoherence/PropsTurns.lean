import Verif.Decoherence.Props

/-!
C62: turn zero and turns before it (`CentroidPosition`, rsphysics/decoherence.py:65-136).
-/

namespace Verif.Decoherence

/-- **C62, turn zero.** At turn zero all three integrals are the initial offset, whatever the coefficients. -/
theorem turn_zero (c : Centroid) : c.anyOrder (some 0) = c.Z ∧ c.firstOrder (some 0) = .ok c.Z ∧ c.secondOrder (some 0) = .ok (some c.Z) ∧
    c.chosen 0 = .ok (some c.Z) ∧ spec c.Z c.nu0 c.mu 0 = c.Z := by
  refine ⟨by simp [Centroid.anyOrder], by simp [Centroid.firstOrder], by simp [Centroid.secondOrder], ?_, spec_zero _ _ _⟩
  unfold Centroid.chosen
  split
  · simp [Centroid.firstOrder, Except.map]
  · split
    · simp [Centroid.secondOrder]
    · simp [Centroid.anyOrder]

/-- **C62 is false for turns before the start.** For negative turn numbers the integral of any order is zero, as every amplitude is
beyond the cut; the average over the waterbag is the one after as many turns. -/
theorem negative_turn_fails (c : Centroid) (n : Nat) (hn : 0 < n) : c.anyOrder (some (-n)) = 0 ∧
    ∫ u in (0 : ℝ)..1, c.Z * Real.cos (2 * Real.pi * (-n) * tune c.nu0 c.mu u) = spec c.Z c.nu0 c.mu n := by
  refine ⟨?_, by unfold spec; simp⟩
  unfold Centroid.anyOrder
  have h0 : (-(n : Int)) ≠ 0 := by omega
  simp only [Option.getD_some]
  rw [if_neg h0]
  have hn' : (0 : ℝ) < n := by exact_mod_cast hn
  have hpi := Real.pi_pos
  have hneg : 2 * Real.pi * ((-(n : Int) : Int) : ℝ) ≤ 0 := by
    push_cast
    have := mul_pos (mul_pos two_pos hpi) hn'
    linarith
  rw [intervalIntegral.integral_of_ge hneg]
  have : ∫ a in Set.Ioc (2 * Real.pi * ((-(n : Int) : Int) : ℝ)) 0, c.integrand (-(n : Int)) a =
      ∫ a in Set.Ioc (2 * Real.pi * ((-(n : Int) : Int) : ℝ)) 0, (0 : ℝ) := by
    refine MeasureTheory.setIntegral_congr_fun measurableSet_Ioc fun a ha => ?_
    unfold Centroid.integrand
    simp only
    rw [if_neg, mul_zero]
    rw [not_le, one_mul]
    exact ha.1
  rw [this]
  simp

/-- Non-vacuity: without spread the centroid one turn before the start is not on the axis. -/
example : (⟨10, 1, 1, []⟩ : Centroid).anyOrder (some (-(1 : Nat))) = 0 ∧ (⟨10, 1, 1, []⟩ : Centroid).anyOrder (some (1 : Nat)) = 1 := by
  refine ⟨(negative_turn_fails _ 1 (by omega)).1, ?_⟩
  rw [no_spread _ rfl]
  simp

end Verif.Decoherence
