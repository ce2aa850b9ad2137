import Verif.Py.Rounding
import Verif.Py.Basic

/-!
# Model of `phase_advance` with rounded arithmetic (C143)

`np.arctan2` is any function to the numbers of double precision between `-np.pi` and `np.pi`; `np.pi` is any positive number of double precision.
-/

namespace Verif.Phases

open Verif.Py

/-- `phase_advance` (phases.py:35-62) of points with the angles `a1` and `a2` (line 52), `pi` being `np.pi`. -/
noncomputable def rPhaseAdvance (R : Rounding) (pi a1 a2 : ℝ) (clockwise : Bool) : ℝ :=
  let guess := R.rnd (a1 - a2)
  let advance := if guess < 0 then R.rnd (R.rnd (2 * pi) + guess) else guess
  if clockwise then advance else R.rnd (R.rnd (2 * pi) - advance)

variable (R : Rounding)

theorem isFloat_two_mul {x : ℝ} (h : IsFloat x) : IsFloat (2 * x) := by
  obtain ⟨m, e, h1, rfl⟩ := h
  exact ⟨m, e + 1, h1, by rw [zpow_add₀ (by norm_num)]; norm_num; ring⟩

/-- **C143, closed interval.** With rounded arithmetic the phase advance is between 0 and twice `np.pi`, the end included. Missing: the end is
excluded (`advance_end_fails`). -/
theorem rounded_advance_partial {pi a1 a2 : ℝ} (hpi : IsFloat pi) (h1 : |a1| ≤ pi) (h2 : |a2| ≤ pi) (clockwise : Bool) :
    0 ≤ rPhaseAdvance R pi a1 a2 clockwise ∧ rPhaseAdvance R pi a1 a2 clockwise ≤ 2 * pi := by
  have h0 : 0 ≤ pi := (abs_nonneg _).trans h1
  have hf := isFloat_two_mul hpi
  rw [abs_le] at h1 h2
  have hg1 : R.rnd (a1 - a2) ≤ 2 * pi := R.le_of_le hf (by linarith)
  have hg2 : -(2 * pi) ≤ R.rnd (a1 - a2) := R.ge_of_ge (isFloat_neg hf) (by linarith)
  have hadv : 0 ≤ (if R.rnd (a1 - a2) < 0 then R.rnd (2 * pi + R.rnd (a1 - a2)) else R.rnd (a1 - a2)) ∧
      (if R.rnd (a1 - a2) < 0 then R.rnd (2 * pi + R.rnd (a1 - a2)) else R.rnd (a1 - a2)) ≤ 2 * pi := by
    by_cases h : R.rnd (a1 - a2) < 0
    · rw [if_pos h]
      exact ⟨R.nonneg (by linarith), R.le_of_le hf (by linarith)⟩
    · rw [if_neg h]
      exact ⟨not_lt.1 h, hg1⟩
  simp only [rPhaseAdvance, R.fixed hf]
  cases clockwise
  · simp only [Bool.false_eq_true, if_false]
    exact ⟨R.nonneg (by linarith [hadv.2]), R.le_of_le hf (by linarith [hadv.1])⟩
  · simpa using hadv

/-- **C143 fails.** Whatever angles differ by less than `2 ^ -54` times `np.pi`, the second being the larger one: the phase advance is exactly twice
`np.pi`, and counterclockwise it is zero. -/
theorem advance_end_fails {pi a1 a2 : ℝ} (hpi : IsFloat pi) (h : a1 < a2) (h2 : a2 - a1 < pi * 2 ^ (-54 : ℤ)) (h0 : 0 < pi) :
    rPhaseAdvance R pi a1 a2 true = 2 * pi ∧ rPhaseAdvance R pi a1 a2 false = 0 := by
  have hf := isFloat_two_mul hpi
  have hg : R.rnd (a1 - a2) < 0 := by
    rw [show a1 - a2 = -(a2 - a1) by ring, R.odd]
    have := R.pos (show 0 < a2 - a1 by linarith)
    linarith
  have hpf : IsFloat (pi * 2 ^ (-54 : ℤ)) := by
    obtain ⟨m, e, h1, rfl⟩ := hpi
    exact ⟨m, e + -54, h1, by rw [zpow_add₀ (by norm_num)]; ring⟩
  have hg2 : -(pi * 2 ^ (-54 : ℤ)) ≤ R.rnd (a1 - a2) := R.ge_of_ge (isFloat_neg hpf) (by linarith)
  have hadv : R.rnd (2 * pi + R.rnd (a1 - a2)) = 2 * pi := by
    refine le_antisymm (R.le_of_le hf (by linarith)) ?_
    by_contra hc
    rw [not_le] at hc
    have h3 := hf.gap_rel (R.isFloat _) (by linarith) hc
    have h4 := R.nearest (2 * pi + R.rnd (a1 - a2)) _ hf
    rw [show 2 * pi - (2 * pi + R.rnd (a1 - a2)) = -R.rnd (a1 - a2) by ring, abs_neg, abs_of_neg hg, abs_le] at h4
    generalize R.rnd (2 * pi + R.rnd (a1 - a2)) = r at *
    generalize R.rnd (a1 - a2) = g at *
    norm_num at h3 hg2
    linarith [h4.1]
  simp [rPhaseAdvance, R.fixed hf, hg, hadv]

/-- Two angles that are nearly equal. -/
example : |(1 : ℝ)| ≤ 3 ∧ (1 : ℝ) < 1 + 2 ^ (-60 : ℤ) ∧ (1 : ℝ) + 2 ^ (-60 : ℤ) - 1 < 3 * 2 ^ (-54 : ℤ) := by
  norm_num

end Verif.Phases
