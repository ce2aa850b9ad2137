import Verif.Phases.Model
import Mathlib.Analysis.SpecialFunctions.Complex.Circle
import Mathlib.Tactic.Ring
import Mathlib.Tactic.Linarith
import Mathlib.Tactic.NormNum
import Mathlib.Tactic.Positivity

/-!
# Property C60: phase advance between two points
-/

namespace Verif.Phases

/-- `p2` has the direction of `p1` after a clockwise rotation by `θ`. -/
def Clockwise (θ : ℝ) (p1 p2 : ℝ × ℝ) : Prop :=
  ∃ r > 0, p2.1 = r * (p1.1 * Real.cos θ + p1.2 * Real.sin θ) ∧ p2.2 = r * (p1.2 * Real.cos θ - p1.1 * Real.sin θ)

/-- `p2` has the direction of `p1` after a counterclockwise rotation by `θ`. -/
def Counterclockwise (θ : ℝ) (p1 p2 : ℝ × ℝ) : Prop :=
  ∃ r > 0, p2.1 = r * (p1.1 * Real.cos θ - p1.2 * Real.sin θ) ∧ p2.2 = r * (p1.2 * Real.cos θ + p1.1 * Real.sin θ)

theorem polar {p : ℝ × ℝ} (hp : p ≠ (0, 0)) :
    ∃ r > 0, p.1 = r * Real.cos (arctan2 p.2 p.1) ∧ p.2 = r * Real.sin (arctan2 p.2 p.1) := by
  have hz : (⟨p.1, p.2⟩ : ℂ) ≠ 0 := by
    intro h
    apply hp
    have h1 := congrArg Complex.re h
    have h2 := congrArg Complex.im h
    exact Prod.ext h1 h2
  have hr := norm_pos_iff.2 hz
  refine ⟨_, hr, ?_, ?_⟩
  · unfold arctan2
    rw [Complex.cos_arg hz]
    field_simp
  · unfold arctan2
    rw [Complex.sin_arg]
    field_simp

/-- Angles of equal directions. -/
theorem same_direction {r s a b : ℝ} (hr : 0 < r) (hs : 0 < s) (h1 : r * Real.cos a = s * Real.cos b) (h2 : r * Real.sin a = s * Real.sin b) :
    ∃ k : ℤ, a = b + k * (2 * Real.pi) := by
  have e1 := Real.sin_sq_add_cos_sq a
  have e2 := Real.sin_sq_add_cos_sq b
  have hrs : r = s := by
    have : r ^ 2 = s ^ 2 := by
      have l : r ^ 2 = (r * Real.cos a) ^ 2 + (r * Real.sin a) ^ 2 := by
        linear_combination -r ^ 2 * e1
      have l' : s ^ 2 = (s * Real.cos b) ^ 2 + (s * Real.sin b) ^ 2 := by
        linear_combination -s ^ 2 * e2
      rw [l, l', h1, h2]
    nlinarith [sq_nonneg (r - s), mul_pos hr hs]
  subst hrs
  have c := mul_left_cancel₀ hr.ne' h1
  have d := mul_left_cancel₀ hr.ne' h2
  have : Real.cos (a - b) = 1 := by rw [Real.cos_sub, c, d]; linarith
  obtain ⟨k, hk⟩ := (Real.cos_eq_one_iff _).1 this
  exact ⟨k, by linarith⟩

theorem small_multiple {k : ℤ} {x : ℝ} (h : x = k * (2 * Real.pi)) (h1 : -(2 * Real.pi) < x) (h2 : x < 2 * Real.pi) : x = 0 := by
  have hpi := Real.pi_pos
  have k1 : (-1 : ℝ) < k := by nlinarith
  have k2 : (k : ℝ) < 1 := by nlinarith
  have k1' : -1 < k := by exact_mod_cast k1
  have k2' : k < 1 := by exact_mod_cast k2
  have : k = 0 := by omega
  rw [h, this]
  simp

theorem guess_bounds (p1 p2 : ℝ × ℝ) : 0 ≤ phaseAdvance p1 p2 true ∧ phaseAdvance p1 p2 true < 2 * Real.pi ∧
    ∃ k : ℤ, phaseAdvance p1 p2 true = arctan2 p1.2 p1.1 - arctan2 p2.2 p2.1 + k * (2 * Real.pi) := by
  have a1 := Complex.arg_mem_Ioc ⟨p1.1, p1.2⟩
  have a2 := Complex.arg_mem_Ioc ⟨p2.1, p2.2⟩
  obtain ⟨l1, u1⟩ := a1
  obtain ⟨l2, u2⟩ := a2
  unfold phaseAdvance arctan2
  simp only [if_true]
  split_ifs with hg
  · exact ⟨by linarith, by linarith, 1, by push_cast; ring⟩
  · exact ⟨by linarith, by linarith, 0, by push_cast; ring⟩

/-- **C60.** `phase_advance` is in [0, 2π) and is the only angle there by which `p1` has to be turned clockwise to have the direction
of `p2`. -/
theorem clockwise_advance {p1 p2 : ℝ × ℝ} (h1 : p1 ≠ (0, 0)) (h2 : p2 ≠ (0, 0)) :
    0 ≤ phaseAdvance p1 p2 true ∧ phaseAdvance p1 p2 true < 2 * Real.pi ∧ Clockwise (phaseAdvance p1 p2 true) p1 p2 ∧
    ∀ θ, 0 ≤ θ → θ < 2 * Real.pi → Clockwise θ p1 p2 → θ = phaseAdvance p1 p2 true := by
  obtain ⟨b1, b2, k, hk⟩ := guess_bounds p1 p2
  obtain ⟨r1, hr1, c1, s1⟩ := polar h1
  obtain ⟨r2, hr2, c2, s2⟩ := polar h2
  refine ⟨b1, b2, ⟨r2 / r1, div_pos hr2 hr1, ?_, ?_⟩, ?_⟩
  · rw [hk, Real.cos_add_int_mul_two_pi, Real.sin_add_int_mul_two_pi]
    generalize arctan2 p1.2 p1.1 = a at *
    generalize arctan2 p2.2 p2.1 = b at *
    rw [c1, s1, c2, show r2 / r1 * (r1 * Real.cos a * Real.cos (a - b) + r1 * Real.sin a * Real.sin (a - b)) =
      r2 * (Real.cos a * Real.cos (a - b) + Real.sin a * Real.sin (a - b)) by field_simp, ← Real.cos_sub]
    ring_nf
  · rw [hk, Real.cos_add_int_mul_two_pi, Real.sin_add_int_mul_two_pi]
    generalize arctan2 p1.2 p1.1 = a at *
    generalize arctan2 p2.2 p2.1 = b at *
    rw [c1, s1, s2, show r2 / r1 * (r1 * Real.sin a * Real.cos (a - b) - r1 * Real.cos a * Real.sin (a - b)) =
      r2 * (Real.sin a * Real.cos (a - b) - Real.cos a * Real.sin (a - b)) by field_simp, ← Real.sin_sub]
    ring_nf
  · rintro θ t1 t2 ⟨r, hr, e1, e2⟩
    generalize arctan2 p1.2 p1.1 = a at *
    generalize arctan2 p2.2 p2.1 = b at *
    have d1 : r2 * Real.cos b = (r * r1) * Real.cos (a - θ) := by
      rw [← c2, e1, c1, s1, Real.cos_sub]; ring
    have d2 : r2 * Real.sin b = (r * r1) * Real.sin (a - θ) := by
      rw [← s2, e2, c1, s1, Real.sin_sub]; ring
    obtain ⟨m, hm⟩ := same_direction hr2 (mul_pos hr hr1) d1 d2
    have : θ - phaseAdvance p1 p2 true = (m - k : ℤ) * (2 * Real.pi) := by
      rw [hk]
      push_cast
      linarith
    have := small_multiple this (by linarith) (by linarith)
    linarith

/-- **C60, counterclockwise.** With `clockwise=False` the result is in (0, 2π] and is the angle of the counterclockwise rotation, unique in
that interval. -/
theorem counterclockwise_advance_partial {p1 p2 : ℝ × ℝ} (h1 : p1 ≠ (0, 0)) (h2 : p2 ≠ (0, 0)) :
    0 < phaseAdvance p1 p2 false ∧ phaseAdvance p1 p2 false ≤ 2 * Real.pi ∧ Counterclockwise (phaseAdvance p1 p2 false) p1 p2 ∧
    ∀ θ, 0 < θ → θ ≤ 2 * Real.pi → Counterclockwise θ p1 p2 → θ = phaseAdvance p1 p2 false := by
  obtain ⟨b1, b2, ⟨r, hr, e1, e2⟩, hu⟩ := clockwise_advance h1 h2
  have hf : phaseAdvance p1 p2 false = 2 * Real.pi - phaseAdvance p1 p2 true := by
    unfold phaseAdvance
    simp
  rw [hf]
  refine ⟨by linarith, by linarith, ⟨r, hr, ?_, ?_⟩, ?_⟩
  · rw [Real.cos_two_pi_sub, Real.sin_two_pi_sub, e1]; ring
  · rw [Real.cos_two_pi_sub, Real.sin_two_pi_sub, e2]; ring
  · rintro θ t1 t2 ⟨r', hr', f1, f2⟩
    have := hu (2 * Real.pi - θ) (by linarith) (by linarith) ⟨r', hr', by
      rw [Real.cos_two_pi_sub, Real.sin_two_pi_sub, f1]; ring, by
      rw [Real.cos_two_pi_sub, Real.sin_two_pi_sub, f2]; ring⟩
    linarith

/-- **C60, counterclockwise, is false for equal directions.** The advance from a point to itself is 2π. -/
theorem counterclockwise_zero_fails (p : ℝ × ℝ) (r : ℝ) (hr : 0 < r) :
    phaseAdvance p (r * p.1, r * p.2) false = 2 * Real.pi ∧ phaseAdvance p (r * p.1, r * p.2) true = 0 := by
  have : arctan2 (r * p.2) (r * p.1) = arctan2 p.2 p.1 := by
    unfold arctan2
    rw [← Complex.arg_real_mul ⟨p.1, p.2⟩ hr]
    congr 1
    apply Complex.ext <;> simp
  unfold phaseAdvance
  simp only
  rw [this, sub_self]
  simp

/-- From the positive x axis to the negative momentum axis is a quarter of a turn clockwise and three
quarters the other way. -/
example : phaseAdvance (1, 0) (0, -2) true = Real.pi / 2 ∧ phaseAdvance (1, 0) (0, -2) false = 3 * Real.pi / 2 := by
  have hpi := Real.pi_pos
  obtain ⟨_, _, _, h⟩ := clockwise_advance (p1 := (1, 0)) (p2 := (0, -2)) (by simp) (by simp)
  obtain ⟨_, _, _, h'⟩ := counterclockwise_advance_partial (p1 := (1, 0)) (p2 := (0, -2)) (by simp) (by simp)
  have e : Real.cos (3 * Real.pi / 2) = 0 ∧ Real.sin (3 * Real.pi / 2) = -1 := by
    rw [show 3 * Real.pi / 2 = Real.pi / 2 + Real.pi by ring, Real.cos_add_pi, Real.sin_add_pi]
    simp
  exact ⟨(h _ (by linarith) (by linarith) ⟨2, by norm_num, by simp, by simp⟩).symm,
    (h' _ (by linarith) (by linarith) ⟨2, by norm_num, by simp [e.1], by simp [e.2]⟩).symm⟩

end Verif.Phases
