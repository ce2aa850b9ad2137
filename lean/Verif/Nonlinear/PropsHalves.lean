import Mathlib.Analysis.Real.Pi.Irrational
import Mathlib.Analysis.Real.Pi.Bounds
import Mathlib.Analysis.SpecialFunctions.Trigonometric.Complex
import Verif.Nonlinear.PropsRounded

/-!
# Claim C150: phases that are multiples of one half
-/

namespace Verif.Nonlinear

open Verif.Py Verif.Kinematic

variable (R : Rounding)

/-- `np.pi`. -/
noncomputable def npPi : ℝ := 884279719003555 * 2 ^ (-48 : ℤ)

theorem npPi_near : |npPi - Real.pi| ≤ 2 ^ (-52 : ℤ) := by
  have h1 := Real.pi_gt_d20
  have h2 := Real.pi_lt_d20
  unfold npPi
  rw [abs_le]
  constructor <;> norm_num <;> norm_num at h1 h2 <;> linarith

theorem isFloat_rat {x : ℝ} (h : IsFloat x) : ∃ q : ℚ, x = q := by
  obtain ⟨m, e, _, rfl⟩ := h
  exact ⟨m * (2 : ℚ) ^ e, by push_cast; rfl⟩

/-- A nonzero number of double precision is no multiple of π/2. -/
theorem not_multiple {x : ℝ} (h : IsFloat x) (h0 : x ≠ 0) (k : ℤ) : x ≠ k * Real.pi / 2 := by
  intro hx
  obtain ⟨q, hq⟩ := isFloat_rat h
  have hk : k ≠ 0 := by
    rintro rfl
    simp at hx
    exact h0 hx
  have hkr : (k : ℝ) ≠ 0 := by exact_mod_cast hk
  refine irrational_pi ⟨2 * q / k, ?_⟩
  push_cast
  rw [← hq, hx]
  field_simp

/-- The rounded argument of the tangent is near the multiple of π/2. -/
theorem argument_near {k : ℤ} (hk : |k| ≤ 2 ^ 20) : |R.rnd (npPi * (k / 2)) - k * Real.pi / 2| ≤ 2 ^ (-30 : ℤ) := by
  have h1 := npPi_near
  have h2 := R.error (npPi * (k / 2))
  have hkr : |(k : ℝ)| ≤ 2 ^ 20 := by exact_mod_cast hk
  have h3 : |npPi * (k / 2)| ≤ 2 * |(k : ℝ)| := by
    rw [abs_mul, abs_div, abs_of_pos (by unfold npPi; positivity), abs_of_pos (by norm_num : (0 : ℝ) < 2)]
    have : npPi ≤ 4 := by unfold npPi; norm_num
    nlinarith [abs_nonneg (k : ℝ)]
  have h4 : npPi * (k / 2) - k * Real.pi / 2 = (npPi - Real.pi) * (k / 2) := by ring
  have h5 : |(npPi - Real.pi) * (k / 2)| ≤ 2 ^ (-52 : ℤ) * (2 ^ 20 / 2) := by
    rw [abs_mul, abs_div, abs_of_pos (by norm_num : (0 : ℝ) < 2)]
    exact mul_le_mul h1 (by linarith) (by positivity) (by positivity)
  have h6 : |npPi * (k / 2)| * 2 ^ (-53 : ℤ) ≤ 2 * 2 ^ 20 * 2 ^ (-53 : ℤ) := by
    refine mul_le_mul_of_nonneg_right (h3.trans (by linarith)) (by positivity)
  have h7 := abs_sub_le (R.rnd (npPi * (k / 2))) (npPi * (k / 2)) (k * Real.pi / 2)
  rw [h4] at h7
  refine h7.trans ((add_le_add (h2.trans h6) h5).trans ?_)
  norm_num

/-- **C150, multiples of one half.** For every phase `k / 2` other than zero and every tangent that is right to one half of itself,
the initial beta function is infinite and all strengths are nan. -/
theorem insert_halves_fails {L T : ℝ} (hL : IsFloat L) (h0 : 0 < L) {k : ℤ} (hk0 : k ≠ 0) (hk : |k| ≤ 2 ^ 20)
    (hT : |T - Real.tan (R.rnd (npPi * (k / 2)))| ≤ |Real.tan (R.rnd (npPi * (k / 2)))| / 2) (t : ℝ) (n : ℕ) (c : ℝ) :
    rBeta0 R L T = .inf ∧ ∀ s, 0 ≤ s → s ≤ L → (∀ x, rBetaAt R L T s ≠ .num x) ∧ rKnll R t L n c (rBetaAt R L T s) = .nan := by
  have hd := argument_near R hk
  have hx : IsFloat (R.rnd (npPi * (k / 2))) := R.isFloat _
  have hx0 : R.rnd (npPi * (k / 2)) ≠ 0 := by
    intro h
    have := R.eq_zero h
    have hp : npPi ≠ 0 := by unfold npPi; positivity
    have hkr : (k : ℝ) / 2 ≠ 0 := by
      have : (k : ℝ) ≠ 0 := by exact_mod_cast hk0
      positivity
    exact mul_ne_zero hp hkr this
  have hnm := not_multiple hx hx0
  generalize R.rnd (npPi * (k / 2)) = x at *
  have htan : Real.tan x ≠ 0 := by
    rw [Ne, Real.tan_eq_zero_iff]
    rintro ⟨j, hj⟩
    exact hnm j hj.symm
  have hTu : |T| ≤ 2 * |Real.tan x| := by
    have := abs_sub_abs_le_abs_sub T (Real.tan x)
    linarith [abs_nonneg (Real.tan x)]
  have hTl : |Real.tan x| / 2 ≤ |T| := by
    have := abs_sub_abs_le_abs_sub (Real.tan x) T
    rw [abs_sub_comm] at this
    linarith
  have hT0 : T ≠ 0 := by
    rintro rfl
    rw [abs_zero] at hTl
    have := abs_pos.2 htan
    linarith
  obtain ⟨d, rfl⟩ : ∃ d, x = k * Real.pi / 2 + d := ⟨x - k * Real.pi / 2, by ring⟩
  rw [add_sub_cancel_left] at hd
  have hsin : |Real.sin d| ≤ 2 ^ (-30 : ℤ) := Real.abs_sin_le_abs.trans hd
  have hcos : 1 / 2 ≤ Real.cos d := by
    have h1 := Real.one_sub_sq_div_two_le_cos (x := d)
    have h2 : d ^ 2 ≤ 1 := by
      rw [← sq_abs]
      have : |d| ≤ 1 := hd.trans (by norm_num)
      nlinarith [abs_nonneg d]
    linarith
  rcases Int.even_or_odd' k with ⟨j, rfl | rfl⟩
  · have h1 : Real.tan (((2 * j : ℤ) : ℝ) * Real.pi / 2 + d) = Real.tan d := by
      rw [show ((2 * j : ℤ) : ℝ) * Real.pi / 2 + d = d + j * Real.pi by push_cast; ring]
      exact Real.tan_add_int_mul_pi d j
    rw [h1] at hTu
    have h2 : |Real.tan d| ≤ 2 ^ (-29 : ℤ) := by
      rw [Real.tan_eq_sin_div_cos, abs_div, abs_of_pos (by linarith : 0 < Real.cos d), div_le_iff₀ (by linarith)]
      norm_num at hsin ⊢
      linarith
    have h3 : |T| ≤ 2 ^ (-28 : ℤ) := by
      norm_num at h2 ⊢
      linarith
    obtain ⟨b0, hs⟩ := insert_small_fails R hL h0 hT0 h3 t n c
    exact ⟨b0, fun s h h' => ⟨by rw [(hs s h h').1]; simp, (hs s h h').2⟩⟩
  · have h1 : |Real.tan (((2 * j + 1 : ℤ) : ℝ) * Real.pi / 2 + d)| = Real.cos d / |Real.sin d| := by
      rw [show ((2 * j + 1 : ℤ) : ℝ) * Real.pi / 2 + d = (d + Real.pi / 2) + j * Real.pi by push_cast; ring, Real.tan_add_int_mul_pi,
        Real.tan_eq_sin_div_cos, Real.sin_add_pi_div_two, Real.cos_add_pi_div_two, abs_div, abs_neg, abs_of_pos (by linarith : 0 < Real.cos d)]
    have hs0 : 0 < |Real.sin d| := by
      rcases (abs_nonneg (Real.sin d)).eq_or_lt with h | h
      · rw [h1, ← h, div_zero] at hTl
        rw [← abs_pos, h1, ← h, div_zero] at htan
        exact absurd htan (lt_irrefl _)
      · exact h
    have h2 : 2 ^ (29 : ℤ) ≤ Real.cos d / |Real.sin d| := by
      rw [le_div_iff₀ hs0]
      norm_num at hsin ⊢
      linarith
    have h3 : 2 ^ (28 : ℤ) ≤ |T| := by
      rw [h1] at hTl
      norm_num at h2 ⊢
      linarith
    obtain ⟨b0, hs⟩ := insert_large_fails R hL h0 h3 t n c
    exact ⟨b0, fun s _ _ => hs s⟩

/-- An insert of phase one and length 1.8 or so, with the right tangent. -/
example (t c : ℝ) : ∃ L T : ℝ, 0 < L ∧ rBeta0 R L T = .inf ∧ rKnll R t L 20 c (rBetaAt R L T (L / 2)) = .nan := by
  have h := insert_halves_fails R (L := 15 / 8) (T := Real.tan (R.rnd (npPi * ((2 : ℤ) / 2)))) ⟨15, -3, by norm_num, by norm_num⟩ (by norm_num)
    (k := 2) (by norm_num) (by norm_num) (by rw [sub_self, abs_zero]; positivity) t 20 c
  exact ⟨_, _, by norm_num, h.1, (h.2 _ (by norm_num) (by norm_num)).2⟩

end Verif.Nonlinear
