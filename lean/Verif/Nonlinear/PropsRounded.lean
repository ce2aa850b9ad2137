import Verif.Nonlinear.Rounded
import Verif.Nonlinear.Props
import Verif.Kinematic.PropsAccuracy

/-!
# Claim C150: the nonlinear insert in double precision
-/

namespace Verif.Nonlinear

open Verif.Py Verif.Kinematic

variable (R : Rounding)

theorem isFloat_scale {x : ℝ} (h : IsFloat x) (e : ℤ) : IsFloat (x * 2 ^ e) := by
  obtain ⟨m, k, hm, rfl⟩ := h
  exact ⟨m, k + e, hm, by rw [zpow_add₀ (by norm_num), mul_assoc]⟩

theorem rnd_le_mul (x : ℝ) (h : 0 ≤ x) : R.rnd x ≤ x * (1 + 2 ^ (-53 : ℤ)) := by
  have e := R.error x
  rw [abs_of_nonneg h] at e
  have := (abs_le.1 e).2
  linarith

theorem le_rnd_mul (x : ℝ) (h : 0 ≤ x) : x * (1 - 2 ^ (-53 : ℤ)) ≤ R.rnd x := by
  have e := R.error x
  rw [abs_of_nonneg h] at e
  have := (abs_le.1 e).1
  linarith

theorem isFloat_quarter {L : ℝ} (h : IsFloat L) : IsFloat (L / 4) := by
  have := isFloat_scale h (-2)
  rwa [show L * (2 : ℝ) ^ (-2 : ℤ) = L / 4 by norm_num; ring] at this

theorem isFloat_half {L : ℝ} (h : IsFloat L) : IsFloat (L / 2) := by
  have := isFloat_scale h (-1)
  rwa [show L * (2 : ℝ) ^ (-1 : ℤ) = L / 2 by norm_num; ring] at this

theorem focal_eq {L : ℝ} (hL : IsFloat L) (T : ℝ) : rFocal R L T = R.rnd (L / 4 * R.rnd (1 + R.rnd (1 / R.rnd (T * T)))) := by
  unfold rFocal
  rw [R.fixed (isFloat_quarter hL)]

theorem focal_ge {L : ℝ} (hL : IsFloat L) (h0 : 0 < L) (T : ℝ) : L / 4 ≤ rFocal R L T := by
  rw [focal_eq R hL]
  refine R.ge_of_ge (isFloat_quarter hL) ?_
  have h1 : 0 ≤ R.rnd (1 / R.rnd (T * T)) := R.nonneg (div_nonneg zero_le_one (R.nonneg (mul_self_nonneg T)))
  have h2 : 1 ≤ R.rnd (1 + R.rnd (1 / R.rnd (T * T))) := R.ge_of_ge isFloat_one (by linarith)
  have := mul_le_mul_of_nonneg_left h2 (by linarith : 0 ≤ L / 4)
  linarith

/-- The expression below the square root is the one of a number `y` between -1 and 1. -/
theorem root_bounds {L f : ℝ} (hL : IsFloat L) (h0 : 0 < L) (hf : L / 4 ≤ f) : 0 ≤ rRoot R L f ∧ rRoot R L f ≤ 1 := by
  unfold rRoot
  rw [R.fixed (isFloat_half hL)]
  have hf0 : 0 < f := by linarith
  have hq0 : 0 ≤ R.rnd (L / 2 / f) := R.nonneg (by positivity)
  have hq2 : R.rnd (L / 2 / f) ≤ 2 := by
    refine R.le_of_le (by exact_mod_cast isFloat_zpow 1) ?_
    rw [div_le_iff₀ hf0]; linarith
  have hy : |R.rnd (1 - R.rnd (L / 2 / f))| ≤ 1 := abs_rnd_le R isFloat_one (isFloat_neg isFloat_one) (by rw [abs_le]; constructor <;> linarith)
  simp only
  generalize R.rnd (1 - R.rnd (L / 2 / f)) = y at hy
  have hyy : y * y ≤ 1 := by
    have := abs_mul_abs_self y
    have := abs_nonneg y
    nlinarith
  have h1 : R.rnd (y * y) ≤ 1 := R.le_of_le isFloat_one hyy
  have h2 : 0 ≤ R.rnd (y * y) := R.nonneg (mul_self_nonneg y)
  exact ⟨R.nonneg (by linarith), R.le_of_le isFloat_one (by linarith)⟩

theorem sq_small {T : ℝ} {e : ℤ} (h : |T| ≤ 2 ^ e) : T * T ≤ 2 ^ (2 * e) := by
  rw [← abs_mul_abs_self, two_mul, zpow_add₀ (by norm_num)]
  exact mul_le_mul h h (abs_nonneg _) (two_zpow_pos e).le

theorem sq_large {T : ℝ} {e : ℤ} (h : 2 ^ e ≤ |T|) : 2 ^ (2 * e) ≤ T * T := by
  rw [← abs_mul_abs_self, two_mul, zpow_add₀ (by norm_num)]
  exact mul_le_mul h h (two_zpow_pos e).le (abs_nonneg _)

/-- Small tangents make the inverse square large. -/
theorem inv_large {T : ℝ} (hT : T ≠ 0) {e : ℤ} (h : |T| ≤ 2 ^ e) : 2 ^ (-(2 * e)) ≤ R.rnd (1 / R.rnd (T * T)) := by
  have h1 : 0 < R.rnd (T * T) := R.pos (mul_self_pos.2 hT)
  have h2 : R.rnd (T * T) ≤ 2 ^ (2 * e) := R.le_of_le (isFloat_zpow _) (sq_small h)
  refine R.ge_of_ge (isFloat_zpow _) ?_
  rw [zpow_neg, ← one_div]
  exact one_div_le_one_div_of_le h1 h2

/-- Large tangents make it small. -/
theorem inv_small {T : ℝ} {e : ℤ} (h : 2 ^ e ≤ |T|) : R.rnd (1 / R.rnd (T * T)) ≤ 2 ^ (-(2 * e)) := by
  have h2 : 2 ^ (2 * e) ≤ R.rnd (T * T) := R.ge_of_ge (isFloat_zpow _) (sq_large h)
  refine R.le_of_le (isFloat_zpow _) ?_
  rw [zpow_neg, ← one_div]
  exact one_div_le_one_div_of_le (two_zpow_pos _) h2

theorem inv_nonneg' (T : ℝ) : 0 ≤ R.rnd (1 / R.rnd (T * T)) := R.nonneg (div_nonneg zero_le_one (R.nonneg (mul_self_nonneg T)))

/-- Small tangents: the focal length is so large that nothing is left below the square root. -/
theorem root_small {L T : ℝ} (hL : IsFloat L) (h0 : 0 < L) (hT : T ≠ 0) (h : |T| ≤ 2 ^ (-28 : ℤ)) :
    L * 2 ^ (54 : ℤ) ≤ rFocal R L T ∧ rRoot R L (rFocal R L T) = 0 := by
  have h1 := inv_large R hT h
  have h2 : (2 : ℝ) ^ (56 : ℤ) ≤ R.rnd (1 + R.rnd (1 / R.rnd (T * T))) := by
    refine R.ge_of_ge (isFloat_zpow _) ?_
    norm_num at h1 ⊢
    linarith
  have h3 : L * 2 ^ (54 : ℤ) ≤ rFocal R L T := by
    rw [focal_eq R hL]
    refine R.ge_of_ge (isFloat_scale hL _) ?_
    have := mul_le_mul_of_nonneg_left h2 (by linarith : 0 ≤ L / 4)
    norm_num at this ⊢
    linarith
  refine ⟨h3, ?_⟩
  have hf0 : 0 < rFocal R L T := lt_of_lt_of_le (by positivity) h3
  unfold rRoot
  rw [R.fixed (isFloat_half hL)]
  have hq : R.rnd (L / 2 / rFocal R L T) ≤ 2 ^ (-55 : ℤ) := by
    refine R.le_of_le (isFloat_zpow _) ?_
    rw [div_le_iff₀ hf0]
    norm_num at h3 ⊢
    linarith
  have hy : R.rnd (1 - R.rnd (L / 2 / rFocal R L T)) = 1 :=
    rnd_one_sub R (R.nonneg (by positivity)) (lt_of_le_of_lt hq (by norm_num))
  simp only [hy, mul_one, Rounding.rnd_one, sub_self, Rounding.rnd_zero]

/-- Large tangents: the focal length is a quarter of the length. -/
theorem root_large {L T : ℝ} (hL : IsFloat L) (h0 : 0 < L) (h : 2 ^ (28 : ℤ) ≤ |T|) :
    rFocal R L T = L / 4 ∧ rRoot R L (rFocal R L T) = 0 := by
  have h1 := inv_small R h
  have h2 : R.rnd (1 + R.rnd (1 / R.rnd (T * T))) = 1 := by
    rw [add_comm]
    exact rnd_one_add_small R (inv_nonneg' R T) (lt_of_le_of_lt h1 (by norm_num))
  have h3 : rFocal R L T = L / 4 := by
    rw [focal_eq R hL, h2, mul_one, R.fixed (isFloat_quarter hL)]
  refine ⟨h3, ?_⟩
  unfold rRoot
  rw [h3, R.fixed (isFloat_half hL), show L / 2 / (L / 4) = 2 by field_simp; norm_num, R.fixed (x := 2) (by exact_mod_cast isFloat_zpow 1)]
  have : R.rnd (1 - 2) = -1 := by rw [show (1 : ℝ) - 2 = -1 by norm_num, R.odd, R.rnd_one]
  simp only [this]
  norm_num

theorem over_zero {a root : ℝ} (h : root = 0) : rOver R a root = fdiv R a 0 := by
  subst h
  unfold rOver rsqrt
  simp

theorem fdiv_zero_not (a : ℝ) : (fdiv R a 0 = .inf ∧ 0 < a) ∨ (fdiv R a 0 = .ninf ∧ a < 0) ∨ (fdiv R a 0 = .nan ∧ a = 0) := by
  unfold fdiv
  rw [if_pos rfl]
  rcases lt_trichotomy a 0 with h | h | h
  · rw [if_neg (by linarith), if_pos h]; exact Or.inr (Or.inl ⟨rfl, h⟩)
  · subst h; simp
  · rw [if_pos h]; exact Or.inl ⟨rfl, h⟩

/-- Strengths are nan wherever the beta function is not a number. -/
theorem knll_nan (t L : ℝ) (n : ℕ) (c : ℝ) {b : FVal} (h : ∀ x, b ≠ .num x) : rKnll R t L n c b = .nan := by
  cases b with
  | num x => exact absurd rfl (h x)
  | nan => simp [rKnll, rCnll, fsq, fsqrt, funder, fmul, FVal.scale]
  | ninf => simp [rKnll, rCnll, fsq, fsqrt, funder, fmul, FVal.scale]
  | inf =>
    simp only [rKnll, rCnll, fsq, fsqrt, funder, FVal.scale]
    by_cases h1 : 0 < c
    · simp [h1, fmul, FVal.scale]
    · by_cases h2 : c < 0
      · simp [h1, h2, fmul, FVal.scale]
      · simp [h1, h2, fmul, FVal.scale]

/-- **C150, a small tangent.** If the tangent of the phase is at most `2 ^ -28` in magnitude, all beta functions are infinite and
all strengths are nan. -/
theorem insert_small_fails {L T : ℝ} (hL : IsFloat L) (h0 : 0 < L) (hT : T ≠ 0) (h : |T| ≤ 2 ^ (-28 : ℤ)) (t : ℝ) (n : ℕ) (c : ℝ) :
    rBeta0 R L T = .inf ∧ ∀ s, 0 ≤ s → s ≤ L → rBetaAt R L T s = .inf ∧ rKnll R t L n c (rBetaAt R L T s) = .nan := by
  obtain ⟨h1, h2⟩ := root_small R hL h0 hT h
  have hf0 : 0 < rFocal R L T := lt_of_lt_of_le (by positivity) h1
  have key : ∀ s, 0 ≤ s → s ≤ L → rBetaAt R L T s = .inf := by
    intro s hs0 hsL
    unfold rBetaAt
    simp only
    rw [over_zero R h2]
    have ha : 0 ≤ R.rnd (L - s) := R.nonneg (by linarith)
    have hb : R.rnd (L - s) ≤ L := R.le_of_le hL (by linarith)
    have hc0 : 0 ≤ R.rnd (s * R.rnd (L - s)) := R.nonneg (mul_nonneg hs0 ha)
    have hc : R.rnd (s * R.rnd (L - s)) ≤ 2 * (L * L) := by
      have e := R.error (s * R.rnd (L - s))
      have : s * R.rnd (L - s) ≤ L * L := mul_le_mul hsL hb ha h0.le
      have p := mul_nonneg hs0 ha
      rw [abs_of_nonneg p] at e
      have := (abs_le.1 e).2
      have u : (2 : ℝ) ^ (-53 : ℤ) ≤ 1 := by norm_num
      nlinarith
    have hd : R.rnd (R.rnd (s * R.rnd (L - s)) / L) ≤ L * 2 ^ (1 : ℤ) := by
      refine R.le_of_le (isFloat_scale hL 1) ?_
      rw [div_le_iff₀ h0]
      norm_num
      linarith
    have he : R.rnd (R.rnd (R.rnd (s * R.rnd (L - s)) / L) / rFocal R L T) ≤ 2 ^ (-53 : ℤ) := by
      refine R.le_of_le (isFloat_zpow _) ?_
      rw [div_le_iff₀ hf0]
      norm_num at h1 hd ⊢
      linarith
    have hg : 0 < R.rnd (1 - R.rnd (R.rnd (R.rnd (s * R.rnd (L - s)) / L) / rFocal R L T)) := by
      apply R.pos
      have : (2 : ℝ) ^ (-53 : ℤ) < 1 := by norm_num
      linarith
    have hn := R.pos (mul_pos h0 hg)
    unfold fdiv
    rw [if_pos rfl, if_pos hn]
  refine ⟨?_, fun s hs0 hsL => ⟨key s hs0 hsL, knll_nan R t L n c (by rw [key s hs0 hsL]; simp)⟩⟩
  have h3 := key 0 le_rfl h0.le
  unfold rBetaAt at h3
  unfold rBeta0
  simpa using h3

/-- A phase of 10^-9. -/
example : (1 / 300000000 : ℝ) ≠ 0 ∧ |(1 / 300000000 : ℝ)| ≤ 2 ^ (-28 : ℤ) := by
  rw [abs_of_pos (by norm_num)]; norm_num

/-- **C150, a large tangent.** If the tangent is at least `2 ^ 28` in magnitude, no beta function is a number and all strengths
are nan. -/
theorem insert_large_fails {L T : ℝ} (hL : IsFloat L) (h0 : 0 < L) (h : 2 ^ (28 : ℤ) ≤ |T|) (t : ℝ) (n : ℕ) (c : ℝ) :
    rBeta0 R L T = .inf ∧ ∀ s, (∀ x, rBetaAt R L T s ≠ .num x) ∧ rKnll R t L n c (rBetaAt R L T s) = .nan := by
  obtain ⟨h1, h2⟩ := root_large R hL h0 h
  have key : ∀ s x, rBetaAt R L T s ≠ .num x := by
    intro s x
    unfold rBetaAt
    simp only
    rw [over_zero R h2]
    rcases fdiv_zero_not R (R.rnd (L * R.rnd (1 - R.rnd (R.rnd (R.rnd (s * R.rnd (L - s)) / L) / rFocal R L T)))) with ⟨h, _⟩ | ⟨h, _⟩ | ⟨h, _⟩ <;>
      rw [h] <;> simp
  refine ⟨?_, fun s => ⟨key s, knll_nan R t L n c (key s)⟩⟩
  unfold rBeta0
  simp only
  rw [over_zero R h2]
  have : R.rnd (L * R.rnd (1 - R.rnd (R.rnd (R.rnd (0 * L) / L) / rFocal R L T))) = L := by simp [R.fixed hL]
  rw [this]
  unfold fdiv
  rw [if_pos rfl, if_pos h0]

/-- The tangent of the float next to π/2. -/
example : (2 : ℝ) ^ (28 : ℤ) ≤ |16331239353195370| := by
  rw [abs_of_pos (by norm_num)]; norm_num

/-- Below the square root something is left for tangents between `2 ^ -26` and `2 ^ 26`. -/
theorem root_pos {L T : ℝ} (hL : IsFloat L) (h0 : 0 < L) (h1 : 2 ^ (-26 : ℤ) ≤ |T|) (h2 : |T| ≤ 2 ^ (26 : ℤ)) :
    0 < rRoot R L (rFocal R L T) := by
  have hT : T ≠ 0 := by
    rintro rfl
    rw [abs_zero] at h1
    exact absurd h1 (not_le.2 (two_zpow_pos _))
  have hf := focal_ge R hL h0 T
  have hf0 : 0 < rFocal R L T := by linarith
  have hs := inv_small R h1
  have hl := inv_large R hT h2
  -- upper bound of the focal length
  have hg2 : R.rnd (1 + R.rnd (1 / R.rnd (T * T))) ≤ 2 ^ (53 : ℤ) := by
    refine R.le_of_le (isFloat_zpow _) ?_
    norm_num at hs ⊢
    linarith
  have hfu : rFocal R L T ≤ L * 2 ^ (51 : ℤ) := by
    rw [focal_eq R hL]
    refine R.le_of_le (isFloat_scale hL _) ?_
    have := mul_le_mul_of_nonneg_left hg2 (by linarith : 0 ≤ L / 4)
    norm_num at this ⊢
    linarith
  -- it is not a quarter of the length
  have hg1 : 1 + 2 ^ (-52 : ℤ) ≤ R.rnd (1 + R.rnd (1 / R.rnd (T * T))) := by
    refine R.ge_of_ge ⟨2 ^ 52 + 1, -52, by norm_num, by norm_num⟩ ?_
    norm_num at hl ⊢
    linarith
  have hfl : L / 4 < rFocal R L T := by
    rw [focal_eq R hL]
    have hp := mul_le_mul_of_nonneg_left hg1 (by linarith : 0 ≤ L / 4)
    have := le_rnd_mul R (L / 4 * R.rnd (1 + R.rnd (1 / R.rnd (T * T)))) (le_trans (by positivity) hp)
    have u2 : (2 : ℝ) ^ (-53 : ℤ) = 1 / 9007199254740992 := by norm_num
    have u3 : (2 : ℝ) ^ (-52 : ℤ) = 1 / 4503599627370496 := by norm_num
    rw [u2] at this
    rw [u3] at hp
    nlinarith
  have hgap := IsFloat.gap_rel (by unfold rFocal; exact R.isFloat _) (isFloat_quarter hL) hf0 hfl
  have hq1 : 2 ^ (-52 : ℤ) ≤ R.rnd (L / 2 / rFocal R L T) := by
    refine R.ge_of_ge (isFloat_zpow _) ?_
    rw [le_div_iff₀ hf0]
    norm_num at hfu ⊢
    linarith
  have hq2 : R.rnd (L / 2 / rFocal R L T) ≤ 2 - 2 ^ (-52 : ℤ) := by
    refine R.le_of_le ⟨2 ^ 53 - 1, -52, by norm_num, by norm_num⟩ ?_
    rw [div_le_iff₀ hf0]
    norm_num at hgap ⊢
    linarith
  unfold rRoot
  rw [R.fixed (isFloat_half hL)]
  simp only
  have hF : IsFloat (1 - 2 ^ (-52 : ℤ)) := ⟨2 ^ 52 - 1, -52, by norm_num, by norm_num⟩
  have hy : |R.rnd (1 - R.rnd (L / 2 / rFocal R L T))| ≤ 1 - 2 ^ (-52 : ℤ) :=
    abs_rnd_le R hF (isFloat_neg hF) (by rw [abs_le]; constructor <;> linarith)
  generalize R.rnd (1 - R.rnd (L / 2 / rFocal R L T)) = y at hy
  have hyy : y * y ≤ 1 - 2 ^ (-52 : ℤ) := by
    have := abs_mul_abs_self y
    have := abs_nonneg y
    have u3 : (2 : ℝ) ^ (-52 : ℤ) = 1 / 4503599627370496 := by norm_num
    rw [u3] at hy ⊢
    nlinarith
  have := R.le_of_le hF hyy
  exact R.pos (by linarith [two_zpow_pos (-52)])

theorem over_pos {a root : ℝ} (ha : 0 < a) (hr : 0 < root) : ∃ b, rOver R a root = .num b ∧ 0 < b := by
  have h1 : 0 < R.rnd (Real.sqrt root) := R.pos (Real.sqrt_pos.2 hr)
  refine ⟨R.rnd (a / R.rnd (Real.sqrt root)), ?_, R.pos (by positivity)⟩
  unfold rOver rsqrt
  rw [if_neg (by linarith)]
  simp only [fdiv, if_neg h1.ne']

/-- **C150, other tangents.** If the tangent is between `2 ^ -26` and `2 ^ 25` in magnitude, all beta functions are positive numbers
and all strengths and apertures are numbers. -/
theorem insert_finite_partial {L T : ℝ} (hL : IsFloat L) (h0 : 0 < L) (h1 : 2 ^ (-26 : ℤ) ≤ |T|) (h2 : |T| ≤ 2 ^ (25 : ℤ)) (t : ℝ) (n : ℕ) (c : ℝ) :
    (∃ b, rBeta0 R L T = .num b ∧ 0 < b) ∧ ∀ s, 0 ≤ s → s ≤ L → ∃ b k a, rBetaAt R L T s = .num b ∧ 0 < b ∧
      rKnll R t L n c (.num b) = .num k ∧ rCnll R c (.num b) = .num a := by
  have hr := root_pos R hL h0 h1 (h2.trans (by norm_num))
  have hT : T ≠ 0 := by
    rintro rfl
    rw [abs_zero] at h1
    exact absurd h1 (not_le.2 (two_zpow_pos _))
  have hl := inv_large R hT h2
  have hg1 : 1 + 2 ^ (-50 : ℤ) ≤ R.rnd (1 + R.rnd (1 / R.rnd (T * T))) := by
    refine R.ge_of_ge ⟨2 ^ 50 + 1, -50, by norm_num, by norm_num⟩ ?_
    norm_num at hl ⊢
    linarith
  have u2 : (2 : ℝ) ^ (-53 : ℤ) = 1 / 9007199254740992 := by norm_num
  have hfl : L / 4 * (1 + 6.5 * 2 ^ (-53 : ℤ)) ≤ rFocal R L T := by
    rw [focal_eq R hL]
    have hp := mul_le_mul_of_nonneg_left hg1 (by linarith : 0 ≤ L / 4)
    have := le_rnd_mul R (L / 4 * R.rnd (1 + R.rnd (1 / R.rnd (T * T)))) (le_trans (by positivity) hp)
    have u3 : (2 : ℝ) ^ (-50 : ℤ) = 1 / 1125899906842624 := by norm_num
    rw [u2] at this ⊢
    rw [u3] at hp
    nlinarith
  have hf0 : 0 < rFocal R L T := lt_of_lt_of_le (by positivity) hfl
  refine ⟨?_, fun s hs0 hsL => ?_⟩
  · unfold rBeta0
    simp only
    have : R.rnd (L * R.rnd (1 - R.rnd (R.rnd (R.rnd (0 * L) / L) / rFocal R L T))) = L := by simp [R.fixed hL]
    rw [this]
    exact over_pos R h0 hr
  · have hd0 : 0 ≤ L - s := by linarith
    have ha0 := R.nonneg hd0
    have ha := rnd_le_mul R _ hd0
    have hb0 := R.nonneg (mul_nonneg hs0 ha0)
    have hb := rnd_le_mul R _ (mul_nonneg hs0 ha0)
    have hc := rnd_le_mul R _ (div_nonneg hb0 h0.le)
    have hc0 := R.nonneg (div_nonneg hb0 h0.le)
    have hs : s * (L - s) ≤ L / 4 * L := by nlinarith [sq_nonneg (L - 2 * s)]
    generalize hA : R.rnd (L - s) = A at *
    generalize hB : R.rnd (s * A) = B at *
    generalize hC : R.rnd (B / L) = C at *
    have k1 : s * A ≤ L / 4 * L * (1 + 2 ^ (-53 : ℤ)) := by
      have := mul_le_mul_of_nonneg_left ha hs0
      have w : (0 : ℝ) ≤ 1 + 2 ^ (-53 : ℤ) := by positivity
      rw [← mul_assoc] at this
      exact this.trans (mul_le_mul_of_nonneg_right hs w)
    have w : (0 : ℝ) ≤ 1 + 2 ^ (-53 : ℤ) := by positivity
    have k2 : B ≤ L / 4 * L * (1 + 2 ^ (-53 : ℤ)) * (1 + 2 ^ (-53 : ℤ)) := hb.trans (mul_le_mul_of_nonneg_right k1 w)
    have k3 : B / L ≤ L / 4 * (1 + 2 ^ (-53 : ℤ)) * (1 + 2 ^ (-53 : ℤ)) := by
      rw [div_le_iff₀ h0]
      refine k2.trans (le_of_eq (by ring))
    have k4 : C ≤ L / 4 * ((1 + 2 ^ (-53 : ℤ)) * (1 + 2 ^ (-53 : ℤ)) * (1 + 2 ^ (-53 : ℤ))) :=
      (hc.trans (mul_le_mul_of_nonneg_right k3 w)).trans (le_of_eq (by ring))
    have k5 : (1 + (2 : ℝ) ^ (-53 : ℤ)) * (1 + 2 ^ (-53 : ℤ)) * (1 + 2 ^ (-53 : ℤ)) ≤ (1 - 2 ^ (-52 : ℤ)) * (1 + 6.5 * 2 ^ (-53 : ℤ)) := by norm_num
    have k6 : C / rFocal R L T ≤ 1 - 2 ^ (-52 : ℤ) := by
      rw [div_le_iff₀ hf0]
      have q : (0 : ℝ) ≤ 1 - 2 ^ (-52 : ℤ) := by norm_num
      have m1 := mul_le_mul_of_nonneg_left hfl q
      have m2 := mul_le_mul_of_nonneg_left k5 (by linarith : 0 ≤ L / 4)
      rw [mul_left_comm (L / 4) (1 - 2 ^ (-52 : ℤ))] at m2
      exact k4.trans (m2.trans m1)
    have k7 : R.rnd (C / rFocal R L T) ≤ 1 - 2 ^ (-52 : ℤ) := R.le_of_le ⟨2 ^ 52 - 1, -52, by norm_num, by norm_num⟩ k6
    have k8 : 0 < R.rnd (1 - R.rnd (C / rFocal R L T)) := R.pos (by linarith [two_zpow_pos (-52)])
    obtain ⟨b, e1, e2⟩ := over_pos R (R.pos (mul_pos h0 k8)) hr
    have hbb := R.pos (mul_pos e2 e2)
    refine ⟨b, R.rnd (R.rnd (R.rnd (R.rnd (t * L) / n) / R.rnd (b * b)) * R.rnd (R.rnd (c * R.rnd (Real.sqrt b)) * R.rnd (c * R.rnd (Real.sqrt b)))),
      R.rnd (c * R.rnd (Real.sqrt b)), ?_, e2, ?_, ?_⟩
    · unfold rBetaAt
      simp only
      rw [hA, hB, hC]
      exact e1
    · simp only [rKnll, rCnll, fsq, fsqrt, funder, fdiv, rsqrt, if_neg hbb.ne', if_neg (not_lt.2 e2.le), FVal.scale, fmul]
    · simp only [rCnll, fsqrt, rsqrt, if_neg (not_lt.2 e2.le), FVal.scale]

/-- A phase of about 0.3. -/
example : IsFloat (3 / 2) ∧ (0 : ℝ) < 3 / 2 ∧ (2 : ℝ) ^ (-26 : ℤ) ≤ |11 / 8| ∧ |(11 / 8 : ℝ)| ≤ 2 ^ (25 : ℤ) := by
  refine ⟨⟨3, -1, by norm_num, by norm_num⟩, by norm_num, ?_, ?_⟩ <;> rw [abs_of_pos (by norm_num)] <;> norm_num

end Verif.Nonlinear
