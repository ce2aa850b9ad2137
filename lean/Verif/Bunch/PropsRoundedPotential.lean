import Verif.Bunch.LemmasRoundedPotential

/-!
# C156: where the elliptic potential is a number in double precision
-/

namespace Verif.Bunch

open Verif.Py Verif.Kinematic Verif.Nonlinear

variable (R : Rounding)

theorem rV_nonneg {x : ℝ} (h0 : 0 ≤ x) (y : ℝ) : 0 ≤ rV R x y := by
  have h : |R.rnd (x - 1)| ≤ |R.rnd (x + 1)| := by
    rw [abs_of_nonneg (a := R.rnd (x + 1)) (R.nonneg (by linarith)), abs_le, ← R.odd]
    exact ⟨R.mono (by linarith), R.mono (by linarith)⟩
  have := rRadius_mono R y h
  exact R.nonneg (div_nonneg (R.nonneg (by linarith)) (by norm_num))

/-- The difference of the radii. -/
theorem rV_lt {x y : ℝ} (h0 : 0 ≤ x) (h1 : x ≤ 1 - 2 ^ (-45 : ℤ)) (hy : |y| ≤ 2 ^ 40) :
    rRadius R (R.rnd (x + 1)) y - rRadius R (R.rnd (x - 1)) y ≤ 2 - 2 ^ (-48 : ℤ) := by
  have hx1 : x < 1 := lt_of_le_of_lt h1 (by norm_num)
  have p1 : 0 < (x + 1) ^ 2 + y ^ 2 := by positivity
  have p2 : 0 < (x - 1) ^ 2 + y ^ 2 := by
    have : 0 < (x - 1) ^ 2 := by rw [sq_pos_iff]; linarith
    positivity
  have n1 := rRadius_near R (x + 1) y p1
  have n2 := rRadius_near R (x - 1) y p2
  have q1 := Real.sq_sqrt p1.le
  have q2 := Real.sq_sqrt p2.le
  have l1 : x + 1 ≤ √((x + 1) ^ 2 + y ^ 2) := Real.le_sqrt_of_sq_le (by nlinarith)
  have l2 : 1 - x ≤ √((x - 1) ^ 2 + y ^ 2) := Real.le_sqrt_of_sq_le (by nlinarith)
  have u1 : √((x + 1) ^ 2 + y ^ 2) ≤ 2 + 2 ^ 40 := by
    rw [Real.sqrt_le_left (by norm_num), ← sq_abs y]
    nlinarith [abs_nonneg y]
  have u2 : √((x - 1) ^ 2 + y ^ 2) ≤ 2 + 2 ^ 40 := by
    rw [Real.sqrt_le_left (by norm_num), ← sq_abs y]
    nlinarith [abs_nonneg y]
  unfold Near at n1 n2
  rw [abs_of_nonneg (a := √_) (Real.sqrt_nonneg _), abs_le] at n1 n2
  generalize √((x + 1) ^ 2 + y ^ 2) = s1 at *
  generalize √((x - 1) ^ 2 + y ^ 2) = s2 at *
  have d : (s1 - s2) * (s1 + s2) = 4 * x := by nlinarith
  have hS : 2 ≤ s1 + s2 := by linarith
  have hS' : s1 + s2 ≤ 2 ^ 42 := by linarith
  have key : (s1 - s2) + 2 ^ (-51 : ℤ) * (s1 + s2) ≤ 2 - 2 ^ (-48 : ℤ) := by
    generalize hSd : s1 + s2 = S at *
    generalize s1 - s2 = D at *
    by_contra hc
    push Not at hc
    have := mul_lt_mul_of_pos_right hc (by linarith : 0 < S)
    norm_num at *
    nlinarith [mul_nonneg (sub_nonneg.2 hS) (sub_nonneg.2 hS')]
  linarith [n1.2, n2.1]

/-- The second coordinate inside of the poles. -/
theorem rV_lt_one {x y : ℝ} (h1 : |x| ≤ 1 - 2 ^ (-45 : ℤ)) (hy : |y| ≤ 2 ^ 40) : |rV R x y| < 1 := by
  wlog h0 : 0 ≤ x with H
  · have := H R (x := -x) (by rwa [abs_neg]) hy (by linarith)
    rwa [rV_neg, abs_neg] at this
  rw [abs_of_nonneg (rV_nonneg R h0 y)]
  rw [abs_of_nonneg h0] at h1
  have h2 := rV_lt R h0 h1 hy
  have f : IsFloat (2 - 2 ^ (-48 : ℤ) : ℝ) := ⟨2 ^ 49 - 1, -48, by norm_num, by norm_num⟩
  have h3 := R.le_of_le f h2
  have f' : IsFloat (1 - 2 ^ (-49 : ℤ) : ℝ) := ⟨2 ^ 49 - 1, -49, by norm_num, by norm_num⟩
  have h4 : rV R x y ≤ 1 - 2 ^ (-49 : ℤ) := R.le_of_le f' (by norm_num at h3 ⊢; linarith)
  exact lt_of_le_of_lt h4 (by norm_num)

theorem isFloat_rU (x y : ℝ) : IsFloat (rU R x y) := R.isFloat _

theorem isFloat_rV (x y : ℝ) : IsFloat (rV R x y) := R.isFloat _

/-- `elliptic` is a number. -/
theorem elliptic_num (F : Arc) {u v : ℝ} (fv : IsFloat v) (hu : 1 ≤ u) (hv : |v| < 1) : ∃ p, rElliptic R F u v = .num p := by
  have h1 : 1 ≤ R.rnd (u * u) := R.ge_of_ge isFloat_one (by nlinarith)
  have h2 : R.rnd (v * v) ≤ |v| := R.le_of_le (isFloat_abs fv) (by rw [← abs_mul_abs_self]; nlinarith [abs_nonneg v])
  have h3 : 0 ≤ R.rnd (R.rnd (u * u) - 1) := R.nonneg (by linarith)
  have h4 : 0 ≤ R.rnd (1 - R.rnd (v * v)) := R.nonneg (by linarith)
  have h5 : R.rnd (R.rnd (u * u) - R.rnd (v * v)) ≠ 0 := (R.pos (by linarith)).ne'
  unfold rElliptic rsqrt fdiv
  rw [if_neg (not_lt.2 h3), if_neg (not_lt.2 h4)]
  simp only []
  rw [if_neg (not_or.2 ⟨not_lt.2 hu, not_lt.2 hv.le⟩), if_neg h5]
  exact ⟨_, rfl⟩

/-- C156: between the poles, and not too far from the axis, the potential is a number. -/
theorem potential_number_partial (hR : R.TiesEven) (F : Arc) {t c x y : ℝ} (hc : c ≠ 0)
    (hx : |x| ≤ |c| * (1 - 2 ^ (-44 : ℤ))) (hy : |y| ≤ |c| * 2 ^ 39) : ∃ p, rPotential R F t c x y = .ok (.num p) := by
  unfold rPotential
  by_cases ht : t = 0
  · exact ⟨_, if_pos ht⟩
  have hcp := abs_pos.2 hc
  have e1 : |x / c| ≤ 1 - 2 ^ (-44 : ℤ) := by rw [abs_div, div_le_iff₀ hcp]; linarith
  have e2 : |y / c| ≤ 2 ^ 39 := by rw [abs_div, div_le_iff₀ hcp]; linarith
  have b1 : |R.rnd (x / c)| ≤ 1 - 2 ^ (-45 : ℤ) := by
    have f : IsFloat (1 - 2 ^ (-45 : ℤ) : ℝ) := ⟨2 ^ 45 - 1, -45, by norm_num, by norm_num⟩
    rw [abs_le] at e1 ⊢
    refine ⟨R.ge_of_ge (isFloat_neg f) (by norm_num at e1 ⊢; linarith [e1.1]), R.le_of_le f (by norm_num at e1 ⊢; linarith [e1.2])⟩
  have b2 : |R.rnd (y / c)| ≤ 2 ^ 40 := by
    have f : IsFloat (2 ^ 40 : ℝ) := ⟨2 ^ 40, 0, by norm_num, by norm_num⟩
    rw [abs_le] at e2 ⊢
    refine ⟨R.ge_of_ge (isFloat_neg f) (by linarith [e2.1]), R.le_of_le f (by linarith [e2.2])⟩
  obtain ⟨p, hp⟩ := elliptic_num R F (isFloat_rV R (R.rnd (x / c)) (R.rnd (y / c))) (rU_ge R hR (R.isFloat (x / c)) (R.rnd (y / c))) (rV_lt_one R b1 b2)
  rw [if_neg ht, if_neg hc]
  simp only [hp]
  exact ⟨_, rfl⟩

theorem potential_nan (F : Arc) {t c x y : ℝ} (ht : t ≠ 0) (hc : c ≠ 0)
    (h : rElliptic R F (rU R (R.rnd (x / c)) (R.rnd (y / c))) (rV R (R.rnd (x / c)) (R.rnd (y / c))) = .nan) :
    rPotential R F t c x y = .ok .nan := by
  unfold rPotential
  rw [if_neg ht, if_neg hc]
  simp only [h]
  rfl

theorem elliptic_nan (F : Arc) {u v : ℝ} (hv : 1 < |v|) : rElliptic R F u v = .nan := by
  unfold rElliptic
  split
  · rw [if_pos (.inr hv)]
  · rfl

/-- C156: it is not a number everywhere: to the right of a pole the second coordinate may be rounded to a number above one. -/
theorem potential_outside_fails (hR : R.TiesEven) (F : Arc) {t : ℝ} (ht : t ≠ 0) (k : ℤ) (j : ℕ) (hj : 4 * j + 4 ≤ 2 ^ 51) :
    rPotential R F t (2 ^ k) (2 ^ k * (3 + (4 * j + 3) * 2 ^ (-51 : ℤ))) 0 = .ok .nan := by
  have hk := two_zpow_pos k
  refine potential_nan R F ht hk.ne' (elliptic_nan R F ?_)
  have fx : IsFloat (3 + (4 * j + 3) * 2 ^ (-51 : ℤ) : ℝ) := ⟨3 * 2 ^ 51 + (4 * j + 3), -51, by rw [abs_of_nonneg (by positivity)]; omega, by
    push_cast; norm_num; ring⟩
  rw [mul_div_cancel_left₀ _ hk.ne', zero_div, R.rnd_zero, R.fixed fx]
  have h1 := (hR (2 ^ 51 + j + 1) (-50) (by omega) (by omega)).2
  have g1 : R.rnd (3 + (4 * j + 3) * 2 ^ (-51 : ℤ) + 1) = 4 + (2 * j + 2) * 2 ^ (-50 : ℤ) := by
    push_cast at h1
    norm_num at h1 ⊢
    rw [show (3 + (4 * (j : ℝ) + 3) * (1 / 2251799813685248) + 1 : ℝ) = 2 * (2251799813685248 + j + 1) * (1 / 1125899906842624) - 1 / 2251799813685248 by ring, h1]
    ring
  have g2 : R.rnd (3 + (4 * j + 3) * 2 ^ (-51 : ℤ) - 1) = 2 + (4 * j + 3) * 2 ^ (-51 : ℤ) := by
    rw [show (3 + (4 * j + 3) * 2 ^ (-51 : ℤ) - 1 : ℝ) = 2 + (4 * j + 3) * 2 ^ (-51 : ℤ) by ring]
    exact R.fixed ⟨2 * 2 ^ 51 + (4 * j + 3), -51, by rw [abs_of_nonneg (by positivity)]; omega, by push_cast; norm_num; ring⟩
  unfold rV
  rw [rRadius_zero R (R.isFloat _), rRadius_zero R (R.isFloat _), g1, g2, abs_of_nonneg (a := 4 + (2 * (j : ℝ) + 2) * 2 ^ (-50 : ℤ)) (by positivity),
    abs_of_nonneg (a := 2 + (4 * (j : ℝ) + 3) * 2 ^ (-51 : ℤ)) (by positivity),
    show (4 + (2 * (j : ℝ) + 2) * 2 ^ (-50 : ℤ) - (2 + (4 * (j : ℝ) + 3) * 2 ^ (-51 : ℤ)) : ℝ) = 2 + 2 ^ (-51 : ℤ) by norm_num; ring,
    R.fixed (x := 2 + 2 ^ (-51 : ℤ)) ⟨2 ^ 52 + 1, -51, by norm_num, by norm_num⟩,
    R.fixed (x := (2 + 2 ^ (-51 : ℤ)) / 2) ⟨2 ^ 52 + 1, -52, by norm_num, by norm_num⟩, abs_of_pos (by positivity)]
  norm_num

/-- C156: nor between the poles: the last number before a pole is taken for the pole. -/
theorem potential_pole_fails (hR : R.TiesEven) (F : Arc) {t : ℝ} (ht : t ≠ 0) (k : ℤ) :
    rPotential R F t (2 ^ k) (2 ^ k * (1 - 2 ^ (-53 : ℤ))) 0 = .ok .nan := by
  have hk := two_zpow_pos k
  have h1 := hR (2 ^ 52) (-52) (by norm_num) (by norm_num)
  have up : R.rnd (2 + 2 ^ (-53 : ℤ)) = 2 := by
    have := h1.1
    push_cast at this
    norm_num at this ⊢
    exact this
  have dn : R.rnd (2 - 2 ^ (-53 : ℤ)) = 2 := by
    have := h1.2
    push_cast at this
    norm_num at this ⊢
    exact this
  have fx : IsFloat (1 - 2 ^ (-53 : ℤ) : ℝ) := ⟨2 ^ 53 - 1, -53, by norm_num, by norm_num⟩
  have g2 : R.rnd (1 - 2 ^ (-53 : ℤ) - 1) = -2 ^ (-53 : ℤ) := by
    rw [show (1 - 2 ^ (-53 : ℤ) - 1 : ℝ) = -2 ^ (-53 : ℤ) by ring, R.fixed (isFloat_neg (isFloat_zpow _))]
  have g1 : R.rnd (1 - 2 ^ (-53 : ℤ) + 1) = 2 := by
    rw [show (1 - 2 ^ (-53 : ℤ) + 1 : ℝ) = 2 - 2 ^ (-53 : ℤ) by ring, dn]
  have hu : rU R (1 - 2 ^ (-53 : ℤ)) 0 = 1 := by
    unfold rU
    rw [rRadius_zero R (R.isFloat _), rRadius_zero R (R.isFloat _), g1, g2, abs_neg, abs_of_pos (two_zpow_pos _), abs_of_pos (a := (2 : ℝ)) (by norm_num), up,
      div_self (by norm_num), R.rnd_one]
  have hv : rV R (1 - 2 ^ (-53 : ℤ)) 0 = 1 := by
    unfold rV
    rw [rRadius_zero R (R.isFloat _), rRadius_zero R (R.isFloat _), g1, g2, abs_neg, abs_of_pos (two_zpow_pos _), abs_of_pos (a := (2 : ℝ)) (by norm_num), dn,
      div_self (by norm_num), R.rnd_one]
  refine potential_nan R F ht hk.ne' ?_
  rw [mul_div_cancel_left₀ _ hk.ne', zero_div, R.rnd_zero, R.fixed fx, hu, hv]
  simp [rElliptic, rsqrt, fdiv, R.rnd_one, R.rnd_zero]

/-- Points to which C156 applies: a strength, a distance of the poles of one, and the point `(1/2, 1)`. -/
example (F : Arc) : ∃ p, rPotential Rounding.even F (2 / 5) 1 (1 / 2) 1 = .ok (.num p) :=
  potential_number_partial Rounding.even even_tiesEven F one_ne_zero (by rw [abs_of_pos (by norm_num)]; norm_num) (by norm_num)

example (F : Arc) : rPotential Rounding.even F (2 / 5) (2 ^ (0 : ℤ)) (2 ^ (0 : ℤ) * (3 + (4 * (7 : ℕ) + 3) * 2 ^ (-51 : ℤ))) 0 = .ok .nan :=
  potential_outside_fails Rounding.even even_tiesEven F (by norm_num) 0 7 (by norm_num)

end Verif.Bunch
