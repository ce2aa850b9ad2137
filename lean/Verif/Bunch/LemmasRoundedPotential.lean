import Verif.Bunch.RoundedPotential
import Verif.Py.TiesEven
import Verif.Ptcls.PropsRoundedTwiss

/-!
# The elliptic coordinates of `compute_potential` with rounded arithmetic
-/

namespace Verif.Bunch

open Verif.Py Verif.Kinematic Verif.Nonlinear

variable (R : Rounding)

/-- Numbers of 53 bits that are large enough are multiples of this power of two. -/
theorem float_grid {x : ℝ} (hx : IsFloat x) (e : ℤ) (h : (2 : ℝ) ^ (52 + e) ≤ x) : ∃ n : ℤ, x = n * 2 ^ e := by
  obtain ⟨m, f, h1, h2, rfl⟩ := hx.normal (lt_of_lt_of_le (two_zpow_pos _) h)
  have hm : (m : ℝ) < 2 ^ (53 : ℤ) := by exact_mod_cast h2
  have : (2 : ℝ) ^ (52 + e) < 2 ^ (53 + f) := by
    rw [zpow_add₀ (a := (2 : ℝ)) (by norm_num) 53 f]
    exact lt_of_le_of_lt h (mul_lt_mul_of_pos_right hm (two_zpow_pos f))
  have := (zpow_lt_zpow_iff_right₀ (a := (2 : ℝ)) (by norm_num)).1 this
  obtain ⟨d, rfl⟩ : ∃ d : ℕ, f = e + d := ⟨(f - e).toNat, by omega⟩
  exact ⟨m * 2 ^ d, by rw [zpow_add₀ (by norm_num), zpow_natCast]; push_cast; ring⟩

/-- The error of numbers that are not too large. -/
theorem error_grid {z : ℝ} (e : ℤ) (h : |z| ≤ 2 ^ (53 : ℤ) * 2 ^ e) : |R.rnd z - z| ≤ 2 ^ e / 2 := by
  have hp := two_zpow_pos e
  have hr := abs_sub_round (z / 2 ^ e)
  have h3 : |z / 2 ^ e| ≤ 2 ^ (53 : ℤ) := by
    rw [abs_div, abs_of_pos hp, div_le_iff₀ hp]; exact h
  have hf : IsFloat (round (z / 2 ^ e) * (2 : ℝ) ^ e) := by
    refine ⟨round (z / 2 ^ e), e, ?_, rfl⟩
    have h4 : |((round (z / 2 ^ e) : ℤ) : ℝ)| < 2 ^ (53 : ℤ) + 1 := by
      have := abs_sub_abs_le_abs_sub ((round (z / 2 ^ e) : ℤ) : ℝ) (z / 2 ^ e)
      rw [abs_sub_comm] at hr
      linarith
    have h5 : |round (z / 2 ^ e)| < 2 ^ 53 + 1 := by exact_mod_cast h4
    omega
  refine (R.nearest z _ hf).trans ?_
  have h6 : round (z / 2 ^ e) * (2 : ℝ) ^ e - z = -(z / 2 ^ e - round (z / 2 ^ e)) * 2 ^ e := by
    field_simp; ring
  rw [h6, abs_mul, abs_neg, abs_of_pos hp]
  have := mul_le_mul_of_nonneg_right hr hp.le
  linarith

theorem rRadius_neg (a y : ℝ) : rRadius R (-a) y = rRadius R a y := by
  unfold rRadius
  rw [neg_mul_neg]

theorem rRadius_ge {a : ℝ} (ha : IsFloat a) (y : ℝ) : |a| ≤ rRadius R a y := by
  have h := R.sqrt_sq (isFloat_abs ha) (abs_nonneg a)
  rw [abs_mul_abs_self] at h
  rw [← h]
  refine R.mono (Real.sqrt_le_sqrt ?_)
  exact R.ge_of_ge (R.isFloat _) (by linarith [R.nonneg (mul_self_nonneg y)])

theorem rRadius_ge' (a : ℝ) {y : ℝ} (hy : IsFloat y) : |y| ≤ rRadius R a y := by
  have h := rRadius_ge R hy a
  unfold rRadius at h ⊢
  rwa [add_comm] at h

theorem rRadius_zero {a : ℝ} (ha : IsFloat a) : rRadius R a 0 = |a| := by
  have h := R.sqrt_sq (isFloat_abs ha) (abs_nonneg a)
  rw [abs_mul_abs_self] at h
  unfold rRadius
  rw [mul_zero, R.rnd_zero, add_zero, R.fixed (R.isFloat _), h]

theorem rRadius_mono {a b : ℝ} (y : ℝ) (h : |a| ≤ |b|) : rRadius R a y ≤ rRadius R b y := by
  unfold rRadius
  refine R.mono (Real.sqrt_le_sqrt (R.mono ?_))
  have := R.mono (mul_self_le_mul_self (abs_nonneg a) h)
  rw [abs_mul_abs_self, abs_mul_abs_self] at this
  linarith

/-- The first coordinate at the mirror image. -/
theorem rU_neg (x y : ℝ) : rU R (-x) y = rU R x y := by
  unfold rU
  rw [show -x + 1 = -(x - 1) by ring, show -x - 1 = -(x + 1) by ring, R.odd, R.odd, rRadius_neg, rRadius_neg, add_comm (rRadius R (R.rnd (x - 1)) y)]

theorem rV_neg (x y : ℝ) : rV R (-x) y = -rV R x y := by
  unfold rV
  rw [show -x + 1 = -(x - 1) by ring, show -x - 1 = -(x + 1) by ring, R.odd, R.odd, rRadius_neg, rRadius_neg, ← neg_sub, R.odd, neg_div, R.odd]

theorem below_two (hR : R.TiesEven) {z : ℝ} (h : 2 - 2 ^ (-53 : ℤ) ≤ z) : 2 ≤ R.rnd z := by
  have h1 := (hR (2 ^ 52) (-52) (by norm_num) (by norm_num)).2
  push_cast at h1
  have h2 : R.rnd (2 - 2 ^ (-53 : ℤ)) = 2 := by
    norm_num at h1 ⊢
    exact h1
  rw [← h2]
  exact R.mono h

theorem sides {x : ℝ} (hx : IsFloat x) (h0 : 0 ≤ x) (h1 : x ≤ 1) : 2 - 2 ^ (-53 : ℤ) ≤ R.rnd (x + 1) + R.rnd (1 - x) := by
  have e1 := error_grid R (z := x + 1) (-52) (by rw [abs_of_nonneg (by linarith)]; norm_num; linarith)
  have e2 := error_grid R (z := 1 - x) (-53) (by rw [abs_of_nonneg (by linarith)]; norm_num; linarith)
  rw [abs_le] at e1 e2
  rcases le_or_gt (1 / 2) x with h | h
  · have hf : IsFloat (1 - x) := isFloat_sub hx isFloat_one h1 (by linarith)
    rw [R.fixed hf]
    norm_num at e1 ⊢
    linarith [e1.1]
  · obtain ⟨n, hn⟩ := float_grid (R.isFloat (x + 1)) (-52) (by
      norm_num
      exact R.ge_of_ge isFloat_one (by linarith))
    obtain ⟨m, hm⟩ := float_grid (R.isFloat (1 - x)) (-53) (by
      have : IsFloat (1 / 2 : ℝ) := ⟨1, -1, by norm_num, by norm_num⟩
      norm_num at this ⊢
      exact R.ge_of_ge this (by linarith))
    rw [hn] at e1
    rw [hm] at e2
    rw [hn, hm]
    have key : (2 : ℤ) ^ 54 - 2 < 2 * n + m := by
      have : ((2 ^ 54 - 2 : ℤ) : ℝ) < ((2 * n + m : ℤ) : ℝ) := by
        push_cast
        norm_num at e1 e2 ⊢
        linarith [e1.1, e2.1]
      exact_mod_cast this
    have key' : ((2 ^ 54 - 1 : ℤ) : ℝ) ≤ ((2 * n + m : ℤ) : ℝ) := by exact_mod_cast (by omega : (2 ^ 54 - 1 : ℤ) ≤ 2 * n + m)
    push_cast at key'
    norm_num at key' ⊢
    linarith

/-- The first elliptic coordinate is at least one. -/
theorem rU_ge (hR : R.TiesEven) {x : ℝ} (hx : IsFloat x) (y : ℝ) : 1 ≤ rU R x y := by
  wlog h0 : 0 ≤ x with H
  · rw [← rU_neg]
    exact H R hR (isFloat_neg hx) y (by linarith)
  unfold rU
  have h1 := rRadius_ge R (R.isFloat (x + 1)) y
  have h2 := rRadius_ge R (R.isFloat (x - 1)) y
  have key : 2 ≤ R.rnd (rRadius R (R.rnd (x + 1)) y + rRadius R (R.rnd (x - 1)) y) := by
    have f2 : IsFloat (2 : ℝ) := ⟨1, 1, by norm_num, by norm_num⟩
    rcases le_or_gt x 1 with h | h
    · have h3 := sides R hx h0 h
      refine below_two R hR (h3.trans ?_)
      have h4 : |R.rnd (x - 1)| = R.rnd (1 - x) := by
        rw [show x - 1 = -(1 - x) by ring, R.odd, abs_neg, abs_of_nonneg (R.nonneg (by linarith))]
      rw [h4] at h2
      linarith [le_abs_self (R.rnd (x + 1))]
    · have h3 : 2 ≤ R.rnd (x + 1) := R.ge_of_ge f2 (by linarith)
      exact R.ge_of_ge f2 (by linarith [le_abs_self (R.rnd (x + 1)), abs_nonneg (R.rnd (x - 1))])
  exact R.ge_of_ge isFloat_one (by linarith)

/-- The radius is right up to rounding. -/
theorem rRadius_near (a y : ℝ) (h : 0 < (a : ℝ) ^ 2 + y ^ 2) : Near (2 ^ (-51 : ℤ)) (rRadius R (R.rnd a) y) √(a ^ 2 + y ^ 2) := by
  have n0 : Near (2 ^ (-53 : ℤ)) (R.rnd a) a := ((Near.refl a).rnd R).weaken (by norm_num)
  have n1 := ((n0.mul n0).rnd R).weaken (ε' := 4 * 2 ^ (-53 : ℤ)) (by norm_num)
  have n2 := (((Near.refl y).mul (Near.refl y)).rnd R).weaken (ε' := 4 * 2 ^ (-53 : ℤ)) (by norm_num)
  have n3 : Near (4 * 2 ^ (-53 : ℤ)) (R.rnd (R.rnd a * R.rnd a) + R.rnd (y * y)) (a ^ 2 + y ^ 2) := by
    unfold Near at *
    rw [abs_of_nonneg (a := a * a) (mul_self_nonneg _), abs_le] at n1
    rw [abs_of_nonneg (a := y * y) (mul_self_nonneg _), abs_le] at n2
    rw [abs_of_pos h, abs_le]
    constructor <;> nlinarith [n1.1, n1.2, n2.1, n2.2]
  have n4 := (n3.rnd R).weaken (ε' := 5.5 * 2 ^ (-53 : ℤ)) (by norm_num)
  have n5 := (n4.sqrt (R.nonneg (add_nonneg (R.nonneg (mul_self_nonneg _)) (R.nonneg (mul_self_nonneg _)))) h (by norm_num)).weaken
    (ε' := 2.8 * 2 ^ (-53 : ℤ)) (by norm_num)
  exact (n5.rnd R).weaken (by norm_num)

end Verif.Bunch
