import Verif.Ptcls.RoundedDesign
import Verif.Ptcls.PropsCurrent
import Verif.Kinematic.PropsAccuracy

/-!
# Claim C151: the design particle in double precision
-/

namespace Verif.Ptcls

open Verif.Py Verif.Kinematic

variable (R : Rounding)

theorem rGamma0_eq {p m : ℝ} (hm : m ≠ 0) : rGamma0 R p m = .ok (R.rnd (Real.sqrt (R.rnd (1 + R.rnd (R.rnd (p / m) * R.rnd (p / m)))))) := by
  unfold rGamma0 rBetaGamma
  rw [if_neg hm]
  simp only [bind, Except.bind]
  rw [add_comm]

theorem rBeta0_eq {p m : ℝ} (hm : m ≠ 0) : rBeta0 R p m = .ok (rNormal R (R.rnd (p / m))) := by
  unfold rBeta0
  rw [rGamma0_eq R hm]
  unfold rBetaGamma
  rw [if_neg hm]
  simp only [bind, Except.bind]
  have := (normal_divisor R (R.isFloat (p / m))).2
  rw [if_neg (by linarith)]
  rfl

theorem rGamma0_near (x : ℝ) : Near (4 * 2 ^ (-53 : ℤ)) (R.rnd (Real.sqrt (R.rnd (1 + R.rnd (R.rnd x * R.rnd x))))) (Real.sqrt (1 + x * x)) := by
  have h : Near (1 * 2 ^ (-53 : ℤ)) (R.rnd x) x := ((Near.refl x).rnd R).weaken (by norm_num)
  have h1 : Near (3.1 * 2 ^ (-53 : ℤ)) (R.rnd (R.rnd x * R.rnd x)) (x * x) := ((h.mul h).rnd R).weaken (by norm_num)
  have h0 : 0 ≤ R.rnd (R.rnd x * R.rnd x) := R.nonneg (mul_self_nonneg _)
  have h2 : Near (4.2 * 2 ^ (-53 : ℤ)) (R.rnd (1 + R.rnd (R.rnd x * R.rnd x))) (1 + x * x) :=
    ((h1.one_add (mul_self_nonneg x) (by norm_num)).rnd R).weaken (by norm_num)
  have hp : 0 < 1 + x * x := by nlinarith [mul_self_nonneg x]
  exact ((h2.sqrt (R.nonneg (by linarith)) hp (by norm_num)).rnd R).weaken (by norm_num)

/-- **C151.** For all momenta and positive masses: `gamma0` is at least 1 and right to `2 ^ -51`, `beta0` is at most 1 in
magnitude and right to `2 ^ -50`. -/
theorem design_rounded {p m : ℝ} (hm : 0 < m) : ∃ g b, rGamma0 R p m = .ok g ∧ rBeta0 R p m = .ok b ∧ 1 ≤ g ∧ |b| ≤ 1 ∧
    |g - Real.sqrt (p ^ 2 + m ^ 2) / m| ≤ 2 ^ (-51 : ℤ) * (Real.sqrt (p ^ 2 + m ^ 2) / m) ∧
    |b - p / Real.sqrt (p ^ 2 + m ^ 2)| ≤ 2 ^ (-50 : ℤ) * |p / Real.sqrt (p ^ 2 + m ^ 2)| := by
  have hsq : Real.sqrt (1 + p / m * (p / m)) = Real.sqrt (p ^ 2 + m ^ 2) / m := by
    rw [show 1 + p / m * (p / m) = (p ^ 2 + m ^ 2) / m ^ 2 by field_simp; ring, Real.sqrt_div (by positivity), Real.sqrt_sq hm.le]
  have hs : 0 < Real.sqrt (p ^ 2 + m ^ 2) := Real.sqrt_pos.2 (by positivity)
  refine ⟨_, _, rGamma0_eq R hm.ne', rBeta0_eq R hm.ne', (normal_divisor R (R.isFloat (p / m))).2, rNormal_le R (R.isFloat _), ?_, ?_⟩
  · have := rGamma0_near R (p / m)
    rw [hsq] at this
    unfold Near at this
    rw [abs_of_pos (a := Real.sqrt (p ^ 2 + m ^ 2) / m) (by positivity)] at this
    refine this.trans (mul_le_mul_of_nonneg_right (by norm_num) (by positivity))
  · have := rNormal_near R (near_one R (p / m))
    rw [hsq, show p / m / (Real.sqrt (p ^ 2 + m ^ 2) / m) = p / Real.sqrt (p ^ 2 + m ^ 2) by field_simp] at this
    exact this.weaken (by norm_num)

/-- An electron of 1 GeV/c. -/
example : (0 : ℝ) < 511000 ∧ (1000000000 : ℝ) ≠ 0 := by norm_num

/-- **C151, fast particles.** `beta0` is exactly 1 for momenta of `2 ^ 27` masses and more, and below 1 for momenta of up to `2 ^ 25` masses. -/
theorem design_fast {p m : ℝ} (hm : 0 < m) : (2 ^ 27 ≤ p / m → rBeta0 R p m = .ok 1) ∧ (|p / m| ≤ 2 ^ 25 → ∃ b, rBeta0 R p m = .ok b ∧ |b| < 1) := by
  refine ⟨fun h => ?_, fun h => ?_⟩
  · rw [rBeta0_eq R hm.ne', rNormal_fast R (R.isFloat _)]
    exact R.ge_of_ge (isFloat_zpow 27) (by norm_num at h ⊢; exact h)
  · refine ⟨_, rBeta0_eq R hm.ne', rNormal_lt R ?_⟩
    exact abs_rnd_le R (isFloat_zpow 25) (isFloat_neg (isFloat_zpow 25)) (by norm_num at h ⊢; exact h)

example : (2 : ℝ) ^ 27 ≤ 70000000000000 / 511000 ∧ |(1000000000 : ℝ) / 511000| ≤ 2 ^ 25 := by
  rw [abs_of_pos (by norm_num)]; norm_num

/-- **C151, current.** The peak current is right to `2 ^ -49`. -/
theorem peak_rounded {c p m q z : ℝ} (hc : 0 < c) (hm : 0 < m) (hp : p ≠ 0) (hz : z ≠ 0) : ∃ i, rPeak R c p m q z = .ok i ∧
    |i - q * c * p / (z * Real.sqrt (p ^ 2 + m ^ 2))| ≤ 2 ^ (-49 : ℤ) * |q * c * p / (z * Real.sqrt (p ^ 2 + m ^ 2))| := by
  have hsq : Real.sqrt (1 + p / m * (p / m)) = Real.sqrt (p ^ 2 + m ^ 2) / m := by
    rw [show 1 + p / m * (p / m) = (p ^ 2 + m ^ 2) / m ^ 2 by field_simp; ring, Real.sqrt_div (by positivity), Real.sqrt_sq hm.le]
  have hs : 0 < Real.sqrt (p ^ 2 + m ^ 2) := Real.sqrt_pos.2 (by positivity)
  have hb := rNormal_near R (near_one R (p / m))
  rw [hsq, show p / m / (Real.sqrt (p ^ 2 + m ^ 2) / m) = p / Real.sqrt (p ^ 2 + m ^ 2) by field_simp] at hb
  have hβ : p / Real.sqrt (p ^ 2 + m ^ 2) ≠ 0 := div_ne_zero hp hs.ne'
  have h1 : Near (8.6 * 2 ^ (-53 : ℤ)) (R.rnd (rNormal R (R.rnd (p / m)) * c)) (p / Real.sqrt (p ^ 2 + m ^ 2) * c) := ((hb.mul (Near.refl c)).rnd R).weaken (by norm_num)
  have hβc : p / Real.sqrt (p ^ 2 + m ^ 2) * c ≠ 0 := mul_ne_zero hβ hc.ne'
  have hne : ∀ {ε x y : ℝ}, Near ε x y → ε < 1 → y ≠ 0 → x ≠ 0 := by
    intro ε x y h he hy hx
    unfold Near at h
    rw [hx, zero_sub, abs_neg] at h
    nlinarith [abs_pos.2 hy]
  have h2 := h1.inv (by norm_num) hβc
  have h3 := ((Near.refl z).mul h2).rnd R
  rw [mul_one_div, mul_one_div] at h3
  have h3 := h3.weaken (ε' := 9.7 * 2 ^ (-53 : ℤ)) (by norm_num)
  have hzz : z / (p / Real.sqrt (p ^ 2 + m ^ 2) * c) ≠ 0 := div_ne_zero hz hβc
  have h4 := h3.inv (by norm_num) hzz
  have h5 := ((Near.refl q).mul h4).rnd R
  rw [mul_one_div, mul_one_div] at h5
  refine ⟨R.rnd (q / R.rnd (z / R.rnd (rNormal R (R.rnd (p / m)) * c))), ?_, ?_⟩
  · unfold rPeak
    rw [rBeta0_eq R hm.ne']
    simp only [bind, Except.bind]
    rw [if_neg (hne h1 (by norm_num) hβc), if_neg (hne h3 (by norm_num) hzz)]
  · have h6 := h5.weaken (ε' := 2 ^ (-49 : ℤ)) (by norm_num)
    rwa [show q / (z / (p / Real.sqrt (p ^ 2 + m ^ 2) * c)) = q * c * p / (z * Real.sqrt (p ^ 2 + m ^ 2)) by field_simp] at h6

example : ∃ i, rPeak R 299792458 1000000000 511000 (1 / 1000000000) (1 / 1000) = .ok i :=
  (peak_rounded R (by norm_num) (by norm_num) (by norm_num) (by norm_num)).imp fun _ h => h.1

end Verif.Ptcls
