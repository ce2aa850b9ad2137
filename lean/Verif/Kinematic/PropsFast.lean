import Verif.Kinematic.PropsRounded

/-!
# Rounded kinematics of fast and slow particles (C140, C141)
-/

namespace Verif.Kinematic

open Verif.Py

variable (R : Rounding)

/-- Adding 1 to a number from `2 ^ 54` does not change it. -/
theorem rnd_one_add {x : ℝ} (hx : IsFloat x) (h : 2 ^ (54 : ℤ) ≤ x) : R.rnd (1 + x) = x := by
  have hx0 : 0 < x := lt_of_lt_of_le (by positivity) h
  obtain ⟨m, e, h1, h2, rfl⟩ := hx.normal hx0
  have he : 2 ≤ e := by
    by_contra hc
    have h3 : (2 : ℝ) ^ e ≤ 2 ^ (1 : ℤ) := zpow_le_zpow_right₀ (by norm_num) (by omega)
    have h4 : (m : ℝ) < 2 ^ (53 : ℤ) := by exact_mod_cast h2
    have h5 : (m : ℝ) * 2 ^ e < 2 ^ (53 : ℤ) * 2 ^ (1 : ℤ) := mul_lt_mul h4 h3 (two_zpow_pos e) (by positivity)
    have h6 : (2 : ℝ) ^ (53 : ℤ) * 2 ^ (1 : ℤ) = 2 ^ (54 : ℤ) := by norm_num
    linarith
  have h7 : (4 : ℝ) ≤ 2 ^ e := by
    have : (2 : ℝ) ^ (2 : ℤ) ≤ 2 ^ e := zpow_le_zpow_right₀ (by norm_num) he
    norm_num at this ⊢
    linarith
  have hf : IsFloat ((m : ℝ) * 2 ^ e) := hx
  -- the next number above is too far
  refine le_antisymm ?_ (R.ge_of_ge hf (by linarith))
  by_contra hc
  rw [not_le] at hc
  have h8 := IsFloat.gap_above h1 (R.isFloat _) hc
  have h9 := R.nearest (1 + (m : ℝ) * 2 ^ e) _ hf
  rw [show (m : ℝ) * 2 ^ e - (1 + m * 2 ^ e) = -1 by ring, abs_neg, abs_one, abs_le] at h9
  linarith [h9.2]

theorem rNormal_fast {n : ℝ} (hn : IsFloat n) (h : 2 ^ (27 : ℤ) ≤ n) : rNormal R n = 1 := by
  have hn0 : 0 < n := lt_of_lt_of_le (by positivity) h
  have h1 : (2 : ℝ) ^ (54 : ℤ) ≤ n * n := by
    have := mul_le_mul h h (by positivity) hn0.le
    norm_num at this ⊢
    linarith
  have h2 : (2 : ℝ) ^ (54 : ℤ) ≤ R.rnd (n * n) := R.ge_of_ge (isFloat_zpow 54) h1
  rw [rNormal, rnd_one_add R (R.isFloat _) h2, R.sqrt_sq hn hn0.le, div_self hn0.ne', R.rnd_one]

/-- The quantities that are computed from the momentum, in units of the mass. -/
noncomputable def perMass (c m : ℝ) : Quantity → ℝ → Option ℝ
  | .momentum, p => some (p / m)
  | .betagamma, n => some n
  | .brho, r => some (r * c / m)
  | _, _ => none

/-- **C140 fails.** Whatever momentum of at least `2 ^ 27` masses is given, as momentum, as `beta * gamma` or as `B rho`: the velocity is exactly `c`,
and the energy, the kinetic energy and the momentum in the result are infinite. -/
theorem fast_fails {c m : ℝ} (hc : IsFloat c) (hm : IsFloat m) (hm0 : 0 < m) {q : Quantity} {v n : ℝ} (hv : IsFloat v)
    (hq : perMass c m q v = some n) (hn : 2 ^ 27 ≤ n) : ∃ o, rCall R c m q v = .ok o ∧ o .beta = .num 1 ∧ o .velocity = .num c ∧
      o .gamma = .inf ∧ o .energy = .inf ∧ o .kenergy = .inf ∧ o .momentum = .inf ∧ o .betagamma = .inf ∧ o .brho = .inf := by
  have hn' : (2 : ℝ) ^ (27 : ℤ) ≤ n := by exact_mod_cast hn
  have hs : rStart R c m q v = .ok (.num 1, .inf) := by
    have hg : rGamma R 1 = .inf := by
      simp [rGamma, rsqrt, FVal.recip]
    cases q <;> simp only [perMass, Option.some.injEq, reduceCtorEq] at hq <;> subst hq <;>
      simp only [rStart, rDiv, hm0.ne', if_false, bind, Except.bind]
    · rw [rNormal_fast R (R.isFloat _) (R.ge_of_ge (isFloat_zpow 27) hn'), hg]
    · rw [rNormal_fast R hv hn', hg]
    · have h1 : m * 2 ^ (27 : ℤ) ≤ R.rnd (v * c) := by
        refine R.ge_of_ge ?_ ?_
        · obtain ⟨a, e, h1, rfl⟩ := hm
          exact ⟨a, e + 27, h1, by rw [zpow_add₀ (by norm_num)]; ring⟩
        · rw [le_div_iff₀ hm0] at hn'; linarith
      have h2 : (2 : ℝ) ^ (27 : ℤ) ≤ R.rnd (v * c) / m := by rw [le_div_iff₀ hm0]; linarith
      rw [rNormal_fast R (R.isFloat _) (R.ge_of_ge (isFloat_zpow 27) h2), hg]
  refine ⟨_, by rw [rCall, hs]; rfl, rfl, ?_⟩
  simp [FVal.scale, FVal.times, FVal.over, FVal.pred, hm0, R.fixed hc]

/-- Momenta of 70 TeV for an electron. -/
example : perMass 299792458 511000 .momentum 70000000000000 = some (70000000000000 / 511000) ∧ (2 : ℝ) ^ 27 ≤ 70000000000000 / 511000 := by
  refine ⟨rfl, by norm_num⟩

/-- Numbers slightly below 1 are rounded to 1. -/
theorem rnd_one_sub {x : ℝ} (h0 : 0 ≤ x) (h : x < 2 ^ (-54 : ℤ)) : R.rnd (1 - x) = 1 := by
  have h1 := R.nearest (1 - x) 1 isFloat_one
  rw [show (1 : ℝ) - (1 - x) = x by ring, abs_of_nonneg h0] at h1
  refine le_antisymm (R.le_of_le isFloat_one (by linarith)) ?_
  by_contra hc
  rw [not_le] at hc
  -- the next number below 1 is 1 - 2^-53
  have h2 := IsFloat.gap_below (m := 2 ^ 53) (e := -53) (by norm_num) (R.isFloat (1 - x)) (by push_cast; norm_num at hc ⊢; exact hc)
  push_cast at h2
  norm_num at h2 h
  rw [abs_le] at h1
  linarith [h1.1]

theorem rnd_one_add_small {x : ℝ} (h0 : 0 ≤ x) (h : x < 2 ^ (-53 : ℤ)) : R.rnd (x + 1) = 1 := by
  have h1 := R.nearest (x + 1) 1 isFloat_one
  rw [show (1 : ℝ) - (x + 1) = -x by ring, abs_neg, abs_of_nonneg h0] at h1
  refine le_antisymm ?_ (R.ge_of_ge isFloat_one (by linarith))
  by_contra hc
  rw [not_le] at hc
  have h2 := IsFloat.gap_above (m := 2 ^ 52) (e := -52) le_rfl (R.isFloat (x + 1)) (by push_cast; norm_num at hc ⊢; exact hc)
  push_cast at h2
  norm_num at h2 h
  rw [abs_le] at h1
  linarith [h1.2]

theorem rGamma_slow {b : ℝ} (h : |b| ≤ 2 ^ (-28 : ℤ)) : rGamma R b = .num 1 := by
  have h1 : b * b ≤ 2 ^ (-56 : ℤ) := by
    rw [← abs_mul_abs_self]
    have := mul_le_mul h h (abs_nonneg b) (by positivity)
    norm_num at this ⊢
    linarith
  have h2 : R.rnd (b * b) < 2 ^ (-54 : ℤ) := lt_of_le_of_lt (R.le_of_le (isFloat_zpow (-56)) h1) (by norm_num)
  rw [rGamma, rnd_one_sub R (R.nonneg (mul_self_nonneg b)) h2, rsqrt, if_neg (by norm_num), Real.sqrt_one, R.rnd_one]
  simp [FVal.recip]

/-- Momenta that are small in units of the mass lose their kinetic energy. -/
theorem rNormal_slow {n : ℝ} (hn : IsFloat n) (h : |n| ≤ 2 ^ (-28 : ℤ)) : rNormal R n = n := by
  have h1 : n * n ≤ 2 ^ (-56 : ℤ) := by
    rw [← abs_mul_abs_self]
    have := mul_le_mul h h (abs_nonneg n) (by positivity)
    norm_num at this ⊢
    linarith
  have h2 : R.rnd (n * n) < 2 ^ (-53 : ℤ) := lt_of_le_of_lt (R.le_of_le (isFloat_zpow (-56)) h1) (by norm_num)
  rw [rNormal, add_comm, rnd_one_add_small R (R.nonneg (mul_self_nonneg n)) h2, Real.sqrt_one, R.rnd_one, div_one, R.fixed hn]

/-- The velocity in units of `c` of slow particles, as far as it is known before anything is computed. -/
noncomputable def perC (c m : ℝ) : Quantity → ℝ → Option ℝ
  | .momentum, p => some (p / m)
  | .betagamma, n => some n
  | .velocity, v => some (v / c)
  | .beta, b => some b
  | _, _ => none

/-- **C141 fails.** Whatever velocity of at most `2 ^ -28` times `c` is given, as momentum, as velocity, as `beta` or as `beta * gamma`: the kinetic
energy in the result is zero. -/
theorem slow_fails {c m : ℝ} (hc0 : 0 < c) (hm : IsFloat m) (hm0 : 0 < m) {q : Quantity} {v x : ℝ} (hv : IsFloat v)
    (hq : perC c m q v = some x) (hx : |x| ≤ 2 ^ (-28 : ℤ)) : ∃ o, rCall R c m q v = .ok o ∧ o .gamma = .num 1 ∧ o .energy = .num m ∧
      o .kenergy = .num 0 ∧ o .beta = .num (R.rnd x) ∧ o .betagamma = .num (R.rnd x) := by
  have hr : |R.rnd x| ≤ 2 ^ (-28 : ℤ) := abs_rnd_le R (isFloat_zpow _) (isFloat_neg (isFloat_zpow _)) hx
  have hs : rStart R c m q v = .ok (.num (R.rnd x), .num 1) := by
    cases q <;> simp only [perC, Option.some.injEq, reduceCtorEq] at hq <;> subst hq <;>
      simp only [rStart, rDiv, hm0.ne', hc0.ne', if_false, bind, Except.bind]
    · rw [rNormal_slow R (R.isFloat _) hr, rGamma_slow R hr]
    · rw [rGamma_slow R hr]
    · rw [R.fixed hv] at hr ⊢
      rw [rNormal_slow R hv hr, rGamma_slow R hr]
    · rw [R.fixed hv] at hr ⊢
      rw [rGamma_slow R hr]
  refine ⟨_, by rw [rCall, hs]; rfl, rfl, ?_⟩
  simp [FVal.scale, FVal.times, FVal.pred, R.fixed hm, R.fixed (R.isFloat x)]

/-- One meter per second. -/
example : perC 299792458 511000 .velocity 1 = some (1 / 299792458) ∧ |(1 : ℝ) / 299792458| ≤ 2 ^ (-28 : ℤ) := by
  refine ⟨rfl, ?_⟩
  rw [abs_of_pos (by norm_num)]
  norm_num

/-- **C141 fails.** Whatever kinetic energy of at most `2 ^ -54` masses is given: the kinetic energy, the velocity and the momentum in the result are zero. -/
theorem kenergy_lost_fails {c m : ℝ} (hm : IsFloat m) (hm0 : 0 < m) {v : ℝ} (h0 : 0 ≤ v) (h : v ≤ m * 2 ^ (-54 : ℤ)) :
    ∃ o, rCall R c m .kenergy v = .ok o ∧ o .kenergy = .num 0 ∧ o .velocity = .num 0 ∧ o .momentum = .num 0 ∧ o .energy = .num m := by
  have h1 : R.rnd (v / m) < 2 ^ (-53 : ℤ) :=
    lt_of_le_of_lt (R.le_of_le (isFloat_zpow (-54)) (by rw [div_le_iff₀ hm0]; linarith)) (by norm_num)
  have h2 := rnd_one_add_small R (R.nonneg (div_nonneg h0 hm0.le)) h1
  have hs : rStart R c m .kenergy v = .ok (.num 0, .num 1) := by
    simp [rStart, rDiv, hm0.ne', bind, Except.bind, h2, rBeta, rsqrt]
  refine ⟨_, by rw [rCall, hs]; rfl, ?_⟩
  simp [FVal.scale, FVal.times, FVal.pred, R.fixed hm]

/-- A kinetic energy of `10 ^ -8` eV of a proton. -/
example : (0 : ℝ) ≤ 1 / 100000000 ∧ (1 : ℝ) / 100000000 ≤ 938272088 * 2 ^ (-54 : ℤ) := by
  norm_num

/-- **C141, the other kinetic energies.** A kinetic energy comes back with an error of at most `2 ^ -50` times the energy. Missing: a bound relative to the
kinetic energy, which does not exist (`kenergy_lost_fails`). -/
theorem kenergy_back_partial {c m : ℝ} (hm0 : 0 < m) {v : ℝ} (h0 : 0 ≤ v) :
    ∃ o k, rCall R c m .kenergy v = .ok o ∧ o .kenergy = .num k ∧ |k - v| ≤ 2 ^ (-50 : ℤ) * (m + v) := by
  have ha0 : 0 ≤ R.rnd (v / m) := R.nonneg (div_nonneg h0 hm0.le)
  obtain ⟨b, hb, _⟩ := rBeta_cases R (g := R.rnd (R.rnd (v / m) + 1)) (R.ge_of_ge isFloat_one (by linarith))
  refine ⟨_, _, by
    rw [rCall, rStart, rDiv, if_neg hm0.ne']
    simp only [bind, Except.bind, hb]
    rfl, rfl, ?_⟩
  have e1 := R.error (v / m)
  have hx0 : 0 ≤ v / m := div_nonneg h0 hm0.le
  have hv : m * (v / m) = v := by field_simp
  generalize v / m = x at *
  subst hv
  have e2 := R.error (R.rnd x + 1)
  have e3 := R.error (R.rnd (R.rnd x + 1) - 1)
  have e4 := R.error (m * R.rnd (R.rnd (R.rnd x + 1) - 1))
  rw [abs_of_nonneg hx0] at e1
  rw [abs_of_nonneg (show 0 ≤ R.rnd x + 1 by linarith)] at e2
  have hg1 : 0 ≤ R.rnd (R.rnd x + 1) - 1 := by
    have := R.ge_of_ge isFloat_one (show 1 ≤ R.rnd x + 1 by linarith)
    linarith
  have hk0 := R.nonneg hg1
  rw [abs_of_nonneg hg1] at e3
  rw [abs_of_nonneg (mul_nonneg hm0.le hk0), abs_le] at e4
  rw [abs_le] at e1 e2 e3 ⊢
  generalize R.rnd (m * R.rnd (R.rnd (R.rnd x + 1) - 1)) = k at *
  generalize R.rnd (R.rnd (R.rnd x + 1) - 1) = d at *
  generalize R.rnd (R.rnd x + 1) = g at *
  generalize R.rnd x = a at *
  norm_num at e1 e2 e3 e4 ⊢
  have f : d - x ≤ 1 / 2251799813685248 * (1 + x) ∧ -(1 / 2251799813685248 * (1 + x)) ≤ d - x := by
    constructor <;> linarith [e1.1, e1.2, e2.1, e2.2, e3.1, e3.2]
  have f1 := mul_le_mul_of_nonneg_left f.1 hm0.le
  have f2 := mul_le_mul_of_nonneg_left f.2 hm0.le
  constructor <;> nlinarith [e4.1, e4.2]

/-- Thermal neutrons. -/
example : (0 : ℝ) ≤ 1 / 40 ∧ (0 : ℝ) < 939565420 := by norm_num

/-- **C141, velocities, energies, beta and gamma.** A velocity and an energy come back with a relative error of at most `2 ^ -51`, `beta` and `gamma`
exactly. -/
theorem value_back_partial {c m : ℝ} (hc0 : 0 < c) (hm0 : 0 < m) {q : Quantity} {v : ℝ} (h : Valid c m q v)
    (hq : q = .velocity ∨ q = .energy ∨ q = .beta ∨ q = .gamma) :
    ∃ o x, rCall R c m q v = .ok o ∧ o q = .num x ∧ |x - v| ≤ 2 ^ (-51 : ℤ) * |v| ∧ (q = .beta ∨ q = .gamma → x = v) := by
  have key : ∀ k : ℝ, 0 < k → |R.rnd (k * R.rnd (v / k)) - v| ≤ 2 ^ (-51 : ℤ) * |v| := by
    intro k hk
    have e1 := R.error (v / k)
    have e2 := R.error (k * R.rnd (v / k))
    have hv : k * (v / k) = v := by field_simp
    have e3 : |k * R.rnd (v / k) - v| ≤ |v| * 2 ^ (-53 : ℤ) := by
      have h1 : k * R.rnd (v / k) - v = k * (R.rnd (v / k) - v / k) := by rw [mul_sub, hv]
      rw [h1, abs_mul, abs_of_pos hk]
      refine (mul_le_mul_of_nonneg_left e1 hk.le).trans (le_of_eq ?_)
      rw [← mul_assoc]
      congr 1
      rw [← abs_of_pos hk, ← abs_mul, abs_of_pos hk, hv]
    have e4 := abs_add_le (R.rnd (k * R.rnd (v / k)) - k * R.rnd (v / k)) (k * R.rnd (v / k) - v)
    rw [sub_add_sub_cancel] at e4
    have e5 : |k * R.rnd (v / k)| ≤ |v| + |v| * 2 ^ (-53 : ℤ) := by
      have := abs_sub_abs_le_abs_sub (k * R.rnd (v / k)) v
      linarith
    have hv0 := abs_nonneg v
    norm_num at e2 e3 e5 ⊢
    linarith
  rcases hq with rfl | rfl | rfl | rfl
  · refine ⟨_, _, by rw [rCall, rStart, rDiv, if_neg hc0.ne']; rfl, rfl, key c hc0, by simp⟩
  · have hg : 1 ≤ R.rnd (v / m) := R.ge_of_ge isFloat_one ((one_le_div hm0).2 h)
    obtain ⟨b, h1, _⟩ := rBeta_cases R hg
    refine ⟨_, _, by
      rw [rCall, rStart, rDiv, if_neg hm0.ne']
      simp only [bind, Except.bind, h1]
      rfl, rfl, key m hm0, by simp⟩
  · exact ⟨_, _, by rw [rCall, rStart]; rfl, rfl, by rw [sub_self, abs_zero]; positivity, fun _ => rfl⟩
  · obtain ⟨b, h1, _⟩ := rBeta_cases R (show 1 ≤ v from h)
    exact ⟨_, _, by
      rw [rCall, rStart]
      simp only [bind, Except.bind, h1]
      rfl, rfl, by rw [sub_self, abs_zero]; positivity, fun _ => rfl⟩

/-- An energy of two masses. -/
example : Valid 299792458 511000 .energy 1022000 := by
  simp only [Valid]; norm_num

end Verif.Kinematic
