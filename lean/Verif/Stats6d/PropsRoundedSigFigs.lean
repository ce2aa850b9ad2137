import Verif.Stats6d.RoundedSigFigs
import Verif.Stats6d.PropsSigFigs
import Verif.Py.Near

/-!
# Property C168: significant figures in double precision
-/

namespace Verif.SigFigs

open Verif.Py

variable (R : Rounding)

/-- The exponent of `x` is `e`, it is what the code finds, and `10**e` is right to less than the distance of two doubles. -/
structure Decimal (lib : Lib) (x : ℝ) (e : ℤ) : Prop where
  exponent : Exponent x e
  found : ⌊lib.log10 |x|⌋ = e
  power : Near (2 ^ (-52 : ℤ)) (tenPow R lib e) (10 ^ e)

/-- For exponents from zero on the power is right. -/
theorem decimal_of_nonneg {lib : Lib} {x : ℝ} {e : ℤ} (he : 0 ≤ e) (h1 : Exponent x e) (h2 : ⌊lib.log10 |x|⌋ = e) : Decimal R lib x e := by
  refine ⟨h1, h2, ?_⟩
  rw [tenPow, if_pos he]
  exact ((Near.refl _).rnd R).weaken (by norm_num)

variable {R}

/-- The multiplier. -/
theorem Decimal.mult {lib : Lib} {x : ℝ} {e : ℤ} (h : Decimal R lib x e) : Near (2 ^ (-51 : ℤ)) (R.rnd (x / tenPow R lib e)) (x / 10 ^ e) := by
  have h1 := h.power.inv (by norm_num) (by positivity)
  have h2 := (Near.refl x).mul h1
  rw [mul_one_div, mul_one_div] at h2
  exact (h2.rnd R).weaken (by norm_num)

theorem Decimal.mult_abs {lib : Lib} {x : ℝ} {e : ℤ} (h : Decimal R lib x e) :
    99 / 100 ≤ |R.rnd (x / tenPow R lib e)| ∧ |R.rnd (x / tenPow R lib e)| ≤ 101 / 10 := by
  have h1 := h.mult.abs_le
  have h2 := h.mult.le_abs
  obtain ⟨h3, h4⟩ := h.exponent
  have hp : (0 : ℝ) < 10 ^ e := by positivity
  have e1 : |x / (10 : ℝ) ^ e| = |x| / 10 ^ e := by rw [abs_div, abs_of_pos hp]
  rw [e1] at h1 h2
  have h5 : 1 ≤ |x| / (10 : ℝ) ^ e := by rw [le_div_iff₀ hp]; linarith
  have h6 : |x| / (10 : ℝ) ^ e ≤ 10 := by
    rw [div_le_iff₀ hp]
    rw [zpow_add₀ (by norm_num)] at h4
    norm_num at h4
    linarith
  generalize |x| / (10 : ℝ) ^ e = q at *
  norm_num at h1 h2
  constructor <;> linarith

theorem Decimal.ne {lib : Lib} {x : ℝ} {e : ℤ} (h : Decimal R lib x e) : x ≠ 0 := exponent_ne h.exponent

theorem Decimal.eq {lib : Lib} {x : ℝ} {e : ℤ} (h : Decimal R lib x e) (n : ℤ) :
    rSigFigs R lib x n = R.rnd (R.rnd (pyRound (R.rnd (x / tenPow R lib e)) (n - 1)) * tenPow R lib e) := by
  unfold rSigFigs
  rw [if_neg h.ne]
  simp only [h.found]

theorem unit_eq (e n : ℤ) : (10 : ℝ) ^ (e - n + 1) = 10 ^ e / 10 ^ (n - 1) := by
  rw [← zpow_sub₀ (by norm_num)]; congr 1; ring

variable (R)

/-- **C168, error.** There is a number with the requested figures that is next to the argument up to `2 ^ -51` of it, and the result is that number
up to `2 ^ -50` of it. Partial: the result is not always the double next to that number, see `sig_hundred_fails` and `sig_small_fails`. -/
theorem sig_rounded_partial {lib : Lib} {x : ℝ} {e : ℤ} (h : Decimal R lib x e) (n : ℤ) :
    ∃ k : ℤ, |k * (10 : ℝ) ^ (e - n + 1) - x| ≤ 10 ^ (e - n + 1) / 2 + 2 ^ (-51 : ℤ) * |x| ∧
      |rSigFigs R lib x n - k * (10 : ℝ) ^ (e - n + 1)| ≤ 2 ^ (-50 : ℤ) * |k * (10 : ℝ) ^ (e - n + 1)| := by
  have hT : (0 : ℝ) < 10 ^ e := by positivity
  have hD : (0 : ℝ) < 10 ^ (n - 1) := by positivity
  set m := R.rnd (x / tenPow R lib e) with hm
  refine ⟨roundInt (m * 10 ^ (n - 1)), ?_, ?_⟩
  · have h1 := roundInt_near (m * 10 ^ (n - 1))
    have h2 : |m - x / 10 ^ e| ≤ 2 ^ (-51 : ℤ) * |x / 10 ^ e| := h.mult
    generalize (roundInt (m * 10 ^ (n - 1)) : ℝ) = k at *
    rw [unit_eq, show k * ((10 : ℝ) ^ e / 10 ^ (n - 1)) - x = (k - m * 10 ^ (n - 1)) * ((10 : ℝ) ^ e / 10 ^ (n - 1)) + (m - x / 10 ^ e) * 10 ^ e by
      field_simp; ring]
    refine (abs_add_le _ _).trans (add_le_add ?_ ?_)
    · rw [abs_mul, abs_of_pos (a := (10 : ℝ) ^ e / 10 ^ (n - 1)) (by positivity)]
      have := mul_le_mul_of_nonneg_right h1 (a := (10 : ℝ) ^ e / 10 ^ (n - 1)) (by positivity)
      linarith
    · rw [abs_mul, abs_of_pos hT]
      rw [abs_div, abs_of_pos hT] at h2
      have := mul_le_mul_of_nonneg_right h2 hT.le
      rw [mul_assoc, div_mul_cancel₀ _ hT.ne'] at this
      exact this
  · rw [h.eq, ← hm, unit_eq, mul_div_assoc', mul_comm _ ((10 : ℝ) ^ e), mul_div_assoc, mul_comm ((10 : ℝ) ^ e)]
    have h1 : Near _ (R.rnd (pyRound m (n - 1))) (roundInt (m * 10 ^ (n - 1)) / 10 ^ (n - 1)) := (Near.refl _).rnd R
    have h2 := (h1.mul h.power).rnd R
    exact h2.weaken (by norm_num)

/-- **C168, numbers from 1 to 10.** The result is the double next to the number with the requested figures. -/
theorem sig_unit {lib : Lib} {x : ℝ} (hx : IsFloat x) (h : Exponent x 0) (hl : ⌊lib.log10 |x|⌋ = 0) (n : ℤ) :
    rSigFigs R lib x n = R.rnd (sigFigs x n) := by
  have hd := decimal_of_nonneg R le_rfl h hl
  have e1 : tenPow R lib 0 = 1 := by simp [tenPow]
  rw [hd.eq, e1, div_one, R.fixed hx, mul_one, R.fixed (R.isFloat _)]
  unfold sigFigs
  rw [if_neg hd.ne]
  simp only [exponent_floor h, zpow_zero, div_one, mul_one]

/-- **C168, one figure.** From 1 to below `10 ^ 22` one figure is exact: a whole number times the power of ten. -/
theorem sig_one {lib : Lib} {x : ℝ} {e : ℤ} (he : 0 ≤ e) (he' : e ≤ 21) (h : Exponent x e) (hl : ⌊lib.log10 |x|⌋ = e) :
    ∃ k : ℤ, 1 ≤ |k| ∧ |k| ≤ 10 ∧ rSigFigs R lib x 1 = k * 10 ^ e := by
  have hd := decimal_of_nonneg R he h hl
  obtain ⟨h1, h2⟩ := hd.mult_abs
  obtain ⟨j, rfl⟩ := Int.eq_ofNat_of_zero_le he
  have hj : j ≤ 21 := by exact_mod_cast he'
  have key : ∀ k : ℤ, |k| ≤ 10 → IsFloat ((k : ℝ) * 10 ^ (j : ℤ)) := fun k hk => by
    refine ⟨k * 5 ^ j, j, ?_, ?_⟩
    · rw [abs_mul, abs_of_pos (a := (5 : ℤ) ^ j) (by positivity)]
      have : (5 : ℤ) ^ j ≤ 5 ^ 21 := pow_le_pow_right₀ (by norm_num) hj
      calc |k| * 5 ^ j ≤ 10 * 5 ^ 21 := mul_le_mul hk this (by positivity) (by norm_num)
        _ ≤ 2 ^ 53 := by norm_num
    · push_cast
      rw [zpow_natCast, zpow_natCast, mul_assoc, ← mul_pow]
      norm_num
  have e1 : tenPow R lib (j : ℤ) = 10 ^ (j : ℤ) := by
    rw [tenPow, if_pos he]
    have := R.fixed (key 1 (by norm_num))
    rwa [Int.cast_one, one_mul] at this
  set m := R.rnd (x / tenPow R lib (j : ℤ)) with hm
  have h3 := roundInt_near m
  set k := roundInt m with hk
  have h4 : |k| ≤ 10 := by
    have : |(k : ℝ)| < 11 := by
      have := abs_sub_abs_le_abs_sub (k : ℝ) m
      linarith
    have h5 : |k| < 11 := by exact_mod_cast this
    omega
  have h5 : 1 ≤ |k| := by
    have : (0 : ℝ) < |(k : ℝ)| := by
      have := abs_sub_abs_le_abs_sub m (k : ℝ)
      rw [abs_sub_comm] at this
      linarith
    have h5 : 0 < |k| := by exact_mod_cast this
    omega
  refine ⟨k, h5, h4, ?_⟩
  have e2 : pyRound m (1 - 1) = k := by simp [pyRound, hk]
  rw [hd.eq, ← hm, e2, R.fixed (isFloat_int (by omega)), e1, R.fixed (key k h4)]

/-- **C168 is false, large numbers.** Three figures of every number from 114.51 to 115.49 are not 115 but the double below it. -/
theorem sig_hundred_fails {lib : Lib} {x : ℝ} (h1 : 114.51 ≤ x) (h2 : x ≤ 115.49) (hl : ⌊lib.log10 |x|⌋ = 2) :
    rSigFigs R lib x 3 = 115 - 2 ^ (-46 : ℤ) := by
  norm_num at h1 h2
  have hx : 0 < x := by linarith
  have hd : Decimal R lib x 2 := decimal_of_nonneg R (by norm_num) (by constructor <;> rw [abs_of_pos hx] <;> norm_num <;> linarith) hl
  have e1 : tenPow R lib 2 = 100 := by
    rw [tenPow, if_pos (by norm_num)]
    have : IsFloat (100 : ℝ) := ⟨100, 0, by norm_num, by norm_num⟩
    have h := R.fixed this
    norm_num [h]
  have e2 : pyRound (R.rnd (x / 100)) (3 - 1) = 115 / 100 := by
    have h := abs_le.1 (R.error (x / 100))
    rw [abs_of_pos (a := x / 100) (by positivity)] at h
    norm_num at h
    have hr := abs_le.1 (roundInt_near (R.rnd (x / 100) * 10 ^ ((3 : ℤ) - 1)))
    unfold pyRound
    set k := roundInt (R.rnd (x / 100) * 10 ^ ((3 : ℤ) - 1))
    norm_num at hr
    have a1 : (114 : ℝ) < k := by linarith
    have a2 : (k : ℝ) < 116 := by linarith
    have a3 : 114 < k := by exact_mod_cast a1
    have a4 : k < 116 := by exact_mod_cast a2
    have : k = 115 := by omega
    rw [this]; norm_num
  have e3 : R.rnd (115 / 100) = ((5179139571476070 : ℤ) : ℝ) * 2 ^ (-52 : ℤ) :=
    R.absorb (by norm_num) (by norm_num) (by rw [abs_lt]; constructor <;> norm_num)
  have e4 : R.rnd (((5179139571476070 : ℤ) : ℝ) * 2 ^ (-52 : ℤ) * 100) = ((8092405580431359 : ℤ) : ℝ) * 2 ^ (-46 : ℤ) :=
    R.absorb (by norm_num) (by norm_num) (by rw [abs_lt]; constructor <;> norm_num)
  rw [hd.eq, e1, e2, e3, e4]
  norm_num

/-- **C168 is false, small numbers.** One figure of every number from 0.000251 to 0.000349 is not the double next to 0.0003, even with the best
possible power of ten. -/
theorem sig_small_fails {lib : Lib} {x : ℝ} (h1 : 0.000251 ≤ x) (h2 : x ≤ 0.000349) (hl : ⌊lib.log10 |x|⌋ = -4)
    (hp : lib.pow10 (-4) = R.rnd (1 / 10000)) : rSigFigs R lib x 1 = R.rnd 0.0003 + 2 ^ (-64 : ℤ) := by
  have e0 : R.rnd (1 / 10000) = ((7378697629483821 : ℤ) : ℝ) * 2 ^ (-66 : ℤ) :=
    R.absorb (by norm_num) (by norm_num) (by rw [abs_lt]; constructor <;> norm_num)
  have e1 : tenPow R lib (-4) = ((7378697629483821 : ℤ) : ℝ) * 2 ^ (-66 : ℤ) := by
    rw [tenPow, if_neg (by norm_num), hp, e0]
  norm_num at h1 h2
  have hx : 0 < x := by linarith
  have hd : Decimal R lib x (-4) := by
    refine ⟨by constructor <;> rw [abs_of_pos hx] <;> norm_num <;> linarith, hl, ?_⟩
    rw [e1, Near, abs_le]
    constructor <;> norm_num
  have e2 : pyRound (R.rnd (x / tenPow R lib (-4))) (1 - 1) = 3 := by
    have h : |R.rnd (x / tenPow R lib (-4)) - x / 10 ^ (-4 : ℤ)| ≤ _ := hd.mult
    rw [abs_of_pos (a := x / 10 ^ (-4 : ℤ)) (by positivity), abs_le] at h
    generalize R.rnd (x / tenPow R lib (-4)) = m at *
    have hr := abs_le.1 (roundInt_near m)
    norm_num at h
    have e : pyRound m (1 - 1) = roundInt m := by simp [pyRound]
    rw [e]
    have a1 : (2 : ℝ) < roundInt m := by linarith
    have a2 : (roundInt m : ℝ) < 4 := by linarith
    have a3 : 2 < roundInt m := by exact_mod_cast a1
    have a4 : roundInt m < 4 := by exact_mod_cast a2
    have : roundInt m = 3 := by omega
    rw [this]; norm_num
  have e3 : R.rnd 3 = 3 := R.fixed ⟨3, 0, by norm_num, by norm_num⟩
  have e4 : R.rnd (3 * (((7378697629483821 : ℤ) : ℝ) * 2 ^ (-66 : ℤ))) = ((5534023222112866 : ℤ) : ℝ) * 2 ^ (-64 : ℤ) :=
    R.absorb (by norm_num) (by norm_num) (by rw [abs_lt]; constructor <;> norm_num)
  have e5 : R.rnd 0.0003 = ((5534023222112865 : ℤ) : ℝ) * 2 ^ (-64 : ℤ) :=
    R.absorb (by norm_num) (by norm_num) (by rw [abs_lt]; constructor <;> norm_num)
  rw [hd.eq, e2, e3, e1, e4, e5]
  norm_num

/-- **C168, twice.** Up to 15 figures, taking the figures of the result again changes nothing, if the exponent found for it is the one found before,
or one more at the next power of ten. -/
theorem sig_again {lib : Lib} {x : ℝ} {e n : ℤ} (h : Decimal R lib x e) (hn : 1 ≤ n) (hn' : n ≤ 15)
    (hy : ⌊lib.log10 |rSigFigs R lib x n|⌋ = e ∨
      ⌊lib.log10 |rSigFigs R lib x n|⌋ = e + 1 ∧ |rSigFigs R lib x n| = tenPow R lib (e + 1)) :
    rSigFigs R lib (rSigFigs R lib x n) n = rSigFigs R lib x n := by
  obtain ⟨d, rfl⟩ : ∃ d : ℕ, n = d + 1 := ⟨(n - 1).toNat, by omega⟩
  have hd14 : d ≤ 14 := by omega
  have hD : (10 : ℝ) ^ d ≤ 10 ^ 14 := pow_le_pow_right₀ (by norm_num) hd14
  have hD1 : (1 : ℝ) ≤ 10 ^ d := one_le_pow₀ (by norm_num)
  have hP : 0 < |tenPow R lib e| := by
    have h1 := h.power.le_abs
    have : (0 : ℝ) < |10 ^ e| := by positivity
    have : 0 < (1 - (2 : ℝ) ^ (-52 : ℤ)) * |10 ^ e| := mul_pos (by norm_num) this
    linarith
  have hP0 : tenPow R lib e ≠ 0 := abs_pos.1 hP
  obtain ⟨h1, h2⟩ := h.mult_abs
  have heq := h.eq (d + 1)
  rw [add_sub_cancel_right] at heq
  set m := R.rnd (x / tenPow R lib e) with hm
  have hpy : pyRound m (d : ℤ) = roundInt (m * 10 ^ d) / 10 ^ d := by rw [pyRound, zpow_natCast]
  rw [hpy] at heq
  have hk := roundInt_near (m * 10 ^ d)
  set k := roundInt (m * 10 ^ d) with hkd
  set y := rSigFigs R lib x ((d : ℤ) + 1) with hyd
  set P := tenPow R lib e with hPd
  set q : ℝ := (k : ℝ) / 10 ^ d with hq
  have hq1 : |q| ≤ 11 := by
    rw [hq, abs_div, abs_of_pos (a := (10 : ℝ) ^ d) (by positivity), div_le_iff₀ (by positivity)]
    have a1 := abs_sub_abs_le_abs_sub (k : ℝ) (m * 10 ^ d)
    rw [abs_mul, abs_of_pos (a := (10 : ℝ) ^ d) (by positivity)] at a1
    nlinarith
  have hk0 : k ≠ 0 := by
    intro hc
    rw [hc, Int.cast_zero, zero_sub, abs_neg, abs_mul, abs_of_pos (a := (10 : ℝ) ^ d) (by positivity)] at hk
    nlinarith
  have hq0 : q ≠ 0 := div_ne_zero (by exact_mod_cast hk0) (by positivity)
  have c1 : Near (2 ^ (-53 : ℤ)) (R.rnd q) q := ((Near.refl q).rnd R).weaken (by norm_num)
  have hc0 : R.rnd q ≠ 0 := fun hc => hq0 (R.eq_zero hc)
  have hy0 : y ≠ 0 := by
    rw [heq]
    exact fun hc => mul_ne_zero hc0 hP0 (R.eq_zero hc)
  rcases hy with hy | ⟨hy, hy'⟩
  · have ey : rSigFigs R lib y (d + 1) = R.rnd (R.rnd (pyRound (R.rnd (y / P)) d) * P) := by
      unfold rSigFigs
      rw [if_neg hy0]
      simp only [hy, add_sub_cancel_right]
      rfl
    have c2 : Near (2 ^ (-53 : ℤ)) (y / P) (R.rnd q) := by
      have := R.error (R.rnd q * P)
      rw [← heq] at this
      rw [Near, show y / P - R.rnd q = (y - R.rnd q * P) / P by field_simp, abs_div, div_le_iff₀ hP]
      rw [abs_mul] at this
      linarith
    have c3 : Near (2 ^ (-51 : ℤ) - 2 ^ (-53 : ℤ) - 2 ^ (-80 : ℤ)) (y / P) q := by
      have a1 := c1.abs_le
      unfold Near at c1 c2 ⊢
      have a2 := abs_sub_le (y / P) (R.rnd q) q
      have a3 := abs_nonneg q
      norm_num at c1 c2 a1 ⊢
      linarith
    have c4 : Near (2 ^ (-51 : ℤ)) (R.rnd (y / P)) q := (c3.rnd R).weaken (by norm_num)
    have c5 : roundInt (R.rnd (y / P) * 10 ^ d) = k := by
      have a1 := roundInt_near (R.rnd (y / P) * 10 ^ d)
      have a2 : |R.rnd (y / P) * 10 ^ d - k| < 1 / 2 := by
        rw [show R.rnd (y / P) * 10 ^ d - k = (R.rnd (y / P) - q) * 10 ^ d by rw [hq]; field_simp, abs_mul,
          abs_of_pos (a := (10 : ℝ) ^ d) (by positivity)]
        have a3 : |R.rnd (y / P) - q| ≤ 2 ^ (-51 : ℤ) * 11 := (show |R.rnd (y / P) - q| ≤ _ from c4).trans
          (mul_le_mul_of_nonneg_left hq1 (by positivity))
        refine lt_of_le_of_lt (mul_le_mul a3 hD (by positivity) (by positivity)) ?_
        norm_num
      have a4 := abs_sub_le ((roundInt (R.rnd (y / P) * 10 ^ d) : ℤ) : ℝ) (R.rnd (y / P) * 10 ^ d) k
      have a5 : |((roundInt (R.rnd (y / P) * 10 ^ d) - k : ℤ) : ℝ)| < 1 := by push_cast; linarith
      have a6 : |roundInt (R.rnd (y / P) * 10 ^ d) - k| < 1 := by exact_mod_cast a5
      exact sub_eq_zero.1 (Int.abs_lt_one_iff.1 a6)
    rw [ey, pyRound, zpow_natCast, c5, ← hq, ← heq]
  · have hf' : IsFloat y := by rw [heq]; exact R.isFloat _
    set Q := tenPow R lib (e + 1) with hQ
    have ey : rSigFigs R lib y (d + 1) = R.rnd (R.rnd (pyRound (R.rnd (y / Q)) d) * Q) := by
      unfold rSigFigs
      rw [if_neg hy0]
      simp only [hy, add_sub_cancel_right]
      rfl
    have fm : IsFloat (-1 : ℝ) := isFloat_neg isFloat_one
    rw [ey]
    have hQ0 : Q ≠ 0 := by rw [← hy']; exact (abs_pos.2 hy0).ne'
    have r1 : pyRound 1 (d : ℤ) = 1 := by
      rw [pyRound, zpow_natCast, one_mul, show (10 : ℝ) ^ d = ((10 ^ d : ℤ) : ℝ) by push_cast; rfl, roundInt_int]
      exact div_self (by positivity)
    have r2 : pyRound (-1) (d : ℤ) = -1 := by
      rw [pyRound, zpow_natCast, neg_one_mul, show -(10 : ℝ) ^ d = ((-10 ^ d : ℤ) : ℝ) by push_cast; rfl, roundInt_int]
      push_cast
      rw [neg_div, div_self (by positivity)]
    rcases abs_choice y with ha | ha
    · rw [show y / Q = 1 by rw [← hy', ha]; exact div_self hy0, R.rnd_one, r1, R.rnd_one, one_mul, ← hy', ha, R.fixed hf']
    · rw [show y / Q = -1 by rw [← hy', ha, div_neg, div_self hy0], R.fixed fm, r2, R.fixed fm, ← hy', ha, neg_mul_neg, one_mul, R.fixed hf']

/-! ## The hypotheses can be met -/

/-- The best possible library. -/
noncomputable def bestLib : Lib := ⟨fun x => Real.logb 10 x, fun e => R.rnd (10 ^ e)⟩

theorem best_power (e : ℤ) : tenPow R (bestLib R) e = R.rnd (10 ^ e) := by
  unfold tenPow bestLib
  by_cases h : 0 ≤ e
  · rw [if_pos h]
  · rw [if_neg h]

theorem best_decimal {x : ℝ} {e : ℤ} (h : Exponent x e) : Decimal R (bestLib R) x e := by
  refine ⟨h, exponent_floor h, ?_⟩
  rw [best_power]
  exact ((Near.refl _).rnd R).weaken (by norm_num)

/-- Three figures of 115.25. -/
theorem sig_115 : rSigFigs R (bestLib R) 115.25 3 = 115 - 2 ^ (-46 : ℤ) :=
  sig_hundred_fails R (by norm_num) (by norm_num) (exponent_floor (by constructor <;> rw [abs_of_pos (by norm_num)] <;> norm_num))

example : rSigFigs R (bestLib R) 0.0003 1 = R.rnd 0.0003 + 2 ^ (-64 : ℤ) :=
  sig_small_fails R (by norm_num) (by norm_num) (exponent_floor (by constructor <;> rw [abs_of_pos (by norm_num)] <;> norm_num))
    (by unfold bestLib; norm_num)

example : rSigFigs R (bestLib R) (rSigFigs R (bestLib R) 115.25 3) 3 = rSigFigs R (bestLib R) 115.25 3 := by
  refine sig_again R (e := 2) (best_decimal R (by constructor <;> rw [abs_of_pos (by norm_num)] <;> norm_num)) (by norm_num) (by norm_num) (.inl ?_)
  rw [sig_115]
  exact exponent_floor (by constructor <;> rw [abs_of_pos (by norm_num)] <;> norm_num)

example : ∃ k : ℤ, |rSigFigs R (bestLib R) 0.00123 2 - k * (10 : ℝ) ^ (-4 : ℤ)| ≤ 2 ^ (-50 : ℤ) * |k * (10 : ℝ) ^ (-4 : ℤ)| := by
  obtain ⟨k, _, h⟩ := sig_rounded_partial R (best_decimal R (x := 0.00123) (e := -3)
    (by constructor <;> rw [abs_of_pos (by norm_num)] <;> norm_num)) 2
  exact ⟨k, by norm_num at h ⊢; exact h⟩

example : rSigFigs R (bestLib R) 1.25 2 = R.rnd (sigFigs 1.25 2) :=
  have h : Exponent 1.25 0 := by constructor <;> rw [abs_of_pos (by norm_num)] <;> norm_num
  sig_unit R ⟨5, -2, by norm_num, by norm_num⟩ h (exponent_floor h) 2

example : ∃ k : ℤ, 1 ≤ |k| ∧ |k| ≤ 10 ∧ rSigFigs R (bestLib R) 98765 1 = k * 10 ^ (4 : ℤ) :=
  have h : Exponent 98765 4 := by constructor <;> rw [abs_of_pos (by norm_num)] <;> norm_num
  sig_one R (by norm_num) (by norm_num) h (exponent_floor h)

end Verif.SigFigs
