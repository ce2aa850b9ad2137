import Mathlib.Analysis.Real.Sqrt
import Mathlib.Data.Int.Log
import Mathlib.Algebra.Order.Round
import Mathlib.Tactic.Linarith
import Mathlib.Tactic.Positivity
import Mathlib.Tactic.FieldSimp
import Mathlib.Tactic.NormNum

/-!
# Rounded arithmetic

Numbers of double precision as real numbers: 53 bits and any exponent. Overflow, underflow and signed zeros are not
modelled. A rounding is any function to a nearest such number, so what is proved for all roundings holds for
rounding to nearest with ties to even, which Python and numpy use for `+`, `-`, `*`, `/` and `sqrt`.
-/

namespace Verif.Py

/-- A number with 53 bits. -/
def IsFloat (x : ℝ) : Prop := ∃ m e : ℤ, |m| ≤ 2 ^ 53 ∧ x = m * (2 : ℝ) ^ e

/-- Rounding to a nearest number with 53 bits, the same way for negative numbers. -/
structure Rounding where
  rnd : ℝ → ℝ
  isFloat : ∀ x, IsFloat (rnd x)
  nearest : ∀ x y, IsFloat y → |rnd x - x| ≤ |y - x|
  odd : ∀ x, rnd (-x) = -rnd x

theorem two_zpow_pos (e : ℤ) : (0 : ℝ) < 2 ^ e := zpow_pos (by norm_num) e

theorem isFloat_zero : IsFloat 0 := ⟨0, 0, by norm_num, by norm_num⟩

theorem isFloat_one : IsFloat 1 := ⟨1, 0, by norm_num, by norm_num⟩

theorem isFloat_zpow (e : ℤ) : IsFloat ((2 : ℝ) ^ e) := ⟨1, e, by norm_num, by norm_num⟩

theorem isFloat_int {n : ℤ} (h : |n| ≤ 2 ^ 53) : IsFloat n := ⟨n, 0, h, by norm_num⟩

/-- Positive numbers of 53 bits have exactly 53 bits after scaling. -/
theorem IsFloat.normal {x : ℝ} (h : IsFloat x) (hx : 0 < x) : ∃ m e : ℤ, 2 ^ 52 ≤ m ∧ m < 2 ^ 53 ∧ x = m * (2 : ℝ) ^ e := by
  obtain ⟨m, e, hm, rfl⟩ := h
  have hm0 : 0 < m := by
    have := pos_of_mul_pos_left hx (two_zpow_pos e).le
    exact_mod_cast this
  rw [abs_of_pos hm0] at hm
  obtain ⟨k, rfl⟩ : ∃ k : ℕ, m = k := ⟨m.toNat, by omega⟩
  have hk0 : k ≠ 0 := by omega
  have hk : k ≤ 2 ^ 53 := by exact_mod_cast hm
  have h1 : 2 ^ Nat.log 2 k ≤ k := Nat.pow_log_le_self 2 hk0
  have h2 : k < 2 ^ (Nat.log 2 k + 1) := Nat.lt_pow_succ_log_self (by norm_num) k
  by_cases h53 : k = 2 ^ 53
  · refine ⟨2 ^ 52, e + 1, le_refl _, by norm_num, ?_⟩
    rw [h53, zpow_add₀ (by norm_num)]
    push_cast
    ring
  · have hl : Nat.log 2 k ≤ 52 := by
      have : Nat.log 2 k < 53 := Nat.log_lt_of_lt_pow hk0 (by omega)
      omega
    obtain ⟨d, hd⟩ : ∃ d : ℕ, d + Nat.log 2 k = 52 := ⟨52 - Nat.log 2 k, by omega⟩
    refine ⟨(k * 2 ^ d : ℕ), e - d, ?_, ?_, ?_⟩
    · have : 2 ^ 52 ≤ k * 2 ^ d := by
        calc 2 ^ 52 = 2 ^ Nat.log 2 k * 2 ^ d := by rw [← pow_add, ← hd, Nat.add_comm]
          _ ≤ _ := Nat.mul_le_mul_right _ h1
      exact_mod_cast this
    · have : k * 2 ^ d < 2 ^ 53 := by
        calc k * 2 ^ d < 2 ^ (Nat.log 2 k + 1) * 2 ^ d := Nat.mul_lt_mul_of_pos_right h2 (by positivity)
          _ = 2 ^ 53 := by rw [← pow_add]; congr 1; omega
      exact_mod_cast this
    · rw [zpow_sub₀ (by norm_num)]
      push_cast
      rw [zpow_natCast]
      field_simp

/-- The next number above. -/
theorem IsFloat.gap_above {m e : ℤ} (hm : 2 ^ 52 ≤ m) {r : ℝ} (hr : IsFloat r) (h : (m : ℝ) * 2 ^ e < r) :
    ((m : ℝ) + 1) * 2 ^ e ≤ r := by
  have hmr : (2 : ℝ) ^ (52 : ℤ) ≤ m := by exact_mod_cast hm
  have hp := two_zpow_pos e
  have hr0 : 0 < r := lt_trans (mul_pos (lt_of_lt_of_le (by positivity) hmr) hp) h
  obtain ⟨m', e', h1, h2, rfl⟩ := hr.normal hr0
  have h2r : (m' : ℝ) < 2 ^ (53 : ℤ) := by exact_mod_cast h2
  rcases lt_or_ge e' e with he | he
  · exfalso
    have h3 : (2 : ℝ) ^ e' ≤ 2 ^ (e - 1) := zpow_le_zpow_right₀ (by norm_num) (by omega)
    have h4 : (m' : ℝ) * 2 ^ e' ≤ 2 ^ (53 : ℤ) * 2 ^ (e - 1) := mul_le_mul h2r.le h3 (two_zpow_pos _).le (by positivity)
    have h5 : (2 : ℝ) ^ (53 : ℤ) * 2 ^ (e - 1) = 2 ^ (52 : ℤ) * 2 ^ e := by
      rw [← zpow_add₀ (by norm_num), ← zpow_add₀ (by norm_num)]; congr 1; ring
    have h6 := mul_le_mul_of_nonneg_right hmr hp.le
    linarith
  · obtain ⟨d, rfl⟩ : ∃ d : ℕ, e' = e + d := ⟨(e' - e).toNat, by omega⟩
    rw [zpow_add₀ (by norm_num), zpow_natCast, mul_comm ((2 : ℝ) ^ e), ← mul_assoc] at h ⊢
    have h7 := lt_of_mul_lt_mul_right h hp.le
    have h8 : m + 1 ≤ m' * 2 ^ d := by
      have : m < m' * 2 ^ d := by exact_mod_cast h7
      omega
    refine mul_le_mul_of_nonneg_right ?_ hp.le
    exact_mod_cast h8

/-- The next number below. -/
theorem IsFloat.gap_below {m e : ℤ} (hm : 2 ^ 52 < m) {r : ℝ} (hr : IsFloat r) (h : r < (m : ℝ) * 2 ^ e) :
    r ≤ ((m : ℝ) - 1) * 2 ^ e := by
  have hmr : (2 : ℝ) ^ (52 : ℤ) ≤ m - 1 := by
    have : (2 : ℤ) ^ 52 ≤ m - 1 := by omega
    exact_mod_cast this
  have hp := two_zpow_pos e
  have h6 := mul_le_mul_of_nonneg_right hmr hp.le
  rcases le_or_gt r 0 with hr0 | hr0
  · have : (0 : ℝ) < 2 ^ (52 : ℤ) * 2 ^ e := by positivity
    linarith
  obtain ⟨m', e', h1, h2, rfl⟩ := hr.normal hr0
  have h2r : (m' : ℝ) < 2 ^ (53 : ℤ) := by exact_mod_cast h2
  rcases lt_or_ge e' e with he | he
  · have h3 : (2 : ℝ) ^ e' ≤ 2 ^ (e - 1) := zpow_le_zpow_right₀ (by norm_num) (by omega)
    have h4 : (m' : ℝ) * 2 ^ e' ≤ 2 ^ (53 : ℤ) * 2 ^ (e - 1) := mul_le_mul h2r.le h3 (two_zpow_pos _).le (by positivity)
    have h5 : (2 : ℝ) ^ (53 : ℤ) * 2 ^ (e - 1) = 2 ^ (52 : ℤ) * 2 ^ e := by
      rw [← zpow_add₀ (by norm_num), ← zpow_add₀ (by norm_num)]; congr 1; ring
    linarith
  · obtain ⟨d, rfl⟩ : ∃ d : ℕ, e' = e + d := ⟨(e' - e).toNat, by omega⟩
    rw [zpow_add₀ (by norm_num), zpow_natCast, mul_comm ((2 : ℝ) ^ e), ← mul_assoc] at h ⊢
    have h7 := lt_of_mul_lt_mul_right h hp.le
    have h8 : m' * 2 ^ d ≤ m - 1 := by
      have : m' * 2 ^ d < m := by exact_mod_cast h7
      omega
    refine mul_le_mul_of_nonneg_right ?_ hp.le
    exact_mod_cast h8

/-- Smaller numbers are smaller by at least the factor `1 - 2 ^ -53`. -/
theorem IsFloat.gap_rel {x r : ℝ} (hx : IsFloat x) (hr : IsFloat r) (h0 : 0 < x) (h : r < x) : r ≤ x - x * 2 ^ (-53 : ℤ) := by
  obtain ⟨m, e, h1, h2, rfl⟩ := hx.normal h0
  have hp := two_zpow_pos e
  have h2r : (m : ℝ) ≤ 2 ^ (53 : ℤ) := by exact_mod_cast h2.le
  have hu : (2 : ℝ) ^ (53 : ℤ) * 2 ^ (-53 : ℤ) = 1 := by norm_num
  by_cases hm : m = 2 ^ 52
  · -- a power of two: the next number below has one bit more
    have h3 : (m : ℝ) * 2 ^ e = ((2 ^ 53 : ℤ) : ℝ) * 2 ^ (e - 1) := by
      rw [hm, zpow_sub₀ (by norm_num)]; push_cast; norm_num; ring
    rw [h3] at h
    have h4 := IsFloat.gap_below (m := 2 ^ 53) (by norm_num) hr h
    rw [h3]
    refine h4.trans (le_of_eq ?_)
    push_cast
    have : (9007199254740992 : ℝ) * 2 ^ (-53 : ℤ) = 1 := by norm_num
    have h7 : (9007199254740992 : ℝ) * 2 ^ (e - 1) * 2 ^ (-53 : ℤ) = 2 ^ (e - 1) := by rw [mul_right_comm, this, one_mul]
    rw [h7, sub_mul, one_mul]
  · have h4 := IsFloat.gap_below (m := m) (by omega) hr h
    have h5 : (m : ℝ) * 2 ^ (-53 : ℤ) ≤ 1 := by
      rw [← hu]; exact mul_le_mul_of_nonneg_right h2r (two_zpow_pos _).le
    have h6 := mul_le_mul_of_nonneg_right h5 hp.le
    nlinarith

/-- Every number has a number of 53 bits near it. -/
theorem exists_near (x : ℝ) : ∃ y, IsFloat y ∧ |y - x| ≤ |x| * 2 ^ (-53 : ℤ) := by
  rcases eq_or_ne x 0 with rfl | hx
  · exact ⟨0, isFloat_zero, by simp⟩
  have hx' : 0 < |x| := abs_pos.2 hx
  have h1 : (2 : ℝ) ^ Int.log 2 |x| ≤ |x| := by exact_mod_cast Int.zpow_log_le_self (by norm_num) hx'
  have h2 : |x| < (2 : ℝ) ^ (Int.log 2 |x| + 1) := by exact_mod_cast Int.lt_zpow_succ_log_self (b := 2) (by norm_num) |x|
  generalize Int.log 2 |x| = e at h1 h2
  have hp := two_zpow_pos (e - 52)
  have hr := abs_sub_round (x / 2 ^ (e - 52))
  have h3 : |x / 2 ^ (e - 52)| < 2 ^ (53 : ℤ) := by
    rw [abs_div, abs_of_pos hp, div_lt_iff₀ hp, ← zpow_add₀ (by norm_num)]
    rwa [show (53 : ℤ) + (e - 52) = e + 1 by ring]
  refine ⟨round (x / 2 ^ (e - 52)) * 2 ^ (e - 52), ⟨round (x / 2 ^ (e - 52)), e - 52, ?_, rfl⟩, ?_⟩
  · have h4 : |((round (x / 2 ^ (e - 52)) : ℤ) : ℝ)| < 2 ^ (53 : ℤ) + 1 := by
      have := abs_sub_abs_le_abs_sub ((round (x / 2 ^ (e - 52)) : ℤ) : ℝ) (x / 2 ^ (e - 52))
      rw [abs_sub_comm] at hr
      linarith
    have h5 : |round (x / 2 ^ (e - 52))| < 2 ^ 53 + 1 := by exact_mod_cast h4
    omega
  · have h6 : round (x / 2 ^ (e - 52)) * (2 : ℝ) ^ (e - 52) - x = -(x / 2 ^ (e - 52) - round (x / 2 ^ (e - 52))) * 2 ^ (e - 52) := by
      field_simp; ring
    rw [h6, abs_mul, abs_neg, abs_of_pos hp]
    calc _ ≤ 1 / 2 * (2 : ℝ) ^ (e - 52) := mul_le_mul_of_nonneg_right hr hp.le
      _ = 2 ^ e * 2 ^ (-53 : ℤ) := by
        rw [← zpow_add₀ (by norm_num), show (1 / 2 : ℝ) = 2 ^ (-1 : ℤ) by norm_num, ← zpow_add₀ (by norm_num)]; congr 1; ring
      _ ≤ _ := mul_le_mul_of_nonneg_right h1 (by positivity)

/-- There is a nearest number of 53 bits. -/
theorem exists_nearest (x : ℝ) : ∃ y, IsFloat y ∧ ∀ z, IsFloat z → |y - x| ≤ |z - x| := by
  rcases eq_or_ne x 0 with rfl | hx
  · exact ⟨0, isFloat_zero, fun z _ => by simp⟩
  have hx' : 0 < |x| := abs_pos.2 hx
  have h1 : (2 : ℝ) ^ Int.log 2 |x| ≤ |x| := by exact_mod_cast Int.zpow_log_le_self (by norm_num) hx'
  have h2 : |x| < (2 : ℝ) ^ (Int.log 2 |x| + 1) := by exact_mod_cast Int.lt_zpow_succ_log_self (b := 2) (by norm_num) |x|
  generalize Int.log 2 |x| = e at h1 h2
  have hp := two_zpow_pos (e - 52)
  have hr := abs_sub_round (x / 2 ^ (e - 52))
  have h3 : |x / 2 ^ (e - 52)| < 2 ^ (53 : ℤ) := by
    rw [abs_div, abs_of_pos hp, div_lt_iff₀ hp, ← zpow_add₀ (by norm_num)]
    rwa [show (53 : ℤ) + (e - 52) = e + 1 by ring]
  have h6 : ∀ k : ℤ, |round (x / 2 ^ (e - 52)) * (2 : ℝ) ^ (e - 52) - x| ≤ |k * (2 : ℝ) ^ (e - 52) - x| := by
    intro k
    have h := round_le (x / 2 ^ (e - 52)) k
    have h7 : ∀ k : ℤ, |k * (2 : ℝ) ^ (e - 52) - x| = |x / 2 ^ (e - 52) - k| * 2 ^ (e - 52) := by
      intro k
      rw [← abs_of_pos hp, ← abs_mul, abs_of_pos hp, abs_sub_comm]
      congr 1; field_simp
    rw [h7, h7]
    exact mul_le_mul_of_nonneg_right h hp.le
  refine ⟨round (x / 2 ^ (e - 52)) * 2 ^ (e - 52), ⟨round (x / 2 ^ (e - 52)), e - 52, ?_, rfl⟩, ?_⟩
  · have h4 : |((round (x / 2 ^ (e - 52)) : ℤ) : ℝ)| < 2 ^ (53 : ℤ) + 1 := by
      have := abs_sub_abs_le_abs_sub ((round (x / 2 ^ (e - 52)) : ℤ) : ℝ) (x / 2 ^ (e - 52))
      rw [abs_sub_comm] at hr
      linarith
    have h5 : |round (x / 2 ^ (e - 52))| < 2 ^ 53 + 1 := by exact_mod_cast h4
    omega
  · rintro _ ⟨m, e', hm, rfl⟩
    rcases le_or_gt (e - 52) e' with he | he
    · obtain ⟨d, rfl⟩ : ∃ d : ℕ, e' = e - 52 + d := ⟨(e' - (e - 52)).toNat, by omega⟩
      have := h6 (m * 2 ^ d)
      rw [zpow_add₀ (by norm_num), zpow_natCast]
      push_cast at this
      convert this using 2
      ring
    · -- smaller numbers are not nearer than the power of two below
      have hz : |(m : ℝ) * 2 ^ e'| ≤ 2 ^ e := by
        have hm' : |(m : ℝ)| ≤ 2 ^ (53 : ℤ) := by exact_mod_cast hm
        have h3 : (2 : ℝ) ^ e' ≤ 2 ^ (e - 53) := zpow_le_zpow_right₀ (by norm_num) (by omega)
        rw [abs_mul, abs_of_pos (two_zpow_pos e')]
        calc _ ≤ (2 : ℝ) ^ (53 : ℤ) * 2 ^ (e - 53) := mul_le_mul hm' h3 (two_zpow_pos _).le (by positivity)
          _ = 2 ^ e := by rw [← zpow_add₀ (by norm_num)]; congr 1; omega
      have hk : (2 : ℝ) ^ e = 2 ^ (52 : ℤ) * 2 ^ (e - 52) := by rw [← zpow_add₀ (by norm_num)]; congr 1; omega
      rw [abs_le] at hz
      rcases lt_or_gt_of_ne hx with hneg | hpos
      · have := h6 (-2 ^ 52)
        have h8 : ((-2 ^ 52 : ℤ) : ℝ) * 2 ^ (e - 52) = - 2 ^ e := by rw [hk]; push_cast; norm_num
        rw [h8] at this
        rw [abs_of_neg hneg] at h1
        refine this.trans ?_
        rw [abs_of_nonneg (by linarith)]
        exact le_trans (by linarith [hz.1]) (le_abs_self _)
      · have := h6 (2 ^ 52)
        have h8 : ((2 ^ 52 : ℤ) : ℝ) * 2 ^ (e - 52) = 2 ^ e := by rw [hk]; push_cast; norm_num
        rw [h8] at this
        rw [abs_of_pos hpos] at h1
        refine this.trans ?_
        rw [abs_of_nonpos (by linarith)]
        exact le_trans (by linarith [hz.2]) (neg_le_abs _)

theorem isFloat_neg {x : ℝ} (h : IsFloat x) : IsFloat (-x) := by
  obtain ⟨m, e, h1, rfl⟩ := h
  exact ⟨-m, e, by rwa [abs_neg], by push_cast; ring⟩

theorem isFloat_abs {x : ℝ} (h : IsFloat x) : IsFloat |x| := by
  rcases abs_cases x with ⟨h1, _⟩ | ⟨h1, _⟩ <;> rw [h1]
  exacts [h, isFloat_neg h]

/-- Roundings exist. -/
noncomputable def Rounding.some : Rounding where
  rnd x := if 0 ≤ x then Classical.choose (exists_nearest x) else -Classical.choose (exists_nearest (-x))
  isFloat x := by
    split
    · exact (Classical.choose_spec (exists_nearest x)).1
    · exact isFloat_neg (Classical.choose_spec (exists_nearest (-x))).1
  nearest x y hy := by
    split
    · exact (Classical.choose_spec (exists_nearest x)).2 y hy
    · have := (Classical.choose_spec (exists_nearest (-x))).2 (-y) (isFloat_neg hy)
      rw [show -Classical.choose (exists_nearest (-x)) - x = -(Classical.choose (exists_nearest (-x)) - -x) by ring, abs_neg,
        show y - x = -(-y - -x) by ring, abs_neg (-y - -x)]
      exact this
  odd x := by
    rcases lt_trichotomy x 0 with h | rfl | h
    · rw [if_pos (by linarith), if_neg (by linarith), neg_neg]
    · have h0 : Classical.choose (exists_nearest (0 : ℝ)) = 0 := by
        have := (Classical.choose_spec (exists_nearest 0)).2 0 isFloat_zero
        rw [sub_zero, sub_zero, abs_zero] at this
        exact abs_nonpos_iff.1 this
      rw [neg_zero, if_pos le_rfl, h0, if_pos le_rfl, neg_zero]
    · rw [if_neg (by linarith), if_pos h.le, neg_neg]

namespace Rounding

variable (R : Rounding)

theorem fixed {x : ℝ} (h : IsFloat x) : R.rnd x = x := by
  have := R.nearest x x h
  rw [sub_self, abs_zero] at this
  exact sub_eq_zero.1 (abs_nonpos_iff.1 this)

@[simp] theorem rnd_zero : R.rnd 0 = 0 := R.fixed isFloat_zero

@[simp] theorem rnd_one : R.rnd 1 = 1 := R.fixed isFloat_one

/-- Rounding respects the order. -/
theorem mono {x y : ℝ} (h : x ≤ y) : R.rnd x ≤ R.rnd y := by
  by_contra hc
  rw [not_le] at hc
  have h1 := R.nearest x _ (R.isFloat y)
  have h2 := R.nearest y _ (R.isFloat x)
  rcases h.eq_or_lt with rfl | h
  · exact lt_irrefl _ hc
  rcases abs_cases (R.rnd x - x) with ⟨a1, _⟩ | ⟨a1, _⟩ <;> rcases abs_cases (R.rnd y - x) with ⟨a2, _⟩ | ⟨a2, _⟩ <;>
    rcases abs_cases (R.rnd y - y) with ⟨a3, _⟩ | ⟨a3, _⟩ <;> rcases abs_cases (R.rnd x - y) with ⟨a4, _⟩ | ⟨a4, _⟩ <;>
    rw [a1, a2] at h1 <;> rw [a3, a4] at h2 <;> linarith

theorem le_of_le {x y : ℝ} (hy : IsFloat y) (h : x ≤ y) : R.rnd x ≤ y := by
  rw [← R.fixed hy]; exact R.mono h

theorem ge_of_ge {x y : ℝ} (hy : IsFloat y) (h : y ≤ x) : y ≤ R.rnd x := by
  rw [← R.fixed hy]; exact R.mono h

theorem nonneg {x : ℝ} (h : 0 ≤ x) : 0 ≤ R.rnd x := R.ge_of_ge isFloat_zero h

/-- The relative error is at most `2 ^ -53`. -/
theorem error (x : ℝ) : |R.rnd x - x| ≤ |x| * 2 ^ (-53 : ℤ) := by
  obtain ⟨y, hy, h⟩ := exists_near x
  exact (R.nearest x y hy).trans h

theorem eq_zero {x : ℝ} (h : R.rnd x = 0) : x = 0 := by
  have := R.error x
  rw [h, zero_sub, abs_neg] at this
  by_contra hx
  have hx' := abs_pos.2 hx
  have h2 : (2 : ℝ) ^ (-53 : ℤ) < 1 := by norm_num
  nlinarith

theorem pos {x : ℝ} (h : 0 < x) : 0 < R.rnd x :=
  lt_of_le_of_ne (R.nonneg h.le) fun hc => h.ne' (R.eq_zero hc.symm)

/-- Numbers nearer than half the distance to the next number are rounded to it. -/
theorem absorb {m e : ℤ} (hm : 2 ^ 52 < m) (hm' : m < 2 ^ 53) {x : ℝ} (h : |x - m * 2 ^ e| < 2 ^ (e - 1)) : R.rnd x = m * 2 ^ e := by
  have hf : IsFloat ((m : ℝ) * 2 ^ e) := ⟨m, e, by rw [abs_of_pos (by omega)]; omega, rfl⟩
  have h1 := R.nearest x _ hf
  rw [abs_sub_comm x] at h
  have h2 : (2 : ℝ) ^ e = 2 * 2 ^ (e - 1) := by
    rw [zpow_sub₀ (by norm_num)]; norm_num; ring
  rcases lt_trichotomy (R.rnd x) (m * 2 ^ e) with hlt | heq | hgt
  · exfalso
    have h3 := IsFloat.gap_below hm (R.isFloat x) hlt
    have h4 : R.rnd x ≤ m * 2 ^ e - 2 ^ e := by linarith
    have h5 := lt_of_le_of_lt h1 h
    rw [abs_lt] at h h5
    linarith [h.1, h.2, h5.1, h5.2]
  · exact heq
  · exfalso
    have h3 := IsFloat.gap_above hm.le (R.isFloat x) hgt
    have h4 : m * 2 ^ e + 2 ^ e ≤ R.rnd x := by linarith
    have h5 := lt_of_le_of_lt h1 h
    rw [abs_lt] at h h5
    linarith [h.1, h.2, h5.1, h5.2]

/-- The square root of the rounded square is the number itself. -/
theorem sqrt_sq {n : ℝ} (hn : IsFloat n) (h0 : 0 ≤ n) : R.rnd (Real.sqrt (R.rnd (n * n))) = n := by
  rcases h0.eq_or_lt with rfl | h0
  · simp
  obtain ⟨m, e, h1, h2, rfl⟩ := hn.normal h0
  have hp := two_zpow_pos e
  have herr := R.error ((m : ℝ) * 2 ^ e * (m * 2 ^ e))
  rw [abs_of_pos (mul_pos h0 h0)] at herr
  have hs0 : 0 ≤ R.rnd ((m : ℝ) * 2 ^ e * (m * 2 ^ e)) := R.nonneg (mul_pos h0 h0).le
  have h1r : (2 : ℝ) ^ (52 : ℤ) ≤ m := by exact_mod_cast h1
  have h2r : (m : ℝ) ≤ 2 ^ (53 : ℤ) - 1 := by
    have : m ≤ 2 ^ 53 - 1 := by omega
    exact_mod_cast this
  -- the error of the square
  have hbound : (m : ℝ) * m * 2 ^ (-53 : ℤ) ≤ m - 1 / 2 := by
    have h3 : (2 : ℝ) ^ (-53 : ℤ) = 1 / 9007199254740992 := by norm_num
    have h4 : (2 : ℝ) ^ (53 : ℤ) = 9007199254740992 := by norm_num
    have h5 : (2 : ℝ) ^ (52 : ℤ) = 4503599627370496 := by norm_num
    rw [h5] at h1r; rw [h4] at h2r; rw [h3]
    rw [mul_one_div, div_le_iff₀ (by norm_num)]
    nlinarith
  have herr' : |R.rnd ((m : ℝ) * 2 ^ e * (m * 2 ^ e)) - (m : ℝ) * 2 ^ e * (m * 2 ^ e)| ≤ (m - 1 / 2) * (2 ^ e * 2 ^ e) := by
    refine herr.trans ?_
    have : (m : ℝ) * 2 ^ e * (m * 2 ^ e) * 2 ^ (-53 : ℤ) = (m * m * 2 ^ (-53 : ℤ)) * (2 ^ e * 2 ^ e) := by ring
    rw [this]
    exact mul_le_mul_of_nonneg_right hbound (mul_pos hp hp).le
  rw [abs_le] at herr'
  have hpp := mul_pos hp hp
  by_cases hm : m = 2 ^ 52
  · -- a power of two: the square is exact
    have : IsFloat ((m : ℝ) * 2 ^ e * (m * 2 ^ e)) := by
      refine ⟨1, 104 + (e + e), by norm_num, ?_⟩
      rw [hm]; push_cast
      rw [zpow_add₀ (by norm_num), zpow_add₀ (by norm_num)]; norm_num; ring
    rw [R.fixed this, Real.sqrt_mul_self h0.le, R.fixed hn]
  refine R.absorb (by omega) h2 ?_
  have hs := Real.sqrt_nonneg (R.rnd ((m : ℝ) * 2 ^ e * (m * 2 ^ e)))
  have hsq := Real.mul_self_sqrt hs0
  generalize Real.sqrt (R.rnd ((m : ℝ) * 2 ^ e * (m * 2 ^ e))) = q at hs hsq
  have h2e : (2 : ℝ) ^ (e - 1) = 2 ^ e / 2 := by rw [zpow_sub₀ (by norm_num)]; norm_num
  rw [h2e, abs_lt]
  have hmpos : (1 : ℝ) ≤ m := by
    have : (1:ℤ) ≤ m := by omega
    exact_mod_cast this
  constructor
  · by_contra hc
    rw [not_lt] at hc
    have h6 : q ≤ (m - 1 / 2) * 2 ^ e := by linarith
    have h7 : q * q ≤ ((m - 1 / 2) * 2 ^ e) * ((m - 1 / 2) * 2 ^ e) := mul_self_le_mul_self hs h6
    have : ((m - 1 / 2) * (2:ℝ) ^ e) * ((m - 1 / 2) * 2 ^ e) = (m : ℝ) * 2 ^ e * (m * 2 ^ e) - (m - 1 / 4) * (2 ^ e * 2 ^ e) := by ring
    nlinarith
  · by_contra hc
    rw [not_lt] at hc
    have h6 : (m + 1 / 2) * 2 ^ e ≤ q := by linarith
    have h7 : ((m + 1 / 2) * 2 ^ e) * ((m + 1 / 2) * 2 ^ e) ≤ q * q := mul_self_le_mul_self (by positivity) h6
    have : ((m + 1 / 2) * (2:ℝ) ^ e) * ((m + 1 / 2) * 2 ^ e) = (m : ℝ) * 2 ^ e * (m * 2 ^ e) + (m + 1 / 4) * (2 ^ e * 2 ^ e) := by ring
    nlinarith

end Rounding

end Verif.Py
