import Verif.Sdds.SpecAscii
import Mathlib.Tactic.Ring
import Mathlib.Tactic.Positivity
import Mathlib.Tactic.NormNum
import Mathlib.Tactic.Linarith
import Mathlib.Data.Rat.Cast.Order

/-! # `truncF64` rounds doubles towards zero -/

namespace Verif.Sdds

theorem f64Abs_nonneg (x : F64) : 0 ≤ f64Abs x := by
  unfold f64Abs
  split_ifs <;> exact mul_nonneg (Nat.cast_nonneg _) (zpow_nonneg (by norm_num) _)

theorem abs_f64Value (x : F64) : |f64Value x| = f64Abs x := by
  unfold f64Value
  split_ifs
  · exact abs_of_nonneg (f64Abs_nonneg x)
  · rw [abs_neg, abs_of_nonneg (f64Abs_nonneg x)]

/-- A number times a power of two, cut off to an integer. -/
theorem scaled_cut (mant k : Nat) :
    (((if 1075 ≤ k then mant * 2 ^ (k - 1075) else mant / 2 ^ (1075 - k) : ℕ) : ℕ) : ℚ) ≤ mant * 2 ^ ((k : ℤ) - 1075) ∧
    (mant : ℚ) * 2 ^ ((k : ℤ) - 1075) < ((if 1075 ≤ k then mant * 2 ^ (k - 1075) else mant / 2 ^ (1075 - k) : ℕ) : ℕ) + 1 := by
  by_cases h : 1075 ≤ k
  · simp only [if_pos h]
    have : (2 : ℚ) ^ ((k : ℤ) - 1075) = 2 ^ (k - 1075) := by
      rw [show (k : ℤ) - 1075 = ((k - 1075 : ℕ) : ℤ) by omega, zpow_natCast]
    rw [this]
    push_cast
    exact ⟨le_refl _, lt_add_one _⟩
  · simp only [if_neg h]
    have : (2 : ℚ) ^ ((k : ℤ) - 1075) = (2 ^ (1075 - k))⁻¹ := by
      rw [show (k : ℤ) - 1075 = -((1075 - k : ℕ) : ℤ) by omega, zpow_neg, zpow_natCast]
    rw [this, ← div_eq_mul_inv]
    have hp : (0 : ℚ) < 2 ^ (1075 - k) := by positivity
    constructor
    · rw [le_div_iff₀ hp]
      exact_mod_cast Nat.div_mul_le_self mant (2 ^ (1075 - k))
    · rw [div_lt_iff₀ hp]
      exact_mod_cast (Nat.lt_mul_of_div_lt (Nat.lt_succ_self (mant / 2 ^ (1075 - k))) (Nat.two_pow_pos _))

/-- The number `truncF64` computes has the right distance. -/
theorem truncF64_abs {x : F64} (hf : x.toNat / 2 ^ 52 % 2048 ≠ 2047) :
    ∃ a : Nat, truncF64 x = .ok (if 2 ^ 63 ≤ x.toNat then -(a : Int) else a) ∧ (a : ℚ) ≤ f64Abs x ∧ f64Abs x < a + 1 := by
  unfold truncF64 f64Abs
  simp only [if_neg hf]
  refine ⟨_, rfl, ?_⟩
  by_cases he : x.toNat / 2 ^ 52 % 2048 = 0
  · simp only [if_pos he]
    rw [he, show (-1074 : ℤ) = ((1 : ℕ) : ℤ) - 1075 by norm_num]
    exact scaled_cut (x.toNat % 2 ^ 52) 1
  · simp only [if_neg he]
    have hk : max (x.toNat / 2 ^ 52 % 2048) 1 = x.toNat / 2 ^ 52 % 2048 := by omega
    rw [hk]
    exact scaled_cut _ _

theorem truncF64_iff (x : F64) (i : Int) : truncF64 x = .ok i ↔ RoundsToZero x i := by
  by_cases hf : x.toNat / 2 ^ 52 % 2048 = 2047
  · constructor
    · intro h
      unfold truncF64 at h
      simp only [if_pos hf] at h
      split_ifs at h
    · exact fun h => absurd hf h.finite
  · obtain ⟨a, ha, h1, h2⟩ := truncF64_abs hf
    have h0 := f64Abs_nonneg x
    rw [ha]
    constructor
    · intro h
      cases h
      refine ⟨hf, ?_, ?_, ?_⟩
      · rw [abs_f64Value]; split_ifs <;> simpa using h1
      · rw [abs_f64Value]; split_ifs <;> simpa using h2
      · unfold f64Value
        by_cases hs : 2 ^ 63 ≤ x.toNat
        · rw [if_pos hs, if_neg (by omega)]
          push_cast
          nlinarith [mul_nonneg (Nat.cast_nonneg (α := ℚ) a) h0]
        · rw [if_neg hs, if_pos (by omega)]
          push_cast
          exact mul_nonneg (Nat.cast_nonneg a) h0
    · rintro ⟨-, b1, b2, b3⟩
      rw [abs_f64Value] at b1 b2
      have e1 : |i| < (a : Int) + 1 := by
        have : (|i| : ℚ) < (a : ℚ) + 1 := lt_of_le_of_lt b1 h2
        exact_mod_cast this
      have e2 : (a : Int) < |i| + 1 := by
        have : (a : ℚ) < (|i| : ℚ) + 1 := lt_of_le_of_lt h1 b2
        exact_mod_cast this
      have e3 : |i| = a := by omega
      congr 1
      rcases Nat.eq_zero_or_pos a with rfl | hpos
      · have : i = 0 := abs_eq_zero.1 (by simpa using e3)
        simp [this]
      · have hx : 0 < f64Abs x := lt_of_lt_of_le (by exact_mod_cast hpos) h1
        unfold f64Value at b3
        by_cases hs : 2 ^ 63 ≤ x.toNat
        · rw [if_pos hs]
          rw [if_neg (by omega)] at b3
          have : (i : ℚ) ≤ 0 := by
            by_contra hc
            push Not at hc
            nlinarith [mul_pos hc hx]
          have : i ≤ 0 := by exact_mod_cast this
          rw [abs_of_nonpos this] at e3
          omega
        · rw [if_neg hs]
          rw [if_pos (by omega)] at b3
          have : 0 ≤ (i : ℚ) := nonneg_of_mul_nonneg_left b3 hx
          have : 0 ≤ i := by exact_mod_cast this
          rw [abs_of_nonneg this] at e3
          omega

/-- The double 2.5 is rounded to 2, and -2.5 to -2. -/
example : RoundsToZero 0x4004000000000000#64 2 ∧ RoundsToZero 0xC004000000000000#64 (-2) :=
  ⟨(truncF64_iff _ _).1 (by decide +kernel), (truncF64_iff _ _).1 (by decide +kernel)⟩

end Verif.Sdds
