import Verif.Py.Rounding

/-!
# Rounding of ties to even numbers

IEEE 754 rounds a number in the middle of two neighbours to the one with an even last bit.
-/

namespace Verif.Py

/-- Numbers in the middle between two neighbours are rounded to the even one. -/
def Rounding.TiesEven (R : Rounding) : Prop :=
  ∀ k e : ℤ, 2 ^ 52 < 2 * k → 2 * k ≤ 2 ^ 53 →
    R.rnd (2 * k * 2 ^ e + 2 ^ (e - 1)) = 2 * k * 2 ^ e ∧ R.rnd (2 * k * 2 ^ e - 2 ^ (e - 1)) = 2 * k * 2 ^ e

/-- The even neighbour of a number in the middle. -/
def Tie (x y : ℝ) : Prop :=
  ∃ k e : ℤ, 2 ^ 52 < 2 * k ∧ 2 * k ≤ 2 ^ 53 ∧ y = 2 * k * (2 : ℝ) ^ e ∧ |y - x| = 2 ^ (e - 1)

theorem half_zpow (e : ℤ) : (2 : ℝ) ^ e = 2 * 2 ^ (e - 1) := by
  rw [zpow_sub₀ (by norm_num)]; field_simp

theorem Tie.isFloat {x y : ℝ} (h : Tie x y) : IsFloat y := by
  obtain ⟨k, e, h1, h2, rfl, -⟩ := h
  exact ⟨2 * k, e, by rw [abs_of_pos (by omega)]; omega, by push_cast; ring⟩

theorem Tie.gap {x y z : ℝ} (h : Tie x y) (hz : IsFloat z) (hne : z ≠ y) : 2 * |y - x| ≤ |z - y| := by
  obtain ⟨k, e, h1, h2, rfl, h3⟩ := h
  have h4 := half_zpow e
  rw [h3]
  have hc : ((2 * k : ℤ) : ℝ) * 2 ^ e = 2 * k * 2 ^ e := by push_cast; ring
  rcases lt_or_gt_of_ne hne with hl | hg
  · have := IsFloat.gap_below (m := 2 * k) (e := e) h1 hz (by rw [hc]; exact hl)
    push_cast at this
    rw [abs_of_neg (by linarith)]
    linarith
  · have := IsFloat.gap_above (m := 2 * k) (e := e) h1.le hz (by rw [hc]; exact hg)
    push_cast at this
    rw [abs_of_pos (by linarith)]
    linarith

theorem Tie.nearest {x y z : ℝ} (h : Tie x y) (hz : IsFloat z) : |y - x| ≤ |z - x| := by
  by_cases hne : z = y
  · rw [hne]
  have := h.gap hz hne
  have h2 := abs_sub_le z x y
  rw [abs_sub_comm x y] at h2
  linarith

theorem Tie.unique {x y z : ℝ} (h : Tie x y) (h' : Tie x z) : y = z := by
  by_contra hne
  have g1 := h.gap h'.isFloat (Ne.symm hne)
  have g2 := h'.gap h.isFloat hne
  have g3 := abs_sub_le z x y
  rw [abs_sub_comm x y] at g3
  rw [abs_sub_comm y z] at g2
  obtain ⟨k, e, h1, h2, rfl, h3⟩ := h
  obtain ⟨l, f, h4, h5, rfl, h6⟩ := h'
  have he : (2 : ℝ) ^ (e - 1) = 2 ^ (f - 1) := by rw [← h3, ← h6]; linarith
  have he' : e = f := by
    have := zpow_right_injective₀ (a := (2 : ℝ)) (by norm_num) (by norm_num) he
    omega
  subst he'
  have hd : |2 * (l : ℝ) * 2 ^ e - 2 * k * 2 ^ e| = 2 ^ e := by
    rw [half_zpow e] at *
    rw [h3] at g1 g3
    rw [h6] at g2 g3
    linarith
  rw [show 2 * (l : ℝ) * 2 ^ e - 2 * k * 2 ^ e = ((2 * (l - k) : ℤ) : ℝ) * 2 ^ e by push_cast; ring, abs_mul, abs_of_pos (two_zpow_pos e)] at hd
  have hp := two_zpow_pos e
  have h7 : |((2 * (l - k) : ℤ) : ℝ)| = 1 := by
    have : (|((2 * (l - k) : ℤ) : ℝ)| - 1) * 2 ^ e = 0 := by linarith
    rcases mul_eq_zero.1 this with h | h
    · linarith
    · exact absurd h hp.ne'
  have h8 : |2 * (l - k)| = 1 := by exact_mod_cast h7
  rw [abs_eq (by norm_num)] at h8
  omega

open Classical in
/-- Rounding of positive numbers: to the even neighbour of a tie, otherwise to any nearest number. -/
noncomputable def evenPos (x : ℝ) : ℝ := if h : ∃ y, Tie x y then Classical.choose h else Rounding.some.rnd x

theorem evenPos_isFloat (x : ℝ) : IsFloat (evenPos x) := by
  unfold evenPos
  split
  · next h => exact (Classical.choose_spec h).isFloat
  · exact Rounding.some.isFloat x

theorem evenPos_nearest (x y : ℝ) (hy : IsFloat y) : |evenPos x - x| ≤ |y - x| := by
  unfold evenPos
  split
  · next h => exact (Classical.choose_spec h).nearest hy
  · exact Rounding.some.nearest x y hy

theorem evenPos_tie {x y : ℝ} (h : Tie x y) : evenPos x = y := by
  unfold evenPos
  have hx : ∃ y, Tie x y := ⟨y, h⟩
  rw [dif_pos hx]
  exact (Classical.choose_spec hx).unique h

/-- Roundings of this kind exist. -/
noncomputable def Rounding.even : Rounding where
  rnd x := if 0 ≤ x then evenPos x else -evenPos (-x)
  isFloat x := by
    split
    · exact evenPos_isFloat x
    · exact isFloat_neg (evenPos_isFloat (-x))
  nearest x y hy := by
    split
    · exact evenPos_nearest x y hy
    · have := evenPos_nearest (-x) (-y) (isFloat_neg hy)
      rw [show -evenPos (-x) - x = -(evenPos (-x) - -x) by ring, abs_neg, show y - x = -(-y - -x) by ring, abs_neg (-y - -x)]
      exact this
  odd x := by
    rcases lt_trichotomy x 0 with h | rfl | h
    · rw [if_pos (by linarith), if_neg (by linarith), neg_neg]
    · have h0 : evenPos 0 = 0 := by
        have := evenPos_nearest 0 0 isFloat_zero
        rw [sub_zero, sub_zero, abs_zero] at this
        exact abs_nonpos_iff.1 this
      rw [neg_zero, if_pos le_rfl, h0, if_pos le_rfl, neg_zero]
    · rw [if_neg (by linarith), if_pos h.le, neg_neg]

theorem even_tiesEven : Rounding.even.TiesEven := by
  intro k e h1 h2
  have hk : (1 : ℝ) ≤ k := by exact_mod_cast (by omega : (1 : ℤ) ≤ k)
  have hp := two_zpow_pos e
  have hh := half_zpow e
  have hq := two_zpow_pos (e - 1)
  have hb : (2 : ℝ) ^ e ≤ 2 * k * 2 ^ e := by nlinarith
  constructor
  · show (if (0 : ℝ) ≤ _ then _ else _) = _
    rw [if_pos (by linarith)]
    exact evenPos_tie ⟨k, e, h1, h2, rfl, by rw [show 2 * (k : ℝ) * 2 ^ e - (2 * k * 2 ^ e + 2 ^ (e - 1)) = -2 ^ (e - 1) by ring, abs_neg, abs_of_pos hq]⟩
  · show (if (0 : ℝ) ≤ _ then _ else _) = _
    rw [if_pos (by linarith)]
    exact evenPos_tie ⟨k, e, h1, h2, rfl, by rw [sub_sub_cancel, abs_of_pos hq]⟩

/-- The difference of two numbers of 53 bits is exact if they differ by a factor of at most two (Sterbenz). -/
theorem isFloat_sub {a b : ℝ} (ha : IsFloat a) (hb : IsFloat b) (h : a ≤ b) (h2 : b ≤ 2 * a) : IsFloat (b - a) := by
  rcases lt_or_ge 0 a with h0 | h0
  swap
  · have : b = a := by linarith
    rw [this, sub_self]; exact isFloat_zero
  obtain ⟨m, e, h3, h4, rfl⟩ := ha.normal h0
  obtain ⟨n, f, h5, h6, rfl⟩ := hb.normal (h0.trans_le h)
  have hp := two_zpow_pos e
  have hq := two_zpow_pos f
  have hm : (2 : ℝ) ^ (52 : ℤ) ≤ m := by exact_mod_cast h3
  have hm' : (m : ℝ) < 2 ^ (53 : ℤ) := by exact_mod_cast h4
  have hn' : (n : ℝ) < 2 ^ (53 : ℤ) := by exact_mod_cast h6
  have hfe : e ≤ f := by
    have : (2 : ℝ) ^ (52 + e) < 2 ^ (53 + f) := by
      rw [zpow_add₀ (by norm_num), zpow_add₀ (by norm_num)]
      calc _ ≤ (m : ℝ) * 2 ^ e := mul_le_mul_of_nonneg_right hm hp.le
        _ ≤ _ := h
        _ < _ := mul_lt_mul_of_pos_right hn' hq
    have := (zpow_lt_zpow_iff_right₀ (a := (2 : ℝ)) (by norm_num)).1 this
    omega
  obtain ⟨d, rfl⟩ : ∃ d : ℕ, f = e + d := ⟨(f - e).toNat, by omega⟩
  rw [zpow_add₀ (by norm_num), zpow_natCast] at *
  refine ⟨n * 2 ^ d - m, e, ?_, by push_cast; ring⟩
  have h7 : ((m : ℤ) : ℝ) ≤ ((n * 2 ^ d : ℤ) : ℝ) := by
    push_cast
    exact le_of_mul_le_mul_right (by linarith [h]) hp
  have h8 : ((n * 2 ^ d : ℤ) : ℝ) ≤ ((2 * m : ℤ) : ℝ) := by
    push_cast
    exact le_of_mul_le_mul_right (by linarith [h2]) hp
  have h7' : m ≤ n * 2 ^ d := by exact_mod_cast h7
  have h8' : n * 2 ^ d ≤ 2 * m := by exact_mod_cast h8
  rw [abs_of_nonneg (by omega)]
  omega

end Verif.Py
