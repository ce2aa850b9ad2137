import Verif.Py.Rounding

/-!
# Relative errors of rounded arithmetic
-/

namespace Verif.Py

/-- `x` is `y` up to the relative error `ε`. -/
def Near (ε x y : ℝ) : Prop := |x - y| ≤ ε * |y|

theorem Near.refl (x : ℝ) : Near 0 x x := by simp [Near]

theorem Near.weaken {ε ε' x y : ℝ} (h : Near ε x y) (he : ε ≤ ε') : Near ε' x y :=
  h.trans (mul_le_mul_of_nonneg_right he (abs_nonneg y))

theorem Near.abs_le {ε x y : ℝ} (h : Near ε x y) : |x| ≤ (1 + ε) * |y| := by
  have := abs_sub_abs_le_abs_sub x y
  unfold Near at h
  linarith

theorem Near.le_abs {ε x y : ℝ} (h : Near ε x y) : (1 - ε) * |y| ≤ |x| := by
  have := abs_sub_abs_le_abs_sub y x
  rw [abs_sub_comm] at this
  unfold Near at h
  linarith

/-- Rounding. -/
theorem Near.rnd {ε x y : ℝ} (R : Rounding) (h : Near ε x y) : Near (ε + (1 + ε) * 2 ^ (-53 : ℤ)) (R.rnd x) y := by
  have h1 := R.error x
  have h2 := h.abs_le
  unfold Near at h ⊢
  have h3 := abs_add_le (R.rnd x - x) (x - y)
  rw [sub_add_sub_cancel] at h3
  have h4 := mul_le_mul_of_nonneg_right h2 (two_zpow_pos (-53)).le
  nlinarith

theorem Near.mul {a b x y z w : ℝ} (h : Near a x y) (h' : Near b z w) : Near (a + b + a * b) (x * z) (y * w) := by
  unfold Near at h h' ⊢
  have ha : 0 ≤ a * |y| := (abs_nonneg _).trans h
  have h2 : |z| ≤ (1 + b) * |w| := Near.abs_le h'
  rw [show x * z - y * w = (x - y) * z + y * (z - w) by ring, abs_mul]
  calc _ ≤ |(x - y) * z| + |y * (z - w)| := abs_add_le _ _
    _ = |x - y| * |z| + |y| * |z - w| := by rw [abs_mul, abs_mul]
    _ ≤ (a * |y|) * ((1 + b) * |w|) + |y| * (b * |w|) :=
        add_le_add (mul_le_mul h h2 (abs_nonneg _) ha) (mul_le_mul_of_nonneg_left h' (abs_nonneg _))
    _ = _ := by ring

theorem Near.inv {b z w : ℝ} (h : Near b z w) (hb : b < 1) (hw : w ≠ 0) : Near (b / (1 - b)) (1 / z) (1 / w) := by
  have h1 := h.le_abs
  have hw' := abs_pos.2 hw
  have hb' : 0 < 1 - b := by linarith
  have hz' : 0 < |z| := lt_of_lt_of_le (mul_pos hb' hw') h1
  have hz : z ≠ 0 := abs_pos.1 hz'
  unfold Near at h ⊢
  rw [show 1 / z - 1 / w = -(z - w) / (z * w) by field_simp; ring, abs_div, abs_neg, abs_mul, abs_div, abs_one, div_le_iff₀ (mul_pos hz' hw')]
  have : b / (1 - b) * (1 / |w|) * (|z| * |w|) = b * (|z| / (1 - b)) := by field_simp
  rw [this]
  have hb0 : 0 ≤ b := by
    by_contra hc
    have := (abs_nonneg _).trans h
    nlinarith
  refine h.trans (mul_le_mul_of_nonneg_left ?_ hb0)
  rw [le_div_iff₀ hb']; linarith

theorem Near.sqrt {ε x y : ℝ} (h : Near ε x y) (hx : 0 ≤ x) (hy : 0 < y) (he : ε ≤ 1) : Near (ε / (2 - ε)) (Real.sqrt x) (Real.sqrt y) := by
  have h1 := h.le_abs
  rw [abs_of_pos hy, abs_of_nonneg hx] at h1
  have hy' := Real.sqrt_pos.2 hy
  have he0 : 0 ≤ ε := by
    by_contra hc
    have := (abs_nonneg _).trans h
    rw [abs_of_pos hy] at this
    nlinarith
  have h2 : (1 - ε) * Real.sqrt y ≤ Real.sqrt x := by
    refine Real.le_sqrt_of_sq_le ?_
    rw [mul_pow, Real.sq_sqrt hy.le]
    nlinarith
  unfold Near at h ⊢
  rw [abs_of_pos hy', div_mul_eq_mul_div, le_div_iff₀ (by linarith)]
  have h3 : |x - y| = |Real.sqrt x - Real.sqrt y| * (Real.sqrt x + Real.sqrt y) := by
    rw [← abs_of_pos (show 0 < Real.sqrt x + Real.sqrt y by linarith [Real.sqrt_nonneg x]), ← abs_mul]
    congr 1
    nlinarith [Real.mul_self_sqrt hx, Real.mul_self_sqrt hy.le]
  rw [h3, abs_of_pos hy] at h
  have h4 : |Real.sqrt x - Real.sqrt y| * ((2 - ε) * Real.sqrt y) ≤ ε * y :=
    le_trans (mul_le_mul_of_nonneg_left (by linarith) (abs_nonneg _)) h
  have h5 : |Real.sqrt x - Real.sqrt y| * (2 - ε) * Real.sqrt y ≤ ε * Real.sqrt y * Real.sqrt y := by
    rw [mul_assoc ε, Real.mul_self_sqrt hy.le]; linarith
  exact le_of_mul_le_mul_right h5 hy'

theorem Near.one_add {ε x y : ℝ} (h : Near ε x y) (hy : 0 ≤ y) (he : 0 ≤ ε) : Near ε (1 + x) (1 + y) := by
  unfold Near at h ⊢
  rw [show 1 + x - (1 + y) = x - y by ring, abs_of_pos (show 0 < 1 + y by linarith)]
  rw [abs_of_nonneg hy] at h
  linarith

end Verif.Py
