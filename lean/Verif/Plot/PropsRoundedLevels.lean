import Verif.Plot.RoundedLevels
import Verif.Plot.PropsScatter

/-!
# Property C170: contour levels in double precision
-/

namespace Verif.Plot

open Verif.Py

variable (R : Rounding)

theorem rAround_error (x : ℝ) : |rAround3 R x - x| ≤ 1 / 2000 + 2 ^ (-51 : ℤ) * (|x| + 1) := by
  unfold rAround3
  have h1 := R.error (x * 1000)
  have h2 := rint_error (R.rnd (x * 1000))
  have h3 := R.error (rint (R.rnd (x * 1000)) / 1000)
  rw [abs_mul, abs_of_pos (a := (1000 : ℝ)) (by norm_num)] at h1
  generalize (rint (R.rnd (x * 1000)) : ℝ) = k at *
  generalize R.rnd (x * 1000) = z at *
  have h4 : |k / 1000 - x| ≤ 1 / 2000 + |x| * 2 ^ (-53 : ℤ) := by
    generalize |x| = X at *
    rw [abs_le] at h1 h2 ⊢
    norm_num at h1 h2 ⊢
    constructor <;> linarith [h1.1, h1.2, h2.1, h2.2]
  have h5 : |k / 1000| ≤ 1 / 2000 + |x| * 2 ^ (-53 : ℤ) + |x| := by
    have := abs_sub_abs_le_abs_sub (k / 1000) x
    linarith
  have h6 := mul_le_mul_of_nonneg_right h5 (show (0 : ℝ) ≤ 2 ^ (-53 : ℤ) by positivity)
  have h7 := abs_sub_le (R.rnd (k / 1000)) (k / 1000) x
  have h8 := abs_nonneg x
  generalize |x| = X at *
  norm_num at *
  linarith

theorem rAround_nonpos {x : ℝ} (h : x ≤ 0) : rAround3 R x ≤ 0 := by
  unfold rAround3
  have hz : R.rnd (x * 1000) ≤ 0 := R.le_of_le isFloat_zero (by linarith)
  have e := rint_error (R.rnd (x * 1000))
  rw [abs_le] at e
  have h1 : ((rint (R.rnd (x * 1000)) : ℤ) : ℝ) < 1 := by linarith [e.2]
  have h2 : rint (R.rnd (x * 1000)) < 1 := by exact_mod_cast h1
  have h3 : ((rint (R.rnd (x * 1000)) : ℤ) : ℝ) ≤ 0 := by exact_mod_cast (show rint (R.rnd (x * 1000)) ≤ 0 by omega)
  exact R.le_of_le isFloat_zero (by linarith)

theorem rAround_nonneg {x : ℝ} (h : 0 ≤ x) : 0 ≤ rAround3 R x := by
  unfold rAround3
  have hz : 0 ≤ R.rnd (x * 1000) := R.nonneg (by linarith)
  have e := rint_error (R.rnd (x * 1000))
  rw [abs_le] at e
  have h1 : (-1 : ℝ) < ((rint (R.rnd (x * 1000)) : ℤ) : ℝ) := by linarith [e.1]
  have h2 : -1 < rint (R.rnd (x * 1000)) := by exact_mod_cast h1
  have h3 : (0 : ℝ) ≤ ((rint (R.rnd (x * 1000)) : ℤ) : ℝ) := by exact_mod_cast (show 0 ≤ rint (R.rnd (x * 1000)) by omega)
  exact R.nonneg (by linarith)

/-- The range is symmetric. -/
theorem rRange_cases (x : ℝ) (l : List ℝ) (m : ℝ) (hm : 0 < m) (hv : minOf x l < 0 ∨ R.rnd (m * minOf x l) < R.rnd (m * maxOf x l)) :
    ∃ b a, rLevelRange R x l m = (-b, b) ∧ IsFloat b ∧ 0 ≤ b ∧ (∀ y ∈ x :: l, |y| ≤ a) ∧ (∃ y ∈ x :: l, |y| = a) ∧
      |b - m * a| ≤ 1 / 2000 + 2 ^ (-50 : ℤ) * (m * a + 1) := by
  have h1 := minOf_le x l
  have h2 := le_maxOf x l
  have fin : ∀ b a : ℝ, 0 ≤ a → |b - R.rnd (m * a)| ≤ 1 / 2000 + 2 ^ (-51 : ℤ) * (R.rnd (m * a) + 1) →
      |b - m * a| ≤ 1 / 2000 + 2 ^ (-50 : ℤ) * (m * a + 1) := by
    intro b a ha hb
    have e := R.error (m * a)
    have h0 : 0 ≤ m * a := mul_nonneg hm.le ha
    rw [abs_of_nonneg h0] at e
    have t := abs_sub_le b (R.rnd (m * a)) (m * a)
    rw [abs_le] at e
    have e' : |R.rnd (m * a) - m * a| ≤ m * a * 2 ^ (-53 : ℤ) := by rw [abs_le]; exact e
    generalize R.rnd (m * a) = A at *
    generalize m * a = B at *
    norm_num at *
    linarith [e.2]
  have habs : |R.rnd (m * minOf x l)| = R.rnd (m * |minOf x l|) := by
    rcases le_total 0 (minOf x l) with h | h
    · rw [abs_of_nonneg h, abs_of_nonneg (R.nonneg (mul_nonneg hm.le h))]
    · rw [abs_of_nonpos h, mul_neg, R.odd, abs_of_nonpos]
      exact R.le_of_le isFloat_zero (mul_nonpos_of_nonneg_of_nonpos hm.le h)
  have hr : rLevelRange R x l m = if |R.rnd (m * minOf x l)| < R.rnd (m * maxOf x l) then
        (-rAround3 R (R.rnd (m * maxOf x l)), rAround3 R (R.rnd (m * maxOf x l)))
      else (rAround3 R (R.rnd (m * minOf x l)), |rAround3 R (R.rnd (m * minOf x l))|) := rfl
  by_cases h : |R.rnd (m * minOf x l)| < R.rnd (m * maxOf x l)
  · have h' : |minOf x l| < maxOf x l := by
      by_contra hn
      rw [not_lt] at hn
      rw [habs] at h
      exact absurd (R.mono (mul_le_mul_of_nonneg_left hn hm.le)) (not_le.2 h)
    have hp : 0 < maxOf x l := lt_of_le_of_lt (abs_nonneg _) h'
    have hA : 0 ≤ R.rnd (m * maxOf x l) := R.nonneg (mul_nonneg hm.le hp.le)
    refine ⟨rAround3 R (R.rnd (m * maxOf x l)), maxOf x l, by rw [hr, if_pos h], R.isFloat _, rAround_nonneg R hA, fun y hy => ?_,
      ⟨maxOf x l, maxOf_mem x l, abs_of_pos hp⟩, fin _ _ hp.le ?_⟩
    · rw [abs_lt] at h'
      rw [abs_le]
      exact ⟨by linarith [h1 y hy, h'.1], h2 y hy⟩
    · have := rAround_error R (R.rnd (m * maxOf x l))
      rwa [abs_of_nonneg (a := R.rnd (m * maxOf x l)) hA] at this
  · have hneg : minOf x l < 0 := by
      rcases hv with hv | hv
      · exact hv
      · by_contra hn
        rw [not_lt] at hn
        rw [abs_of_nonneg (R.nonneg (mul_nonneg hm.le hn))] at h
        exact h hv
    have hlo : R.rnd (m * minOf x l) ≤ 0 := R.le_of_le isFloat_zero (mul_nonpos_of_nonneg_of_nonpos hm.le hneg.le)
    have hle := rAround_nonpos R hlo
    have herr := rAround_error R (R.rnd (m * minOf x l))
    rw [habs] at h herr
    rw [not_lt] at h
    have hAe : R.rnd (m * minOf x l) = -R.rnd (m * |minOf x l|) := by rw [abs_of_neg hneg, mul_neg, R.odd, neg_neg]
    rw [hAe] at herr hle
    have herr' : |-rAround3 R (-R.rnd (m * |minOf x l|)) - R.rnd (m * |minOf x l|)| ≤ 1 / 2000 + 2 ^ (-51 : ℤ) * (R.rnd (m * |minOf x l|) + 1) := by
      rw [← abs_neg]
      convert herr using 2
      ring
    have hre : rLevelRange R x l m = (-(-rAround3 R (-R.rnd (m * |minOf x l|))), -rAround3 R (-R.rnd (m * |minOf x l|))) := by
      rw [hr, if_neg (by rw [habs]; exact not_lt.2 h), hAe, abs_of_nonpos hle, neg_neg]
    by_cases hc : maxOf x l ≤ |minOf x l|
    · refine ⟨_, |minOf x l|, hre, isFloat_neg (R.isFloat _), by linarith, fun y hy => ?_, ⟨minOf x l, minOf_mem x l, rfl⟩,
        fin _ _ (abs_nonneg _) herr'⟩
      rw [abs_le]
      rw [abs_of_neg hneg] at hc ⊢
      exact ⟨by linarith [h1 y hy], by linarith [h2 y hy]⟩
    · rw [not_le] at hc
      have hA : R.rnd (m * |minOf x l|) = R.rnd (m * maxOf x l) := le_antisymm (R.mono (mul_le_mul_of_nonneg_left hc.le hm.le)) h
      have hp : 0 < maxOf x l := lt_of_le_of_lt (abs_nonneg _) hc
      refine ⟨_, maxOf x l, hre, isFloat_neg (R.isFloat _), by linarith, fun y hy => ?_, ⟨maxOf x l, maxOf_mem x l, abs_of_pos hp⟩,
        fin _ _ hp.le (by rw [← hA]; exact herr')⟩
      rw [abs_le]
      rw [abs_of_neg hneg] at hc
      exact ⟨by linarith [h1 y hy], h2 y hy⟩

/-- One level. -/
theorem level_error {b : ℝ} (h0 : 0 ≤ b) {n : ℤ} (hn : 1 ≤ n) {i : ℕ} (hi : (i : ℤ) < n) :
    |R.rnd (-b + R.rnd (i * R.rnd (2 * b / n))) - (-b + i * (2 * b / n))| ≤ 2 ^ (-50 : ℤ) * b := by
  have hn0 : (0 : ℝ) < n := by exact_mod_cast (show (0 : ℤ) < n by omega)
  have hin : (i : ℝ) ≤ n := by exact_mod_cast hi.le
  have hi0 : (0 : ℝ) ≤ i := by positivity
  have e1 := R.error (2 * b / n)
  have hd : 0 ≤ 2 * b / n := by positivity
  rw [abs_of_nonneg hd] at e1
  have hid : i * (2 * b / n) ≤ 2 * b := by
    calc i * (2 * b / n) ≤ n * (2 * b / n) := mul_le_mul_of_nonneg_right hin hd
      _ = 2 * b := by field_simp
  have hid0 : 0 ≤ i * (2 * b / n) := mul_nonneg hi0 hd
  have e2 : |i * R.rnd (2 * b / n) - i * (2 * b / n)| ≤ i * (2 * b / n) * 2 ^ (-53 : ℤ) := by
    rw [← mul_sub, abs_mul, abs_of_nonneg hi0, mul_assoc]
    exact mul_le_mul_of_nonneg_left e1 hi0
  have e3 := R.error (i * R.rnd (2 * b / n))
  rw [abs_of_nonneg (a := i * R.rnd (2 * b / n)) (mul_nonneg hi0 (R.nonneg hd))] at e3
  have e4 := R.error (-b + R.rnd (i * R.rnd (2 * b / n)))
  generalize i * (2 * b / n) = t at *
  generalize i * R.rnd (2 * b / n) = t' at *
  generalize R.rnd t' = t'' at *
  have hs : |-b + t''| ≤ 2 * b := by
    rw [abs_le] at e2 e3 ⊢
    norm_num at e2 e3
    constructor <;> linarith [e2.1, e2.2, e3.1, e3.2]
  have e5 : |-b + t''| * 2 ^ (-53 : ℤ) ≤ 2 * b * 2 ^ (-53 : ℤ) := mul_le_mul_of_nonneg_right hs (by positivity)
  generalize R.rnd (-b + t'') = r at *
  have e6 := e4.trans e5
  rw [abs_le] at e2 e3 e6 ⊢
  norm_num at e2 e3 e6 ⊢
  constructor <;> linarith [e2.1, e2.2, e3.1, e3.2, e6.1, e6.2]

/-- **C170, levels.** The levels of a field with a negative value or with two values that differ after the multiplication: as many as asked for, the
first is minus the bound exactly, they increase, and are equidistant up to `2 ^ -50` of the bound, which is the largest magnitude times the multiplier
up to the rounding to three digits. -/
theorem rounded_levels (x : ℝ) (l : List ℝ) (n : Int) (hn : 1 ≤ n) (hn' : n ≤ 2 ^ 48) (m : ℝ) (hm : 0 < m)
    (hv : minOf x l < 0 ∨ R.rnd (m * minOf x l) < R.rnd (m * maxOf x l)) :
    ∃ (b a : ℝ) (f : ℕ → ℝ), rContourLevels R (x :: l) n m = .ok ((List.range n.toNat).map f) ∧ 0 ≤ b ∧ f 0 = -b ∧
      (∀ i : ℕ, (i : ℤ) < n → |f i - (-b + i * (2 * b / n))| ≤ 2 ^ (-50 : ℤ) * b) ∧
      (0 < b → ∀ i j : ℕ, i < j → (j : ℤ) < n → f i < f j ∧ f j < b) ∧
      (∀ y ∈ x :: l, |y| ≤ a) ∧ (∃ y ∈ x :: l, |y| = a) ∧ |b - m * a| ≤ 1 / 2000 + 2 ^ (-50 : ℤ) * (m * a + 1) := by
  obtain ⟨b, a, h1, hf, h0, h2, h3, h4⟩ := rRange_cases R x l m hm hv
  have h2b : R.rnd (b - -b) = 2 * b := by
    rw [sub_neg_eq_add, ← two_mul]
    refine R.fixed ?_
    obtain ⟨k, e, hk, rfl⟩ := hf
    exact ⟨k, e + 1, hk, by rw [zpow_add₀ (by norm_num)]; ring⟩
  have hn0 : (0 : ℝ) < n := by exact_mod_cast (show (0 : ℤ) < n by omega)
  have herr : ∀ i : ℕ, (i : ℤ) < n → _ := fun i hi => level_error R h0 hn hi
  refine ⟨b, a, fun i => R.rnd (-b + R.rnd (i * R.rnd (2 * b / n))), ?_, h0, ?_, herr, ?_, h2, h3, h4⟩
  · unfold rContourLevels
    simp only [h1, h2b]
  · simp [R.fixed (isFloat_neg hf)]
  · intro hb i j hij hj
    have hs : 2 * b * 2 ^ (-48 : ℤ) ≤ 2 * b / n := by
      rw [le_div_iff₀ hn0]
      have : (n : ℝ) ≤ 2 ^ 48 := by exact_mod_cast hn'
      have h5 := mul_le_mul_of_nonneg_left this (show 0 ≤ 2 * b * 2 ^ (-48 : ℤ) by positivity)
      refine h5.trans (le_of_eq ?_)
      norm_num
      ring
    have k1 := herr i (by omega)
    have k2 := herr j hj
    have hd : 0 ≤ 2 * b / n := by positivity
    have k3 : (i : ℝ) * (2 * b / n) + 2 * b / n ≤ j * (2 * b / n) := by
      have : (i : ℝ) + 1 ≤ j := by exact_mod_cast hij
      have := mul_le_mul_of_nonneg_right this hd
      linarith
    have k4 : (j : ℝ) * (2 * b / n) + 2 * b / n ≤ 2 * b := by
      have : (j : ℝ) + 1 ≤ n := by exact_mod_cast hj
      have := mul_le_mul_of_nonneg_right this hd
      have e : (n : ℝ) * (2 * b / n) = 2 * b := by field_simp
      linarith
    rw [abs_le] at k1 k2
    simp only
    generalize (i : ℝ) * (2 * b / n) = I at *
    generalize (j : ℝ) * (2 * b / n) = J at *
    generalize 2 * b / n = D at *
    norm_num at k1 k2 hs
    constructor <;> linarith [k1.1, k1.2, k2.1, k2.2]

/-- **C170, cover.** With the default arguments the levels reach from below the field to above it, for fields with a value of at least 0.011 in
magnitude. -/
theorem rounded_cover_partial (x : ℝ) (l : List ℝ) (hv : minOf x l < 0 ∨ R.rnd (R.rnd (11 / 10) * minOf x l) < R.rnd (R.rnd (11 / 10) * maxOf x l))
    (hbig : ∃ y ∈ x :: l, 11 / 1000 ≤ |y|) :
    ∃ lev lo hi, rContourLevels R (x :: l) 40 (R.rnd (11 / 10)) = .ok lev ∧ lo ∈ lev ∧ hi ∈ lev ∧ ∀ y ∈ x :: l, lo ≤ y ∧ y ≤ hi := by
  have em := R.error (11 / 10)
  rw [abs_of_pos (a := (11 / 10 : ℝ)) (by norm_num), abs_le] at em
  obtain ⟨b, a, f, h1, h0, hf0, hf, _, h2, _, h4⟩ := rounded_levels R x l 40 (by norm_num) (by norm_num) (R.rnd (11 / 10)) (R.pos (by norm_num)) hv
  obtain ⟨z, hz, hz'⟩ := hbig
  have ha : 11 / 1000 ≤ a := le_trans hz' (h2 z hz)
  have ma : (11 / 10 - 2 ^ (-52 : ℤ)) * a ≤ R.rnd (11 / 10) * a := mul_le_mul_of_nonneg_right (by norm_num at em ⊢; linarith [em.1]) (by linarith)
  have ma' : R.rnd (11 / 10) * a ≤ 2 * a := mul_le_mul_of_nonneg_right (by norm_num at em; linarith [em.2]) (by linarith)
  have h5 := hf 39 (by norm_num)
  rw [abs_le] at h4 h5
  generalize R.rnd (11 / 10) * a = B at *
  norm_num at ma h4 h5
  refine ⟨_, f 0, f 39, h1, ?_, ?_, fun y hy => ?_⟩
  · exact List.mem_map.2 ⟨0, by simp, rfl⟩
  · exact List.mem_map.2 ⟨39, by simp, rfl⟩
  · have := h2 y hy
    rw [abs_le] at this
    rw [hf0]
    constructor
    · linarith [h4.1, this.1]
    · linarith [h4.1, h5.1, this.2]

/-- **C170 is false for small fields.** If no value is above 1/2201 in magnitude, all levels of the default call are zero. -/
theorem rounded_small_fails (x : ℝ) (l : List ℝ) (h : ∀ y ∈ x :: l, |y| ≤ 1 / 2201) (n : Int) :
    rContourLevels R (x :: l) n (R.rnd (11 / 10)) = .ok (List.replicate n.toNat 0) := by
  have em := R.error (11 / 10)
  rw [abs_of_pos (a := (11 / 10 : ℝ)) (by norm_num), abs_le] at em
  have key : ∀ y ∈ x :: l, rAround3 R (R.rnd (R.rnd (11 / 10) * y)) = 0 := by
    intro y hy
    have hy' := h y hy
    have e1 := R.error (R.rnd (11 / 10) * y)
    have e2 : |R.rnd (11 / 10) * y| ≤ (11 / 10 + 2 ^ (-52 : ℤ)) * (1 / 2201) := by
      rw [abs_mul]
      refine mul_le_mul ?_ hy' (abs_nonneg _) (by positivity)
      rw [abs_of_nonneg (R.nonneg (by norm_num))]
      norm_num at em ⊢
      linarith [em.2]
    have e3 := R.error (R.rnd (R.rnd (11 / 10) * y) * 1000)
    have hz : |R.rnd (R.rnd (R.rnd (11 / 10) * y) * 1000)| < 1 / 2 := by
      generalize R.rnd (R.rnd (R.rnd (11 / 10) * y) * 1000) = w at *
      rw [abs_mul, abs_of_pos (a := (1000 : ℝ)) (by norm_num)] at e3
      generalize R.rnd (11 / 10) * y = p at *
      have d1 := abs_sub_abs_le_abs_sub (R.rnd p) p
      have d2 := abs_sub_abs_le_abs_sub w (R.rnd p * 1000)
      rw [abs_mul, abs_of_pos (a := (1000 : ℝ)) (by norm_num)] at d2
      generalize |R.rnd p| = P at *
      generalize |p| = p' at *
      norm_num at e1 e2 e3
      linarith
    unfold rAround3
    rw [rint_small _ hz]
    simp
  have hr : rLevelRange R x l (R.rnd (11 / 10)) = (0, 0) := by
    unfold rLevelRange
    simp only [key _ (maxOf_mem x l), key _ (minOf_mem x l), neg_zero, abs_zero, ite_self]
  unfold rContourLevels
  simp [hr, List.map_const']

/-- **C170 is false for nearly constant fields.** If no value is negative and the smallest and the largest are the same after the multiplication, all
levels have the same value. -/
theorem rounded_constant_fails (x : ℝ) (l : List ℝ) (n : Int) (m : ℝ) (hm : 0 < m) (h0 : 0 ≤ minOf x l)
    (h : R.rnd (m * maxOf x l) = R.rnd (m * minOf x l)) :
    rContourLevels R (x :: l) n m = .ok (List.replicate n.toNat (rAround3 R (R.rnd (m * maxOf x l)))) := by
  have hp : 0 ≤ R.rnd (m * minOf x l) := R.nonneg (mul_nonneg hm.le h0)
  have hr : rLevelRange R x l m = (rAround3 R (R.rnd (m * maxOf x l)), rAround3 R (R.rnd (m * maxOf x l))) := by
    unfold rLevelRange
    simp only [h]
    rw [if_neg (by rw [abs_of_nonneg hp]; exact lt_irrefl _), abs_of_nonneg (rAround_nonneg R hp)]
  unfold rContourLevels
  simp only [hr, sub_self, R.rnd_zero, zero_div, mul_zero, add_zero, List.map_const', List.length_range]
  rw [R.fixed (x := rAround3 R _) (R.isFloat _)]

/-- Two different doubles for which all levels are the same, with the default multiplier. -/
example : ∃ x y : ℝ, IsFloat x ∧ IsFloat y ∧ x < y ∧ 0 ≤ minOf x [y] ∧
    R.rnd (R.rnd (11 / 10) * maxOf x [y]) = R.rnd (R.rnd (11 / 10) * minOf x [y]) := by
  have hm : R.rnd (11 / 10) = (4953959590107546 : ℤ) * 2 ^ (-52 : ℤ) :=
    R.absorb (by norm_num) (by norm_num) (by rw [abs_lt]; constructor <;> norm_num)
  refine ⟨15 / 8 + 2 ^ (-52 : ℤ), 15 / 8 + 2 ^ (-51 : ℤ), ⟨15 * 2 ^ 49 + 1, -52, by norm_num, by norm_num⟩, ⟨15 * 2 ^ 49 + 2, -52, by norm_num, by norm_num⟩,
    by norm_num, ?_, ?_⟩
  · norm_num [minOf]
  · have h1 : maxOf (15 / 8 + 2 ^ (-52 : ℤ)) [15 / 8 + 2 ^ (-51 : ℤ)] = 15 / 8 + 2 ^ (-51 : ℤ) := by norm_num [maxOf]
    have h2 : minOf (15 / 8 + 2 ^ (-52 : ℤ)) [15 / 8 + 2 ^ (-51 : ℤ)] = 15 / 8 + 2 ^ (-52 : ℤ) := by norm_num [minOf]
    rw [h1, h2, hm, R.absorb (m := 4644337115725825) (e := -51) (by norm_num) (by norm_num) (by rw [abs_lt]; constructor <;> norm_num),
      R.absorb (m := 4644337115725825) (e := -51) (by norm_num) (by norm_num) (by rw [abs_lt]; constructor <;> norm_num)]

/-- A field with both signs, and one with two positive values. -/
example : (minOf 1 [-3, 2] < 0 ∧ ∃ y ∈ [(1 : ℝ), -3, 2], 11 / 1000 ≤ |y|) ∧ R.rnd (2 * minOf 1 [2]) < R.rnd (2 * maxOf 1 [2]) := by
  have h2 : R.rnd 2 = 2 := R.fixed (by exact_mod_cast isFloat_int (n := 2) (by norm_num))
  have h4 : R.rnd 4 = 4 := R.fixed (by exact_mod_cast isFloat_int (n := 4) (by norm_num))
  refine ⟨⟨by norm_num [minOf], 1, by simp, by norm_num⟩, ?_⟩
  norm_num [minOf, maxOf]
  rw [h2, h4]
  norm_num

example : ∀ y ∈ [(1 / 10000 : ℝ), -1 / 5000], |y| ≤ 1 / 2201 := by
  intro y hy
  simp only [List.mem_cons, List.not_mem_nil, or_false] at hy
  rcases hy with rfl | rfl <;> rw [abs_le] <;> norm_num

end Verif.Plot
