import Verif.Switch.Rounded
import Verif.Ptcls.PropsRoundedMap
import Verif.Stats6d.PropsRoundedCorrelations

/-!
# C163: conversions for elegant and genesis in double precision
-/

namespace Verif.Switch

open Verif.Py Verif.Stats6d Verif.Sample Verif.Ptcls

variable (R : Rounding)

theorem back_sums (a : ℝ) {p : ℝ} (hp : p ≠ 0) : SumsTo 2 (R.rnd (R.rnd (a / p) * p)) a |a| := by
  have h := (sumsTo_mul ((SumsTo.leaf (a / p) 0).rnd R) (SumsTo.leaf p 0)).rnd R
  rwa [← abs_mul, div_mul_cancel₀ _ hp] at h

/-- **C163, accuracy.** A particle that is written for elegant and read back has the same positions and the same total momentum, and its
transverse momenta and its time of flight differ by at most two rounding errors. -/
theorem elegant_rounded_partial {c : ℝ} (hc : c ≠ 0) (q : Part ℝ) (hp : q.pt ≠ 0) : ∃ q', rElegantIn R c (rElegantOut R c q) = q' ∧
    q'.x = q.x ∧ q'.y = q.y ∧ q'.pt = q.pt ∧ |q'.ux - q.ux| ≤ ((1 + 2 ^ (-53 : ℤ)) ^ 2 - 1) * |q.ux| ∧
    |q'.uy - q.uy| ≤ ((1 + 2 ^ (-53 : ℤ)) ^ 2 - 1) * |q.uy| ∧ |q'.ct - q.ct| ≤ ((1 + 2 ^ (-53 : ℤ)) ^ 2 - 1) * |q.ct| :=
  ⟨_, rfl, rfl, rfl, rfl, (back_sums R q.ux hp).2, (back_sums R q.uy hp).2, (back_sums R q.ct hc).2⟩

example := elegant_rounded_partial R (c := 299792458) (by norm_num) ⟨1, 2, 3, 4, 15, 7⟩ (by norm_num)

/-- The quotient of a number with mantissa `m` by a number with mantissa `n` can be multiplied back: the mantissa of the quotient is rounded by
less than half of a last place of the product. -/
def Recovers (a p : ℝ) : Prop := ∃ m n e f : ℤ, 2 ^ 52 < |m| ∧ |m| < 2 ^ 53 ∧ 2 ^ 52 ≤ n ∧ n < 2 ^ 53 ∧ a = m * 2 ^ e ∧ p = n * 2 ^ f ∧
  (|m| < n ∨ ∃ k : ℤ, |k * n - m * 2 ^ 52| < 2 ^ 51)

/-- The quotient is rounded by more than half of a last place of the product. -/
def Changes (a p : ℝ) : Prop := ∃ m n e f : ℤ, 2 ^ 52 < |m| ∧ |m| < 2 ^ 53 ∧ 2 ^ 52 ≤ n ∧ n < 2 ^ 53 ∧ a = m * 2 ^ e ∧ p = n * 2 ^ f ∧
  n ≤ |m| ∧ ∀ k : ℤ, 2 ^ 51 < |k * n - m * 2 ^ 52|

theorem Recovers.neg {a p : ℝ} (h : Recovers (-a) p) : Recovers a p := by
  obtain ⟨m, n, e, f, h1, h2, h3, h4, h5, h6, h7⟩ := h
  refine ⟨-m, n, e, f, by rwa [abs_neg], by rwa [abs_neg], h3, h4, by push_cast; linarith, h6, ?_⟩
  rw [abs_neg]
  refine h7.imp id fun ⟨k, hk⟩ => ⟨-k, ?_⟩
  rwa [show -k * n - -m * 2 ^ 52 = -(k * n - m * 2 ^ 52) by ring, abs_neg]

theorem Changes.neg {a p : ℝ} (h : Changes (-a) p) : Changes a p := by
  obtain ⟨m, n, e, f, h1, h2, h3, h4, h5, h6, h7, h8⟩ := h
  refine ⟨-m, n, e, f, by rwa [abs_neg], by rwa [abs_neg], h3, h4, by push_cast; linarith, h6, by rwa [abs_neg], fun k => ?_⟩
  rw [show k * n - -m * 2 ^ 52 = -(-k * n - m * 2 ^ 52) by ring, abs_neg]
  exact h8 (-k)

theorem back_neg (a p : ℝ) : R.rnd (R.rnd (-a / p) * p) = -R.rnd (R.rnd (a / p) * p) := by
  rw [neg_div, R.odd, neg_mul, R.odd]

/-- Numbers of 53 bits between two powers of two are whole multiples. -/
theorem whole {x : ℝ} (hx : IsFloat x) {j : ℤ} (h : (2 : ℝ) ^ (52 : ℤ) * 2 ^ j ≤ x) : ∃ k : ℤ, x = k * 2 ^ j := by
  have hj := two_zpow_pos j
  obtain ⟨m, e, h1, h2, rfl⟩ := hx.normal (lt_of_lt_of_le (by positivity) h)
  have hje : j ≤ e := by
    by_contra hlt
    have h3 : (m : ℝ) < 2 ^ (53 : ℤ) := by exact_mod_cast h2
    have h4 : (2 : ℝ) ^ e ≤ 2 ^ (j - 1) := zpow_le_zpow_right₀ (by norm_num) (by omega)
    have h5 : (m : ℝ) * 2 ^ e < 2 ^ (53 : ℤ) * 2 ^ (j - 1) :=
      mul_lt_mul h3 h4 (two_zpow_pos e) (by positivity)
    have h6 : (2 : ℝ) ^ (53 : ℤ) * 2 ^ (j - 1) = 2 ^ (52 : ℤ) * 2 ^ j := by
      rw [← zpow_add₀ (by norm_num), ← zpow_add₀ (by norm_num)]
      congr 1
      ring
    linarith
  obtain ⟨d, hd⟩ := Int.eq_ofNat_of_zero_le (sub_nonneg.2 hje)
  refine ⟨m * 2 ^ d, ?_⟩
  rw [show e = d + j by omega, zpow_add₀ (by norm_num)]
  push_cast
  rw [zpow_natCast]
  ring

/-- A quotient between two powers of two is rounded to a whole number of last places, at a distance of at most one half. -/
theorem quotient_rnd {N n : ℤ} (hn : 0 < n) (hlo : 2 ^ 52 * n ≤ N) (hhi : N ≤ 2 ^ 53 * n) (j : ℤ) :
    ∃ k : ℤ, R.rnd ((N : ℝ) / n * 2 ^ j) = k * 2 ^ j ∧ 2 * |k * n - N| ≤ n := by
  have hj := two_zpow_pos j
  have hn' : (0 : ℝ) < n := by exact_mod_cast hn
  have h1 : (2 : ℝ) ^ (52 : ℤ) ≤ N / n := by
    rw [le_div_iff₀ hn']
    exact_mod_cast hlo
  have h2 : (N : ℝ) / n ≤ 2 ^ (53 : ℤ) := by
    rw [div_le_iff₀ hn']
    exact_mod_cast hhi
  have hf : IsFloat ((2 : ℝ) ^ (52 : ℤ) * 2 ^ j) := by rw [← zpow_add₀ (by norm_num)]; exact isFloat_zpow _
  obtain ⟨k, hk⟩ := whole (R.isFloat ((N : ℝ) / n * 2 ^ j)) (j := j) (R.ge_of_ge hf (mul_le_mul_of_nonneg_right h1 hj.le))
  refine ⟨k, hk, ?_⟩
  have hr : |(round ((N : ℝ) / n))| ≤ 2 ^ 53 := by
    have h3 := abs_sub_round ((N : ℝ) / n)
    have h4 := abs_le.1 h3
    have h5 : ((round ((N : ℝ) / n) : ℤ) : ℝ) < ((2 ^ 53 + 1 : ℤ) : ℝ) := by
      have : (2 : ℝ) ^ (53 : ℤ) = ((2 ^ 53 : ℤ) : ℝ) := by norm_num
      push_cast
      rw [this] at h2
      push_cast at h2
      linarith [h4.1]
    have h6 : ((0 : ℤ) : ℝ) < ((round ((N : ℝ) / n) : ℤ) : ℝ) := by
      have : (1 : ℝ) ≤ 2 ^ (52 : ℤ) := by norm_num
      push_cast
      linarith [h4.2]
    have h5' := Int.cast_lt.1 h5
    have h6' := Int.cast_lt.1 h6
    rw [abs_of_pos h6']
    omega
  have h3 := R.nearest ((N : ℝ) / n * 2 ^ j) ((round ((N : ℝ) / n) : ℤ) * 2 ^ j) ⟨_, j, hr, rfl⟩
  rw [hk, ← sub_mul, ← sub_mul, abs_mul, abs_mul, abs_of_pos hj] at h3
  have h4 := le_of_mul_le_mul_right h3 hj
  have h5 := abs_sub_round ((N : ℝ) / n)
  rw [abs_sub_comm] at h5
  have h6 := mul_le_mul_of_nonneg_right (h4.trans h5) hn'.le
  rw [← abs_of_pos hn', ← abs_mul, abs_of_pos hn', sub_mul, div_mul_cancel₀ _ hn'.ne'] at h6
  have h7 : ((2 * |k * n - N| : ℤ) : ℝ) ≤ ((n : ℤ) : ℝ) := by
    push_cast
    linarith
  exact_mod_cast h7

/-- Mantissas above those of the divisor: what is multiplied back. -/
theorem back_above {m n e f : ℤ} (hm : m < 2 ^ 53) (hn : 2 ^ 52 ≤ n) (h : n ≤ m) : ∃ k : ℤ,
    R.rnd ((m : ℝ) * 2 ^ e / (n * 2 ^ f)) = k * 2 ^ (e - f - 52) ∧ 2 * |k * n - m * 2 ^ 52| ≤ n ∧
    R.rnd ((m : ℝ) * 2 ^ e / (n * 2 ^ f)) * (n * 2 ^ f) = (m + ((k * n - m * 2 ^ 52 : ℤ) : ℝ) / 2 ^ 52) * 2 ^ e := by
  have hn' : (n : ℝ) ≠ 0 := by exact_mod_cast (by omega : n ≠ 0)
  obtain ⟨k, h1, h2⟩ := quotient_rnd R (N := m * 2 ^ 52) (n := n) (by omega) (by omega) (by nlinarith) (e - f - 52)
  have e1 : ((m * 2 ^ 52 : ℤ) : ℝ) / n * 2 ^ (e - f - 52) = (m : ℝ) * 2 ^ e / (n * 2 ^ f) := by
    rw [zpow_sub₀ (by norm_num), zpow_sub₀ (by norm_num)]
    have := (two_zpow_pos f).ne'
    push_cast
    field_simp
    norm_num
  rw [e1] at h1
  refine ⟨k, h1, h2, ?_⟩
  rw [h1, zpow_sub₀ (by norm_num), zpow_sub₀ (by norm_num)]
  have := (two_zpow_pos f).ne'
  push_cast
  field_simp
  norm_num
  ring

/-- Mantissas below those of the divisor. -/
theorem back_below {m n e f : ℤ} (hm : 2 ^ 52 ≤ m) (hn : n < 2 ^ 53) (h : m < n) : ∃ k : ℤ,
    R.rnd ((m : ℝ) * 2 ^ e / (n * 2 ^ f)) = k * 2 ^ (e - f - 53) ∧ 2 * |k * n - m * 2 ^ 53| ≤ n ∧
    R.rnd ((m : ℝ) * 2 ^ e / (n * 2 ^ f)) * (n * 2 ^ f) = (m + ((k * n - m * 2 ^ 53 : ℤ) : ℝ) / 2 ^ 53) * 2 ^ e := by
  have hn' : (n : ℝ) ≠ 0 := by exact_mod_cast (by omega : n ≠ 0)
  obtain ⟨k, h1, h2⟩ := quotient_rnd R (N := m * 2 ^ 53) (n := n) (by omega) (by nlinarith) (by omega) (e - f - 53)
  have e1 : ((m * 2 ^ 53 : ℤ) : ℝ) / n * 2 ^ (e - f - 53) = (m : ℝ) * 2 ^ e / (n * 2 ^ f) := by
    rw [zpow_sub₀ (by norm_num), zpow_sub₀ (by norm_num)]
    have := (two_zpow_pos f).ne'
    push_cast
    field_simp
    norm_num
  rw [e1] at h1
  refine ⟨k, h1, h2, ?_⟩
  rw [h1, zpow_sub₀ (by norm_num), zpow_sub₀ (by norm_num)]
  have := (two_zpow_pos f).ne'
  push_cast
  field_simp
  norm_num
  ring

/-- A number changed by less than half of a last place. -/
theorem rnd_near {m e : ℤ} (h1 : 2 ^ 52 < m) (h2 : m < 2 ^ 53) {δ : ℝ} (h : |δ| < 1 / 2) : R.rnd ((m + δ) * 2 ^ e) = m * 2 ^ e := by
  refine R.absorb h1 h2 ?_
  rw [← sub_mul, add_sub_cancel_left, abs_mul, abs_of_pos (two_zpow_pos e), half_zpow e]
  nlinarith [two_zpow_pos (e - 1)]

theorem Recovers.back_pos {a p : ℝ} (ha : 0 < a) (h : Recovers a p) : R.rnd (R.rnd (a / p) * p) = a := by
  obtain ⟨m, n, e, f, h1, h2, h3, h4, rfl, rfl, h7⟩ := h
  have hm : 0 < m := by exact_mod_cast pos_of_mul_pos_left ha (two_zpow_pos e).le
  rw [abs_of_pos hm] at h1 h2 h7
  by_cases hmn : m < n
  · obtain ⟨k, -, hk, he⟩ := back_below R (e := e) (f := f) h1.le h4 hmn
    rw [he]
    refine rnd_near R h1 h2 ?_
    rw [abs_div, abs_of_pos (a := (2 : ℝ) ^ 53) (by positivity), div_lt_iff₀ (by positivity)]
    have : ((2 * |k * n - m * 2 ^ 53| : ℤ) : ℝ) < ((2 ^ 53 : ℤ) : ℝ) := by exact_mod_cast lt_of_le_of_lt hk h4
    push_cast at this ⊢
    linarith
  · obtain ⟨k', hk'⟩ := h7.resolve_left hmn
    obtain ⟨k, -, hk, he⟩ := back_above R (e := e) (f := f) h2 h3 (not_lt.1 hmn)
    have hkk : k = k' := by
      rw [abs_lt] at hk'
      have hk2 : |k * n - m * 2 ^ 52| * 2 ≤ n := by linarith
      have h5 : -n ≤ (k * n - m * 2 ^ 52) * 2 ∧ (k * n - m * 2 ^ 52) * 2 ≤ n := by
        have := abs_le.1 (le_refl |k * n - m * 2 ^ 52|)
        omega
      rcases lt_trichotomy k k' with hlt | heq | hgt
      · exfalso
        have : (k + 1) * n ≤ k' * n := mul_le_mul_of_nonneg_right (by omega) (by omega)
        rw [add_mul, one_mul] at this
        generalize k * n = X at *
        generalize k' * n = Y at *
        omega
      · exact heq
      · exfalso
        have : (k' + 1) * n ≤ k * n := mul_le_mul_of_nonneg_right (by omega) (by omega)
        rw [add_mul, one_mul] at this
        generalize k * n = X at *
        generalize k' * n = Y at *
        omega
    subst hkk
    rw [he]
    refine rnd_near R h1 h2 ?_
    rw [abs_div, abs_of_pos (a := (2 : ℝ) ^ 52) (by positivity), div_lt_iff₀ (by positivity)]
    have : ((|k * n - m * 2 ^ 52| : ℤ) : ℝ) < ((2 ^ 51 : ℤ) : ℝ) := by exact_mod_cast hk'
    push_cast at this ⊢
    linarith

theorem Changes.back_pos {a p : ℝ} (ha : 0 < a) (h : Changes a p) : R.rnd (R.rnd (a / p) * p) ≠ a := by
  obtain ⟨m, n, e, f, h1, h2, h3, h4, rfl, rfl, h7, h8⟩ := h
  have hE := two_zpow_pos e
  have hm : 0 < m := by exact_mod_cast pos_of_mul_pos_left ha hE.le
  rw [abs_of_pos hm] at h1 h2 h7
  obtain ⟨k, -, hk, he⟩ := back_above R (e := e) (f := f) h2 h3 h7
  have h9 := h8 k
  rw [he]
  intro hbad
  generalize hd : k * n - m * 2 ^ 52 = d at *
  have hd' : 2 * |d| < 2 ^ 53 := by omega
  rcases le_or_gt 0 d with hs | hs
  · rw [abs_of_nonneg hs] at h9 hd'
    have h10 := R.nearest ((m + (d : ℝ) / 2 ^ 52) * 2 ^ e) ((m + 1 : ℤ) * 2 ^ e) ⟨m + 1, e, by rw [abs_of_pos (by omega)]; omega, rfl⟩
    rw [hbad, ← sub_mul, ← sub_mul, abs_mul, abs_mul, abs_of_pos hE] at h10
    have h11 := le_of_mul_le_mul_right h10 hE
    have c1 : ((2 ^ 51 : ℤ) : ℝ) < d := by exact_mod_cast h9
    have c2 : ((2 * d : ℤ) : ℝ) < ((2 ^ 53 : ℤ) : ℝ) := by exact_mod_cast hd'
    push_cast at h11 c1 c2
    have c3 : (1 : ℝ) / 2 < (d : ℝ) / 2 ^ 52 := by rw [lt_div_iff₀ (by positivity)]; linarith
    have c4 : (d : ℝ) / 2 ^ 52 < 1 := by rw [div_lt_iff₀ (by positivity)]; linarith
    generalize (d : ℝ) / 2 ^ 52 = δ at *
    rw [sub_add_cancel_left, abs_neg, abs_of_pos (by linarith), abs_of_pos (by linarith)] at h11
    linarith
  · rw [abs_of_neg hs] at h9 hd'
    have h10 := R.nearest ((m + (d : ℝ) / 2 ^ 52) * 2 ^ e) ((m - 1 : ℤ) * 2 ^ e) ⟨m - 1, e, by rw [abs_of_pos (by omega)]; omega, rfl⟩
    rw [hbad, ← sub_mul, ← sub_mul, abs_mul, abs_mul, abs_of_pos hE] at h10
    have h11 := le_of_mul_le_mul_right h10 hE
    have c1 : ((2 ^ 51 : ℤ) : ℝ) < ((-d : ℤ) : ℝ) := by exact_mod_cast h9
    have c2 : ((2 * -d : ℤ) : ℝ) < ((2 ^ 53 : ℤ) : ℝ) := by exact_mod_cast hd'
    push_cast at h11 c1 c2
    have c3 : (d : ℝ) / 2 ^ 52 < -(1 / 2) := by rw [div_lt_iff₀ (by positivity)]; linarith
    have c4 : -1 < (d : ℝ) / 2 ^ 52 := by rw [lt_div_iff₀ (by positivity)]; linarith
    generalize (d : ℝ) / 2 ^ 52 = δ at *
    rw [sub_add_cancel_left, abs_neg, abs_of_neg (by linarith), abs_of_neg (by linarith)] at h11
    linarith

theorem Recovers.back {a p : ℝ} (h : Recovers a p) : R.rnd (R.rnd (a / p) * p) = a := by
  rcases lt_trichotomy a 0 with ha | ha | ha
  · have := Recovers.back_pos R (a := -a) (by linarith) (by rw [← neg_neg a] at h; exact h.neg)
    rw [back_neg] at this
    linarith
  · rw [ha, zero_div, R.rnd_zero, zero_mul, R.rnd_zero]
  · exact h.back_pos R ha

theorem Changes.back {a p : ℝ} (h : Changes a p) : R.rnd (R.rnd (a / p) * p) ≠ a := by
  rcases lt_trichotomy a 0 with ha | ha | ha
  · have := Changes.back_pos R (a := -a) (by linarith) (by rw [← neg_neg a] at h; exact h.neg)
    rw [back_neg] at this
    exact fun hb => this (by rw [hb])
  · obtain ⟨m, n, e, f, h1, h2, h3, h4, h5, h6, h7, h8⟩ := h
    rw [ha] at h5
    have := (mul_eq_zero.1 h5.symm).resolve_right (two_zpow_pos e).ne'
    rw [Int.cast_eq_zero] at this
    rw [this] at h1
    norm_num at h1
  · exact h.back_pos R ha


/-- Rounding upwards to the next number. -/
theorem rnd_up {M i : ℤ} (h1 : 2 ^ 52 ≤ M) (h2 : M < 2 ^ 53) {δ : ℝ} (h0 : 0 ≤ δ) (hlt : δ < 1) (h : R.rnd ((M + δ) * 2 ^ i) ≠ M * 2 ^ i) :
    R.rnd ((M + δ) * 2 ^ i) = (M + 1) * 2 ^ i ∧ 1 / 2 ≤ δ := by
  have hI := two_zpow_pos i
  have f1 : IsFloat ((M : ℝ) * 2 ^ i) := ⟨M, i, by rw [abs_of_pos (by omega)]; omega, rfl⟩
  have f2 : IsFloat (((M : ℝ) + 1) * 2 ^ i) := ⟨M + 1, i, by rw [abs_of_pos (by omega)]; omega, by push_cast; ring⟩
  have a1 := R.ge_of_ge f1 (mul_le_mul_of_nonneg_right (by linarith : (M : ℝ) ≤ M + δ) hI.le)
  have a2 := R.le_of_le f2 (mul_le_mul_of_nonneg_right (by linarith : (M : ℝ) + δ ≤ M + 1) hI.le)
  have a3 := IsFloat.gap_above h1 (R.isFloat _) (lt_of_le_of_ne a1 (Ne.symm h))
  have a4 := le_antisymm a2 a3
  refine ⟨a4, ?_⟩
  have a5 := R.nearest ((M + δ) * 2 ^ i) _ f1
  rw [a4, ← sub_mul, ← sub_mul, abs_mul, abs_mul, abs_of_pos hI] at a5
  have a6 := le_of_mul_le_mul_right a5 hI
  rw [show (M : ℝ) + 1 - (M + δ) = 1 - δ by ring, show (M : ℝ) - (M + δ) = -δ by ring, abs_neg, abs_of_nonneg h0, abs_of_pos (by linarith)] at a6
  linarith

/-- Rounding downwards to the number before. -/
theorem rnd_down {M i : ℤ} (h1 : 2 ^ 52 < M) (h2 : M ≤ 2 ^ 53) {δ : ℝ} (h0 : δ ≤ 0) (hlt : -1 < δ) (h : R.rnd ((M + δ) * 2 ^ i) ≠ M * 2 ^ i) :
    R.rnd ((M + δ) * 2 ^ i) = (M - 1) * 2 ^ i ∧ δ ≤ -(1 / 2) := by
  have hI := two_zpow_pos i
  have f1 : IsFloat ((M : ℝ) * 2 ^ i) := ⟨M, i, by rw [abs_of_pos (by omega)]; omega, rfl⟩
  have f2 : IsFloat (((M : ℝ) - 1) * 2 ^ i) := ⟨M - 1, i, by rw [abs_of_pos (by omega)]; omega, by push_cast; ring⟩
  have a1 := R.le_of_le f1 (mul_le_mul_of_nonneg_right (by linarith : (M : ℝ) + δ ≤ M) hI.le)
  have a2 := R.ge_of_ge f2 (mul_le_mul_of_nonneg_right (by linarith : (M : ℝ) - 1 ≤ M + δ) hI.le)
  have a3 := IsFloat.gap_below h1 (R.isFloat _) (lt_of_le_of_ne a1 h)
  have a4 := le_antisymm a3 a2
  refine ⟨a4, ?_⟩
  have a5 := R.nearest ((M + δ) * 2 ^ i) _ f1
  rw [a4, ← sub_mul, ← sub_mul, abs_mul, abs_mul, abs_of_pos hI] at a5
  have a6 := le_of_mul_le_mul_right a5 hI
  rw [show (M : ℝ) - 1 - (M + δ) = -(1 + δ) by ring, show (M : ℝ) - (M + δ) = -δ by ring, abs_neg, abs_of_pos (by linarith), abs_of_nonneg (by linarith)] at a6
  linarith

theorem back_twice_pos {a p : ℝ} (ha : IsFloat a) (ha0 : 0 < a) (hp : IsFloat p) (hp0 : 0 < p) :
    R.rnd (R.rnd (R.rnd (R.rnd (a / p) * p) / p) * p) = R.rnd (R.rnd (a / p) * p) := by
  by_cases hab : R.rnd (R.rnd (a / p) * p) = a
  · rw [hab, hab]
  obtain ⟨m, e, hm1, hm2, rfl⟩ := ha.normal ha0
  obtain ⟨n, f, hn1, hn2, rfl⟩ := hp.normal hp0
  have hE := two_zpow_pos e
  have hF := two_zpow_pos f
  have hn0 : (0 : ℝ) < n := by exact_mod_cast (by omega : 0 < n)
  suffices h : R.rnd (R.rnd (R.rnd ((m : ℝ) * 2 ^ e / (n * 2 ^ f)) * (n * 2 ^ f)) / (n * 2 ^ f)) = R.rnd ((m : ℝ) * 2 ^ e / (n * 2 ^ f)) by rw [h]
  have close : ∀ {k j b : ℤ}, 2 ^ 52 < k → k < 2 ^ 53 → 2 * |b - k * n| < n → ∀ {B : ℝ}, B = (b : ℝ) * (2 ^ j * 2 ^ f) → R.rnd (B / (n * 2 ^ f)) = k * 2 ^ j := by
    intro k j b h1 h2 h3 B hB
    have e1 : B / (n * 2 ^ f) = (k + ((b - k * n : ℤ) : ℝ) / n) * 2 ^ j := by
      rw [hB]
      push_cast
      field_simp
      ring
    rw [e1]
    refine rnd_near R h1 h2 ?_
    rw [abs_div, abs_of_pos hn0, div_lt_iff₀ hn0]
    have : ((2 * |b - k * n| : ℤ) : ℝ) < ((n : ℤ) : ℝ) := by exact_mod_cast h3
    push_cast at this ⊢
    linarith
  have shift : ∀ s : ℤ, (2 : ℝ) ^ s * (2 ^ (e - f - s) * 2 ^ f) = 2 ^ e := fun s => by
    rw [← zpow_add₀ (by norm_num), ← zpow_add₀ (by norm_num)]
    congr 1
    ring
  rcases lt_or_ge m n with hmn | hmn
  · by_cases hm : 2 ^ 52 < m
    · exact absurd (Recovers.back R ⟨m, n, e, f, by rwa [abs_of_pos (by omega)], by rwa [abs_of_pos (by omega)], hn1, hn2, rfl, rfl,
        .inl (by rwa [abs_of_pos (by omega)])⟩) hab
    · have hm : m = 2 ^ 52 := by omega
      subst hm
      obtain ⟨k, hq, hk, he⟩ := back_below R (e := e) (f := f) (le_refl _) hn2 hmn
      generalize hd : k * n - 2 ^ 52 * 2 ^ 53 = d at hk he
      have hdl := neg_le_of_abs_le (le_refl |d|)
      have hk1 : 2 ^ 52 < k := by
        by_contra hc
        have : k * n ≤ 2 ^ 52 * n := mul_le_mul_of_nonneg_right (by omega) (by omega)
        generalize k * n = X at *
        omega
      rw [he] at hab
      rcases le_or_gt 0 d with hs | hs
      · have hd1 : ((2 * d : ℤ) : ℝ) < ((2 ^ 53 : ℤ) : ℝ) := by rw [abs_of_nonneg hs] at hk; exact_mod_cast lt_of_le_of_lt hk hn2
        have hd0 : ((0 : ℤ) : ℝ) ≤ d := by exact_mod_cast hs
        push_cast at hd1 hd0
        have c4 : (d : ℝ) / 2 ^ 53 < 1 / 2 := by rw [div_lt_iff₀ (by positivity)]; linarith
        have := (rnd_up R (le_refl _) hm2 (δ := (d : ℝ) / 2 ^ 53) (by positivity) (by linarith) hab).2
        linarith
      · rw [abs_of_neg hs] at hk
        have hd1 : ((2 * -d : ℤ) : ℝ) < ((2 ^ 53 : ℤ) : ℝ) := by exact_mod_cast lt_of_le_of_lt hk hn2
        have hd0 : (d : ℝ) < ((0 : ℤ) : ℝ) := by exact_mod_cast hs
        push_cast at hd1 hd0
        have hk2 : k < 2 ^ 53 := by
          by_contra hc
          have : 2 ^ 53 * n ≤ k * n := mul_le_mul_of_nonneg_right (by omega) (by omega)
          generalize k * n = X at *
          omega
        have e2 : (((2 ^ 52 : ℤ) : ℝ) + (d : ℝ) / 2 ^ 53) * 2 ^ e = (((2 ^ 53 : ℤ) : ℝ) + (d : ℝ) / 2 ^ 52) * 2 ^ (e - 1) := by
          rw [half_zpow e]
          push_cast
          ring
        have e3 : ((2 ^ 52 : ℤ) : ℝ) * 2 ^ e = ((2 ^ 53 : ℤ) : ℝ) * 2 ^ (e - 1) := by
          rw [half_zpow e]
          push_cast
          ring
        rw [e2, e3] at hab
        have c3 : (d : ℝ) / 2 ^ 52 ≤ 0 := div_nonpos_of_nonpos_of_nonneg hd0.le (by positivity)
        have c4 : -1 < (d : ℝ) / 2 ^ 52 := by rw [lt_div_iff₀ (by positivity)]; linarith
        obtain ⟨g1, g2⟩ := rnd_down R (by norm_num) (le_refl _) c3 c4 hab
        rw [div_le_iff₀ (by positivity)] at g2
        have g3 : d ≤ -2 ^ 51 := by
          have : (d : ℝ) ≤ ((-2 ^ 51 : ℤ) : ℝ) := by push_cast; linarith
          exact_mod_cast this
        rw [he, e2, g1, hq]
        refine close (b := (2 ^ 53 - 1) * 2 ^ 52) hk1 hk2 ?_ ?_
        · rw [show (2 ^ 53 - 1) * 2 ^ 52 - k * n = -2 ^ 52 - d by rw [← hd]; ring]
          have : |-2 ^ 52 - d| = 2 ^ 52 + d := by rw [abs_of_nonpos (by omega)]; ring
          omega
        · have h53 := shift 53
          rw [half_zpow e] at h53
          have : (2 : ℝ) ^ (53 : ℤ) = 2 * 2 ^ 52 := by norm_num
          rw [this] at h53
          have h52 : (2 : ℝ) ^ 52 * (2 ^ (e - f - 53) * 2 ^ f) = 2 ^ (e - 1) := by linarith
          rw [← h52]
          push_cast
          ring
  · obtain ⟨k, hq, hk, he⟩ := back_above R (e := e) (f := f) hm2 hn1 hmn
    generalize hd : k * n - m * 2 ^ 52 = d at hk he
    have hdl := neg_le_of_abs_le (le_refl |d|)
    have hdu := le_abs_self d
    rw [he] at hab
    have hd0 : d ≠ 0 := by
      intro h0
      rw [h0] at hab
      norm_num at hab
      exact hab (R.fixed ha)
    have hk1 : 2 ^ 52 < k := by
      by_contra hc
      rcases (not_lt.1 hc).lt_or_eq with hlt | heq
      · have : k * n ≤ (2 ^ 52 - 1) * n := mul_le_mul_of_nonneg_right (by omega) (by omega)
        generalize k * n = X at *
        omega
      · rw [heq] at hd
        omega
    have hn : 2 ^ 52 < n := by
      by_contra hc
      have : n = 2 ^ 52 := by omega
      rw [this] at hd hk
      omega
    have hk2 : k < 2 ^ 53 := by
      by_contra hc
      have : 2 ^ 53 * n ≤ k * n := mul_le_mul_of_nonneg_right (by omega) (by omega)
      generalize k * n = X at *
      omega
    have h52 := shift 52
    have : (2 : ℝ) ^ (52 : ℤ) = 2 ^ 52 := by norm_num
    rw [this] at h52
    rcases lt_or_gt_of_ne hd0 with hs | hs
    · rw [abs_of_neg hs] at hk
      have hd1 : ((2 * -d : ℤ) : ℝ) < ((2 ^ 53 : ℤ) : ℝ) := by exact_mod_cast lt_of_le_of_lt hk hn2
      have hd0 : (d : ℝ) < ((0 : ℤ) : ℝ) := by exact_mod_cast hs
      push_cast at hd1 hd0
      have c3 : (d : ℝ) / 2 ^ 52 ≤ 0 := div_nonpos_of_nonpos_of_nonneg hd0.le (by positivity)
      have c4 : -1 < (d : ℝ) / 2 ^ 52 := by rw [lt_div_iff₀ (by positivity)]; linarith
      obtain ⟨g1, g2⟩ := rnd_down R (by omega) hm2.le c3 c4 hab
      rw [div_le_iff₀ (by positivity)] at g2
      have g3 : d ≤ -2 ^ 51 := by
        have : (d : ℝ) ≤ ((-2 ^ 51 : ℤ) : ℝ) := by push_cast; linarith
        exact_mod_cast this
      rw [he, g1, hq]
      refine close (b := (m - 1) * 2 ^ 52) hk1 hk2 ?_ ?_
      · rw [show (m - 1) * 2 ^ 52 - k * n = -2 ^ 52 - d by rw [← hd]; ring]
        have : |-2 ^ 52 - d| = 2 ^ 52 + d := by rw [abs_of_nonpos (by omega)]; ring
        omega
      · rw [← h52]
        push_cast
        ring
    · rw [abs_of_pos hs] at hk
      have hd1 : ((2 * d : ℤ) : ℝ) < ((2 ^ 53 : ℤ) : ℝ) := by exact_mod_cast lt_of_le_of_lt hk hn2
      have hd0 : ((0 : ℤ) : ℝ) < d := by exact_mod_cast hs
      push_cast at hd1 hd0
      have c3 : 0 ≤ (d : ℝ) / 2 ^ 52 := by positivity
      have c4 : (d : ℝ) / 2 ^ 52 < 1 := by rw [div_lt_iff₀ (by positivity)]; linarith
      obtain ⟨g1, g2⟩ := rnd_up R hm1 hm2 c3 c4 hab
      rw [le_div_iff₀ (by positivity)] at g2
      have g3 : 2 ^ 51 ≤ d := by
        have : ((2 ^ 51 : ℤ) : ℝ) ≤ (d : ℝ) := by push_cast; linarith
        exact_mod_cast this
      rw [he, g1, hq]
      refine close (b := (m + 1) * 2 ^ 52) hk1 hk2 ?_ ?_
      · rw [show (m + 1) * 2 ^ 52 - k * n = 2 ^ 52 - d by rw [← hd]; ring]
        have : |2 ^ 52 - d| = 2 ^ 52 - d := abs_of_nonneg (by omega)
        omega
      · rw [← h52]
        push_cast
        ring

theorem back_twice {a p : ℝ} (ha : IsFloat a) (hp : IsFloat p) (hp0 : 0 < p) :
    R.rnd (R.rnd (R.rnd (R.rnd (a / p) * p) / p) * p) = R.rnd (R.rnd (a / p) * p) := by
  rcases lt_trichotomy a 0 with h | h | h
  · have := back_twice_pos R (isFloat_neg ha) (by linarith) hp hp0
    rw [back_neg, back_neg] at this
    linarith
  · simp [h]
  · exact back_twice_pos R ha h hp hp0

/-- **C163, unchanged values.** Every momentum and time of flight whose quotient is rounded by less than half of a last place of the product is
read back unchanged, in particular every one with a mantissa below that of the momentum or of the speed of light (and not a power of two). -/
theorem elegant_exact_partial (c : ℝ) (q : Part ℝ) :
    (Recovers q.ux q.pt → (rElegantIn R c (rElegantOut R c q)).ux = q.ux) ∧
    (Recovers q.uy q.pt → (rElegantIn R c (rElegantOut R c q)).uy = q.uy) ∧
    (Recovers q.ct c → (rElegantIn R c (rElegantOut R c q)).ct = q.ct) :=
  ⟨fun h => h.back R, fun h => h.back R, fun h => h.back R⟩

/-- Transverse momenta 3 and -3 with total momentum 25. -/
example : Recovers 3 25 ∧ Recovers (-3) 25 :=
  ⟨⟨3 * 2 ^ 51, 25 * 2 ^ 48, -51, -48, by norm_num, by norm_num, by norm_num, by norm_num, by norm_num, by norm_num, .inl (by norm_num)⟩,
    ⟨-(3 * 2 ^ 51), 25 * 2 ^ 48, -51, -48, by norm_num, by norm_num, by norm_num, by norm_num, by norm_num, by norm_num, .inl (by norm_num)⟩⟩

example : Recovers 5 3 :=
  ⟨5 * 2 ^ 50, 3 * 2 ^ 51, -50, -51, by norm_num, by norm_num, by norm_num, by norm_num, by norm_num, by norm_num, .inl (by norm_num)⟩

/-- A mantissa above that of the divisor. -/
example : Recovers 6 5 :=
  ⟨6 * 2 ^ 50, 5 * 2 ^ 50, -50, -50, by norm_num, by norm_num, by norm_num, by norm_num, by norm_num, by norm_num, .inr ⟨5404319552844595, by norm_num⟩⟩

/-- **C163 fails.** Every momentum and time of flight whose quotient is rounded by more than half of a last place of the product is changed by
the round trip. -/
theorem elegant_changes_fails (c : ℝ) (q : Part ℝ) :
    (Changes q.ux q.pt → (rElegantIn R c (rElegantOut R c q)).ux ≠ q.ux) ∧
    (Changes q.uy q.pt → (rElegantIn R c (rElegantOut R c q)).uy ≠ q.uy) ∧
    (Changes q.ct c → (rElegantIn R c (rElegantOut R c q)).ct ≠ q.ct) :=
  ⟨fun h => h.back R, fun h => h.back R, fun h => h.back R⟩

theorem changes_15 : Changes 15 299792458 :=
  ⟨15 * 2 ^ 49, 299792458 * 2 ^ 24, -49, -24, by norm_num, by norm_num, by norm_num, by norm_num, by norm_num, by norm_num, by norm_num, fun k => by
    rcases le_or_gt 0 (k * (299792458 * 2 ^ 24) - 15 * 2 ^ 49 * 2 ^ 52) with h | h
    · rw [abs_of_nonneg h]
      omega
    · rw [abs_of_neg h]
      omega⟩

/-- A time of flight of 15 m. -/
example : (rElegantIn R 299792458 (rElegantOut R 299792458 ⟨0, 0, 0, 0, 15, 1⟩)).ct ≠ 15 :=
  (elegant_changes_fails R 299792458 ⟨0, 0, 0, 0, 15, 1⟩).2.2 changes_15

/-- **C163, second round trip.** A particle that has been written and read once is not changed any more by writing and reading it again. -/
theorem elegant_twice {c : ℝ} (hc : IsFloat c) (hc0 : 0 < c) {q : Part ℝ} (hux : IsFloat q.ux) (huy : IsFloat q.uy) (hct : IsFloat q.ct)
    (hpt : IsFloat q.pt) (hp0 : 0 < q.pt) :
    rElegantIn R c (rElegantOut R c (rElegantIn R c (rElegantOut R c q))) = rElegantIn R c (rElegantOut R c q) := by
  simp only [rElegantIn, rElegantOut, Part.mk.injEq, true_and, and_true]
  exact ⟨back_twice R hux hpt hp0, back_twice R huy hpt hp0, back_twice R hct hc hc0⟩

example := elegant_twice R (c := 299792458) (isFloat_int (n := 299792458) (by norm_num)) (by norm_num) (q := ⟨1, 7, 3, -7, 15, 25⟩)
  (isFloat_int (n := 7) (by norm_num)) (by simpa using isFloat_int (n := -7) (by norm_num)) (isFloat_int (n := 15) (by norm_num))
  (isFloat_int (n := 25) (by norm_num)) (by norm_num)

/-- Sums of numbers that have one more rounding error. -/
theorem sumsTo_trans {k : Nat} {v S A T B : ℝ} (h : SumsTo k v S A) (h1 : |T| ≤ B) (h2 : |S - T| ≤ 2 ^ (-53 : ℤ) * B) (h3 : A ≤ (1 + 2 ^ (-53 : ℤ)) * B) :
    SumsTo (k + 1) v T B := by
  refine ⟨h1, ?_⟩
  have hg := one_le_growth k
  have h4 := h.2
  rw [pow_succ]
  generalize (1 + 2 ^ (-53 : ℤ) : ℝ) ^ k = g at *
  have h5 := mul_le_mul_of_nonneg_left h3 (by linarith : 0 ≤ g - 1)
  have h6 := abs_add_le (v - S) (S - T)
  rw [sub_add_sub_cancel] at h6
  have h7 : (g * (1 + 2 ^ (-53 : ℤ)) - 1) * B = (g - 1) * ((1 + 2 ^ (-53 : ℤ)) * B) + 2 ^ (-53 : ℤ) * B := by ring
  linarith

theorem rounded_sums {α : Type} (f : α → ℝ) (l : List α) :
    |(l.map f).sum| ≤ (l.map fun x => |f x|).sum ∧
    |(l.map fun x => R.rnd (f x)).sum - (l.map f).sum| ≤ 2 ^ (-53 : ℤ) * (l.map fun x => |f x|).sum ∧
    ((l.map fun x => R.rnd (f x)).map abs).sum ≤ (1 + 2 ^ (-53 : ℤ)) * (l.map fun x => |f x|).sum := by
  induction l with
  | nil => simp
  | cons x l ih =>
    simp only [List.map_cons, List.sum_cons]
    obtain ⟨h1, h2, h3⟩ := ih
    have he := R.error (f x)
    refine ⟨(abs_add_le _ _).trans (by linarith), ?_, ?_⟩
    · rw [add_sub_add_comm, mul_add]
      refine (abs_add_le _ _).trans ?_
      linarith
    · have := abs_add_le (f x) (R.rnd (f x) - f x)
      rw [add_sub_cancel] at this
      rw [mul_add, add_mul, one_mul]
      linarith

/-- **C163, genesis.** Times of flight written for genesis are those relative to the average up to rounding errors of the time and of the
average of their sizes. -/
theorem genesis_rounded_partial {c : ℝ} (hc : 0 < c) {ps : List (Part ℝ)} {k : Nat} (hk : ps.length ≤ 16 + 112 * 2 ^ k) :
    List.Forall₂ (fun q t => |t - (q.ct / c - (ps.map fun q => q.ct / c).sum / ps.length)| ≤
      ((1 + 2 ^ (-53 : ℤ)) ^ (28 + k) - 1) * (|q.ct| / c + (ps.map fun q => |q.ct| / c).sum / ps.length)) ps (rGenesisTimes R c ps) := by
  rcases eq_or_ne ps [] with rfl | hne
  · exact .nil
  have hn : (0 : ℝ) < ps.length := by exact_mod_cast List.length_pos_iff.2 hne
  have habs : ∀ x : ℝ, |x / c| = |x| / c := fun x => by rw [abs_div, abs_of_pos hc]
  obtain ⟨r1, r2, r3⟩ := rounded_sums R (fun q : Part ℝ => q.ct / c) ps
  simp only [habs] at r1 r2 r3
  have h1 := sumsTo_trans (npSum_sums R (k := k) (l := ps.map fun q => R.rnd (q.ct / c)) (by rwa [List.length_map])) r1 r2 r3
  have h2 := (sumsTo_mul h1 (SumsTo.leaf (1 / (ps.length : ℝ)) 0)).rnd R
  rw [abs_of_pos (a := 1 / (ps.length : ℝ)) (by positivity), mul_one_div, mul_one_div, mul_one_div] at h2
  simp only [rGenesisTimes, List.length_map, List.map_map]
  rw [List.forall₂_map_right_iff, List.forall₂_same]
  intro q _
  have h3 := ((SumsTo.leaf (q.ct / c) 0).rnd R).mono (by omega : 0 + 1 ≤ 25 + k + 1 + 0 + 1)
  rw [habs] at h3
  have h4 := (h3.add R (sumsTo_neg h2)).mono (by omega : _ ≤ 28 + k)
  rw [← sub_eq_add_neg, ← sub_eq_add_neg] at h4
  exact h4.2

/-- Four particles. -/
example := genesis_rounded_partial R (c := 299792458) (by norm_num) (ps := [⟨0, 0, 0, 0, 15, 1⟩, ⟨0, 0, 0, 0, 16, 1⟩, ⟨0, 0, 0, 0, 15, 1⟩, ⟨0, 0, 0, 0, 14, 1⟩]) (k := 0) (by simp)

/-- **C163, one particle.** The time of a single particle is exactly zero. -/
theorem genesis_one (c : ℝ) (q : Part ℝ) : rGenesisTimes R c [q] = [0] := by
  have h : npSum R [R.rnd (q.ct / c)] = R.rnd (q.ct / c) := by
    rw [npSum, dif_pos (by simp), if_pos (by simp)]
    simp [addAll, R.fixed (R.isFloat _)]
  simp [rGenesisTimes, h, R.fixed (R.isFloat _)]

end Verif.Switch
