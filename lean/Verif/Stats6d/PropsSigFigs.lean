import Mathlib.Tactic.Linarith
import Mathlib.Tactic.FieldSimp
import Mathlib.Tactic.Ring
import Mathlib.Tactic.NormNum
import Mathlib.Algebra.Order.Floor.Ring
import Verif.Stats6d.SigFigs

/-!
# Property C51: significant figures
-/

namespace Verif.SigFigs

theorem roundInt_near (x : ℝ) : |(roundInt x : ℝ) - x| ≤ 1 / 2 := by
  have h1 := Int.floor_le x
  have h2 := Int.lt_floor_add_one x
  unfold roundInt
  rw [abs_le]
  split_ifs with a b c
  · constructor <;> linarith
  · push_cast; constructor <;> linarith
  · constructor <;> linarith
  · push_cast; constructor <;> linarith

theorem roundInt_int (k : ℤ) : roundInt (k : ℝ) = k := by
  unfold roundInt
  rw [Int.floor_intCast, if_pos (by norm_num)]

theorem roundInt_mono {x y : ℝ} (h : x ≤ y) : roundInt x ≤ roundInt y := by
  have hf := Int.floor_mono h
  rcases lt_or_eq_of_le hf with hlt | heq
  · have hx : roundInt x ≤ ⌊x⌋ + 1 := by
      unfold roundInt; split_ifs <;> omega
    have hy : ⌊y⌋ ≤ roundInt y := by
      unfold roundInt; split_ifs <;> omega
    omega
  · unfold roundInt
    rw [← heq]
    split_ifs <;> first | omega | (exfalso; linarith)

theorem roundInt_neg (x : ℝ) : roundInt (-x) = -roundInt x := by
  by_cases hx : (⌊x⌋ : ℝ) = x
  · have h1 : roundInt x = ⌊x⌋ := by conv_lhs => rw [← hx]; exact roundInt_int _
    have h2 : roundInt (-x) = -⌊x⌋ := by
      conv_lhs => rw [← hx]
      rw [← Int.cast_neg]
      exact roundInt_int _
    rw [h1, h2]
  · have h1 := Int.floor_le x
    have h2 := Int.lt_floor_add_one x
    have hlt : (⌊x⌋ : ℝ) < x := lt_of_le_of_ne h1 hx
    have hf : ⌊-x⌋ = -⌊x⌋ - 1 := by
      rw [Int.floor_eq_iff]
      push_cast
      constructor <;> linarith
    unfold roundInt
    rw [hf]
    push_cast
    have he : Even (-⌊x⌋ - 1) ↔ ¬ Even ⌊x⌋ := by
      rw [show -⌊x⌋ - 1 = -(⌊x⌋ + 1) by ring, even_neg, Int.even_add_one]
    split_ifs with a b c d e f g i j k l
    all_goals first
      | omega
      | (exfalso; linarith)
      | (exfalso; exact (he.1 ‹_›) ‹_›)
      | (exfalso; exact ‹¬ Even (-⌊x⌋ - 1)› (he.2 ‹_›))

/-- `e` is the decimal exponent of `x`. -/
def Exponent (x : ℝ) (e : ℤ) : Prop := (10 : ℝ) ^ e ≤ |x| ∧ |x| < (10 : ℝ) ^ (e + 1)

theorem exponent_ne {x : ℝ} {e : ℤ} (h : Exponent x e) : x ≠ 0 := by
  rintro rfl
  have : (0 : ℝ) < 10 ^ e := by positivity
  have h1 := h.1
  rw [abs_zero] at h1
  linarith

theorem exponent_floor {x : ℝ} {e : ℤ} (h : Exponent x e) : ⌊Real.logb 10 |x|⌋ = e := by
  have hx : 0 < |x| := abs_pos.2 (exponent_ne h)
  rw [Int.floor_eq_iff]
  constructor
  · rw [Real.le_logb_iff_rpow_le (by norm_num) hx, Real.rpow_intCast]
    exact h.1
  · rw [Real.logb_lt_iff_lt_rpow (by norm_num) hx]
    have : ((e : ℝ) + 1) = ((e + 1 : ℤ) : ℝ) := by push_cast; ring
    rw [this, Real.rpow_intCast]
    exact h.2

theorem exponent_exists {x : ℝ} (hx : x ≠ 0) : ∃ e, Exponent x e := by
  obtain ⟨e, h1, h2⟩ := exists_mem_Ico_zpow (abs_pos.2 hx) (by norm_num : (1 : ℝ) < 10)
  exact ⟨e, h1, h2⟩

theorem sigFigs_eq {x : ℝ} {e : ℤ} (h : Exponent x e) (n : ℤ) :
    sigFigs x n = roundInt (x / 10 ^ (e - n + 1)) * 10 ^ (e - n + 1) := by
  have h10 : (10 : ℝ) ≠ 0 := by norm_num
  have he : (10 : ℝ) ^ e ≠ 0 := zpow_ne_zero _ h10
  have hn : (10 : ℝ) ^ (n - 1) ≠ 0 := zpow_ne_zero _ h10
  have hu : (10 : ℝ) ^ (e - n + 1) = 10 ^ e / 10 ^ (n - 1) := by
    rw [← zpow_sub₀ h10]; congr 1; ring
  unfold sigFigs
  rw [if_neg (exponent_ne h), exponent_floor h]
  simp only [pyRound]
  rw [hu]
  have : x / 10 ^ e * 10 ^ (n - 1) = x / (10 ^ e / 10 ^ (n - 1)) := by field_simp
  rw [this]
  field_simp

/-- **C51.** The result differs from the number by at most half a unit in the last kept digit, and
it is a whole number of such units. -/
theorem sig_error {x : ℝ} {e : ℤ} (h : Exponent x e) (n : ℤ) :
    |sigFigs x n - x| ≤ 10 ^ (e - n + 1) / 2 ∧ ∃ k : ℤ, sigFigs x n = k * 10 ^ (e - n + 1) := by
  have hu : (0 : ℝ) < 10 ^ (e - n + 1) := by positivity
  rw [sigFigs_eq h n]
  refine ⟨?_, _, rfl⟩
  have h1 := roundInt_near (x / 10 ^ (e - n + 1))
  have h2 : (roundInt (x / 10 ^ (e - n + 1)) : ℝ) * 10 ^ (e - n + 1) - x =
      (roundInt (x / 10 ^ (e - n + 1)) - x / 10 ^ (e - n + 1)) * 10 ^ (e - n + 1) := by
    field_simp
  rw [h2, abs_mul, abs_of_pos hu]
  nlinarith

theorem sigFigs_neg (x : ℝ) (n : ℤ) : sigFigs (-x) n = -sigFigs x n := by
  by_cases hx : x = 0
  · subst hx; simp [sigFigs]
  · obtain ⟨e, he⟩ := exponent_exists hx
    have he' : Exponent (-x) e := by unfold Exponent; rw [abs_neg]; exact he
    rw [sigFigs_eq he, sigFigs_eq he', neg_div, roundInt_neg]
    push_cast
    ring

theorem sig_range {x : ℝ} {e : ℤ} (h : Exponent x e) (hx : 0 < x) {n : ℤ} (hn : 1 ≤ n) :
    (10 : ℝ) ^ e ≤ sigFigs x n ∧ sigFigs x n ≤ 10 ^ (e + 1) := by
  have h10 : (10 : ℝ) ≠ 0 := by norm_num
  have hu : (0 : ℝ) < 10 ^ (e - n + 1) := by positivity
  obtain ⟨m, hm⟩ : ∃ m : ℕ, n - 1 = m := ⟨(n - 1).toNat, by omega⟩
  rw [sigFigs_eq h n]
  obtain ⟨h1, h2⟩ := h
  rw [abs_of_pos hx] at h1 h2
  have e1 : (10 : ℝ) ^ e = ((10 ^ m : ℤ) : ℝ) * 10 ^ (e - n + 1) := by
    push_cast
    rw [← zpow_natCast, ← zpow_add₀ h10]
    congr 1
    omega
  have e2 : (10 : ℝ) ^ (e + 1) = ((10 ^ (m + 1) : ℤ) : ℝ) * 10 ^ (e - n + 1) := by
    push_cast
    rw [← zpow_natCast, ← zpow_add₀ h10]
    congr 1
    push_cast
    omega
  constructor
  · rw [e1]
    apply mul_le_mul_of_nonneg_right _ hu.le
    have : roundInt ((10 ^ m : ℤ) : ℝ) ≤ roundInt (x / 10 ^ (e - n + 1)) := by
      apply roundInt_mono
      rw [le_div_iff₀ hu, ← e1]
      exact h1
    rw [roundInt_int] at this
    exact_mod_cast this
  · rw [e2]
    apply mul_le_mul_of_nonneg_right _ hu.le
    have : roundInt (x / 10 ^ (e - n + 1)) ≤ roundInt ((10 ^ (m + 1) : ℤ) : ℝ) := by
      apply roundInt_mono
      rw [div_le_iff₀ hu, ← e2]
      exact h2.le
    rw [roundInt_int] at this
    exact_mod_cast this

/-- With at least one figure, the result is not zero and has the sign of the number; zero stays
zero. -/
theorem sig_sign (x : ℝ) {n : ℤ} (hn : 1 ≤ n) :
    (0 < x → 0 < sigFigs x n) ∧ (x < 0 → sigFigs x n < 0) ∧ (x = 0 → sigFigs x n = 0) := by
  have pos : ∀ y : ℝ, 0 < y → 0 < sigFigs y n := by
    intro y hy
    obtain ⟨e, he⟩ := exponent_exists hy.ne'
    have := (sig_range he hy hn).1
    have h0 : (0 : ℝ) < 10 ^ e := by positivity
    linarith
  refine ⟨pos x, fun h => ?_, fun h => by subst h; simp [sigFigs]⟩
  have := pos (-x) (by linarith)
  rw [sigFigs_neg] at this
  linarith

/-- A larger number never gets a smaller result. -/
theorem sig_mono {x y : ℝ} (h : x ≤ y) {n : ℤ} (hn : 1 ≤ n) : sigFigs x n ≤ sigFigs y n := by
  have pos : ∀ {x y : ℝ}, 0 < x → x ≤ y → sigFigs x n ≤ sigFigs y n := by
    intro x y hx h
    have hy : 0 < y := lt_of_lt_of_le hx h
    obtain ⟨e, he⟩ := exponent_exists hx.ne'
    obtain ⟨f, hf⟩ := exponent_exists hy.ne'
    have hef : e ≤ f := by
      have h1 := he.1
      have h2 := hf.2
      rw [abs_of_pos hx] at h1
      rw [abs_of_pos hy] at h2
      have h3 : (10 : ℝ) ^ e < 10 ^ (f + 1) := by linarith
      have := (zpow_lt_zpow_iff_right₀ (by norm_num : (1 : ℝ) < 10)).1 h3
      omega
    rcases lt_or_eq_of_le hef with hlt | rfl
    · have h1 := (sig_range he hx hn).2
      have h2 := (sig_range hf hy hn).1
      have h3 : (10 : ℝ) ^ (e + 1) ≤ 10 ^ f := zpow_le_zpow_right₀ (by norm_num) (by omega)
      linarith
    · rw [sigFigs_eq he, sigFigs_eq hf]
      have hu : (0 : ℝ) < 10 ^ (e - n + 1) := by positivity
      apply mul_le_mul_of_nonneg_right _ hu.le
      exact_mod_cast roundInt_mono (div_le_div_of_nonneg_right h hu.le)
  rcases lt_trichotomy x 0 with hx | rfl | hx
  · rcases lt_or_ge y 0 with hy | hy
    · have := pos (x := -y) (y := -x) (by linarith) (by linarith)
      rw [sigFigs_neg, sigFigs_neg] at this
      linarith
    · have h1 := (sig_sign x hn).2.1 hx
      have h2 : 0 ≤ sigFigs y n := by
        rcases lt_or_eq_of_le hy with hy | rfl
        · exact ((sig_sign y hn).1 hy).le
        · exact ((sig_sign 0 hn).2.2 rfl).ge
      linarith
  · rw [(sig_sign 0 hn).2.2 rfl]
    rcases lt_or_eq_of_le h with hy | rfl
    · exact ((sig_sign y hn).1 hy).le
    · exact ((sig_sign 0 hn).2.2 rfl).ge
  · exact pos hx h

/-- A number with at most `n` figures is not changed; so rounding twice is rounding once. -/
theorem sig_fixed {x : ℝ} {e : ℤ} (h : Exponent x e) {n k : ℤ} (hk : x = k * 10 ^ (e - n + 1)) : sigFigs x n = x := by
  have hu : (0 : ℝ) < 10 ^ (e - n + 1) := by positivity
  rw [sigFigs_eq h n]
  have : x / 10 ^ (e - n + 1) = k := by rw [hk]; field_simp
  rw [this, roundInt_int, hk]

theorem sig_twice (x : ℝ) {n : ℤ} (hn : 1 ≤ n) : sigFigs (sigFigs x n) n = sigFigs x n := by
  have pos : ∀ x : ℝ, 0 < x → sigFigs (sigFigs x n) n = sigFigs x n := by
    intro x hx
    obtain ⟨e, he⟩ := exponent_exists hx.ne'
    obtain ⟨_, k, hk⟩ := sig_error he n
    obtain ⟨h1, h2⟩ := sig_range he hx hn
    have hp := (sig_sign x hn).1 hx
    rcases lt_or_eq_of_le h2 with h2 | h2
    · exact sig_fixed (e := e) ⟨by rw [abs_of_pos hp]; exact h1, by rw [abs_of_pos hp]; exact h2⟩ hk
    · have he' : Exponent (sigFigs x n) (e + 1) := by
        refine ⟨by rw [abs_of_pos hp]; exact h2.ge, ?_⟩
        rw [abs_of_pos hp, h2]
        exact zpow_lt_zpow_right₀ (by norm_num) (by omega)
      obtain ⟨m, hm⟩ : ∃ m : ℕ, n - 1 = m := ⟨(n - 1).toNat, by omega⟩
      refine sig_fixed he' (k := 10 ^ m) ?_
      rw [h2]
      push_cast
      rw [← zpow_natCast, ← zpow_add₀ (by norm_num : (10 : ℝ) ≠ 0)]
      congr 1
      omega
  rcases lt_trichotomy x 0 with hx | rfl | hx
  · have := pos (-x) (by linarith)
    rw [sigFigs_neg, sigFigs_neg] at this
    linarith
  · rw [(sig_sign 0 hn).2.2 rfl, (sig_sign 0 hn).2.2 rfl]
  · exact pos x hx

/-- 1234.5 has the exponent 3; with two figures the result is 1200. -/
example : sigFigs 1234.5 2 = 1200 := by
  have h : Exponent 1234.5 3 := by
    unfold Exponent
    rw [abs_of_pos (by norm_num)]
    norm_num
  have hr : roundInt (1234.5 / (10 : ℝ) ^ ((3 : ℤ) - 2 + 1)) = 12 := by
    have hf : ⌊(1234.5 : ℝ) / (10 : ℝ) ^ ((3 : ℤ) - 2 + 1)⌋ = 12 := by
      rw [Int.floor_eq_iff]; norm_num
    unfold roundInt
    rw [hf]
    norm_num
  rw [sigFigs_eq h, hr]
  norm_num

example : |sigFigs 1234.5 2 - 1234.5| ≤ 10 ^ ((3 : ℤ) - 2 + 1) / 2 :=
  (sig_error (e := 3) (by unfold Exponent; rw [abs_of_pos (by norm_num)]; norm_num) 2).1

example : sigFigs 1200 2 = 1200 :=
  sig_fixed (e := 3) (k := 12) (by unfold Exponent; rw [abs_of_pos (by norm_num)]; norm_num) (by norm_num)

example : sigFigs 1234.5 2 ≤ sigFigs 1300 2 := sig_mono (by norm_num) (by norm_num)

example : sigFigs (-0.004) 1 < 0 := (sig_sign (-0.004) (n := 1) (by norm_num)).2.1 (by norm_num)

end Verif.SigFigs
