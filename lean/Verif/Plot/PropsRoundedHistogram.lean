import Verif.Plot.RoundedHistogram
import Verif.Plot.PropsHistogram
import Verif.Py.Near
import Verif.Py.TiesEven
import Verif.Phases.Rounded

/-!
# C161: histograms and the current in double precision
-/

namespace Verif.Plot

open Verif.Py Verif.Sample

variable (R : Rounding)

theorem near_round (x : ℝ) : Near (2 ^ (-53 : ℤ)) (R.rnd x) x := by
  have := R.error x
  rwa [mul_comm] at this

/-- The guess is the place between the ends of the range up to four roundings, in both versions. -/
theorem guess_near (old : Bool) {r : ℝ × ℝ} (hr : r.1 < r.2) (n : Nat) {x : ℝ} (hx : r.1 ≤ x) :
    |rGuess R old r n x - (x - r.1) / (r.2 - r.1) * n| ≤ (x - r.1) / (r.2 - r.1) * n * 2 ^ (-50 : ℤ) := by
  have hD : 0 < r.2 - r.1 := by linarith
  have h1 := near_round R (x - r.1)
  have h2 := (near_round R (r.2 - r.1)).inv (by norm_num) hD.ne'
  have ht : 0 ≤ (x - r.1) / (r.2 - r.1) * n := mul_nonneg (div_nonneg (by linarith) hD.le) (Nat.cast_nonneg n)
  have key : Near (2 ^ (-50 : ℤ)) (rGuess R old r n x) ((x - r.1) / (r.2 - r.1) * n) := by
    cases old with
    | true =>
      have h3 := h1.mul (((Near.refl (n : ℝ)).mul h2).rnd R)
      rw [show (n : ℝ) * (1 / R.rnd (r.2 - r.1)) = n / R.rnd (r.2 - r.1) by ring,
        show (x - r.1) * ((n : ℝ) * (1 / (r.2 - r.1))) = (x - r.1) / (r.2 - r.1) * n by ring] at h3
      exact (h3.rnd R).weaken (by norm_num)
    | false =>
      have h3 := ((h1.mul h2).rnd R).mul (Near.refl (n : ℝ))
      rw [show R.rnd (x - r.1) * (1 / R.rnd (r.2 - r.1)) = R.rnd (x - r.1) / R.rnd (r.2 - r.1) by ring,
        show (x - r.1) * (1 / (r.2 - r.1)) * (n : ℝ) = (x - r.1) / (r.2 - r.1) * n by ring] at h3
      exact (h3.rnd R).weaken (by norm_num)
  unfold Near at key
  rw [abs_of_nonneg ht, mul_comm ((2 : ℝ) ^ (-50 : ℤ))] at key
  exact key

theorem guess_nonneg (old : Bool) {r : ℝ × ℝ} (hr : r.1 < r.2) (n : Nat) {x : ℝ} (hx : r.1 ≤ x) : 0 ≤ rGuess R old r n x := by
  have h1 := R.nonneg (by linarith : 0 ≤ x - r.1)
  have h2 := R.nonneg (by linarith : 0 ≤ r.2 - r.1)
  unfold rGuess
  cases old with
  | true => exact R.nonneg (mul_nonneg h1 (R.nonneg (div_nonneg (Nat.cast_nonneg n) h2)))
  | false => exact R.nonneg (mul_nonneg (R.nonneg (div_nonneg h1 h2)) (Nat.cast_nonneg n))

/-- The width of `k` bins in double precision. -/
theorem width_near {r : ℝ × ℝ} (n k : Nat) :
    Near (5 * 2 ^ (-53 : ℤ)) (R.rnd (k * R.rnd (R.rnd (r.2 - r.1) / n))) (k * ((r.2 - r.1) / n)) := by
  have h1 := ((near_round R (r.2 - r.1)).mul (Near.refl (1 / (n : ℝ)))).rnd R
  rw [show R.rnd (r.2 - r.1) * (1 / (n : ℝ)) = R.rnd (r.2 - r.1) / n by ring,
    show (r.2 - r.1) * (1 / (n : ℝ)) = (r.2 - r.1) / n by ring] at h1
  exact (((Near.refl (k : ℝ)).mul h1).rnd R).weaken (by norm_num)

theorem edge_zero {r : ℝ × ℝ} (hf : IsFloat r.1) {n : Nat} (hn : 0 < n) : rEdge R r n 0 = r.1 := by
  unfold rEdge
  rw [if_neg (by omega)]
  simp [R.fixed hf]

theorem width_le {r : ℝ × ℝ} (hr : r.1 < r.2) {n k : Nat} (hk : k < n) (hn : n ≤ 2 ^ 50) :
    R.rnd (k * R.rnd (R.rnd (r.2 - r.1) / n)) ≤ r.2 - r.1 := by
  have hD : 0 < r.2 - r.1 := by linarith
  have hn0 : (0 : ℝ) < n := by exact_mod_cast (by omega : 0 < n)
  have h1 := width_near R (r := r) n k
  unfold Near at h1
  have hw : 0 ≤ (k : ℝ) * ((r.2 - r.1) / n) := mul_nonneg (Nat.cast_nonneg k) (div_nonneg hD.le hn0.le)
  rw [abs_of_nonneg hw] at h1
  have h2 := (abs_le.1 h1).2
  have h3 : (k : ℝ) * ((r.2 - r.1) / n) ≤ (r.2 - r.1) - (r.2 - r.1) / n := by
    have : ((k : ℝ) + 1) * ((r.2 - r.1) / n) ≤ n * ((r.2 - r.1) / n) :=
      mul_le_mul_of_nonneg_right (by exact_mod_cast hk) (div_nonneg hD.le hn0.le)
    rw [mul_div_cancel₀ _ hn0.ne'] at this
    linarith
  have h4 : 5 * 2 ^ (-53 : ℤ) * (r.2 - r.1) ≤ (r.2 - r.1) / n := by
    rw [le_div_iff₀ hn0]
    have h5 : (n : ℝ) ≤ 2 ^ 50 := by exact_mod_cast hn
    have h6 : 5 * 2 ^ (-53 : ℤ) * (n : ℝ) ≤ 1 := by
      have := mul_le_mul_of_nonneg_left h5 (by positivity : (0 : ℝ) ≤ 5 * 2 ^ (-53 : ℤ))
      norm_num at this ⊢
      linarith
    have := mul_le_mul_of_nonneg_right h6 hD.le
    linarith
  have h7 : 5 * 2 ^ (-53 : ℤ) * ((k : ℝ) * ((r.2 - r.1) / n)) ≤ 5 * 2 ^ (-53 : ℤ) * (r.2 - r.1) :=
    mul_le_mul_of_nonneg_left (by have := div_nonneg hD.le hn0.le; linarith) (by positivity)
  linarith

/-- The edges do not decrease. -/
theorem rEdge_mono {r : ℝ × ℝ} (hr : r.1 < r.2) (hf : IsFloat r.2) {n : Nat} (hn : n ≤ 2 ^ 50) {k l : Nat} (hkl : k ≤ l) (hl : l ≤ n) :
    rEdge R r n k ≤ rEdge R r n l := by
  unfold rEdge
  by_cases hl' : l = n
  · rw [if_pos hl']
    by_cases hk' : k = n
    · rw [if_pos hk']
    · rw [if_neg hk']
      have := width_le R hr (k := k) (n := n) (by omega) hn
      exact R.le_of_le hf (by linarith)
  · rw [if_neg hl', if_neg (by omega)]
    refine R.mono (add_le_add (R.mono (mul_le_mul_of_nonneg_right (by exact_mod_cast hkl) ?_)) (le_refl _))
    exact R.nonneg (div_nonneg (R.nonneg (by linarith)) (Nat.cast_nonneg n))

/-- The edges are equidistant up to rounding. -/
theorem rEdge_near {r : ℝ × ℝ} (hr : r.1 < r.2) {n k : Nat} (hk : k ≤ n) (hn0 : 0 < n) (hn : n ≤ 2 ^ 50) :
    |rEdge R r n k - (r.1 + k * ((r.2 - r.1) / n))| ≤ 2 ^ (-53 : ℤ) * (|r.1| + 8 * (r.2 - r.1)) := by
  have hD : 0 < r.2 - r.1 := by linarith
  have hn' : (0 : ℝ) < n := by exact_mod_cast hn0
  have hu := two_zpow_pos (-53)
  unfold rEdge
  by_cases hkn : k = n
  · rw [if_pos hkn, hkn, mul_div_cancel₀ _ hn'.ne', show r.2 - (r.1 + (r.2 - r.1)) = 0 by ring, abs_zero]
    have := abs_nonneg r.1
    positivity
  rw [if_neg hkn]
  have h1 := width_near R (r := r) n k
  have h2 := width_le R hr (k := k) (n := n) (by omega) hn
  have hw0 : 0 ≤ (k : ℝ) * ((r.2 - r.1) / n) := mul_nonneg (Nat.cast_nonneg k) (div_nonneg hD.le hn'.le)
  have hw1 : (k : ℝ) * ((r.2 - r.1) / n) ≤ r.2 - r.1 := by
    have : (k : ℝ) * ((r.2 - r.1) / n) ≤ n * ((r.2 - r.1) / n) :=
      mul_le_mul_of_nonneg_right (by exact_mod_cast hk) (div_nonneg hD.le hn'.le)
    rwa [mul_div_cancel₀ _ hn'.ne'] at this
  unfold Near at h1
  rw [abs_of_nonneg hw0] at h1
  have h3 : 0 ≤ R.rnd (k * R.rnd (R.rnd (r.2 - r.1) / n)) :=
    R.nonneg (mul_nonneg (Nat.cast_nonneg k) (R.nonneg (div_nonneg (R.nonneg hD.le) hn'.le)))
  generalize R.rnd (k * R.rnd (R.rnd (r.2 - r.1) / n)) = P at *
  generalize (k : ℝ) * ((r.2 - r.1) / n) = w at *
  have h4 := R.error (P + r.1)
  have h5 : |P + r.1| ≤ |r.1| + (r.2 - r.1) := by
    have := abs_add_le P r.1
    rw [abs_of_nonneg (a := P) h3] at this
    linarith
  have h6 := mul_le_mul_of_nonneg_right h5 hu.le
  have h7 := abs_add_le (R.rnd (P + r.1) - (P + r.1)) (P - w)
  rw [show R.rnd (P + r.1) - (P + r.1) + (P - w) = R.rnd (P + r.1) - (r.1 + w) by ring] at h7
  have h8 := mul_le_mul_of_nonneg_left hw1 hu.le
  have h9 := mul_pos hu hD
  generalize (2 : ℝ) ^ (-53 : ℤ) = u at *
  generalize r.2 - r.1 = D at *
  linarith

theorem rFirst_lt (old : Bool) {r : ℝ × ℝ} (hr : r.1 < r.2) {n : Nat} (hn0 : 0 < n) (hn : n ≤ 2 ^ 49) {x : ℝ} (hx : r.1 ≤ x) (hx' : x ≤ r.2) :
    rFirst R old r n x < n := by
  have hD : 0 < r.2 - r.1 := by linarith
  have hn' : (0 : ℝ) < n := by exact_mod_cast hn0
  have h1 := (abs_le.1 (guess_near R old hr n hx)).2
  have h2 : (x - r.1) / (r.2 - r.1) * n ≤ n := by
    have : (x - r.1) / (r.2 - r.1) ≤ 1 := by rw [div_le_one hD]; linarith
    have := mul_le_mul_of_nonneg_right this hn'.le
    linarith
  have h3 : (n : ℝ) * 2 ^ (-50 : ℤ) < 1 := by
    have h5 : (n : ℝ) ≤ 2 ^ 49 := by exact_mod_cast hn
    have h6 := mul_le_mul_of_nonneg_right h5 (two_zpow_pos (-50)).le
    have e : (2 : ℝ) ^ 49 * 2 ^ (-50 : ℤ) = 1 / 2 := by norm_num
    rw [e] at h6
    exact lt_of_le_of_lt h6 (by norm_num)
  have h4 := mul_le_mul_of_nonneg_right h2 (two_zpow_pos (-50)).le
  generalize (x - r.1) / (r.2 - r.1) * n = t at *
  generalize (2 : ℝ) ^ (-50 : ℤ) = ε at *
  have h6 : ⌊rGuess R old r n x⌋ < (n : ℤ) + 1 := by
    rw [Int.floor_lt]
    push_cast
    linarith
  unfold rFirst
  simp only
  by_cases h : ⌊rGuess R old r n x⌋.toNat = n
  · rw [if_pos h]; omega
  · rw [if_neg h]; omega

theorem rBin_lt (old : Bool) {r : ℝ × ℝ} (hr : r.1 < r.2) {n : Nat} (hn0 : 0 < n) (hn : n ≤ 2 ^ 49) {x : ℝ} (hx : r.1 ≤ x) (hx' : x ≤ r.2) :
    rBin R old r n x < n := by
  have h := rFirst_lt R old hr hn0 hn hx hx'
  unfold rBin
  simp only
  generalize rFirst R old r n x = i at *
  by_cases h1 : x < rEdge R r n i
  · simp only [if_pos h1]
    by_cases h2 : rEdge R r n (i - 1 + 1) ≤ x ∧ i - 1 ≠ n - 1
    · rw [if_pos h2]; omega
    · rw [if_neg h2]; omega
  · simp only [if_neg h1]
    by_cases h2 : rEdge R r n (i + 1) ≤ x ∧ i ≠ n - 1
    · rw [if_pos h2]; omega
    · rw [if_neg h2]; omega

/-- A number of a range that is not too narrow is put between the edges of its bin. -/
theorem rBin_spec (old : Bool) {r : ℝ × ℝ} (hr : r.1 < r.2) (hf : IsFloat r.1) {n : Nat} (hn0 : 0 < n)
    (hc : n * (|r.1| + 8 * (r.2 - r.1)) ≤ 2 ^ 50 * (r.2 - r.1)) {x : ℝ} (hx : r.1 ≤ x) (hx' : x ≤ r.2) :
    rEdge R r n (rBin R old r n x) ≤ x ∧ (x < rEdge R r n (rBin R old r n x + 1) ∨ rBin R old r n x + 1 = n) := by
  have hD : 0 < r.2 - r.1 := by linarith
  have hn' : (0 : ℝ) < n := by exact_mod_cast hn0
  have hn47 : n ≤ 2 ^ 47 := by
    have h1 : (n : ℝ) * (8 * (r.2 - r.1)) ≤ 2 ^ 50 * (r.2 - r.1) :=
      (mul_le_mul_of_nonneg_left (by linarith [abs_nonneg r.1]) hn'.le).trans hc
    have h2 : ((n : ℝ) * 8) * (r.2 - r.1) ≤ 2 ^ 50 * (r.2 - r.1) := by linarith
    have h3 := le_of_mul_le_mul_right h2 hD
    have h4 : (n : ℝ) ≤ 2 ^ 47 := by
      have e : (2 : ℝ) ^ 50 = 2 ^ 47 * 8 := by norm_num
      linarith
    exact_mod_cast h4
  have hw0 : 0 < (r.2 - r.1) / n := div_pos hD hn'
  -- the edges are right to 1/8 of a bin
  have hedge : ∀ k ≤ n, |rEdge R r n k - (r.1 + k * ((r.2 - r.1) / n))| ≤ (r.2 - r.1) / n / 8 := by
    intro k hk
    refine (rEdge_near R hr hk hn0 (by omega)).trans ?_
    rw [div_div, le_div_iff₀ (by positivity)]
    have := mul_le_mul_of_nonneg_left hc (two_zpow_pos (-50)).le
    have e1 : (2 : ℝ) ^ (-50 : ℤ) * (2 ^ 50 * (r.2 - r.1)) = r.2 - r.1 := by rw [← mul_assoc]; norm_num
    rw [e1] at this
    have e2 : (2 : ℝ) ^ (-53 : ℤ) = 2 ^ (-50 : ℤ) / 8 := by norm_num
    rw [e2]
    linarith
  -- the guess is right to 1/8
  have ht : (x - r.1) / (r.2 - r.1) * n * ((r.2 - r.1) / n) = x - r.1 := by field_simp
  have htn : (x - r.1) / (r.2 - r.1) * n ≤ n := by
    have : (x - r.1) / (r.2 - r.1) ≤ 1 := by rw [div_le_one hD]; linarith
    have := mul_le_mul_of_nonneg_right this hn'.le
    linarith
  have hg := guess_near R old hr n hx
  have hg0 := guess_nonneg R old hr n hx
  have hg8 : |rGuess R old r n x - (x - r.1) / (r.2 - r.1) * n| ≤ 1 / 8 := by
    refine hg.trans ((mul_le_mul_of_nonneg_right htn (two_zpow_pos (-50)).le).trans ?_)
    have h5 : (n : ℝ) ≤ 2 ^ 47 := by exact_mod_cast hn47
    have h6 := mul_le_mul_of_nonneg_right h5 (two_zpow_pos (-50)).le
    have e : (2 : ℝ) ^ 47 * 2 ^ (-50 : ℤ) = 1 / 8 := by norm_num
    linarith
  generalize htt : (x - r.1) / (r.2 - r.1) * n = t at *
  generalize hww : (r.2 - r.1) / n = w at *
  have hi := rFirst_lt R old hr hn0 (by omega) hx hx'
  have hlow : ((rFirst R old r n x : ℕ) : ℝ) ≤ t + 1 / 8 := by
    have h1 : ((⌊rGuess R old r n x⌋.toNat : ℕ) : ℝ) ≤ rGuess R old r n x := by
      have : ((⌊rGuess R old r n x⌋.toNat : ℤ) : ℝ) ≤ rGuess R old r n x := by
        rw [Int.toNat_of_nonneg (Int.floor_nonneg.2 hg0)]; exact Int.floor_le _
      exact_mod_cast this
    have h2 := (abs_le.1 hg8).2
    unfold rFirst
    simp only
    by_cases h : ⌊rGuess R old r n x⌋.toNat = n
    · rw [if_pos h]
      have : ((n - 1 : ℕ) : ℝ) ≤ n := by exact_mod_cast Nat.sub_le n 1
      rw [h] at h1
      linarith
    · rw [if_neg h]; linarith
  have hhigh : rFirst R old r n x + 1 = n ∨ t - 1 / 8 < (rFirst R old r n x : ℝ) + 1 := by
    have h1 : rGuess R old r n x < (⌊rGuess R old r n x⌋.toNat : ℝ) + 1 := by
      have : rGuess R old r n x < ((⌊rGuess R old r n x⌋.toNat : ℤ) : ℝ) + 1 := by
        rw [Int.toNat_of_nonneg (Int.floor_nonneg.2 hg0)]; exact Int.lt_floor_add_one _
      exact_mod_cast this
    have h2 := (abs_le.1 hg8).1
    unfold rFirst
    simp only
    by_cases h : ⌊rGuess R old r n x⌋.toNat = n
    · rw [if_pos h]; left; omega
    · rw [if_neg h]; right; linarith
  have hE0 := edge_zero R hf hn0
  unfold rBin
  simp only
  generalize rFirst R old r n x = i at *
  -- the bin below the guess starts below, the second one after the guess starts above
  have hbelow : 0 < i → rEdge R r n (i - 1) ≤ x := by
    intro h0
    have h1 := (abs_le.1 (hedge (i - 1) (by omega))).2
    have h2 : ((i - 1 : ℕ) : ℝ) = i - 1 := by rw [Nat.cast_sub (by omega)]; norm_num
    rw [h2] at h1
    have h3 := mul_le_mul_of_nonneg_right hlow hw0.le
    linarith
  have habove : i + 2 ≤ n → x < rEdge R r n (i + 2) := by
    intro h0
    have h1 := (abs_le.1 (hedge (i + 2) h0)).1
    push_cast at h1
    rcases hhigh with h | h
    · omega
    have h3 := mul_lt_mul_of_pos_right h hw0
    linarith
  by_cases h1 : x < rEdge R r n i
  · have h0 : 0 < i := by
      by_contra hc
      rw [show i = 0 by omega, hE0] at h1
      linarith
    simp only [if_pos h1]
    have e : i - 1 + 1 = i := by omega
    rw [if_neg (by rw [e]; intro hc; exact absurd hc.1 (not_le.2 h1)), e]
    exact ⟨hbelow h0, .inl h1⟩
  · simp only [if_neg h1]
    rw [not_lt] at h1
    by_cases h2 : rEdge R r n (i + 1) ≤ x ∧ i ≠ n - 1
    · rw [if_pos h2]
      refine ⟨h2.1, ?_⟩
      by_cases h3 : i + 2 ≤ n
      · exact .inl (habove h3)
      · right; omega
    · rw [if_neg h2]
      refine ⟨h1, ?_⟩
      by_cases h3 : i = n - 1
      · right; omega
      · left
        by_contra hc
        exact h2 ⟨not_lt.1 hc, h3⟩

/-- The range of data that are not all equal. -/
theorem rHistRange_of {data : List ℝ} {lo hi : ℝ} (h1 : lo ∈ data) (h2 : hi ∈ data) (hb : ∀ x ∈ data, lo ≤ x ∧ x ≤ hi) (hlt : lo < hi) :
    rHistRange R data = (lo, hi) := by
  cases data with
  | nil => simp at h1
  | cons x l =>
    have e1 : minOf x l = lo := le_antisymm (minOf_le x l lo h1) (hb _ (minOf_mem x l)).1
    have e2 : maxOf x l = hi := le_antisymm (hb _ (maxOf_mem x l)).2 (le_maxOf x l hi h2)
    simp only [rHistRange, e1, e2]
    rw [if_neg hlt.ne]

/-- The range of doubles consists of doubles around the data. -/
theorem rHistRange_spec {data : List ℝ} (hf : ∀ x ∈ data, IsFloat x) : IsFloat (rHistRange R data).1 ∧ IsFloat (rHistRange R data).2 ∧
    (rHistRange R data).1 ≤ (rHistRange R data).2 ∧ ∀ x ∈ data, (rHistRange R data).1 ≤ x ∧ x ≤ (rHistRange R data).2 := by
  cases data with
  | nil => simp [rHistRange, isFloat_zero, isFloat_one]
  | cons x l =>
    have h1 := minOf_le x l
    have h2 := le_maxOf x l
    have hm := hf _ (minOf_mem x l)
    have hM := hf _ (maxOf_mem x l)
    simp only [rHistRange]
    by_cases h : minOf x l = maxOf x l
    · rw [if_pos h]
      have a1 : R.rnd (minOf x l - 1 / 2) ≤ minOf x l := R.le_of_le hm (by linarith)
      have a2 : maxOf x l ≤ R.rnd (maxOf x l + 1 / 2) := R.ge_of_ge hM (by linarith)
      exact ⟨R.isFloat _, R.isFloat _, by simp only; linarith, fun y hy => ⟨a1.trans (h1 y hy), (h2 y hy).trans a2⟩⟩
    · rw [if_neg h]
      exact ⟨hm, hM, (h1 x (by simp)).trans (h2 x (by simp)), fun y hy => ⟨h1 y hy, h2 y hy⟩⟩

theorem getD_range_map {α : Type} (f : Nat → α) {m k : Nat} (hk : k < m) (d : α) : ((List.range m).map f).getD k d = f k := by
  simp only [List.getD_eq_getElem?_getD, List.getElem?_map]
  rw [List.getElem?_range hk]
  rfl

theorem rCenters_length (l : List ℝ) : (rCenters R l).length = l.length - 1 := by
  induction l with
  | nil => rfl
  | cons a l ih =>
    cases l with
    | nil => rfl
    | cons b l => simp only [rCenters, List.length_cons] at ih ⊢; omega

theorem rCenters_getD {l : List ℝ} {k : Nat} (hk : k + 1 < l.length) :
    (rCenters R l).getD k 0 = R.rnd (R.rnd (l.getD (k + 1) 0 + l.getD k 0) / 2) := by
  induction l generalizing k with
  | nil => simp at hk
  | cons a l ih =>
    cases l with
    | nil => simp at hk
    | cons b l =>
      cases k with
      | zero => simp [rCenters]
      | succ k =>
        have := ih (k := k) (by simpa using hk)
        simpa [rCenters] using this

/-- The middle of two doubles lies between them. -/
theorem middle_between {a b : ℝ} (ha : IsFloat a) (hb : IsFloat b) (h : a ≤ b) : a ≤ R.rnd (R.rnd (b + a) / 2) ∧ R.rnd (R.rnd (b + a) / 2) ≤ b := by
  have h1 := R.ge_of_ge (x := b + a) (Verif.Phases.isFloat_two_mul ha) (by linarith)
  have h2 := R.le_of_le (x := b + a) (Verif.Phases.isFloat_two_mul hb) (by linarith)
  exact ⟨R.ge_of_ge ha (by linarith), R.le_of_le hb (by linarith)⟩

theorem rEdge_isFloat {r : ℝ × ℝ} (hf : IsFloat r.2) (n k : Nat) : IsFloat (rEdge R r n k) := by
  unfold rEdge
  by_cases h : k = n
  · rw [if_pos h]; exact hf
  · rw [if_neg h]; exact R.isFloat _

/-- **C161, total.** For all data that are doubles and not all equal and all numbers of bins up to 2^49 there are as many counts as bins,
they sum to the number of data, the edges do not decrease from the smallest to the largest datum, and the middle of a bin lies between its
edges. This is so for both ways of numpy to find the bin. -/
theorem histogram_total_partial (old : Bool) {data : List ℝ} {lo hi : ℝ} (hf : ∀ x ∈ data, IsFloat x) (h1 : lo ∈ data) (h2 : hi ∈ data)
    (hb : ∀ x ∈ data, lo ≤ x ∧ x ≤ hi) (hlt : lo < hi) {n : Int} (hn : 1 ≤ n) (hn' : n ≤ 2 ^ 49) :
    ∃ counts edges centers, rHistogram R old data n = .ok (counts, edges) ∧ rHistogramPoints R old data n = .ok (centers, counts) ∧
      counts.length = n.toNat ∧ centers.length = n.toNat ∧ edges.length = n.toNat + 1 ∧ counts.sum = data.length ∧
      edges.getD 0 0 = lo ∧ edges.getD n.toNat 0 = hi ∧
      ∀ k < n.toNat, edges.getD k 0 ≤ centers.getD k 0 ∧ centers.getD k 0 ≤ edges.getD (k + 1) 0 := by
  have hr := rHistRange_of R h1 h2 hb hlt
  have hm : n.toNat ≤ 2 ^ 49 := by omega
  have hm0 : 0 < n.toNat := by omega
  have hh : rHistogram R old data n = .ok ((List.range n.toNat).map fun k => data.countP fun x => decide (rBin R old (lo, hi) n.toNat x = k),
      (List.range (n.toNat + 1)).map fun k => rEdge R (lo, hi) n.toNat k) := by
    unfold rHistogram
    rw [if_neg (by omega), hr]
    simp only
    rw [if_neg hlt.ne]
  refine ⟨_, _, _, hh, by unfold rHistogramPoints; rw [hh], by simp, by rw [rCenters_length]; simp, by simp, ?_, ?_, ?_, ?_⟩
  · exact sum_counts _ _ data fun x hx => rBin_lt R old hlt hm0 hm (hb x hx).1 (hb x hx).2
  · rw [getD_range_map _ (by omega)]
    exact edge_zero R (hf lo h1) hm0
  · rw [getD_range_map _ (by omega), rEdge, if_pos rfl]
  · intro k hk
    rw [rCenters_getD R (by simpa using hk), getD_range_map _ (by omega), getD_range_map _ (by omega)]
    exact middle_between R (rEdge_isFloat R (hf hi h2) _ _) (rEdge_isFloat R (hf hi h2) _ _)
      (rEdge_mono R hlt (hf hi h2) (by omega) (by omega) (by omega))

/-- Two data and ten bins. -/
example : ∃ counts edges centers, rHistogram R true [1, 2] 10 = .ok (counts, edges) ∧ rHistogramPoints R true [1, 2] 10 = .ok (centers, counts) ∧
    counts.sum = 2 := by
  have hf2 : IsFloat 2 := by exact_mod_cast isFloat_int (n := 2) (by norm_num)
  obtain ⟨c, e, m, h1, h2, -, -, -, h3, -⟩ := histogram_total_partial R true (data := [1, 2]) (lo := 1) (hi := 2) (n := 10)
    (by simp [isFloat_one, hf2]) (by simp) (by simp) (by simp) (by norm_num) (by norm_num) (by norm_num)
  exact ⟨c, e, m, h1, h2, h3⟩

/-- **C161, counts.** The count of a bin is the number of data from its lower edge on and below its upper edge; the last bin has its upper
edge. The number of bins times the size of the data (smallest datum and 8 times the spread) must not be larger than 2^50 times the spread;
without that see `histogram_neighbours_fails`. -/
theorem histogram_bins_partial (old : Bool) {data : List ℝ} {lo hi : ℝ} (hf : ∀ x ∈ data, IsFloat x) (h1 : lo ∈ data) (h2 : hi ∈ data)
    (hb : ∀ x ∈ data, lo ≤ x ∧ x ≤ hi) (hlt : lo < hi) {n : Int} (hn : 1 ≤ n) (hc : n * (|lo| + 8 * (hi - lo)) ≤ 2 ^ 50 * (hi - lo)) :
    ∃ counts edges, rHistogram R old data n = .ok (counts, edges) ∧
      (∀ k ≤ n.toNat, |edges.getD k 0 - (lo + k * ((hi - lo) / n))| ≤ 2 ^ (-53 : ℤ) * (|lo| + 8 * (hi - lo))) ∧
      ∀ k < n.toNat, ∀ p : ℝ → Bool, (∀ x, p x = true ↔ edges.getD k 0 ≤ x ∧ (x < edges.getD (k + 1) 0 ∨ k + 1 = n.toNat)) →
        counts.getD k 0 = data.countP p := by
  have hr := rHistRange_of R h1 h2 hb hlt
  have hD : 0 < hi - lo := by linarith
  have hcast : ((n.toNat : ℕ) : ℝ) = (n : ℝ) := by
    have : ((n.toNat : ℤ) : ℝ) = (n : ℝ) := by rw [Int.toNat_of_nonneg (by omega)]
    exact_mod_cast this
  have hm0 : 0 < n.toNat := by omega
  rw [← hcast] at hc
  have hm : n.toNat ≤ 2 ^ 47 := by
    have hn' : (0 : ℝ) < (n.toNat : ℝ) := by exact_mod_cast hm0
    have h1 : (n.toNat : ℝ) * (8 * (hi - lo)) ≤ 2 ^ 50 * (hi - lo) :=
      (mul_le_mul_of_nonneg_left (by linarith [abs_nonneg lo]) hn'.le).trans hc
    have h2 : ((n.toNat : ℝ) * 8) * (hi - lo) ≤ 2 ^ 50 * (hi - lo) := by linarith
    have h3 := le_of_mul_le_mul_right h2 hD
    have h4 : (n.toNat : ℝ) ≤ 2 ^ 47 := by
      have e : (2 : ℝ) ^ 50 = 2 ^ 47 * 8 := by norm_num
      linarith
    exact_mod_cast h4
  have hh : rHistogram R old data n = .ok ((List.range n.toNat).map fun k => data.countP fun x => decide (rBin R old (lo, hi) n.toNat x = k),
      (List.range (n.toNat + 1)).map fun k => rEdge R (lo, hi) n.toNat k) := by
    unfold rHistogram
    rw [if_neg (by omega), hr]
    simp only
    rw [if_neg hlt.ne]
  refine ⟨_, _, hh, ?_, ?_⟩
  · intro k hk
    rw [getD_range_map _ (by omega), ← hcast]
    exact rEdge_near R (r := (lo, hi)) hlt hk hm0 (by omega)
  · intro k hk p hp
    rw [getD_range_map _ hk]
    refine List.countP_congr fun x hx => ?_
    rw [hp, getD_range_map _ (by omega), getD_range_map _ (by omega), decide_eq_true_iff]
    obtain ⟨s1, s2⟩ := rBin_spec R old (r := (lo, hi)) hlt (hf lo h1) hm0 hc (hb x hx).1 (hb x hx).2
    have s3 := rBin_lt R old (r := (lo, hi)) hlt hm0 (by omega) (hb x hx).1 (hb x hx).2
    constructor
    · rintro rfl; exact ⟨s1, s2⟩
    · rintro ⟨t1, t2⟩
      generalize rBin R old (lo, hi) n.toNat x = j at *
      have mono : ∀ {a b : Nat}, a ≤ b → b ≤ n.toNat → rEdge R (lo, hi) n.toNat a ≤ rEdge R (lo, hi) n.toNat b := fun ha hb' =>
        rEdge_mono R (r := (lo, hi)) hlt (hf hi h2) (by omega) ha hb'
      rcases lt_trichotomy j k with h | h | h
      · rcases s2 with s2 | s2
        · have := mono (a := j + 1) (b := k) (by omega) (by omega)
          linarith
        · omega
      · exact h
      · rcases t2 with t2 | t2
        · have := mono (a := k + 1) (b := j) (by omega) (by omega)
          linarith
        · omega

/-- A million bins for data from 1 to 2. -/
example : ((1000000 : ℤ) : ℝ) * (|(1 : ℝ)| + 8 * (2 - 1)) ≤ 2 ^ 50 * (2 - 1) := by norm_num

/-- **C161 is false for narrow data.** Data that are two neighbouring doubles `m * 2 ^ e` and `(m + 1) * 2 ^ e`, in 8 or more bins: the second
bin is empty as an interval, its edges are both the smaller number, and it has the count of the smaller numbers. -/
theorem histogram_neighbours_fails (old : Bool) {m e : ℤ} (hm : 2 ^ 52 < m) (hm' : m + 1 < 2 ^ 53) {data : List ℝ}
    (h1 : (m : ℝ) * 2 ^ e ∈ data) (h2 : ((m : ℝ) + 1) * 2 ^ e ∈ data) (hb : ∀ x ∈ data, x = m * 2 ^ e ∨ x = (m + 1) * 2 ^ e)
    {n : Int} (hn : 8 ≤ n) (hn' : n ≤ 2 ^ 49) :
    ∃ counts edges, rHistogram R old data n = .ok (counts, edges) ∧ edges.getD 1 0 = m * 2 ^ e ∧ edges.getD 2 0 = m * 2 ^ e ∧
      0 < counts.getD 1 0 ∧ ¬ ∃ x, edges.getD 1 0 ≤ x ∧ x < edges.getD 2 0 := by
  have hE := two_zpow_pos e
  have hlt : (m : ℝ) * 2 ^ e < (m + 1) * 2 ^ e := by linarith
  have hf : IsFloat ((m : ℝ) * 2 ^ e) := ⟨m, e, by rw [abs_of_pos (by omega)]; omega, rfl⟩
  have hr := rHistRange_of R h1 h2 (fun x hx => by rcases hb x hx with rfl | rfl <;> constructor <;> linarith) hlt
  have hm0 : 8 ≤ n.toNat := by omega
  have h8 : (8 : ℝ) ≤ (n.toNat : ℝ) := by exact_mod_cast hm0
  generalize hnn : n.toNat = k at *
  have hh : rHistogram R old data n = .ok ((List.range k).map fun j => data.countP fun x => decide (rBin R old (m * 2 ^ e, (m + 1) * 2 ^ e) k x = j),
      (List.range (k + 1)).map fun j => rEdge R (m * 2 ^ e, (m + 1) * 2 ^ e) k j) := by
    unfold rHistogram
    rw [if_neg (by omega), hr]
    simp only
    rw [if_neg hlt.ne, hnn]
  -- the width of a bin is at most 1/8 of the distance
  have h3 : (2 : ℝ) ^ e = 8 * 2 ^ (e - 3) := by
    rw [zpow_sub₀ (by norm_num)]; norm_num; ring
  have hq := two_zpow_pos (e - 3)
  have hstep0 : 0 ≤ R.rnd (R.rnd (((m : ℝ) + 1) * 2 ^ e - m * 2 ^ e) / k) := R.nonneg (div_nonneg (R.nonneg (by linarith)) (by linarith))
  have hstep : R.rnd (R.rnd (((m : ℝ) + 1) * 2 ^ e - m * 2 ^ e) / k) ≤ 2 ^ (e - 3) := by
    rw [show ((m : ℝ) + 1) * 2 ^ e - m * 2 ^ e = 2 ^ e by ring, R.fixed (isFloat_zpow e)]
    refine R.le_of_le (isFloat_zpow _) ?_
    rw [div_le_iff₀ (by linarith), h3, mul_comm]
    exact mul_le_mul_of_nonneg_left h8 hq.le
  have hedge : ∀ j : Nat, j ≤ 2 → rEdge R (m * 2 ^ e, (m + 1) * 2 ^ e) k j = m * 2 ^ e := by
    intro j hj
    unfold rEdge
    rw [if_neg (by omega)]
    simp only
    generalize R.rnd (R.rnd (((m : ℝ) + 1) * 2 ^ e - m * 2 ^ e) / k) = s at *
    have hj2 : (j : ℝ) ≤ 2 := by exact_mod_cast hj
    have hj0 : (0 : ℝ) ≤ j := Nat.cast_nonneg j
    have p0 : 0 ≤ R.rnd (j * s) := R.nonneg (mul_nonneg hj0 hstep0)
    have p1 : R.rnd (j * s) ≤ 2 ^ (e - 2) := by
      refine R.le_of_le (isFloat_zpow _) ((mul_le_mul hj2 hstep hstep0 (by norm_num)).trans ?_)
      rw [half_zpow (e - 2), show e - 2 - 1 = e - 3 by ring]
    refine R.absorb hm (by omega) ?_
    rw [add_sub_cancel_right, abs_of_nonneg p0]
    have p2 : (2 : ℝ) ^ (e - 1) = 2 * 2 ^ (e - 2) := by rw [half_zpow (e - 1), show e - 1 - 1 = e - 2 by ring]
    have := two_zpow_pos (e - 2)
    linarith
  have hbin : rBin R old (m * 2 ^ e, (m + 1) * 2 ^ e) k (m * 2 ^ e) = 1 := by
    have hg : rGuess R old (m * 2 ^ e, (m + 1) * 2 ^ e) k (m * 2 ^ e) = 0 := by
      unfold rGuess
      cases old <;> simp
    have hfirst : rFirst R old (m * 2 ^ e, (m + 1) * 2 ^ e) k (m * 2 ^ e) = 0 := by
      unfold rFirst
      rw [hg]
      simp only [Int.floor_zero, Int.toNat_zero]
      rw [if_neg (by omega)]
    unfold rBin
    rw [hfirst]
    simp only [hedge 0 (by omega), lt_irrefl, if_false, zero_add, hedge 1 (by omega), le_refl, true_and]
    rw [if_pos (by omega)]
  refine ⟨_, _, hh, ?_, ?_, ?_, ?_⟩
  · rw [getD_range_map _ (by omega)]; exact hedge 1 (by omega)
  · rw [getD_range_map _ (by omega)]; exact hedge 2 (by omega)
  · rw [getD_range_map _ (by omega), List.countP_pos_iff]
    exact ⟨_, h1, decide_eq_true hbin⟩
  · rw [getD_range_map _ (by omega), getD_range_map _ (by omega), hedge 1 (by omega), hedge 2 (by omega)]
    rintro ⟨x, hx1, hx2⟩
    linarith

/-- The doubles behind `1 + 2^-52`. -/
example : (2 : ℤ) ^ 52 < 2 ^ 52 + 1 ∧ (2 : ℤ) ^ 52 + 1 + 1 < 2 ^ 53 := by norm_num

/-- Sums of numbers that are each right relative to their share. -/
theorem sum_shares (l : List Nat) (f : Nat → ℝ) {s ε : ℝ} (h : ∀ c ∈ l, |f c - c * s| ≤ ε * (c * |s|)) :
    |(l.map f).sum - (l.sum : ℕ) * s| ≤ ε * ((l.sum : ℕ) * |s|) := by
  induction l with
  | nil => simp
  | cons c l ih =>
    have h1 := h c (by simp)
    have h2 := ih fun c hc => h c (by simp [hc])
    simp only [List.map_cons, List.sum_cons, Nat.cast_add]
    have h3 := abs_add_le (f c - c * s) ((l.map f).sum - (l.sum : ℕ) * s)
    rw [show f c + (l.map f).sum - ((c : ℝ) + (l.sum : ℕ)) * s = f c - c * s + ((l.map f).sum - (l.sum : ℕ) * s) by ring]
    have h4 : ε * (((c : ℝ) + (l.sum : ℕ)) * |s|) = ε * (c * |s|) + ε * ((l.sum : ℕ) * |s|) := by ring
    linarith

/-- **C161, current.** The current times the length of a bin sums to the charge to 2^-51, for all times whose distances from the average are
not all equal; the length is the spread of the distances over the number of bins up to rounding. -/
theorem current_rounded_partial (old : Bool) {times data : List ℝ} {lo hi : ℝ}
    (hdata : data = times.map fun t => R.rnd (t - R.rnd (npSum R times / times.length))) (h1 : lo ∈ data) (h2 : hi ∈ data)
    (hb : ∀ x ∈ data, lo ≤ x ∧ x ≤ hi) (hlt : lo < hi) (charge : ℝ) {n : Int} (hn : 1 ≤ n)
    (hc : n * (|lo| + 8 * (hi - lo)) ≤ 2 ^ 50 * (hi - lo)) :
    ∃ c current δ, rCurrentFromT R old times charge n = .ok (c, current) ∧ 0 < δ ∧ current.length = n.toNat ∧ c.length = n.toNat ∧
      |(current.map fun i => i * δ).sum - charge| ≤ 2 ^ (-51 : ℤ) * |charge| ∧
      |δ - (hi - lo) / n| ≤ 2 ^ (-52 : ℤ) * (|lo| + 8 * (hi - lo)) := by
  have hr := rHistRange_of R h1 h2 hb hlt
  have hD : 0 < hi - lo := by linarith
  have hf : ∀ x ∈ data, IsFloat x := by
    intro x hx
    rw [hdata, List.mem_map] at hx
    obtain ⟨t, -, rfl⟩ := hx
    exact R.isFloat _
  have hne : times ≠ [] := by
    rintro rfl
    rw [hdata] at h1
    simp at h1
  have hcast : ((n.toNat : ℕ) : ℝ) = (n : ℝ) := by
    have : ((n.toNat : ℤ) : ℝ) = (n : ℝ) := by rw [Int.toNat_of_nonneg (by omega)]
    exact_mod_cast this
  have hm0 : 0 < n.toNat := by omega
  rw [← hcast] at hc ⊢
  have hn' : (0 : ℝ) < (n.toNat : ℝ) := by exact_mod_cast hm0
  have hm : n.toNat ≤ 2 ^ 47 := by
    have h1 : (n.toNat : ℝ) * (8 * (hi - lo)) ≤ 2 ^ 50 * (hi - lo) :=
      (mul_le_mul_of_nonneg_left (by linarith [abs_nonneg lo]) hn'.le).trans hc
    have h2 : ((n.toNat : ℝ) * 8) * (hi - lo) ≤ 2 ^ 50 * (hi - lo) := by linarith
    have h3 := le_of_mul_le_mul_right h2 hD
    have h4 : (n.toNat : ℝ) ≤ 2 ^ 47 := by
      have e : (2 : ℝ) ^ 50 = 2 ^ 47 * 8 := by norm_num
      linarith
    exact_mod_cast h4
  have hh : rHistogram R old data n = .ok ((List.range n.toNat).map fun k => data.countP fun x => decide (rBin R old (lo, hi) n.toNat x = k),
      (List.range (n.toNat + 1)).map fun k => rEdge R (lo, hi) n.toNat k) := by
    unfold rHistogram
    rw [if_neg (by omega), hr]
    simp only
    rw [if_neg hlt.ne]
  -- the length of a bin
  have hw0 : 0 < (hi - lo) / n.toNat := div_pos hD hn'
  have hw1 : (hi - lo) / n.toNat ≤ hi - lo := div_le_self hD.le (by exact_mod_cast hm0)
  have he0 : rEdge R (lo, hi) n.toNat 0 = lo := edge_zero R (r := (lo, hi)) (hf lo h1) hm0
  have he1 := rEdge_near R (r := (lo, hi)) (n := n.toNat) (k := 1) hlt (by omega) hm0 (by omega)
  simp only [Nat.cast_one, one_mul] at he1
  have hδ : |R.rnd (rEdge R (lo, hi) n.toNat 1 - rEdge R (lo, hi) n.toNat 0) - (hi - lo) / n.toNat| ≤ 2 ^ (-52 : ℤ) * (|lo| + 8 * (hi - lo)) := by
    rw [he0]
    generalize rEdge R (lo, hi) n.toNat 1 = g at *
    generalize (hi - lo) / (n.toNat : ℝ) = w at *
    have a1 := R.error (g - lo)
    have a2 : |g - lo| ≤ w + 2 ^ (-53 : ℤ) * (|lo| + 8 * (hi - lo)) := by
      have := abs_add_le (g - (lo + w)) w
      rw [show g - (lo + w) + w = g - lo by ring, abs_of_pos (a := w) hw0] at this
      linarith
    have a3 := abs_add_le (R.rnd (g - lo) - (g - lo)) (g - (lo + w))
    rw [show R.rnd (g - lo) - (g - lo) + (g - (lo + w)) = R.rnd (g - lo) - w by ring] at a3
    have a4 := mul_le_mul_of_nonneg_right a2 (two_zpow_pos (-53)).le
    have e2 : (2 : ℝ) ^ (-52 : ℤ) = 2 * 2 ^ (-53 : ℤ) := by norm_num
    rw [e2]
    have a5 : (2 : ℝ) ^ (-53 : ℤ) ≤ 1 / 2 := by norm_num
    have a6 := two_zpow_pos (-53)
    generalize (2 : ℝ) ^ (-53 : ℤ) = u at *
    have a7 : w + u * (|lo| + 8 * (hi - lo)) ≤ |lo| + 8 * (hi - lo) := by
      have := mul_le_mul_of_nonneg_right a5 (by linarith [abs_nonneg lo] : (0 : ℝ) ≤ |lo| + 8 * (hi - lo))
      linarith [abs_nonneg lo]
    have a8 := mul_le_mul_of_nonneg_right a7 a6.le
    linarith
  have hpos : 0 < R.rnd (rEdge R (lo, hi) n.toNat 1 - rEdge R (lo, hi) n.toNat 0) := by
    have b1 : 2 ^ (-52 : ℤ) * (|lo| + 8 * (hi - lo)) ≤ (hi - lo) / n.toNat / 4 := by
      rw [div_div, le_div_iff₀ (by positivity)]
      have := mul_le_mul_of_nonneg_left hc (two_zpow_pos (-50)).le
      have e1 : (2 : ℝ) ^ (-50 : ℤ) * (2 ^ 50 * (hi - lo)) = hi - lo := by rw [← mul_assoc]; norm_num
      rw [e1] at this
      have e2 : (2 : ℝ) ^ (-52 : ℤ) = 2 ^ (-50 : ℤ) / 4 := by norm_num
      rw [e2]
      linarith
    have b2 := (abs_le.1 hδ).1
    linarith
  generalize hδδ : R.rnd (rEdge R (lo, hi) n.toNat 1 - rEdge R (lo, hi) n.toNat 0) = δ at *
  refine ⟨rCenters R ((List.range (n.toNat + 1)).map fun k => rEdge R (lo, hi) n.toNat k),
    ((List.range n.toNat).map fun k => data.countP fun x => decide (rBin R old (lo, hi) n.toNat x = k)).map
      fun (c : Nat) => R.rnd (R.rnd ((c : ℝ) * R.rnd (charge / times.length)) / δ), δ, ?_, hpos, ?_, ?_, ?_, hδ⟩
  · unfold rCurrentFromT
    rw [if_neg hne, show rCentred R times = data from hdata.symm, hh]
    simp only
    rw [getD_range_map _ (by omega), getD_range_map _ (by omega), hδδ, if_neg hpos.ne']
  · simp
  · rw [rCenters_length]; simp
  · have hsum := sum_counts (fun x => rBin R old (lo, hi) n.toNat x) n.toNat data
      fun x hx => rBin_lt R old (r := (lo, hi)) hlt hm0 (by omega) (hb x hx).1 (hb x hx).2
    have hlen : data.length = times.length := by rw [hdata, List.length_map]
    have hN : (0 : ℝ) < times.length := by exact_mod_cast List.length_pos_iff.2 hne
    generalize ((List.range n.toNat).map fun k => data.countP fun x => decide (rBin R old (lo, hi) n.toNat x = k)) = counts at *
    rw [List.map_map]
    have key := sum_shares counts (fun c => R.rnd (R.rnd ((c : ℝ) * R.rnd (charge / times.length)) / δ) * δ) (s := charge / times.length)
      (ε := 2 ^ (-51 : ℤ)) ?_
    · rw [hsum, hlen, mul_div_cancel₀ _ hN.ne', abs_div, abs_of_pos (a := (times.length : ℝ)) hN, mul_div_cancel₀ _ hN.ne'] at key
      exact key
    · intro c _
      have c1 := (((Near.refl (c : ℝ)).mul (near_round R (charge / times.length))).rnd R).mul (Near.refl (1 / δ))
      rw [show R.rnd ((c : ℝ) * R.rnd (charge / times.length)) * (1 / δ) = R.rnd ((c : ℝ) * R.rnd (charge / times.length)) / δ by ring] at c1
      have c2 := (c1.rnd R).mul (Near.refl δ)
      rw [show (c : ℝ) * (charge / times.length) * (1 / δ) * δ = c * (charge / times.length) by field_simp] at c2
      have c3 := c2.weaken (ε' := 2 ^ (-51 : ℤ)) (by norm_num)
      unfold Near at c3
      rw [abs_mul (c : ℝ), abs_of_nonneg (a := (c : ℝ)) (Nat.cast_nonneg c)] at c3
      exact c3

/-- Two particles at -1 and 1, and 256 bins. -/
example (charge : ℝ) : ∃ c current δ, rCurrentFromT R true [-1, 1] charge 256 = .ok (c, current) ∧ 0 < δ ∧
    |(current.map fun i => i * δ).sum - charge| ≤ 2 ^ (-51 : ℤ) * |charge| := by
  have hs : npSum R [-1, 1] = 0 := by
    rw [npSum, dif_pos (by simp), if_pos (by simp)]
    simp [addAll, R.fixed (isFloat_neg isFloat_one)]
  obtain ⟨c, i, δ, h1, h2, -, -, h3, -⟩ := current_rounded_partial R true (times := [-1, 1]) (data := [-1, 1]) (lo := -1) (hi := 1) (n := 256)
    (by simp [hs, R.fixed (isFloat_neg isFloat_one)]) (by simp) (by simp) (by simp) (by norm_num) charge (by norm_num) (by norm_num)
  exact ⟨c, i, δ, h1, h2, h3⟩

end Verif.Plot
