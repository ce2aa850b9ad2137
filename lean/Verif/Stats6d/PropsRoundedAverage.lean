import Verif.Stats6d.RoundedAverage
import Verif.Sample.PropsRounded
import Verif.Phases.Rounded
import Verif.Nonlinear.PropsRounded
import Mathlib.Tactic.Linarith
import Mathlib.Tactic.Ring
import Mathlib.Tactic.Positivity
import Mathlib.Tactic.FieldSimp
import Mathlib.Tactic.NormNum

/-!
# C159: averages in double precision
-/

namespace Verif.Stats6d

open Verif.Py Verif.Sample

variable (R : Rounding)

/-- `v` is the sum `S` of numbers whose absolute values have the sum `A`, after at most `k` roundings of each of them. -/
def SumsTo (k : Nat) (v S A : ℝ) : Prop := |S| ≤ A ∧ |v - S| ≤ ((1 + 2 ^ (-53 : ℤ)) ^ k - 1) * A

theorem one_le_growth (k : Nat) : (1 : ℝ) ≤ (1 + 2 ^ (-53 : ℤ)) ^ k :=
  one_le_pow₀ (by linarith [two_zpow_pos (-53)])

theorem SumsTo.leaf (x : ℝ) (k : Nat) : SumsTo k x x |x| :=
  ⟨le_refl _, by rw [sub_self, abs_zero]; exact mul_nonneg (by linarith [one_le_growth k]) (abs_nonneg x)⟩

theorem SumsTo.zero (k : Nat) : SumsTo k 0 0 0 := by
  have := SumsTo.leaf 0 k
  rwa [abs_zero] at this

theorem SumsTo.mono {k l : Nat} {v S A : ℝ} (h : SumsTo k v S A) (hkl : k ≤ l) : SumsTo l v S A := by
  refine ⟨h.1, h.2.trans (mul_le_mul_of_nonneg_right ?_ ((abs_nonneg S).trans h.1))⟩
  have := pow_le_pow_right₀ (a := (1 + 2 ^ (-53 : ℤ) : ℝ)) (by linarith [two_zpow_pos (-53)]) hkl
  linarith

/-- One more rounding. -/
theorem SumsTo.rnd {k : Nat} {v S A : ℝ} (h : SumsTo k v S A) : SumsTo (k + 1) (R.rnd v) S A := by
  obtain ⟨h1, h2⟩ := h
  refine ⟨h1, ?_⟩
  have hu := two_zpow_pos (-53)
  have h3 := R.error v
  have h4 : |v| ≤ (1 + 2 ^ (-53 : ℤ)) ^ k * A := by
    have := abs_add_le S (v - S)
    rw [add_sub_cancel] at this
    have h5 : ((1 + 2 ^ (-53 : ℤ)) ^ k - 1) * A = (1 + 2 ^ (-53 : ℤ) : ℝ) ^ k * A - A := by ring
    linarith
  have h6 := mul_le_mul_of_nonneg_right h4 hu.le
  have h7 := abs_add_le (R.rnd v - v) (v - S)
  rw [sub_add_sub_cancel] at h7
  rw [pow_succ]
  generalize (2 : ℝ) ^ (-53 : ℤ) = u at *
  generalize (1 + u) ^ k = g at *
  have h8 : (g * (1 + u) - 1) * A = (g - 1) * A + g * A * u := by ring
  linarith

theorem SumsTo.add {k : Nat} {v S A w T B : ℝ} (h : SumsTo k v S A) (h' : SumsTo k w T B) :
    SumsTo (k + 1) (R.rnd (v + w)) (S + T) (A + B) := by
  refine SumsTo.rnd R ⟨(abs_add_le S T).trans (add_le_add h.1 h'.1), ?_⟩
  have := abs_add_le (v - S) (w - T)
  rw [show v + w - (S + T) = v - S + (w - T) by ring, mul_add]
  linarith [h.2, h'.2]

/-- Numbers added one after the other. -/
theorem addAll_sums {k : Nat} {v S A : ℝ} (h : SumsTo k v S A) (l : List ℝ) :
    SumsTo (k + l.length) (addAll R v l) (S + l.sum) (A + (l.map abs).sum) := by
  induction l generalizing k v S A with
  | nil => simpa [addAll] using h
  | cons x l ih =>
    have := ih (h.add R (SumsTo.leaf x k))
    rw [List.length_cons, List.sum_cons, List.map_cons, List.sum_cons,
      show k + (l.length + 1) = k + 1 + l.length by omega, ← add_assoc S, ← add_assoc A]
    exact this

/-- The eight sums: what they stand for together with what is left are all numbers. -/
theorem lanes_sums {k : Nat} {r S A : Fin 8 → ℝ} (h : ∀ i, SumsTo k (r i) (S i) (A i)) (l : List ℝ) :
    ∃ S' A' : Fin 8 → ℝ, (∀ i, SumsTo (k + l.length / 8) ((lanes R r l).1 i) (S' i) (A' i)) ∧ (lanes R r l).2.length < 8 ∧
      (∑ i, S' i) + (lanes R r l).2.sum = (∑ i, S i) + l.sum ∧
      (∑ i, A' i) + ((lanes R r l).2.map abs).sum = (∑ i, A i) + (l.map abs).sum := by
  induction hn : l.length using Nat.strong_induction_on generalizing k r S A l with
  | _ n ih =>
    unfold lanes
    split
    · next a0 a1 a2 a3 a4 a5 a6 a7 rest =>
      simp only [List.length_cons] at hn
      have hb : ∀ i, SumsTo (k + 1) (R.rnd (r i + ![a0, a1, a2, a3, a4, a5, a6, a7] i)) (S i + ![a0, a1, a2, a3, a4, a5, a6, a7] i)
          (A i + |![a0, a1, a2, a3, a4, a5, a6, a7] i|) := fun i => (h i).add R (SumsTo.leaf _ k)
      obtain ⟨S', A', h1, h2, h3, h4⟩ := ih rest.length (by omega) hb rest rfl
      refine ⟨S', A', fun i => ?_, h2, ?_, ?_⟩
      · rw [show k + n / 8 = k + 1 + rest.length / 8 by omega]; exact h1 i
      · rw [h3]; simp [Fin.sum_univ_eight]; ring
      · rw [h4]; simp [Fin.sum_univ_eight]; ring
    · next hl =>
      refine ⟨S, A, fun i => (h i).mono (by omega), ?_, rfl, rfl⟩
      by_contra hc
      rw [not_lt] at hc
      match l, hl, hc with
      | a0 :: a1 :: a2 :: a3 :: a4 :: a5 :: a6 :: a7 :: rest, hl, _ => exact hl _ _ _ _ _ _ _ _ _ rfl

/-- Up to 128 numbers are rounded at most 25 times each. -/
theorem blockSum_sums {l : List ℝ} (h : l.length ≤ 128) : SumsTo 25 (blockSum R l) l.sum (l.map abs).sum := by
  unfold blockSum
  split
  · next a0 a1 a2 a3 a4 a5 a6 a7 rest =>
    simp only [List.length_cons] at h
    obtain ⟨S, A, h1, h2, h3, h4⟩ := lanes_sums R (fun i => SumsTo.leaf (![a0, a1, a2, a3, a4, a5, a6, a7] i) 0) rest
    have h5 := (((h1 0).add R (h1 1)).add R ((h1 2).add R (h1 3))).add R (((h1 4).add R (h1 5)).add R ((h1 6).add R (h1 7)))
    have h6 := addAll_sums R h5 (lanes R ![a0, a1, a2, a3, a4, a5, a6, a7] rest).2
    have e1 : (S 0 + S 1 + (S 2 + S 3) + (S 4 + S 5 + (S 6 + S 7))) + (lanes R ![a0, a1, a2, a3, a4, a5, a6, a7] rest).2.sum =
        (a0 :: a1 :: a2 :: a3 :: a4 :: a5 :: a6 :: a7 :: rest).sum := by
      simp [Fin.sum_univ_eight] at h3
      simp only [List.sum_cons]
      linarith
    have e2 : (A 0 + A 1 + (A 2 + A 3) + (A 4 + A 5 + (A 6 + A 7))) + ((lanes R ![a0, a1, a2, a3, a4, a5, a6, a7] rest).2.map abs).sum =
        ((a0 :: a1 :: a2 :: a3 :: a4 :: a5 :: a6 :: a7 :: rest).map abs).sum := by
      simp [Fin.sum_univ_eight] at h4
      simp only [List.map_cons, List.sum_cons]
      linarith
    rw [e1, e2] at h6
    exact h6.mono (by omega)
  · next hl =>
    have : l.length < 8 := by
      by_contra hc
      rw [not_lt] at hc
      match l, hl, hc with
      | a0 :: a1 :: a2 :: a3 :: a4 :: a5 :: a6 :: a7 :: rest, hl, _ => exact hl _ _ _ _ _ _ _ _ _ rfl
    have h6 := addAll_sums R (SumsTo.zero 0) l
    rw [zero_add, zero_add, zero_add] at h6
    exact h6.mono (by omega)

/-- `np.sum`: the number of roundings grows with the logarithm of the number of values. -/
theorem npSum_sums {k : Nat} {l : List ℝ} (h : l.length ≤ 16 + 112 * 2 ^ k) : SumsTo (25 + k) (npSum R l) l.sum (l.map abs).sum := by
  induction k generalizing l with
  | zero =>
    rw [npSum, dif_pos (by omega)]
    by_cases h8 : l.length < 8
    · rw [if_pos h8]
      have h6 := addAll_sums R (SumsTo.zero 0) l
      rw [zero_add, zero_add, zero_add] at h6
      exact h6.mono (by omega)
    · rw [if_neg h8]
      exact blockSum_sums R (by omega)
  | succ k ih =>
    by_cases hs : l.length ≤ 16 + 112 * 2 ^ k
    · exact (ih hs).mono (by omega)
    have h128 : ¬ l.length ≤ 128 := by
      have := Nat.one_le_two_pow (n := k)
      omega
    rw [npSum, dif_neg h128]
    have hp : 2 ^ (k + 1) = 2 * 2 ^ k := by ring
    have h1 : (l.take (splitAt l.length)).length ≤ 16 + 112 * 2 ^ k := by
      simp only [List.length_take, splitAt]; omega
    have h2 : (l.drop (splitAt l.length)).length ≤ 16 + 112 * 2 ^ k := by
      simp only [List.length_drop, splitAt]; omega
    have h3 := (ih h1).add R (ih h2)
    rw [← List.sum_append, ← List.sum_append, ← List.map_append, List.take_append_drop] at h3
    exact h3

/-- **C159, accuracy.** The average of up to `16 + 112 * 2 ^ k` particles is the mean up to `26 + k` rounding errors of the mean absolute
value, for all values of the coordinates and every way to round to nearest. The error does not grow with the number of particles but with
its logarithm. -/
theorem avg_accuracy_partial {a : Arr} (hne : a ≠ []) {k : Nat} (hk : a.length ≤ 16 + 112 * 2 ^ k) (i : Fin 6) :
    |rCalcAvg R a i - (a.map (· i)).sum / a.length| ≤
      ((1 + 2 ^ (-53 : ℤ)) ^ (26 + k) - 1) * ((a.map fun p => |p i|).sum / a.length) := by
  have h := npSum_sums R (k := k) (l := a.map (· i)) (by rwa [List.length_map])
  have hn : (0 : ℝ) < a.length := by exact_mod_cast List.length_pos_iff.2 hne
  have h2 : SumsTo (25 + k) (npSum R (a.map (· i)) / a.length) ((a.map (· i)).sum / a.length) (((a.map (· i)).map abs).sum / a.length) := by
    refine ⟨?_, ?_⟩
    · rw [abs_div, abs_of_pos (a := (a.length : ℝ)) hn]
      exact div_le_div_of_nonneg_right h.1 hn.le
    · rw [← sub_div, abs_div, abs_of_pos (a := (a.length : ℝ)) hn, ← mul_div_assoc]
      exact div_le_div_of_nonneg_right h.2 hn.le
  have h3 := (h2.rnd R).2
  rw [List.map_map] at h3
  rw [show 26 + k = 25 + k + 1 by omega]
  exact h3

/-- A thousand particles need `k = 4`. -/
example : (List.replicate 1000 (fun i : Fin 6 => (i : ℝ) + 1)).length ≤ 16 + 112 * 2 ^ 4 := by
  rw [List.length_replicate]; norm_num

/-- **C159, small bunches.** The average of two particles lies between them, and the average of one particle is the particle. -/
theorem avg_two_partial {p q : Vec} {i : Fin 6} (hp : IsFloat (p i)) (hq : IsFloat (q i)) :
    rCalcAvg R [p] i = p i ∧ min (p i) (q i) ≤ rCalcAvg R [p, q] i ∧ rCalcAvg R [p, q] i ≤ max (p i) (q i) := by
  have h1 : npSum R [p i] = p i := by
    rw [npSum, dif_pos (by simp), if_pos (by simp)]
    simp [addAll, R.fixed hp]
  have h2 : npSum R [p i, q i] = R.rnd (p i + q i) := by
    rw [npSum, dif_pos (by simp), if_pos (by simp)]
    simp [addAll, R.fixed hp]
  have hmin : IsFloat (min (p i) (q i)) := by rcases min_choice (p i) (q i) with h | h <;> rw [h] <;> assumption
  have hmax : IsFloat (max (p i) (q i)) := by rcases max_choice (p i) (q i) with h | h <;> rw [h] <;> assumption
  refine ⟨?_, ?_, ?_⟩
  · simp only [rCalcAvg, List.map_cons, List.map_nil, h1, List.length_singleton, Nat.cast_one, div_one]
    exact R.fixed hp
  · simp only [rCalcAvg, List.map_cons, List.map_nil, h2, List.length_cons, List.length_nil]
    refine R.ge_of_ge hmin ?_
    have := R.ge_of_ge (x := p i + q i) (Verif.Phases.isFloat_two_mul hmin) (by linarith [min_le_left (p i) (q i), min_le_right (p i) (q i)])
    rw [show ((0 + 1 + 1 : ℕ) : ℝ) = 2 by norm_num]
    linarith
  · simp only [rCalcAvg, List.map_cons, List.map_nil, h2, List.length_cons, List.length_nil]
    refine R.le_of_le hmax ?_
    have := R.le_of_le (x := p i + q i) (Verif.Phases.isFloat_two_mul hmax) (by linarith [le_max_left (p i) (q i), le_max_right (p i) (q i)])
    rw [show ((0 + 1 + 1 : ℕ) : ℝ) = 2 by norm_num]
    linarith

example : IsFloat 3 ∧ IsFloat 5 := ⟨by exact_mod_cast isFloat_int (n := 3) (by norm_num), by exact_mod_cast isFloat_int (n := 5) (by norm_num)⟩

/-- **C159 is false.** Three particles with the same coordinate `m * 2 ^ e`, with 53 bits of which the last two are `10` and above 4/3 of the
smallest mantissa: the average is another number, so it is below the smallest or above the largest coordinate, and `sub_avg6d` leaves all
three particles on the same side of zero. This is so for every way to round to nearest. -/
theorem avg_three_fails {m e : ℤ} (hm : m % 4 = 2) (hlo : 2 ^ 54 ≤ 3 * m) (hhi : m < 2 ^ 53) {p q r : Vec} {i : Fin 6}
    (hp : p i = m * 2 ^ e) (hq : q i = m * 2 ^ e) (hr : r i = m * 2 ^ e) :
    rCalcAvg R [p, q, r] i ≠ m * 2 ^ e ∧ ∃ d ≠ 0, (rSubAvg R [p, q, r]).map (· i) = [d, d, d] := by
  have hE := two_zpow_pos e
  have hf : IsFloat ((m : ℝ) * 2 ^ e) := ⟨m, e, by rw [abs_of_pos (by omega)]; omega, rfl⟩
  have hs : npSum R [p i, q i, r i] = R.rnd (3 * m * 2 ^ e) := by
    rw [npSum, dif_pos (by simp), if_pos (by simp)]
    simp only [addAll, List.foldl_cons, List.foldl_nil, zero_add, hp, hq, hr, R.fixed hf]
    have h2 : (m : ℝ) * 2 ^ e + m * 2 ^ e = 2 * (m * 2 ^ e) := by ring
    rw [h2, R.fixed (Verif.Phases.isFloat_two_mul hf)]
    congr 1; ring
  obtain ⟨c, hc⟩ : ∃ c, 3 * m = 4 * c + 2 := ⟨3 * m / 4, by omega⟩
  have hcr : (3 : ℝ) * m = 4 * c + 2 := by exact_mod_cast hc
  -- the sum is a tie between two numbers
  have h4 : (2 : ℝ) ^ (e + 2) = 4 * 2 ^ e := by rw [zpow_add₀ (by norm_num)]; norm_num; ring
  have hne4 : R.rnd (3 * m * 2 ^ e) ≤ 4 * c * 2 ^ e ∨ 4 * (c + 1) * 2 ^ e ≤ R.rnd (3 * m * 2 ^ e) := by
    rcases le_or_gt (R.rnd (3 * m * 2 ^ e)) (4 * c * 2 ^ e) with h | h
    · exact .inl h
    · right
      have := (R.isFloat (3 * m * 2 ^ e)).gap_above (m := c) (e := e + 2) (by omega) (by rw [h4]; linarith)
      rw [h4] at this
      linarith
  have hav : rCalcAvg R [p, q, r] i ≠ m * 2 ^ e := by
    simp only [rCalcAvg, List.map_cons, List.map_nil, hs, List.length_cons, List.length_nil]
    norm_num
    rcases hne4 with h | h
    · have hf' : IsFloat (((m - 1 : ℤ) : ℝ) * 2 ^ e) := ⟨m - 1, e, by rw [abs_of_pos (by omega)]; omega, rfl⟩
      have h1 := R.nearest (R.rnd (3 * m * 2 ^ e) / 3) _ hf'
      have h2 : R.rnd (3 * m * 2 ^ e) / 3 ≤ (m - 2 / 3) * 2 ^ e := by
        have : 4 * c * 2 ^ e / 3 = ((m : ℝ) - 2 / 3) * 2 ^ e := by rw [show (4 : ℝ) * c = 3 * m - 2 by linarith]; ring
        linarith
      intro hc
      rw [hc] at h1
      push_cast at h1
      have h3 : 0 < (m : ℝ) * 2 ^ e - R.rnd (3 * m * 2 ^ e) / 3 := by linarith
      rw [abs_of_pos h3] at h1
      rcases abs_cases (((m : ℝ) - 1) * 2 ^ e - R.rnd (3 * m * 2 ^ e) / 3) with ⟨ha, hb⟩ | ⟨ha, hb⟩ <;> rw [ha] at h1 <;> linarith
    · have hf' : IsFloat (((m + 1 : ℤ) : ℝ) * 2 ^ e) := ⟨m + 1, e, by rw [abs_of_pos (by omega)]; omega, rfl⟩
      have h1 := R.nearest (R.rnd (3 * m * 2 ^ e) / 3) _ hf'
      have h2 : (m + 2 / 3) * 2 ^ e ≤ R.rnd (3 * m * 2 ^ e) / 3 := by
        have : 4 * (c + 1) * 2 ^ e / 3 = ((m : ℝ) + 2 / 3) * 2 ^ e := by rw [show (4 : ℝ) * (c + 1) = 3 * m + 2 by linarith]; ring
        linarith
      intro hc
      rw [hc] at h1
      push_cast at h1
      have h3 : (m : ℝ) * 2 ^ e - R.rnd (3 * m * 2 ^ e) / 3 < 0 := by linarith
      rw [abs_of_neg h3] at h1
      rcases abs_cases (((m : ℝ) + 1) * 2 ^ e - R.rnd (3 * m * 2 ^ e) / 3) with ⟨ha, hb⟩ | ⟨ha, hb⟩ <;> rw [ha] at h1 <;> linarith
  refine ⟨hav, R.rnd (m * 2 ^ e - rCalcAvg R [p, q, r] i), ?_, ?_⟩
  · intro h0
    exact hav (sub_eq_zero.1 (R.eq_zero h0)).symm
  · simp [rSubAvg, hp, hq, hr]

/-- The double nearest to 0.1 is such a number: `7205759403792794 * 2 ^ -56`. -/
example : (7205759403792794 : ℤ) % 4 = 2 ∧ (2 : ℤ) ^ 54 ≤ 3 * 7205759403792794 ∧ (7205759403792794 : ℤ) < 2 ^ 53 := by norm_num

end Verif.Stats6d
