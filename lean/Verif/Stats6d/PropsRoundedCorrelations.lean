import Verif.Stats6d.RoundedCorrelations
import Verif.Stats6d.PropsRoundedAccuracy
import Verif.Ptcls.PropsRoundedMap

/-!
# C162: correlations in double precision
-/

namespace Verif.Stats6d

open Verif.Py Verif.Sample Verif.Ptcls

variable (R : Rounding)

/-- Few roundings: twice the first order is enough. -/
theorem growth_le {k : Nat} (h : k ≤ 2 ^ 52) : (1 + 2 ^ (-53 : ℤ) : ℝ) ^ k ≤ 1 + 2 * k * 2 ^ (-53 : ℤ) := by
  induction k with
  | zero => simp
  | succ k ih =>
    have h1 := ih (by omega)
    have h2 : 2 * (k : ℝ) * 2 ^ (-53 : ℤ) ≤ 1 := by
      have : (k : ℝ) ≤ 2 ^ 52 := by exact_mod_cast (by omega : k ≤ 2 ^ 52)
      have := mul_le_mul_of_nonneg_right this (two_zpow_pos (-53)).le
      have e : (2 : ℝ) ^ 52 * 2 ^ (-53 : ℤ) = 1 / 2 := by norm_num
      rw [e] at this
      rw [mul_assoc]
      exact (mul_le_mul_of_nonneg_left this (by norm_num)).trans (by norm_num)
    have hu := two_zpow_pos (-53)
    rw [pow_succ]
    push_cast
    generalize (2 : ℝ) ^ (-53 : ℤ) = u at *
    have h3 := mul_le_mul_of_nonneg_right h1 (by linarith : (0 : ℝ) ≤ 1 + u)
    have h4 := mul_le_mul_of_nonneg_right h2 hu.le
    linarith

/-- Larger sums of absolute values. -/
theorem SumsTo.wider {k : Nat} {v S A B : ℝ} (h : SumsTo k v S A) (hAB : A ≤ B) : SumsTo k v S B :=
  ⟨h.1.trans hAB, h.2.trans (mul_le_mul_of_nonneg_left hAB (by linarith [one_le_growth k]))⟩

/-- Numbers that are sums themselves, added one after the other. -/
theorem addAll_terms {α : Type} (f g : α → ℝ) {B : ℝ} {k : Nat} (l : List α) (hf : ∀ p ∈ l, SumsTo k (f p) (g p) B) {m : Nat} (hkm : k ≤ m)
    {v S A : ℝ} (h : SumsTo m v S A) : SumsTo (m + l.length) (addAll R v (l.map f)) (S + (l.map g).sum) (A + l.length * B) := by
  induction l generalizing m v S A with
  | nil => simpa [addAll] using h
  | cons p l ih =>
    have h1 := h.add R ((hf p (by simp)).mono hkm)
    have h2 := ih (fun q hq => hf q (by simp [hq])) (by omega : k ≤ m + 1) h1
    rw [List.map_cons, List.map_cons, List.length_cons, List.sum_cons, show m + (l.length + 1) = m + 1 + l.length by omega, ← add_assoc S]
    push_cast
    rw [show A + ((l.length : ℝ) + 1) * B = A + B + l.length * B by ring]
    exact h2

/-- **C162, symmetry.** The matrix is symmetric to the last bit, for all arrays. -/
theorem correlations_rounded_symm {a a' : Arr} {c : Fin 6 → Fin 6 → ℝ} (h : rCalcCorrelations R a = .ok (c, a')) (i j : Fin 6) : c i j = c j i := by
  unfold rCalcCorrelations at h
  cases hv : rCalcVariance R a with
  | error e => rw [hv] at h; cases h
  | ok r =>
    rw [hv] at h
    simp only [Except.map, Except.ok.injEq, Prod.mk.injEq] at h
    obtain ⟨rfl, rfl⟩ := h
    by_cases hij : i = j
    · rw [hij]
    · simp only [if_neg hij, if_neg (Ne.symm hij)]
      congr 4
      funext p
      rw [mul_comm]

/-- **C162, accuracy.** The diagonal has the results of `calc_variance6d`; the other entries are the sum of the products of the distances from the
mean over all particles but the first, divided by the number of particles, with an error of at most `(n + 160) * 2 ^ -50` times the largest
values. Missing: the share of the first particle, which `calc_variance6d` has overwritten. -/
theorem correlations_accuracy_partial {a : Arr} (ha : a ≠ []) (hlen : a.length ≤ 2 ^ 47) (hf : ∀ p ∈ a, ∀ i, IsFloat (p i)) :
    ∃ c v avg, rCalcCorrelations R a = .ok (c, avg :: a.tail) ∧ rCalcVariance R a = .ok (v, avg :: a.tail) ∧ (∀ i, c i i = v i) ∧
      ∀ i j, i ≠ j → ∀ Mi Mj, (∀ p ∈ a, |p i| ≤ Mi) → (∀ p ∈ a, |p j| ≤ Mj) →
        |c i j - (a.tail.map fun p => (p i - mean a i) * (p j - mean a j)).sum / a.length| ≤ (a.length + 160) * 2 ^ (-50 : ℤ) * (Mi * Mj) := by
  obtain ⟨v, avg, h1, h2⟩ := variance_accuracy_partial R ha hlen hf
  obtain ⟨-, avg', h3, h4⟩ := rounded_variance R hf h1
  have h5 : avg' = avg := by
    have := congrArg List.head? h3
    simpa using this.symm
  subst h5
  have hn : (0 : ℝ) < a.length := by exact_mod_cast List.length_pos_iff.2 ha
  refine ⟨_, v, avg', by unfold rCalcCorrelations; rw [h1]; rfl, h1, fun i => by simp, ?_⟩
  intro i j hij Mi Mj hi hj
  simp only [if_neg hij]
  -- means and distances
  have hmean : ∀ (i : Fin 6) (M : ℝ), (∀ p ∈ a, |p i| ≤ M) → SumsTo 73 (rCalcAvg R a i) (mean a i) M := by
    intro i M hM
    have s := npSum_sums R (k := 47) (l := a.map (· i)) (by rw [List.length_map]; omega)
    have hA : ((a.map (· i)).map abs).sum ≤ a.length * M := by
      have := List.sum_le_card_nsmul ((a.map (· i)).map abs) M (by
        intro x hx
        simp only [List.mem_map] at hx
        obtain ⟨y, ⟨p, hp, rfl⟩, rfl⟩ := hx
        exact hM p hp)
      simpa [nsmul_eq_mul] using this
    have s2 : SumsTo (25 + 47) (npSum R (a.map (· i)) / a.length) (mean a i) M := by
      have s3 := sumsTo_mul (s.wider hA) (SumsTo.leaf (1 / (a.length : ℝ)) 0)
      rw [abs_of_pos (by positivity), show a.length * M * (1 / (a.length : ℝ)) = M by field_simp] at s3
      rw [mul_one_div, mul_one_div] at s3
      exact s3
    exact s2.rnd R
  have hdist : ∀ (i : Fin 6) (M : ℝ), (∀ p ∈ a, |p i| ≤ M) → ∀ p : Vec, |p i| ≤ M →
      SumsTo 74 (R.rnd (p i - rCalcAvg R a i)) (p i - mean a i) (2 * M) := by
    intro i M hM p hp
    have s := (((SumsTo.leaf (p i) 73).wider hp).add R (sumsTo_neg (hmean i M hM)))
    rw [← sub_eq_add_neg, ← sub_eq_add_neg, ← two_mul] at s
    exact s
  have hMi : 0 ≤ Mi := by obtain ⟨p, hp⟩ := List.exists_mem_of_ne_nil a ha; exact (abs_nonneg _).trans (hi p hp)
  have hMj : 0 ≤ Mj := by obtain ⟨p, hp⟩ := List.exists_mem_of_ne_nil a ha; exact (abs_nonneg _).trans (hj p hp)
  have havg : ∀ (i : Fin 6) (M : ℝ), (∀ p ∈ a, |p i| ≤ M) → |avg' i| ≤ M := by
    intro i M hM
    obtain ⟨w1, w2⟩ := h4 i (-M) M fun p hp => abs_le.1 (hM p hp)
    exact abs_le.2 ⟨w1, w2⟩
  have hterm : ∀ p ∈ avg' :: a.tail, SumsTo 149 (R.rnd (R.rnd (p i - rCalcAvg R a i) * R.rnd (p j - rCalcAvg R a j)))
      ((p i - mean a i) * (p j - mean a j)) (2 * Mi * (2 * Mj)) := by
    intro p hp
    have hpi : |p i| ≤ Mi := by
      rcases List.mem_cons.1 hp with rfl | hp
      · exact havg i Mi hi
      · exact hi p (List.mem_of_mem_tail hp)
    have hpj : |p j| ≤ Mj := by
      rcases List.mem_cons.1 hp with rfl | hp
      · exact havg j Mj hj
      · exact hj p (List.mem_of_mem_tail hp)
    exact (sumsTo_mul (hdist i Mi hi p hpi) (hdist j Mj hj p hpj)).rnd R
  have hlen' : (avg' :: a.tail).length = a.length := by
    rw [List.length_cons, List.length_tail]
    have := List.length_pos_iff.2 ha
    omega
  have hs := addAll_terms R _ _ (avg' :: a.tail) hterm (le_refl 149) (SumsTo.zero 149)
  rw [hlen', zero_add, zero_add] at hs
  have hs2 := (sumsTo_mul hs (SumsTo.leaf (1 / (a.length : ℝ)) 0)).rnd R
  rw [abs_of_pos (a := 1 / (a.length : ℝ)) (by positivity), show a.length * (2 * Mi * (2 * Mj)) * (1 / (a.length : ℝ)) = 4 * (Mi * Mj) by field_simp; ring,
    mul_one_div, mul_one_div] at hs2
  have e1 := hs2.2
  have e2 := growth_le (k := 149 + a.length + 0 + 1) (by omega)
  -- the share of the overwritten particle
  have e3 : ((avg' :: a.tail).map fun p => (p i - mean a i) * (p j - mean a j)).sum / a.length =
      (a.tail.map fun p => (p i - mean a i) * (p j - mean a j)).sum / a.length + (avg' i - mean a i) * (avg' j - mean a j) / a.length := by
    rw [List.map_cons, List.sum_cons]; ring
  have e4 : |(avg' i - mean a i) * (avg' j - mean a j) / a.length| ≤ 2 ^ (-50 : ℤ) * (Mi * Mj) := by
    rw [abs_div, abs_mul, abs_of_pos (a := (a.length : ℝ)) hn, div_le_iff₀ hn]
    have f1 := (h2 i Mi hi).2
    have f2 := (h2 j Mj hj).2
    have f3 := mul_le_mul f1 f2 (abs_nonneg _) ((abs_nonneg _).trans f1)
    have hn47 : (a.length : ℝ) * 2 ^ (-50 : ℤ) ≤ 1 := by
      have : (a.length : ℝ) ≤ 2 ^ 47 := by exact_mod_cast hlen
      have := mul_le_mul_of_nonneg_right this (two_zpow_pos (-50)).le
      have e : (2 : ℝ) ^ 47 * 2 ^ (-50 : ℤ) = 1 / 8 := by norm_num
      rw [e] at this
      exact this.trans (by norm_num)
    have f4 := mul_le_mul_of_nonneg_right hn47 (mul_nonneg (mul_nonneg hMi hMj) (mul_nonneg hn.le (two_zpow_pos (-50)).le))
    have f5 : (a.length : ℝ) * 2 ^ (-50 : ℤ) * Mi * (a.length * 2 ^ (-50 : ℤ) * Mj) = a.length * 2 ^ (-50 : ℤ) * (Mi * Mj * (a.length * 2 ^ (-50 : ℤ))) := by ring
    rw [f5] at f3
    linarith
  rw [e3] at e1
  have hMM := mul_nonneg hMi hMj
  have e5 := mul_le_mul_of_nonneg_right (sub_le_sub_right e2 1) (by linarith : (0 : ℝ) ≤ 4 * (Mi * Mj))
  have e6 : (2 : ℝ) ^ (-50 : ℤ) = 8 * 2 ^ (-53 : ℤ) := by norm_num
  rw [e6] at e4 ⊢
  push_cast at e5
  have hu := two_zpow_pos (-53)
  generalize (2 : ℝ) ^ (-53 : ℤ) = u at *
  generalize (a.tail.map fun p => (p i - mean a i) * (p j - mean a j)).sum / a.length = S at *
  generalize (avg' i - mean a i) * (avg' j - mean a j) / a.length = T at *
  generalize R.rnd _ = v at *
  have e7 := abs_add_le (v - (S + T)) T
  rw [show v - (S + T) + T = v - S by ring] at e7
  have e8 := mul_nonneg hu.le hMM
  have e9 : (1 + 2 * (149 + (a.length : ℝ) + 0 + 1) * u - 1) * (4 * (Mi * Mj)) = 8 * (150 + a.length) * (u * (Mi * Mj)) := by ring
  have e10 : ((a.length : ℝ) + 160) * (8 * u) * (Mi * Mj) = 8 * (150 + a.length) * (u * (Mi * Mj)) + 80 * (u * (Mi * Mj)) := by ring
  have e11 : 8 * u * (Mi * Mj) = 8 * (u * (Mi * Mj)) := by ring
  rw [e10]
  linarith

/-- Three particles. -/
example : ∃ c v avg, rCalcCorrelations R [fun _ => 1, fun _ => 2, fun _ => 4] = .ok (c, avg :: [fun _ => 2, fun _ => 4]) ∧
    rCalcVariance R [fun _ => 1, fun _ => 2, fun _ => 4] = .ok (v, avg :: [fun _ => 2, fun _ => 4]) ∧ c 0 0 = v 0 := by
  have hf2 : IsFloat 2 := by exact_mod_cast isFloat_int (n := 2) (by norm_num)
  have hf4 : IsFloat 4 := by exact_mod_cast isFloat_int (n := 4) (by norm_num)
  obtain ⟨c, v, avg, h1, h2, h3, -⟩ := correlations_accuracy_partial R (a := [fun _ => 1, fun _ => 2, fun _ => 4]) (by simp) (by simp)
    (by simp [isFloat_one, hf2, hf4])
  exact ⟨c, v, avg, h1, h2, h3 0⟩

/-- **C162 is false.** For two particles on opposite sides of zero the covariance is the product of the coordinates of one of them; the result is
half of that, rounded. -/
theorem correlations_pair_fails {p q : Vec} {i j : Fin 6} (hij : i ≠ j) (hi : IsFloat (q i)) (hj : IsFloat (q j)) (hpi : p i = -q i) (hpj : p j = -q j) :
    ∃ c a', rCalcCorrelations R [p, q] = .ok (c, a') ∧ c i j = R.rnd (q i * q j) / 2 ∧ cov [p, q] i j = q i * q j := by
  have havg : ∀ i : Fin 6, IsFloat (q i) → p i = -q i → rCalcAvg R [p, q] i = 0 ∧
      R.rnd (p i + R.rnd (R.rnd (q i - p i) / (((1 : ℕ) : ℝ) + 1))) = 0 := by
    intro i hq hp
    have hs : npSum R [p i, q i] = 0 := by
      rw [npSum, dif_pos (by simp), if_pos (by simp)]
      simp [addAll, hp, R.fixed (isFloat_neg hq)]
    refine ⟨by simp [rCalcAvg, hs], ?_⟩
    rw [hp, show q i - -q i = 2 * q i by ring, R.fixed (Verif.Phases.isFloat_two_mul hq), show 2 * q i / (((1 : ℕ) : ℝ) + 1) = q i by norm_num,
      R.fixed hq, neg_add_cancel, R.rnd_zero]
  obtain ⟨a1, a2⟩ := havg i hi hpi
  obtain ⟨b1, b2⟩ := havg j hj hpj
  refine ⟨_, _, rfl, ?_, ?_⟩
  · simp only [if_neg hij, rVarLoop, List.map_cons, List.map_nil, addAll, List.foldl_cons, List.foldl_nil, a1, a2, b1, b2, sub_zero, R.rnd_zero,
      mul_zero, add_zero, zero_add, R.fixed hi, R.fixed hj, R.fixed (R.isFloat _), List.length_cons, List.length_nil]
    rw [show ((1 + 1 : ℕ) : ℝ) = 2 by norm_num]
    exact R.fixed (Verif.Nonlinear.isFloat_half (R.isFloat _))
  · simp [cov, mean, hpi, hpj]

example : ∃ c a', rCalcCorrelations R [fun _ => -1, fun _ => 1] = .ok (c, a') ∧ c 0 1 = R.rnd (1 * 1) / 2 ∧ cov [fun _ => -1, fun _ => 1] 0 1 = 1 * 1 :=
  correlations_pair_fails R (p := fun _ => -1) (q := fun _ => 1) (i := 0) (j := 1) (by decide) isFloat_one isFloat_one rfl rfl

end Verif.Stats6d
