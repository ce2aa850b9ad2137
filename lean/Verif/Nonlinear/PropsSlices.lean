import Verif.Nonlinear.PropsHalves

/-!
# Claim C150: all slices of the nonlinear insert
-/

namespace Verif.Nonlinear

open Verif.Py Verif.Kinematic

variable (R : Rounding)

/-- The slices are in the insert. -/
theorem svals_mem {L : ℝ} (hL : IsFloat L) (h0 : 0 < L) {n : ℕ} (hn : n ≤ 2 ^ 50) : ∀ s ∈ rSvals R L n, 0 ≤ s ∧ s ≤ L := by
  intro s hs
  simp only [rSvals, List.mem_map, List.mem_range] at hs
  obtain ⟨k, hk, rfl⟩ := hs
  have hn1 : (1 : ℝ) ≤ n := by
    have : 1 ≤ n := by omega
    exact_mod_cast this
  have ha0 : 0 ≤ R.rnd (L / n) := R.nonneg (by positivity)
  have ha : R.rnd (L / n) ≤ L := R.le_of_le hL (div_le_self h0.le hn1)
  have hst : R.rnd (R.rnd (L / n) * (1 / 2)) = R.rnd (L / n) / 2 := by
    rw [mul_one_div]
    exact R.fixed (isFloat_half (R.isFloat _))
  rw [hst]
  have hh : IsFloat (R.rnd (L / n) / 2) := isFloat_half (R.isFloat _)
  have hb0 : 0 ≤ R.rnd (L / n) / 2 := by linarith
  have hb : R.rnd (L / n) / 2 ≤ L / 2 := by linarith
  generalize R.rnd (L / n) / 2 = a at *
  have he1 : R.rnd (L - a) ≤ L := R.le_of_le hL (by linarith)
  have he0 : a ≤ R.rnd (L - a) := R.ge_of_ge hh (by linarith)
  generalize R.rnd (L - a) = e at *
  by_cases hlast : k + 1 = n ∧ 1 < n
  · rw [if_pos hlast]
    exact ⟨hb0.trans he0, he1⟩
  · rw [if_neg hlast]
    have hd0 : 0 ≤ R.rnd (e - a) := R.nonneg (by linarith)
    have hd := rnd_le_mul R (e - a) (by linarith)
    have hm0 : (0 : ℝ) ≤ n - 1 := by linarith
    have hs0 : 0 ≤ R.rnd (R.rnd (e - a) / (n - 1)) := R.nonneg (div_nonneg hd0 hm0)
    have hk0 : (0 : ℝ) ≤ k := Nat.cast_nonneg k
    have hp0 : 0 ≤ R.rnd (k * R.rnd (R.rnd (e - a) / (n - 1))) := R.nonneg (mul_nonneg hk0 hs0)
    refine ⟨R.nonneg (by linarith), R.le_of_le hL ?_⟩
    by_cases h2 : 1 < n
    · have hk2 : k + 2 ≤ n := by omega
      have hkr : (k : ℝ) ≤ n - 1 - 1 := by
        have : (k : ℝ) + 2 ≤ n := by exact_mod_cast hk2
        linarith
      have hm1 : (0 : ℝ) < n - 1 := by
        have : (1 : ℝ) < n := by exact_mod_cast h2
        linarith
      have hm2 : (n : ℝ) - 1 ≤ 2 ^ 50 := by
        have : (n : ℝ) ≤ 2 ^ 50 := by exact_mod_cast hn
        linarith
      have hs := rnd_le_mul R _ (div_nonneg hd0 hm0)
      have hp := rnd_le_mul R _ (mul_nonneg hk0 hs0)
      have w : (0 : ℝ) ≤ 1 + 2 ^ (-53 : ℤ) := by positivity
      have q1 : R.rnd (e - a) / (n - 1) ≤ (e - a) * (1 + 2 ^ (-53 : ℤ)) / (n - 1) := div_le_div_of_nonneg_right hd hm0
      have q2 := hs.trans (mul_le_mul_of_nonneg_right q1 w)
      have q3 := hp.trans (mul_le_mul_of_nonneg_right (mul_le_mul_of_nonneg_left q2 hk0) w)
      have q4 : (k : ℝ) * ((e - a) * (1 + 2 ^ (-53 : ℤ)) / (n - 1) * (1 + 2 ^ (-53 : ℤ))) * (1 + 2 ^ (-53 : ℤ)) =
          (k / (n - 1) * ((1 + 2 ^ (-53 : ℤ)) * (1 + 2 ^ (-53 : ℤ)) * (1 + 2 ^ (-53 : ℤ)))) * (e - a) := by
        field_simp
      rw [q4] at q3
      have q5 : (k : ℝ) / (n - 1) ≤ 1 - 2 ^ (-50 : ℤ) := by
        rw [div_le_iff₀ hm1]
        have u : (2 : ℝ) ^ (-50 : ℤ) = 1 / 2 ^ 50 := by norm_num
        have : (2 : ℝ) ^ (-50 : ℤ) * (n - 1) ≤ 1 := by
          rw [u, one_div, inv_mul_le_iff₀ (by positivity)]
          linarith
        linarith
      have q6 : (k : ℝ) / (n - 1) * ((1 + 2 ^ (-53 : ℤ)) * (1 + 2 ^ (-53 : ℤ)) * (1 + 2 ^ (-53 : ℤ))) ≤ 1 := by
        refine (mul_le_mul_of_nonneg_right q5 (by positivity)).trans ?_
        norm_num
      have q7 := mul_le_mul_of_nonneg_right q6 (by linarith : 0 ≤ e - a)
      linarith
    · have hk1 : k = 0 := by omega
      rw [hk1]
      simp
      linarith

/-- **C150, no strengths.** For tangents of magnitude at most `2 ^ -28` or at least `2 ^ 28` no beta function of `generate_sequence` is a
number and every strength is nan. -/
theorem generated_nan_fails {L T : ℝ} (hL : IsFloat L) (h0 : 0 < L) (hT : T ≠ 0) (h : |T| ≤ 2 ^ (-28 : ℤ) ∨ 2 ^ (28 : ℤ) ≤ |T|) (t : ℝ) {n : ℕ}
    (hn : n ≤ 2 ^ 50) (c : ℝ) : (rGenerate R L T t n c).beta0 = .inf ∧ (rGenerate R L T t n c).knll = List.replicate n .nan ∧
      ∀ b ∈ (rGenerate R L T t n c).betas, ∀ x, b ≠ .num x := by
  have hm := svals_mem R hL h0 hn
  have key : rBeta0 R L T = .inf ∧ ∀ s, 0 ≤ s → s ≤ L → (∀ x, rBetaAt R L T s ≠ .num x) ∧ rKnll R t L n c (rBetaAt R L T s) = .nan := by
    rcases h with h | h
    · obtain ⟨b0, hs⟩ := insert_small_fails R hL h0 hT h t n c
      exact ⟨b0, fun s h h' => ⟨by rw [(hs s h h').1]; simp, (hs s h h').2⟩⟩
    · obtain ⟨b0, hs⟩ := insert_large_fails R hL h0 h t n c
      exact ⟨b0, fun s _ _ => hs s⟩
  refine ⟨key.1, ?_, ?_⟩
  · rw [List.eq_replicate_iff]
    refine ⟨by simp [rGenerate, rSvals], ?_⟩
    intro v hv
    simp only [rGenerate, List.map_map, List.mem_map, Function.comp] at hv
    obtain ⟨s, hs, rfl⟩ := hv
    exact (key.2 s (hm s hs).1 (hm s hs).2).2
  · intro b hb
    simp only [rGenerate, List.mem_map] at hb
    obtain ⟨s, hs, rfl⟩ := hb
    exact (key.2 s (hm s hs).1 (hm s hs).2).1

/-- **C150, strengths.** For tangents between `2 ^ -26` and `2 ^ 25` in magnitude every beta function of `generate_sequence` is a
positive number and every strength and aperture a number. -/
theorem generated_finite_partial {L T : ℝ} (hL : IsFloat L) (h0 : 0 < L) (h1 : 2 ^ (-26 : ℤ) ≤ |T|) (h2 : |T| ≤ 2 ^ (25 : ℤ)) (t : ℝ) {n : ℕ}
    (hn : n ≤ 2 ^ 50) (c : ℝ) : (∃ b, (rGenerate R L T t n c).beta0 = .num b ∧ 0 < b) ∧
      ∃ bs ks cs : List ℝ, (rGenerate R L T t n c).betas = bs.map .num ∧ (rGenerate R L T t n c).knll = ks.map .num ∧
        (rGenerate R L T t n c).cnll = cs.map .num ∧ bs.length = n ∧ ks.length = n ∧ cs.length = n ∧ ∀ b ∈ bs, 0 < b := by
  obtain ⟨k0, key⟩ := insert_finite_partial R hL h0 h1 h2 t n c
  refine ⟨k0, ?_⟩
  have hm := svals_mem R hL h0 hn
  have hlen : (rSvals R L n).length = n := by simp [rSvals]
  suffices ∀ l : List ℝ, (∀ s ∈ l, 0 ≤ s ∧ s ≤ L) → ∃ bs ks cs : List ℝ, l.map (rBetaAt R L T) = bs.map .num ∧
      (l.map (rBetaAt R L T)).map (rKnll R t L n c) = ks.map .num ∧ (l.map (rBetaAt R L T)).map (rCnll R c) = cs.map .num ∧
      bs.length = l.length ∧ ks.length = l.length ∧ cs.length = l.length ∧ ∀ b ∈ bs, 0 < b by
    have := this _ hm
    rwa [hlen] at this
  intro l
  induction l with
  | nil => intro _; exact ⟨[], [], [], by simp⟩
  | cons s l ih =>
    intro h
    obtain ⟨bs, ks, cs, e1, e2, e3, l1, l2, l3, hp⟩ := ih fun s' hs' => h s' (List.mem_cons_of_mem _ hs')
    obtain ⟨b, k, a, f1, f2, f3, f4⟩ := key s (h s List.mem_cons_self).1 (h s List.mem_cons_self).2
    refine ⟨b :: bs, k :: ks, a :: cs, ?_, ?_, ?_, by simp [l1], by simp [l2], by simp [l3], ?_⟩
    · rw [List.map_cons, List.map_cons, f1, e1]
    · rw [List.map_cons, List.map_cons, List.map_cons, f1, f3, e2]
    · rw [List.map_cons, List.map_cons, List.map_cons, f1, f4, e3]
    · intro b' hb'
      rcases List.mem_cons.1 hb' with rfl | hb'
      · exact f2
      · exact hp b' hb'

/-- Twenty slices and a phase of about 0.3. -/
example : IsFloat (3 / 2) ∧ (0 : ℝ) < 3 / 2 ∧ (2 : ℝ) ^ (-26 : ℤ) ≤ |11 / 8| ∧ |(11 / 8 : ℝ)| ≤ 2 ^ (25 : ℤ) ∧ 20 ≤ 2 ^ 50 := by
  refine ⟨⟨3, -1, by norm_num, by norm_num⟩, by norm_num, ?_, ?_, by norm_num⟩ <;> rw [abs_of_pos (by norm_num)] <;> norm_num

/-- Twenty slices and a phase of 10^-9. -/
example (t c : ℝ) : (rGenerate R (3 / 2) (1 / 2 ^ 28) t 20 c).knll = List.replicate 20 .nan :=
  (generated_nan_fails R ⟨3, -1, by norm_num, by norm_num⟩ (by norm_num) (by norm_num) (Or.inl (by rw [abs_of_pos (by norm_num)]; norm_num)) t (by norm_num) c).2.1

end Verif.Nonlinear
