import Verif.Stats6d.RoundedNormalize
import Verif.Stats6d.PropsRoundedAccuracy
import Verif.Plot.PropsRoundedHistogram
import Verif.Stats6d.PropsRoundedCorrelations

/-!
# C164: normalising in double precision
-/

namespace Verif.Stats6d

open Verif.Py

variable (R : Rounding)

/-- The factor of a coordinate, and its product with a value. -/
theorem scaled_near {η v V : ℝ} (h : Near η v V) (hη : 0 ≤ η) (hη' : η ≤ 1 / 4) (hv : 0 ≤ v) (hV : 0 < V) (p : ℝ) :
    Near (η + 2 ^ (-50 : ℤ)) (R.rnd (p * R.rnd (1 / R.rnd (Real.sqrt v)))) (p / Real.sqrt V) := by
  have hV' := Real.sqrt_pos.2 hV
  have hu : (0 : ℝ) < 2 ^ (-53 : ℤ) := two_zpow_pos _
  have hu1 : (2 : ℝ) ^ (-53 : ℤ) ≤ 1 / 1000 := by norm_num
  have e8 : (2 : ℝ) ^ (-50 : ℤ) = 8 * 2 ^ (-53 : ℤ) := by norm_num
  have w : ∀ ε a b : ℝ, Near ε a b → 0 ≤ ε → ε ≤ 1 / 5 → Near (ε + 6 / 5 * 2 ^ (-53 : ℤ)) (R.rnd a) b := fun ε a b hab h0 h1 =>
    (hab.rnd R).weaken (by generalize (2 : ℝ) ^ (-53 : ℤ) = u at *; nlinarith)
  have s1 : Near (4 / 7 * η) (Real.sqrt v) (Real.sqrt V) := (h.sqrt hv hV (by linarith)).weaken (by
    rw [div_le_iff₀ (by linarith)]
    nlinarith)
  have s2 := w _ _ _ s1 (by linarith) (by linarith)
  rw [e8]
  generalize (2 : ℝ) ^ (-53 : ℤ) = u at *
  have s3 : Near (7 / 10 * η + 3 / 2 * u) (1 / R.rnd (Real.sqrt v)) (1 / Real.sqrt V) := (s2.inv (by linarith) hV'.ne').weaken (by
    rw [div_le_iff₀ (by linarith)]
    nlinarith)
  have s4 := w _ _ _ s3 (by linarith) (by linarith)
  have s5 := w _ _ _ (((Near.refl p).mul s4).weaken (by linarith : _ ≤ 7 / 10 * η + 3 / 2 * u + 6 / 5 * u)) (by linarith) (by linarith)
  rw [mul_one_div] at s5
  exact s5.weaken (by linarith)

theorem rms_pos {v : ℝ} (hv : 0 < v) : 0 < R.rnd (Real.sqrt v) := R.pos (Real.sqrt_pos.2 hv)

/-- **C164.** If no computed variance is zero, `normalize_rms6d` divides every coordinate by the root of its computed variance up to four
rounding errors and keeps the order of the particles in every coordinate (after the average has been written over the first particle). -/
theorem normalize_rounded_partial {a : Arr} {v : Vec} {a' : Arr} (h : rCalcVariance R a = .ok (v, a')) (hv : ∀ i, 0 < v i) :
    ∃ b, rNormalizeRms R a = .ok b ∧ b.length = a'.length ∧
      List.Forall₂ (fun p p' => ∀ i, |p' i - p i / Real.sqrt (v i)| ≤ 2 ^ (-50 : ℤ) * |p i / Real.sqrt (v i)|) a' b ∧
      ∀ i, (a'.map (· i)).Pairwise (· ≤ ·) → (b.map (· i)).Pairwise (· ≤ ·) := by
  have hr : ∀ i, R.rnd (Real.sqrt (v i)) ≠ 0 := fun i => (rms_pos R (hv i)).ne'
  refine ⟨_, by rw [rNormalizeRms, rCalcRms, h]; simp only [Except.map]; rw [if_neg (by simpa using hr)], by simp, ?_, ?_⟩
  · rw [List.forall₂_map_right_iff, List.forall₂_same]
    intro p _ i
    have := scaled_near R (Near.refl (v i)) (le_refl 0) (by norm_num) (hv i).le (hv i) (p i)
    rwa [zero_add] at this
  · intro i hs
    rw [List.map_map]
    rw [List.pairwise_map] at hs ⊢
    refine hs.imp fun {p q} hpq => R.mono (mul_le_mul_of_nonneg_right hpq (R.nonneg ?_))
    exact one_div_nonneg.2 (rms_pos R (hv i)).le

/-- Three particles with variance 2. -/
example : ∃ b, rNormalizeRms R [fun _ => 1, fun _ => 1, fun _ => 4] = .ok b := by
  have hf : ∀ p ∈ [(fun _ => 1 : Vec), fun _ => 1, fun _ => 4], ∀ i, IsFloat (p i) := by
    intro p hp i
    simp only [List.mem_cons, List.not_mem_nil, or_false] at hp
    rcases hp with rfl | rfl | rfl
    · exact isFloat_one
    · exact isFloat_one
    · exact isFloat_int (n := 4) (by norm_num)
  obtain ⟨v, avg, h1, h2⟩ := variance_accuracy_partial R (a := [fun _ => 1, fun _ => 1, fun _ => 4]) (by simp) (by simp) hf
  have hv : ∀ i, 0 < v i := fun i => by
    have h3 := (h2 i 4 fun p hp => by
      simp only [List.mem_cons, List.not_mem_nil, or_false] at hp
      rcases hp with rfl | rfl | rfl <;> norm_num).1
    have h4 : variance [fun _ => 1, fun _ => 1, fun _ => 4] i = 2 := by
      simp [variance, cov, mean]
      norm_num
    rw [h4] at h3
    have h5 := (abs_le.1 (h3.trans (by norm_num : _ ≤ (1 : ℝ)))).1
    linarith
  obtain ⟨b, hb, -⟩ := normalize_rounded_partial R h1 hv
  exact ⟨b, hb⟩

/-- **C164, accuracy.** If the variance of every coordinate is large enough for the bound of C157, every coordinate of every particle but the
first is divided by its rms value up to rounding errors. -/
theorem normalize_accuracy_partial {a : Arr} (ha : a ≠ []) (hlen : a.length ≤ 2 ^ 47) (hf : ∀ p ∈ a, ∀ i, IsFloat (p i)) {M : Vec}
    (hM : ∀ p ∈ a, ∀ i, |p i| ≤ M i) (hc : ∀ i, a.length * 2 ^ (-46 : ℤ) * M i ^ 2 ≤ variance a i) (hv : ∀ i, 0 < variance a i) :
    ∃ q b, rNormalizeRms R a = .ok (q :: b) ∧
      List.Forall₂ (fun p p' => ∀ i, |p' i - p i / Real.sqrt (variance a i)| ≤
        (a.length * 2 ^ (-48 : ℤ) * M i ^ 2 / variance a i + 2 ^ (-50 : ℤ)) * |p i / Real.sqrt (variance a i)|) a.tail b := by
  obtain ⟨v, avg, h1, h2⟩ := variance_accuracy_partial R ha hlen hf
  have hn : ∀ i, Near (a.length * 2 ^ (-48 : ℤ) * M i ^ 2 / variance a i) (v i) (variance a i) := fun i => by
    have := (h2 i (M i) fun p hp => hM p hp i).1
    rw [Near, abs_of_pos (a := variance a i) (hv i), div_mul_cancel₀ _ (hv i).ne']
    exact this
  have hη : ∀ i, 0 ≤ a.length * 2 ^ (-48 : ℤ) * M i ^ 2 / variance a i := fun i => by have := hv i; positivity
  have hη' : ∀ i, a.length * 2 ^ (-48 : ℤ) * M i ^ 2 / variance a i ≤ 1 / 4 := fun i => by
    rw [div_le_iff₀ (hv i)]
    have e : (2 : ℝ) ^ (-46 : ℤ) = 4 * 2 ^ (-48 : ℤ) := by norm_num
    have := hc i
    rw [e, show (a.length : ℝ) * (4 * 2 ^ (-48 : ℤ)) * M i ^ 2 = 4 * (a.length * 2 ^ (-48 : ℤ) * M i ^ 2) by ring] at this
    generalize (a.length : ℝ) * 2 ^ (-48 : ℤ) * M i ^ 2 = X at *
    linarith
  have hvp : ∀ i, 0 < v i := fun i => by
    have h3 := hn i
    unfold Near at h3
    rw [abs_of_pos (a := variance a i) (hv i)] at h3
    have h4 := (abs_le.1 h3).1
    have h5 := mul_le_mul_of_nonneg_right (hη' i) (hv i).le
    linarith [hv i]
  have hr : ∀ i, R.rnd (Real.sqrt (v i)) ≠ 0 := fun i => (rms_pos R (hvp i)).ne'
  refine ⟨_, _, by rw [rNormalizeRms, rCalcRms, h1]; simp only [Except.map]; rw [if_neg (by simpa using hr), List.map_cons], ?_⟩
  rw [List.forall₂_map_right_iff, List.forall₂_same]
  intro p _ i
  exact scaled_near R (hn i) (hη i) (hη' i) (hvp i).le (hv i) (p i)

example : ∃ q b, rNormalizeRms R [fun _ => 1, fun _ => 1, fun _ => 4] = .ok (q :: b) := by
  have hv : ∀ i, variance [fun _ => 1, fun _ => 1, fun _ => 4] i = 2 := fun i => by
    simp [variance, cov, mean]
    norm_num
  obtain ⟨q, b, h, -⟩ := normalize_accuracy_partial R (a := [fun _ => 1, fun _ => 1, fun _ => 4]) (M := fun _ => 4) (by simp) (by simp)
    (by
      intro p hp i
      simp only [List.mem_cons, List.not_mem_nil, or_false] at hp
      rcases hp with rfl | rfl | rfl
      · exact isFloat_one
      · exact isFloat_one
      · exact isFloat_int (n := 4) (by norm_num))
    (by
      intro p hp i
      simp only [List.mem_cons, List.not_mem_nil, or_false] at hp
      rcases hp with rfl | rfl | rfl <;> norm_num)
    (fun i => by rw [hv]; norm_num) fun i => by rw [hv]; norm_num
  exact ⟨q, b, h⟩

theorem pair_variance {s t : Vec} {i : Fin 6} (hs : s i = 0) (ht : |(|t i| - 1)| ≤ 2 ^ (-49 : ℤ)) : variance [s, t] i < 1 / 3 := by
  have h : (2 : ℝ) ^ (-49 : ℤ) ≤ 1 / 1000 := by norm_num
  have h3 := (abs_le.1 (ht.trans h)).2
  have h4 : |t i| ≤ 1 + 1 / 1000 := by linarith
  have h5 : t i ^ 2 ≤ (1 + 1 / 1000) ^ 2 := by
    rw [← sq_abs]
    exact pow_le_pow_left₀ (abs_nonneg _) h4 2
  have h7 : variance [s, t] i = (s i - t i) ^ 2 / 4 := by
    simp [variance, cov, mean]
    ring
  rw [h7, hs, zero_sub, neg_sq]
  linarith

/-- **C164 fails.** Two opposite particles do not have rms values of one afterwards: the first has become zero and the second one, so that
the variance is close to 1 / 4. -/
theorem normalize_pair_fails {p q : Vec} (hq : ∀ i, IsFloat (q i)) (h0 : ∀ i, q i ≠ 0) (hp : ∀ i, p i = -q i) :
    ∃ s t, rNormalizeRms R [p, q] = .ok [s, t] ∧ ∀ i, s i = 0 ∧ |(|t i| - 1)| ≤ 2 ^ (-49 : ℤ) ∧ variance [s, t] i < 1 / 3 := by
  have hw : ∀ i, IsFloat (R.rnd (q i * (2 * q i)) / 2) := fun i => Verif.Nonlinear.isFloat_half (R.isFloat _)
  have havg : ∀ i, R.rnd (p i + R.rnd (R.rnd (q i - p i) / (((1 : ℕ) : ℝ) + 1))) = 0 := fun i => by
    rw [hp, show q i - -q i = 2 * q i by ring, R.fixed (Verif.Phases.isFloat_two_mul (hq i)), show 2 * q i / (((1 : ℕ) : ℝ) + 1) = q i by norm_num,
      R.fixed (hq i), neg_add_cancel, R.rnd_zero]
  have hvar : rCalcVariance R [p, q] = .ok (fun i => R.rnd (q i * (2 * q i)) / 2, [fun _ => 0, q]) := by
    simp only [rCalcVariance, rVarLoop, Except.ok.injEq, Prod.mk.injEq, List.cons.injEq, and_true]
    refine ⟨funext fun i => ?_, funext havg⟩
    rw [havg, hp, sub_zero, R.fixed (hq i), show q i - -q i = 2 * q i by ring, R.fixed (Verif.Phases.isFloat_two_mul (hq i)), zero_add,
      R.fixed (R.isFloat _)]
    norm_num
    rw [R.fixed (hw i)]
  have hnear : ∀ i, Near (2 ^ (-53 : ℤ)) (R.rnd (q i * (2 * q i)) / 2) (q i ^ 2) := fun i => by
    have := R.error (q i * (2 * q i))
    rw [Near, show R.rnd (q i * (2 * q i)) / 2 - q i ^ 2 = (R.rnd (q i * (2 * q i)) - q i * (2 * q i)) / 2 by ring, abs_div, abs_two]
    rw [show q i * (2 * q i) = 2 * q i ^ 2 by ring] at this ⊢
    rw [abs_mul 2, abs_two] at this
    generalize (2 : ℝ) ^ (-53 : ℤ) = u at *
    linarith
  have hsq : ∀ i, 0 < q i ^ 2 := fun i => by have := h0 i; positivity
  have hv : ∀ i, 0 < R.rnd (q i * (2 * q i)) / 2 := fun i => half_pos (R.pos (by have := hsq i; nlinarith))
  have hr : ∀ i, R.rnd (Real.sqrt (R.rnd (q i * (2 * q i)) / 2)) ≠ 0 := fun i => (rms_pos R (hv i)).ne'
  refine ⟨_, _, by rw [rNormalizeRms, rCalcRms, hvar]; simp only [Except.map]; rw [if_neg (by simpa using hr), List.map_cons, List.map_cons, List.map_nil], ?_⟩
  intro i
  have hs : R.rnd (0 * R.rnd (1 / R.rnd (Real.sqrt (R.rnd (q i * (2 * q i)) / 2)))) = 0 := by rw [zero_mul, R.rnd_zero]
  have ht := scaled_near R (hnear i) (two_zpow_pos _).le (by norm_num) (hv i).le (hsq i) (q i)
  unfold Near at ht
  have h1 : |q i / Real.sqrt (q i ^ 2)| = 1 := by
    rw [Real.sqrt_sq_eq_abs, abs_div, abs_abs, div_self (abs_ne_zero.2 (h0 i))]
  rw [h1, mul_one] at ht
  have h3 := (abs_abs_sub_abs_le_abs_sub _ _).trans (ht.trans (by norm_num : _ ≤ (2 : ℝ) ^ (-49 : ℤ)))
  rw [h1] at h3
  exact ⟨hs, h3, pair_variance hs h3⟩

example : ∃ s t, rNormalizeRms R [fun _ => -3, fun _ => 3] = .ok [s, t] ∧ ∀ i, s i = 0 ∧ |(|t i| - 1)| ≤ 2 ^ (-49 : ℤ) ∧ variance [s, t] i < 1 / 3 :=
  normalize_pair_fails R (fun _ => isFloat_int (n := 3) (by norm_num)) (fun _ => by norm_num) fun _ => by norm_num

end Verif.Stats6d
