import Verif.Stats6d.PropsRounded
import Verif.Stats6d.Props
import Verif.Py.TiesEven

/-!
# C157: how accurate the variances are in double precision
-/

namespace Verif.Stats6d

open Verif.Py

variable (R : Rounding)

/-- One step of the average. -/
theorem avg_step {M u n A a x t q a' : ℝ} (hu : 0 ≤ u) (hu1 : u ≤ 1 / 1000) (hn : 1 ≤ n) (hx : |x| ≤ M) (ha : |a| ≤ M)
    (hd : |a - A| ≤ 5 * (M * u) * n) (ht : |t - (x - a)| ≤ |x - a| * u) (hq : |q - t / (n + 1)| ≤ |t / (n + 1)| * u)
    (ha' : |a' - (a + q)| ≤ |a + q| * u) : |a' - (A + (x - A) / (n + 1))| ≤ 5 * (M * u) * (n + 1) := by
  have hM : 0 ≤ M := (abs_nonneg x).trans hx
  have hk : 0 < n + 1 := by linarith
  have hMu : 0 ≤ M * u := mul_nonneg hM hu
  have hMu1 : M * u ≤ M / 1000 := by nlinarith
  have b1 : |x - a| ≤ 2 * M := (abs_sub _ _).trans (by linarith)
  have e1 : |t - (x - a)| ≤ 2 * (M * u) := ht.trans (by nlinarith)
  have b2 : |t| ≤ 2.01 * M := by
    have := abs_add_le (t - (x - a)) (x - a)
    rw [sub_add_cancel] at this
    linarith
  have b3 : |t / (n + 1)| ≤ 1.005 * M := by
    rw [abs_div, abs_of_pos hk, div_le_iff₀ hk]
    nlinarith
  have e2 : |q - t / (n + 1)| ≤ 1.005 * (M * u) := hq.trans (by nlinarith)
  have b4 : |q| ≤ 1.02 * M := by
    have := abs_add_le (q - t / (n + 1)) (t / (n + 1))
    rw [sub_add_cancel] at this
    linarith
  have b5 : |a + q| ≤ 2.02 * M := (abs_add_le _ _).trans (by linarith)
  have e3 : |a' - (a + q)| ≤ 2.02 * (M * u) := ha'.trans (by nlinarith)
  have e4 : |(t - (x - a)) / (n + 1)| ≤ M * u := by
    rw [abs_div, abs_of_pos hk, div_le_iff₀ hk]
    nlinarith
  have e5 : |(a - A) * (n / (n + 1))| ≤ 5 * (M * u) * (n - 1 / 2) := by
    have h0 : 0 ≤ n / (n + 1) := by positivity
    rw [abs_mul, abs_of_nonneg h0]
    refine (mul_le_mul_of_nonneg_right hd h0).trans ?_
    rw [mul_assoc]
    refine mul_le_mul_of_nonneg_left ?_ (by linarith)
    rw [mul_div_assoc', div_le_iff₀ hk]
    nlinarith
  have hs : a' - (A + (x - A) / (n + 1)) = (a' - (a + q)) + (q - t / (n + 1)) + (t - (x - a)) / (n + 1) + (a - A) * (n / (n + 1)) := by
    field_simp
    ring
  rw [hs]
  refine (abs_add_le _ _).trans ?_
  have h1 := abs_add_le ((a' - (a + q)) + (q - t / (n + 1))) ((t - (x - a)) / (n + 1))
  have h2 := abs_add_le (a' - (a + q)) (q - t / (n + 1))
  nlinarith

/-- One step of the sum of squares. -/
theorem var_step {M u n A A' a a' x t t2 p s s' S : ℝ} (hu : 0 ≤ u) (hu1 : u ≤ 1 / 1000) (hn : 1 ≤ n) (hun : n * u ≤ 1 / 64) (hx : |x| ≤ M) (ha : |a| ≤ M)
    (ha' : |a'| ≤ M) (hA : |A| ≤ M)
    (hd : |a - A| ≤ 5 * (M * u) * n) (hd' : |a' - A'| ≤ 5 * (M * u) * (n + 1)) (ht : |t - (x - a)| ≤ |x - a| * u) (ht2 : |t2 - (x - a')| ≤ |x - a'| * u)
    (hp : |p - t2 * t| ≤ |t2 * t| * u) (hs' : |s' - (s + p)| ≤ |s + p| * u) (hS : |S| ≤ 4 * M ^ 2 * n) (hs : |s - S| ≤ 20 * (M ^ 2 * u) * n ^ 2) :
    |s' - (S + (x - A') * (x - A))| ≤ 20 * (M ^ 2 * u) * (n + 1) ^ 2 := by
  have hM : 0 ≤ M := (abs_nonneg x).trans hx
  have hMu : 0 ≤ M * u := mul_nonneg hM hu
  have hMu1 : M * u ≤ M / 1000 := by nlinarith
  have hM2 : 0 ≤ M ^ 2 := sq_nonneg M
  have hM2u : 0 ≤ M ^ 2 * u := mul_nonneg hM2 hu
  have hM2u1 : M ^ 2 * u ≤ M ^ 2 / 1000 := by nlinarith
  have b1 : |x - a| ≤ 2 * M := (abs_sub _ _).trans (by linarith)
  have b1' : |x - a'| ≤ 2 * M := (abs_sub _ _).trans (by linarith)
  have c1 : |x - A| ≤ 2 * M := (abs_sub _ _).trans (by linarith)
  have e1 : |t - (x - a)| ≤ 2 * (M * u) := ht.trans (by nlinarith)
  have e1' : |t2 - (x - a')| ≤ 2 * (M * u) := ht2.trans (by nlinarith)
  have b2 : |t2| ≤ 2.01 * M := by
    have := abs_add_le (t2 - (x - a')) (x - a')
    rw [sub_add_cancel] at this
    linarith
  have b2' : |t| ≤ 2.01 * M := by
    have := abs_add_le (t - (x - a)) (x - a)
    rw [sub_add_cancel] at this
    linarith
  have f1 : |t - (x - A)| ≤ (M * u) * (2 + 5 * n) := by
    have := abs_sub (t - (x - a)) (a - A)
    rw [show t - (x - a) - (a - A) = t - (x - A) by ring] at this
    linarith
  have f2 : |t2 - (x - A')| ≤ (M * u) * (7 + 5 * n) := by
    have := abs_sub (t2 - (x - a')) (a' - A')
    rw [show t2 - (x - a') - (a' - A') = t2 - (x - A') by ring] at this
    linarith
  have g1 : |t2 * (t - (x - A))| ≤ (M ^ 2 * u) * (2.01 * (2 + 5 * n)) := by
    rw [abs_mul]
    refine (mul_le_mul b2 f1 (abs_nonneg _) (by linarith)).trans (le_of_eq (by ring))
  have g2 : |(t2 - (x - A')) * (x - A)| ≤ (M ^ 2 * u) * (2 * (7 + 5 * n)) := by
    rw [abs_mul]
    refine (mul_le_mul f2 c1 (abs_nonneg _) (mul_nonneg hMu (by linarith))).trans (le_of_eq (by ring))
  have g3 : |t2 * t| ≤ 4.1 * M ^ 2 := by
    rw [abs_mul]
    refine (mul_le_mul b2 b2' (abs_nonneg _) (by linarith)).trans ?_
    nlinarith
  have g4 : |p - t2 * t| ≤ 4.1 * (M ^ 2 * u) := hp.trans (by nlinarith)
  have g5 : |p| ≤ 4.2 * M ^ 2 := by
    have := abs_add_le (p - t2 * t) (t2 * t)
    rw [sub_add_cancel] at this
    linarith
  have g6 : |s| ≤ 4.5 * M ^ 2 * n := by
    have := abs_add_le (s - S) S
    rw [sub_add_cancel] at this
    have h1 : 20 * (M ^ 2 * u) * n ^ 2 = 20 * (M ^ 2 * n) * (n * u) := by ring
    have h2 : 20 * (M ^ 2 * n) * (n * u) ≤ 20 * (M ^ 2 * n) * (1 / 64) := mul_le_mul_of_nonneg_left hun (by positivity)
    have h3 : 4 * M ^ 2 * n = 4 * (M ^ 2 * n) := by ring
    have h4 : 4.5 * M ^ 2 * n = 4.5 * (M ^ 2 * n) := by ring
    have h5 := mul_nonneg hM2 (by linarith : 0 ≤ n)
    linarith
  have g7 : |s + p| ≤ M ^ 2 * (4.5 * n + 4.2) := (abs_add_le _ _).trans (by linarith)
  have g8 : |s' - (s + p)| ≤ M ^ 2 * u * (4.5 * n + 4.2) := hs'.trans ((mul_le_mul_of_nonneg_right g7 hu).trans (le_of_eq (by ring)))
  have hsum : s' - (S + (x - A') * (x - A)) = (s' - (s + p)) + (p - t2 * t) + t2 * (t - (x - A)) + (t2 - (x - A')) * (x - A) + (s - S) := by ring
  rw [hsum]
  have k1 := abs_add_le ((s' - (s + p)) + (p - t2 * t) + t2 * (t - (x - A)) + (t2 - (x - A')) * (x - A)) (s - S)
  have k2 := abs_add_le ((s' - (s + p)) + (p - t2 * t) + t2 * (t - (x - A))) ((t2 - (x - A')) * (x - A))
  have k3 := abs_add_le ((s' - (s + p)) + (p - t2 * t)) (t2 * (t - (x - A)))
  have k4 := abs_add_le (s' - (s + p)) (p - t2 * t)
  have k5 : (M ^ 2 * u) * (4.5 * n + 4.2 + 4.1 + 2.01 * (2 + 5 * n) + 2 * (7 + 5 * n)) ≤ (M ^ 2 * u) * (40 * n + 20) :=
    mul_le_mul_of_nonneg_left (by linarith) hM2u
  have k6 : 20 * (M ^ 2 * u) * (n + 1) ^ 2 = 20 * (M ^ 2 * u) * n ^ 2 + (M ^ 2 * u) * (40 * n + 20) := by ring
  have k7 : (M ^ 2 * u) * (4.5 * n + 4.2 + 4.1 + 2.01 * (2 + 5 * n) + 2 * (7 + 5 * n)) =
      (M ^ 2 * u) * (4.5 * n + 4.2) + 4.1 * (M ^ 2 * u) + (M ^ 2 * u) * (2.01 * (2 + 5 * n)) + (M ^ 2 * u) * (2 * (7 + 5 * n)) := by ring
  linarith

/-- The loops with and without rounding. -/
theorem loops_near {M : ℝ} (i : Fin 6) (rest : Arr) (n : Nat) (hn : 1 ≤ n) (hlen : n + rest.length ≤ 2 ^ 47) (avg var avg' var' : Vec)
    (fa : IsFloat (avg' i)) (hf : ∀ p ∈ rest, IsFloat (p i)) (hr : ∀ p ∈ rest, |p i| ≤ M) (hA : |avg i| ≤ M) (ha : |avg' i| ≤ M)
    (hS : |var i| ≤ 4 * M ^ 2 * n)
    (hd : |avg' i - avg i| ≤ 5 * (M * 2 ^ (-53 : ℤ)) * n) (hs : |var' i - var i| ≤ 20 * (M ^ 2 * 2 ^ (-53 : ℤ)) * (n : ℝ) ^ 2) :
    |(rVarLoop R rest n avg' var').1 i - (varLoop rest n avg var).1 i| ≤ 5 * (M * 2 ^ (-53 : ℤ)) * ((n : ℝ) + rest.length) ∧
    |(rVarLoop R rest n avg' var').2 i - (varLoop rest n avg var).2 i| ≤ 20 * (M ^ 2 * 2 ^ (-53 : ℤ)) * ((n : ℝ) + rest.length) ^ 2 ∧
    |(varLoop rest n avg var).2 i| ≤ 4 * M ^ 2 * ((n : ℝ) + rest.length) := by
  induction rest generalizing n avg var avg' var' with
  | nil => simpa [rVarLoop, varLoop] using ⟨hd, hs, hS⟩
  | cons p rest ih =>
    have hn1 : (1 : ℝ) ≤ n := by exact_mod_cast hn
    have hk : (2 : ℝ) ≤ (n : ℝ) + 1 := by linarith
    have hk0 : (0 : ℝ) < (n : ℝ) + 1 := by linarith
    have hx := hr p (List.mem_cons_self ..)
    have fx := hf p (List.mem_cons_self ..)
    have hu : (0 : ℝ) ≤ 2 ^ (-53 : ℤ) := by positivity
    have hu1 : (2 : ℝ) ^ (-53 : ℤ) ≤ 1 / 1000 := by norm_num
    have hun : (n : ℝ) * 2 ^ (-53 : ℤ) ≤ 1 / 64 := by
      have : (n : ℝ) ≤ 2 ^ 47 := by
        have : n ≤ 2 ^ 47 := by omega
        exact_mod_cast this
      have := mul_le_mul_of_nonneg_right this hu
      norm_num at this ⊢
      linarith
    obtain ⟨s1, s2⟩ := step_between R fa fx hk
    have ha' : |R.rnd (avg' i + R.rnd (R.rnd (p i - avg' i) / ((n : ℝ) + 1)))| ≤ M := by
      rw [abs_le] at hx ha ⊢
      rcases le_total (avg' i) (p i) with hle | hle
      · exact ⟨ha.1.trans (s1 hle).1, (s1 hle).2.trans hx.2⟩
      · exact ⟨hx.1.trans (s2 hle).1, (s2 hle).2.trans ha.2⟩
    have hA' : |avg i + (p i - avg i) / ((n : ℝ) + 1)| ≤ M := by
      have : avg i + (p i - avg i) / ((n : ℝ) + 1) = (avg i * n + p i) / ((n : ℝ) + 1) := by
        field_simp
        ring
      rw [this, abs_div, abs_of_pos hk0, div_le_iff₀ hk0]
      refine (abs_add_le _ _).trans ?_
      rw [abs_mul, abs_of_nonneg (a := (n : ℝ)) (by linarith)]
      nlinarith
    have k1 := avg_step hu hu1 hn1 hx ha hd (R.error _) (R.error _) (R.error _)
    have k2 := var_step hu hu1 hn1 hun hx ha ha' hA hd k1 (R.error _) (R.error _) (R.error (R.rnd _ * R.rnd _)) (R.error (var' i + R.rnd _)) hS hs
    rw [rVarLoop, varLoop]
    have hlen' : n + 1 + rest.length ≤ 2 ^ 47 := by rw [List.length_cons] at hlen; omega
    have := ih (n + 1) (by omega) hlen'
      (fun i => avg i + (p i - avg i) / ((n : ℝ) + 1)) (fun i => var i + (p i - (avg i + (p i - avg i) / ((n : ℝ) + 1))) * (p i - avg i))
      (fun i => R.rnd (avg' i + R.rnd (R.rnd (p i - avg' i) / ((n : ℝ) + 1))))
      (fun i => R.rnd (var' i + R.rnd (R.rnd (p i - R.rnd (avg' i + R.rnd (R.rnd (p i - avg' i) / ((n : ℝ) + 1)))) * R.rnd (p i - avg' i))))
      (R.isFloat _) (fun q hq => hf q (List.mem_cons_of_mem _ hq)) (fun q hq => hr q (List.mem_cons_of_mem _ hq)) hA' ha' ?_ (by push_cast; exact k1)
      (by push_cast; exact k2)
    · push_cast [List.length_cons] at this ⊢
      rw [show (n : ℝ) + (rest.length + 1) = n + 1 + rest.length by ring]
      exact this
    · push_cast
      have b1 : |p i - (avg i + (p i - avg i) / ((n : ℝ) + 1))| ≤ 2 * M := (abs_sub _ _).trans (by linarith)
      have b2 : |p i - avg i| ≤ 2 * M := (abs_sub _ _).trans (by linarith)
      refine (abs_add_le _ _).trans ?_
      rw [abs_mul]
      have := mul_le_mul b1 b2 (abs_nonneg _) ((abs_nonneg _).trans b1)
      nlinarith

/-- **C157.** With values of at most `M`, the rounded variance of `n` particles is off by at most `n * 2 ^ -48 * M ^ 2`, and the average that is written to the
first particle by at most `n * 2 ^ -50 * M`. -/
theorem variance_accuracy_partial {a : Arr} (ha : a ≠ []) (hlen : a.length ≤ 2 ^ 47) (hf : ∀ p ∈ a, ∀ i, IsFloat (p i)) :
    ∃ v avg, rCalcVariance R a = .ok (v, avg :: a.tail) ∧ ∀ i M, (∀ p ∈ a, |p i| ≤ M) →
      |v i - variance a i| ≤ a.length * 2 ^ (-48 : ℤ) * M ^ 2 ∧ |avg i - mean a i| ≤ a.length * 2 ^ (-50 : ℤ) * M := by
  cases a with
  | nil => exact absurd rfl ha
  | cons p0 rest =>
    refine ⟨_, _, rfl, fun i M hM => ?_⟩
    obtain ⟨var, arr, h1, h2, h3⟩ := calcVariance_cons p0 rest
    rw [calcVariance] at h1
    simp only [Except.ok.injEq, Prod.mk.injEq] at h1
    obtain ⟨rfl, rfl⟩ := h1
    have h0 := hM p0 (List.mem_cons_self ..)
    have hM0 : 0 ≤ M := (abs_nonneg _).trans h0
    obtain ⟨k1, k2, k3⟩ := loops_near R (M := M) i rest 1 le_rfl (by rw [List.length_cons] at hlen; omega) p0 (fun _ => 0) p0 (fun _ => 0)
      (hf p0 (List.mem_cons_self ..) i) (fun p hp => hf p (List.mem_cons_of_mem _ hp) i) (fun p hp => hM p (List.mem_cons_of_mem _ hp)) h0 h0
      (by simp; positivity) (by simp; positivity) (by simp; positivity)
    have e3 := congrFun (List.cons.inj h3).1 i
    have e2 := h2 i
    simp only at e2 e3
    rw [← e2, ← e3]
    have hl : ((p0 :: rest).length : ℝ) = 1 + (rest.length : ℝ) := by push_cast [List.length_cons]; ring
    rw [hl, add_comm (rest.length : ℝ) 1]
    have hN1 : (1 : ℝ) ≤ 1 + (rest.length : ℝ) := by
      have : (0 : ℝ) ≤ (rest.length : ℝ) := Nat.cast_nonneg _
      linarith
    have hNu : (1 + (rest.length : ℝ)) * 2 ^ (-53 : ℤ) ≤ 1 / 64 := by
      have : (1 + (rest.length : ℝ)) ≤ 2 ^ 47 := by
        rw [List.length_cons] at hlen
        have : 1 + rest.length ≤ 2 ^ 47 := by omega
        exact_mod_cast this
      norm_num at this ⊢
      linarith
    rw [Nat.cast_one] at k1 k2 k3
    generalize (rVarLoop R rest 1 p0 fun _ => 0).2 i = s at *
    generalize (varLoop rest 1 p0 fun _ => 0).2 i = S at *
    generalize (rVarLoop R rest 1 p0 fun _ => 0).1 i = b at *
    generalize (varLoop rest 1 p0 fun _ => 0).1 i = B at *
    generalize 1 + (rest.length : ℝ) = N at *
    have hN0 : 0 < N := by linarith
    constructor
    · have hu : (0 : ℝ) ≤ 2 ^ (-53 : ℤ) := by positivity
      have h48 : (2 : ℝ) ^ (-48 : ℤ) = 32 * 2 ^ (-53 : ℤ) := by norm_num
      rw [h48]
      have er := R.error (s / N)
      generalize (2 : ℝ) ^ (-53 : ℤ) = u at *
      have hP : 0 ≤ M ^ 2 * N := by positivity
      have b1 : |s| ≤ 4.5 * (M ^ 2 * N) := by
        have := abs_add_le (s - S) S
        rw [sub_add_cancel] at this
        have q1 : 20 * (M ^ 2 * u) * N ^ 2 = 20 * (M ^ 2 * N) * (N * u) := by ring
        have q2 : 20 * (M ^ 2 * N) * (N * u) ≤ 20 * (M ^ 2 * N) * (1 / 64) := mul_le_mul_of_nonneg_left hNu (by positivity)
        have q3 : 4 * M ^ 2 * N = 4 * (M ^ 2 * N) := by ring
        linarith
      have b2 : |s / N| ≤ 4.5 * M ^ 2 := by
        rw [abs_div, abs_of_pos hN0, div_le_iff₀ hN0]
        linarith
      have b3 : |s / N - S / N| ≤ 20 * (M ^ 2 * u) * N := by
        rw [← sub_div, abs_div, abs_of_pos hN0, div_le_iff₀ hN0]
        linarith
      have b4 : |R.rnd (s / N) - s / N| ≤ 4.5 * (M ^ 2 * u) := er.trans ((mul_le_mul_of_nonneg_right b2 hu).trans (le_of_eq (by ring)))
      have b5 := abs_add_le (R.rnd (s / N) - s / N) (s / N - S / N)
      rw [sub_add_sub_cancel] at b5
      have hMu : 0 ≤ M ^ 2 * u := by positivity
      have b6 : M ^ 2 * u ≤ M ^ 2 * u * N := le_mul_of_one_le_right hMu hN1
      have b7 : N * (32 * u) * M ^ 2 = 32 * (M ^ 2 * u * N) := by ring
      linarith
    · refine k1.trans ?_
      have : 0 ≤ M * N := by positivity
      norm_num
      linarith

/-- **C157 is not true relative to the variance.** Two particles next to each other with an even number first: the variance is twice what it should be. -/
theorem variance_pair_fails (hR : R.TiesEven) (k e : ℤ) (h1 : 2 ^ 52 < 2 * k) (h2 : 2 * k < 2 ^ 53) (p q : Vec) (i : Fin 6)
    (hp : p i = 2 * k * 2 ^ e) (hq : q i = (2 * k + 1) * 2 ^ e) :
    ∃ v avg, rCalcVariance R [p, q] = .ok (v, [avg, q]) ∧ v i = 2 * variance [p, q] i ∧ 0 < variance [p, q] i := by
  refine ⟨_, _, rfl, ?_⟩
  have hd : q i - p i = 2 ^ e := by rw [hp, hq]; ring
  have g1 : R.rnd (q i - p i) = 2 ^ e := by rw [hd, R.fixed (isFloat_zpow e)]
  have hv : variance [p, q] i = 2 ^ e * 2 ^ e / 4 := by
    unfold variance cov mean
    simp only [List.map_cons, List.map_nil, List.sum_cons, List.sum_nil, List.length_cons, List.length_nil]
    rw [hp, hq]
    push_cast
    ring
  have he := two_zpow_pos e
  refine ⟨?_, by rw [hv]; positivity⟩
  have h3 := (hR k e h1 h2.le).1
  have g2 : R.rnd (p i + R.rnd (2 ^ e / 2)) = p i := by
    rw [show (2 : ℝ) ^ e / 2 = 2 ^ (e - 1) by rw [half_zpow e]; ring, R.fixed (isFloat_zpow _), hp, h3]
  have g4 : IsFloat ((2 : ℝ) ^ e * 2 ^ e) := by
    rw [← zpow_add₀ (by norm_num)]
    exact isFloat_zpow _
  have g5 : IsFloat ((2 : ℝ) ^ e * 2 ^ e / 2) := by
    rw [← zpow_add₀ (by norm_num), half_zpow, mul_div_cancel_left₀ _ (by norm_num)]
    exact isFloat_zpow _
  simp only [rVarLoop, g1, zero_add, List.length_cons, List.length_nil]
  rw [Nat.cast_one, one_add_one_eq_two, g2, g1, R.fixed g4, R.fixed g4, R.fixed g5, hv]
  ring

/-- Particles to which C157 applies. -/
example : ∃ v avg, rCalcVariance Rounding.even [fun _ => 1, fun _ => 2, fun _ => 4] = .ok (v, avg :: [fun _ => 2, fun _ => 4]) ∧
    ∀ i M, (∀ p ∈ [(fun _ => 1 : Vec), fun _ => 2, fun _ => 4], |p i| ≤ M) →
      |v i - variance [fun _ => 1, fun _ => 2, fun _ => 4] i| ≤ (3 : ℕ) * 2 ^ (-48 : ℤ) * M ^ 2 ∧
      |avg i - mean [fun _ => 1, fun _ => 2, fun _ => 4] i| ≤ (3 : ℕ) * 2 ^ (-50 : ℤ) * M := by
  refine variance_accuracy_partial Rounding.even (by simp) (by simp) ?_
  intro p hp i
  simp only [List.mem_cons, List.not_mem_nil, or_false] at hp
  rcases hp with rfl | rfl | rfl
  · exact isFloat_one
  · exact ⟨2, 0, by norm_num, by norm_num⟩
  · exact ⟨4, 0, by norm_num, by norm_num⟩

end Verif.Stats6d
