import Verif.Stats6d.Rounded

/-!
# Rounded variances (C142)
-/

namespace Verif.Stats6d

open Verif.Py

variable (R : Rounding)

/-- One step of the average stays between the old average and the new value. -/
theorem step_between {a x : ℝ} (ha : IsFloat a) (hx : IsFloat x) {k : ℝ} (hk : 2 ≤ k) :
    (a ≤ x → a ≤ R.rnd (a + R.rnd (R.rnd (x - a) / k)) ∧ R.rnd (a + R.rnd (R.rnd (x - a) / k)) ≤ x) ∧
    (x ≤ a → x ≤ R.rnd (a + R.rnd (R.rnd (x - a) / k)) ∧ R.rnd (a + R.rnd (R.rnd (x - a) / k)) ≤ a) := by
  have hk0 : 0 < k := by linarith
  have hu : (2 : ℝ) ^ (-53 : ℤ) ≤ 1 / 8 := by norm_num
  -- the rounded step is at most the difference
  have key : ∀ d : ℝ, 0 ≤ d → 0 ≤ R.rnd (R.rnd d / k) ∧ R.rnd (R.rnd d / k) ≤ d := by
    intro d hd
    have h0 := R.nonneg hd
    have h1 : 0 ≤ R.rnd d / k := div_nonneg h0 hk0.le
    refine ⟨R.nonneg h1, ?_⟩
    have e1 := R.error d
    have e2 := R.error (R.rnd d / k)
    rw [abs_of_nonneg hd, abs_le] at e1
    rw [abs_of_nonneg h1, abs_le] at e2
    have h2 : R.rnd d / k ≤ R.rnd d / 2 := div_le_div_of_nonneg_left h0 (by norm_num) hk
    have m1 := mul_le_mul_of_nonneg_left hu hd
    have m2 := mul_le_mul_of_nonneg_left hu h1
    generalize R.rnd (R.rnd d / k) = w at *
    generalize R.rnd d / k = y at *
    generalize (2 : ℝ) ^ (-53 : ℤ) = u at *
    linarith [e1.2, e2.2]
  constructor
  · intro h
    obtain ⟨h1, h2⟩ := key (x - a) (by linarith)
    exact ⟨R.ge_of_ge ha (by linarith), R.le_of_le hx (by linarith)⟩
  · intro h
    obtain ⟨h1, h2⟩ := key (a - x) (by linarith)
    have h3 : R.rnd (R.rnd (x - a) / k) = -R.rnd (R.rnd (a - x) / k) := by
      rw [← R.odd, ← neg_div, ← R.odd, neg_sub]
    rw [h3]
    exact ⟨R.ge_of_ge hx (by linarith), R.le_of_le ha (by linarith)⟩

/-- The loop keeps the average in every interval that has the data, and the sum does not fall. -/
theorem rVarLoop_range (rest : Arr) (n : Nat) (hn : 1 ≤ n) (avg var : Vec) (i : Fin 6) (ha : IsFloat (avg i)) (hr : ∀ p ∈ rest, IsFloat (p i))
    (hv : IsFloat (var i)) :
    var i ≤ (rVarLoop R rest n avg var).2 i ∧
    ∀ lo hi, lo ≤ avg i → avg i ≤ hi → (∀ p ∈ rest, lo ≤ p i ∧ p i ≤ hi) →
      lo ≤ (rVarLoop R rest n avg var).1 i ∧ (rVarLoop R rest n avg var).1 i ≤ hi := by
  induction rest generalizing n avg var with
  | nil => exact ⟨le_refl _, fun lo hi h1 h2 _ => ⟨h1, h2⟩⟩
  | cons p rest ih =>
    have hk : (2 : ℝ) ≤ (n : ℝ) + 1 := by
      have : (1 : ℝ) ≤ n := by exact_mod_cast hn
      linarith
    obtain ⟨s1, s2⟩ := step_between R ha (hr p (List.mem_cons_self ..)) hk
    have h := ih (n + 1) (by omega) (fun i => R.rnd (avg i + R.rnd (R.rnd (p i - avg i) / ((n : ℝ) + 1))))
      (fun i => R.rnd (var i + R.rnd (R.rnd (p i - R.rnd (avg i + R.rnd (R.rnd (p i - avg i) / ((n : ℝ) + 1)))) * R.rnd (p i - avg i))))
      (R.isFloat _) (fun q hq => hr q (List.mem_cons_of_mem _ hq)) (R.isFloat _)
    rw [rVarLoop]
    refine ⟨le_trans (R.ge_of_ge hv ?_) h.1, ?_⟩
    · have : 0 ≤ R.rnd (R.rnd (p i - R.rnd (avg i + R.rnd (R.rnd (p i - avg i) / ((n : ℝ) + 1)))) * R.rnd (p i - avg i)) := by
        refine R.nonneg ?_
        rcases le_total (avg i) (p i) with hle | hle
        · obtain ⟨h1, h2⟩ := s1 hle
          exact mul_nonneg (R.nonneg (by linarith)) (R.nonneg (by linarith))
        · obtain ⟨h1, h2⟩ := s2 hle
          refine mul_nonneg_of_nonpos_of_nonpos ?_ ?_
          · exact R.le_of_le isFloat_zero (by linarith)
          · exact R.le_of_le isFloat_zero (by linarith)
      linarith
    · intro lo hi h1 h2 h3
      obtain ⟨h4, h5⟩ := h3 p (List.mem_cons_self ..)
      refine h.2 lo hi ?_ ?_ (fun q hq => h3 q (List.mem_cons_of_mem _ hq))
      · rcases le_total (avg i) (p i) with hle | hle
        · exact h1.trans (s1 hle).1
        · exact h4.trans (s2 hle).1
      · rcases le_total (avg i) (p i) with hle | hle
        · exact (s1 hle).2.trans h5
        · exact (s2 hle).2.trans h2

/-- **C142.** The rounded variances are never negative, so their square roots exist, and the average that is written to the first particle is in every
interval that has all values. -/
theorem rounded_variance {a : Arr} (hf : ∀ p ∈ a, ∀ i, IsFloat (p i)) {v : Vec} {a' : Arr} (h : rCalcVariance R a = .ok (v, a')) :
    (∀ i, 0 ≤ v i) ∧ ∃ avg, a' = avg :: a.tail ∧ ∀ i lo hi, (∀ p ∈ a, lo ≤ p i ∧ p i ≤ hi) → lo ≤ avg i ∧ avg i ≤ hi := by
  cases a with
  | nil => cases h
  | cons p0 rest =>
    rw [rCalcVariance] at h
    simp only [Except.ok.injEq, Prod.mk.injEq] at h
    obtain ⟨rfl, rfl⟩ := h
    have key := fun i => rVarLoop_range R rest 1 le_rfl p0 (fun _ => 0) i (hf p0 (List.mem_cons_self ..) i)
      (fun p hp => hf p (List.mem_cons_of_mem _ hp) i) isFloat_zero
    refine ⟨fun i => R.nonneg (div_nonneg (key i).1 (by positivity)), _, rfl, ?_⟩
    intro i lo hi hr
    obtain ⟨h1, h2⟩ := hr p0 (List.mem_cons_self ..)
    exact (key i).2 lo hi h1 h2 fun p hp => hr p (List.mem_cons_of_mem _ hp)

/-- **C142.** Equal values have the variance zero, and the first particle stays as it is. -/
theorem rounded_variance_equal {x : Vec} (hf : ∀ i, IsFloat (x i)) (n : Nat) :
    rCalcVariance R (List.replicate (n + 1) x) = .ok (fun _ => 0, List.replicate (n + 1) x) := by
  have key : ∀ n k, rVarLoop R (List.replicate n x) k x (fun _ => 0) = (x, fun _ => 0) := by
    intro n
    induction n with
    | zero => intro k; rfl
    | succ n ih =>
      intro k
      rw [List.replicate_succ, rVarLoop]
      have h1 : (fun i => R.rnd (x i + R.rnd (R.rnd (x i - x i) / ((k : ℝ) + 1)))) = x := by
        funext i
        rw [sub_self, R.rnd_zero, zero_div, R.rnd_zero, add_zero, R.fixed (hf i)]
      simp only [h1]
      simp only [sub_self, R.rnd_zero, mul_zero, add_zero]
      exact ih (k + 1)
  rw [List.replicate_succ, rCalcVariance, key]
  simp

/-- Two particles. -/
example : ∀ p ∈ [(fun _ => 1 : Vec), fun i => (i.val : ℝ)], ∀ i, IsFloat (p i) := by
  intro p hp i
  simp only [List.mem_cons, List.not_mem_nil, or_false] at hp
  rcases hp with rfl | rfl
  · exact isFloat_one
  · refine ⟨i.val, 0, ?_, by simp⟩
    have := i.isLt
    rw [abs_of_nonneg (by omega)]
    omega

end Verif.Stats6d
