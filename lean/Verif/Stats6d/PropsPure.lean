import Verif.Stats6d.PropsExact

/-!
C47 for all three functions it names: `calc_variance6d`, `calc_rms6d` and `calc_correlations6d` (stats6d.py:25-37, 50-65).
-/

namespace Verif.Stats6d

/-- **C47, all three functions.** Each of them replaces the first particle of the caller's array by the mean. -/
theorem statistics_overwrite (p0 : Vec) (rest : Arr) : ∃ var rms cor,
    calcVariance (p0 :: rest) = .ok (var, mean (p0 :: rest) :: rest) ∧
    calcRms (p0 :: rest) = .ok (rms, mean (p0 :: rest) :: rest) ∧
    calcCorrelations (p0 :: rest) = .ok (cor, mean (p0 :: rest) :: rest) ∧
    (∀ i, rms i = Real.sqrt (var i)) ∧ ∀ i, cor i i = var i := by
  obtain ⟨var, h⟩ := variance_overwrites p0 rest
  refine ⟨var, fun i => Real.sqrt (var i), fun i j => if i = j then var i
      else ((mean (p0 :: rest) :: rest).map fun p => (p i - calcAvg (p0 :: rest) i) * (p j - calcAvg (p0 :: rest) j)).sum / (p0 :: rest).length,
    h, by simp only [calcRms, h, Except.map], by simp only [calcCorrelations, h, Except.map], fun i => rfl, fun i => ?_⟩
  simp

theorem variance_nonneg' (a : Arr) (i : Fin 6) : 0 ≤ variance a i := by
  have h := cov_psd a (fun k => if k = i then 1 else 0)
  simpa [variance] using h

/-- **C47, exactly.** For each of the three functions, two calls in a row give the same answer if and only if the first particle
is at the mean. -/
theorem statistics_twice_iff (p0 : Vec) (rest : Arr) :
    (∀ v1 v2 a1 a2, calcVariance (p0 :: rest) = .ok (v1, a1) → calcVariance a1 = .ok (v2, a2) →
      (v1 = v2 ↔ p0 = mean (p0 :: rest)) ∧ (a1 = p0 :: rest ↔ p0 = mean (p0 :: rest))) ∧
    (∀ v1 v2 a1 a2, calcRms (p0 :: rest) = .ok (v1, a1) → calcRms a1 = .ok (v2, a2) →
      (v1 = v2 ↔ p0 = mean (p0 :: rest)) ∧ (a1 = p0 :: rest ↔ p0 = mean (p0 :: rest))) ∧
    (∀ v1 v2 a1 a2, calcCorrelations (p0 :: rest) = .ok (v1, a1) → calcCorrelations a1 = .ok (v2, a2) →
      (v1 = v2 ↔ p0 = mean (p0 :: rest)) ∧ (a1 = p0 :: rest ↔ p0 = mean (p0 :: rest))) := by
  obtain ⟨w1, b1, e1, e2, e3⟩ := calcVariance_cons p0 rest
  obtain ⟨w2, b2, e4, e5, e6⟩ := calcVariance_cons (mean (p0 :: rest)) rest
  have harr : b1 = p0 :: rest ↔ p0 = mean (p0 :: rest) := by
    rw [e3]
    constructor
    · intro h
      injection h with h _
      exact h.symm
    · intro h
      rw [← h]
  subst e3
  have hsame : p0 = mean (p0 :: rest) → w1 = w2 := by
    intro h
    rw [← h, e1] at e4
    injection e4 with e4
    injection e4
  have hdiff : (∀ i, w1 i = w2 i) → p0 = mean (p0 :: rest) := by
    intro h
    funext i
    by_contra hne
    have := variance_smaller_fails p0 rest i hne w1 w2 _ _ e1 e4
    rw [h i] at this
    exact lt_irrefl _ this
  refine ⟨?_, ?_, ?_⟩
  · intro v1 v2 a1 a2 h1 h2
    rw [e1] at h1
    simp only [Except.ok.injEq, Prod.mk.injEq] at h1
    obtain ⟨rfl, rfl⟩ := h1
    rw [e4] at h2
    simp only [Except.ok.injEq, Prod.mk.injEq] at h2
    obtain ⟨rfl, rfl⟩ := h2
    exact ⟨⟨fun h => hdiff fun i => by rw [h], hsame⟩, harr⟩
  · intro v1 v2 a1 a2 h1 h2
    simp only [calcRms, e1, Except.map, Except.ok.injEq, Prod.mk.injEq] at h1
    obtain ⟨rfl, rfl⟩ := h1
    simp only [calcRms, e4, Except.map, Except.ok.injEq, Prod.mk.injEq] at h2
    obtain ⟨rfl, rfl⟩ := h2
    refine ⟨⟨fun h => hdiff fun i => ?_, fun h => by rw [hsame h]⟩, harr⟩
    have := congrFun h i
    have n1 : 0 ≤ w1 i := by rw [e2]; exact variance_nonneg' _ _
    have n2 : 0 ≤ w2 i := by rw [e5]; exact variance_nonneg' _ _
    exact (Real.sqrt_inj n1 n2).1 this
  · intro v1 v2 a1 a2 h1 h2
    have h1' := h1
    simp only [calcCorrelations, e1, Except.map, Except.ok.injEq, Prod.mk.injEq] at h1
    obtain ⟨rfl, rfl⟩ := h1
    refine ⟨⟨fun h => hdiff fun i => ?_, fun h => ?_⟩, harr⟩
    · simp only [calcCorrelations, e4, Except.map, Except.ok.injEq, Prod.mk.injEq] at h2
      obtain ⟨rfl, rfl⟩ := h2
      have := congrFun (congrFun h i) i
      simpa using this
    · rw [← h] at h2
      rw [h2] at h1'
      injection h1' with h1'
      injection h1' with h1' _
      exact h1'.symm

/-- Non-vacuity: with particles at 0 and 2 the two answers differ. -/
example : ∃ v1 v2 a1 a2, calcRms twoParticles = .ok (v1, a1) ∧ calcRms a1 = .ok (v2, a2) ∧ v1 ≠ v2 := by
  obtain ⟨_, rms, _, _, h1, _, _, _⟩ := statistics_overwrite (fun _ => 0) [fun _ => 2]
  obtain ⟨_, rms2, _, _, h2, _, _, _⟩ := statistics_overwrite (mean twoParticles) [fun _ => 2]
  refine ⟨rms, rms2, _, _, h1, h2, fun h => ?_⟩
  have := (((statistics_twice_iff (fun _ => 0) [fun _ => 2]).2.1 rms rms2 _ _ h1 h2).1).1 h
  have := congrFun this 0
  norm_num [mean] at this

end Verif.Stats6d
