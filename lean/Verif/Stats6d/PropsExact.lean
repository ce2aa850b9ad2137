import Verif.Stats6d.Props

/-!
# Properties C47-C49 exactly: statistics after the first particle was overwritten
-/

open scoped BigOperators

namespace Verif.Stats6d

/-- Covariances of the array in which the first particle was replaced by the mean. -/
theorem cov_overwritten (p0 : Vec) (rest : Arr) (i j : Fin 6) :
    cov (mean (p0 :: rest) :: rest) i j = cov (p0 :: rest) i j -
      (p0 i - mean (p0 :: rest) i) * (p0 j - mean (p0 :: rest) j) * ((p0 :: rest).length + 1) / (p0 :: rest).length ^ 2 := by
  have hl : (rest.length : ℝ) + 1 ≠ 0 := by positivity
  rw [cov_eq _ (by simp), cov_eq _ (by simp)]
  unfold mean
  simp only [List.map_cons, List.sum_cons, List.length_cons]
  push_cast
  generalize (rest.map fun p => p i).sum = si
  generalize (rest.map fun p => p j).sum = sj
  generalize (rest.map fun p => p i * p j).sum = sij
  field_simp
  ring

/-- **C47, asking twice.** The second call of `calc_variance6d` on the same array gives the variance less
`d² (n + 1) / n²`, where `d` is the distance of the first particle from the mean. -/
theorem variance_twice_exact (p0 : Vec) (rest : Arr) : ∃ v1 v2 a1 a2,
    calcVariance (p0 :: rest) = .ok (v1, a1) ∧ calcVariance a1 = .ok (v2, a2) ∧
      ∀ i, v2 i = v1 i - (p0 i - mean (p0 :: rest) i) ^ 2 * ((p0 :: rest).length + 1) / (p0 :: rest).length ^ 2 := by
  obtain ⟨v1, a1, h1, h2, h3⟩ := calcVariance_cons p0 rest
  obtain ⟨v2, a2, h4, h5, -⟩ := calcVariance_cons (mean (p0 :: rest)) rest
  refine ⟨v1, v2, a1, a2, h1, ?_, ?_⟩
  · rw [h3]; exact h4
  · intro i
    rw [h5, h2, variance, cov_overwritten, variance]
    ring

/-- **C47, false.** Unless the first particle is at the mean, the second answer is smaller. -/
theorem variance_smaller_fails (p0 : Vec) (rest : Arr) (i : Fin 6) (hp : p0 i ≠ mean (p0 :: rest) i) (v1 v2 : Vec) (a1 a2 : Arr)
    (h1 : calcVariance (p0 :: rest) = .ok (v1, a1)) (h2 : calcVariance a1 = .ok (v2, a2)) : v2 i < v1 i := by
  obtain ⟨w1, w2, b1, b2, h3, h4, h5⟩ := variance_twice_exact p0 rest
  rw [h3] at h1
  simp only [Except.ok.injEq, Prod.mk.injEq] at h1
  obtain ⟨rfl, rfl⟩ := h1
  rw [h4] at h2
  simp only [Except.ok.injEq, Prod.mk.injEq] at h2
  obtain ⟨rfl, rfl⟩ := h2
  rw [h5 i]
  have : 0 < (p0 i - mean (p0 :: rest) i) ^ 2 := by
    have := sub_ne_zero.2 hp
    positivity
  have hn : (0 : ℝ) < (p0 :: rest).length := by simp; positivity
  have : 0 < (p0 i - mean (p0 :: rest) i) ^ 2 * ((p0 :: rest).length + 1) / (p0 :: rest).length ^ 2 := by positivity
  linarith

/-- **C48, what normalising gives.** After `normalize_rms6d` the variance is one less a term with the distance of the first particle from the mean. -/
theorem normalize_rms_exact (p0 : Vec) (rest : Arr) : ∃ arr, normalizeRms (p0 :: rest) = .ok arr ∧ ∀ i, 0 < variance (p0 :: rest) i →
    variance arr i = 1 - (p0 i - mean (p0 :: rest) i) ^ 2 * ((p0 :: rest).length + 1) / ((p0 :: rest).length ^ 2 * variance (p0 :: rest) i) := by
  obtain ⟨var, arr, h1, h2, h3⟩ := calcVariance_cons p0 rest
  refine ⟨_, by unfold normalizeRms calcRms; rw [h1]; rfl, ?_⟩
  intro i hv
  simp only
  rw [h3]
  have e : (((fun i => mean (p0 :: rest) i) :: rest).map fun p => fun i => p i * (1 / Real.sqrt (var i))) =
      (mean (p0 :: rest) :: rest).map fun p => fun i => p i * (1 / Real.sqrt (var i)) + (0 : ℝ) := by
    apply List.map_congr_left; intro p _; funext i; ring
  rw [e, variance, cov_map_affine _ (by simp) (fun i => 1 / Real.sqrt (var i)) (fun _ => 0), cov_overwritten, h2 i]
  have hs := Real.mul_self_sqrt hv.le
  have hs0 : 0 < Real.sqrt (variance (p0 :: rest) i) := Real.sqrt_pos.2 hv
  have hc : cov (p0 :: rest) i i = variance (p0 :: rest) i := rfl
  rw [hc]
  have hn : ((p0 :: rest).length : ℝ) ≠ 0 := by simp; positivity
  generalize Real.sqrt (variance (p0 :: rest) i) = s at *
  generalize variance (p0 :: rest) i = V at *
  subst hs
  field_simp

/-- **C48, exact condition.** A variance that was not zero is one after normalising exactly if the first particle was at the mean. -/
theorem normalize_rms_iff (p0 : Vec) (rest : Arr) (i : Fin 6) (hv : 0 < variance (p0 :: rest) i) (arr : Arr) (h : normalizeRms (p0 :: rest) = .ok arr) :
    variance arr i = 1 ↔ p0 i = mean (p0 :: rest) i := by
  obtain ⟨arr', h1, h2⟩ := normalize_rms_exact p0 rest
  rw [h1, Except.ok.injEq] at h
  subst h
  rw [h2 i hv]
  have hn : ((p0 :: rest).length : ℝ) ≠ 0 := by simp; positivity
  have hn1 : ((p0 :: rest).length : ℝ) + 1 ≠ 0 := by positivity
  rw [sub_eq_self, div_eq_zero_iff, or_iff_left (mul_ne_zero (pow_ne_zero 2 hn) hv.ne'), mul_eq_zero, or_iff_left hn1, sq_eq_zero_iff, sub_eq_zero]

/-- **C49, exact condition.** An entry beside the diagonal is the covariance exactly if the first particle is at the mean in one of the two coordinates. -/
theorem correlations_iff (p0 : Vec) (rest : Arr) (m : Fin 6 → Fin 6 → ℝ) (arr : Arr) (h : calcCorrelations (p0 :: rest) = .ok (m, arr)) (i j : Fin 6) (hij : i ≠ j) :
    m i j = cov (p0 :: rest) i j ↔ p0 i = mean (p0 :: rest) i ∨ p0 j = mean (p0 :: rest) j := by
  obtain ⟨m', arr', h1, -, -, h2⟩ := correlations_exact p0 rest
  rw [h1] at h
  simp only [Except.ok.injEq, Prod.mk.injEq] at h
  obtain ⟨rfl, rfl⟩ := h
  have hn : ((p0 :: rest).length : ℝ) ≠ 0 := by simp; positivity
  rw [h2 i j hij, sub_eq_self, div_eq_zero_iff, or_iff_left hn, mul_eq_zero, sub_eq_zero, sub_eq_zero]

/-- The matrix that is computed is positive semidefinite. -/
theorem correlations_psd (p0 : Vec) (rest : Arr) (m : Fin 6 → Fin 6 → ℝ) (arr : Arr) (h : calcCorrelations (p0 :: rest) = .ok (m, arr)) :
    Symmetric m ∧ PosSemidef m := by
  obtain ⟨m', arr', h1, hs, hd, ho⟩ := correlations_exact p0 rest
  rw [h1] at h
  simp only [Except.ok.injEq, Prod.mk.injEq] at h
  obtain ⟨rfl, rfl⟩ := h
  refine ⟨hs, ?_⟩
  intro x
  set μ := mean (p0 :: rest) with hμ
  set n : ℝ := ((p0 :: rest).length : ℝ) with hn
  have hn0 : 0 < n := by rw [hn]; simp; positivity
  have hm : ∀ i j, m' i j = (rest.map fun p => (p i - μ i) * (p j - μ j)).sum / n + if i = j then (p0 i - μ i) ^ 2 / n else 0 := by
    intro i j
    by_cases hij : i = j
    · subst hij
      rw [hd, variance, cov, List.map_cons, List.sum_cons, ← hμ, ← hn, if_pos rfl]
      ring
    · rw [ho i j hij, cov, List.map_cons, List.sum_cons, ← hμ, ← hn, if_neg hij]
      ring
  have e : ∑ i, ∑ j, x i * m' i j * x j = (rest.map fun p => (∑ i, x i * (p i - μ i)) ^ 2).sum / n + ∑ i, x i ^ 2 * (p0 i - μ i) ^ 2 / n := by
    have e2 : ∀ p : Vec, (∑ i, x i * (p i - μ i)) ^ 2 = ∑ i, ∑ j, (x i * x j) * ((p i - μ i) * (p j - μ j)) := by
      intro p
      rw [pow_two, Finset.sum_mul_sum]
      refine Finset.sum_congr rfl fun k _ => Finset.sum_congr rfl fun l _ => ?_
      ring
    simp only [e2, sum_map_finset, Finset.sum_div, List.sum_map_mul_left, hm]
    rw [← Finset.sum_add_distrib]
    refine Finset.sum_congr rfl fun k _ => ?_
    have : ∀ l, x k * ((rest.map fun p => (p k - μ k) * (p l - μ l)).sum / n + if k = l then (p0 k - μ k) ^ 2 / n else 0) * x l =
        x k * x l * (rest.map fun p => (p k - μ k) * (p l - μ l)).sum / n + if k = l then x k * x l * (p0 k - μ k) ^ 2 / n else 0 := by
      intro l
      split <;> ring
    simp only [this, Finset.sum_add_distrib, Finset.sum_ite_eq, Finset.mem_univ, if_true]
    ring
  rw [e]
  refine add_nonneg (div_nonneg (List.sum_nonneg ?_) hn0.le) (Finset.sum_nonneg fun i _ => by positivity)
  intro y hy
  obtain ⟨p, -, rfl⟩ := List.mem_map.mp hy
  exact sq_nonneg _

/-- **C49, what is left after the removal.** If `rm_correlations6d` returns, the covariances that remain between different coordinates come
from the first particle alone: `v` is the orthogonal matrix by which the data were turned, and `d` the distance of the first particle from the mean. -/
theorem rm_correlations_exact (p0 : Vec) (rest : Arr) (arr : Arr) (h : rmCorrelations (p0 :: rest) = .ok arr) :
    ∃ v, Orthonormal v ∧ (∀ d : Vec, (∀ k, d k = p0 k - mean (p0 :: rest) k) → ∀ n : ℝ, n = (p0 :: rest).length → ∀ i j, i ≠ j →
      cov arr i j = -(∑ k, v k i * v k j * d k ^ 2) / n - (∑ k, v k i * d k) * (∑ k, v k j * d k) / n ^ 2) ∧
      arr = (mean (p0 :: rest) :: rest).map fun p => fun i => ∑ k, v k i * p k := by
  obtain ⟨m, arr', h1, hsym, hdiag, hoff⟩ := correlations_exact p0 rest
  obtain ⟨hs, hpsd⟩ := correlations_psd p0 rest m arr' h1
  have harr : arr' = mean (p0 :: rest) :: rest := by
    obtain ⟨var, h2⟩ := variance_overwrites p0 rest
    unfold calcCorrelations at h1
    rw [h2] at h1
    simp only [Except.map, Except.ok.injEq, Prod.mk.injEq] at h1
    exact h1.2.symm
  unfold rmCorrelations at h
  rw [h1, harr] at h
  simp only [bind, Except.bind] at h
  cases hj : jacobi m with
  | error e => rw [hj] at h; cases h
  | ok r =>
    obtain ⟨ev, v⟩ := r
    rw [hj] at h
    simp only [Except.ok.injEq] at h
    obtain ⟨ho, he⟩ := jacobi_correct m hs hpsd ev v hj
    refine ⟨v, ho, ?_, ?_⟩
    · intro d hd n hn i j hij
      have hn0 : n ≠ 0 := by rw [hn]; simp; positivity
      rw [← h, cov_rotate]
      have hc : ∀ k l, cov (mean (p0 :: rest) :: rest) k l = m k l - (if k = l then d k ^ 2 / n else 0) - d k * d l / n ^ 2 := by
        intro k l
        rw [cov_overwritten, ← hd, ← hd, ← hn]
        by_cases hkl : k = l
        · subst hkl
          rw [hdiag, if_pos rfl, variance]
          field_simp
          ring
        · rw [hoff k l hkl, if_neg hkl, ← hd, ← hd, ← hn]
          field_simp
          ring
      have h3 : ∀ k, ∑ l, v k i * cov (mean (p0 :: rest) :: rest) k l * v l j =
          ev j * (v k i * v k j) - v k i * v k j * d k ^ 2 / n - v k i * d k * (∑ l, v l j * d l) / n ^ 2 := by
        intro k
        have e1 : ev j * (v k i * v k j) = ∑ l, v k i * m k l * v l j := by
          rw [show ev j * (v k i * v k j) = v k i * (ev j * v k j) by ring, ← he k j, Finset.mul_sum]
          exact Finset.sum_congr rfl fun l _ => by ring
        have e2 : v k i * v k j * d k ^ 2 / n = ∑ l, if k = l then v k i * v l j * d k ^ 2 / n else 0 := by
          rw [Finset.sum_ite_eq]
          simp
        have e3 : v k i * d k * (∑ l, v l j * d l) / n ^ 2 = ∑ l, v k i * d k * (v l j * d l) / n ^ 2 := by
          rw [Finset.mul_sum, Finset.sum_div]
        rw [e1, e2, e3, ← Finset.sum_sub_distrib, ← Finset.sum_sub_distrib]
        refine Finset.sum_congr rfl fun l _ => ?_
        rw [hc]
        split <;> ring
      simp only [h3, Finset.sum_sub_distrib, ← Finset.mul_sum, ho i j, if_neg hij, mul_zero, ← Finset.sum_div, ← Finset.sum_mul]
      ring
    · rw [← h]
      unfold rotate
      refine List.map_congr_left fun p _ => ?_
      funext i
      rw [← List.sum_toFinset _ (List.nodup_finRange 6), List.toFinset_finRange]

example : ∃ v1 v2 a1 a2, calcVariance twoParticles = .ok (v1, a1) ∧ calcVariance a1 = .ok (v2, a2) ∧ v2 3 < v1 3 := by
  obtain ⟨v1, v2, a1, a2, h1, h2, -⟩ := variance_twice_exact (fun _ => 0) [fun _ => 2]
  exact ⟨v1, v2, a1, a2, h1, h2, variance_smaller_fails _ _ 3 (by norm_num [mean]) v1 v2 a1 a2 h1 h2⟩

example : ∃ arr, normalizeRms twoParticles = .ok arr ∧ variance arr 2 = 1 / 4 ∧ variance arr 2 ≠ 1 := by
  have hv : 0 < variance ((fun _ => 0) :: [fun _ => 2]) 2 := by norm_num [variance, cov, mean]
  obtain ⟨arr, h1, h2⟩ := normalize_rms_exact (fun _ => 0) [fun _ => 2]
  refine ⟨arr, h1, ?_, ?_⟩
  · rw [h2 2 hv]
    norm_num [variance, cov, mean]
  · rw [Ne, normalize_rms_iff _ _ 2 hv arr h1]
    norm_num [mean]

/-- The first particle is at the mean in the second coordinate only. -/
example : ∃ m arr, calcCorrelations [fun _ => 0, fun i => if i = 1 then 0 else 2] = .ok (m, arr) ∧
    m 0 1 = cov [fun _ => 0, fun i => if i = 1 then 0 else 2] 0 1 ∧ m 0 2 ≠ cov [fun _ => 0, fun i => if i = 1 then 0 else 2] 0 2 := by
  obtain ⟨m, arr, h, -⟩ := correlations_exact (fun _ => 0) [fun i => if i = 1 then 0 else 2]
  refine ⟨m, arr, h, (correlations_iff _ _ m arr h 0 1 (by decide)).2 (.inr (by norm_num [mean])), ?_⟩
  rw [Ne, correlations_iff _ _ m arr h 0 2 (by decide)]
  have h2 : ¬ ((2 : Fin 6) = 1) := by decide
  norm_num [mean, h2]

/-- The data of `rm_correlations_fails` meet the hypothesis of `rm_correlations_exact`; what is left is not zero. -/
example : ∃ p0 rest arr v, rmCorrelations (p0 :: rest) = .ok arr ∧ Orthonormal v ∧ cov arr 0 1 ≠ 0 := by
  obtain ⟨a, arr, h, hne⟩ := rm_correlations_fails
  cases a with
  | nil => cases h
  | cons p0 rest =>
    obtain ⟨v, hv, -⟩ := rm_correlations_exact p0 rest arr h
    exact ⟨p0, rest, arr, v, h, hv, hne⟩

end Verif.Stats6d
