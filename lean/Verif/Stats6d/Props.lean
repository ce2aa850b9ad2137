import Mathlib.Tactic.NormNum
import Mathlib.Tactic.FinCases
import Mathlib.Algebra.BigOperators.Field
import Mathlib.LinearAlgebra.Matrix.NonsingularInverse
import Verif.Stats6d.Lemmas
import Verif.Stats6d.LemmasJacobi3

/-!
# Properties C46-C50: `rsbeams.rsstats.stats6d`
-/

open scoped BigOperators

namespace Verif.Stats6d

/-- **C46.** `calc_avg6d` returns the mean and `calc_variance6d` the population variance of
every coordinate, for every non-empty array. -/
theorem variance_correct (a : Arr) (h : a ≠ []) :
    (∀ i, calcAvg a i = mean a i) ∧
    ∃ var arr, calcVariance a = .ok (var, arr) ∧ ∀ i, var i = variance a i := by
  refine ⟨fun _ => rfl, ?_⟩
  cases a with
  | nil => exact absurd rfl h
  | cons p0 rest =>
    obtain ⟨var, arr, h1, h2, -⟩ := calcVariance_cons p0 rest
    exact ⟨var, arr, h1, h2⟩

/-- An empty array makes `calc_variance6d` raise. -/
theorem variance_empty : calcVariance [] = .error .indexError := rfl

/-- **C47, what really happens.** `calc_variance6d` replaces the first particle of the
caller's array by the mean and keeps the others. -/
theorem variance_overwrites (p0 : Vec) (rest : Arr) :
    ∃ var, calcVariance (p0 :: rest) = .ok (var, mean (p0 :: rest) :: rest) := by
  obtain ⟨var, arr, h1, -, h3⟩ := calcVariance_cons p0 rest
  exact ⟨var, by rw [h1, h3]⟩

/-- **C47, exact condition.** The array is unchanged exactly when the first particle is the
mean. -/
theorem variance_pure_partial (p0 : Vec) (rest : Arr) (var : Vec) (arr : Arr)
    (h : calcVariance (p0 :: rest) = .ok (var, arr)) :
    arr = p0 :: rest ↔ ∀ i, p0 i = mean (p0 :: rest) i := by
  obtain ⟨var', h'⟩ := variance_overwrites p0 rest
  rw [h'] at h
  injection h with h
  injection h with _ h
  subst h
  constructor
  · intro hh i
    injection hh with hh _
    rw [hh]
  · intro hh
    congr 1
    funext i
    exact (hh i).symm

/-- Two particles at 0 and 2 in the first coordinate. -/
def twoParticles : Arr := [fun _ => 0, fun _ => 2]

/-- **C47 fails.** Calling `calc_variance6d` twice on the same array gives two different
answers (1, then 1/4). -/
theorem variance_twice_fails : ∃ (a : Arr) (v1 v2 : Vec) (a1 a2 : Arr),
    calcVariance a = .ok (v1, a1) ∧ calcVariance a1 = .ok (v2, a2) ∧ a1 ≠ a ∧ v1 0 ≠ v2 0 := by
  refine ⟨twoParticles, _, _, _, _, rfl, rfl, ?_, ?_⟩
  · intro h
    have := congrArg (fun l => (l.map (· 0)).sum) h
    norm_num [twoParticles, varLoop] at this
  · norm_num [twoParticles, varLoop]

/-- **C48, centering.** After `sub_avg6d` every average is zero and all covariances
(variances included) are unchanged. -/
theorem sub_avg_centers (a : Arr) (h : a ≠ []) (i j : Fin 6) :
    mean (subAvg a) i = 0 ∧ cov (subAvg a) i j = cov a i j ∧ (subAvg a).length = a.length := by
  have e : subAvg a = a.map fun p => fun i => p i * (1 : ℝ) + (- calcAvg a i) := by
    unfold subAvg
    apply List.map_congr_left
    intro p _
    funext i
    ring
  refine ⟨?_, ?_, by simp [subAvg]⟩
  · rw [e, mean_map_affine a h (fun _ => 1) (fun i => - calcAvg a i)]
    unfold calcAvg mean
    ring
  · rw [e, cov_map_affine a h (fun _ => 1) (fun i => - calcAvg a i)]
    ring

/-- **C48, normalising, partial.** When the first particle is the mean (so that the hidden
overwrite changes nothing) and no rms is zero, `normalize_rms6d` makes every variance one.
Missing: the claim for other arrays, which is false (next theorem). -/
theorem normalize_rms_partial (p0 : Vec) (rest : Arr) (hp : ∀ i, p0 i = mean (p0 :: rest) i)
    (hv : ∀ i, 0 < variance (p0 :: rest) i) :
    ∃ arr, normalizeRms (p0 :: rest) = .ok arr ∧ ∀ i, variance arr i = 1 := by
  obtain ⟨var, arr, h1, h2, h3⟩ := calcVariance_cons p0 rest
  have harr : arr = p0 :: rest := (variance_pure_partial p0 rest var arr h1).mpr hp
  refine ⟨_, by unfold normalizeRms calcRms; rw [h1]; rfl, ?_⟩
  intro i
  simp only
  rw [harr]
  have e : ((p0 :: rest).map fun p => fun i => p i * (1 / Real.sqrt (var i))) =
      (p0 :: rest).map fun p => fun i => p i * (1 / Real.sqrt (var i)) + (0 : ℝ) := by
    apply List.map_congr_left; intro p _; funext i; ring
  rw [e, variance, cov_map_affine _ (by simp) (fun i => 1 / Real.sqrt (var i)) (fun _ => 0)]
  have hvi := hv i
  rw [h2 i]
  rw [variance] at hvi ⊢
  have hs : Real.sqrt (cov (p0 :: rest) i i) * Real.sqrt (cov (p0 :: rest) i i) =
      cov (p0 :: rest) i i := Real.mul_self_sqrt hvi.le
  have hs0 : Real.sqrt (cov (p0 :: rest) i i) ≠ 0 := (Real.sqrt_pos.mpr hvi).ne'
  have : cov (p0 :: rest) i i * (1 / Real.sqrt (cov (p0 :: rest) i i)) =
      Real.sqrt (cov (p0 :: rest) i i) := by
    rw [mul_one_div, div_eq_iff hs0]
    exact hs.symm
  simp only [this]
  field_simp

/-- **C48 fails for normalising.** The array with particles 0 and 2 has variance 1, so
normalising should not change it; afterwards its variance is 1/4. -/
theorem normalize_rms_fails : ∃ (a arr : Arr), (∀ i, variance a i = 1) ∧
    normalizeRms a = .ok arr ∧ variance arr 0 ≠ 1 := by
  refine ⟨twoParticles, _, ?_, rfl, ?_⟩
  · intro i; norm_num [twoParticles, variance, cov, mean]
  · norm_num [twoParticles, variance, cov, mean, varLoop]

/-- **C49, what is computed.** The matrix is symmetric, its diagonal has the variances, and
each off-diagonal entry is the covariance minus the contribution of the first particle. -/
theorem correlations_exact (p0 : Vec) (rest : Arr) :
    ∃ m arr, calcCorrelations (p0 :: rest) = .ok (m, arr) ∧
      (∀ i j, m i j = m j i) ∧
      (∀ i, m i i = variance (p0 :: rest) i) ∧
      (∀ i j, i ≠ j → m i j = cov (p0 :: rest) i j -
        (p0 i - mean (p0 :: rest) i) * (p0 j - mean (p0 :: rest) j) / (p0 :: rest).length) := by
  obtain ⟨var, arr, h1, h2, h3⟩ := calcVariance_cons p0 rest
  refine ⟨_, _, by unfold calcCorrelations; simp only; rw [h1]; rfl, ?_, ?_, ?_⟩
  · intro i j
    by_cases h : i = j
    · subst h; rfl
    · have h' : ¬ j = i := fun e => h e.symm
      simp only [h, h', if_false]
      congr 2
      apply List.map_congr_left
      intro p _
      ring
  · intro i
    simp only [if_true, h2]
  · intro i j hij
    simp only [hij, if_false]
    have e1 : ∀ i, calcAvg (p0 :: rest) i = mean (p0 :: rest) i := fun _ => rfl
    rw [h3]
    simp only [e1, cov, List.map_cons, List.sum_cons, sub_self, zero_mul, zero_add]
    ring

/-- **C49, partial.** The matrix is the covariance matrix when the first particle is the
mean. Missing: other arrays, where the claim is false (next theorem). -/
theorem correlations_partial (p0 : Vec) (rest : Arr) (hp : ∀ i, p0 i = mean (p0 :: rest) i) :
    ∃ m arr, calcCorrelations (p0 :: rest) = .ok (m, arr) ∧ ∀ i j, m i j = cov (p0 :: rest) i j := by
  obtain ⟨m, arr, h, -, h2, h3⟩ := correlations_exact p0 rest
  refine ⟨m, arr, h, ?_⟩
  intro i j
  by_cases hij : i = j
  · subst hij; exact h2 i
  · rw [h3 i j hij, hp i]; simp

/-- **C49 fails.** For two particles at (0,...,0) and (2,...,2) the covariance of two
different coordinates is 1, the code returns 1/2. -/
theorem correlations_fails : ∃ (a arr : Arr) (m : Fin 6 → Fin 6 → ℝ),
    calcCorrelations a = .ok (m, arr) ∧ m 0 1 ≠ cov a 0 1 := by
  refine ⟨twoParticles, _, _, rfl, ?_⟩
  norm_num [twoParticles, cov, mean, varLoop, calcAvg]

/-- **C50.** For a symmetric positive semidefinite matrix (any covariance matrix), if
`jacobi_eigen_solver6d` returns, then the returned eigenvector matrix is orthogonal and its
columns are eigenvectors of the input for the returned eigenvalues. -/
theorem jacobi_correct (m : Fin 6 → Fin 6 → ℝ) (hs : Symmetric m) (hpsd : PosSemidef m)
    (ev : Fin 6 → ℝ) (v : Fin 6 → Fin 6 → ℝ) (h : jacobi m = .ok (ev, v)) :
    Orthonormal v ∧ Eigen m ev v := by
  have hpsd' : PosSemidef fun i j => (Matrix.of m) i j := hpsd
  obtain ⟨h1, h2⟩ := jLoop_spec hpsd' 50 0 _ ev v (jInit_inv m hs) h
  constructor
  · intro i j
    have := congrFun (congrFun h1 i) j
    rw [Matrix.mul_apply] at this
    simpa [Matrix.one_apply] using this
  · intro i j
    have h1' : Matrix.of v * (Matrix.of v).transpose = 1 := mul_eq_one_comm.mp h1
    have h3 : Matrix.of m * Matrix.of v = Matrix.of v * Matrix.of fun i j => if i = j then ev i else 0 := by
      rw [← h2, ← Matrix.mul_assoc, ← Matrix.mul_assoc, h1', Matrix.one_mul]
    have := congrFun (congrFun h3 i) j
    rw [Matrix.mul_apply, Matrix.mul_apply] at this
    simp only [Matrix.of_apply, mul_ite, mul_zero, Finset.sum_ite_eq', Finset.mem_univ, if_true] at this
    rw [this]; ring

/-- **C50, the invariant.** Whatever rotations are made, in any number of sweeps, the
accumulated vectors stay orthonormal and the held matrix stays similar to the input: the
quadratic form of column `j` of the vectors is the current eigenvalue estimate. -/
theorem jacobi_invariant (m : Fin 6 → Fin 6 → ℝ) (hs : Symmetric m) (hpsd : PosSemidef m)
    (sweeps : List Nat) :
    let s := sweeps.foldl (fun s n => jSweep n s) (jInit m)
    Orthonormal s.vecs ∧ ∀ j, ∑ i, ∑ k, s.vecs i j * m i k * s.vecs k j = s.ev j := by
  have hpsd' : PosSemidef fun i j => (Matrix.of m) i j := hpsd
  have key : ∀ s, JInv (Matrix.of m) s →
      JInv (Matrix.of m) (sweeps.foldl (fun s n => jSweep n s) s) := by
    induction sweeps with
    | nil => intro s h; exact h
    | cons n l ih => intro s h; exact ih _ (jSweep_inv hpsd' n s h)
  have h := key _ (jInit_inv m hs)
  constructor
  · intro i j
    have := congrFun (congrFun h.orth i) j
    rw [Matrix.mul_apply] at this
    simpa [Matrix.one_apply] using this
  · intro j
    have := congrFun (congrFun h.sim j) j
    rw [Matrix.mul_apply] at this
    simp only [Matrix.mul_apply, Matrix.transpose_apply, Matrix.of_apply, Finset.sum_mul, full,
      if_true] at this
    rw [← this, Finset.sum_comm]

/-- Covariances of rotated data. -/
theorem cov_rotate (v : Fin 6 → Fin 6 → ℝ) (a : Arr) (i j : Fin 6) :
    cov (rotate v a) i j = ∑ k, ∑ l, v k i * cov a k l * v l j := by
  have hm : ∀ i, mean (rotate v a) i = ∑ k, v k i * mean a k := by
    intro i
    unfold mean rotate
    rw [List.length_map, List.map_map]
    simp only [Function.comp_def, ← List.ofFn_eq_map, List.sum_ofFn]
    rw [sum_map_finset]
    simp only [mul_div_assoc, List.sum_map_mul_left, Finset.sum_div]
  unfold cov
  simp only [hm]
  unfold rotate
  rw [List.length_map, List.map_map]
  simp only [Function.comp_def, ← List.ofFn_eq_map, List.sum_ofFn]
  have e : ∀ p : Vec, (∑ k, v k i * p k - ∑ k, v k i * mean a k) *
      (∑ k, v k j * p k - ∑ k, v k j * mean a k) =
      ∑ k, ∑ l, (v k i * v l j) * ((p k - mean a k) * (p l - mean a l)) := by
    intro p
    rw [← Finset.sum_sub_distrib, ← Finset.sum_sub_distrib, Finset.sum_mul_sum]
    refine Finset.sum_congr rfl fun k _ => Finset.sum_congr rfl fun l _ => ?_
    ring
  simp only [e, sum_map_finset, Finset.sum_div, List.sum_map_mul_left]
  refine Finset.sum_congr rfl fun k _ => Finset.sum_congr rfl fun l _ => ?_
  ring

/-- A covariance matrix is symmetric. -/
theorem cov_symm (a : Arr) : Symmetric (cov a) := by
  intro i j
  unfold cov
  congr 2
  apply List.map_congr_left
  intro p _
  ring

/-- A covariance matrix is positive semidefinite. -/
theorem cov_psd (a : Arr) : PosSemidef (cov a) := by
  intro x
  have e : ∑ i, ∑ j, x i * cov a i j * x j =
      (a.map fun p => (∑ i, x i * (p i - mean a i)) ^ 2).sum / (a.length : ℝ) := by
    have e2 : ∀ p : Vec, (∑ i, x i * (p i - mean a i)) ^ 2 =
        ∑ i, ∑ j, (x i * x j) * ((p i - mean a i) * (p j - mean a j)) := by
      intro p
      rw [pow_two, Finset.sum_mul_sum]
      refine Finset.sum_congr rfl fun k _ => Finset.sum_congr rfl fun l _ => ?_
      ring
    simp only [e2, sum_map_finset, Finset.sum_div, List.sum_map_mul_left, cov]
    refine Finset.sum_congr rfl fun k _ => Finset.sum_congr rfl fun l _ => ?_
    ring
  rw [e]
  apply div_nonneg _ (Nat.cast_nonneg _)
  apply List.sum_nonneg
  intro y hy
  obtain ⟨p, -, rfl⟩ := List.mem_map.mp hy
  exact sq_nonneg _

/-- **C49, removal of correlations, partial.** When the first particle is the mean and the
eigenvalue solver converges, `rm_correlations6d` leaves data whose coordinates are pairwise
uncorrelated. Missing: other arrays (next theorem). -/
theorem rm_correlations_partial (p0 : Vec) (rest : Arr) (hp : ∀ i, p0 i = mean (p0 :: rest) i)
    (arr : Arr) (h : rmCorrelations (p0 :: rest) = .ok arr) :
    arr.length = (p0 :: rest).length ∧ ∀ i j, i ≠ j → cov arr i j = 0 := by
  obtain ⟨m, arr', h1, hm⟩ := correlations_partial p0 rest hp
  have harr : arr' = p0 :: rest := by
    obtain ⟨var, h2⟩ := variance_overwrites p0 rest
    have h3 := (variance_pure_partial p0 rest _ _ h2).mpr hp
    unfold calcCorrelations at h1
    rw [h2] at h1
    simp only [Except.map, Except.ok.injEq, Prod.mk.injEq] at h1
    rw [← h1.2, h3]
  have hm' : m = cov (p0 :: rest) := by funext i j; exact hm i j
  unfold rmCorrelations at h
  rw [h1, harr, hm'] at h
  simp only [bind, Except.bind] at h
  split at h
  · cases h
  · rename_i r hr
    obtain ⟨ev, v⟩ := r
    obtain ⟨ho, he⟩ := jacobi_correct _ (cov_symm _) (cov_psd _) ev v hr
    injection h with h
    subst h
    refine ⟨by simp [rotate], ?_⟩
    intro i j hij
    rw [cov_rotate]
    have : ∀ k, ∑ l, v k i * cov (p0 :: rest) k l * v l j = ev j * (v k i * v k j) := by
      intro k
      rw [show ev j * (v k i * v k j) = v k i * (ev j * v k j) by ring, ← he k j, Finset.mul_sum]
      refine Finset.sum_congr rfl fun l _ => ?_
      ring
    simp only [this, ← Finset.mul_sum, ho i j, if_neg hij, mul_zero]

/-- Two particles, coupled in the first two coordinates. -/
def skewParticles : Arr := [fun _ => 0, fun i => if i = 0 then 2 else if i = 1 then 4 else 0]

/-- **C49 fails for the removal.** For two particles at (0,0) and (2,4) in the first plane the
coordinates are still correlated after `rm_correlations6d`. -/
theorem rm_correlations_fails : ∃ a arr, rmCorrelations a = .ok arr ∧ cov arr 0 1 ≠ 0 := by
  have hc : ∃ m arr, calcCorrelations skewParticles = .ok (m, arr) ∧ m 0 0 = 1 ∧ m 1 1 = 4 ∧
      m 0 1 = 1 ∧ (∀ i j, i < j → (i, j) ≠ (0, 1) → m i j = 0) ∧
      cov arr 0 0 = 1 / 4 ∧ cov arr 0 1 = 1 / 2 ∧ cov arr 1 0 = 1 / 2 ∧ cov arr 1 1 = 1 ∧
      (∀ i j, (1 < i ∨ 1 < j) → cov arr i j = 0) := by
    refine ⟨_, _, rfl, ?_, ?_, ?_, ?_, ?_, ?_, ?_, ?_, ?_⟩
    · norm_num [skewParticles, varLoop]
    · norm_num [skewParticles, varLoop]
    · norm_num [skewParticles, varLoop, calcAvg]
    · intro i j hij hne
      have h1 : j ≠ 0 := by rintro rfl; exact absurd hij (by simp)
      have h2 : j ≠ 1 := by
        rintro rfl
        have : i = 0 := by omega
        exact hne (by rw [this])
      simp [skewParticles, varLoop, calcAvg, h1, h2, ne_of_lt hij]
    · norm_num [skewParticles, varLoop, cov, mean]
    · norm_num [skewParticles, varLoop, cov, mean]
    · norm_num [skewParticles, varLoop, cov, mean]
    · norm_num [skewParticles, varLoop, cov, mean]
    · intro i j hij
      rcases hij with h | h
      · have h0 : i ≠ 0 := by rintro rfl; simp at h
        have h1 : i ≠ 1 := by rintro rfl; simp at h
        simp [skewParticles, varLoop, cov, mean, h0, h1]
      · have h0 : j ≠ 0 := by rintro rfl; simp at h
        have h1 : j ≠ 1 := by rintro rfl; simp at h
        simp [skewParticles, varLoop, cov, mean, h0, h1]
  obtain ⟨m, arr, hm, m00, m11, m01, mz, c00, c01, c10, c11, cz⟩ := hc
  obtain ⟨ev, hj⟩ := jacobi_single m mz (by rw [m01]; norm_num)
  refine ⟨skewParticles, _, by unfold rmCorrelations; rw [hm]; simp only [bind, Except.bind]; rw [hj], ?_⟩
  rw [cov_rotate, m00, m11, m01]
  simp only
  set t := tScal 1 (4 - 1) (100 * |(1:ℝ)|) with ht
  have ht2 : t ^ 2 + 3 * t - 1 = 0 := by
    have := tScal_eq 1 (4 - 1) one_ne_zero
    rw [← ht] at this
    linarith
  set c := 1 / Real.sqrt (1 + t ^ 2) with hcdef
  have hpos : 0 < Real.sqrt (1 + t ^ 2) := Real.sqrt_pos.mpr (by positivity)
  have hcpos : 0 < c := by positivity
  have hc2 : c ^ 2 * (1 + t ^ 2) = 1 := by
    rw [hcdef, div_pow, Real.sq_sqrt (by positivity)]
    field_simp
  have htau : 1 - (t * c) * (t * c / (1 + c)) = c := by
    have : 1 + c ≠ 0 := by positivity
    field_simp
    linear_combination -hc2
  generalize hs : t * c = s at *
  generalize htt : s / (1 + c) = tau at *
  have hsum : ∀ f : Fin 6 → ℝ, ∑ k, f k = f 0 + f 1 + f 2 + f 3 + f 4 + f 5 := by
    intro f; simp [Fin.sum_univ_succ]; ring
  simp only [hsum, c00, c01, c10, c11, cz 2 _ (Or.inl (by decide)), cz 3 _ (Or.inl (by decide)),
    cz 4 _ (Or.inl (by decide)), cz 5 _ (Or.inl (by decide)), cz _ 2 (Or.inr (by decide)),
    cz _ 3 (Or.inr (by decide)), cz _ 4 (Or.inr (by decide)), cz _ 5 (Or.inr (by decide))]
  simp only [rotVecs]
  norm_num
  intro h0
  have h1 : (c - 2 * s) * (s + 2 * c) = 0 := by
    rw [← htau]; linear_combination 4 * h0
  rw [← hs] at h1
  have h2 : (1 - 2 * t) * (t + 2) = 0 := by
    have : c ^ 2 * ((1 - 2 * t) * (t + 2)) = 0 := by linear_combination h1
    rcases mul_eq_zero.mp this with h | h
    · exact absurd h (by positivity)
    · exact h
  nlinarith

/-- The solver returns on a coupled matrix, so C50 is not vacuous. -/
example : ∃ r, jacobi (fun i j => if i = j then 2 else if i = 0 ∧ j = 1 ∨ i = 1 ∧ j = 0 then 1 else 0)
    = .ok r := by
  obtain ⟨ev, h⟩ := jacobi_single
    (fun i j => if i = j then 2 else if i = 0 ∧ j = 1 ∨ i = 1 ∧ j = 0 then 1 else 0)
    (by
      intro i j hij hne
      have h1 : ¬ (i = 0 ∧ j = 1) := fun h => hne (by rw [h.1, h.2])
      have h2 : ¬ (i = 1 ∧ j = 0) := by rintro ⟨rfl, rfl⟩; exact absurd hij (by decide)
      simp [ne_of_lt hij, h1, h2])
    (by simp)
  exact ⟨_, h⟩

/-- The solver returns on a diagonal matrix, so C50 is not vacuous. -/
example : ∃ r, jacobi (fun i j => if i = j then (i.val : ℝ) else 0) = .ok r := by
  refine ⟨_, by
    unfold jacobi
    rw [jLoop, if_pos]
    unfold offSum
    rw [List.sum_eq_zero]
    intro x hx
    obtain ⟨pq, h1, rfl⟩ := List.mem_map.mp hx
    have := (mem_pairs pq).mp h1
    simp [jInit, ne_of_lt this]⟩

/-- The hypotheses of C50 hold for that matrix. -/
example : Symmetric (fun i j : Fin 6 => if i = j then (i.val : ℝ) else 0) ∧
    PosSemidef (fun i j : Fin 6 => if i = j then (i.val : ℝ) else 0) := by
  constructor
  · intro i j
    by_cases h : i = j
    · subst h; rfl
    · have h' : ¬ j = i := fun e => h e.symm
      simp [h, h']
  · intro x
    apply Finset.sum_nonneg
    intro i _
    simp
    nlinarith [mul_self_nonneg (x i), (Nat.cast_nonneg i.val : (0:ℝ) ≤ i.val),
      mul_nonneg (mul_self_nonneg (x i)) (Nat.cast_nonneg i.val : (0:ℝ) ≤ i.val)]

/-- An array that meets the hypotheses of the partial theorems: first particle is the mean,
variances are positive. -/
example : ∃ (p0 : Vec) (rest : Arr), (∀ i, p0 i = mean (p0 :: rest) i) ∧
    (∀ i, 0 < variance (p0 :: rest) i) := by
  refine ⟨fun _ => 0, [fun _ => 1, fun _ => -1], ?_, ?_⟩ <;> intro i <;>
    norm_num [mean, variance, cov]

/-! ## Cases that meet the hypotheses -/

/-- Three particles with the first one at the mean. -/
def threeParticles : Arr := [fun _ => 0, fun _ => 1, fun _ => -1]

theorem threeParticles_mean (i : Fin 6) : (0 : ℝ) = mean threeParticles i := by norm_num [threeParticles, mean]

theorem threeParticles_variance (i : Fin 6) : variance threeParticles i = 2 / 3 := by
  norm_num [threeParticles, variance, cov, mean]

example : ∃ var arr, calcVariance twoParticles = .ok (var, arr) ∧ var 4 = 1 := by
  obtain ⟨-, var, arr, h, hv⟩ := variance_correct twoParticles (by simp [twoParticles])
  exact ⟨var, arr, h, by rw [hv]; norm_num [variance, cov, mean, twoParticles]⟩

example : ∃ var, calcVariance threeParticles = .ok (var, threeParticles) := by
  obtain ⟨-, var, arr, h, -⟩ := variance_correct threeParticles (by simp [threeParticles])
  have e := (variance_pure_partial (fun _ => 0) [fun _ => 1, fun _ => -1] var arr h).2 threeParticles_mean
  exact ⟨var, by rw [h, e]; rfl⟩

example : mean (subAvg twoParticles) 3 = 0 ∧ cov (subAvg twoParticles) 3 5 = 1 := by
  obtain ⟨h1, h2, -⟩ := sub_avg_centers twoParticles (by simp [twoParticles]) 3 5
  exact ⟨h1, by rw [h2]; norm_num [cov, mean, twoParticles]⟩

example : ∃ arr, normalizeRms threeParticles = .ok arr ∧ ∀ i, variance arr i = 1 :=
  normalize_rms_partial (fun _ => 0) [fun _ => 1, fun _ => -1] threeParticles_mean fun i => by
    rw [show (fun _ => 0) :: [fun _ => 1, fun _ => -1] = threeParticles from rfl, threeParticles_variance]
    norm_num

example : ∃ m arr, calcCorrelations threeParticles = .ok (m, arr) ∧ m 0 1 = 2 / 3 := by
  obtain ⟨m, arr, h, hm⟩ := correlations_partial (fun _ => 0) [fun _ => 1, fun _ => -1] threeParticles_mean
  exact ⟨m, arr, h, by rw [hm]; norm_num [cov, mean]⟩

/-- The coupled matrix of the first example is positive. -/
theorem coupled_psd : Symmetric (fun i j : Fin 6 => if i = j then (2 : ℝ) else if i = 0 ∧ j = 1 ∨ i = 1 ∧ j = 0 then 1 else 0) ∧
    PosSemidef (fun i j : Fin 6 => if i = j then (2 : ℝ) else if i = 0 ∧ j = 1 ∨ i = 1 ∧ j = 0 then 1 else 0) := by
  constructor
  · intro i j
    fin_cases i <;> fin_cases j <;> simp
  · intro x
    simp only [Fin.sum_univ_six]
    simp
    nlinarith [sq_nonneg (x 0 + x 1), sq_nonneg (x 0), sq_nonneg (x 1), sq_nonneg (x 2), sq_nonneg (x 3), sq_nonneg (x 4), sq_nonneg (x 5)]

theorem coupled_ok : ∃ r, jacobi (fun i j => if i = j then 2 else if i = 0 ∧ j = 1 ∨ i = 1 ∧ j = 0 then 1 else 0) = .ok r := by
  obtain ⟨ev, h⟩ := jacobi_single
    (fun i j => if i = j then 2 else if i = 0 ∧ j = 1 ∨ i = 1 ∧ j = 0 then 1 else 0)
    (by
      intro i j hij hne
      have h1 : ¬ (i = 0 ∧ j = 1) := fun h => hne (by rw [h.1, h.2])
      have h2 : ¬ (i = 1 ∧ j = 0) := by rintro ⟨rfl, rfl⟩; exact absurd hij (by decide)
      simp [ne_of_lt hij, h1, h2]) (by norm_num)
  exact ⟨_, h⟩

example : ∃ ev v, jacobi (fun i j => if i = j then 2 else if i = 0 ∧ j = 1 ∨ i = 1 ∧ j = 0 then 1 else 0) = .ok (ev, v) ∧
    Orthonormal v ∧ Eigen (fun i j => if i = j then 2 else if i = 0 ∧ j = 1 ∨ i = 1 ∧ j = 0 then 1 else 0) ev v := by
  obtain ⟨⟨ev, v⟩, h⟩ := coupled_ok
  exact ⟨ev, v, h, jacobi_correct _ coupled_psd.1 coupled_psd.2 ev v h⟩

example : Orthonormal ([1, 2].foldl (fun s n => jSweep n s)
    (jInit fun i j => if i = j then 2 else if i = 0 ∧ j = 1 ∨ i = 1 ∧ j = 0 then 1 else 0)).vecs :=
  (jacobi_invariant _ coupled_psd.1 coupled_psd.2 [1, 2]).1

/-- Two particles on a line through the first one, which is at the mean. -/
def lineParticles : Arr :=
  [fun _ => 0, fun i => if i = 0 then 1 else if i = 1 then 2 else 0, fun i => if i = 0 then -1 else if i = 1 then -2 else 0]

theorem lineParticles_mean (i : Fin 6) : (0 : ℝ) = mean lineParticles i := by
  fin_cases i <;> norm_num [lineParticles, mean]

example : ∃ arr, rmCorrelations lineParticles = .ok arr ∧ cov lineParticles 0 1 ≠ 0 ∧ cov arr 0 1 = 0 := by
  obtain ⟨m, a, h, hm⟩ := correlations_partial _ _ lineParticles_mean
  obtain ⟨ev, hj⟩ := jacobi_single m (by
    intro i j hij hne
    rw [hm]
    fin_cases i <;> fin_cases j <;> first
      | exact absurd hij (by decide)
      | exact absurd rfl hne
      | norm_num [cov, mean]) (by
    rw [hm]
    norm_num [cov, mean])
  have hr : ∃ arr, rmCorrelations lineParticles = .ok arr :=
    ⟨_, by unfold rmCorrelations lineParticles; rw [h]; simp only [bind, Except.bind]; rw [hj]⟩
  obtain ⟨arr, hr⟩ := hr
  exact ⟨arr, hr, by norm_num [cov, mean, lineParticles], (rm_correlations_partial _ _ lineParticles_mean arr hr).2 0 1 (by decide)⟩

end Verif.Stats6d
