import Verif.Ptcls.PropsTwiss

/-!
# Properties C82 to C85: new distributions, cleaning, components and relativistic factors
-/

open scoped BigOperators

namespace Verif.Ptcls

open Verif.Stats6d

/-! ## Cleaning -/

theorem subAvg_cons (p0 : Vec) (rest : Arr) :
    subAvg (p0 :: rest) = (fun i => p0 i - mean (p0 :: rest) i) :: rest.map fun p i => p i - mean (p0 :: rest) i := rfl

/-- The matrix computed by `calc_correlations6d` is positive semidefinite, although it is not the
covariance matrix. -/
theorem correlations_psd {p0 : Vec} {rest : Arr} {m : Fin 6 → Fin 6 → ℝ} {arr : Arr}
    (h : calcCorrelations (p0 :: rest) = .ok (m, arr)) : Symmetric m ∧ PosSemidef m := by
  obtain ⟨m', arr', h', hs, hd, ho⟩ := correlations_exact p0 rest
  rw [h] at h'
  simp only [Except.ok.injEq, Prod.mk.injEq] at h'
  obtain ⟨rfl, rfl⟩ := h'
  refine ⟨hs, fun x => ?_⟩
  generalize hn : ((p0 :: rest).length : ℝ) = n at ho
  have hpos : 0 < n := by rw [← hn]; simp; positivity
  set d : Fin 6 → ℝ := fun i => p0 i - mean (p0 :: rest) i with hdd
  -- the full matrix is the contribution of the others plus the diagonal of the first particle
  have hcov : ∀ i j, cov (p0 :: rest) i j =
      (rest.map fun p => (p i - mean (p0 :: rest) i) * (p j - mean (p0 :: rest) j)).sum / n + d i * d j / n := by
    intro i j
    unfold cov
    rw [hn]
    simp only [List.map_cons, List.sum_cons, hdd]
    ring
  have hm : ∀ i j, m i j = (rest.map fun p => (p i - mean (p0 :: rest) i) * (p j - mean (p0 :: rest) j)).sum / n +
      if i = j then d i * d i / n else 0 := by
    intro i j
    by_cases hij : i = j
    · subst hij
      rw [hd, variance, hcov, if_pos rfl]
    · rw [ho i j hij, hcov, if_neg hij]
      simp only [hdd]
      ring
  have e : ∑ i, ∑ j, x i * m i j * x j =
      (rest.map fun p => (∑ i, x i * (p i - mean (p0 :: rest) i)) ^ 2).sum / n + ∑ i, (x i * d i) ^ 2 / n := by
    have e1 : ∀ p : Vec, (∑ i, x i * (p i - mean (p0 :: rest) i)) ^ 2 =
        ∑ i, ∑ j, (x i * x j) * ((p i - mean (p0 :: rest) i) * (p j - mean (p0 :: rest) j)) := by
      intro p
      rw [pow_two, Finset.sum_mul_sum]
      refine Finset.sum_congr rfl fun k _ => Finset.sum_congr rfl fun l _ => ?_
      ring
    have e2 : (rest.map fun p => (∑ i, x i * (p i - mean (p0 :: rest) i)) ^ 2).sum =
        ∑ i, ∑ j, (x i * x j) * (rest.map fun p => (p i - mean (p0 :: rest) i) * (p j - mean (p0 :: rest) j)).sum := by
      generalize mean (p0 :: rest) = mu at *
      clear * -
      induction rest with
      | nil => simp
      | cons q rest ih =>
        simp only [List.map_cons, List.sum_cons]
        rw [ih]
        have : (∑ i, x i * (q i - mu i)) ^ 2 = ∑ i, ∑ j, (x i * x j) * ((q i - mu i) * (q j - mu j)) := by
          rw [pow_two, Finset.sum_mul_sum]
          refine Finset.sum_congr rfl fun k _ => Finset.sum_congr rfl fun l _ => ?_
          ring
        rw [this, ← Finset.sum_add_distrib]
        refine Finset.sum_congr rfl fun i _ => ?_
        rw [← Finset.sum_add_distrib]
        refine Finset.sum_congr rfl fun j _ => ?_
        ring
    rw [e2, Finset.sum_div, ← Finset.sum_add_distrib]
    refine Finset.sum_congr rfl fun i _ => ?_
    have e3 : (x i * d i) ^ 2 / n = ∑ j, x i * (if i = j then d i * d i / n else 0) * x j := by
      rw [Finset.sum_eq_single i]
      · rw [if_pos rfl]; ring
      · intro b _ hb
        rw [if_neg (Ne.symm hb)]
        ring
      · intro h; exact absurd (Finset.mem_univ i) h
    rw [e3, Finset.sum_div, ← Finset.sum_add_distrib]
    refine Finset.sum_congr rfl fun j _ => ?_
    rw [hm i j]
    ring
  rw [e]
  apply add_nonneg
  · apply div_nonneg _ hpos.le
    apply List.sum_nonneg
    intro y hy
    obtain ⟨p, _, rfl⟩ := List.mem_map.1 hy
    positivity
  · apply Finset.sum_nonneg
    intro i _
    positivity

/-- Result of `rm_correlations6d` for any array: the first particle is replaced by the average, then all
are rotated with an orthogonal matrix. -/
theorem rm_exact {p0 : Vec} {rest b : Arr} (h : rmCorrelations (p0 :: rest) = .ok b) :
    ∃ v, Orthonormal v ∧ b = rotate v ((fun i => mean (p0 :: rest) i) :: rest) := by
  unfold rmCorrelations at h
  obtain ⟨m, arr, hc, _⟩ := correlations_exact p0 rest
  rw [hc] at h
  obtain ⟨hs, hp⟩ := correlations_psd hc
  have harr : arr = (fun i => mean (p0 :: rest) i) :: rest := by
    obtain ⟨var, h2⟩ := variance_overwrites p0 rest
    unfold calcCorrelations at hc
    rw [h2] at hc
    simp only [Except.map, Except.ok.injEq, Prod.mk.injEq] at hc
    exact hc.2.symm
  simp only [bind, Except.bind] at h
  cases hj : jacobi m with
  | error e => rw [hj] at h; cases h
  | ok r =>
    obtain ⟨ev, v⟩ := r
    rw [hj] at h
    simp only [Except.ok.injEq] at h
    exact ⟨v, (jacobi_correct m hs hp ev v hj).1, by rw [← h, harr]⟩

theorem rotate_zero (v : Fin 6 → Fin 6 → ℝ) (rest : Arr) :
    rotate v ((fun _ => 0) :: rest) = (fun _ => 0) :: rotate v rest := by
  unfold rotate
  rw [List.map_cons]
  congr 1
  funext i
  simp

/-- **C83, what happens.** Whatever the particles are, after cleaning the first one is at the origin. -/
theorem clean_first (p0 : Vec) (rest b : Arr) (h : clean (p0 :: rest) = .ok b) : ∃ bs, b = (fun _ => 0) :: bs := by
  unfold clean at h
  cases hr : rmCorrelations (subAvg (p0 :: rest)) with
  | error e => rw [hr] at h; cases h
  | ok a2 =>
    rw [hr] at h
    simp only [bind, Except.bind] at h
    rw [subAvg_cons] at hr
    obtain ⟨v, _, ha2⟩ := rm_exact hr
    rw [show ∀ x : Vec, ∀ l, rotate v (x :: l) = rotate v [x] ++ rotate v l from fun x l => by simp [rotate]] at ha2
    have hne : a2 ≠ [] := by rw [ha2]; simp [rotate]
    match a2, hne with
    | q :: qs, _ =>
      have hmean := fun i => (sub_avg_centers (q :: qs) (by simp) i i).1
      rw [subAvg_cons] at h hmean
      unfold normalizeRms calcRms at h
      obtain ⟨var, hv⟩ := variance_overwrites (fun i => q i - mean (q :: qs) i) (qs.map fun p i => p i - mean (q :: qs) i)
      rw [hv] at h
      simp only [Except.map, Except.ok.injEq, List.map_cons] at h
      refine ⟨List.map (fun p i => p i * (1 / Real.sqrt (var i))) (List.map (fun p i => p i - mean (q :: qs) i) qs), h.symm.trans ?_⟩
      congr 1
      funext i
      rw [hmean]
      ring

theorem normalizeRms_cons (p0 : Vec) (rest : Arr) : normalizeRms (p0 :: rest) =
    .ok (((fun i => mean (p0 :: rest) i) :: rest).map fun p i => p i * (1 / Real.sqrt (variance (p0 :: rest) i))) := by
  obtain ⟨var, arr, h1, h2, h3⟩ := calcVariance_cons p0 rest
  unfold normalizeRms calcRms
  rw [h1, h3]
  simp only [Except.map]
  have : var = variance (p0 :: rest) := funext h2
  rw [this]

theorem mean_rotate (v : Fin 6 → Fin 6 → ℝ) (a : Arr) (i : Fin 6) : mean (rotate v a) i = ∑ k, v k i * mean a k := by
  unfold mean rotate
  rw [List.length_map, List.map_map]
  have : (a.map ((fun p => p i) ∘ fun p i => ((List.finRange 6).map fun j => v j i * p j).sum)).sum =
      ∑ k, v k i * (a.map fun p => p k).sum := by
    induction a with
    | nil => simp
    | cons p a ih =>
      rw [List.map_cons, List.sum_cons, ih]
      simp only [Function.comp_def, List.map_cons, List.sum_cons, mul_add, Finset.sum_add_distrib, ← List.ofFn_eq_map,
        List.sum_ofFn]
  rw [this, Finset.sum_div]
  refine Finset.sum_congr rfl fun k _ => ?_
  ring

theorem mean_scale (a : Arr) (f : Vec) (i : Fin 6) : mean (a.map fun p i => p i * f i) i = mean a i * f i := by
  unfold mean
  rw [List.length_map, List.map_map]
  simp only [Function.comp_def, List.sum_map_mul_right]
  ring

theorem orthonormal_inj {v : Fin 6 → Fin 6 → ℝ} (h : Orthonormal v) {q : Fin 6 → ℝ} (hq : ∀ i, ∑ k, v k i * q k = 0) :
    ∀ k, q k = 0 := by
  have h1 : (Matrix.of v).transpose * Matrix.of v = 1 := by
    ext i j
    rw [Matrix.mul_apply, Matrix.one_apply]
    exact h i j
  have h2 : Matrix.of v * (Matrix.of v).transpose = 1 := mul_eq_one_comm.1 h1
  have h3 : Matrix.mulVec (Matrix.of v).transpose q = 0 := by
    funext i
    exact hq i
  have h4 : Matrix.mulVec (Matrix.of v) (Matrix.mulVec (Matrix.of v).transpose q) = q := by
    rw [Matrix.mulVec_mulVec, h2, Matrix.one_mulVec]
  rw [h3, Matrix.mulVec_zero] at h4
  intro k
  rw [← h4]
  rfl

/-- **C83, exact condition.** If no direction is degenerate, all averages of the cleaned distribution
are zero exactly when the first particle was at the average before. -/
theorem clean_mean (p0 : Vec) (rest b a2 : Arr) (h : clean (p0 :: rest) = .ok b)
    (hr : rmCorrelations (subAvg (p0 :: rest)) = .ok a2) (hv : ∀ i, 0 < variance a2 i) :
    (∀ i, mean b i = 0) ↔ ∀ i, p0 i = mean (p0 :: rest) i := by
  have hr' := hr
  rw [subAvg_cons] at hr'
  obtain ⟨v, ho, ha2⟩ := rm_exact hr'
  set q0 : Vec := fun i => p0 i - mean (p0 :: rest) i with hq0
  set qs : Arr := rest.map fun p i => p i - mean (p0 :: rest) i with hqs
  have hm0 : ∀ i, mean (q0 :: qs) i = 0 := by
    intro i
    have := (sub_avg_centers (p0 :: rest) (by simp) i i).1
    rw [subAvg_cons] at this
    exact this
  have hz : (fun i => mean (q0 :: qs) i) = fun _ => (0 : ℝ) := funext hm0
  rw [hz, rotate_zero] at ha2
  generalize hn : ((rest.length : ℝ) + 1) = n
  have hnpos : 0 < n := by rw [← hn]; positivity
  have hsum : ∀ i, mean ((fun _ => (0 : ℝ)) :: qs) i = -(q0 i) / n := by
    intro i
    have h0 := hm0 i
    unfold mean at h0 ⊢
    simp only [List.map_cons, List.sum_cons, List.length_cons, hqs, List.length_map] at h0 ⊢
    push_cast at h0 ⊢
    rw [hn] at h0 ⊢
    rw [div_eq_zero_iff] at h0
    rcases h0 with h0 | h0
    · rw [zero_add]
      congr 1
      linarith
    · exact absurd h0 hnpos.ne'
  have hma2 : ∀ i, mean a2 i = -(∑ k, v k i * q0 k) / n := by
    intro i
    rw [ha2, ← rotate_zero, mean_rotate]
    simp only [hsum]
    rw [neg_div, Finset.sum_div, ← Finset.sum_neg_distrib]
    refine Finset.sum_congr rfl fun k _ => ?_
    ring
  -- the last two steps
  unfold clean at h
  rw [hr] at h
  simp only [bind, Except.bind] at h
  have hvar : ∀ i, variance (subAvg a2) i = variance a2 i := fun i =>
    (sub_avg_centers a2 (by rw [ha2]; simp) i i).2.1
  have hmean : ∀ i, mean (subAvg a2) i = 0 := fun i => (sub_avg_centers a2 (by rw [ha2]; simp) i i).1
  have hb : ∀ i, mean b i = mean a2 i / (n * Real.sqrt (variance a2 i)) := by
    intro i
    rw [ha2] at h hvar hmean
    rw [subAvg_cons] at h hvar hmean
    rw [normalizeRms_cons] at h
    simp only [Except.ok.injEq] at h
    rw [← h, mean_scale _ (fun i => 1 / Real.sqrt _), hvar i]
    have : mean ((fun i => mean ((fun i => (fun _ => (0 : ℝ)) i - mean ((fun _ => 0) :: rotate v qs) i) ::
        (rotate v qs).map fun p i => p i - mean ((fun _ => 0) :: rotate v qs) i) i) ::
        (rotate v qs).map fun p i => p i - mean ((fun _ => 0) :: rotate v qs) i) i = mean a2 i / n := by
      have h0 := hmean i
      unfold mean at h0
      rw [show mean ((fun i => (fun _ => (0 : ℝ)) i - mean ((fun _ => 0) :: rotate v qs) i) ::
        (rotate v qs).map fun p i => p i - mean ((fun _ => 0) :: rotate v qs) i) = fun _ => 0 from funext hmean]
      rw [ha2]
      generalize hmu : mean ((fun _ => (0 : ℝ)) :: rotate v qs) = mu at *
      have hlen : (((rotate v qs).map fun p i => p i - mu i).length : ℝ) + 1 = n := by
        rw [← hn]; simp [rotate, hqs]
      rw [show ∀ (x : Vec) (l : Arr), mean (x :: l) i = (x i + (l.map fun p => p i).sum) / ((l.length : ℝ) + 1) from
        fun x l => by unfold mean; simp only [List.map_cons, List.sum_cons, List.length_cons]; push_cast; rfl] at *
      have h1 := hmean i
      rw [show ∀ (x : Vec) (l : Arr), mean (x :: l) i = (x i + (l.map fun p => p i).sum) / ((l.length : ℝ) + 1) from
        fun x l => by unfold mean; simp only [List.map_cons, List.sum_cons, List.length_cons]; push_cast; rfl] at h1
      rw [hlen] at h1 ⊢
      rw [div_eq_zero_iff] at h1
      rcases h1 with h1 | h1
      · congr 1
        linarith
      · exact absurd h1 hnpos.ne'
    rw [this, ← ha2]
    have := (Real.sqrt_pos.2 (hv i)).ne'
    field_simp
  constructor
  · intro hall
    have hq : ∀ i, ∑ k, v k i * q0 k = 0 := by
      intro i
      have h1 := hall i
      rw [hb i, div_eq_zero_iff] at h1
      rcases h1 with h1 | h1
      · rw [hma2 i, div_eq_zero_iff] at h1
        rcases h1 with h1 | h1
        · linarith
        · exact absurd h1 hnpos.ne'
      · exact absurd h1 (mul_pos hnpos (Real.sqrt_pos.2 (hv i))).ne'
    intro i
    have := orthonormal_inj ho hq i
    simp only [hq0] at this
    linarith
  · intro hall i
    have : ∀ k, q0 k = 0 := fun k => by simp only [hq0, hall k, sub_self]
    rw [hb i, hma2 i]
    simp [this]

/-- **C83.** The cleaned distribution has zero averages, unit variances and no correlations. Proved when
the first particle was at the average before (and no direction is degenerate). -/
theorem clean_partial (p0 : Vec) (rest b a2 : Arr) (h : clean (p0 :: rest) = .ok b)
    (hr : rmCorrelations (subAvg (p0 :: rest)) = .ok a2) (hv : ∀ i, 0 < variance a2 i)
    (hp : ∀ i, p0 i = mean (p0 :: rest) i) :
    (∀ i, mean b i = 0) ∧ ∀ i j, cov b i j = if i = j then 1 else 0 := by
  refine ⟨(clean_mean p0 rest b a2 h hr hv).2 hp, ?_⟩
  have hr' := hr
  rw [subAvg_cons] at hr'
  have hm0 : ∀ i, mean ((fun i => p0 i - mean (p0 :: rest) i) :: rest.map fun p i => p i - mean (p0 :: rest) i) i = 0 := by
    intro i
    have := (sub_avg_centers (p0 :: rest) (by simp) i i).1
    rw [subAvg_cons] at this
    exact this
  obtain ⟨_, hdiag⟩ := rm_correlations_partial _ _ (fun i => by rw [hm0 i, ← hp i]; ring) _ hr'
  obtain ⟨v, _, ha2⟩ := rm_exact hr'
  have hz : ∀ q : Vec, (∀ i, q i = 0) → q = fun _ => 0 := fun q hq => funext hq
  rw [hz _ hm0, rotate_zero] at ha2
  have hma2 : ∀ i, mean a2 i = 0 := by
    intro i
    rw [ha2, ← rotate_zero, mean_rotate]
    have hsame : ((fun _ => (0 : ℝ)) :: rest.map fun p i => p i - mean (p0 :: rest) i) =
        (fun i => p0 i - mean (p0 :: rest) i) :: rest.map fun p i => p i - mean (p0 :: rest) i := by
      congr 1
      funext i
      rw [← hp i]
      ring
    rw [hsame]
    simp [hm0]
  have hsub : subAvg a2 = a2 := by
    unfold subAvg
    have : ∀ i, calcAvg a2 i = 0 := fun i => hma2 i
    simp only [this, sub_zero]
    exact List.map_id _
  unfold clean at h
  rw [hr] at h
  simp only [bind, Except.bind] at h
  rw [hsub, ha2, normalizeRms_cons] at h
  have hhead : (fun i => mean ((fun _ => (0 : ℝ)) :: rotate v (rest.map fun p i => p i - mean (p0 :: rest) i)) i) = fun _ => 0 := by
    funext i
    rw [← ha2, hma2]
  rw [hhead, ← ha2] at h
  simp only [Except.ok.injEq] at h
  intro i j
  rw [← h]
  have hc := cov_map_linear a2 (fun p i => p i * (1 / Real.sqrt (variance a2 i))) (i := i) (j := j) (i' := i) (j' := i)
    (k := j) (l := j) (u := 1 / Real.sqrt (variance a2 i)) (w := 0) (u' := 1 / Real.sqrt (variance a2 j)) (w' := 0)
    (fun p => by ring) (fun p => by ring)
  rw [hc]
  by_cases hij : i = j
  · subst hij
    rw [if_pos rfl]
    have h1 := Real.sqrt_pos.2 (hv i)
    have h2 : Real.sqrt (variance a2 i) * Real.sqrt (variance a2 i) = cov a2 i i := Real.mul_self_sqrt (hv i).le
    rw [← h2]
    field_simp
    ring
  · rw [hdiag i j hij, if_neg hij]
    ring

/-- Without off-diagonal elements the eigenvectors are the axes. -/
theorem rm_diag (p0 : Vec) (rest : Arr) (h : ∀ i j, i ≠ j → cov (p0 :: rest) i j =
    (p0 i - mean (p0 :: rest) i) * (p0 j - mean (p0 :: rest) j) / (p0 :: rest).length) :
    rmCorrelations (p0 :: rest) = .ok ((fun i => mean (p0 :: rest) i) :: rest) := by
  obtain ⟨m, arr, hc, _, _, ho⟩ := correlations_exact p0 rest
  have harr : arr = (fun i => mean (p0 :: rest) i) :: rest := by
    obtain ⟨var, h2⟩ := variance_overwrites p0 rest
    unfold calcCorrelations at hc
    rw [h2] at hc
    simp only [Except.map, Except.ok.injEq, Prod.mk.injEq] at hc
    exact hc.2.symm
  have hj : jacobi m = .ok (fun i => m i i, fun i j => if i = j then 1 else 0) := by
    unfold jacobi
    rw [jLoop, if_pos]
    · rfl
    · unfold offSum
      rw [List.sum_eq_zero]
      intro x hx
      obtain ⟨pq, h1, rfl⟩ := List.mem_map.mp hx
      have h2 := ne_of_lt ((mem_pairs pq).mp h1)
      show |m pq.1 pq.2| = 0
      rw [ho _ _ h2, h _ _ h2, sub_self, abs_zero]
  unfold rmCorrelations
  rw [hc]
  simp only [bind, Except.bind]
  rw [hj]
  simp only [Except.ok.injEq]
  rw [harr]
  unfold rotate
  conv_rhs => rw [← List.map_id ((fun i => mean (p0 :: rest) i) :: rest)]
  apply List.map_congr_left
  intro p _
  funext i
  rw [← List.ofFn_eq_map, List.sum_ofFn, Finset.sum_eq_single i]
  · simp
  · intro b _ hb
    simp [hb]
  · intro h
    exact absurd (Finset.mem_univ i) h

/-- Particles on the axes, without the first one. -/
def axesRest : Arr := [![-1, 0, 0, 0, 0, 0], ![0, 1, 0, 0, 0, 0], ![0, -1, 0, 0, 0, 0], ![0, 0, 1, 0, 0, 0], ![0, 0, -1, 0, 0, 0],
  ![0, 0, 0, 1, 0, 0], ![0, 0, 0, -1, 0, 0], ![0, 0, 0, 0, 1, 0], ![0, 0, 0, 0, -1, 0], ![0, 0, 0, 0, 0, 1], ![0, 0, 0, 0, 0, -1]]

theorem axes_mean (i : Fin 6) : mean (![1, 0, 0, 0, 0, 0] :: axesRest) i = 0 := by
  fin_cases i <;> norm_num [axesRest, mean] <;> simp [Matrix.vecHead, Matrix.vecTail]

theorem axes_cov (i j : Fin 6) (h : i ≠ j) : cov (![1, 0, 0, 0, 0, 0] :: axesRest) i j = 0 := by
  unfold cov
  rw [axes_mean, axes_mean]
  fin_cases i <;> fin_cases j <;> first | (exact absurd rfl h) | (norm_num [axesRest] <;> simp [Matrix.vecHead, Matrix.vecTail])

theorem subAvg_centred {a : Arr} (h : ∀ i, mean a i = 0) : subAvg a = a := by
  unfold subAvg
  have : ∀ i, calcAvg a i = 0 := h
  simp only [this, sub_zero]
  exact List.map_id _

theorem axes_rm : rmCorrelations (subAvg (![1, 0, 0, 0, 0, 0] :: axesRest)) = .ok ((fun _ => 0) :: axesRest) := by
  rw [subAvg_centred axes_mean, rm_diag]
  · congr 2
    funext i
    exact axes_mean i
  · intro i j h
    rw [axes_cov i j h, axes_mean, axes_mean]
    fin_cases i <;> fin_cases j <;> first | (exact absurd rfl h) | (norm_num) 

theorem axes_variance (i : Fin 6) : 0 < variance ((fun _ => 0) :: axesRest) i := by
  unfold variance cov mean
  fin_cases i <;> norm_num [axesRest] <;> simp [Matrix.vecHead, Matrix.vecTail] <;> norm_num

/-- **C83 is false.** Particles on the axes, centred and not correlated, have an average that is not zero
after cleaning. -/
theorem clean_fails : ∃ b, clean (![1, 0, 0, 0, 0, 0] :: axesRest) = .ok b ∧ ¬ ∀ i, mean b i = 0 := by
  have hb : ∃ b, clean (![1, 0, 0, 0, 0, 0] :: axesRest) = .ok b := by
    unfold clean
    rw [axes_rm]
    simp only [bind, Except.bind]
    rw [subAvg_cons, normalizeRms_cons]
    exact ⟨_, rfl⟩
  obtain ⟨b, hb⟩ := hb
  refine ⟨b, hb, fun h => ?_⟩
  have := (clean_mean _ _ _ _ hb axes_rm axes_variance).1 h 0
  rw [axes_mean] at this
  norm_num at this

/-- A centred beam with the first particle at the centre, for which the cleaned beam has the intended
moments. -/
example : ∃ b, clean ((fun _ => 0) :: ![1, 0, 0, 0, 0, 0] :: axesRest) = .ok b ∧ (∀ i, mean b i = 0) ∧
    ∀ i j, cov b i j = if i = j then 1 else 0 := by
  have hm : ∀ i, mean ((fun _ => 0) :: ![1, 0, 0, 0, 0, 0] :: axesRest) i = 0 := by
    intro i
    fin_cases i <;> norm_num [axesRest, mean] <;> simp [Matrix.vecHead, Matrix.vecTail]
  have hr : rmCorrelations (subAvg ((fun _ => 0) :: ![1, 0, 0, 0, 0, 0] :: axesRest)) =
      .ok ((fun _ => 0) :: ![1, 0, 0, 0, 0, 0] :: axesRest) := by
    rw [subAvg_centred hm, rm_diag]
    · congr 2
      funext i
      exact hm i
    · intro i j h
      unfold cov
      rw [hm, hm]
      fin_cases i <;> fin_cases j <;> first | (exact absurd rfl h) | (norm_num [axesRest] <;> simp [Matrix.vecHead, Matrix.vecTail])
  have hv : ∀ i, 0 < variance ((fun _ => 0) :: ![1, 0, 0, 0, 0, 0] :: axesRest) i := by
    intro i
    unfold variance cov mean
    fin_cases i <;> norm_num [axesRest] <;> simp [Matrix.vecHead, Matrix.vecTail] <;> norm_num
  have hb : ∃ b, clean ((fun _ => 0) :: ![1, 0, 0, 0, 0, 0] :: axesRest) = .ok b := by
    unfold clean
    rw [hr]
    simp only [bind, Except.bind]
    rw [subAvg_cons, normalizeRms_cons]
    exact ⟨_, rfl⟩
  obtain ⟨b, hb⟩ := hb
  exact ⟨b, hb, clean_partial _ _ _ _ hb hr hv fun i => (hm i).symm⟩

/-! ## Components -/

/-- **C85.** `offset_component` moves the average of one row and changes no second moment. -/
theorem offset_moments (a : Arr) (ha : a ≠ []) (d : ℝ) (i : Fin 6) :
    ∃ b, offsetComponent a d i.1 = .ok b ∧ (∀ j, mean b j = if j = i then mean a j + d else mean a j) ∧
      ∀ j k, cov b j k = cov a j k := by
  have hl : (a.length : ℝ) ≠ 0 := by
    have := List.length_pos_iff.2 ha
    positivity
  have hin : ¬ ((i.1 : Int) < 0 ∨ 5 < (i.1 : Int)) := by omega
  refine ⟨_, by unfold offsetComponent; rw [if_neg hin], ?_, ?_⟩
  · intro j
    unfold mean
    rw [List.length_map, List.map_map]
    by_cases h : j = i
    · subst h
      simp only [Function.comp_def, if_true, List.sum_map_add, List.map_const', List.sum_replicate, nsmul_eq_mul]
      field_simp
    · have : ¬ ((j.1 : Int) = i.1) := fun e => h (Fin.ext (by exact_mod_cast e))
      simp only [Function.comp_def, if_neg this, if_neg h]
  · have hm : ∀ j, mean (a.map fun p i' => if (i'.1 : Int) = i.1 then p i' + d else p i') j =
        if j = i then mean a j + d else mean a j := by
      intro j
      unfold mean
      rw [List.length_map, List.map_map]
      by_cases h : j = i
      · subst h
        simp only [Function.comp_def, if_true, List.sum_map_add, List.map_const', List.sum_replicate, nsmul_eq_mul]
        field_simp
      · have : ¬ ((j.1 : Int) = i.1) := fun e => h (Fin.ext (by exact_mod_cast e))
        simp only [Function.comp_def, if_neg this, if_neg h]
    intro j k
    unfold cov
    rw [hm, hm, List.length_map, List.map_map]
    congr 2
    apply List.map_congr_left
    intro p _
    have hs : ∀ j : Fin 6, (if (j.1 : Int) = i.1 then p j + d else p j) - (if j = i then mean a j + d else mean a j) =
        p j - mean a j := by
      intro j
      by_cases h : j = i
      · subst h
        rw [if_pos rfl, if_pos rfl]
        ring
      · have : ¬ ((j.1 : Int) = i.1) := fun e => h (Fin.ext (by exact_mod_cast e))
        rw [if_neg this, if_neg h]
    simp only [Function.comp_def, hs]

/-- **C85.** `multiply_component` multiplies the average and the moments of one row. -/
theorem multiply_moments (a : Arr) (d : ℝ) (i : Fin 6) :
    ∃ b, multiplyComponent a d i.1 = .ok b ∧ (∀ j, mean b j = if j = i then mean a j * d else mean a j) ∧
      ∀ j k, cov b j k = (if j = i then d else 1) * (if k = i then d else 1) * cov a j k := by
  have hin : ¬ ((i.1 : Int) < 0 ∨ 5 < (i.1 : Int)) := by omega
  refine ⟨_, by unfold multiplyComponent; rw [if_neg hin], ?_, ?_⟩
  · intro j
    unfold mean
    rw [List.length_map, List.map_map]
    by_cases h : j = i
    · subst h
      simp only [Function.comp_def, if_true, List.sum_map_mul_right]
      ring
    · have : ¬ ((j.1 : Int) = i.1) := fun e => h (Fin.ext (by exact_mod_cast e))
      simp only [Function.comp_def, if_neg this, if_neg h]
  intro j k
  have hs : ∀ (j : Fin 6) (p : Vec), (if (j.1 : Int) = i.1 then p j * d else p j) = (if j = i then d else 1) * p j + 0 * p j := by
    intro j p
    by_cases h : j = i
    · subst h
      rw [if_pos rfl, if_pos rfl]
      ring
    · have : ¬ ((j.1 : Int) = i.1) := fun e => h (Fin.ext (by exact_mod_cast e))
      rw [if_neg this, if_neg h]
      ring
  rw [cov_map_linear a _ (hs j) (hs k)]
  ring

/-- **C85.** Other indices are refused; the array is only read after the check. -/
theorem component_refuses (a : Arr) (d : ℝ) (n : Int) (h : n < 0 ∨ 5 < n) :
    offsetComponent a d n = .error .exception ∧ multiplyComponent a d n = .error .exception :=
  ⟨if_pos h, if_pos h⟩

/-! ## Relativistic factors -/

/-- **C84.** For a positive mass, gamma and beta of the design particle are consistent: gamma is at least
one, beta has absolute value below one, their product is momentum over mass, and
`gamma² (1 - beta²) = 1`. -/
theorem relativistic (p m : ℝ) (hm : 0 < m) :
    ∃ g b, gamma0 p m = .ok g ∧ beta0 p m = .ok b ∧ 1 ≤ g ∧ |b| < 1 ∧ b * g = p / m ∧ g ^ 2 * (1 - b ^ 2) = 1 := by
  have hbg : beta0gamma0 p m = .ok (p / m) := if_neg hm.ne'
  have hg : gamma0 p m = .ok (Real.sqrt ((p / m) ^ 2 + 1)) := by
    unfold gamma0
    rw [hbg]
    exact msqrt_ok (by positivity)
  have hg1 : 1 ≤ Real.sqrt ((p / m) ^ 2 + 1) := by
    rw [Real.one_le_sqrt]
    nlinarith [sq_nonneg (p / m)]
  have hb : beta0 p m = .ok (p / m / Real.sqrt ((p / m) ^ 2 + 1)) := by
    unfold beta0
    rw [hbg, hg]
    simp only [bind, Except.bind]
    rw [if_neg (by linarith)]
  have hsq : Real.sqrt ((p / m) ^ 2 + 1) ^ 2 = (p / m) ^ 2 + 1 := Real.sq_sqrt (by positivity)
  refine ⟨_, _, hg, hb, hg1, ?_, ?_, ?_⟩
  · rw [abs_div, abs_of_pos (show 0 < Real.sqrt ((p / m) ^ 2 + 1) by linarith), div_lt_one (by linarith)]
    apply Real.lt_sqrt_of_sq_lt
    rw [sq_abs]
    linarith
  · rw [div_mul_cancel₀]
    linarith
  · have : Real.sqrt ((p / m) ^ 2 + 1) ≠ 0 := by linarith
    rw [div_pow]
    field_simp
    field_simp at hsq
    linarith

/-! ## Constructor -/

theorem fillBall_spec : ∀ (draws : List ℝ) (n : Nat) (ps : List (ℝ × ℝ × ℝ)) (s : List ℝ), fillBall n draws = .ok (ps, s) →
    ps.length = n ∧ ∀ q ∈ ps, q.1 ^ 2 + q.2.1 ^ 2 + q.2.2 ^ 2 < 1
  | draws, 0, ps, s, h => by
    unfold fillBall at h
    simp only [Except.ok.injEq, Prod.mk.injEq] at h
    rw [← h.1]
    simp
  | [], n + 1, ps, s, h => by unfold fillBall at h; cases h
  | [_], n + 1, ps, s, h => by unfold fillBall at h; cases h
  | [_, _], n + 1, ps, s, h => by unfold fillBall at h; cases h
  | a :: b :: c :: draws, n + 1, ps, s, h => by
    unfold fillBall at h
    simp only at h
    by_cases hin : (2 * a - 1) ^ 2 + (2 * b - 1) ^ 2 + (2 * c - 1) ^ 2 < 1
    · rw [if_pos hin] at h
      cases hr : fillBall n draws with
      | error e => rw [hr] at h; cases h
      | ok r =>
        obtain ⟨ps', s'⟩ := r
        rw [hr] at h
        simp only [Except.ok.injEq, Prod.mk.injEq] at h
        obtain ⟨h1, h2⟩ := fillBall_spec draws n ps' s' hr
        rw [← h.1]
        refine ⟨by simp [h1], fun q hq => ?_⟩
        rcases List.mem_cons.1 hq with rfl | hq
        · exact hin
        · exact h2 q hq
    · rw [if_neg hin] at h
      exact fillBall_spec draws (n + 1) ps s h

theorem joinBall_mem {qs ps : List (ℝ × ℝ × ℝ)} {p : Vec} (h : p ∈ joinBall qs ps) :
    ∃ q ∈ qs, ∃ r ∈ ps, p = ![q.1, r.1, q.2.1, r.2.1, q.2.2, r.2.2] := by
  induction qs generalizing ps with
  | nil => simp [joinBall] at h
  | cons q qs ih =>
    match ps with
    | [] => simp [joinBall] at h
    | r :: ps =>
      obtain ⟨x, y, z⟩ := q
      obtain ⟨px, py, pz⟩ := r
      simp only [joinBall, List.mem_cons] at h
      rcases h with rfl | h
      · exact ⟨(x, y, z), by simp, (px, py, pz), by simp, rfl⟩
      · obtain ⟨q, hq, r, hr, e⟩ := ih h
        exact ⟨q, by simp [hq], r, by simp [hr], e⟩

theorem joinBall_length (qs ps : List (ℝ × ℝ × ℝ)) (h : qs.length = ps.length) : (joinBall qs ps).length = qs.length := by
  induction qs generalizing ps with
  | nil => simp [joinBall]
  | cons q qs ih =>
    match ps with
    | [] => simp at h
    | r :: ps =>
      simp only [joinBall, List.length_cons]
      rw [ih ps (by simpa using h)]

/-- **C82, uniform.** Before cleaning there are as many particles as requested, and for each the position
and the momentum are inside the unit ball. -/
theorem uniform_inside (n : Nat) (draws : List ℝ) (a : Arr) (h : makeUniform n draws = .ok a) :
    a.length = n ∧ ∀ p ∈ a, p 0 ^ 2 + p 2 ^ 2 + p 4 ^ 2 < 1 ∧ p 1 ^ 2 + p 3 ^ 2 + p 5 ^ 2 < 1 := by
  unfold makeUniform at h
  cases hq : fillBall n draws with
  | error e => rw [hq] at h; cases h
  | ok r =>
    obtain ⟨qs, s⟩ := r
    rw [hq] at h
    simp only at h
    cases hp : fillBall n s with
    | error e => rw [hp] at h; cases h
    | ok r' =>
      obtain ⟨ps, s'⟩ := r'
      rw [hp] at h
      simp only [Except.ok.injEq] at h
      obtain ⟨l1, i1⟩ := fillBall_spec _ _ _ _ hq
      obtain ⟨l2, i2⟩ := fillBall_spec _ _ _ _ hp
      subst h
      refine ⟨by rw [joinBall_length _ _ (by omega), l1], fun p hp => ?_⟩
      obtain ⟨q, hq, r, hr, rfl⟩ := joinBall_mem hp
      exact ⟨i1 q hq, i2 r hr⟩

theorem fillBall_draws : ∀ (draws : List ℝ) (n : Nat) (ps : List (ℝ × ℝ × ℝ)) (s : List ℝ), fillBall n draws = .ok (ps, s) →
    s ⊆ draws ∧ ∀ q ∈ ps, (∃ a ∈ draws, q.1 = 2 * a - 1) ∧ (∃ a ∈ draws, q.2.1 = 2 * a - 1) ∧ ∃ a ∈ draws, q.2.2 = 2 * a - 1
  | draws, 0, ps, s, h => by
    unfold fillBall at h
    simp only [Except.ok.injEq, Prod.mk.injEq] at h
    rw [← h.1, ← h.2]
    simp
  | [], n + 1, ps, s, h => by unfold fillBall at h; cases h
  | [_], n + 1, ps, s, h => by unfold fillBall at h; cases h
  | [_, _], n + 1, ps, s, h => by unfold fillBall at h; cases h
  | a :: b :: c :: draws, n + 1, ps, s, h => by
    have up : ∀ z ∈ draws, z ∈ a :: b :: c :: draws := fun z hz =>
      List.mem_cons_of_mem _ (List.mem_cons_of_mem _ (List.mem_cons_of_mem _ hz))
    have lift : ∀ x : ℝ, (∃ a ∈ draws, x = 2 * a - 1) → ∃ a' ∈ a :: b :: c :: draws, x = 2 * a' - 1 :=
      fun x ⟨w, hw, e⟩ => ⟨w, up w hw, e⟩
    unfold fillBall at h
    simp only at h
    by_cases hin : (2 * a - 1) ^ 2 + (2 * b - 1) ^ 2 + (2 * c - 1) ^ 2 < 1
    · rw [if_pos hin] at h
      cases hr : fillBall n draws with
      | error e => rw [hr] at h; cases h
      | ok r =>
        obtain ⟨ps', s'⟩ := r
        rw [hr] at h
        simp only [Except.ok.injEq, Prod.mk.injEq] at h
        obtain ⟨h1, h2⟩ := fillBall_draws draws n ps' s' hr
        rw [← h.1, ← h.2]
        refine ⟨fun z hz => up z (h1 hz), fun q hq => ?_⟩
        rcases List.mem_cons.1 hq with rfl | hq
        · exact ⟨⟨a, by simp, rfl⟩, ⟨b, by simp, rfl⟩, ⟨c, by simp, rfl⟩⟩
        · obtain ⟨g1, g2, g3⟩ := h2 q hq
          exact ⟨lift _ g1, lift _ g2, lift _ g3⟩
    · rw [if_neg hin] at h
      obtain ⟨h1, h2⟩ := fillBall_draws draws (n + 1) ps s h
      refine ⟨fun z hz => up z (h1 hz), fun q hq => ?_⟩
      obtain ⟨g1, g2, g3⟩ := h2 q hq
      exact ⟨lift _ g1, lift _ g2, lift _ g3⟩

/-- **C82, uniform.** Every coordinate is `2 a - 1` for a drawn number `a`, so both signs occur. -/
theorem uniform_coordinates (n : Nat) (draws : List ℝ) (a : Arr) (h : makeUniform n draws = .ok a) :
    ∀ p ∈ a, ∀ i, ∃ r ∈ draws, p i = 2 * r - 1 := by
  unfold makeUniform at h
  cases hq : fillBall n draws with
  | error e => rw [hq] at h; cases h
  | ok r =>
    obtain ⟨qs, s⟩ := r
    rw [hq] at h
    simp only at h
    cases hp : fillBall n s with
    | error e => rw [hp] at h; cases h
    | ok r' =>
      obtain ⟨ps, s'⟩ := r'
      rw [hp] at h
      simp only [Except.ok.injEq] at h
      obtain ⟨l1, i1⟩ := fillBall_draws _ _ _ _ hq
      obtain ⟨_, i2⟩ := fillBall_draws _ _ _ _ hp
      subst h
      intro p hp i
      obtain ⟨q, hq, r, hr, rfl⟩ := joinBall_mem hp
      obtain ⟨a1, a2, a3⟩ := i1 q hq
      obtain ⟨⟨b1, c1, d1⟩, ⟨b2, c2, d2⟩, ⟨b3, c3, d3⟩⟩ := i2 r hr
      fin_cases i
      · exact a1
      · exact ⟨b1, l1 c1, d1⟩
      · exact a2
      · exact ⟨b2, l1 c2, d2⟩
      · exact a3
      · exact ⟨b3, l1 c3, d3⟩

theorem fillRow_spec (fac : ℝ) (draws : List ℝ) : ∀ (n : Nat) (xs s : List ℝ), fillRow fac n draws = .ok (xs, s) →
    xs.length = n ∧ ∀ x ∈ xs, x * x < fac := by
  induction draws with
  | nil =>
    intro n xs s h
    cases n with
    | zero =>
      unfold fillRow at h
      simp only [Except.ok.injEq, Prod.mk.injEq] at h
      rw [← h.1]
      simp
    | succ n => unfold fillRow at h; cases h
  | cons x draws ih =>
    intro n xs s h
    cases n with
    | zero =>
      unfold fillRow at h
      simp only [Except.ok.injEq, Prod.mk.injEq] at h
      rw [← h.1]
      simp
    | succ n =>
      unfold fillRow at h
      by_cases hx : x * x < fac
      · rw [if_pos hx] at h
        cases hr : fillRow fac n draws with
        | error e => rw [hr] at h; cases h
        | ok r =>
          obtain ⟨xs', s'⟩ := r
          rw [hr] at h
          simp only [Except.ok.injEq, Prod.mk.injEq] at h
          obtain ⟨h1, h2⟩ := ih n xs' s' hr
          rw [← h.1]
          refine ⟨by simp [h1], fun y hy => ?_⟩
          rcases List.mem_cons.1 hy with rfl | hy
          · exact hx
          · exact h2 y hy
      · rw [if_neg hx] at h
        exact ih (n + 1) xs s h

theorem fillRows_spec (fac : ℝ) (n : Nat) : ∀ (m : Nat) (draws : List ℝ) (rows : List (List ℝ)),
    fillRows fac n m draws = .ok rows → rows.length = m ∧ ∀ row ∈ rows, row.length = n ∧ ∀ x ∈ row, x * x < fac := by
  intro m
  induction m with
  | zero =>
    intro draws rows h
    unfold fillRows at h
    simp only [Except.ok.injEq] at h
    rw [← h]
    simp
  | succ m ih =>
    intro draws rows h
    unfold fillRows at h
    cases hr : fillRow fac n draws with
    | error e => rw [hr] at h; cases h
    | ok r =>
      obtain ⟨row, s⟩ := r
      rw [hr] at h
      simp only at h
      cases hs : fillRows fac n m s with
      | error e => rw [hs] at h; cases h
      | ok rows' =>
        rw [hs] at h
        simp only [Except.ok.injEq] at h
        obtain ⟨h1, h2⟩ := ih s rows' hs
        rw [← h]
        refine ⟨by simp [h1], fun row' hrow => ?_⟩
        rcases List.mem_cons.1 hrow with rfl | hrow
        · exact fillRow_spec fac draws n _ s hr
        · exact h2 row' hrow

/-- Before cleaning, every coordinate of a Gaussian distribution has a square below `max_rms_fac`. -/
theorem gauss_square (fac : ℝ) (n : Nat) (draws : List ℝ) (a : Arr) (h : makeGauss fac n draws = .ok a) :
    a.length = n ∧ ∀ p ∈ a, ∀ i, p i ^ 2 < fac := by
  unfold makeGauss at h
  cases hr : fillRows fac n 6 draws with
  | error e => rw [hr] at h; cases h
  | ok rows =>
    rw [hr] at h
    simp only [Except.ok.injEq] at h
    obtain ⟨h1, h2⟩ := fillRows_spec fac n 6 draws rows hr
    subst h
    refine ⟨by simp, fun p hp i => ?_⟩
    obtain ⟨k, hk, rfl⟩ := List.mem_map.1 hp
    rw [List.mem_range] at hk
    have hi : i.1 < rows.length := by omega
    obtain ⟨h3, h4⟩ := h2 rows[i.1] (List.getElem_mem hi)
    have hk' : k < rows[i.1].length := by omega
    simp only [List.getD_eq_getElem?_getD, List.getElem?_eq_getElem hi, Option.getD_some, List.getElem?_eq_getElem hk']
    rw [pow_two]
    exact h4 _ (List.getElem_mem hk')

/-- **C82, Gaussian.** No coordinate is beyond `max_rms_fac` standard deviations before cleaning. Proved
for factors that are at least one. -/
theorem gauss_cut_partial (fac : ℝ) (hf : 1 ≤ fac) (n : Nat) (draws : List ℝ) (a : Arr) (h : makeGauss fac n draws = .ok a) :
    a.length = n ∧ ∀ p ∈ a, ∀ i, |p i| < fac := by
  obtain ⟨h1, h2⟩ := gauss_square fac n draws a h
  refine ⟨h1, fun p hp i => ?_⟩
  apply abs_lt_of_sq_lt_sq _ (by linarith)
  exact lt_of_lt_of_le (h2 p hp i) (by nlinarith)

/-- The cut is at the square root of the factor: a draw between the factor and its square root is
accepted when the factor is below one, and a draw between the square root and the factor is thrown
away when the factor is above one. -/
theorem gauss_cut_fails (fac x : ℝ) (s : List ℝ) (hx : 0 ≤ x) :
    (fac ≤ x → x * x < fac → fillRow fac 1 (x :: s) = .ok ([x], s)) ∧
    (x < fac → fac ≤ x * x → fillRow fac 1 (x :: s) = fillRow fac 1 s) := by
  constructor
  · intro _ h
    unfold fillRow
    rw [if_pos h]
    unfold fillRow
    rfl
  · intro _ h
    conv_lhs => unfold fillRow
    rw [if_neg (not_lt.2 h)]

/-- **C82.** Wrong arguments: a number of particles that is not positive and a factor that is not
positive raise the intended exception. -/
theorem distrib_refuses (n : Int) (kind : String) (fac : ℝ) (draws : List ℝ) :
    (n ≤ 0 → newDistrib n kind fac draws = .error .exception) ∧
    (0 < n → (kind = "uniform" ∨ kind = "gaussian") → fac ≤ 0 → newDistrib n kind fac draws = .error .exception) := by
  constructor
  · intro h
    unfold newDistrib newPhaseSpace
    rw [if_neg (not_lt.2 h)]
  · intro h hk hf
    unfold newDistrib newPhaseSpace
    rw [if_pos h]
    have : ¬ (kind ≠ "uniform" ∧ kind ≠ "gaussian") := by
      rintro ⟨h1, h2⟩
      rcases hk with h | h
      · exact h1 h
      · exact h2 h
    simp only [if_neg this, if_neg (not_lt.2 hf)]

/-- An unknown kind of distribution raises AttributeError in place of the intended exception. -/
theorem distrib_kind_fails (n : Int) (hn : 0 < n) (kind : String) (hk : kind ∉ ["uniform", "gaussian"]) (fac : ℝ)
    (draws : List ℝ) : newDistrib n kind fac draws = .error .attributeError := by
  simp only [List.mem_cons, List.not_mem_nil, or_false, not_or] at hk
  unfold newDistrib newPhaseSpace
  rw [if_pos hn]
  simp only [if_pos (show kind ≠ "uniform" ∧ kind ≠ "gaussian" from hk)]

example : ∃ a, makeUniform 1 [1, 1, 1, 1 / 2, 1 / 2, 1 / 2, 3 / 4, 1 / 2, 1 / 2] = .ok a := by
  unfold makeUniform
  norm_num [fillBall]

example : ∃ a, makeGauss 4 1 [0, 1, -1, 3, 1 / 2, 0, 1] = .ok a := by
  unfold makeGauss
  norm_num [fillRows, fillRow]

example : ∃ b, offsetComponent [![1, 2, 3, 4, 5, 6], ![3, 3, 3, 3, 3, 3]] 2 1 = .ok b ∧ mean b 1 = 9 / 2 ∧ mean b 0 = 2 := by
  obtain ⟨b, h, hm, _⟩ := offset_moments [![1, 2, 3, 4, 5, 6], ![3, 3, 3, 3, 3, 3]] (by simp) 2 1
  refine ⟨b, h, ?_, ?_⟩
  · rw [hm, if_pos rfl]
    norm_num [mean]
  · rw [hm, if_neg (by decide)]
    norm_num [mean]

example : ∃ g b, gamma0 3 4 = .ok g ∧ beta0 3 4 = .ok b ∧ b * g = 3 / 4 := by
  obtain ⟨g, b, h1, h2, _, _, h3, _⟩ := relativistic 3 4 (by norm_num)
  exact ⟨g, b, h1, h2, h3⟩

example : newDistrib 3 "waterbag" 2 [] = .error .attributeError := distrib_kind_fails 3 (by norm_num) "waterbag" (by decide) 2 []

example : fillRow (1 / 4) 1 [1 / 3] = .ok ([1 / 3], []) := (gauss_cut_fails (1 / 4) (1 / 3) [] (by norm_num)).1 (by norm_num) (by norm_num)

example : fillRow 4 1 [3, 1] = fillRow 4 1 [1] := (gauss_cut_fails 4 3 [1] (by norm_num)).2 (by norm_num) (by norm_num)

/-- The hypotheses of `clean_first` and `clean_mean` hold for the beam of `clean_fails`. -/
example : ∃ b bs, clean (![1, 0, 0, 0, 0, 0] :: axesRest) = .ok b ∧ b = (fun _ => 0) :: bs := by
  obtain ⟨b, h, _⟩ := clean_fails
  obtain ⟨bs, hbs⟩ := clean_first _ _ _ h
  exact ⟨b, bs, h, hbs⟩

example : offsetComponent [![1, 2, 3, 4, 5, 6]] 2 6 = .error .exception := (component_refuses [![1, 2, 3, 4, 5, 6]] 2 6 (by norm_num)).1

example : ∃ a, makeUniform 1 [1, 1, 1, 1 / 2, 1 / 2, 1 / 2, 3 / 4, 1 / 2, 1 / 2] = .ok a ∧ a.length = 1 ∧
    ∀ p ∈ a, p 0 ^ 2 + p 2 ^ 2 + p 4 ^ 2 < 1 := by
  have h : ∃ a, makeUniform 1 [1, 1, 1, 1 / 2, 1 / 2, 1 / 2, 3 / 4, 1 / 2, 1 / 2] = .ok a := by
    unfold makeUniform
    norm_num [fillBall]
  obtain ⟨a, h⟩ := h
  obtain ⟨h1, h2⟩ := uniform_inside 1 _ a h
  exact ⟨a, h, h1, fun p hp => (h2 p hp).1⟩

example : ∃ a, makeUniform 1 [1, 1, 1, 1 / 2, 1 / 2, 1 / 2, 3 / 4, 1 / 2, 1 / 2] = .ok a ∧
    ∀ p ∈ a, ∀ i, ∃ r ∈ [1, 1, 1, 1 / 2, 1 / 2, 1 / 2, 3 / 4, 1 / 2, 1 / 2], p i = 2 * r - 1 := by
  have h : ∃ a, makeUniform 1 [1, 1, 1, 1 / 2, 1 / 2, 1 / 2, 3 / 4, 1 / 2, 1 / 2] = .ok a := by
    unfold makeUniform
    norm_num [fillBall]
  obtain ⟨a, h⟩ := h
  exact ⟨a, h, uniform_coordinates 1 _ a h⟩

example : ∃ a, makeGauss 4 1 [0, 1, -1, 3, 1 / 2, 0, 1] = .ok a ∧ ∀ p ∈ a, ∀ i, |p i| < 4 := by
  have h : ∃ a, makeGauss 4 1 [0, 1, -1, 3, 1 / 2, 0, 1] = .ok a := by
    unfold makeGauss
    norm_num [fillRows, fillRow]
  obtain ⟨a, h⟩ := h
  exact ⟨a, h, (gauss_cut_partial 4 (by norm_num) 1 _ a h).2⟩

end Verif.Ptcls
