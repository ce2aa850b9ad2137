import Verif.Ptcls.PropsClean

/-!
# Properties C53 and C83: moments of new beams, and arrays with more particles than the stored number
-/

open scoped BigOperators

namespace Verif.Ptcls

open Verif.Stats6d

/-! ## Variances after cleaning -/

theorem cov_self_eq (a : Arr) (ha : a ≠ []) (i : Fin 6) : cov a i i = (a.map fun p => p i ^ 2).sum / a.length - mean a i ^ 2 := by
  have hl : (a.length : ℝ) ≠ 0 := by
    have := List.length_pos_iff.2 ha
    positivity
  have hs : (a.map fun p => p i).sum = mean a i * a.length := by unfold mean; field_simp
  unfold cov
  generalize mean a i = m at *
  have e : (a.map fun p => (p i - m) * (p i - m)).sum = (a.map fun p => p i ^ 2).sum - 2 * m * (a.map fun p => p i).sum + m ^ 2 * a.length := by
    clear ha hl hs
    induction a with
    | nil => simp
    | cons p a ih =>
      simp only [List.map_cons, List.sum_cons, ih, List.length_cons]
      push_cast
      ring
  rw [e, hs]
  field_simp
  ring

theorem normalized_variance (q : Vec) (cs : Arr) (i : Fin 6) (hm : mean (q :: cs) i = 0) (hv : 0 < variance (q :: cs) i) {b : Arr}
    (hb : normalizeRms (q :: cs) = .ok b) : b.length = cs.length + 1 ∧ cov b i i = 1 - (b.length + 1) * mean b i ^ 2 := by
  rw [normalizeRms_cons] at hb
  simp only [Except.ok.injEq] at hb
  have hlen : b.length = cs.length + 1 := by rw [← hb]; simp
  refine ⟨hlen, ?_⟩
  have hbne : b ≠ [] := by intro h; rw [h] at hlen; simp at hlen
  have hvar := cov_self_eq (q :: cs) (by simp) i
  have hcov := cov_self_eq b hbne i
  rw [hm] at hvar
  have hσ : Real.sqrt (variance (q :: cs) i) ^ 2 = variance (q :: cs) i := Real.sq_sqrt hv.le
  have hσ0 : 0 < Real.sqrt (variance (q :: cs) i) := Real.sqrt_pos.2 hv
  have hvd : cov (q :: cs) i i = variance (q :: cs) i := rfl
  have h0 : (q i + (cs.map fun p => p i).sum) = 0 := by
    unfold mean at hm
    simp only [List.map_cons, List.sum_cons, List.length_cons] at hm
    rw [div_eq_zero_iff] at hm
    rcases hm with h | h
    · exact h
    · push_cast at h
      have : (0 : ℝ) < (cs.length : ℝ) + 1 := by positivity
      linarith
  have hmb : mean b i = (cs.map fun p => p i).sum * (1 / Real.sqrt (variance (q :: cs) i)) / b.length := by
    show (b.map fun p => p i).sum / (b.length : ℝ) = _
    congr 1
    rw [← hb]
    simp only [List.map_cons, List.sum_cons, List.map_map, Function.comp_def, hm]
    rw [List.sum_map_mul_right]
    ring
  have hsb : (b.map fun p => p i ^ 2).sum = (cs.map fun p => p i ^ 2).sum * (1 / Real.sqrt (variance (q :: cs) i)) ^ 2 := by
    rw [← hb]
    simp only [List.map_cons, List.sum_cons, List.map_map, Function.comp_def, hm, mul_pow]
    rw [List.sum_map_mul_right]
    ring
  have hn : (b.length : ℝ) = cs.length + 1 := by rw [hlen]; push_cast; rfl
  simp only [List.map_cons, List.sum_cons, List.length_cons] at hvar
  push_cast at hvar
  rw [hvd] at hvar
  rw [hcov, hsb, hmb, hn]
  have hnp : (0 : ℝ) < (cs.length : ℝ) + 1 := by positivity
  generalize Real.sqrt (variance (q :: cs) i) = σ at *
  generalize variance (q :: cs) i = w at *
  generalize (cs.map fun p => p i ^ 2).sum = S at *
  generalize (cs.map fun p => p i).sum = T at *
  generalize (cs.length : ℝ) + 1 = n at *
  have hq : q i = -T := by linarith
  rw [hq] at hvar
  have hS : S = n * σ ^ 2 - T ^ 2 := by
    rw [hσ]
    field_simp at hvar
    linarith
  rw [hS]
  field_simp
  ring

theorem clean_steps {p0 : Vec} {rest b a2 : Arr} (h : clean (p0 :: rest) = .ok b) (hr : rmCorrelations (subAvg (p0 :: rest)) = .ok a2) :
    a2.length = rest.length + 1 ∧ normalizeRms (subAvg a2) = .ok b := by
  unfold clean at h
  rw [hr] at h
  refine ⟨?_, h⟩
  rw [subAvg_cons] at hr
  obtain ⟨v, _, ha2⟩ := rm_exact hr
  rw [ha2]
  simp [rotate]

/-- **C83, exact variances.** After cleaning `n` particles the variance of every row is one less `n + 1` times the square of its average. -/
theorem clean_variance (p0 : Vec) (rest b a2 : Arr) (h : clean (p0 :: rest) = .ok b)
    (hr : rmCorrelations (subAvg (p0 :: rest)) = .ok a2) (hv : ∀ i, 0 < variance a2 i) (i : Fin 6) :
    b.length = rest.length + 1 ∧ variance b i = 1 - (b.length + 1) * mean b i ^ 2 := by
  obtain ⟨h1, h2⟩ := clean_steps h hr
  have hne : a2 ≠ [] := by intro h; rw [h] at h1; simp at h1
  obtain ⟨m1, m2, _⟩ := sub_avg_centers a2 hne i i
  match a2, hne with
  | q :: qs, _ =>
    rw [subAvg_cons] at h2 m1 m2
    obtain ⟨k1, k2⟩ := normalized_variance _ _ i m1 (by unfold variance; rw [m2]; exact hv i) h2
    rw [k1]
    rw [k1] at k2
    simp only [List.length_cons, List.length_map] at h1 k2 ⊢
    rw [← h1]
    exact ⟨rfl, k2⟩

/-- **C83, exact condition.** All variances are one exactly when the first particle was at the average before. -/
theorem clean_unit_iff (p0 : Vec) (rest b a2 : Arr) (h : clean (p0 :: rest) = .ok b)
    (hr : rmCorrelations (subAvg (p0 :: rest)) = .ok a2) (hv : ∀ i, 0 < variance a2 i) :
    (∀ i, variance b i = 1) ↔ ∀ i, p0 i = mean (p0 :: rest) i := by
  rw [← clean_mean p0 rest b a2 h hr hv]
  have key := fun i => (clean_variance p0 rest b a2 h hr hv i).2
  constructor
  · intro hu i
    have := key i
    rw [hu i] at this
    have hp : (0 : ℝ) < b.length + 1 := by positivity
    have hz : mean b i ^ 2 = 0 := by
      have : (b.length + 1 : ℝ) * mean b i ^ 2 = 0 := by linarith
      rcases mul_eq_zero.1 this with h | h
      · exact absurd h hp.ne'
      · exact h
    exact pow_eq_zero_iff (two_ne_zero) |>.1 hz
  · intro hm i
    rw [key i, hm i]
    ring

/-! ## New beams -/

theorem newDistrib_ok {n : Int} {kind : String} {fac : ℝ} {draws : List ℝ} {s : PhaseSpace} (h : newDistrib n kind fac draws = .ok s) :
    0 < n ∧ s.num = n.toNat ∧ ∃ a, (if kind = "uniform" then makeUniform n.toNat draws else makeGauss fac n.toNat draws) = .ok a ∧
      a.length = n.toNat ∧ clean a = .ok s.arr := by
  unfold newDistrib newPhaseSpace at h
  by_cases hn : 0 < n
  · rw [if_pos hn] at h
    simp only at h
    by_cases hk : kind ≠ "uniform" ∧ kind ≠ "gaussian"
    · rw [if_pos hk] at h; cases h
    · rw [if_neg hk] at h
      by_cases hf : 0 < fac
      · rw [if_pos hf] at h
        cases ha : (if kind = "uniform" then makeUniform n.toNat draws else makeGauss fac n.toNat draws) with
        | error e => rw [ha] at h; cases h
        | ok a =>
          rw [ha] at h
          simp only at h
          cases hc : clean a with
          | error e => rw [hc] at h; cases h
          | ok b =>
            rw [hc] at h
            cases h
            refine ⟨hn, rfl, a, rfl, ?_, hc⟩
            by_cases hu : kind = "uniform"
            · rw [if_pos hu] at ha
              exact (uniform_inside _ _ _ ha).1
            · rw [if_neg hu] at ha
              unfold makeGauss at ha
              cases hr : fillRows fac n.toNat 6 draws with
              | error e => rw [hr] at ha; cases ha
              | ok rows =>
                rw [hr] at ha
                cases ha
                simp
      · rw [if_neg hf] at h; cases h
  · rw [if_neg hn] at h; cases h

/-- A plane has the given moments after the linear map exactly if it had unit moments before. -/
theorem plane_iff {a : Arr} {f : Vec → Vec} {k : Fin 3} {c : Coeffs} {α β ε : ℝ} (he : 0 < ε) (hβ : 0 < β)
    (m1 : ∀ p, f p (ix k) = Real.sqrt ε * c.fac * c.cos * p (ix k) + -(Real.sqrt ε * c.inv * c.sin) * p (ip k))
    (m2 : ∀ p, f p (ip k) = Real.sqrt ε * c.fac * c.sin * p (ix k) + Real.sqrt ε * c.inv * c.cos * p (ip k))
    (h1 : (c.fac * c.cos) ^ 2 + (c.inv * c.sin) ^ 2 = β) (h2 : (c.fac * c.sin) ^ 2 + (c.inv * c.cos) ^ 2 = (1 + α ^ 2) / β)
    (h3 : (c.fac * c.cos) * (c.fac * c.sin) - (c.inv * c.sin) * (c.inv * c.cos) = -α) :
    HasMoments (a.map f) k α β ε ↔ cov a (ix k) (ix k) = 1 ∧ cov a (ip k) (ip k) = 1 ∧ cov a (ix k) (ip k) = 0 := by
  unfold HasMoments
  rw [cov_map_linear a f m1 m1, cov_map_linear a f m2 m2, cov_map_linear a f m1 m2, cov_symm a (ip k) (ix k)]
  have hs : Real.sqrt ε ^ 2 = ε := Real.sq_sqrt he.le
  generalize cov a (ix k) (ix k) = U
  generalize cov a (ip k) (ip k) = V
  generalize cov a (ix k) (ip k) = W
  generalize Real.sqrt ε = r at *
  clear m1 m2
  obtain ⟨F, G, S, C⟩ := c
  simp only at *
  have hγ : β * ((1 + α ^ 2) / β) = 1 + α ^ 2 := by field_simp
  generalize (1 + α ^ 2) / β = γ at *
  have hdet : (F * C * (G * C) + G * S * (F * S)) ^ 2 = 1 := by
    have : (F * C * (G * C) + G * S * (F * S)) ^ 2 =
        ((F * C) ^ 2 + (G * S) ^ 2) * ((F * S) ^ 2 + (G * C) ^ 2) - ((F * C) * (F * S) - (G * S) * (G * C)) ^ 2 := by ring
    rw [this, h1, h2, h3, hγ]
    ring
  constructor
  · rintro ⟨e1, e2, e3⟩
    have e1 : (F * C) ^ 2 * (U - 1) + (G * S) ^ 2 * (V - 1) - 2 * (F * C) * (G * S) * W = 0 := by
      have : ε * ((F * C) ^ 2 * (U - 1) + (G * S) ^ 2 * (V - 1) - 2 * (F * C) * (G * S) * W) = 0 := by
        linear_combination e1 - ((F * C) ^ 2 * U + (G * S) ^ 2 * V - 2 * (F * C) * (G * S) * W) * hs - ε * h1
      exact (mul_eq_zero.1 this).resolve_left he.ne'
    have e2 : (F * S) ^ 2 * (U - 1) + (G * C) ^ 2 * (V - 1) + 2 * (F * S) * (G * C) * W = 0 := by
      have : ε * ((F * S) ^ 2 * (U - 1) + (G * C) ^ 2 * (V - 1) + 2 * (F * S) * (G * C) * W) = 0 := by
        linear_combination e2 - ((F * S) ^ 2 * U + (G * C) ^ 2 * V + 2 * (F * S) * (G * C) * W) * hs - ε * h2
      exact (mul_eq_zero.1 this).resolve_left he.ne'
    have e3 : (F * C) * (F * S) * (U - 1) - (G * S) * (G * C) * (V - 1) + (F * C * (G * C) - G * S * (F * S)) * W = 0 := by
      have : ε * ((F * C) * (F * S) * (U - 1) - (G * S) * (G * C) * (V - 1) + (F * C * (G * C) - G * S * (F * S)) * W) = 0 := by
        linear_combination e3 - ((F * C) * (F * S) * U - (G * S) * (G * C) * V + (F * C * (G * C) - G * S * (F * S)) * W) * hs - ε * h3
      exact (mul_eq_zero.1 this).resolve_left he.ne'
    generalize F * C = A at *
    generalize G * S = B at *
    generalize F * S = A' at *
    generalize G * C = B' at *
    refine ⟨?_, ?_, ?_⟩
    · linear_combination B' ^ 2 * e1 + B ^ 2 * e2 + 2 * B * B' * e3 - (U - 1) * hdet
    · linear_combination A' ^ 2 * e1 + A ^ 2 * e2 - 2 * A * A' * e3 - (V - 1) * hdet
    · linear_combination -A' * B' * e1 + A * B * e2 + (A * B' - B * A') * e3 - W * hdet
  · rintro ⟨rfl, rfl, rfl⟩
    refine ⟨?_, ?_, ?_⟩
    · linear_combination ((F * C) ^ 2 + (G * S) ^ 2) * hs + ε * h1
    · linear_combination ((F * S) ^ 2 + (G * C) ^ 2) * hs + ε * h2
    · linear_combination ((F * C) * (F * S) - (G * S) * (G * C)) * hs + ε * h3

theorem usedAlpha_eq {α β : ℝ} (hβ : 0 < β) (hx : α < 0 → β ^ 2 ≠ 1 + α ^ 2) : usedAlpha α β = α := by
  unfold usedAlpha
  rw [if_neg]
  rintro ⟨e1, e2⟩
  rw [div_eq_iff hβ.ne'] at e1
  exact hx e2 (by rw [e1]; ring)

/-- **C53, exact condition for beams.** A new beam has the requested number of particles. It has the requested Twiss parameters and emittances
in the three planes exactly if the first particle that was drawn is at the average of the particles. Planes whose alpha loses its sign
are left out, and samples that have no extent in a direction. -/
theorem beam_twiss_iff {n : Int} {kind : String} {fac ax bx ex ay by' ey az bz ez : ℝ} {draws : List ℝ} {s : PhaseSpace}
    (h : newBeam n kind fac ax bx ex ay by' ey az bz ez draws = .ok s) (hβ : 0 < bx ∧ 0 < by' ∧ 0 < bz) (he : 0 < ex ∧ 0 < ey ∧ 0 < ez)
    (hx : ax < 0 → bx ^ 2 ≠ 1 + ax ^ 2) (hy : ay < 0 → by' ^ 2 ≠ 1 + ay ^ 2) (hz : az < 0 → bz ^ 2 ≠ 1 + az ^ 2) :
    0 < n ∧ s.num = n.toNat ∧ s.arr.length = n.toNat ∧ ∃ p0 rest,
      (if kind = "uniform" then makeUniform n.toNat draws else makeGauss fac n.toNat draws) = .ok (p0 :: rest) ∧
      ∀ a2, rmCorrelations (subAvg (p0 :: rest)) = .ok a2 → (∀ i, 0 < variance a2 i) →
        ((HasMoments s.arr 0 ax bx ex ∧ HasMoments s.arr 1 ay by' ey ∧ HasMoments s.arr 2 az bz ez) ↔
          ∀ i, p0 i = mean (p0 :: rest) i) := by
  unfold newBeam mkTwiss at h
  rw [if_neg hβ.1.ne', if_neg hβ.2.1.ne', if_neg hβ.2.2.ne'] at h
  simp only [bind, Except.bind] at h
  cases hd : newDistrib n kind fac draws with
  | error e => rw [hd] at h; cases h
  | ok s0 =>
    rw [hd] at h
    simp only at h
    obtain ⟨hn, h1, a, h2, h3, h4⟩ := newDistrib_ok hd
    have hane : a ≠ [] := by
      intro h0
      rw [h0] at h3
      simp only [List.length_nil] at h3
      omega
    match a, hane with
    | p0 :: rest, _ =>
      have hr : ∃ a2, rmCorrelations (subAvg (p0 :: rest)) = .ok a2 := by
        unfold clean at h4
        cases hr : rmCorrelations (subAvg (p0 :: rest)) with
        | error e => rw [hr] at h4; cases h4
        | ok a2 => exact ⟨a2, rfl⟩
      obtain ⟨a2, hr⟩ := hr
      have hlen : s0.arr.length = n.toNat := by
        obtain ⟨k1, k2⟩ := clean_steps h4 hr
        rw [← h3]
        have : a2 ≠ [] := by intro h; rw [h] at k1; simp at k1
        match a2, this with
        | q :: qs, _ =>
          rw [subAvg_cons, normalizeRms_cons] at k2
          simp only [Except.ok.injEq] at k2
          rw [← k2]
          simpa using k1
      set tw : Fin 3 → Twiss := ![⟨ax, bx, ex, (1 + ax ^ 2) / bx⟩, ⟨ay, by', ey, (1 + ay ^ 2) / by'⟩, ⟨az, bz, ez, (1 + az ^ 2) / bz⟩] with htw
      have hb : ∀ k, 0 < (tw k).beta := by
        intro k; fin_cases k
        · exact hβ.1
        · exact hβ.2.1
        · exact hβ.2.2
      have hee : ∀ k, 0 < (tw k).emit := by
        intro k; fin_cases k
        · exact he.1
        · exact he.2.1
        · exact he.2.2
      have hal : ∀ k, usedAlpha (tw k).alpha (tw k).beta = (tw k).alpha := by
        intro k; fin_cases k
        · exact usedAlpha_eq hβ.1 hx
        · exact usedAlpha_eq hβ.2.1 hy
        · exact usedAlpha_eq hβ.2.2 hz
      choose c hc g1 g2 g3 using fun k => coeffs_spec (α := (tw k).alpha) (hb k)
      have hmk := makeTwiss_eq (s := s0) (by rw [h1, hlen]) hc fun k => (hee k).le
      rw [hmk] at h
      cases h
      refine ⟨hn, h1, by simp [hlen], p0, rest, h2, ?_⟩
      intro a2' hr' hv
      rw [hr] at hr'
      cases hr'
      have hplane : ∀ k, HasMoments (s0.arr.map (mapParticle c fun k => Real.sqrt (tw k).emit)) k (tw k).alpha (tw k).beta (tw k).emit ↔
          cov s0.arr (ix k) (ix k) = 1 ∧ cov s0.arr (ip k) (ip k) = 1 ∧ cov s0.arr (ix k) (ip k) = 0 := by
        intro k
        exact plane_iff (hee k) (hb k) (fun p => (mapParticle_plane c (fun k => Real.sqrt (tw k).emit) p k).1)
          (fun p => (mapParticle_plane c (fun k => Real.sqrt (tw k).emit) p k).2) (g1 k) (g2 k) (by rw [g3 k, hal k])
      constructor
      · rintro ⟨m0, m1, m2⟩
        rw [← clean_unit_iff p0 rest _ a2 h4 hr hv]
        have u0 := (hplane 0).1 m0
        have u1 := (hplane 1).1 m1
        have u2 := (hplane 2).1 m2
        intro i
        fin_cases i
        · exact u0.1
        · exact u0.2.1
        · exact u1.1
        · exact u1.2.1
        · exact u2.1
        · exact u2.2.1
      · intro hp
        have hu := (clean_partial p0 rest _ a2 h4 hr hv hp).2
        have hk : ∀ k, cov s0.arr (ix k) (ix k) = 1 ∧ cov s0.arr (ip k) (ip k) = 1 ∧ cov s0.arr (ix k) (ip k) = 0 := by
          intro k
          rw [hu, hu, hu, if_pos rfl, if_pos rfl, if_neg (ix_ip_ne k k)]
          exact ⟨rfl, rfl, rfl⟩
        exact ⟨(hplane 0).2 (hk 0), (hplane 1).2 (hk 1), (hplane 2).2 (hk 2)⟩

/-! ## Arrays with more particles than the stored number -/

theorem planeLoop_long (c : Coeffs) (rt : ℝ) (k : Fin 3) (n : Nat) : ∀ ts as : Arr, n ≤ ts.length → n ≤ as.length →
    planeLoop c rt k n ts as = .ok (List.zipWith (planeStep c rt k) (ts.take n) (as.take n) ++ as.drop n) := by
  induction n with
  | zero => intro ts as _ _; simp [planeLoop]
  | succ n ih =>
    intro ts as h1 h2
    match ts, as with
    | [], _ => simp at h1
    | _ :: _, [] => simp at h2
    | t :: ts, a :: as =>
      unfold planeLoop
      rw [ih ts as (by simpa using h1) (by simpa using h2)]
      simp

/-- **C53.** After `set_array_6d` with more particles than the stored number, the first ones are changed as if there were no others, and
the others keep their coordinates. -/
theorem make_twiss_long {s : PhaseSpace} (hn : s.num ≤ s.arr.length) {tw : Fin 3 → Twiss} (hβ : ∀ k, 0 < (tw k).beta)
    (he : ∀ k, 0 ≤ (tw k).emit) :
    ∃ a, makeTwiss ⟨s.num, s.arr.take s.num⟩ tw = .ok ⟨s.num, a⟩ ∧ a.length = s.num ∧
      makeTwiss s tw = .ok ⟨s.num, a ++ s.arr.drop s.num⟩ := by
  choose c hc _ _ _ using fun k => coeffs_spec (α := (tw k).alpha) (hβ k)
  have hp : ∀ k num temp arr, onePlane k (tw k) num temp arr = planeLoop (c k) (Real.sqrt (tw k).emit) k num temp arr := by
    intro k num temp arr
    unfold onePlane
    rw [hc k, msqrt_ok (he k)]
    rfl
  have h1 : (s.arr.take s.num).length = s.num := by rw [List.length_take]; omega
  have hz : ∀ (f : Vec → Vec → Vec) (xs ys : Arr), xs.length = s.num → ys.length = s.num → (List.zipWith f xs ys).length = s.num := by
    intro f xs ys hx hy
    rw [List.length_zipWith, hx, hy]
    omega
  unfold makeTwiss
  simp only [hp, bind, Except.bind]
  set t := s.arr.take s.num with ht
  set r := s.arr.drop s.num with hr
  have hsplit : s.arr = t ++ r := (List.take_append_drop _ _).symm
  have short : ∀ k (xs : Arr), xs.length = s.num → planeLoop (c k) (Real.sqrt (tw k).emit) k s.num t xs =
      .ok (List.zipWith (planeStep (c k) (Real.sqrt (tw k).emit) k) t xs) := by
    intro k xs hx
    rw [planeLoop_long _ _ _ _ _ _ (by omega) (by omega), List.take_of_length_le (by omega), List.take_of_length_le (by omega),
      List.drop_of_length_le (by omega), List.append_nil]
  have long : ∀ k (xs : Arr), xs.length = s.num → planeLoop (c k) (Real.sqrt (tw k).emit) k s.num s.arr (xs ++ r) =
      .ok (List.zipWith (planeStep (c k) (Real.sqrt (tw k).emit) k) t xs ++ r) := by
    intro k xs hx
    rw [planeLoop_long _ _ _ _ _ _ hn (by simp; omega), ← ht, List.take_left' hx, List.drop_left' hx]
  have long0 := long 0 t h1
  rw [← hsplit] at long0
  have l0 := hz (planeStep (c 0) (Real.sqrt (tw 0).emit) 0) t t h1 h1
  have l1 := hz (planeStep (c 1) (Real.sqrt (tw 1).emit) 1) t _ h1 l0
  have l2 := hz (planeStep (c 2) (Real.sqrt (tw 2).emit) 2) t _ h1 l1
  rw [short 0 t h1, long0]
  simp only
  rw [short 1 _ l0, long 1 _ l0]
  simp only
  rw [short 2 _ l1, long 2 _ l1]
  exact ⟨_, rfl, l2, rfl⟩

/-! ## Examples -/

/-- Numbers to be drawn for the given points. -/
noncomputable def drawsOf (ps : List (ℝ × ℝ × ℝ)) : List ℝ := ps.flatMap fun p => [(p.1 + 1) / 2, (p.2.1 + 1) / 2, (p.2.2 + 1) / 2]

theorem fillBall_drawsOf (ps : List (ℝ × ℝ × ℝ)) (h : ∀ p ∈ ps, p.1 ^ 2 + p.2.1 ^ 2 + p.2.2 ^ 2 < 1) (s : List ℝ) :
    fillBall ps.length (drawsOf ps ++ s) = .ok (ps, s) := by
  induction ps with
  | nil => unfold fillBall; rfl
  | cons p ps ih =>
    obtain ⟨x, y, z⟩ := p
    have hp := h (x, y, z) (by simp)
    simp only at hp
    have e : ∀ x : ℝ, 2 * ((x + 1) / 2) - 1 = x := fun x => by ring
    show fillBall (ps.length + 1) ((x + 1) / 2 :: (y + 1) / 2 :: (z + 1) / 2 :: (drawsOf ps ++ s)) = _
    unfold fillBall
    simp only [e]
    rw [if_pos hp, ih fun p hp => h p (by simp [hp])]

theorem exBeam {p0 : Vec} {rest : Arr} {qs ps : List (ℝ × ℝ × ℝ)} (hq : ∀ p ∈ qs, p.1 ^ 2 + p.2.1 ^ 2 + p.2.2 ^ 2 < 1)
    (hp : ∀ p ∈ ps, p.1 ^ 2 + p.2.1 ^ 2 + p.2.2 ^ 2 < 1) (hl : qs.length = ps.length) (hj : joinBall qs ps = p0 :: rest)
    (hm : ∀ i, mean (p0 :: rest) i = 0) (hc : ∀ i j, i ≠ j → cov (p0 :: rest) i j = 0) (hz : ∀ i j, i ≠ j → p0 i * p0 j = 0) :
    rmCorrelations (subAvg (p0 :: rest)) = .ok ((fun _ => 0) :: rest) ∧
    makeUniform qs.length (drawsOf qs ++ drawsOf ps) = .ok (p0 :: rest) ∧
    ∃ s, newBeam qs.length "uniform" 1 (-1) 2 3 0 1 4 1 2 3 (drawsOf qs ++ drawsOf ps) = .ok s := by
  have hrm : rmCorrelations (subAvg (p0 :: rest)) = .ok ((fun _ => 0) :: rest) := by
    rw [subAvg_centred hm, rm_diag]
    · congr 2
      funext i
      exact hm i
    · intro i j h
      rw [hc i j h, hm, hm, sub_zero, sub_zero, hz i j h, zero_div]
  have hmk : makeUniform qs.length (drawsOf qs ++ drawsOf ps) = .ok (p0 :: rest) := by
    have h1 := fillBall_drawsOf qs hq (drawsOf ps)
    have h2 := fillBall_drawsOf ps hp []
    rw [List.append_nil, ← hl] at h2
    unfold makeUniform
    rw [h1]
    simp only
    rw [h2]
    simp only
    rw [hj]
  refine ⟨hrm, hmk, ?_⟩
  have hqpos : 0 < (qs.length : Int) := by
    cases qs with
    | nil => simp [joinBall] at hj
    | cons q qs => simp only [List.length_cons]; omega
  have hclean : ∃ b, clean (p0 :: rest) = .ok b ∧ b.length = qs.length := by
    have hlen : (p0 :: rest).length = qs.length := by rw [← hj, joinBall_length qs ps hl]
    unfold clean
    rw [hrm]
    simp only [bind, Except.bind]
    rw [subAvg_cons, normalizeRms_cons]
    refine ⟨_, rfl, ?_⟩
    rw [← hlen]
    simp
  obtain ⟨b, hb, hbl⟩ := hclean
  have hd : newDistrib qs.length "uniform" 1 (drawsOf qs ++ drawsOf ps) = .ok ⟨qs.length, b⟩ := by
    unfold newDistrib newPhaseSpace
    rw [if_pos hqpos]
    simp only
    rw [if_neg (by simp), if_pos one_pos, if_pos trivial, Int.toNat_natCast, hmk]
    simp only
    rw [hb]
    rfl
  unfold newBeam mkTwiss
  simp only [bind, Except.bind]
  rw [if_neg (by norm_num), if_neg (by norm_num), hd]
  simp only
  rw [if_neg (by norm_num)]
  obtain ⟨a, h1, _, h2⟩ := make_twiss_long (s := ⟨qs.length, b⟩) (by simp [hbl])
    (tw := ![⟨-1, 2, 3, (1 + (-1) ^ 2) / 2⟩, ⟨0, 1, 4, (1 + 0 ^ 2) / 1⟩, ⟨1, 2, 3, (1 + 1 ^ 2) / 2⟩])
    (by intro k; fin_cases k <;> simp) (by intro k; fin_cases k <;> simp)
  exact ⟨_, h2⟩

/-- Points on the axes: positions, and momenta. -/
noncomputable def axesPos : List (ℝ × ℝ × ℝ) :=
  [(1 / 2, 0, 0), (-1 / 2, 0, 0), (0, 0, 0), (0, 0, 0), (0, 1 / 2, 0), (0, -1 / 2, 0), (0, 0, 0), (0, 0, 0), (0, 0, 1 / 2), (0, 0, -1 / 2), (0, 0, 0),
    (0, 0, 0)]

noncomputable def axesMom : List (ℝ × ℝ × ℝ) :=
  [(0, 0, 0), (0, 0, 0), (1 / 2, 0, 0), (-1 / 2, 0, 0), (0, 0, 0), (0, 0, 0), (0, 1 / 2, 0), (0, -1 / 2, 0), (0, 0, 0), (0, 0, 0), (0, 0, 1 / 2),
    (0, 0, -1 / 2)]

theorem axes_inside : (∀ p ∈ axesPos, p.1 ^ 2 + p.2.1 ^ 2 + p.2.2 ^ 2 < 1) ∧ ∀ p ∈ axesMom, p.1 ^ 2 + p.2.1 ^ 2 + p.2.2 ^ 2 < 1 := by
  constructor <;> intro p hp <;> simp only [axesPos, axesMom, List.mem_cons, List.not_mem_nil, or_false] at hp <;>
    rcases hp with rfl | rfl | rfl | rfl | rfl | rfl | rfl | rfl | rfl | rfl | rfl | rfl <;> norm_num

/-- The first particle on the axes. -/
noncomputable def axis0 : Vec := ![1 / 2, 0, 0, 0, 0, 0]

/-- The other particles on the axes. -/
noncomputable def axisRest : Arr := (joinBall axesPos axesMom).tail

theorem axis_join : joinBall axesPos axesMom = axis0 :: axisRest := rfl

theorem axis_mean (i : Fin 6) : mean (axis0 :: axisRest) i = 0 := by
  fin_cases i <;> norm_num [axis0, axisRest, axesPos, axesMom, joinBall, mean]

theorem axis_cov (i j : Fin 6) (h : i ≠ j) : cov (axis0 :: axisRest) i j = 0 := by
  unfold cov
  rw [axis_mean, axis_mean]
  fin_cases i <;> fin_cases j <;> first | (exact absurd rfl h) |
    (norm_num [axis0, axisRest, axesPos, axesMom, joinBall])

theorem axis_variance (i : Fin 6) : 0 < variance ((fun _ => 0) :: axisRest) i := by
  unfold variance cov mean
  fin_cases i <;> norm_num [axisRest, axesPos, axesMom, joinBall]

theorem cov_zero_cons (a : Arr) (ha : a ≠ []) (hm : ∀ i, mean a i = 0) (i j : Fin 6) :
    (∀ i, mean ((fun _ => 0) :: a) i = 0) ∧ cov ((fun _ => 0) :: a) i j = cov a i j * (a.length / (a.length + 1)) := by
  have hl : (a.length : ℝ) ≠ 0 := by
    have := List.length_pos_iff.2 ha
    positivity
  have h0 : ∀ i, mean ((fun _ => 0) :: a) i = 0 := by
    intro i
    have := hm i
    unfold mean at this ⊢
    rw [div_eq_zero_iff] at this
    rcases this with h | h
    · simp [h]
    · exact absurd h hl
  refine ⟨h0, ?_⟩
  unfold cov
  rw [h0, h0, hm, hm]
  simp only [List.map_cons, List.sum_cons, List.length_cons, sub_zero, zero_add, mul_zero]
  push_cast
  field_simp

-- a beam of 12 particles on the axes: the first one is not at the average, so that the Twiss parameters are wrong
example : ∃ s, newBeam 12 "uniform" 1 (-1) 2 3 0 1 4 1 2 3 (drawsOf axesPos ++ drawsOf axesMom) = .ok s ∧
    ¬ (HasMoments s.arr 0 (-1) 2 3 ∧ HasMoments s.arr 1 0 1 4 ∧ HasMoments s.arr 2 1 2 3) := by
  obtain ⟨h1, h2, s, h3⟩ := exBeam axes_inside.1 axes_inside.2 rfl axis_join axis_mean axis_cov (by
    intro i j h
    fin_cases i <;> fin_cases j <;> first | (exact absurd rfl h) | (simp [axis0]))
  refine ⟨s, h3, fun hm => ?_⟩
  obtain ⟨_, _, _, p0, rest, h4, h5⟩ := beam_twiss_iff h3 (by norm_num) (by norm_num) (by norm_num) (by norm_num) (by norm_num)
  rw [if_pos rfl, Int.toNat_natCast, h2] at h4
  cases h4
  have := (h5 _ h1 axis_variance).1 hm 0
  rw [axis_mean] at this
  norm_num [axis0] at this

-- with one particle at the centre that is drawn first they are right
example : ∃ s, newBeam 13 "uniform" 1 (-1) 2 3 0 1 4 1 2 3 (drawsOf ((0, 0, 0) :: axesPos) ++ drawsOf ((0, 0, 0) :: axesMom)) = .ok s ∧
    (HasMoments s.arr 0 (-1) 2 3 ∧ HasMoments s.arr 1 0 1 4 ∧ HasMoments s.arr 2 1 2 3) := by
  have hz : (![0, 0, 0, 0, 0, 0] : Vec) = fun _ => 0 := by funext i; fin_cases i <;> rfl
  have hj : joinBall ((0, 0, 0) :: axesPos) ((0, 0, 0) :: axesMom) = (fun _ => 0) :: axis0 :: axisRest := by
    rw [← hz]
    rfl
  have hc := fun i j => cov_zero_cons (axis0 :: axisRest) (by simp) axis_mean i j
  obtain ⟨h1, h2, s, h3⟩ := exBeam (qs := (0, 0, 0) :: axesPos) (ps := (0, 0, 0) :: axesMom) (by
      intro p hp
      rcases List.mem_cons.1 hp with rfl | hp
      · norm_num
      · exact axes_inside.1 p hp) (by
      intro p hp
      rcases List.mem_cons.1 hp with rfl | hp
      · norm_num
      · exact axes_inside.2 p hp) rfl hj (hc 0 0).1 (fun i j h => by rw [(hc i j).2, axis_cov i j h, zero_mul]) (by intros; simp)
  refine ⟨s, h3, ?_⟩
  obtain ⟨_, _, _, p0, rest, h4, h5⟩ := beam_twiss_iff h3 (by norm_num) (by norm_num) (by norm_num) (by norm_num) (by norm_num)
  rw [if_pos rfl, Int.toNat_natCast, h2] at h4
  cases h4
  refine (h5 _ h1 ?_).2 fun i => ((hc 0 0).1 i).symm
  intro i
  have hv : 0 < variance (axis0 :: axisRest) i := by
    unfold variance cov
    rw [axis_mean]
    fin_cases i <;> norm_num [axis0, axisRest, axesPos, axesMom, joinBall]
  unfold variance at hv ⊢
  rw [(hc i i).2]
  apply mul_pos hv
  simp only [List.length_cons]
  positivity

-- more particles than the stored number
example : ∃ a : Arr, makeTwiss ⟨4, corners ++ [fun _ => 7]⟩ (fun _ => ⟨-1, 2, 3, 1⟩) = .ok ⟨4, a ++ [fun _ => 7]⟩ ∧ a.length = 4 := by
  obtain ⟨a, _, h2, h3⟩ := make_twiss_long (s := ⟨4, corners ++ [fun _ => 7]⟩) (by simp [corners]) (tw := fun _ => ⟨-1, 2, 3, 1⟩)
    (fun _ => by norm_num) (fun _ => by norm_num)
  exact ⟨a, h3, h2⟩

end Verif.Ptcls
