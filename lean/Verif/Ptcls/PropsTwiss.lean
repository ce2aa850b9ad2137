import Verif.Ptcls.LemmasDistrib

/-!
# Properties C53 and C54: distributions with given Twiss parameters, and back
-/

namespace Verif.Ptcls

open Verif.Stats6d

/-- Every plane has unit second moments and no correlation. -/
def UnitMoments (a : Arr) : Prop :=
  ∀ k : Fin 3, cov a (ix k) (ix k) = 1 ∧ cov a (ip k) (ip k) = 1 ∧ cov a (ix k) (ip k) = 0

/-- The second moments of plane `k` are those of a beam with the Twiss parameters `α`, `β` and
emittance `ε`. -/
def HasMoments (a : Arr) (k : Fin 3) (α β ε : ℝ) : Prop :=
  cov a (ix k) (ix k) = ε * β ∧ cov a (ip k) (ip k) = ε * ((1 + α ^ 2) / β) ∧ cov a (ix k) (ip k) = -(ε * α)

theorem makeTwiss_moments {s : PhaseSpace} (hn : s.num = s.arr.length) (hu : UnitMoments s.arr) {tw : Fin 3 → Twiss}
    (hβ : ∀ k, 0 < (tw k).beta) (he : ∀ k, 0 ≤ (tw k).emit) :
    ∃ c, makeTwiss s tw = .ok ⟨s.num, s.arr.map (mapParticle c fun k => Real.sqrt (tw k).emit)⟩ ∧
      ∀ k, cov (s.arr.map (mapParticle c fun k => Real.sqrt (tw k).emit)) (ix k) (ix k) = (tw k).emit * (tw k).beta ∧
        cov (s.arr.map (mapParticle c fun k => Real.sqrt (tw k).emit)) (ip k) (ip k) =
          (tw k).emit * ((1 + (tw k).alpha ^ 2) / (tw k).beta) ∧
        cov (s.arr.map (mapParticle c fun k => Real.sqrt (tw k).emit)) (ix k) (ip k) =
          -((tw k).emit * usedAlpha (tw k).alpha (tw k).beta) := by
  choose c hc h1 h2 h3 using fun k => coeffs_spec (α := (tw k).alpha) (hβ k)
  refine ⟨c, makeTwiss_eq hn hc he, fun k => ?_⟩
  obtain ⟨u1, u2, u3⟩ := hu k
  have u4 : cov s.arr (ip k) (ix k) = 0 := by rw [cov_symm s.arr, u3]
  have hs : Real.sqrt (tw k).emit ^ 2 = (tw k).emit := Real.sq_sqrt (he k)
  have m1 := fun p => (mapParticle_plane c (fun k => Real.sqrt (tw k).emit) p k).1
  have m2 := fun p => (mapParticle_plane c (fun k => Real.sqrt (tw k).emit) p k).2
  refine ⟨?_, ?_, ?_⟩
  · rw [cov_map_linear s.arr _ m1 m1, u1, u2, u3, u4, ← h1 k]
    linear_combination (((c k).fac * (c k).cos) ^ 2 + ((c k).inv * (c k).sin) ^ 2) * hs
  · rw [cov_map_linear s.arr _ m2 m2, u1, u2, u3, u4, ← h2 k]
    linear_combination (((c k).fac * (c k).sin) ^ 2 + ((c k).inv * (c k).cos) ^ 2) * hs
  · rw [cov_map_linear s.arr _ m1 m2, u1, u2, u3, u4]
    linear_combination (tw k).emit * h3 k + ((c k).fac * (c k).cos * ((c k).fac * (c k).sin) -
      (c k).inv * (c k).sin * ((c k).inv * (c k).cos)) * hs

/-- **C53.** From unit moments, `make_twiss_dist_6d` makes a distribution with the given Twiss
parameters and emittance in every plane. Proved except for planes with negative alpha whose gamma
equals beta. -/
theorem make_twiss_partial {s : PhaseSpace} (hn : s.num = s.arr.length) (hu : UnitMoments s.arr) {tw : Fin 3 → Twiss}
    (hβ : ∀ k, 0 < (tw k).beta) (he : ∀ k, 0 ≤ (tw k).emit)
    (hx : ∀ k, (tw k).alpha < 0 → (tw k).beta ^ 2 ≠ 1 + (tw k).alpha ^ 2) :
    ∃ a, makeTwiss s tw = .ok ⟨s.num, a⟩ ∧ a.length = s.num ∧
      ∀ k, HasMoments a k (tw k).alpha (tw k).beta (tw k).emit := by
  obtain ⟨c, h1, h2⟩ := makeTwiss_moments hn hu hβ he
  refine ⟨_, h1, by simp [hn], fun k => ?_⟩
  obtain ⟨g1, g2, g3⟩ := h2 k
  refine ⟨g1, g2, ?_⟩
  rw [g3]
  unfold usedAlpha
  rw [if_neg]
  rintro ⟨e1, e2⟩
  have hb := (hβ k).ne'
  rw [div_eq_iff hb] at e1
  exact hx k e2 (by rw [e1]; ring)

/-- In the other planes the correlation has the wrong sign. -/
theorem make_twiss_fails {s : PhaseSpace} (hn : s.num = s.arr.length) (hu : UnitMoments s.arr) {tw : Fin 3 → Twiss}
    (hβ : ∀ k, 0 < (tw k).beta) (he : ∀ k, 0 < (tw k).emit) {k : Fin 3} (ha : (tw k).alpha < 0)
    (hx : (tw k).beta ^ 2 = 1 + (tw k).alpha ^ 2) :
    ∃ a, makeTwiss s tw = .ok ⟨s.num, a⟩ ∧ HasMoments a k (-(tw k).alpha) (tw k).beta (tw k).emit ∧
      ¬ HasMoments a k (tw k).alpha (tw k).beta (tw k).emit := by
  obtain ⟨c, h1, h2⟩ := makeTwiss_moments hn hu hβ fun k => (he k).le
  obtain ⟨g1, g2, g3⟩ := h2 k
  have hb := (hβ k).ne'
  have hu' : usedAlpha (tw k).alpha (tw k).beta = -(tw k).alpha := by
    unfold usedAlpha
    rw [if_pos ⟨by rw [div_eq_iff hb, ← hx]; ring, ha⟩]
  rw [hu'] at g3
  refine ⟨_, h1, ⟨g1, by rw [g2]; ring, by rw [g3]⟩, fun h => ?_⟩
  have := h.2.2
  rw [g3] at this
  have hz : (tw k).emit * (tw k).alpha = 0 := by linarith
  rcases mul_eq_zero.1 hz with h | h
  · exact (he k).ne' h
  · exact ha.ne h

/-- A plane whose beta is not positive is refused. -/
theorem make_twiss_refuses (s : PhaseSpace) {tw : Fin 3 → Twiss} (h : (tw 0).beta ≤ 0) :
    ∃ e, makeTwiss s tw = .error e := by
  obtain ⟨e, he⟩ := coeffs_negative (α := (tw 0).alpha) h
  refine ⟨e, ?_⟩
  unfold makeTwiss onePlane
  rw [he]
  rfl

/-- After `set_array_6d` with fewer particles than the number stored in the object, the call raises
IndexError. -/
theorem make_twiss_short_fails {s : PhaseSpace} (hn : s.arr.length < s.num) {tw : Fin 3 → Twiss}
    (hβ : 0 < (tw 0).beta) (he : 0 ≤ (tw 0).emit) : makeTwiss s tw = .error .indexError := by
  obtain ⟨c, hc, _⟩ := coeffs_spec (α := (tw 0).alpha) hβ
  unfold makeTwiss onePlane
  rw [hc, msqrt_ok he]
  simp only [bind, Except.bind]
  rw [planeLoop_short _ _ _ _ _ _ hn]

/-! ## Twiss parameters from moments -/

/-- Four particles on the corners of a square in every plane. -/
def corners : Arr :=
  [![1, 1, 1, 1, 1, 1], ![1, -1, 1, -1, 1, -1], ![-1, 1, -1, 1, -1, 1], ![-1, -1, -1, -1, -1, -1]]

theorem twissOf_moments {σ : Fin 6 → Fin 6 → ℝ} {k : Fin 3} {α β ε : ℝ} (hβ : 0 < β) (he : 0 < ε)
    (h1 : σ (ix k) (ix k) = ε * β) (h2 : σ (ip k) (ip k) = ε * ((1 + α ^ 2) / β))
    (h3 : σ (ix k) (ip k) = -(ε * α)) (h4 : σ (ip k) (ix k) = -(ε * α)) :
    twissOf σ k = .ok ⟨α, β, ε, (1 + α ^ 2) / β⟩ := by
  have hq : σ (ix k) (ix k) * σ (ip k) (ip k) - σ (ix k) (ip k) * σ (ip k) (ix k) = ε ^ 2 := by
    rw [h1, h2, h3, h4]
    field_simp
    ring
  unfold twissOf
  simp only
  rw [hq, if_neg (not_le.2 (by positivity)), Real.sqrt_sq he.le, h3, h1]
  have e1 : -(-(ε * α)) / ε = α := by field_simp
  have e2 : ε * β / ε = β := by field_simp
  rw [e1, e2]
  unfold mkTwiss
  rw [if_neg hβ.ne']

/-- **C54.** `calc_twiss6d` returns the Twiss parameters and emittances of the distribution. Proved when
the first particle is at the average. -/
theorem calc_twiss_partial (p0 : Vec) (rest : Arr) (hp : ∀ i, p0 i = mean (p0 :: rest) i) {α β ε : Fin 3 → ℝ}
    (hβ : ∀ k, 0 < β k) (he : ∀ k, 0 < ε k) (hm : ∀ k, HasMoments (p0 :: rest) k (α k) (β k) (ε k)) :
    (calcTwiss (p0 :: rest)).1 = .ok (⟨α 0, β 0, ε 0, (1 + α 0 ^ 2) / β 0⟩, ⟨α 1, β 1, ε 1, (1 + α 1 ^ 2) / β 1⟩,
      ⟨α 2, β 2, ε 2, (1 + α 2 ^ 2) / β 2⟩) := by
  obtain ⟨m, arr, h, hc⟩ := correlations_partial p0 rest hp
  unfold calcTwiss
  rw [h]
  have ht : ∀ k, twissOf m k = .ok ⟨α k, β k, ε k, (1 + α k ^ 2) / β k⟩ := by
    intro k
    obtain ⟨g1, g2, g3⟩ := hm k
    exact twissOf_moments (hβ k) (he k) (by rw [hc, g1]) (by rw [hc, g2]) (by rw [hc, g3])
      (by rw [hc, cov_symm (p0 :: rest), g3])
  simp only [ht, bind, Except.bind]

/-- **C54.** Exact condition for the error: the call fails when, for the first plane for which this
happens, the product of the variances is not larger than the square of the computed correlation. -/
theorem calc_twiss_refuses (p0 : Vec) (rest : Arr) (hp : ∀ i, p0 i = mean (p0 :: rest) i) :
    (∃ e, (calcTwiss (p0 :: rest)).1 = .error e) ↔
      ∃ k : Fin 3, variance (p0 :: rest) (ix k) * variance (p0 :: rest) (ip k) ≤ cov (p0 :: rest) (ix k) (ip k) ^ 2 := by
  obtain ⟨m, arr, h, hc⟩ := correlations_partial p0 rest hp
  unfold calcTwiss
  rw [h]
  have hdet : ∀ k : Fin 3, m (ix k) (ix k) * m (ip k) (ip k) - m (ix k) (ip k) * m (ip k) (ix k) =
      variance (p0 :: rest) (ix k) * variance (p0 :: rest) (ip k) - cov (p0 :: rest) (ix k) (ip k) ^ 2 := by
    intro k
    rw [hc, hc, hc, hc, cov_symm (p0 :: rest) (ip k) (ix k)]
    unfold variance
    ring
  have hv : ∀ i, 0 ≤ variance (p0 :: rest) i := by
    intro i
    unfold variance cov
    apply div_nonneg _ (Nat.cast_nonneg _)
    apply List.sum_nonneg
    intro x hx
    obtain ⟨p, _, rfl⟩ := List.mem_map.1 hx
    exact mul_self_nonneg _
  have hbad : ∀ k : Fin 3, variance (p0 :: rest) (ix k) * variance (p0 :: rest) (ip k) ≤ cov (p0 :: rest) (ix k) (ip k) ^ 2 →
      twissOf m k = .error .exception := by
    intro k hk
    unfold twissOf
    simp only
    rw [hdet, if_pos (by linarith)]
  have hgood : ∀ k : Fin 3, ¬ variance (p0 :: rest) (ix k) * variance (p0 :: rest) (ip k) ≤ cov (p0 :: rest) (ix k) (ip k) ^ 2 →
      ∃ t, twissOf m k = .ok t := by
    intro k hk
    unfold twissOf mkTwiss
    simp only
    rw [hdet, if_neg (by linarith), if_neg]
    · exact ⟨_, rfl⟩
    · have hx : 0 < variance (p0 :: rest) (ix k) := by
        rcases lt_or_eq_of_le (hv (ix k)) with h | h
        · exact h
        · exfalso
          rw [← h] at hk
          exact hk (by rw [zero_mul]; positivity)
      rw [hc]
      have : 0 < Real.sqrt (variance (p0 :: rest) (ix k) * variance (p0 :: rest) (ip k) - cov (p0 :: rest) (ix k) (ip k) ^ 2) :=
        Real.sqrt_pos.2 (by linarith)
      exact (div_pos hx this).ne'
  simp only [bind, Except.bind]
  constructor
  · rintro ⟨e, he⟩
    by_contra hno
    rw [not_exists] at hno
    obtain ⟨t0, h0⟩ := hgood 0 (hno 0)
    obtain ⟨t1, h1⟩ := hgood 1 (hno 1)
    obtain ⟨t2, h2⟩ := hgood 2 (hno 2)
    rw [h0, h1, h2] at he
    cases he
  · rintro ⟨k, hk⟩
    by_cases h0 : variance (p0 :: rest) (ix 0) * variance (p0 :: rest) (ip 0) ≤ cov (p0 :: rest) (ix 0) (ip 0) ^ 2
    · exact ⟨_, by rw [hbad 0 h0]⟩
    · obtain ⟨t0, e0⟩ := hgood 0 h0
      rw [e0]
      by_cases h1 : variance (p0 :: rest) (ix 1) * variance (p0 :: rest) (ip 1) ≤ cov (p0 :: rest) (ix 1) (ip 1) ^ 2
      · exact ⟨_, by rw [hbad 1 h1]⟩
      · obtain ⟨t1, e1⟩ := hgood 1 h1
        rw [e1]
        by_cases h2 : variance (p0 :: rest) (ix 2) * variance (p0 :: rest) (ip 2) ≤ cov (p0 :: rest) (ix 2) (ip 2) ^ 2
        · exact ⟨_, by rw [hbad 2 h2]⟩
        · exfalso
          fin_cases k
          · exact h0 hk
          · exact h1 hk
          · exact h2 hk

theorem corners_unit : UnitMoments corners := by
  intro k
  fin_cases k <;> norm_num [corners, cov, mean, ix, ip] <;> simp [Matrix.vecHead, Matrix.vecTail] <;> norm_num

/-- The four corners have no correlation, but the computed alpha of every plane is not zero. -/
theorem calc_twiss_fails : (∀ k, HasMoments corners k 0 1 1) ∧
    ∃ x y z, (calcTwiss corners).1 = .ok (x, y, z) ∧ x.alpha ≠ 0 ∧ y.alpha ≠ 0 ∧ z.alpha ≠ 0 := by
  refine ⟨fun k => ?_, ?_⟩
  · obtain ⟨h1, h2, h3⟩ := corners_unit k
    exact ⟨by rw [h1]; norm_num, by rw [h2]; norm_num, by rw [h3]; norm_num⟩
  · obtain ⟨m, arr, hm, hs, hd, ho⟩ := correlations_exact ![1, 1, 1, 1, 1, 1]
      [![1, -1, 1, -1, 1, -1], ![-1, 1, -1, 1, -1, 1], ![-1, -1, -1, -1, -1, -1]]
    change calcCorrelations corners = .ok (m, arr) at hm
    change ∀ i, m i i = variance corners i at hd
    change ∀ i j, i ≠ j → m i j = cov corners i j - (_ - mean corners i) * (_ - mean corners j) / ((corners.length : ℕ) : ℝ) at ho
    have hp : 0 < Real.sqrt (15 / 16) := Real.sqrt_pos.2 (by norm_num)
    have ht : ∀ k, twissOf m k = .ok ⟨1 / 4 / Real.sqrt (15 / 16), 1 / Real.sqrt (15 / 16), Real.sqrt (15 / 16),
        (1 + (1 / 4 / Real.sqrt (15 / 16)) ^ 2) / (1 / Real.sqrt (15 / 16))⟩ := by
      intro k
      obtain ⟨h1, h2, h3⟩ := corners_unit k
      have m00 : m (ix k) (ix k) = 1 := by rw [hd]; exact h1
      have m11 : m (ip k) (ip k) = 1 := by rw [hd]; exact h2
      have m01 : m (ix k) (ip k) = -1 / 4 := by
        rw [ho _ _ (ix_ip_ne k k), h3]
        fin_cases k <;> norm_num [corners, mean, ix, ip] <;> simp [Matrix.vecHead, Matrix.vecTail] <;> norm_num
      have m10 : m (ip k) (ix k) = -1 / 4 := by rw [hs, m01]
      unfold twissOf mkTwiss
      simp only
      rw [m00, m11, m01, m10, show (1 : ℝ) * 1 - -1 / 4 * (-1 / 4) = 15 / 16 by norm_num, if_neg (by norm_num),
        if_neg (by positivity), show -(-1 / 4 : ℝ) = 1 / 4 by norm_num]
    unfold calcTwiss
    rw [hm]
    simp only [bind, Except.bind, ht]
    refine ⟨_, _, _, rfl, ?_, ?_, ?_⟩ <;> positivity

theorem mean_linear (a : Arr) (f : Vec → Vec) {i i' j' : Fin 6} {u w : ℝ} (hi : ∀ p, f p i = u * p i' + w * p j') :
    mean (a.map f) i = u * mean a i' + w * mean a j' := by
  rw [← mean_map_linear]
  unfold mean
  rw [List.map_map, List.length_map]
  simp only [Function.comp_def, hi]

/-- Making a distribution and computing its Twiss parameters gives the parameters back. Proved
when the first particle is at the average, with the exception of `make_twiss_fails`. -/
theorem twiss_round_partial (p0 : Vec) (rest : Arr) (hp : ∀ i, p0 i = mean (p0 :: rest) i) (hu : UnitMoments (p0 :: rest))
    {α β ε : Fin 3 → ℝ} (hβ : ∀ k, 0 < β k) (he : ∀ k, 0 < ε k) (hx : ∀ k, α k < 0 → β k ^ 2 ≠ 1 + α k ^ 2) :
    ∃ s', makeTwiss ⟨(p0 :: rest).length, p0 :: rest⟩ (fun k => ⟨α k, β k, ε k, (1 + α k ^ 2) / β k⟩) = .ok s' ∧
      (calcTwiss s'.arr).1 = .ok (⟨α 0, β 0, ε 0, (1 + α 0 ^ 2) / β 0⟩, ⟨α 1, β 1, ε 1, (1 + α 1 ^ 2) / β 1⟩,
        ⟨α 2, β 2, ε 2, (1 + α 2 ^ 2) / β 2⟩) := by
  obtain ⟨c, h1, _⟩ := makeTwiss_moments (s := ⟨(p0 :: rest).length, p0 :: rest⟩) rfl hu
    (tw := fun k => ⟨α k, β k, ε k, (1 + α k ^ 2) / β k⟩) hβ fun k => (he k).le
  obtain ⟨a, h2, _, h3⟩ := make_twiss_partial (s := ⟨(p0 :: rest).length, p0 :: rest⟩) rfl hu
    (tw := fun k => ⟨α k, β k, ε k, (1 + α k ^ 2) / β k⟩) hβ (fun k => (he k).le) hx
  rw [h1] at h2
  simp only [Except.ok.injEq, PhaseSpace.mk.injEq, true_and] at h2
  refine ⟨_, h1, ?_⟩
  simp only [List.map_cons] at h2 ⊢
  subst h2
  refine calc_twiss_partial _ _ ?_ hβ he h3
  intro i
  rw [← List.map_cons]
  have m1 := fun k p => (mapParticle_plane c (fun k => Real.sqrt (ε k)) p k).1
  have m2 := fun k p => (mapParticle_plane c (fun k => Real.sqrt (ε k)) p k).2
  have hi : (∃ k, i = ix k) ∨ ∃ k, i = ip k := by
    fin_cases i
    · exact Or.inl ⟨0, rfl⟩
    · exact Or.inr ⟨0, rfl⟩
    · exact Or.inl ⟨1, rfl⟩
    · exact Or.inr ⟨1, rfl⟩
    · exact Or.inl ⟨2, rfl⟩
    · exact Or.inr ⟨2, rfl⟩
  rcases hi with ⟨k, rfl⟩ | ⟨k, rfl⟩
  · rw [mean_linear _ _ (m1 k), m1 k p0, hp (ix k), hp (ip k)]
  · rw [mean_linear _ _ (m2 k), m2 k p0, hp (ix k), hp (ip k)]

/-- Three particles at the centre and the four corners. -/
def centred : Arr := ![0, 0, 0, 0, 0, 0] :: ![0, 0, 0, 0, 0, 0] :: ![0, 0, 0, 0, 0, 0] ::
  [![1, 1, 1, 1, 1, 1], ![1, -1, 1, -1, 1, -1], ![-1, 1, -1, 1, -1, 1], ![-1, -1, -1, -1, -1, -1]]

example : (∀ i, (![0, 0, 0, 0, 0, 0] : Vec) i = mean centred i) ∧ ∀ k, HasMoments centred k 0 1 (4 / 7) := by
  refine ⟨fun i => ?_, fun k => ?_⟩
  · fin_cases i <;> norm_num [centred, mean] <;> simp [Matrix.vecHead, Matrix.vecTail]
  · fin_cases k <;> norm_num [HasMoments, centred, cov, mean, ix, ip] <;> simp [Matrix.vecHead, Matrix.vecTail] <;> norm_num

example : ∃ e, (calcTwiss [![1, 2, 3, 4, 5, 6]]).1 = .error e :=
  (calc_twiss_refuses ![1, 2, 3, 4, 5, 6] [] (fun i => by simp [mean])).2 ⟨0, by norm_num [variance, cov, mean]⟩

example : ∃ a, makeTwiss ⟨4, corners⟩ (fun _ => ⟨-1, 2, 3, 1⟩) = .ok ⟨4, a⟩ ∧ a.length = 4 ∧ ∀ k, HasMoments a k (-1) 2 3 :=
  make_twiss_partial (s := ⟨4, corners⟩) rfl corners_unit (tw := fun _ => ⟨-1, 2, 3, 1⟩) (by norm_num) (by norm_num)
    (by norm_num)

example : ∃ a, makeTwiss ⟨4, corners⟩ (fun _ => ⟨-3 / 4, 5 / 4, 1, 5 / 4⟩) = .ok ⟨4, a⟩ ∧
    HasMoments a 0 (-(-3 / 4)) (5 / 4) 1 ∧ ¬ HasMoments a 0 (-3 / 4) (5 / 4) 1 :=
  make_twiss_fails (s := ⟨4, corners⟩) rfl corners_unit (tw := fun _ => ⟨-3 / 4, 5 / 4, 1, 5 / 4⟩) (k := 0) (by norm_num)
    (by norm_num) (by norm_num) (by norm_num)

example : ∃ x y z, (calcTwiss centred).1 = .ok (x, y, z) ∧ x = ⟨0, 1, 4 / 7, (1 + 0 ^ 2) / 1⟩ := by
  have h := calc_twiss_partial ![0, 0, 0, 0, 0, 0] centred.tail
    (fun i => by fin_cases i <;> norm_num [centred, mean])
    (α := fun _ => 0) (β := fun _ => 1) (ε := fun _ => 4 / 7) (by norm_num) (by norm_num) (fun k => by
      fin_cases k <;> norm_num [HasMoments, centred, cov, mean, ix, ip])
  exact ⟨_, _, _, h, rfl⟩

example : ∃ e, makeTwiss ⟨4, corners⟩ (fun _ => ⟨0, -1, 1, 1⟩) = .error e :=
  make_twiss_refuses ⟨4, corners⟩ (tw := fun _ => ⟨0, -1, 1, 1⟩) (by norm_num)

example : makeTwiss ⟨5, corners⟩ (fun _ => ⟨0, 1, 1, 1⟩) = .error .indexError :=
  make_twiss_short_fails (s := ⟨5, corners⟩) (by show corners.length < 5; simp [corners]) (tw := fun _ => ⟨0, 1, 1, 1⟩)
    (by norm_num) (by norm_num)

end Verif.Ptcls
