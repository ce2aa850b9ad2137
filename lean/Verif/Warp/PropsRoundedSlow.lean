import Verif.Warp.PropsRounded

/-!
# Property C172: gradients of slow beams in double precision
-/

namespace Verif.Warp

open Verif.Py Verif.Kinematic

variable (R : Rounding)

/-- The rigidity of a beta that is known to a part `β`. -/
theorem rRho_near_of {C : Env} (he : 0 < C.e) (hc : 0 < C.c) {β b g m b' g' : ℝ} (hβ : 0 ≤ β) (hb : Near β b b')
    (hg : Near (2 ^ (-53 : ℤ)) g g') :
    Near (101 / 100 * β + 12 * 2 ^ (-53 : ℤ)) (rRho R C b g m) (b' * g' * (m * C.e / C.c ^ 2) * C.c / C.e) := by
  unfold rRho
  have h1 : Near (1001 / 1000 * β + 21 / 10 * 2 ^ (-53 : ℤ)) (R.rnd (b * g)) (b' * g') :=
    ((hb.mul hg).rnd R).weaken (by norm_num; linarith)
  have h2 := near_rnd R (m * C.e)
  have h3 : Near (101 / 100 * 2 ^ (-53 : ℤ)) (1 / R.rnd (C.c * C.c)) (1 / (C.c * C.c)) :=
    ((near_rnd R (C.c * C.c)).inv (by norm_num) (mul_pos hc hc).ne').weaken (by norm_num)
  have h4 : Near (31 / 10 * 2 ^ (-53 : ℤ)) (R.rnd (R.rnd (m * C.e) / R.rnd (C.c * C.c))) (m * C.e * (1 / (C.c * C.c))) := by
    rw [div_eq_mul_one_div (R.rnd (m * C.e))]
    exact ((h2.mul h3).rnd R).weaken (by norm_num)
  have h5 := ((h1.mul h4).rnd R).weaken (ε' := 1002 / 1000 * β + 64 / 10 * 2 ^ (-53 : ℤ)) (by norm_num; linarith)
  have h6 := ((h5.mul (Near.refl C.c)).rnd R).weaken (ε' := 1003 / 1000 * β + 75 / 10 * 2 ^ (-53 : ℤ)) (by norm_num; linarith)
  have h7 := ((h6.mul (Near.refl (1 / C.e))).rnd R).weaken (ε' := 101 / 100 * β + 12 * 2 ^ (-53 : ℤ)) (by norm_num; linarith)
  rw [← div_eq_mul_one_div] at h7
  convert h7 using 1
  field_simp

/-- **C172, slow beams.** For an energy that is above the mass by at least a part of `2 ^ (-20)` the gradients have an accuracy of `2 ^ (-31)` and
`2 ^ (-30)`. -/
theorem gradient_slow_partial {C : Env} (he : 0 < C.e) (hc : 0 < C.c) {P m E : ℝ} (hP : 0 ≤ P) (hm : 0 < m) (hE : EnergyOf P m E)
    (h : m * (1 + 2 ^ (-20 : ℤ)) ≤ E) (k : ℝ) :
    (∃ g, rGetGradient R C k E m 1 = .ok (.num g) ∧ |g - k * rigidity C P| ≤ 2 ^ (-31 : ℤ) * |k * rigidity C P|) ∧
    ∃ g, rGetGradient R C k E m 2 = .ok (.num g) ∧ |g - k * rigidity C P ^ 2| ≤ 2 ^ (-30 : ℤ) * |k * rigidity C P ^ 2| := by
  have hg2 : 1 + 2 ^ (-20 : ℤ) ≤ E / m := by rw [le_div_iff₀ hm, mul_comm]; exact h
  have hEm : 0 < E / m := lt_of_lt_of_le (by norm_num) hg2
  have hrho : rigidity C P = √(1 - 1 / ((E / m) * (E / m))) * (E / m) * (m * C.e / C.c ^ 2) * C.c / C.e := by
    have h1 := gradient_partial C he hc hP hm hE 1
    rw [one_mul] at h1
    rw [← h1]
    unfold getGradient
    simp only [one_mul, pow_one, ← pow_two]
  have n1 := near_rnd R (E / m)
  have n2 : Near (301 / 100 * 2 ^ (-53 : ℤ)) (R.rnd (R.rnd (E / m) * R.rnd (E / m))) (E / m * (E / m)) :=
    ((n1.mul n1).rnd R).weaken (by norm_num)
  generalize hgam : R.rnd (E / m) = gam at *
  generalize hsq : R.rnd (gam * gam) = sq at *
  generalize hG : E / m = G at *
  have hGG : 1 + 2 ^ (-19 : ℤ) ≤ G * G := by
    have := mul_self_le_mul_self (by norm_num) hg2
    refine le_trans ?_ this
    norm_num
  have hGp : 0 < G * G := mul_pos hEm hEm
  have hsqpos : 0 < sq := by
    have hgp : 0 < gam := by rw [← hgam]; exact R.pos hEm
    rw [← hsq]; exact R.pos (mul_pos hgp hgp)
  have n3 : Near (41 / 10 * 2 ^ (-53 : ℤ)) (R.rnd (1 / sq)) (1 / (G * G)) :=
    ((n2.inv (by norm_num) hGp.ne').rnd R).weaken (by norm_num)
  have hinv : 0 < 1 / (G * G) ∧ 1 / (G * G) ≤ 1 - 99 / 100 * 2 ^ (-19 : ℤ) := by
    refine ⟨by positivity, ?_⟩
    rw [div_le_iff₀ hGp]
    refine le_trans ?_ (mul_le_mul_of_nonneg_left hGG (by norm_num))
    norm_num
  generalize hrr : R.rnd (1 / sq) = r at *
  generalize 1 / (G * G) = w at *
  have hw1 : 99 / 100 * 2 ^ (-19 : ℤ) ≤ 1 - w := by linarith [hinv.2]
  have hw2 : w ≤ 1 := hinv.2.trans (by norm_num)
  have hw0 : 0 < 1 - w := lt_of_lt_of_le (by norm_num) hw1
  have n4 : Near (42 / 10 * 2 ^ (-34 : ℤ)) (1 - r) (1 - w) := by
    unfold Near at n3 ⊢
    rw [abs_of_pos hinv.1] at n3
    rw [abs_of_pos hw0, show 1 - r - (1 - w) = -(r - w) by ring, abs_neg]
    refine n3.trans ?_
    norm_num at hw1 ⊢
    linarith
  have n5 : Near (43 / 10 * 2 ^ (-34 : ℤ)) (R.rnd (1 - r)) (1 - w) := (n4.rnd R).weaken (by norm_num)
  have hr1 : 0 < 1 - r := by
    have := n4
    unfold Near at this
    rw [abs_of_pos hw0, abs_le] at this
    have h2 := this.1
    norm_num at h2
    linarith
  have ht : 0 < R.rnd (1 - r) := R.pos hr1
  have n6 : Near (22 / 10 * 2 ^ (-34 : ℤ)) (R.rnd √(R.rnd (1 - r))) √(1 - w) :=
    ((n5.sqrt ht.le hw0 (by norm_num)).rnd R).weaken (by norm_num)
  have n7 := (rRho_near_of R he hc (m := m) (by norm_num) n6 n1).weaken (ε' := 3 * 2 ^ (-34 : ℤ)) (by norm_num)
  rw [← hrho] at n7
  have hs : rsqrt R (R.rnd (1 - r)) = .num (R.rnd √(R.rnd (1 - r))) := by
    unfold rsqrt
    rw [if_neg (not_lt.2 ht.le)]
  generalize R.rnd √(R.rnd (1 - r)) = bta at *
  have q1 : rGetGradient R C k E m 1 = .ok (.num (R.rnd (k * rRho R C bta gam m))) := by
    unfold rGetGradient
    simp only [hG, hgam, hsq, hrr]
    rw [if_neg hsqpos.ne', hs]
  have q2 : rGetGradient R C k E m 2 = .ok (.num (R.rnd (k * R.rnd (rRho R C bta gam m * rRho R C bta gam m)))) := by
    unfold rGetGradient
    simp only [hG, hgam, hsq, hrr]
    rw [if_neg hsqpos.ne', hs]
  refine ⟨⟨_, q1, ?_⟩, _, q2, ?_⟩
  · exact (((Near.refl k).mul n7).rnd R).weaken (by norm_num)
  · have n8 := ((n7.mul n7).rnd R).weaken (ε' := 7 * 2 ^ (-34 : ℤ)) (by norm_num)
    rw [← pow_two (rigidity C P)] at n8
    exact (((Near.refl k).mul n8).rnd R).weaken (by norm_num)

/-- A beam with 51/50 of the energy of its mass. -/
example : EnergyOf (√(101 / 2500)) 1 (51 / 50) ∧ (1 : ℝ) * (1 + 2 ^ (-20 : ℤ)) ≤ 51 / 50 :=
  ⟨⟨by norm_num, by rw [Real.sq_sqrt (by norm_num)]; norm_num⟩, by norm_num⟩

end Verif.Warp
