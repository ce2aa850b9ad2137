import Verif.Warp.Rounded
import Verif.Warp.PropsConvert
import Verif.Py.Near

/-!
# Property C172: magnet gradients in double precision
-/

namespace Verif.Warp

open Verif.Py Verif.Kinematic

variable (R : Rounding)

theorem near_rnd (x : ℝ) : Near (2 ^ (-53 : ℤ)) (R.rnd x) x := ((Near.refl x).rnd R).weaken (by norm_num)

/-- A quotient of floats above one is above one by more than half a unit and rounds to more than one. -/
theorem rnd_above {y : ℝ} (h : 1 ≤ y * (1 - 2 ^ (-53 : ℤ))) : 1 + 2 ^ (-52 : ℤ) ≤ R.rnd y := by
  have hf : IsFloat (1 + 2 ^ (-52 : ℤ)) := ⟨2 ^ 52 + 1, -52, by norm_num, by norm_num⟩
  by_contra hc
  rw [not_le] at hc
  have h1 := IsFloat.gap_below (m := 2 ^ 52 + 1) (e := -52) (by norm_num) (R.isFloat y) (by refine lt_of_lt_of_eq hc ?_; norm_num)
  have h2 : R.rnd y ≤ 1 := h1.trans (by norm_num)
  have hy : 1 + 2 ^ (-53 : ℤ) < y := by
    norm_num at h ⊢
    linarith
  have h3 := R.nearest y _ hf
  have h4 := neg_abs_le (R.rnd y - y)
  rcases abs_cases (1 + 2 ^ (-52 : ℤ) - y) with ⟨h5, h6⟩ | ⟨h5, h6⟩
  · rw [h5] at h3
    norm_num at h3 hy h4 h6
    linarith
  · rw [h5] at h3
    norm_num at h3 hy h4 h6
    linarith

theorem rnd_below {y : ℝ} (h : y ≤ 1 - 2 ^ (-53 : ℤ)) : R.rnd y ≤ 1 - 2 ^ (-53 : ℤ) :=
  R.le_of_le ⟨2 ^ 53 - 1, -53, by norm_num, by norm_num⟩ h

theorem rRho_pos {C : Env} (he : 0 < C.e) (hc : 0 < C.c) {b g m : ℝ} (hb : 0 < b) (hg : 0 < g) (hm : 0 < m) : 0 < rRho R C b g m := by
  unfold rRho
  exact R.pos (div_pos (R.pos (mul_pos (R.pos (mul_pos (R.pos (mul_pos hb hg)) (R.pos (div_pos (R.pos (mul_pos hm he)) (R.pos (mul_pos hc hc)))))) hc)) he)

/-- The rigidity of a beta that is known to three roundings. -/
theorem rRho_near {C : Env} (he : 0 < C.e) (hc : 0 < C.c) {b g m b' g' : ℝ} (hb : Near (3 * 2 ^ (-53 : ℤ)) b b')
    (hg : Near (2 ^ (-53 : ℤ)) g g') : Near (12 * 2 ^ (-53 : ℤ)) (rRho R C b g m) (b' * g' * (m * C.e / C.c ^ 2) * C.c / C.e) := by
  unfold rRho
  have h1 : Near (51 / 10 * 2 ^ (-53 : ℤ)) (R.rnd (b * g)) (b' * g') := ((hb.mul hg).rnd R).weaken (by norm_num)
  have h2 := near_rnd R (m * C.e)
  have h3 : Near (101 / 100 * 2 ^ (-53 : ℤ)) (1 / R.rnd (C.c * C.c)) (1 / (C.c * C.c)) :=
    ((near_rnd R (C.c * C.c)).inv (by norm_num) (mul_pos hc hc).ne').weaken (by norm_num)
  have h4 : Near (31 / 10 * 2 ^ (-53 : ℤ)) (R.rnd (R.rnd (m * C.e) / R.rnd (C.c * C.c))) (m * C.e * (1 / (C.c * C.c))) := by
    rw [div_eq_mul_one_div (R.rnd (m * C.e))]
    exact ((h2.mul h3).rnd R).weaken (by norm_num)
  have h5 := ((h1.mul h4).rnd R).weaken (ε' := 94 / 10 * 2 ^ (-53 : ℤ)) (by norm_num)
  have h6 := ((h5.mul (Near.refl C.c)).rnd R).weaken (ε' := 105 / 10 * 2 ^ (-53 : ℤ)) (by norm_num)
  have h7 := ((h6.mul (Near.refl (1 / C.e))).rnd R).weaken (ε' := 12 * 2 ^ (-53 : ℤ)) (by norm_num)
  rw [← div_eq_mul_one_div] at h7
  convert h7 using 1
  field_simp

/-- **C172, accuracy.** For an energy of at least twice the mass the gradient of a quadrupole is the strength times the rigidity to `2 ^ (-49)`; that of
a sextupole the strength times the square of the rigidity to `2 ^ (-48)`. -/
theorem gradient_accurate_partial {C : Env} (he : 0 < C.e) (hc : 0 < C.c) {P m E : ℝ} (hP : 0 ≤ P) (hm : 0 < m) (hE : EnergyOf P m E)
    (h : 2 * m ≤ E) (k : ℝ) :
    (∃ g, rGetGradient R C k E m 1 = .ok (.num g) ∧ |g - k * rigidity C P| ≤ 2 ^ (-49 : ℤ) * |k * rigidity C P|) ∧
    ∃ g, rGetGradient R C k E m 2 = .ok (.num g) ∧ |g - k * rigidity C P ^ 2| ≤ 2 ^ (-48 : ℤ) * |k * rigidity C P ^ 2| := by
  have hg2 : 2 ≤ E / m := by rw [le_div_iff₀ hm]; exact h
  have hEm : 0 < E / m := by linarith
  have hrho : rigidity C P = √(1 - 1 / ((E / m) * (E / m))) * (E / m) * (m * C.e / C.c ^ 2) * C.c / C.e := by
    have h1 := gradient_partial C he hc hP hm hE 1
    rw [one_mul] at h1
    rw [← h1]
    unfold getGradient
    simp only [one_mul, pow_one, ← pow_two]
  have n1 := near_rnd R (E / m)
  have n2 : Near (301 / 100 * 2 ^ (-53 : ℤ)) (R.rnd (R.rnd (E / m) * R.rnd (E / m))) (E / m * (E / m)) :=
    ((n1.mul n1).rnd R).weaken (by norm_num)
  generalize hgam : R.rnd (E / m) = gam at *
  generalize hsq : R.rnd (gam * gam) = sq at *
  generalize hG : E / m = G at *
  have hGG : 4 ≤ G * G := by nlinarith
  have hsqpos : 0 < sq := by
    have hgp : 0 < gam := by rw [← hgam]; exact R.pos hEm
    rw [← hsq]; exact R.pos (mul_pos hgp hgp)
  have n3 : Near (41 / 10 * 2 ^ (-53 : ℤ)) (R.rnd (1 / sq)) (1 / (G * G)) :=
    ((n2.inv (by norm_num) (by linarith : G * G ≠ 0)).rnd R).weaken (by norm_num)
  have hinv : 0 < 1 / (G * G) ∧ 1 / (G * G) ≤ 1 / 4 := ⟨by positivity, one_div_le_one_div_of_le (by norm_num) hGG⟩
  generalize hrr : R.rnd (1 / sq) = r at *
  generalize 1 / (G * G) = w at *
  have n4 : Near (14 / 10 * 2 ^ (-53 : ℤ)) (1 - r) (1 - w) := by
    unfold Near at n3 ⊢
    rw [abs_of_pos hinv.1] at n3
    rw [abs_of_pos (a := 1 - w) (by linarith [hinv.2]), show 1 - r - (1 - w) = -(r - w) by ring, abs_neg]
    refine n3.trans ?_
    norm_num
    linarith [hinv.2]
  have n5 : Near (25 / 10 * 2 ^ (-53 : ℤ)) (R.rnd (1 - r)) (1 - w) := (n4.rnd R).weaken (by norm_num)
  have hr1 : 0 < 1 - r := by
    have := n4
    unfold Near at this
    rw [abs_of_pos (a := 1 - w) (by linarith [hinv.2]), abs_le] at this
    have h2 := this.1
    norm_num at h2
    linarith [hinv.2]
  have ht : 0 < R.rnd (1 - r) := R.pos hr1
  have n6 : Near (3 * 2 ^ (-53 : ℤ)) (R.rnd √(R.rnd (1 - r))) √(1 - w) :=
    ((n5.sqrt ht.le (by linarith [hinv.2]) (by norm_num)).rnd R).weaken (by norm_num)
  have n7 := rRho_near R he hc (m := m) n6 n1
  rw [← hrho] at n7
  have hs : rsqrt R (R.rnd (1 - r)) = .num (R.rnd √(R.rnd (1 - r))) := by
    unfold rsqrt
    rw [if_neg (not_lt.2 ht.le)]
  generalize R.rnd √(R.rnd (1 - r)) = bta at *
  have q1 : rGetGradient R C k E m 1 = .ok (.num (R.rnd (k * rRho R C bta gam m))) := by
    unfold rGetGradient
    simp only [hG, hgam, hsq, hrr]
    rw [if_neg hsqpos.ne', hs]
  have q2 : rGetGradient R C k E m 2 = .ok (.num (R.rnd (k * R.rnd (rRho R C bta gam m * rRho R C bta gam m)))) := by
    unfold rGetGradient
    simp only [hG, hgam, hsq, hrr]
    rw [if_neg hsqpos.ne', hs]
  refine ⟨⟨_, q1, ?_⟩, _, q2, ?_⟩
  · exact (((Near.refl k).mul n7).rnd R).weaken (by norm_num)
  · have n8 := ((n7.mul n7).rnd R).weaken (ε' := 26 * 2 ^ (-53 : ℤ)) (by norm_num)
    rw [← pow_two (rigidity C P)] at n8
    exact (((Near.refl k).mul n8).rnd R).weaken (by norm_num)

/-- **C172, sign.** For every energy above the mass the gradient is a number and has the sign of the strength. -/
theorem gradient_sign {C : Env} (he : 0 < C.e) (hc : 0 < C.c) {m E : ℝ} (hm : 0 < m) (fm : IsFloat m) (fE : IsFloat E) (h : m < E) {n : ℕ}
    (hn : n = 1 ∨ n = 2) (k : ℝ) :
    ∃ g, rGetGradient R C k E m n = .ok (.num g) ∧ (0 < k → 0 < g) ∧ (k < 0 → g < 0) ∧ (k = 0 → g = 0) := by
  have h0 : 0 < E := hm.trans h
  have h1 := fE.gap_rel fm h0 h
  have h2 : 1 + 2 ^ (-52 : ℤ) ≤ R.rnd (E / m) := by
    refine rnd_above R ?_
    rw [div_mul_eq_mul_div, le_div_iff₀ hm]
    linarith
  have hG1 : 1 < R.rnd (E / m) := lt_of_lt_of_le (by norm_num) h2
  have h3 : R.rnd (E / m) ≤ R.rnd (R.rnd (E / m) * R.rnd (E / m)) := R.ge_of_ge (R.isFloat _) (by nlinarith)
  have hsq : 1 + 2 ^ (-52 : ℤ) ≤ R.rnd (R.rnd (E / m) * R.rnd (E / m)) := h2.trans h3
  have hgam : 0 < R.rnd (E / m) := by linarith
  generalize hs : R.rnd (R.rnd (E / m) * R.rnd (E / m)) = sq at *
  have hsp : 0 < sq := lt_of_lt_of_le (by norm_num) hsq
  have h4 : R.rnd (1 / sq) ≤ 1 - 2 ^ (-53 : ℤ) := by
    refine rnd_below R ?_
    rw [div_le_iff₀ hsp]
    norm_num at hsq ⊢
    linarith
  have ht : 0 < R.rnd (1 - R.rnd (1 / sq)) := R.pos (by
    have : (0 : ℝ) < 2 ^ (-53 : ℤ) := by positivity
    linarith)
  have hr : rsqrt R (R.rnd (1 - R.rnd (1 / sq))) = .num (R.rnd √(R.rnd (1 - R.rnd (1 / sq)))) := by
    unfold rsqrt
    rw [if_neg (not_lt.2 ht.le)]
  have hb : 0 < R.rnd √(R.rnd (1 - R.rnd (1 / sq))) := R.pos (Real.sqrt_pos.2 ht)
  have hrho := rRho_pos R he hc hb hgam hm
  have fin : ∀ x : ℝ, 0 < x → (0 < k → 0 < R.rnd (k * x)) ∧ (k < 0 → R.rnd (k * x) < 0) ∧ (k = 0 → R.rnd (k * x) = 0) := by
    intro x hx
    refine ⟨fun hk => R.pos (mul_pos hk hx), fun hk => ?_, fun hk => by rw [hk, zero_mul, R.rnd_zero]⟩
    have := R.pos (x := -k * x) (mul_pos (by linarith) hx)
    rw [neg_mul, R.odd] at this
    linarith
  rcases hn with rfl | rfl
  · refine ⟨_, ?_, fin _ hrho⟩
    unfold rGetGradient
    simp only [hs]
    rw [if_neg hsp.ne', hr]
  · refine ⟨_, ?_, fin _ (R.pos (mul_pos hrho hrho))⟩
    unfold rGetGradient
    simp only [hs]
    rw [if_neg hsp.ne', hr]

/-- **C172 is false below the mass.** For every energy below the mass the gradient is not a number, whatever the strength; as the central momentum is
passed for the energy, this happens for every beam whose momentum is below the mass. -/
theorem gradient_nan_fails {C : Env} {m E : ℝ} (hE : 0 < E) (fm : IsFloat m) (fE : IsFloat E) (h : E < m) (k : ℝ) (n : ℕ) :
    rGetGradient R C k E m n = .ok .nan := by
  have hm : 0 < m := hE.trans h
  have h1 := fm.gap_rel fE hm h
  have h2 : R.rnd (E / m) ≤ 1 - 2 ^ (-53 : ℤ) := by
    refine rnd_below R ?_
    rw [div_le_iff₀ hm]
    linarith
  have hg : 0 < R.rnd (E / m) := R.pos (div_pos hE hm)
  have hg1 : R.rnd (E / m) ≤ 1 := h2.trans (by norm_num)
  have h3 : R.rnd (R.rnd (E / m) * R.rnd (E / m)) ≤ R.rnd (E / m) := R.le_of_le (R.isFloat _) (by nlinarith)
  have h4 := h3.trans h2
  have hsp : 0 < R.rnd (R.rnd (E / m) * R.rnd (E / m)) := R.pos (mul_pos hg hg)
  unfold rGetGradient
  simp only
  generalize R.rnd (R.rnd (E / m) * R.rnd (E / m)) = sq at *
  have h5 : 1 + 2 ^ (-52 : ℤ) ≤ R.rnd (1 / sq) := by
    refine rnd_above R ?_
    rw [div_mul_eq_mul_div, one_mul, le_div_iff₀ hsp]
    linarith
  have h6 : R.rnd (1 - R.rnd (1 / sq)) < 0 := by
    have := R.pos (x := -(1 - R.rnd (1 / sq))) (by
      have : (0 : ℝ) < 2 ^ (-52 : ℤ) := by positivity
      linarith)
    rw [R.odd] at this
    linarith
  rw [if_neg hsp.ne']
  unfold rsqrt
  rw [if_pos h6]

/-- **C172, at rest** the gradient is zero, and an energy of zero is an error. -/
theorem gradient_rest {C : Env} {m : ℝ} (hm : 0 < m) {n : ℕ} (hn : n = 1 ∨ n = 2) (k : ℝ) :
    rGetGradient R C k m m n = .ok (.num 0) ∧ rGetGradient R C k 0 m n = .error .zeroDivisionError := by
  constructor
  · unfold rGetGradient
    simp only [div_self hm.ne', R.rnd_one, mul_one, one_ne_zero, if_false]
    rcases hn with rfl | rfl <;> simp [rsqrt, rRho]
  · unfold rGetGradient
    simp only [zero_div, R.rnd_zero, mul_zero, if_true]

/-- A momentum of `√15` eV/c and a mass of 1 eV have an energy of 4 eV; 3 and 5 are floats on both sides of 4. -/
example : EnergyOf (√15) 1 4 ∧ 2 * (1 : ℝ) ≤ 4 ∧ IsFloat (3 : ℝ) ∧ IsFloat (4 : ℝ) ∧ IsFloat (5 : ℝ) := by
  refine ⟨⟨by norm_num, by rw [Real.sq_sqrt (by norm_num)]; norm_num⟩, by norm_num, ?_, ?_, ?_⟩
  · exact_mod_cast isFloat_int (n := 3) (by norm_num)
  · exact_mod_cast isFloat_int (n := 4) (by norm_num)
  · exact_mod_cast isFloat_int (n := 5) (by norm_num)

end Verif.Warp
