import Verif.Ptcls.PropsRoundedMoments
import Verif.Ptcls.LemmasRoundedTwiss
import Verif.Ptcls.RoundedGamma

/-!
# Property C177: the third Twiss parameter in double precision
-/

namespace Verif.Ptcls

open Verif.Py

variable (R : Rounding)

theorem rMkTwiss_ok {alpha beta : ℝ} (emit : ℝ) (hb : beta ≠ 0) : rMkTwiss R alpha beta emit = .ok ⟨alpha, beta, emit, twG R alpha beta⟩ := by
  unfold rMkTwiss twG
  rw [if_neg hb, sq]

/-- **C177, accuracy.** The object keeps what it is given, and `beta gamma - alpha^2` is 1 up to four roundings of `1 + alpha^2`; gamma has the sign of
beta. -/
theorem gamma_rounded (alpha beta emit : ℝ) (hb : beta ≠ 0) :
    ∃ t, rMkTwiss R alpha beta emit = .ok t ∧ t.alpha = alpha ∧ t.beta = beta ∧ t.emit = emit ∧
      |t.beta * t.gamma - t.alpha ^ 2 - 1| ≤ 2 ^ (-51 : ℤ) * (1 + t.alpha ^ 2) ∧ 0 < t.beta * t.gamma := by
  refine ⟨_, rMkTwiss_ok R emit hb, rfl, rfl, rfl, ?_⟩
  simp only
  have h := ((Near.refl beta).mul (twG_near R (a := alpha) (b := beta))).weaken (ε' := 2 ^ (-51 : ℤ)) (by norm_num)
  rw [mul_div_cancel₀ _ hb] at h
  unfold Near at h
  have hp : 0 < 1 + alpha ^ 2 := by positivity
  rw [abs_of_pos hp] at h
  refine ⟨by rwa [sub_sub, add_comm (alpha ^ 2)], ?_⟩
  have := (abs_le.1 h).1
  norm_num at this
  linarith

theorem gamma_zero_beta (alpha emit : ℝ) : rMkTwiss R alpha 0 emit = .error .zeroDivisionError := by
  unfold rMkTwiss
  rw [if_pos rfl]

/-- One is lost in numbers from `2 ^ 54` on. -/
theorem rnd_one_add {s : ℝ} (hs : IsFloat s) (h : 2 ^ 54 ≤ s) : R.rnd (1 + s) = s := by
  have h1 : s ≤ R.rnd (1 + s) := R.ge_of_ge hs (by linarith)
  rcases h1.eq_or_lt with he | hlt
  · exact he.symm
  · exfalso
    have hpos : 0 < R.rnd (1 + s) := by linarith [pow_pos (show (0 : ℝ) < 2 by norm_num) 54]
    have hg := IsFloat.gap_rel (x := R.rnd (1 + s)) (r := s) (R.isFloat _) hs hpos hlt
    have hn := R.nearest (1 + s) s hs
    rw [show s - (1 + s) = -1 by ring, abs_neg, abs_one] at hn
    have := (abs_le.1 hn).2
    norm_num at hg h
    linarith

/-- **C177 is false for large alpha.** For every alpha of at most 26 bits and at least `2 ^ 27` and every power of two as beta, `beta gamma - alpha^2` is zero: the
ellipse has no area. This is so for every way to round to nearest. -/
theorem gamma_large_fails (m e j : ℤ) (hm : |m| < 2 ^ 26) (hbig : (2 : ℝ) ^ 27 ≤ |(m : ℝ) * 2 ^ e|) (emit : ℝ) :
    ∃ t, rMkTwiss R (m * 2 ^ e) (2 ^ j) emit = .ok t ∧ t.beta * t.gamma - t.alpha ^ 2 = 0 := by
  have hj : (2 : ℝ) ^ j ≠ 0 := (two_zpow_pos j).ne'
  refine ⟨_, rMkTwiss_ok R emit hj, ?_⟩
  simp only
  have hmm : |m ^ 2| < 2 ^ 53 := by
    rw [abs_pow]
    have := abs_nonneg m
    nlinarith
  have hsq : (m * (2 : ℝ) ^ e) * (m * 2 ^ e) = ((m ^ 2 : ℤ) : ℝ) * 2 ^ (2 * e) := by
    rw [two_mul, zpow_add₀ (by norm_num)]
    push_cast
    ring
  have hf : IsFloat ((m * (2 : ℝ) ^ e) * (m * 2 ^ e)) := ⟨m ^ 2, 2 * e, hmm.le, hsq⟩
  have hge : (2 : ℝ) ^ 54 ≤ (m * (2 : ℝ) ^ e) * (m * 2 ^ e) := by
    rw [← abs_mul_abs_self]
    calc (2 : ℝ) ^ 54 = 2 ^ 27 * 2 ^ 27 := by norm_num
      _ ≤ _ := mul_le_mul hbig hbig (by positivity) (abs_nonneg _)
  have hq : IsFloat ((m * (2 : ℝ) ^ e) * (m * 2 ^ e) / 2 ^ j) := by
    refine ⟨m ^ 2, 2 * e - j, hmm.le, ?_⟩
    rw [hsq, zpow_sub₀ (by norm_num), mul_div_assoc]
  unfold twG
  rw [R.fixed hf, rnd_one_add R hf hge, R.fixed hq, mul_div_cancel₀ _ hj]
  ring

/-- **C177 for stored Twiss parameters.** If `K` bounds `1 + alpha^2` and is at most `2^40`, `gamma` times the emittance of the object that `calc_twiss6d` stores is
the second moment of the momenta, as `beta` times the emittance is that of the positions, up to a relative error of `K 2^-45`. -/
theorem gamma_moments_partial (s11 s12 s22 K : ℝ) (h11 : 0 < s11) (hK : s11 * s22 ≤ K * (s11 * s22 - s12 ^ 2)) (hK' : K ≤ 2 ^ (40 : ℤ))
    (hD : 0 < s11 * s22 - s12 ^ 2) :
    ∃ t, rTwissObject R s11 s12 s12 s22 = .ok t ∧ |t.gamma * t.emit - s22| ≤ K * 2 ^ (-45 : ℤ) * s22 ∧ |t.beta * t.emit - s11| ≤ K * 2 ^ (-45 : ℤ) * s11 := by
  obtain ⟨alpha, beta, emit, h1, he, hb, n1, n2, n3⟩ := moments_rounded_partial R s11 s12 s22 K h11 hK hK' hD
  have hs22 : 0 < s22 := by
    have : 0 < s11 * s22 := by nlinarith [sq_nonneg s12]
    exact pos_of_mul_pos_right this h11.le
  have hK1 : 1 ≤ K := by
    by_contra hc
    push Not at hc
    have := mul_lt_mul_of_pos_right hc hD
    nlinarith [sq_nonneg s12]
  refine ⟨_, by unfold rTwissObject; rw [h1]; exact rMkTwiss_ok R emit hb.ne', ?_⟩
  simp only
  set E := √(s11 * s22 - s12 ^ 2) with hE
  have hE0 : 0 < E := Real.sqrt_pos.2 hD
  have hEE : E * E = s11 * s22 - s12 ^ 2 := Real.mul_self_sqrt hD.le
  set η := K * 2 ^ (-48 : ℤ) with hη
  have hη0 : 0 ≤ η := by positivity
  have hη1 : η ≤ 2 ^ (-8 : ℤ) := by
    rw [hη]
    norm_num at hK' ⊢
    linarith
  have hu : (2 : ℝ) ^ (-53 : ℤ) ≤ η * (1 / 32) := by
    rw [hη]
    norm_num
    linarith
  have N1 : Near η emit E := by unfold Near; rwa [abs_of_pos hE0]
  have N2 : Near η beta (s11 / E) := by unfold Near; rwa [abs_of_pos (div_pos h11 hE0)]
  have N3 : Near η alpha (-s12 / E) := n3
  have N4 : Near (2 * η + η * η) (alpha ^ 2) ((-s12 / E) ^ 2) := by
    have := N3.mul N3
    rw [sq, sq]
    exact this.weaken (by linarith)
  have N5 : Near (201 / 100 * η) (1 + alpha ^ 2) (1 + (-s12 / E) ^ 2) :=
    (N4.one_add (sq_nonneg _) (by positivity)).weaken (by norm_num at hη1; nlinarith)
  have N6 : Near (101 / 100 * η) (1 / beta) (1 / (s11 / E)) := by
    refine (N2.inv (by norm_num at hη1; linarith) (div_pos h11 hE0).ne').weaken ?_
    rw [div_le_iff₀ (by norm_num at hη1; linarith)]
    norm_num at hη1
    nlinarith
  have N7 : Near (305 / 100 * η) ((1 + alpha ^ 2) / beta) ((1 + (-s12 / E) ^ 2) / (s11 / E)) := by
    have := N5.mul N6
    rw [mul_one_div, mul_one_div] at this
    refine this.weaken ?_
    norm_num at hη1
    nlinarith
  have hgam : (1 + (-s12 / E) ^ 2) / (s11 / E) = s22 / E := by
    field_simp
    rw [sq E, hEE]
    ring
  have hex : (0 : ℝ) < s22 / E := div_pos hs22 hE0
  have N8 : Near (4 * η) (twG R alpha beta) (s22 / E) := by
    rw [hgam] at N7
    have g := twG_near R (a := alpha) (b := beta)
    have b7 := N7.abs_le
    have d0 := abs_nonneg ((1 + alpha ^ 2) / beta)
    unfold Near at g N7 ⊢
    have tri := abs_sub_le (twG R alpha beta) ((1 + alpha ^ 2) / beta) (s22 / E)
    rw [abs_of_pos hex] at *
    generalize |twG R alpha beta - (1 + alpha ^ 2) / beta| = A at *
    generalize |(1 + alpha ^ 2) / beta - s22 / E| = B at *
    generalize |twG R alpha beta - s22 / E| = C at *
    generalize |(1 + alpha ^ 2) / beta| = D at *
    have b8 : D ≤ 2 * (s22 / E) := b7.trans (mul_le_mul_of_nonneg_right (by norm_num at hη1; linarith) hex.le)
    have b9 : 3.1 * 2 ^ (-53 : ℤ) * D ≤ 3.1 * (η * (1 / 32)) * (2 * (s22 / E)) :=
      mul_le_mul (mul_le_mul_of_nonneg_left hu (by norm_num)) b8 d0 (by positivity)
    nlinarith [mul_nonneg hη0 hex.le]
  constructor
  · have := (N8.mul N1).weaken (ε' := 8 * η) (by norm_num at hη1; nlinarith)
    rw [div_mul_cancel₀ _ hE0.ne'] at this
    unfold Near at this
    rw [abs_of_pos hs22] at this
    refine this.trans (le_of_eq ?_)
    rw [hη, show (2 : ℝ) ^ (-45 : ℤ) = 8 * 2 ^ (-48 : ℤ) by norm_num]
    ring
  · have := (N2.mul N1).weaken (ε' := 8 * η) (by norm_num at hη1; nlinarith)
    rw [div_mul_cancel₀ _ hE0.ne'] at this
    unfold Near at this
    rw [abs_of_pos h11] at this
    refine this.trans (le_of_eq ?_)
    rw [hη, show (2 : ℝ) ^ (-45 : ℤ) = 8 * 2 ^ (-48 : ℤ) by norm_num]
    ring

/-! ## Examples -/

example := gamma_rounded R (-3 / 10) 2 (1 / 1000) (by norm_num)

/-- alpha = 3 · 2^26. -/
example := gamma_large_fails R 3 26 (-2) (by norm_num) (by norm_num) 1

/-- Moments 2, 1, 1: alpha is -1. -/
example := gamma_moments_partial R 2 1 1 2 (by norm_num) (by norm_num) (by norm_num) (by norm_num)

end Verif.Ptcls
