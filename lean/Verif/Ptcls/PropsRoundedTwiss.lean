import Verif.Ptcls.LemmasRoundedTwiss

/-!
# Claim C152: the Twiss transformation in double precision
-/

namespace Verif.Ptcls

open Verif.Py Verif.Kinematic Verif.Nonlinear

variable (R : Rounding)

theorem twS_near {a b : ℝ} (hb : 0 < b) : Near (4.2 * 2 ^ (-53 : ℤ)) (twS R a b) ((1 + a ^ 2) / b + b) := by
  have h1 := twG_near R (a := a) (b := b)
  have hg : 0 < (1 + a ^ 2) / b := by positivity
  have h2 : Near (3.1 * 2 ^ (-53 : ℤ)) (twG R a b + b) ((1 + a ^ 2) / b + b) := by
    unfold Near at *
    rw [add_sub_add_right_eq_sub, abs_of_pos (a := (1 + a ^ 2) / b + b) (by positivity)]
    rw [abs_of_pos hg] at h1
    refine h1.trans (mul_le_mul_of_nonneg_left (by linarith) (by norm_num))
  exact (h2.rnd R).weaken (by norm_num)

theorem sqrt_rnd_sq_ge {x : ℝ} (hx : 0 ≤ x) : x * (1 - 2 ^ (-51 : ℤ)) ≤ R.rnd (Real.sqrt x) ^ 2 := by
  have h := le_rnd_mul R (Real.sqrt x) (Real.sqrt_nonneg x)
  have h0 : 0 ≤ Real.sqrt x * (1 - 2 ^ (-53 : ℤ)) := mul_nonneg (Real.sqrt_nonneg x) (by norm_num)
  have h1 := mul_self_le_mul_self h0 h
  rw [mul_mul_mul_comm, Real.mul_self_sqrt hx] at h1
  rw [sq]
  refine le_trans (mul_le_mul_of_nonneg_left ?_ hx) h1
  norm_num

/-- **C152, large Twiss parameters.** If `gamma + beta` is at least `2 ^ 28`, `make_twiss_dist_6d` raises ValueError, or one of the two
factors of the transformation is zero, or the square of their product, which should be 1, is more than 2. -/
theorem twiss_large_fails {a b : ℝ} (hb : 0 < b) (hS : 2 ^ 28 ≤ (1 + a ^ 2) / b + b) : rCoeffs R a b = .error .valueError ∨
    ∃ k, rCoeffs R a b = .ok k ∧ (k.fac = 0 ∨ k.inv = 0 ∨ 2 < (k.fac * k.inv) ^ 2) := by
  rcases lt_or_ge (twS R a b) (twRt R a b) with h | h
  · exact Or.inl (coeffs_error R hb h)
  obtain ⟨k, hk, hfi, _⟩ := coeffs_ok R hb h
  refine Or.inr ⟨k, hk, ?_⟩
  have hrt := twRt_nonneg R a b
  have hn := twS_near R (a := a) hb
  have hSl : (2 ^ 28 : ℝ) * (1 - 4.2 * 2 ^ (-53 : ℤ)) ≤ twS R a b := by
    have h1 := hn.le_abs
    rw [abs_of_nonneg (hrt.trans h), abs_of_pos (a := (1 + a ^ 2) / b + b) (by positivity)] at h1
    have h2 := mul_le_mul_of_nonneg_left hS (by norm_num : (0 : ℝ) ≤ 1 - 4.2 * 2 ^ (-53 : ℤ))
    linarith
  rcases h.eq_or_lt with he | hlt
  · have h0 : R.rnd (Real.sqrt (R.rnd (twS R a b - twRt R a b) / 2)) = 0 := by rw [he]; simp
    rcases hfi with ⟨h1, _⟩ | ⟨h1, _⟩
    · exact Or.inl (h1.trans h0)
    · exact Or.inr (Or.inl (h1.trans h0))
  · have hS0 : 0 < twS R a b := lt_of_le_of_lt hrt hlt
    have hgap := IsFloat.gap_rel (x := twS R a b) (r := twRt R a b) (R.isFloat _) (R.isFloat _ : IsFloat (twRt R a b)) hS0 hlt
    have hlo := sqrt_rnd_sq_ge R (x := R.rnd (twS R a b - twRt R a b) / 2) (by have := R.nonneg (sub_nonneg.2 h); linarith)
    have hhi := sqrt_rnd_sq_ge R (x := R.rnd (twS R a b + twRt R a b) / 2) (by have := R.nonneg (add_nonneg hS0.le hrt); linarith)
    have hm := le_rnd_mul R (twS R a b - twRt R a b) (sub_nonneg.2 h)
    have hp := le_rnd_mul R (twS R a b + twRt R a b) (add_nonneg hS0.le hrt)
    refine Or.inr (Or.inr ?_)
    have hprod : k.fac * k.inv = R.rnd (Real.sqrt (R.rnd (twS R a b - twRt R a b) / 2)) * R.rnd (Real.sqrt (R.rnd (twS R a b + twRt R a b) / 2)) := by
      rcases hfi with ⟨h1, h2, _⟩ | ⟨h1, h2, _⟩
      · rw [h1, h2]
      · rw [h1, h2, mul_comm]
    rw [hprod, mul_pow]
    generalize R.rnd (Real.sqrt (R.rnd (twS R a b - twRt R a b) / 2)) ^ 2 = lo at *
    generalize R.rnd (Real.sqrt (R.rnd (twS R a b + twRt R a b) / 2)) ^ 2 = hi at *
    generalize R.rnd (twS R a b - twRt R a b) = m at *
    generalize R.rnd (twS R a b + twRt R a b) = p at *
    generalize twS R a b = S at *
    generalize twRt R a b = t at *
    -- lower bounds without rounding
    have c1 : (S - t) * (499 / 1000) ≤ lo := by
      norm_num at hm hlo
      nlinarith
    have c2 : (S + t) * (499 / 1000) ≤ hi := by
      norm_num at hp hhi
      nlinarith
    have hSb : (268435455 : ℝ) ≤ S := by norm_num at hSl; linarith
    have c3 : (S - t) * (499 / 1000) * ((S + t) * (499 / 1000)) ≤ lo * hi :=
      mul_le_mul c1 c2 (by nlinarith) (le_trans (by nlinarith) c1)
    refine lt_of_lt_of_le ?_ c3
    have c4 : S * 2 ^ (-53 : ℤ) ≤ S - t := by linarith
    -- either the root is large or the difference is
    rcases le_or_gt t (S / 2) with ht | ht
    · nlinarith
    · have c5 : S * 2 ^ (-53 : ℤ) * (3 / 2 * S) ≤ (S - t) * (S + t) := mul_le_mul c4 (by linarith) (by linarith) (by linarith)
      have c6 : (268435455 : ℝ) * 268435455 ≤ S * S := mul_le_mul hSb hSb (by norm_num) (by linarith)
      norm_num at c5
      nlinarith

/-- `alpha = 2 ^ 14`, `beta = 1`. -/
example : (2 : ℝ) ^ 28 ≤ (1 + (2 ^ 14) ^ 2) / 1 + 1 := by norm_num

/-- Adding little changes nothing. -/
theorem rnd_absorb {x y : ℝ} (hx : IsFloat x) (h0 : 0 < x) (h : |y| < x * 2 ^ (-54 : ℤ)) : R.rnd (x + y) = x := by
  have h1 := R.nearest (x + y) x hx
  rw [show x - (x + y) = -y by ring, abs_neg] at h1
  have e : x * 2 ^ (-53 : ℤ) = 2 * (x * 2 ^ (-54 : ℤ)) := by norm_num; ring
  have hy := abs_lt.1 h
  have h2 := abs_le.1 h1
  have hle := le_abs_self y
  have hnl := neg_abs_le y
  rcases lt_trichotomy (R.rnd (x + y)) x with hlt | heq | hgt
  · have := IsFloat.gap_rel hx (R.isFloat _) h0 hlt
    linarith [h2.1]
  · exact heq
  · have := IsFloat.gap_rel (R.isFloat _) hx (h0.trans hgt) hgt
    have h3 := mul_le_mul_of_nonneg_right hgt.le (two_zpow_pos (-53)).le
    linarith [h2.2]

/-- **C152, upright beams.** For `alpha = 0` and a beta function of `2 ^ 28` or more all momenta are zero, for `2 ^ -28` or less all
positions. -/
theorem twiss_upright_fails {b e : ℝ} (hbf : IsFloat b) (he : 0 ≤ e) : (2 ^ 28 ≤ b → ∃ k, rCoeffs R 0 b = .ok k ∧ ∀ x p, ∃ y, rMapPair R e k x p = .ok (y, 0)) ∧
    (0 < b → b ≤ 2 ^ (-28 : ℤ) → ∃ k, rCoeffs R 0 b = .ok k ∧ ∀ x p, ∃ y, rMapPair R e k x p = .ok (0, y)) := by
  have hG : ∀ b, twG R 0 b = R.rnd (1 / b) := by intro b; simp [twG]
  have hRt : ∀ b, twRt R 0 b = |twD R 0 b| := by
    intro b
    unfold twRt
    simp only [mul_zero, Rounding.rnd_zero, add_zero]
    rw [R.fixed (R.isFloat _)]
    have := R.sqrt_sq (isFloat_abs (R.isFloat (twG R 0 b - b))) (abs_nonneg _)
    rwa [abs_mul_abs_self] at this
  constructor
  · intro hb
    have hb0 : 0 < b := lt_of_lt_of_le (by norm_num) hb
    have hg0 : 0 ≤ R.rnd (1 / b) := R.nonneg (by positivity)
    have hg : R.rnd (1 / b) ≤ 2 ^ (-28 : ℤ) := by
      refine R.le_of_le (isFloat_zpow _) ?_
      rw [div_le_iff₀ hb0]
      norm_num at hb ⊢
      linarith
    have hsmall : |R.rnd (1 / b)| < b * 2 ^ (-54 : ℤ) := by
      rw [abs_of_nonneg hg0]
      norm_num at hg hb ⊢
      linarith
    have hS : twS R 0 b = b := by
      unfold twS
      rw [hG, add_comm]
      exact rnd_absorb R hbf hb0 hsmall
    have hD : twD R 0 b = -b := by
      unfold twD
      rw [hG, ← neg_sub, R.odd, sub_eq_add_neg]
      congr 1
      exact rnd_absorb R hbf hb0 (by rwa [abs_neg])
    have hR : twRt R 0 b = b := by rw [hRt, hD, abs_neg, abs_of_pos hb0]
    obtain ⟨k, hk, hfi, _, hcs⟩ := coeffs_ok R hb0 (le_of_eq (hR.trans hS.symm))
    obtain ⟨hs, hc⟩ := hcs rfl
    refine ⟨k, hk, fun x p => ?_⟩
    have hinv : k.inv = 0 := by
      rcases hfi with ⟨_, _, h⟩ | ⟨h, _⟩
      · rw [hD] at h; linarith
      · rw [h, hR, hS]; simp
    unfold rMapPair
    rw [rSqrt_nonneg R he]
    refine ⟨R.rnd (R.rnd (Real.sqrt e) * R.rnd (R.rnd (R.rnd (k.fac * k.cos) * x) - R.rnd (R.rnd (k.inv * k.sin) * p))), ?_⟩
    simp [bind, Except.bind, hinv, hs]
  · intro hb0 hb
    have hg : 2 ^ (28 : ℤ) ≤ R.rnd (1 / b) := by
      refine R.ge_of_ge (isFloat_zpow _) ?_
      rw [le_div_iff₀ hb0]
      norm_num at hb ⊢
      linarith
    have hg0 : 0 < R.rnd (1 / b) := lt_of_lt_of_le (by positivity) hg
    have hsmall : |b| < R.rnd (1 / b) * 2 ^ (-54 : ℤ) := by
      rw [abs_of_pos hb0]
      norm_num at hg hb ⊢
      linarith
    have hS : twS R 0 b = R.rnd (1 / b) := by
      unfold twS
      rw [hG]
      exact rnd_absorb R (R.isFloat _) hg0 hsmall
    have hD : twD R 0 b = R.rnd (1 / b) := by
      unfold twD
      rw [hG, sub_eq_add_neg]
      exact rnd_absorb R (R.isFloat _) hg0 (by rwa [abs_neg])
    have hR : twRt R 0 b = R.rnd (1 / b) := by rw [hRt, hD, abs_of_pos hg0]
    obtain ⟨k, hk, hfi, _, hcs⟩ := coeffs_ok R hb0 (le_of_eq (hR.trans hS.symm))
    obtain ⟨hs, hc⟩ := hcs rfl
    refine ⟨k, hk, fun x p => ?_⟩
    have hfac : k.fac = 0 := by
      rcases hfi with ⟨h, _⟩ | ⟨_, _, h⟩
      · rw [h, hR, hS]; simp
      · rw [hD] at h; linarith
    unfold rMapPair
    rw [rSqrt_nonneg R he]
    refine ⟨R.rnd (R.rnd (Real.sqrt e) * R.rnd (R.rnd (R.rnd (k.fac * k.sin) * x) + R.rnd (R.rnd (k.inv * k.cos) * p))), ?_⟩
    simp [bind, Except.bind, hfac, hs]

example : IsFloat (2 ^ 28) ∧ IsFloat (2 ^ (-28 : ℤ)) := ⟨by exact_mod_cast isFloat_zpow 28, isFloat_zpow _⟩

theorem Near.add_nonneg {ε x y z w : ℝ} (h : Near ε x y) (h' : Near ε z w) (hy : 0 ≤ y) (hw : 0 ≤ w) : Near ε (x + z) (y + w) := by
  unfold Near at *
  rw [abs_of_nonneg hy] at h
  rw [abs_of_nonneg hw] at h'
  rw [abs_of_nonneg (a := y + w) (by linarith), add_sub_add_comm, mul_add]
  exact (abs_add_le _ _).trans (add_le_add h h')

/-- The square of the computed root. -/
theorem twRt_sq (a b : ℝ) : |twRt R a b * twRt R a b - ((twG R a b - b) ^ 2 + 4 * a ^ 2)| ≤ 6.8 * 2 ^ (-53 : ℤ) * ((twG R a b - b) ^ 2 + 4 * a ^ 2) := by
  have h1 : Near (1 * 2 ^ (-53 : ℤ)) (twD R a b) (twG R a b - b) := ((Near.refl _).rnd R).weaken (by norm_num)
  have h2 := ((h1.mul h1).rnd R).weaken (ε' := 3.1 * 2 ^ (-53 : ℤ)) (by norm_num)
  have h3 : Near (1 * 2 ^ (-53 : ℤ)) (R.rnd (a * a)) (a * a) := ((Near.refl _).rnd R).weaken (by norm_num)
  have h4 := (((Near.refl 4).mul h3).rnd R).weaken (ε' := 3.1 * 2 ^ (-53 : ℤ)) (by norm_num)
  have h5 := ((Near.add_nonneg h2 h4 (mul_self_nonneg _) (by nlinarith [mul_self_nonneg a])).rnd R).weaken (ε' := 4.2 * 2 ^ (-53 : ℤ)) (by norm_num)
  have hw : 0 ≤ R.rnd (R.rnd (twD R a b * twD R a b) + R.rnd (4 * R.rnd (a * a))) := R.nonneg
    (add_nonneg (R.nonneg (mul_self_nonneg _)) (R.nonneg (mul_nonneg (by norm_num) (R.nonneg (mul_self_nonneg a)))))
  have h6 : Near (1 * 2 ^ (-53 : ℤ)) (twRt R a b) (Real.sqrt (R.rnd (R.rnd (twD R a b * twD R a b) + R.rnd (4 * R.rnd (a * a))))) := ((Near.refl _).rnd R).weaken (by norm_num)
  have h7 := (h6.mul h6).weaken (ε' := 2.1 * 2 ^ (-53 : ℤ)) (by norm_num)
  rw [Real.mul_self_sqrt hw] at h7
  unfold Near at h5 h7
  have hY : 0 ≤ (twG R a b - b) * (twG R a b - b) + 4 * (a * a) := by nlinarith [mul_self_nonneg a, mul_self_nonneg (twG R a b - b)]
  rw [abs_of_nonneg hY] at h5
  rw [abs_of_nonneg hw] at h7
  rw [sq, sq]
  generalize twRt R a b * twRt R a b = t at *
  generalize R.rnd (R.rnd (twD R a b * twD R a b) + R.rnd (4 * R.rnd (a * a))) = w at *
  generalize (twG R a b - b) * (twG R a b - b) + 4 * (a * a) = Y at *
  have u : (2 : ℝ) ^ (-53 : ℤ) = 1 / 9007199254740992 := by norm_num
  rw [u] at h5 h7 ⊢
  have h8 := abs_sub_le t w Y
  have h9 := (abs_le.1 h5).2
  nlinarith

/-- The difference of the squares is nearly 4. -/
theorem tw_squares {a b : ℝ} (hb : 0 < b) : |twS R a b * twS R a b - twRt R a b * twRt R a b - 4| ≤ 12.1 * 2 ^ (-53 : ℤ) * ((1 + a ^ 2) / b + b) ^ 2 := by
  have hg := twG_near R (a := a) (b := b)
  have hs : Near (1 * 2 ^ (-53 : ℤ)) (twS R a b) (twG R a b + b) := ((Near.refl _).rnd R).weaken (by norm_num)
  have hss := (hs.mul hs).weaken (ε' := 2.1 * 2 ^ (-53 : ℤ)) (by norm_num)
  have ht := twRt_sq R a b
  have hγ : 0 < (1 + a ^ 2) / b := by positivity
  have hγb : (1 + a ^ 2) / b * b = 1 + a ^ 2 := by field_simp
  unfold Near at hg hss
  rw [abs_of_pos hγ] at hg
  rw [abs_of_nonneg (a := (twG R a b + b) * (twG R a b + b)) (mul_self_nonneg _)] at hss
  generalize hgam : (1 + a ^ 2) / b = γ at *
  generalize twS R a b * twS R a b = ss at *
  generalize twRt R a b * twRt R a b = tt at *
  generalize twG R a b = G at *
  have u : (2 : ℝ) ^ (-53 : ℤ) = 1 / 9007199254740992 := by norm_num
  rw [u] at hg hss ht ⊢
  have hA : a ^ 2 = γ * b - 1 := by linarith
  rw [hA] at ht
  -- the error of gamma times beta
  have hgb : |G * b - γ * b| ≤ 3.1 * (1 / 9007199254740992) * (γ * b) := by
    rw [← sub_mul, abs_mul, abs_of_pos hb, ← mul_assoc]
    exact mul_le_mul_of_nonneg_right hg hb.le
  have hAM : γ * b ≤ (γ + b) ^ 2 / 4 := by nlinarith [sq_nonneg (γ - b)]
  have hγb0 : 0 < γ * b := mul_pos hγ hb
  have hX : (G + b) * (G + b) ≤ 1.001 * (γ + b) ^ 2 := by
    have h1 : G + b ≤ (1 + 1 / 10000) * (γ + b) := by
      have := (abs_le.1 hg).2
      nlinarith
    have h0 : 0 ≤ G + b := by
      have := (abs_le.1 hg).1
      nlinarith
    have := mul_self_le_mul_self h0 h1
    nlinarith [sq_nonneg (γ + b)]
  have hY : (G - b) ^ 2 + 4 * (γ * b - 1) ≤ 1.002 * (γ + b) ^ 2 := by
    have := (abs_le.1 hgb).1
    nlinarith [sq_nonneg (γ + b)]
  have h1 := abs_le.1 hss
  have h2 := abs_le.1 ht
  have h3 := abs_le.1 hgb
  have hid : (G + b) * (G + b) - ((G - b) ^ 2 + 4 * (γ * b - 1)) - 4 = 4 * (G * b - γ * b) := by ring
  generalize (G + b) * (G + b) = X2 at *
  generalize (G - b) ^ 2 + 4 * (γ * b - 1) = Y at *
  generalize (γ + b) ^ 2 = T at *
  generalize γ * b = gb at *
  generalize G * b = Gb at *
  rw [abs_le]
  constructor <;> linarith [h1.1, h1.2, h2.1, h2.2, h3.1, h3.2]

/-- **C152, other Twiss parameters.** If `gamma + beta` is at most `2 ^ 24`, the coefficients exist, the square of the product of the two
factors is 1 and the sum of their squares is `gamma + beta`, with errors that grow with the square of `gamma + beta`. -/
theorem twiss_rounded_partial {a b : ℝ} (hb : 0 < b) (hS : (1 + a ^ 2) / b + b ≤ 2 ^ 24) : ∃ k, rCoeffs R a b = .ok k ∧ 0 < k.fac ∧ 0 < k.inv ∧
    |(k.fac * k.inv) ^ 2 - 1| ≤ 2 ^ (-50 : ℤ) * ((1 + a ^ 2) / b + b) ^ 2 ∧
    |k.fac ^ 2 + k.inv ^ 2 - ((1 + a ^ 2) / b + b)| ≤ 2 ^ (-49 : ℤ) * ((1 + a ^ 2) / b + b) ∧ |k.cos ^ 2 + k.sin ^ 2 - 1| ≤ 2 ^ (-50 : ℤ) := by
  have hsq := tw_squares R (a := a) hb
  have hn := twS_near R (a := a) hb
  have hγ : 0 < (1 + a ^ 2) / b := by positivity
  have hS2 : 4 ≤ ((1 + a ^ 2) / b + b) ^ 2 := by
    have hγb : (1 + a ^ 2) / b * b = 1 + a ^ 2 := by field_simp
    nlinarith [sq_nonneg ((1 + a ^ 2) / b - b), sq_nonneg a]
  have hrt := twRt_nonneg R a b
  have hs0 : 0 ≤ twS R a b := R.nonneg (add_nonneg (R.nonneg (div_nonneg (R.nonneg (add_nonneg zero_le_one (R.nonneg (mul_self_nonneg a)))) hb.le)) hb.le)
  have hT : ((1 + a ^ 2) / b + b) ^ 2 ≤ 2 ^ 48 := by
    have := pow_le_pow_left₀ (by positivity) hS 2
    norm_num at this ⊢
    exact this
  have hlt : twRt R a b < twS R a b := by
    by_contra hc
    rw [not_lt] at hc
    have h1 := mul_self_le_mul_self hs0 hc
    have h2 := (abs_le.1 hsq).1
    norm_num at h2 hT
    linarith
  obtain ⟨k, hk, hfi, hcs, _⟩ := coeffs_ok R hb hlt.le
  refine ⟨k, hk, ?_⟩
  have m0 : 0 < R.rnd (twS R a b - twRt R a b) := R.pos (sub_pos.2 hlt)
  have p0 : 0 < R.rnd (twS R a b + twRt R a b) := R.pos (by linarith)
  have lo0 : 0 < R.rnd (Real.sqrt (R.rnd (twS R a b - twRt R a b) / 2)) := R.pos (Real.sqrt_pos.2 (by linarith))
  have hi0 : 0 < R.rnd (Real.sqrt (R.rnd (twS R a b + twRt R a b) / 2)) := R.pos (Real.sqrt_pos.2 (by linarith))
  have hhalf : ∀ x, Near (2 ^ (-53 : ℤ)) (R.rnd x / 2) (x / 2) := by
    intro x
    have := near_rnd R x
    unfold Near at *
    rw [← sub_div, abs_div, abs_div, abs_of_pos (by norm_num : (0 : ℝ) < 2), ← mul_div_assoc]
    exact div_le_div_of_nonneg_right this (by norm_num)
  have nlo := sq_near R (hhalf (twS R a b - twRt R a b)) (by linarith)
  have nhi := sq_near R (hhalf (twS R a b + twRt R a b)) (by linarith)
  have key : |(R.rnd (Real.sqrt (R.rnd (twS R a b - twRt R a b) / 2)) * R.rnd (Real.sqrt (R.rnd (twS R a b + twRt R a b) / 2))) ^ 2 - 1| ≤
      2 ^ (-50 : ℤ) * ((1 + a ^ 2) / b + b) ^ 2 ∧
      |R.rnd (Real.sqrt (R.rnd (twS R a b - twRt R a b) / 2)) ^ 2 + R.rnd (Real.sqrt (R.rnd (twS R a b + twRt R a b) / 2)) ^ 2 - ((1 + a ^ 2) / b + b)| ≤
      2 ^ (-49 : ℤ) * ((1 + a ^ 2) / b + b) := by
    have hprod := (nlo.mul nhi).weaken (ε' := 8.1 * 2 ^ (-53 : ℤ)) (by norm_num)
    rw [mul_pow, sq (R.rnd (Real.sqrt (R.rnd (twS R a b - twRt R a b) / 2))), sq (R.rnd (Real.sqrt (R.rnd (twS R a b + twRt R a b) / 2)))]
    rw [show (twS R a b - twRt R a b) / 2 * ((twS R a b + twRt R a b) / 2) = (twS R a b * twS R a b - twRt R a b * twRt R a b) / 4 by ring] at hprod
    unfold Near at hprod nlo nhi hn
    rw [abs_of_pos (a := (1 + a ^ 2) / b + b) (by positivity)] at hn
    rw [abs_of_pos (a := (twS R a b - twRt R a b) / 2) (by linarith)] at nlo
    rw [abs_of_nonneg (a := (twS R a b + twRt R a b) / 2) (by linarith)] at nhi
    generalize R.rnd (Real.sqrt (R.rnd (twS R a b - twRt R a b) / 2)) * R.rnd (Real.sqrt (R.rnd (twS R a b - twRt R a b) / 2)) = lo at *
    generalize R.rnd (Real.sqrt (R.rnd (twS R a b + twRt R a b) / 2)) * R.rnd (Real.sqrt (R.rnd (twS R a b + twRt R a b) / 2)) = hi at *
    have u : (2 : ℝ) ^ (-53 : ℤ) = 1 / 9007199254740992 := by norm_num
    have u50 : (2 : ℝ) ^ (-50 : ℤ) = 8 * (1 / 9007199254740992) := by norm_num
    have u49 : (2 : ℝ) ^ (-49 : ℤ) = 16 * (1 / 9007199254740992) := by norm_num
    have hγS : 0 < (1 + a ^ 2) / b + b := by positivity
    rw [u50, u49]
    rw [u] at *
    generalize (1 + a ^ 2) / b + b = T at *
    generalize twS R a b * twS R a b - twRt R a b * twRt R a b = W at *
    generalize twS R a b = S at *
    generalize twRt R a b = t at *
    have w1 := abs_le.1 hsq
    have w4 : |W / 4| ≤ 1 + 3.03 * (1 / 9007199254740992) * T ^ 2 := by
      rw [abs_le]
      constructor <;> linarith [w1.1, w1.2]
    constructor
    · have h1 := abs_sub_le (lo * hi) (W / 4) 1
      have h2 : |W / 4 - 1| ≤ 3.03 * (1 / 9007199254740992) * T ^ 2 := by
        rw [abs_le]
        constructor <;> linarith [w1.1, w1.2]
      norm_num at hT
      nlinarith
    · have n1 := abs_le.1 nlo
      have n2 := abs_le.1 nhi
      have n3 := abs_le.1 hn
      rw [abs_le]
      constructor <;> linarith [n1.1, n1.2, n2.1, n2.2, n3.1, n3.2]
  rcases hfi with ⟨h1, h2, _⟩ | ⟨h1, h2, _⟩
  · rw [h1, h2]
    exact ⟨lo0, hi0, key.1, key.2, hcs⟩
  · rw [h1, h2]
    refine ⟨hi0, lo0, ?_, ?_, hcs⟩
    · rw [mul_comm]; exact key.1
    · rw [add_comm]; exact key.2

/-- `alpha = -1.5`, `beta = 10`. -/
example : (1 + (-3 / 2 : ℝ) ^ 2) / 10 + 10 ≤ 2 ^ 24 := by norm_num

end Verif.Ptcls
