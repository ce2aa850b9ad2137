import Verif.Kinematic.PropsFast
import Verif.Py.Near

/-!
# Accuracy of rounded kinematics (C140)
-/

namespace Verif.Kinematic

open Verif.Py

variable (R : Rounding)

/-- The velocity is accurate for all momenta. -/
theorem rNormal_near {n n' : ℝ} (h : Near (2.1 * 2 ^ (-53 : ℤ)) n' n) : Near (7.5 * 2 ^ (-53 : ℤ)) (rNormal R n') (n / Real.sqrt (1 + n * n)) := by
  have h1 : Near (5.3 * 2 ^ (-53 : ℤ)) (R.rnd (n' * n')) (n * n) := ((h.mul h).rnd R).weaken (by norm_num)
  have h0 : 0 ≤ R.rnd (n' * n') := R.nonneg (mul_self_nonneg _)
  have h2 : Near (6.4 * 2 ^ (-53 : ℤ)) (R.rnd (1 + R.rnd (n' * n'))) (1 + n * n) :=
    ((h1.one_add (mul_self_nonneg n) (by norm_num)).rnd R).weaken (by norm_num)
  have hp : 0 < 1 + n * n := by nlinarith [mul_self_nonneg n]
  have h3 : Near (4.3 * 2 ^ (-53 : ℤ)) (R.rnd (Real.sqrt (R.rnd (1 + R.rnd (n' * n'))))) (Real.sqrt (1 + n * n)) :=
    ((h2.sqrt (R.nonneg (by linarith)) hp (by norm_num)).rnd R).weaken (by norm_num)
  have h4 := h.mul (h3.inv (by norm_num) (Real.sqrt_pos.2 hp).ne')
  rw [mul_one_div, mul_one_div] at h4
  exact (h4.rnd R).weaken (by norm_num)

/-- `gamma` is accurate as long as it is not too large. -/
theorem rGamma_near {n b : ℝ} (hb : Near (7.5 * 2 ^ (-53 : ℤ)) b (n / Real.sqrt (1 + n * n))) (hn : 1 + n * n ≤ 2 ^ 46) :
    ∃ g, rGamma R b = .num g ∧ Near (14 * 2 ^ (-53 : ℤ) * (1 + n * n)) g (Real.sqrt (1 + n * n)) := by
  have hp : 0 < 1 + n * n := by nlinarith [mul_self_nonneg n]
  have hp1 : 1 ≤ 1 + n * n := by nlinarith [mul_self_nonneg n]
  have h1 : Near (16.1 * 2 ^ (-53 : ℤ)) (R.rnd (b * b)) (n * n / (1 + n * n)) := by
    have := ((hb.mul hb).rnd R).weaken (ε' := 16.1 * 2 ^ (-53 : ℤ)) (by norm_num)
    rwa [div_mul_div_comm, Real.mul_self_sqrt hp.le] at this
  generalize hG : 1 + n * n = G at hn hp hp1 h1 ⊢
  have hu : (2 : ℝ) ^ (-53 : ℤ) = 1 / 9007199254740992 := by norm_num
  have hnG : n * n = G - 1 := by linarith
  have hz1 : (1 : ℝ) / 9007199254740992 ≤ 1 / 9007199254740992 * G := by nlinarith
  have hz2 : 1 / 9007199254740992 * G ≤ 1 / 128 := by norm_num at hn ⊢; linarith
  -- the difference
  have h2 : Near (16.1 * (2 ^ (-53 : ℤ) * G)) (1 - R.rnd (b * b)) (1 / G) := by
    unfold Near at h1 ⊢
    rw [hnG, abs_of_nonneg (a := (G - 1) / G) (by apply div_nonneg <;> linarith)] at h1
    rw [show (1 - R.rnd (b * b)) - 1 / G = -(R.rnd (b * b) - (G - 1) / G) by field_simp; ring, abs_neg, abs_of_pos (show 0 < 1 / G by positivity)]
    refine h1.trans ?_
    rw [mul_assoc, mul_assoc, mul_assoc]
    refine mul_le_mul_of_nonneg_left ?_ (by norm_num)
    refine mul_le_mul_of_nonneg_left ?_ (by norm_num)
    rw [mul_one_div, div_self hp.ne', div_le_one hp]
    linarith
  rw [hu] at h2 ⊢
  rw [show (14 : ℝ) * (1 / 9007199254740992) * G = 14 * (1 / 9007199254740992 * G) by ring]
  generalize (1 : ℝ) / 9007199254740992 * G = z at hz1 hz2 h2 ⊢
  have hz0 : 0 < z := lt_of_lt_of_le (by norm_num) hz1
  have hG' : 0 < 1 / G := by positivity
  have hD : 0 < 1 - R.rnd (b * b) := by
    unfold Near at h2
    rw [abs_of_pos hG', abs_le] at h2
    nlinarith [h2.1]
  have h3 : Near (17.3 * z) (R.rnd (1 - R.rnd (b * b))) (1 / G) := (h2.rnd R).weaken (by rw [hu]; nlinarith)
  have h4 : Near (9.28 * z) (Real.sqrt (R.rnd (1 - R.rnd (b * b)))) (Real.sqrt (1 / G)) :=
    (h3.sqrt (R.nonneg hD.le) hG' (by linarith)).weaken (by rw [div_le_iff₀ (by linarith)]; nlinarith)
  have h5 : Near (10.4 * z) (R.rnd (Real.sqrt (R.rnd (1 - R.rnd (b * b))))) (Real.sqrt (1 / G)) :=
    (h4.rnd R).weaken (by rw [hu]; nlinarith)
  have h6 : Near (11.33 * z) (1 / R.rnd (Real.sqrt (R.rnd (1 - R.rnd (b * b))))) (1 / Real.sqrt (1 / G)) :=
    (h5.inv (by linarith) (Real.sqrt_pos.2 hG').ne').weaken (by rw [div_le_iff₀ (by linarith)]; nlinarith)
  have h7 : Near (14 * z) (R.rnd (1 / R.rnd (Real.sqrt (R.rnd (1 - R.rnd (b * b)))))) (Real.sqrt G) := by
    have := (h6.rnd R).weaken (ε' := 14 * z) (by rw [hu]; nlinarith)
    rwa [Real.sqrt_div zero_le_one, Real.sqrt_one, one_div_one_div] at this
  have hD' : 0 < R.rnd (1 - R.rnd (b * b)) := R.pos hD
  have hq : 0 < R.rnd (Real.sqrt (R.rnd (1 - R.rnd (b * b)))) := R.pos (Real.sqrt_pos.2 hD')
  exact ⟨_, by rw [rGamma, rsqrt, if_neg (not_lt.2 hD'.le), FVal.recip, if_neg hq.ne'], h7⟩

theorem near_one (x : ℝ) : Near (2.1 * 2 ^ (-53 : ℤ)) (R.rnd x) x := ((Near.refl x).rnd R).weaken (by norm_num)

/-- What is computed first from a momentum. -/
theorem rStart_perMass {c m : ℝ} (hm0 : 0 < m) {q : Quantity} {v n : ℝ} (hq : perMass c m q v = some n) :
    ∃ n', Near (2.1 * 2 ^ (-53 : ℤ)) n' n ∧ rStart R c m q v = .ok (.num (rNormal R n'), rGamma R (rNormal R n')) := by
  cases q <;> simp only [perMass, Option.some.injEq, reduceCtorEq] at hq <;> subst hq <;>
    simp only [rStart, rDiv, hm0.ne', if_false, bind, Except.bind]
  · exact ⟨_, near_one R _, rfl⟩
  · exact ⟨_, (Near.refl _).weaken (by norm_num), rfl⟩
  · refine ⟨_, ?_, rfl⟩
    have h1 := (((Near.refl (v * c)).rnd R).mul (Near.refl (1 / m))).rnd R
    rw [mul_one_div, mul_one_div] at h1
    exact h1.weaken (by norm_num)

/-- **C140, moderate momenta.** For momenta of up to `2 ^ 22` masses, given in any of the three ways, the relative error of the velocity is at most
`2 ^ -49`, and that of `gamma`, the energy, the momentum, `beta * gamma` and `B rho` is at most `2 ^ -48` times the square of `gamma`. Missing: larger
momenta (`fast_fails`) and the relative error of the kinetic energy (`slow_fails`). -/
theorem fast_partial {c m : ℝ} (hm0 : 0 < m) {q : Quantity} {v n : ℝ} (hq : perMass c m q v = some n) (hn : |n| ≤ 2 ^ 22) :
    ∃ o w g en p bg br, rCall R c m q v = .ok o ∧ o .velocity = .num w ∧ Near (2 ^ (-49 : ℤ)) w (c * (n / Real.sqrt (1 + n ^ 2))) ∧
      o .gamma = .num g ∧ Near (2 ^ (-48 : ℤ) * (1 + n ^ 2)) g (Real.sqrt (1 + n ^ 2)) ∧
      o .energy = .num en ∧ Near (2 ^ (-48 : ℤ) * (1 + n ^ 2)) en (m * Real.sqrt (1 + n ^ 2)) ∧
      o .momentum = .num p ∧ Near (2 ^ (-48 : ℤ) * (1 + n ^ 2)) p (m * n) ∧
      o .betagamma = .num bg ∧ Near (2 ^ (-48 : ℤ) * (1 + n ^ 2)) bg n ∧
      o .brho = .num br ∧ Near (2 ^ (-48 : ℤ) * (1 + n ^ 2)) br (m * n / c) := by
  obtain ⟨n', h1, h2⟩ := rStart_perMass R hm0 hq
  have hb := rNormal_near R h1
  have hn2 : n * n ≤ 2 ^ 44 := by
    rw [← abs_mul_abs_self]
    have := mul_le_mul hn hn (abs_nonneg n) (by positivity)
    norm_num at this ⊢
    exact this
  obtain ⟨g, hg, hgn⟩ := rGamma_near R hb (by norm_num at hn2 ⊢; linarith)
  have hp : 0 < 1 + n * n := by nlinarith [mul_self_nonneg n]
  have hp1 : 1 ≤ 1 + n * n := by nlinarith [mul_self_nonneg n]
  have hs := Real.sqrt_pos.2 hp
  simp only [sq]
  have hmul : n / Real.sqrt (1 + n * n) * Real.sqrt (1 + n * n) = n := by field_simp
  have hu : (2 : ℝ) ^ (-53 : ℤ) = 1 / 9007199254740992 := by norm_num
  have hu' : (2 : ℝ) ^ (-48 : ℤ) = 32 * (1 / 9007199254740992) := by norm_num
  have hbg := (hb.mul hgn).rnd R
  rw [hmul] at hbg
  have hG : 1 + n * n ≤ 2 ^ 45 := by norm_num at hn2 ⊢; linarith
  generalize hGG : 1 + n * n = G at *
  have hz1 : (1 : ℝ) / 9007199254740992 ≤ 1 / 9007199254740992 * G := by nlinarith
  have hz2 : 1 / 9007199254740992 * G ≤ 1 / 256 := by norm_num at hG ⊢; linarith
  rw [hu, mul_assoc] at hgn
  rw [hu, mul_assoc 14] at hbg
  refine ⟨_, _, _, _, _, _, _, by rw [rCall, h2, hg]; rfl, rfl, ?_, rfl, ?_, rfl, ?_, rfl, ?_, rfl, ?_, rfl, ?_⟩
  · exact ((Near.refl c).mul hb |>.rnd R).weaken (by norm_num)
  · rw [hu', mul_assoc]
    generalize (1 : ℝ) / 9007199254740992 * G = z at *
    exact hgn.weaken (by linarith)
  · rw [hu', mul_assoc]
    generalize (1 : ℝ) / 9007199254740992 * G = z at *
    exact ((Near.refl m).mul hgn |>.rnd R).weaken (by rw [hu]; nlinarith)
  · rw [hu', mul_assoc]
    generalize (1 : ℝ) / 9007199254740992 * G = z at *
    exact ((Near.refl m).mul hbg |>.rnd R).weaken (by rw [hu]; nlinarith)
  · rw [hu', mul_assoc]
    generalize (1 : ℝ) / 9007199254740992 * G = z at *
    exact hbg.weaken (by nlinarith)
  · rw [hu', mul_assoc]
    generalize (1 : ℝ) / 9007199254740992 * G = z at *
    have h3 := (((Near.refl m).mul hbg |>.rnd R).mul (Near.refl (1 / c))).rnd R
    rw [mul_one_div _ c, mul_one_div _ c] at h3
    exact h3.weaken (by rw [hu]; nlinarith)

/-- An electron of 10 GeV. -/
example : perMass 299792458 511000 .momentum 10000000000 = some (10000000000 / 511000) ∧ |(10000000000 : ℝ) / 511000| ≤ 2 ^ 22 := by
  refine ⟨rfl, ?_⟩
  rw [abs_of_pos (by norm_num)]
  norm_num

/-- Up to `2 ^ 25` the quotient stays below 1. -/
theorem rNormal_lt {n : ℝ} (h : |n| ≤ 2 ^ (25 : ℤ)) : |rNormal R n| < 1 := by
  have hn : |n| * |n| ≤ 2 ^ (50 : ℤ) := by
    have := mul_le_mul h h (abs_nonneg n) (by positivity)
    norm_num at this ⊢
    linarith
  have e1 := R.error (n * n)
  rw [← abs_mul_abs_self n] at e1
  rw [abs_of_nonneg (mul_self_nonneg |n|), abs_le] at e1
  have e2 := R.error (1 + R.rnd (|n| * |n|))
  have hs0 := R.nonneg (mul_self_nonneg |n|)
  rw [abs_of_pos (show 0 < 1 + R.rnd (|n| * |n|) by linarith), abs_le] at e2
  have hq1 := R.error (Real.sqrt (R.rnd (1 + R.rnd (|n| * |n|))))
  rw [abs_of_nonneg (Real.sqrt_nonneg _), abs_le] at hq1
  have hx0 := abs_nonneg n
  have ht : (|n| * (1 + 2.9 * 2 ^ (-53 : ℤ))) ^ 2 ≤ R.rnd (1 + R.rnd (|n| * |n|)) := by
    generalize |n| = x at *
    generalize R.rnd (1 + R.rnd (x * x)) = t at *
    generalize R.rnd (x * x) = s at *
    norm_num at hn e1 e2 ⊢
    rw [mul_pow, sq x]
    nlinarith [e1.1, e2.1]
  have hq : |n| * (1 + 2.9 * 2 ^ (-53 : ℤ)) ≤ Real.sqrt (R.rnd (1 + R.rnd (|n| * |n|))) := Real.le_sqrt_of_sq_le ht
  have hq0 : 0 < R.rnd (Real.sqrt (R.rnd (1 + R.rnd (|n| * |n|)))) := R.pos (Real.sqrt_pos.2 (R.pos (by linarith)))
  have hb : |n| ≤ (1 - 2 ^ (-53 : ℤ)) * R.rnd (Real.sqrt (R.rnd (1 + R.rnd (|n| * |n|)))) := by
    generalize R.rnd (Real.sqrt (R.rnd (1 + R.rnd (|n| * |n|)))) = q at *
    generalize Real.sqrt (R.rnd (1 + R.rnd (|n| * |n|))) = r at *
    norm_num at hq hq1 ⊢
    linarith [hq1.1]
  have hf : IsFloat (1 - 2 ^ (-53 : ℤ)) := ⟨2 ^ 53 - 1, -53, by norm_num, by push_cast; norm_num⟩
  refine lt_of_le_of_lt (b := 1 - 2 ^ (-53 : ℤ)) (abs_rnd_le R hf (isFloat_neg hf) ?_) (by norm_num)
  rw [← abs_mul_abs_self n, abs_div, abs_of_pos hq0, div_le_iff₀ hq0]
  exact hb

/-- **C140, finite results.** For momenta of up to `2 ^ 25` masses, given in any of the three ways, the velocity is below `c` (in units of `c`) and no
result is infinite. Missing for an exact limit: momenta between `2 ^ 25` and `2 ^ 27` masses. -/
theorem fast_finite {c m : ℝ} (hm : IsFloat m) (hm0 : 0 < m) {q : Quantity} {v n : ℝ} (hq : perMass c m q v = some n)
    (hn : |n| ≤ 2 ^ 25) :
    ∃ o b, rCall R c m q v = .ok o ∧ o .beta = .num b ∧ |b| < 1 ∧ ∀ x, ∃ y, o x = .num y := by
  have hn' : |n| ≤ (2 : ℝ) ^ (25 : ℤ) := by exact_mod_cast hn
  have key : ∀ n', |n'| ≤ (2 : ℝ) ^ (25 : ℤ) → ∃ g, rGamma R (rNormal R n') = .num g ∧ |rNormal R n'| < 1 := by
    intro n' h
    have hb := rNormal_lt R h
    rcases rGamma_cases R (b := rNormal R n') (R.isFloat _) hb.le with ⟨_, h1⟩ | ⟨g, h1, _⟩
    · linarith
    · exact ⟨g, h1, hb⟩
  have hr : ∀ x : ℝ, |x| ≤ (2 : ℝ) ^ (25 : ℤ) → |R.rnd x| ≤ (2 : ℝ) ^ (25 : ℤ) := fun x h =>
    abs_rnd_le R (isFloat_zpow _) (isFloat_neg (isFloat_zpow _)) h
  obtain ⟨b, g, hs, hb⟩ : ∃ b g, rStart R c m q v = .ok (.num b, .num g) ∧ |b| < 1 := by
    cases q <;> simp only [perMass, Option.some.injEq, reduceCtorEq] at hq <;> subst hq <;>
      simp only [rStart, rDiv, hm0.ne', if_false, bind, Except.bind]
    · obtain ⟨g, h1, h2⟩ := key _ (hr _ hn')
      exact ⟨_, g, by rw [h1], h2⟩
    · obtain ⟨g, h1, h2⟩ := key _ hn'
      exact ⟨_, g, by rw [h1], h2⟩
    · have hf : IsFloat (m * 2 ^ (25 : ℤ)) := by
        obtain ⟨a, e, h1, rfl⟩ := hm
        exact ⟨a, e + 25, h1, by rw [zpow_add₀ (by norm_num)]; ring⟩
      have h3 : |R.rnd (v * c)| ≤ m * 2 ^ (25 : ℤ) := by
        refine abs_rnd_le R hf (isFloat_neg hf) ?_
        rw [abs_div, abs_of_pos hm0, div_le_iff₀ hm0] at hn'
        linarith
      obtain ⟨g, h1, h2⟩ := key _ (hr (R.rnd (v * c) / m) (by
        rw [abs_div, abs_of_pos hm0, div_le_iff₀ hm0]; linarith))
      exact ⟨_, g, by rw [h1], h2⟩
  refine ⟨_, b, by rw [rCall, hs]; rfl, rfl, hb, ?_⟩
  intro x
  cases x <;> exact ⟨_, rfl⟩

end Verif.Kinematic
