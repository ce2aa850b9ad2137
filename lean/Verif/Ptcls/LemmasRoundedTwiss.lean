import Verif.Ptcls.RoundedTwiss
import Verif.Ptcls.PropsDesign
import Verif.Nonlinear.PropsRounded

/-!
# The Twiss transformation in double precision: steps of the computation
-/

namespace Verif.Ptcls

open Verif.Py Verif.Kinematic Verif.Nonlinear

variable (R : Rounding)

/-- `gammaII` as it is computed. -/
noncomputable def twG (a b : ℝ) : ℝ := R.rnd (R.rnd (1 + R.rnd (a * a)) / b)

/-- `gMinusB` as it is computed. -/
noncomputable def twD (a b : ℝ) : ℝ := R.rnd (twG R a b - b)

/-- `rt_fac` as it is computed. -/
noncomputable def twRt (a b : ℝ) : ℝ := R.rnd (Real.sqrt (R.rnd (R.rnd (twD R a b * twD R a b) + R.rnd (4 * R.rnd (a * a)))))

/-- `gammaII + betaII` as it is computed. -/
noncomputable def twS (a b : ℝ) : ℝ := R.rnd (twG R a b + b)

theorem rnd_half {x : ℝ} (h : IsFloat x) : R.rnd (1 / 2 * x) = x / 2 := by
  rw [one_div_mul_eq_div]
  exact R.fixed (isFloat_half h)

theorem rSqrt_nonneg {x : ℝ} (h : 0 ≤ x) : rSqrt R x = .ok (R.rnd (Real.sqrt x)) := if_neg (not_lt.2 h)

theorem twRt_ge (a b : ℝ) : |twD R a b| ≤ twRt R a b ∧ (a ≠ 0 → 0 < twRt R a b) := by
  have h4 : 0 ≤ R.rnd (4 * R.rnd (a * a)) := R.nonneg (mul_nonneg (by norm_num) (R.nonneg (mul_self_nonneg a)))
  have hd : 0 ≤ R.rnd (twD R a b * twD R a b) := R.nonneg (mul_self_nonneg _)
  constructor
  · have h1 := R.sqrt_sq (isFloat_abs (R.isFloat (twG R a b - b))) (abs_nonneg _)
    rw [abs_mul_abs_self] at h1
    change R.rnd (Real.sqrt (R.rnd (twD R a b * twD R a b))) = |twD R a b| at h1
    rw [← h1]
    unfold twRt
    refine R.mono (Real.sqrt_le_sqrt ?_)
    refine R.ge_of_ge (R.isFloat _) ?_
    linarith
  · intro ha
    have h5 : 0 < R.rnd (4 * R.rnd (a * a)) := R.pos (mul_pos (by norm_num) (R.pos (mul_self_pos.2 ha)))
    exact R.pos (Real.sqrt_pos.2 (R.pos (by linarith)))

theorem twRt_nonneg (a b : ℝ) : 0 ≤ twRt R a b := (abs_nonneg _).trans (twRt_ge R a b).1

/-- A relative error of the square root of a half. -/
theorem sq_near {x y : ℝ} (h : Near (2 ^ (-53 : ℤ)) x y) (hx : 0 ≤ x) : Near (4 * 2 ^ (-53 : ℤ)) (R.rnd (Real.sqrt x) * R.rnd (Real.sqrt x)) y := by
  have h1 : Near (1 * 2 ^ (-53 : ℤ)) (R.rnd (Real.sqrt x)) (Real.sqrt x) := ((Near.refl _).rnd R).weaken (by norm_num)
  have h2 := (h1.mul h1).weaken (ε' := 2.1 * 2 ^ (-53 : ℤ)) (by norm_num)
  rw [Real.mul_self_sqrt hx] at h2
  unfold Near at *
  have h3 := abs_sub_le (R.rnd (Real.sqrt x) * R.rnd (Real.sqrt x)) x y
  have h4 := Near.abs_le h
  have u : (2 : ℝ) ^ (-53 : ℤ) = 1 / 9007199254740992 := by norm_num
  rw [u] at h h2 h4 ⊢
  nlinarith [abs_nonneg y]

theorem near_rnd (x : ℝ) : Near (2 ^ (-53 : ℤ)) (R.rnd x) x := ((Near.refl x).rnd R).weaken (by norm_num)

/-- Whether the coefficients exist, and what they are. -/
theorem coeffs_ok {a b : ℝ} (hb : 0 < b) (h : twRt R a b ≤ twS R a b) : ∃ k, rCoeffs R a b = .ok k ∧
    ((k.fac = R.rnd (Real.sqrt (R.rnd (twS R a b - twRt R a b) / 2)) ∧ k.inv = R.rnd (Real.sqrt (R.rnd (twS R a b + twRt R a b) / 2)) ∧ 0 ≤ twD R a b) ∨
      (k.inv = R.rnd (Real.sqrt (R.rnd (twS R a b - twRt R a b) / 2)) ∧ k.fac = R.rnd (Real.sqrt (R.rnd (twS R a b + twRt R a b) / 2)) ∧ twD R a b < 0)) ∧
    |k.cos ^ 2 + k.sin ^ 2 - 1| ≤ 2 ^ (-50 : ℤ) ∧ (a = 0 → k.sin = 0 ∧ k.cos = 1) := by
  have hrt := twRt_nonneg R a b
  have hw : 0 ≤ R.rnd (R.rnd (twD R a b * twD R a b) + R.rnd (4 * R.rnd (a * a))) := R.nonneg
    (add_nonneg (R.nonneg (mul_self_nonneg _)) (R.nonneg (mul_nonneg (by norm_num) (R.nonneg (mul_self_nonneg a)))))
  have e1 : rSqrt R (R.rnd (R.rnd (twD R a b * twD R a b) + R.rnd (4 * R.rnd (a * a)))) = .ok (twRt R a b) := rSqrt_nonneg R hw
  have e2 : rSqrt R (R.rnd (1 / 2 * R.rnd (twS R a b - twRt R a b))) = .ok (R.rnd (Real.sqrt (R.rnd (twS R a b - twRt R a b) / 2))) := by
    rw [rnd_half R (R.isFloat _)]
    exact rSqrt_nonneg R (by have := R.nonneg (sub_nonneg.2 h); linarith)
  have e3 : rSqrt R (R.rnd (1 / 2 * R.rnd (twS R a b + twRt R a b))) = .ok (R.rnd (Real.sqrt (R.rnd (twS R a b + twRt R a b) / 2))) := by
    rw [rnd_half R (R.isFloat _)]
    exact rSqrt_nonneg R (by have := R.nonneg (add_nonneg (hrt.trans h) hrt); linarith)
  have hq0 : 0 ≤ R.rnd (|twD R a b| / twRt R a b) := R.nonneg (div_nonneg (abs_nonneg _) hrt)
  have hq1 : R.rnd (|twD R a b| / twRt R a b) ≤ 1 := R.le_of_le isFloat_one (div_le_one_of_le₀ (twRt_ge R a b).1 hrt)
  generalize hqq : R.rnd (|twD R a b| / twRt R a b) = q at hq0 hq1
  have e4 : rSqrt R (R.rnd (1 / 2 * R.rnd (1 - q))) = .ok (R.rnd (Real.sqrt (R.rnd (1 - q) / 2))) := by
    rw [rnd_half R (R.isFloat _)]
    exact rSqrt_nonneg R (by have := R.nonneg (sub_nonneg.2 hq1); linarith)
  have e5 : rSqrt R (R.rnd (1 / 2 * R.rnd (1 + q))) = .ok (R.rnd (Real.sqrt (R.rnd (1 + q) / 2))) := by
    rw [rnd_half R (R.isFloat _)]
    exact rSqrt_nonneg R (by have := R.nonneg (add_nonneg zero_le_one hq0); linarith)
  have hcs : |R.rnd (Real.sqrt (R.rnd (1 + q) / 2)) ^ 2 + R.rnd (Real.sqrt (R.rnd (1 - q) / 2)) ^ 2 - 1| ≤ 2 ^ (-50 : ℤ) := by
    have n1 : Near (2 ^ (-53 : ℤ)) (R.rnd (1 + q) / 2) ((1 + q) / 2) := by
      have := near_rnd R (1 + q)
      unfold Near at *
      rw [← sub_div, abs_div, abs_div, abs_of_pos (by norm_num : (0 : ℝ) < 2), ← mul_div_assoc]
      exact div_le_div_of_nonneg_right this (by norm_num)
    have n2 : Near (2 ^ (-53 : ℤ)) (R.rnd (1 - q) / 2) ((1 - q) / 2) := by
      have := near_rnd R (1 - q)
      unfold Near at *
      rw [← sub_div, abs_div, abs_div, abs_of_pos (by norm_num : (0 : ℝ) < 2), ← mul_div_assoc]
      exact div_le_div_of_nonneg_right this (by norm_num)
    have m1 := sq_near R n1 (by have := R.nonneg (add_nonneg zero_le_one hq0); linarith)
    have m2 := sq_near R n2 (by have := R.nonneg (sub_nonneg.2 hq1); linarith)
    unfold Near at m1 m2
    rw [abs_of_nonneg (a := (1 + q) / 2) (by linarith)] at m1
    rw [abs_of_nonneg (a := (1 - q) / 2) (by linarith)] at m2
    rw [sq, sq]
    have m3 := (abs_add_le _ _).trans (add_le_add m1 m2)
    rw [show R.rnd (Real.sqrt (R.rnd (1 + q) / 2)) * R.rnd (Real.sqrt (R.rnd (1 + q) / 2)) - (1 + q) / 2 +
      (R.rnd (Real.sqrt (R.rnd (1 - q) / 2)) * R.rnd (Real.sqrt (R.rnd (1 - q) / 2)) - (1 - q) / 2) =
      R.rnd (Real.sqrt (R.rnd (1 + q) / 2)) * R.rnd (Real.sqrt (R.rnd (1 + q) / 2)) +
        R.rnd (Real.sqrt (R.rnd (1 - q) / 2)) * R.rnd (Real.sqrt (R.rnd (1 - q) / 2)) - 1 by ring] at m3
    refine m3.trans ?_
    norm_num
    linarith
  have key : rCoeffs R a b = (if a = 0 then .ok ⟨(if 0 ≤ twD R a b then (R.rnd (Real.sqrt (R.rnd (twS R a b - twRt R a b) / 2)),
        R.rnd (Real.sqrt (R.rnd (twS R a b + twRt R a b) / 2))) else (R.rnd (Real.sqrt (R.rnd (twS R a b + twRt R a b) / 2)),
        R.rnd (Real.sqrt (R.rnd (twS R a b - twRt R a b) / 2)))).1, (if 0 ≤ twD R a b then (R.rnd (Real.sqrt (R.rnd (twS R a b - twRt R a b) / 2)),
        R.rnd (Real.sqrt (R.rnd (twS R a b + twRt R a b) / 2))) else (R.rnd (Real.sqrt (R.rnd (twS R a b + twRt R a b) / 2)),
        R.rnd (Real.sqrt (R.rnd (twS R a b - twRt R a b) / 2)))).2, 0, 1⟩
      else if twRt R a b = 0 then .error .zeroDivisionError
      else .ok ⟨(if 0 ≤ twD R a b then (R.rnd (Real.sqrt (R.rnd (twS R a b - twRt R a b) / 2)),
        R.rnd (Real.sqrt (R.rnd (twS R a b + twRt R a b) / 2))) else (R.rnd (Real.sqrt (R.rnd (twS R a b + twRt R a b) / 2)),
        R.rnd (Real.sqrt (R.rnd (twS R a b - twRt R a b) / 2)))).1, (if 0 ≤ twD R a b then (R.rnd (Real.sqrt (R.rnd (twS R a b - twRt R a b) / 2)),
        R.rnd (Real.sqrt (R.rnd (twS R a b + twRt R a b) / 2))) else (R.rnd (Real.sqrt (R.rnd (twS R a b + twRt R a b) / 2)),
        R.rnd (Real.sqrt (R.rnd (twS R a b - twRt R a b) / 2)))).2,
        if a * twD R a b < 0 then -R.rnd (Real.sqrt (R.rnd (1 - q) / 2)) else R.rnd (Real.sqrt (R.rnd (1 - q) / 2)), R.rnd (Real.sqrt (R.rnd (1 + q) / 2))⟩) := by
    unfold rCoeffs
    rw [if_neg hb.ne']
    change (do
      let rt ← rSqrt R (R.rnd (R.rnd (twD R a b * twD R a b) + R.rnd (4 * R.rnd (a * a))))
      let lo ← rSqrt R (R.rnd (1 / 2 * R.rnd (twS R a b - rt)))
      let hi ← rSqrt R (R.rnd (1 / 2 * R.rnd (twS R a b + rt)))
      let (fac, inv) := if 0 ≤ twD R a b then (lo, hi) else (hi, lo)
      if a = 0 then .ok ⟨fac, inv, 0, 1⟩
      else if rt = 0 then .error .zeroDivisionError
      else do
        let s ← rSqrt R (R.rnd (1 / 2 * R.rnd (1 - R.rnd (|twD R a b| / rt))))
        let c ← rSqrt R (R.rnd (1 / 2 * R.rnd (1 + R.rnd (|twD R a b| / rt))))
        .ok ⟨fac, inv, if a * twD R a b < 0 then -s else s, c⟩ : Except PyErr Coeffs) = _
    rw [e1]
    simp only [bind, Except.bind]
    rw [e2, e3]
    simp only [hqq, e4, e5]
  rw [key]
  by_cases ha : a = 0
  · rw [if_pos ha]
    refine ⟨_, rfl, ?_, by norm_num, fun _ => ⟨rfl, rfl⟩⟩
    by_cases hd : 0 ≤ twD R a b
    · exact Or.inl ⟨by simp only [if_pos hd], by simp only [if_pos hd], hd⟩
    · exact Or.inr ⟨by simp only [if_neg hd], by simp only [if_neg hd], not_le.1 hd⟩
  · rw [if_neg ha, if_neg ((twRt_ge R a b).2 ha).ne']
    refine ⟨_, rfl, ?_, ?_, fun h => absurd h ha⟩
    · by_cases hd : 0 ≤ twD R a b
      · exact Or.inl ⟨by simp only [if_pos hd], by simp only [if_pos hd], hd⟩
      · exact Or.inr ⟨by simp only [if_neg hd], by simp only [if_neg hd], not_le.1 hd⟩
    · simp only
      by_cases hs : a * twD R a b < 0
      · rw [if_pos hs, neg_sq]; exact hcs
      · rw [if_neg hs]; exact hcs

/-- The square root of a negative number. -/
theorem coeffs_error {a b : ℝ} (hb : 0 < b) (h : twS R a b < twRt R a b) : rCoeffs R a b = .error .valueError := by
  have hw : 0 ≤ R.rnd (R.rnd (twD R a b * twD R a b) + R.rnd (4 * R.rnd (a * a))) := R.nonneg
    (add_nonneg (R.nonneg (mul_self_nonneg _)) (R.nonneg (mul_nonneg (by norm_num) (R.nonneg (mul_self_nonneg a)))))
  have e1 : rSqrt R (R.rnd (R.rnd (twD R a b * twD R a b) + R.rnd (4 * R.rnd (a * a)))) = .ok (twRt R a b) := rSqrt_nonneg R hw
  have e2 : rSqrt R (R.rnd (1 / 2 * R.rnd (twS R a b - twRt R a b))) = .error .valueError := by
    rw [rnd_half R (R.isFloat _)]
    refine if_pos ?_
    have := R.pos (sub_pos.2 h)
    rw [← neg_sub, R.odd] at this
    linarith
  unfold rCoeffs
  rw [if_neg hb.ne']
  change (do
    let rt ← rSqrt R (R.rnd (R.rnd (twD R a b * twD R a b) + R.rnd (4 * R.rnd (a * a))))
    let lo ← rSqrt R (R.rnd (1 / 2 * R.rnd (twS R a b - rt)))
    let hi ← rSqrt R (R.rnd (1 / 2 * R.rnd (twS R a b + rt)))
    let (fac, inv) := if 0 ≤ twD R a b then (lo, hi) else (hi, lo)
    if a = 0 then .ok ⟨fac, inv, 0, 1⟩
    else if rt = 0 then .error .zeroDivisionError
    else do
      let s ← rSqrt R (R.rnd (1 / 2 * R.rnd (1 - R.rnd (|twD R a b| / rt))))
      let c ← rSqrt R (R.rnd (1 / 2 * R.rnd (1 + R.rnd (|twD R a b| / rt))))
      .ok ⟨fac, inv, if a * twD R a b < 0 then -s else s, c⟩ : Except PyErr Coeffs) = _
  rw [e1]
  simp only [bind, Except.bind]
  rw [e2]

/-- The computed `gammaII` and the sum. -/
theorem twG_near {a b : ℝ} : Near (3.1 * 2 ^ (-53 : ℤ)) (twG R a b) ((1 + a ^ 2) / b) := by
  have h1 := (near_rnd R (a * a)).one_add (mul_self_nonneg a) (by positivity)
  have h2 := (h1.rnd R).weaken (ε' := 2.05 * 2 ^ (-53 : ℤ)) (by norm_num)
  have h3 := ((h2.mul (Near.refl (1 / b))).rnd R).weaken (ε' := 3.1 * 2 ^ (-53 : ℤ)) (by norm_num)
  rw [mul_one_div, mul_one_div, ← sq] at h3
  unfold twG
  rwa [← sq]

end Verif.Ptcls
