import Verif.Ptcls.RoundedMoments
import Verif.Py.TiesEven
import Verif.Py.Near

/-!
# Claim C154: Twiss parameters from moments in double precision
-/

namespace Verif.Ptcls

open Verif.Py

variable (R : Rounding)

theorem rnd_nonpos_iff (x : ℝ) : R.rnd x ≤ 0 ↔ x ≤ 0 := by
  constructor
  · intro h
    by_contra hx
    exact absurd (R.pos (not_le.1 hx)) (not_lt.2 h)
  · exact fun h => R.le_of_le isFloat_zero h

/-- **C154, exact condition.** A plane is refused if and only if the rounded products are in this order. -/
theorem moments_refused_iff (s11 s12 s21 s22 : ℝ) :
    rTwissPlane R s11 s12 s21 s22 = .error .exception ↔ R.rnd (s11 * s22) ≤ R.rnd (s12 * s21) := by
  rw [← sub_nonpos, ← rnd_nonpos_iff R, ← rEmitSq, rTwissPlane]
  by_cases h : rEmitSq R s11 s12 s21 s22 ≤ 0 <;> simp [h]

/-- **C154 for beams that are not too tilted.** If `K` bounds `1 + alpha^2` and is at most `2^40`, no plane is refused; the emittance and
the Twiss parameters are right up to a relative error of `K 2^-48`. -/
theorem moments_rounded_partial (s11 s12 s22 K : ℝ) (h11 : 0 < s11) (hK : s11 * s22 ≤ K * (s11 * s22 - s12 ^ 2)) (hK' : K ≤ 2 ^ (40 : ℤ))
    (hD : 0 < s11 * s22 - s12 ^ 2) :
    ∃ alpha beta emit, rTwissPlane R s11 s12 s12 s22 = .ok (alpha, beta, emit) ∧ 0 < emit ∧ 0 < beta ∧
      |emit - √(s11 * s22 - s12 ^ 2)| ≤ K * 2 ^ (-48 : ℤ) * √(s11 * s22 - s12 ^ 2) ∧
      |beta - s11 / √(s11 * s22 - s12 ^ 2)| ≤ K * 2 ^ (-48 : ℤ) * (s11 / √(s11 * s22 - s12 ^ 2)) ∧
      |alpha - -s12 / √(s11 * s22 - s12 ^ 2)| ≤ K * 2 ^ (-48 : ℤ) * |-s12 / √(s11 * s22 - s12 ^ 2)| := by
  obtain ⟨D, hDe⟩ : ∃ D, D = s11 * s22 - s12 ^ 2 := ⟨_, rfl⟩
  rw [← hDe] at hK hD ⊢
  have hQ : 0 ≤ s12 ^ 2 := sq_nonneg _
  have hP : 0 < s11 * s22 := by linarith
  have hK1 : 1 ≤ K := by
    by_contra h
    have : K * D < D := by nlinarith
    linarith
  have e1 := R.error (s11 * s22)
  have e2 := R.error (s12 * s12)
  rw [abs_of_pos hP] at e1
  rw [show s12 * s12 = s12 ^ 2 by ring, abs_of_nonneg hQ] at e2
  have n1 : Near (K * 2 ^ (-52 : ℤ)) (R.rnd (s11 * s22) - R.rnd (s12 ^ 2)) D := by
    unfold Near
    rw [abs_of_pos hD]
    have h1 : s12 ^ 2 ≤ K * D := by linarith
    rw [abs_le] at e1 e2 ⊢
    norm_num at e1 e2 ⊢
    constructor <;> nlinarith
  have n2 : Near (K * 2 ^ (-51 : ℤ)) (rEmitSq R s11 s12 s12 s22) D := by
    unfold rEmitSq
    rw [show s12 * s12 = s12 ^ 2 by ring]
    refine (n1.rnd R).weaken ?_
    norm_num at hK' ⊢
    nlinarith
  have hpos : 0 < rEmitSq R s11 s12 s12 s22 := by
    have := n2.le_abs
    unfold Near at n2
    rw [abs_of_pos hD] at n2
    have h1 := (abs_le.1 n2).1
    norm_num at h1 hK'
    nlinarith
  have n3 : Near (K * 2 ^ (-51 : ℤ)) (√(rEmitSq R s11 s12 s12 s22)) √D := by
    refine (n2.sqrt hpos.le hD (by norm_num at hK' ⊢; linarith)).weaken ?_
    rw [div_le_iff₀ (by norm_num at hK' ⊢; linarith)]
    norm_num at hK' ⊢
    nlinarith
  have n4 : Near (K * 2 ^ (-50 : ℤ)) (R.rnd √(rEmitSq R s11 s12 s12 s22)) √D := by
    refine (n3.rnd R).weaken ?_
    norm_num at hK' ⊢
    nlinarith
  have hsq : 0 < √D := Real.sqrt_pos.2 hD
  have hem : 0 < R.rnd √(rEmitSq R s11 s12 s12 s22) := R.pos (Real.sqrt_pos.2 hpos)
  have n5 : Near (K * 2 ^ (-49 : ℤ)) (1 / R.rnd √(rEmitSq R s11 s12 s12 s22)) (1 / √D) := by
    refine (n4.inv (by norm_num at hK' ⊢; linarith) hsq.ne').weaken ?_
    rw [div_le_iff₀ (by norm_num at hK' ⊢; linarith)]
    norm_num at hK' ⊢
    nlinarith
  have quot : ∀ x : ℝ, Near (K * 2 ^ (-48 : ℤ)) (R.rnd (x / R.rnd √(rEmitSq R s11 s12 s12 s22))) (x / √D) := by
    intro x
    have := ((Near.refl x).mul n5).rnd R
    rw [← mul_div_assoc, ← mul_div_assoc, mul_one] at this
    refine this.weaken ?_
    norm_num at hK' ⊢
    nlinarith
  refine ⟨_, _, _, by rw [rTwissPlane, if_neg (not_le.2 hpos)], hem, R.pos (div_pos h11 hem), ?_, ?_, quot (-s12)⟩
  · have := n4.weaken (ε' := K * 2 ^ (-48 : ℤ)) (by norm_num; linarith)
    unfold Near at this
    rwa [abs_of_pos hsq] at this
  · have := quot s11
    unfold Near at this
    rwa [abs_of_pos (div_pos h11 hsq)] at this

/-- **C154 is false for tilted beams.** For all `y = 8 k + 1` in this range the moments `9`, `3 y` and `y^2 + 1` are numbers of 53 bits and
the emittance is 3, but the plane is refused. -/
theorem moments_refused_fails (k : ℤ) (h1 : 2 ^ 56 ≤ 9 * (8 * k + 1) ^ 2) (h2 : (8 * k + 1) ^ 2 + 1 ≤ 2 ^ 53) (hk : 0 ≤ k) :
    let y : ℝ := 8 * k + 1
    (IsFloat 9 ∧ IsFloat (3 * y) ∧ IsFloat (y ^ 2 + 1)) ∧ √(9 * (y ^ 2 + 1) - (3 * y) ^ 2) = 3 ∧
      rTwissPlane R 9 (3 * y) (3 * y) (y ^ 2 + 1) = .error .exception := by
  intro y
  have hy : y = ((8 * k + 1 : ℤ) : ℝ) := by push_cast; rfl
  have hb : 8 * k + 1 < 2 ^ 27 := by nlinarith
  have f1 : IsFloat 9 := by have := isFloat_int (n := 9) (by norm_num); exact_mod_cast this
  have f2 : IsFloat (3 * y) := by
    have := isFloat_int (n := 3 * (8 * k + 1)) (by rw [abs_of_nonneg (by omega)]; omega)
    rw [hy]; exact_mod_cast this
  have f3 : IsFloat (y ^ 2 + 1) := by
    have := isFloat_int (n := (8 * k + 1) ^ 2 + 1) (by rw [abs_of_nonneg (by positivity)]; exact h2)
    rw [hy]; exact_mod_cast this
  refine ⟨⟨f1, f2, f3⟩, ?_, ?_⟩
  · rw [show 9 * (y ^ 2 + 1) - (3 * y) ^ 2 = 3 ^ 2 by ring]
    exact Real.sqrt_sq (by norm_num)
  · rw [moments_refused_iff]
    -- both products are rounded to this multiple of 16
    obtain ⟨m, hm⟩ : ∃ m : ℤ, 9 * (8 * k + 1) ^ 2 + 7 = m * 2 ^ 4 := ⟨36 * k ^ 2 + 9 * k + 1, by ring⟩
    have m1 : 2 ^ 52 < m := by omega
    have m2 : m < 2 ^ 53 := by
      have : 9 * ((8 * k + 1) ^ 2 + 1) ≤ 9 * 2 ^ 53 := by omega
      omega
    have hmr : (m : ℝ) * 2 ^ (4 : ℤ) = 9 * y ^ 2 + 7 := by rw [hy]; exact_mod_cast hm.symm
    have r1 : R.rnd (9 * (y ^ 2 + 1)) = m * 2 ^ (4 : ℤ) := R.absorb m1 m2 (by
      rw [hmr, show 9 * (y ^ 2 + 1) - (9 * y ^ 2 + 7) = 2 by ring]; norm_num)
    have r2 : R.rnd (3 * y * (3 * y)) = m * 2 ^ (4 : ℤ) := R.absorb m1 m2 (by
      rw [hmr, show 3 * y * (3 * y) - (9 * y ^ 2 + 7) = -7 by ring]; norm_num)
    rw [r1, r2]

example : ∃ alpha beta emit, rTwissPlane R 2 1 1 1 = .ok (alpha, beta, emit) ∧ |emit - 1| ≤ 2 ^ (-47 : ℤ) := by
  obtain ⟨a, b, e, h, -, -, h2, -⟩ := moments_rounded_partial R 2 1 1 2 (by norm_num) (by norm_num) (by norm_num) (by norm_num)
  refine ⟨a, b, e, h, ?_⟩
  norm_num at h2 ⊢
  linarith

/-- The range is not empty: `y = 90000001`. -/
example : let y : ℝ := 8 * (11250000 : ℤ) + 1
    rTwissPlane R 9 (3 * y) (3 * y) (y ^ 2 + 1) = .error .exception :=
  (moments_refused_fails R 11250000 (by norm_num) (by norm_num) (by norm_num)).2.2

example : rTwissPlane R 2 2 2 1 = .error .exception :=
  (moments_refused_iff R 2 2 2 1).2 (R.mono (by norm_num))

end Verif.Ptcls
