import Verif.Ptcls.RoundedTwiss
import Verif.Stats6d.PropsRoundedAverage

/-!
# C152: the particles of a matched beam in double precision
-/

namespace Verif.Ptcls

open Verif.Py Verif.Stats6d

variable (R : Rounding)

theorem sumsTo_mul {k l : Nat} {v S A w T B : ℝ} (h : SumsTo k v S A) (h' : SumsTo l w T B) : SumsTo (k + l) (v * w) (S * T) (A * B) := by
  obtain ⟨h1, h2⟩ := h
  obtain ⟨h3, h4⟩ := h'
  have hA := (abs_nonneg S).trans h1
  have hB := (abs_nonneg T).trans h3
  refine ⟨by rw [abs_mul]; exact mul_le_mul h1 h3 (abs_nonneg T) hA, ?_⟩
  have hk := one_le_growth k
  have hl := one_le_growth l
  rw [pow_add]
  generalize (1 + 2 ^ (-53 : ℤ) : ℝ) ^ k = g at *
  generalize (1 + 2 ^ (-53 : ℤ) : ℝ) ^ l = f at *
  have h5 : |w| ≤ f * B := by
    have := abs_add_le T (w - T)
    rw [add_sub_cancel] at this
    linarith
  have h6 := abs_add_le ((v - S) * w) (S * (w - T))
  rw [abs_mul, abs_mul, show (v - S) * w + S * (w - T) = v * w - S * T by ring] at h6
  have h7 := mul_le_mul h2 h5 (abs_nonneg w) (mul_nonneg (by linarith) hA)
  have h8 := mul_le_mul h1 h4 (abs_nonneg _) hA
  have h9 : (g * f - 1) * (A * B) = (g - 1) * A * (f * B) + A * ((f - 1) * B) := by ring
  linarith

theorem sumsTo_neg {k : Nat} {v S A : ℝ} (h : SumsTo k v S A) : SumsTo k (-v) (-S) A :=
  ⟨by rw [abs_neg]; exact h.1, by rw [show -v - -S = -(v - S) by ring, abs_neg]; exact h.2⟩

/-- **C152, particles.** With given coefficients and an emittance that is not negative, position and momentum of a particle are turned, scaled
and multiplied by the root of the emittance with at most five rounding errors of each term. -/
theorem twiss_map_partial {e : ℝ} (he : 0 ≤ e) (k : Coeffs) (x p : ℝ) : ∃ y q, rMapPair R e k x p = .ok (y, q) ∧
    |y - Real.sqrt e * (k.fac * k.cos * x - k.inv * k.sin * p)| ≤
      ((1 + 2 ^ (-53 : ℤ)) ^ 5 - 1) * (Real.sqrt e * (|k.fac * k.cos * x| + |k.inv * k.sin * p|)) ∧
    |q - Real.sqrt e * (k.fac * k.sin * x + k.inv * k.cos * p)| ≤
      ((1 + 2 ^ (-53 : ℤ)) ^ 5 - 1) * (Real.sqrt e * (|k.fac * k.sin * x| + |k.inv * k.cos * p|)) := by
  have hrt := (SumsTo.leaf (Real.sqrt e) 0).rnd R
  rw [abs_of_nonneg (Real.sqrt_nonneg e)] at hrt
  have term : ∀ a b c : ℝ, SumsTo 2 (R.rnd (R.rnd (a * b) * c)) (a * b * c) |a * b * c| := fun a b c => by
    have := (sumsTo_mul ((SumsTo.leaf (a * b) 0).rnd R) (SumsTo.leaf c 0)).rnd R
    rwa [← abs_mul] at this
  refine ⟨_, _, by rw [rMapPair, rSqrt, if_neg (not_lt.2 he)]; rfl, ?_, ?_⟩
  · have h := (sumsTo_mul hrt ((term k.fac k.cos x).add R (sumsTo_neg (term k.inv k.sin p)))).rnd R
    rw [← sub_eq_add_neg, ← sub_eq_add_neg] at h
    exact h.2
  · exact ((sumsTo_mul hrt ((term k.fac k.sin x).add R (term k.inv k.cos p))).rnd R).2

/-- Coefficients of an upright beam with a beta function of 4. -/
example : ∃ y q, rMapPair R 1 ⟨2, 1 / 2, 0, 1⟩ 3 5 = .ok (y, q) ∧ |y - 6| ≤ ((1 + 2 ^ (-53 : ℤ)) ^ 5 - 1) * 6 := by
  obtain ⟨y, q, h1, h2, -⟩ := twiss_map_partial R (e := 1) zero_le_one ⟨2, 1 / 2, 0, 1⟩ 3 5
  refine ⟨y, q, h1, ?_⟩
  simp only [Real.sqrt_one, one_mul, mul_one, mul_zero, zero_mul, sub_zero, abs_zero, add_zero] at h2
  rw [show (2 : ℝ) * 3 = 6 by norm_num, abs_of_pos (by norm_num : (0 : ℝ) < 6)] at h2
  exact h2

end Verif.Ptcls
