import Mathlib.Tactic.FieldSimp
import Mathlib.Tactic.Ring
import Mathlib.Tactic.LinearCombination
import Mathlib.Tactic.Linarith
import Mathlib.Tactic.Positivity
import Mathlib.LinearAlgebra.Matrix.Notation
import Verif.Stats6d.Jacobi
import Verif.Stats6d.Spec

open scoped BigOperators
open Matrix

set_option linter.unusedSimpArgs false

namespace Verif.Stats6d

/-- The symmetric matrix held by a solver state: `ev` on the diagonal, the upper triangle of
`sigma` off the diagonal. -/
def full (sg : Fin 6 → Fin 6 → ℝ) (ev : Fin 6 → ℝ) : Matrix (Fin 6) (Fin 6) ℝ :=
  Matrix.of fun i j => if i = j then ev i else if i < j then sg i j else sg j i

/-- Plane rotation. -/
def rotJ (p q : Fin 6) (c s : ℝ) : Matrix (Fin 6) (Fin 6) ℝ :=
  Matrix.of fun j k =>
    if k = p then (if j = p then c else if j = q then -s else 0)
    else if k = q then (if j = p then s else if j = q then c else 0)
    else if j = k then 1 else 0

theorem mul_rotJ (m : Matrix (Fin 6) (Fin 6) ℝ) (p q : Fin 6) (hpq : p ≠ q) (c s : ℝ) (i k : Fin 6) :
    (m * rotJ p q c s) i k =
      if k = p then c * m i p - s * m i q else if k = q then s * m i p + c * m i q else m i k := by
  rw [Matrix.mul_apply]
  have key : ∀ (f : Fin 6 → ℝ) (x y : ℝ), (∑ j, f j * (if j = p then x else if j = q then y else 0))
      = x * f p + y * f q := by
    intro f x y
    have : ∀ j, f j * (if j = p then x else if j = q then y else 0) =
        (if j = p then x * f p else 0) + (if j = q then y * f q else 0) := by
      intro j
      by_cases h1 : j = p
      · subst h1; simp [hpq]; ring
      · by_cases h2 : j = q
        · subst h2; simp [h1]; ring
        · simp [h1, h2]
    simp only [this, Finset.sum_add_distrib, Finset.sum_ite_eq', Finset.mem_univ, if_true]
  simp only [rotJ, Matrix.of_apply]
  by_cases h1 : k = p
  · simp only [h1, if_true, key]; ring
  · by_cases h2 : k = q
    · have : q ≠ p := fun h => hpq h.symm
      simp only [h2, this, if_true, if_false, key]
    · simp [h1, h2]

theorem rotJ_transpose_mul (m : Matrix (Fin 6) (Fin 6) ℝ) (p q : Fin 6) (hpq : p ≠ q) (c s : ℝ)
    (i k : Fin 6) :
    ((rotJ p q c s)ᵀ * m) i k =
      if i = p then c * m p k - s * m q k else if i = q then s * m p k + c * m q k else m i k := by
  have h := mul_rotJ mᵀ p q hpq c s k i
  rw [← Matrix.transpose_apply ((rotJ p q c s)ᵀ * m), Matrix.transpose_mul, Matrix.transpose_transpose]
  rw [h]; simp [Matrix.transpose_apply]

theorem rotJ_orth (p q : Fin 6) (hpq : p ≠ q) (c s : ℝ) (h : c ^ 2 + s ^ 2 = 1) :
    (rotJ p q c s)ᵀ * rotJ p q c s = 1 := by
  ext i k
  rw [rotJ_transpose_mul _ p q hpq]
  have hqp : q ≠ p := fun h => hpq h.symm
  simp only [rotJ, Matrix.of_apply, Matrix.one_apply]
  by_cases hi : i = p
  · subst hi
    by_cases hk : k = i
    · subst hk; simp [hpq, hqp]; linarith
    · by_cases hk2 : k = q
      · subst hk2; simp [hpq, hqp]; ring
      · have a1 : ¬ i = k := fun h => hk h.symm
        have a2 : ¬ q = k := fun h => hk2 h.symm
        simp [hk, hk2, a1, a2]
  · by_cases hi2 : i = q
    · subst hi2
      by_cases hk : k = p
      · subst hk; simp [hi, hpq]; ring
      · by_cases hk2 : k = i
        · subst hk2; simp [hk, hpq, hqp]; linarith
        · have a1 : ¬ p = k := fun h => hk h.symm
          have a2 : ¬ i = k := fun h => hk2 h.symm
          simp [hi, hk, hk2, a1, a2]
    · by_cases hk : k = p
      · subst hk; simp [hi, hi2]
      · by_cases hk2 : k = q
        · subst hk2; simp [hi, hi2, hk]
        · simp [hi, hi2, hk, hk2]

/-- One rotation step of the code is conjugation with a plane rotation. -/
theorem full_rot (sg : Fin 6 → Fin 6 → ℝ) (ev : Fin 6 → ℝ) (p q : Fin 6) (hpq : p < q)
    (c s t tau : ℝ) (hct : s = t * c) (hcs : c ^ 2 + s ^ 2 = 1) (htau : tau * (1 + c) = s)
    (hzero : t * (ev q - ev p) = sg p q * (1 - t ^ 2)) (hc : 0 < c) :
    full (rotSigma sg p q s tau)
        (fun i => if i = p then ev p - t * sg p q else if i = q then ev q + t * sg p q else ev i) =
      (rotJ p q c s)ᵀ * full sg ev * rotJ p q c s := by
  have hne : p ≠ q := ne_of_lt hpq
  have hqp : ¬ q < p := not_lt.mpr hpq.le
  have hc1 : 1 + c ≠ 0 := by positivity
  have hst : s * tau = 1 - c := by
    have : tau = s / (1 + c) := by field_simp; exact htau
    rw [this]; field_simp
    linear_combination hcs
  have hx : ∀ g h : ℝ, g - s * (h + g * tau) = c * g - s * h := by
    intro g h; linear_combination (-g) * hst
  have hy : ∀ g h : ℝ, h + s * (g - h * tau) = s * g + c * h := by
    intro g h; linear_combination (-h) * hst
  have e1 : s * s = t ^ 2 * c ^ 2 := by rw [hct]; ring
  have e2 : c ^ 2 * (1 + t ^ 2) = 1 := by linear_combination hcs - e1
  ext i k
  rw [mul_rotJ _ p q hne]
  simp only [rotJ_transpose_mul _ p q hne]
  simp only [full, Matrix.of_apply, rotSigma, hx, hy]
  have key : ∀ x y : Fin 6, x < y ∨ x = y ∨ y < x := fun x y => lt_trichotomy x y
  by_cases hi : i = p
  · subst hi
    by_cases hk : k = i
    · subst hk
      simp only [if_true, hne, if_false, hpq]
      simp only [Ne.symm hne, if_false, hqp, if_true]
      rw [hct]
      linear_combination (-(ev k)) * e2 + (-(t * c ^ 2)) * hzero + ((sg k q) * t) * e2
    · by_cases hk2 : k = q
      · subst hk2
        simp only [and_self, if_true, hne, if_false, hpq, Ne.symm hne, hqp]
        rw [hct]
        linear_combination (c ^ 2) * hzero
      · rcases key i k with h | h | h
        · have h' : ¬ k < i := not_lt.mpr h.le
          rcases key k q with h2 | h2 | h2
          · have h2' : ¬ q < k := not_lt.mpr h2.le
            simp [h, h', h2, h2', hk, hk2, Ne.symm hk, hne, Ne.symm hne, Ne.symm hk2]
          · exact absurd h2 hk2
          · have h2' : ¬ k < q := not_lt.mpr h2.le
            simp [h, h', h2, h2', hk, hk2, Ne.symm hk, hne, Ne.symm hne, Ne.symm hk2]
        · exact absurd h.symm hk
        · have h' : ¬ i < k := not_lt.mpr h.le
          have h3 : k < q := lt_trans h hpq
          have h3' : ¬ q < k := not_lt.mpr h3.le
          simp [h, h', h3, h3', hk, hk2, Ne.symm hk, hne, Ne.symm hne, Ne.symm hk2]
  · by_cases hi2 : i = q
    · subst hi2
      by_cases hk : k = p
      · subst hk
        simp only [and_self, if_true, hi, hne, if_false, hpq, hqp]
        rw [hct]
        linear_combination (c ^ 2) * hzero
      · by_cases hk2 : k = i
        · subst hk2
          simp only [if_true, hi, hne, if_false, hpq, hqp]
          rw [hct]
          linear_combination (-(ev k)) * e2 + (t * c ^ 2) * hzero - ((sg p k) * t) * e2
        · rcases key i k with h | h | h
          · have h' : ¬ k < i := not_lt.mpr h.le
            have h3 : p < k := lt_trans hpq h
            have h3' : ¬ k < p := not_lt.mpr h3.le
            simp [h, h', h3, h3', hi, hk, hk2, Ne.symm hk, hne, Ne.symm hk2, hqp]
          · exact absurd h.symm hk2
          · have h' : ¬ i < k := not_lt.mpr h.le
            rcases key k p with h2 | h2 | h2
            · have h2' : ¬ p < k := not_lt.mpr h2.le
              simp [h, h', h2, h2', hi, hk, hk2, Ne.symm hk, hne, Ne.symm hk2, hqp]
            · exact absurd h2 hk
            · have h2' : ¬ k < p := not_lt.mpr h2.le
              simp [h, h', h2, h2', hi, hk, hk2, Ne.symm hk, hne, Ne.symm hk2, hqp]
    · by_cases hk : k = p
      · subst hk
        rcases key i k with h | h | h
        · have h' : ¬ k < i := not_lt.mpr h.le
          have h3 : i < q := lt_trans h hpq
          have h3' : ¬ q < i := not_lt.mpr h3.le
          simp [h, h', h3, h3', hi, hi2, hne, hqp, Ne.symm hi, Ne.symm hi2]
        · exact absurd h hi
        · have h' : ¬ i < k := not_lt.mpr h.le
          rcases key i q with h2 | h2 | h2
          · have h2' : ¬ q < i := not_lt.mpr h2.le
            simp [h, h', h2, h2', hi, hi2, hne, hqp, Ne.symm hi, Ne.symm hi2, Ne.symm hne]
          · exact absurd h2 hi2
          · have h2' : ¬ i < q := not_lt.mpr h2.le
            simp [h, h', h2, h2', hi, hi2, hne, hqp, Ne.symm hi, Ne.symm hi2, Ne.symm hne]
      · by_cases hk2 : k = q
        · subst hk2
          rcases key i k with h | h | h
          · have h' : ¬ k < i := not_lt.mpr h.le
            rcases key i p with h2 | h2 | h2
            · have h2' : ¬ p < i := not_lt.mpr h2.le
              simp [h, h', h2, h2', hi, hi2, hne, hqp, Ne.symm hi, Ne.symm hi2, Ne.symm hne]
            · exact absurd h2 hi
            · have h2' : ¬ i < p := not_lt.mpr h2.le
              simp [h, h', h2, h2', hi, hi2, hne, hqp, Ne.symm hi, Ne.symm hi2, Ne.symm hne]
          · exact absurd h hi2
          · have h' : ¬ i < k := not_lt.mpr h.le
            have h3 : p < i := lt_trans hpq h
            have h3' : ¬ i < p := not_lt.mpr h3.le
            simp [h, h', h3, h3', hi, hi2, hne, hqp, Ne.symm hi, Ne.symm hi2, Ne.symm hne]
        · simp [hi, hi2, hk, hk2]

end Verif.Stats6d
