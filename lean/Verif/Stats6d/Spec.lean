import Mathlib.Data.Real.Basic
import Mathlib.Algebra.BigOperators.Group.Finset.Basic
import Mathlib.Data.Fintype.Basic

/-!
# Textbook statistics of a list of six-vectors, and eigenvectors of a 6 x 6 matrix

Nothing of the model is used here.
-/

open scoped BigOperators

namespace Verif.Stats6d

/-- Arithmetic mean of coordinate `i`. -/
noncomputable def mean (a : List (Fin 6 → ℝ)) (i : Fin 6) : ℝ :=
  (a.map fun p => p i).sum / (a.length : ℝ)

/-- Population covariance of coordinates `i` and `j`. -/
noncomputable def cov (a : List (Fin 6 → ℝ)) (i j : Fin 6) : ℝ :=
  (a.map fun p => (p i - mean a i) * (p j - mean a j)).sum / (a.length : ℝ)

/-- Population variance of coordinate `i`. -/
noncomputable def variance (a : List (Fin 6 → ℝ)) (i : Fin 6) : ℝ := cov a i i

/-- The columns of `v` are orthonormal. -/
def Orthonormal (v : Fin 6 → Fin 6 → ℝ) : Prop :=
  ∀ i j, ∑ k, v k i * v k j = if i = j then 1 else 0

/-- Column `j` of `v` is an eigenvector of `m` for the value `ev j`, for all `j`. -/
def Eigen (m : Fin 6 → Fin 6 → ℝ) (ev : Fin 6 → ℝ) (v : Fin 6 → Fin 6 → ℝ) : Prop :=
  ∀ i j, ∑ k, m i k * v k j = ev j * v i j

/-- `m` is symmetric. -/
def Symmetric (m : Fin 6 → Fin 6 → ℝ) : Prop := ∀ i j, m i j = m j i

/-- All quadratic forms are non-negative (covariance matrices have this). -/
def PosSemidef (m : Fin 6 → Fin 6 → ℝ) : Prop :=
  ∀ x : Fin 6 → ℝ, 0 ≤ ∑ i, ∑ j, x i * m i j * x j

end Verif.Stats6d
