import Mathlib.Tactic.FieldSimp
import Mathlib.Tactic.Ring
import Mathlib.Tactic.LinearCombination
import Mathlib.Tactic.Linarith
import Mathlib.Tactic.Positivity
import Mathlib.Algebra.BigOperators.Group.List.Basic
import Verif.Stats6d.Model
import Verif.Stats6d.Spec

namespace Verif.Stats6d

theorem varLoop_spec (rest : Arr) (i : Fin 6) :
    ∀ (k : Nat) (avg var : Vec) (S Q : ℝ), 1 ≤ k → avg i = S / k → var i = Q - S ^ 2 / k →
      (varLoop rest k avg var).1 i = (S + (rest.map (· i)).sum) / (k + rest.length) ∧
      (varLoop rest k avg var).2 i = Q + (rest.map fun p => p i ^ 2).sum -
        (S + (rest.map (· i)).sum) ^ 2 / (k + rest.length) := by
  induction rest with
  | nil => intro k avg var S Q hk h1 h2; simp [varLoop, h1, h2]
  | cons d rest ih =>
    intro k avg var S Q hk h1 h2
    have hk0 : (k : ℝ) ≠ 0 := by positivity
    have hk1 : (k : ℝ) + 1 ≠ 0 := by positivity
    have := ih (k + 1) (fun i => avg i + (d i - avg i) / ((k : ℝ) + 1))
      (fun i => var i + (d i - (avg i + (d i - avg i) / ((k : ℝ) + 1))) * (d i - avg i))
      (S + d i) (Q + d i ^ 2) (by omega)
      (by push_cast; rw [h1]; field_simp; ring)
      (by push_cast; rw [h1, h2]; field_simp; ring)
    simp only [varLoop, List.map_cons, List.sum_cons, List.length_cons]
    rw [this.1, this.2]
    push_cast
    constructor <;> ring_nf

theorem sum_sub_mul (a : Arr) (i j : Fin 6) (u w : ℝ) :
    (a.map fun p => (p i - u) * (p j - w)).sum =
      (a.map fun p => p i * p j).sum - u * (a.map (· j)).sum - w * (a.map (· i)).sum
        + a.length * (u * w) := by
  induction a with
  | nil => simp
  | cons p a ih => simp only [List.map_cons, List.sum_cons, ih, List.length_cons]; push_cast; ring

theorem cov_eq (a : Arr) (h : a ≠ []) (i j : Fin 6) :
    cov a i j = (a.map fun p => p i * p j).sum / a.length - mean a i * mean a j := by
  have hl : (a.length : ℝ) ≠ 0 := by
    have := List.length_pos_iff.mpr h
    positivity
  unfold cov
  rw [sum_sub_mul]
  unfold mean
  field_simp
  ring

theorem calcVariance_cons (p0 : Vec) (rest : Arr) :
    ∃ var arr, calcVariance (p0 :: rest) = .ok (var, arr) ∧
      (∀ i, var i = variance (p0 :: rest) i) ∧ arr = (fun i => mean (p0 :: rest) i) :: rest := by
  refine ⟨_, _, rfl, ?_, ?_⟩
  · intro i
    have h := (varLoop_spec rest i 1 p0 (fun _ => 0) (p0 i) (p0 i ^ 2) le_rfl (by simp) (by simp)).2
    rw [h, variance, cov_eq _ (by simp)]
    have hl : (rest.length : ℝ) + 1 ≠ 0 := by positivity
    unfold mean
    simp only [List.map_cons, List.sum_cons, List.length_cons]
    push_cast
    have e : (rest.map fun p => p i * p i) = rest.map fun p => p i ^ 2 := by
      apply List.map_congr_left; intro p _; ring
    rw [e]
    have hl' : 1 + (rest.length : ℝ) ≠ 0 := by positivity
    field_simp
    ring
  · congr 1
    funext i
    have h := (varLoop_spec rest i 1 p0 (fun _ => 0) (p0 i) (p0 i ^ 2) le_rfl (by simp) (by simp)).1
    rw [h]
    unfold mean
    simp only [List.map_cons, List.sum_cons, List.length_cons]
    push_cast
    rw [add_comm (1 : ℝ)]

theorem mean_map_affine (a : Arr) (h : a ≠ []) (f b : Fin 6 → ℝ) (i : Fin 6) :
    mean (a.map fun p => fun i => p i * f i + b i) i = mean a i * f i + b i := by
  have hl : (a.length : ℝ) ≠ 0 := by
    have := List.length_pos_iff.mpr h
    positivity
  have : ((a.map fun p => fun i => p i * f i + b i).map fun p => p i).sum =
      (a.map fun p => p i).sum * f i + a.length * b i := by
    clear h hl
    induction a with
    | nil => simp
    | cons p a ih =>
      simp only [List.map_cons, List.sum_cons, ih, List.length_cons]; push_cast; ring
  unfold mean
  rw [this, List.length_map]
  field_simp

theorem cov_map_affine (a : Arr) (h : a ≠ []) (f b : Fin 6 → ℝ) (i j : Fin 6) :
    cov (a.map fun p => fun i => p i * f i + b i) i j = cov a i j * f i * f j := by
  unfold cov
  rw [mean_map_affine a h, mean_map_affine a h, List.length_map]
  have : ∀ u w : ℝ, ((a.map fun p => fun i => p i * f i + b i).map fun p =>
      (p i - (u * f i + b i)) * (p j - (w * f j + b j))).sum =
      (a.map fun p => (p i - u) * (p j - w)).sum * f i * f j := by
    intro u w
    clear h
    induction a with
    | nil => simp
    | cons p a ih => simp only [List.map_cons, List.sum_cons, ih]; ring
  rw [this]
  ring

open scoped BigOperators in
theorem sum_map_finset (a : Arr) (f : Vec → Fin 6 → ℝ) :
    (a.map fun p => ∑ k, f p k).sum = ∑ k, (a.map fun p => f p k).sum := by
  induction a with
  | nil => simp
  | cons p a ih => simp only [List.map_cons, List.sum_cons, ih, Finset.sum_add_distrib]

end Verif.Stats6d
