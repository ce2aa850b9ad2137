import Verif.Sample.Model
import Verif.Py.Rounding

/-!
# Model of `_calculate_cdf` and of the numeric inversion with rounded arithmetic

`np.sum` adds in another order than the loop of `_calculate_cdf`. Up to 7 numbers are added in order; up to 128 numbers are added in
eight sums; more numbers are split in two parts (`pairwise_sum` of numpy).
-/

namespace Verif.Sample

open Verif.Py

variable (R : Rounding)

/-- Numbers added one after the other. -/
noncomputable def addAll (s : ℝ) (l : List ℝ) : ℝ := l.foldl (fun s x => R.rnd (s + x)) s

/-- The eight sums of `pairwise_sum`, and what is left. -/
noncomputable def lanes (r : Fin 8 → ℝ) : List ℝ → (Fin 8 → ℝ) × List ℝ
  | a0 :: a1 :: a2 :: a3 :: a4 :: a5 :: a6 :: a7 :: rest =>
    lanes (fun i => R.rnd (r i + ![a0, a1, a2, a3, a4, a5, a6, a7] i)) rest
  | l => (r, l)

/-- `pairwise_sum` of numpy for 8 to 128 numbers. -/
noncomputable def blockSum : List ℝ → ℝ
  | a0 :: a1 :: a2 :: a3 :: a4 :: a5 :: a6 :: a7 :: rest =>
    let (r, left) := lanes R ![a0, a1, a2, a3, a4, a5, a6, a7] rest
    addAll R (R.rnd (R.rnd (R.rnd (r 0 + r 1) + R.rnd (r 2 + r 3)) + R.rnd (R.rnd (r 4 + r 5) + R.rnd (r 6 + r 7)))) left
  | l => addAll R 0 l

/-- The length of the first of two parts. -/
def splitAt (n : Nat) : Nat := n / 2 - n / 2 % 8

/-- `np.sum` of an array of doubles. -/
noncomputable def npSum (l : List ℝ) : ℝ :=
  if h : l.length ≤ 128 then (if l.length < 8 then addAll R 0 l else blockSum R l)
  else R.rnd (npSum (l.take (splitAt l.length)) + npSum (l.drop (splitAt l.length)))
termination_by l.length
decreasing_by
  · simp only [List.length_take, splitAt]; omega
  · simp only [List.length_drop, splitAt]; omega

/-- The loop of `_calculate_cdf` (sample.py:18-22). -/
noncomputable def rCdfLoop (total : ℝ) : ℝ → List ℝ → List ℝ
  | _, [] => []
  | cumulative, w :: ws => R.rnd (R.rnd (cumulative + w) / total) :: rCdfLoop total (R.rnd (cumulative + w)) ws

/-- `_calculate_cdf` (sample.py:6-23). -/
noncomputable def rCalculateCdf (weights : List ℝ) : List ℝ := rCdfLoop R (npSum R weights) 0 weights

/-- The numeric inversion (sample.py:97-99) for a grid `x` and drawn numbers `y`. -/
noncomputable def rNumeric (x weights y : List ℝ) : Except PyErr (List ℝ) :=
  takeAll x (y.map (searchsorted (rCalculateCdf R weights)))

end Verif.Sample
