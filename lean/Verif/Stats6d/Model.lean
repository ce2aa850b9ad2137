import Mathlib.Analysis.Real.Sqrt
import Verif.Py.Basic

/-!
# Model of `rsbeams/rsstats/stats6d.py` (averages, variances, correlations)

The 6 x n array is a list of particles, each a vector of six reals (the columns
`array6D[:, k]`). Floats are exact reals. A function that changes its argument in place
returns the new array as well. The array dtype is assumed to be float. `scipy.average`,
`scipy.zeros`, `scipy.sqrt` (removed from recent scipy releases) have their numpy meaning.
-/

namespace Verif.Stats6d

/-- One particle: `array6D[:, k]`. -/
abbrev Vec := Fin 6 → ℝ

/-- A 6 x n array. -/
abbrev Arr := List Vec

/-- `calc_avg6d` (stats6d.py:17-18). For an empty array numpy gives `nan`; Lean gives 0.
All theorems assume at least one particle. -/
noncomputable def calcAvg (a : Arr) : Vec := fun i => (a.map (· i)).sum / a.length

/-- `sub_avg6d` (stats6d.py:20-23), the array after the call. -/
noncomputable def subAvg (a : Arr) : Arr := a.map fun p => fun i => p i - calcAvg a i

/-- The loop of `calc_variance6d` (stats6d.py:29-33). `nLoop` is the loop counter of the
first particle of the list, `avg` is `avgIter`, `var` is `varIter`. -/
noncomputable def varLoop : Arr → Nat → Vec → Vec → Vec × Vec
  | [], _, avg, var => (avg, var)
  | tmpData :: rest, nLoop, avg, var =>
    let tmpIter : Vec := fun i => tmpData i - avg i
    let avg' : Vec := fun i => avg i + (tmpData i - avg i) / ((nLoop : ℝ) + 1)
    let var' : Vec := fun i => var i + (tmpData i - avg' i) * tmpIter i
    varLoop rest (nLoop + 1) avg' var'

/-- `calc_variance6d` (stats6d.py:25-34). `avgIter = array6D[:,0]` is a numpy view, so the
in-place `avgIter += ...` overwrites the first particle: the second component is the array
after the call. With no particle `array6D[:,0]` raises IndexError. -/
noncomputable def calcVariance : Arr → Except PyErr (Vec × Arr)
  | [] => .error .indexError
  | p0 :: rest =>
    let r := varLoop rest 1 p0 (fun _ => 0)
    .ok (fun i => r.2 i / ((rest.length : ℝ) + 1), r.1 :: rest)

/-- `calc_rms6d` (stats6d.py:36-37), with the array after the call. -/
noncomputable def calcRms (a : Arr) : Except PyErr (Vec × Arr) :=
  (calcVariance a).map fun r => (fun i => Real.sqrt (r.1 i), r.2)

/-- `normalize_rms6d` (stats6d.py:39-42), the array after the call. A zero rms gives `inf`
in numpy and 0 here; theorems assume positive rms. -/
noncomputable def normalizeRms (a : Arr) : Except PyErr Arr :=
  (calcRms a).map fun r => r.2.map fun p => fun i => p i * (1 / r.1 i)

/-- `calc_correlations6d` (stats6d.py:50-65): the matrix and the array after the call.
The averages are taken before `calc_variance6d` modifies the array, the off-diagonal sums
after. -/
noncomputable def calcCorrelations (a : Arr) : Except PyErr ((Fin 6 → Fin 6 → ℝ) × Arr) :=
  let avg := calcAvg a
  (calcVariance a).map fun r =>
    (fun i j =>
      if i = j then r.1 i
      else (r.2.map fun p => (p i - avg i) * (p j - avg j)).sum / a.length, r.2)

/-- The last two loops of `rm_correlations6d` (stats6d.py:76-83): every particle is
multiplied by the transposed eigenvector matrix. -/
noncomputable def rotate (v : Fin 6 → Fin 6 → ℝ) (a : Arr) : Arr :=
  a.map fun p => fun i => ((List.finRange 6).map fun j => v j i * p j).sum

end Verif.Stats6d
