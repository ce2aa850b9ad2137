import Verif.Stats6d.Rounded
import Verif.Stats6d.RoundedAverage

/-!
# Model of `calc_correlations6d` with rounded arithmetic
-/

namespace Verif.Stats6d

open Verif.Py Verif.Sample

variable (R : Rounding)

/-- `calc_correlations6d` (stats6d.py:50-65): the matrix and the array after the call, as `calcCorrelations`. -/
noncomputable def rCalcCorrelations (a : Arr) : Except PyErr ((Fin 6 → Fin 6 → ℝ) × Arr) :=
  let avg := rCalcAvg R a
  (rCalcVariance R a).map fun r =>
    (fun i j =>
      if i = j then r.1 i
      else R.rnd (addAll R 0 (r.2.map fun p => R.rnd (R.rnd (p i - avg i) * R.rnd (p j - avg j))) / a.length), r.2)

end Verif.Stats6d
