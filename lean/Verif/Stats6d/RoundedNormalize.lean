import Verif.Stats6d.Rounded

/-!
# Model of `calc_rms6d` and `normalize_rms6d` with rounded arithmetic

As `calcRms` and `normalizeRms`, with every operation rounded. A zero rms gives `inf` and `nan` in numpy, which are not modelled.
-/

namespace Verif.Stats6d

open Verif.Py

variable (R : Rounding)

/-- `calc_rms6d` (stats6d.py:36-37), with the array after the call. -/
noncomputable def rCalcRms (a : Arr) : Except PyErr (Vec × Arr) :=
  (rCalcVariance R a).map fun r => (fun i => R.rnd (Real.sqrt (r.1 i)), r.2)

open Classical in
/-- `normalize_rms6d` (stats6d.py:39-42), the array after the call. -/
noncomputable def rNormalizeRms (a : Arr) : Except PyErr Arr :=
  match rCalcRms R a with
  | .error e => .error e
  | .ok (rms, a') =>
    if ∃ i, rms i = 0 then .error .notModelled
    else .ok (a'.map fun p => fun i => R.rnd (p i * R.rnd (1 / rms i)))

end Verif.Stats6d
