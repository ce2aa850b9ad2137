import Verif.Stats6d.Model
import Verif.Py.Rounding

/-!
# Model of `calc_variance6d` with rounded arithmetic

`varLoop` and `calcVariance` of `Verif.Stats6d.Model` once more, with every operation rounded (`Verif.Py.Rounding`). Numbers of
particles up to 2^53 are exact.
-/

namespace Verif.Stats6d

open Verif.Py

variable (R : Rounding)

/-- The loop of `calc_variance6d` (stats6d.py:29-33). -/
noncomputable def rVarLoop : Arr → Nat → Vec → Vec → Vec × Vec
  | [], _, avg, var => (avg, var)
  | tmpData :: rest, nLoop, avg, var =>
    let tmpIter : Vec := fun i => R.rnd (tmpData i - avg i)
    let avg' : Vec := fun i => R.rnd (avg i + R.rnd (R.rnd (tmpData i - avg i) / ((nLoop : ℝ) + 1)))
    let var' : Vec := fun i => R.rnd (var i + R.rnd (R.rnd (tmpData i - avg' i) * tmpIter i))
    rVarLoop rest (nLoop + 1) avg' var'

/-- `calc_variance6d` (stats6d.py:25-34), with the array after the call. -/
noncomputable def rCalcVariance : Arr → Except PyErr (Vec × Arr)
  | [] => .error .indexError
  | p0 :: rest =>
    let r := rVarLoop R rest 1 p0 (fun _ => 0)
    .ok (fun i => R.rnd (r.2 i / ((rest.length : ℝ) + 1)), r.1 :: rest)

end Verif.Stats6d
