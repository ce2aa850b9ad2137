import Verif.Stats6d.Model
import Verif.Sample.Rounded

/-!
# Model of `calc_avg6d` and `sub_avg6d` with rounded arithmetic

`scipy.average(array6D, axis=1)` is `np.mean`: `np.sum` of every row (`Verif.Sample.npSum`, rows lying in one piece of memory), divided by
the number of particles. Numbers of particles up to 2^53 are exact.
-/

namespace Verif.Stats6d

open Verif.Py Verif.Sample

variable (R : Rounding)

/-- `calc_avg6d` (stats6d.py:17-18). For an empty array numpy gives `nan`; all theorems assume at least one particle. -/
noncomputable def rCalcAvg (a : Arr) : Vec := fun i => R.rnd (npSum R (a.map (· i)) / a.length)

/-- `sub_avg6d` (stats6d.py:20-23), the array after the call. -/
noncomputable def rSubAvg (a : Arr) : Arr := a.map fun p => fun i => R.rnd (p i - rCalcAvg R a i)

end Verif.Stats6d
