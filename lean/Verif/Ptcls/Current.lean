import Verif.Ptcls.Distrib

/-!
# Model of the peak current of `rsptcls/RsPtclBeam6D.py`

Exact reals, as in `Distrib.lean`.
-/

namespace Verif.Ptcls

open Verif.Stats6d

/-- `scipy.constants.c`. -/
def lightSpeed : ℝ := 299792458

/-- `get_peak_current_rms` (RsPtclBeam6D.py:76-79) with `design_p_ev`, `mass_ev` and `total_charge_c`: the current, and the array after the call, which
`calc_rms6d` modifies (RsDistrib6D.py:116-118). The length is a numpy float: for the length zero the result is not a finite number
and not modelled; for the momentum zero the time is infinite and the current 0, which is also what the formula below gives. -/
noncomputable def peakCurrent (a : Arr) (p m q : ℝ) : Except PyErr ℝ × Arr :=
  match calcRms a with
  | .error e => (.error e, a)
  | .ok (rms, arr) =>
    match beta0 p m with
    | .error e => (.error e, arr)
    | .ok b => if rms 4 = 0 then (.error .notModelled, arr) else (.ok (q / (rms 4 / (b * lightSpeed))), arr)

/-- `calc_averages_6d` (RsDistrib6D.py:112-114). -/
noncomputable def calcAverages (a : Arr) : Vec := calcAvg a

/-- `calc_min6d` (stats6d.py:44-45): ValueError without particles. -/
noncomputable def calcMin : Arr → Except PyErr Vec
  | [] => .error .valueError
  | p :: l => .ok fun i => l.foldl (fun m q => min m (q i)) (p i)

/-- `calc_max6d` (stats6d.py:47-48): ValueError without particles. -/
noncomputable def calcMax : Arr → Except PyErr Vec
  | [] => .error .valueError
  | p :: l => .ok fun i => l.foldl (fun m q => max m (q i)) (p i)

end Verif.Ptcls
