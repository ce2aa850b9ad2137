import Verif.Py.Rounding
import Verif.Py.Basic

/-!
# Model of the design particle of `rsptcls/RsPtclBeam6D.py` with rounded arithmetic

Every operation is rounded (`Verif.Py.Rounding`). `x**2` is taken as `x * x`. Overflow and underflow are not modelled.
-/

namespace Verif.Ptcls

open Verif.Py

variable (R : Rounding)

/-- `get_beta0_gamma0` (RsPtclBeam6D.py:56-57). -/
noncomputable def rBetaGamma (p m : ℝ) : Except PyErr ℝ := if m = 0 then .error .zeroDivisionError else .ok (R.rnd (p / m))

/-- `get_gamma0` (RsPtclBeam6D.py:59-60). The argument of the square root is not negative. -/
noncomputable def rGamma0 (p m : ℝ) : Except PyErr ℝ := do
  let bg ← rBetaGamma R p m
  .ok (R.rnd (Real.sqrt (R.rnd (R.rnd (bg * bg) + 1))))

/-- `get_beta0` (RsPtclBeam6D.py:62-63). -/
noncomputable def rBeta0 (p m : ℝ) : Except PyErr ℝ := do
  let bg ← rBetaGamma R p m
  let g ← rGamma0 R p m
  if g = 0 then .error .zeroDivisionError else .ok (R.rnd (bg / g))

/-- `get_peak_current_rms` (RsPtclBeam6D.py:76-79) for a length `z` other than zero, the speed of light `c` and a particle that
moves. -/
noncomputable def rPeak (c p m q z : ℝ) : Except PyErr ℝ := do
  let b ← rBeta0 R p m
  if R.rnd (b * c) = 0 then .error .notModelled
  else if R.rnd (z / R.rnd (b * c)) = 0 then .error .notModelled
  else .ok (R.rnd (q / R.rnd (z / R.rnd (b * c))))

end Verif.Ptcls
