import Verif.Stats6d.SigFigs
import Verif.Py.Rounding

/-!
# Model of `specify_significant_figures` (`rsbeams/rsstats/stats6d.py:170-179`) with rounded arithmetic

As `SigFigs.sigFigs`, with every operation rounded (`Verif.Py.Rounding`). The argument is a Python float, for which `round` gives the double next to
the decimal number. Overflow and underflow are not modelled.
-/

namespace Verif.SigFigs

open Verif.Py

/-- What `math.log10` and `10.0**e` give. -/
structure Lib where
  log10 : ℝ → ℝ
  pow10 : ℤ → ℝ

variable (R : Rounding)

/-- `10**my_exp` (stats6d.py:176-177): a whole number, rounded when it meets a float, or for negative exponents a float. -/
noncomputable def tenPow (lib : Lib) (e : ℤ) : ℝ := if 0 ≤ e then R.rnd (10 ^ e) else lib.pow10 e

/-- `specify_significant_figures(float_value, num_sig_figs)` (stats6d.py:170-179). -/
noncomputable def rSigFigs (lib : Lib) (x : ℝ) (n : ℤ) : ℝ :=
  if x = 0 then 0
  else
    let e : ℤ := ⌊lib.log10 |x|⌋
    let m := R.rnd (x / tenPow R lib e)
    R.rnd (R.rnd (pyRound m (n - 1)) * tenPow R lib e)

end Verif.SigFigs
