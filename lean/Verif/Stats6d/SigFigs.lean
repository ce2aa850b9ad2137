import Mathlib.Analysis.SpecialFunctions.Log.Base
import Mathlib.Algebra.Order.Floor.Ring

/-!
# Model of `specify_significant_figures` (`rsbeams/rsstats/stats6d.py:170-179`)

Numbers are exact reals; infinities and NaN are not modelled.
-/

namespace Verif.SigFigs

/-- Python's rounding to an integer: to the nearest, ties to the even one. -/
noncomputable def roundInt (x : ℝ) : ℤ :=
  if x - ⌊x⌋ < 1 / 2 then ⌊x⌋
  else if 1 / 2 < x - ⌊x⌋ then ⌊x⌋ + 1
  else if Even ⌊x⌋ then ⌊x⌋ else ⌊x⌋ + 1

/-- `round(x, k)`. -/
noncomputable def pyRound (x : ℝ) (k : ℤ) : ℝ := roundInt (x * 10 ^ k) / 10 ^ k

/-- `specify_significant_figures(float_value, num_sig_figs)`. `math.log10(0)` raises ValueError,
which gives 0 (stats6d.py:178-179). -/
noncomputable def sigFigs (x : ℝ) (n : ℤ) : ℝ :=
  if x = 0 then 0
  else
    let e : ℤ := ⌊Real.logb 10 |x|⌋
    let m := x / 10 ^ e
    pyRound m (n - 1) * 10 ^ e

end Verif.SigFigs
