import Verif.Plot.Scatter
import Verif.Py.Rounding

/-!
# Model of `gen_contour_levels` of `rsplot/plot_ptcls.py` with rounded arithmetic

As `contourLevels`, with every operation rounded (`Verif.Py.Rounding`). Overflow and underflow are not modelled. The largest and the smallest value of
a field need no rounding, and the number of a level is converted exactly (there are at most `2 ^ 53`).
-/

namespace Verif.Plot

open Verif.Py

variable (R : Rounding)

/-- `numpy.around(x, decimals=3)`: the number times 1000 is rounded to a whole number and divided by 1000. -/
noncomputable def rAround3 (x : ℝ) : ℝ := R.rnd (rint (R.rnd (x * 1000)) / 1000)

/-- The smallest and the largest level (plot_ptcls.py:136-143). -/
noncomputable def rLevelRange (x : ℝ) (l : List ℝ) (multiplier : ℝ) : ℝ × ℝ :=
  let hi := R.rnd (multiplier * maxOf x l)
  let lo := R.rnd (multiplier * minOf x l)
  if |lo| < hi then (-rAround3 R hi, rAround3 R hi) else (rAround3 R lo, |rAround3 R lo|)

/-- `gen_contour_levels` (plot_ptcls.py:133-150) for a field of these values. -/
noncomputable def rContourLevels (field : List ℝ) (n : Int) (multiplier : ℝ) : Except PyErr (List ℝ) :=
  match field with
  | [] => .error .valueError
  | x :: l =>
    let r := rLevelRange R x l multiplier
    let delta := R.rnd (R.rnd (r.2 - r.1) / n)
    .ok ((List.range n.toNat).map fun i : Nat => R.rnd (r.1 + R.rnd (i * delta)))

end Verif.Plot
