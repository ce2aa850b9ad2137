import Verif.Trace.TraceWin
import Verif.Py.Rounding

/-!
# The numbers of `TraceWin` (`rsbeams/rslattice/trace3d_parser.py`) with rounded arithmetic

`winFile` and its parts take the operations on numbers from a record; here every operation is rounded (`Verif.Py.Rounding`). Overflow and underflow are
not modelled.
-/

namespace Verif.Trace

open Verif.Py Verif.Lattice

/-- Rounded operations, with the constants of trace3d_parser.py:258-269 as the doubles next to them. -/
noncomputable def rWin (R : Rounding) (float : Str → ℝ) : WNums ℝ where
  float := float
  add x y := R.rnd (x + y)
  sub x y := R.rnd (x - y)
  mul x y := R.rnd (x * y)
  div x y := R.rnd (x / y)
  one := 1
  ninety := 90
  milli := R.rnd (1 / 1000)
  mega := 1000000
  c := 299792458
  truthy x := @decide (x ≠ 0) (Classical.propDecidable _)

end Verif.Trace
