import Verif.Trace.Parser
import Verif.Py.Rounding
import Mathlib.Analysis.SpecialFunctions.Trigonometric.Basic

/-!
# The numbers of `Trace3d` (`rsbeams/rslattice/trace3d_parser.py`) with rounded arithmetic

`parseFile` and its parts take the operations on numbers from a record; here every operation is rounded (`Verif.Py.Rounding`). Overflow and underflow are
not modelled.
-/

namespace Verif.Trace

open Verif.Py Verif.Lattice

/-- Rounded operations (trace3d_parser.py:169, 178) with the constants of trace3d_parser.py:104-121: `np.pi` is the double next to π, `np.pi / 180.` is
rounded again, and `np.abs` is exact. -/
noncomputable def rTrace (R : Rounding) (float : Str → ℝ) : FNums ℝ where
  float := float
  mul x y := R.rnd (x * y)
  abs x := |x|
  conv := traceConv (R.rnd (1 / 1000)) (R.rnd (R.rnd Real.pi / 180)) 1000000

end Verif.Trace
