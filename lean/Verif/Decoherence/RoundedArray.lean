import Verif.Decoherence.ArrayAny
import Verif.Decoherence.RoundedAny

/-!
# Model of `_reduced_integrand` of `rsphysics/decoherence.py` for arrays, with rounded arithmetic

As `Centroid.integrandArray`, with every operation rounded (`Verif.Py.Rounding`). The functions of numpy for arrays are parameters; they need not be the
functions for numbers. Zeros have no sign. Overflow and underflow are not modelled.
-/

namespace Verif.Decoherence

open Verif.Py

variable (R : Rounding)

/-- Rounded addition of an array of the same length, with broadcasting of numbers. -/
noncomputable def Value.rAdd : Value → List ℝ → Value
  | .num x, l => .arr (l.map fun y => R.rnd (x + y))
  | .arr m, l => .arr (List.zipWith (fun x y => R.rnd (x + y)) m l)

/-- Rounded multiplication by an array of the same length, with broadcasting of numbers. -/
noncomputable def Value.rMul : Value → List ℝ → Value
  | .num x, l => .arr (l.map fun y => R.rnd (x * y))
  | .arr m, l => .arr (List.zipWith (fun x y => R.rnd (x * y)) m l)

/-- The loop over the coefficients (decoherence.py:42-46). -/
noncomputable def rAdvanceArray (lib : Lib) (a : List ℝ) (n : Int) : List ℝ → Nat → Value → Value
  | [], _, advance => advance
  | m :: mu, order, advance => rAdvanceArray lib a n mu (order + 1)
      (advance.rAdd R (a.map fun x => R.rnd (R.rnd (m * lib.pow x order) / lib.pow (rTurn R n) (order - 1))))

/-- `_reduced_integrand` (decoherence.py:32-63) for an array; `1. * 2` and `ones_like * 2` are 2. -/
noncomputable def Centroid.rIntegrandArray (c : Centroid) (lib : Lib) (n : Int) (a : List ℝ) : Value :=
  let advance := rAdvanceArray R lib a n c.mu 1 (.num 0)
  let coeff := R.rnd (c.Z / (2 * n))
  let slip := R.rnd (R.rnd (R.rnd (2 * R.rnd Real.pi) * c.nu0) * n)
  let angular := advance.map fun x => R.rnd (R.rnd (lib.cos slip * lib.cos x) + R.rnd (lib.sin slip * lib.sin x))
  let maxa := R.rnd (R.rnd (2 * R.rnd Real.pi) * n)
  let distr := match a with
    | [x] => if x ≤ maxa then angular.map fun y => R.rnd (y / 1 / R.rnd Real.pi) else .num 0
    | a => (angular.map fun y => R.rnd (y / 1 / R.rnd Real.pi)).rMul R (a.map fun x => if x < maxa then 1 else 0)
  distr.map fun y => R.rnd (coeff * y)

end Verif.Decoherence
