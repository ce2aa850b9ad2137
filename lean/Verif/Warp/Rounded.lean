import Verif.Warp.Convert
import Verif.Kinematic.Rounded

/-!
# Model of `_get_gradient` of `rsbeams/pkcli/lattice.py` with rounded arithmetic

As `getGradient`, with every operation rounded (`Verif.Py.Rounding`). The squares are taken as rounded products; `b_rho**1` is `b_rho`. Only the orders
used by lattice.py:28, 32 are modelled. Overflow and underflow are not modelled.
-/

namespace Verif.Warp

open Verif.Py Verif.Kinematic

variable (R : Rounding)

/-- The rigidity for a number `beta` (lattice.py:19-20). -/
noncomputable def rRho (C : Env) (beta gamma mass : ℝ) : ℝ :=
  let momentum := R.rnd (R.rnd (R.rnd (beta * gamma) * R.rnd (R.rnd (mass * C.e) / R.rnd (C.c * C.c))) * C.c)
  R.rnd (momentum / C.e)

/-- `_get_gradient` (lattice.py:10-22). -/
noncomputable def rGetGradient (C : Env) (k1 energy mass : ℝ) (n : ℕ) : Except PyErr FVal :=
  let gamma := R.rnd (energy / mass)
  let square := R.rnd (gamma * gamma)
  if square = 0 then .error .zeroDivisionError
  else match rsqrt R (R.rnd (1 - R.rnd (1 / square))) with
    | .num beta => match n with
      | 1 => .ok (.num (R.rnd (k1 * rRho R C beta gamma mass)))
      | 2 => .ok (.num (R.rnd (k1 * R.rnd (rRho R C beta gamma mass * rRho R C beta gamma mass))))
      | _ => .error .notModelled
    | v => .ok v

end Verif.Warp
