import Verif.Decoherence.Rounded

/-!
# Model of `_reduced_integrand` of `rsphysics/decoherence.py` with rounded arithmetic

As `Centroid.integrand`, with every operation rounded (`Verif.Py.Rounding`), for a number `a` and a turn that is not zero. The functions of numpy and the
power are parameters. Turn numbers are exact (below `2 ^ 52`). Overflow and underflow are not modelled.
-/

namespace Verif.Decoherence

open Verif.Py

/-- Sine, cosine and `x ** k`. -/
structure Lib extends Trig where
  pow : ℝ → Nat → ℝ

variable (R : Rounding)

/-- `2. * np.pi * n` (decoherence.py:45). -/
noncomputable def rTurn (n : Int) : ℝ := R.rnd (R.rnd (2 * R.rnd Real.pi) * n)

/-- The loop over the coefficients (decoherence.py:42-46). -/
noncomputable def rAdvance (lib : Lib) (a : ℝ) (n : Int) : List ℝ → Nat → ℝ → ℝ
  | [], _, advance => advance
  | m :: mu, order, advance => rAdvance lib a n mu (order + 1)
      (R.rnd (advance + R.rnd (R.rnd (m * lib.pow a order) / lib.pow (rTurn R n) (order - 1))))

/-- `_reduced_integrand` (decoherence.py:32-63) for a number `a`; `1. * 2` is 2. -/
noncomputable def Centroid.rIntegrand (c : Centroid) (lib : Lib) (n : Int) (a : ℝ) : ℝ :=
  let advance := rAdvance R lib a n c.mu 1 0
  let coeff := R.rnd (c.Z / (2 * n))
  let slip := R.rnd (R.rnd (R.rnd (2 * R.rnd Real.pi) * c.nu0) * n)
  let angular := R.rnd (R.rnd (lib.cos slip * lib.cos advance) + R.rnd (lib.sin slip * lib.sin advance))
  let maxa := R.rnd (R.rnd (2 * R.rnd Real.pi) * n)
  R.rnd (coeff * if a ≤ maxa then R.rnd (angular / 1 / R.rnd Real.pi) else 0)

end Verif.Decoherence
