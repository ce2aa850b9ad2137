import Verif.Ptcls.Distrib
import Verif.Py.Rounding

/-!
# Model of `make_twiss_dist_6d` of `rsptcls/RsDistrib6D.py` with rounded arithmetic

Every operation is rounded (`Verif.Py.Rounding`). `x**2` is taken as `x * x`. Overflow and underflow are not modelled. One
plane, and one particle of it.
-/

namespace Verif.Ptcls

open Verif.Py

variable (R : Rounding)

/-- `math.sqrt`: ValueError for negative numbers. -/
noncomputable def rSqrt (x : ℝ) : Except PyErr ℝ := if x < 0 then .error .valueError else .ok (R.rnd (Real.sqrt x))

/-- `fac, f_inv, sin_phi, cos_phi` of one plane (RsDistrib6D.py:178-208). -/
noncomputable def rCoeffs (alpha beta : ℝ) : Except PyErr Coeffs :=
  if beta = 0 then .error .zeroDivisionError
  else do
    let gamma := R.rnd (R.rnd (1 + R.rnd (alpha * alpha)) / beta)
    let d := R.rnd (gamma - beta)
    let rt ← rSqrt R (R.rnd (R.rnd (d * d) + R.rnd (4 * R.rnd (alpha * alpha))))
    let lo ← rSqrt R (R.rnd (1 / 2 * R.rnd (R.rnd (gamma + beta) - rt)))
    let hi ← rSqrt R (R.rnd (1 / 2 * R.rnd (R.rnd (gamma + beta) + rt)))
    let (fac, inv) := if 0 ≤ d then (lo, hi) else (hi, lo)
    if alpha = 0 then .ok ⟨fac, inv, 0, 1⟩
    else if rt = 0 then .error .zeroDivisionError
    else do
      let s ← rSqrt R (R.rnd (1 / 2 * R.rnd (1 - R.rnd (|d| / rt))))
      let c ← rSqrt R (R.rnd (1 / 2 * R.rnd (1 + R.rnd (|d| / rt))))
      .ok ⟨fac, inv, if alpha * d < 0 then -s else s, c⟩

/-- Position and momentum of one particle (RsDistrib6D.py:210-219). -/
noncomputable def rMapPair (emit : ℝ) (k : Coeffs) (x p : ℝ) : Except PyErr (ℝ × ℝ) := do
  let rt ← rSqrt R emit
  .ok (R.rnd (rt * R.rnd (R.rnd (R.rnd (k.fac * k.cos) * x) - R.rnd (R.rnd (k.inv * k.sin) * p))),
    R.rnd (rt * R.rnd (R.rnd (R.rnd (k.fac * k.sin) * x) + R.rnd (R.rnd (k.inv * k.cos) * p))))

end Verif.Ptcls
