import Verif.Kinematic.Model
import Verif.Py.Rounding

/-!
# Model of `rsbeams/rsstats/kinematic.py`, class `Converter`, with rounded arithmetic

The methods of `Verif.Kinematic.Model` once more, with every operation rounded (`Verif.Py.Rounding`). `x**2` is taken as
`x * x`. Overflow and underflow are not modelled. The mass and the given value are those behind the conversion of units
(kinematic.py:86-87, 119-135), the results those before the conversion of kinematic.py:180-181.
-/

namespace Verif.Kinematic

open Verif.Py

/-- A result of numpy: a number, an infinity or nan. -/
inductive FVal where
  | num (x : ℝ)
  | inf
  | ninf
  | nan

variable (R : Rounding)

/-- `a * v` for a number `a`. -/
noncomputable def FVal.scale (a : ℝ) : FVal → FVal
  | .num x => .num (R.rnd (a * x))
  | .inf => if 0 < a then .inf else if a < 0 then .ninf else .nan
  | .ninf => if 0 < a then .ninf else if a < 0 then .inf else .nan
  | .nan => .nan

/-- `v - 1`. -/
noncomputable def FVal.pred : FVal → FVal
  | .num x => .num (R.rnd (x - 1))
  | v => v

/-- `v / c` for a positive number `c`. -/
noncomputable def FVal.over (c : ℝ) : FVal → FVal
  | .num x => .num (R.rnd (x / c))
  | v => v

/-- `b * v`, where `b` may be nan. -/
noncomputable def FVal.times : FVal → FVal → FVal
  | .num b, v => v.scale R b
  | _, _ => .nan

/-- `np.sqrt` of a number: nan for negative numbers. -/
noncomputable def rsqrt (x : ℝ) : FVal :=
  if x < 0 then .nan else .num (R.rnd (Real.sqrt x))

/-- `1 / v` in numpy: infinity for zero. -/
noncomputable def FVal.recip : FVal → FVal
  | .num x => if x = 0 then .inf else .num (R.rnd (1 / x))
  | .inf => .num 0
  | .ninf => .num 0
  | .nan => .nan

/-- `1. / np.sqrt(1 - beta**2)` (kinematic.py:201, 228, 242, 247). -/
noncomputable def rGamma (b : ℝ) : FVal := (rsqrt R (R.rnd (1 - R.rnd (b * b)))).recip R

/-- `np.sqrt(1. - 1 / gamma**2)` (kinematic.py:215, 254, 262). Division of Python numbers by zero raises ZeroDivisionError. -/
noncomputable def rBeta (g : ℝ) : Except PyErr FVal :=
  if R.rnd (g * g) = 0 then .error .zeroDivisionError
  else .ok (rsqrt R (R.rnd (1 - R.rnd (1 / R.rnd (g * g)))))

/-- `n / np.sqrt(1 + n**2)` (kinematic.py:240, 246). The square root is at least 1. -/
noncomputable def rNormal (n : ℝ) : ℝ := R.rnd (n / R.rnd (Real.sqrt (R.rnd (1 + R.rnd (n * n)))))

/-- `a / b` of Python numbers. -/
noncomputable def rDiv (a b : ℝ) : Except PyErr ℝ :=
  if b = 0 then .error .zeroDivisionError else .ok (R.rnd (a / b))

/-- The `start_*` methods (kinematic.py:189-267). -/
noncomputable def rStart (c m : ℝ) : Quantity → ℝ → Except PyErr (FVal × FVal)
  | .velocity, v => do let b ← rDiv R v c; .ok (.num b, rGamma R b)
  | .gamma, g => do let b ← rBeta R g; .ok (b, .num g)
  | .beta, b => .ok (.num b, rGamma R b)
  | .betagamma, n => .ok (.num (rNormal R n), rGamma R (rNormal R n))
  | .momentum, p => do let n ← rDiv R p m; .ok (.num (rNormal R n), rGamma R (rNormal R n))
  | .energy, en => do let g ← rDiv R en m; let b ← rBeta R g; .ok (b, .num g)
  | .kenergy, ke => do let k ← rDiv R ke m; let b ← rBeta R (R.rnd (k + 1)); .ok (b, .num (R.rnd (k + 1)))
  | .brho, r => do let n ← rDiv R (R.rnd (r * c)) m; .ok (.num (rNormal R n), rGamma R (rNormal R n))

/-- The first `__call__` (kinematic.py:142-165, 270-289) for one given quantity. -/
noncomputable def rCall (c m : ℝ) (q : Quantity) (v : ℝ) : Except PyErr (Quantity → FVal) := do
  let (b, g) ← rStart R c m q v
  .ok fun
    | .beta => b
    | .gamma => g
    | .momentum => (b.times R g).scale R m
    | .velocity => b.scale R c
    | .energy => g.scale R m
    | .kenergy => (g.pred R).scale R m
    | .betagamma => b.times R g
    | .brho => ((b.times R g).scale R m).over R c

end Verif.Kinematic
