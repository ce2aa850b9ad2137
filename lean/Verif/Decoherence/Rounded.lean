import Verif.Decoherence.Model
import Verif.Py.Rounding

/-!
# Model of `integrate_first_order` of `rsphysics/decoherence.py` with rounded arithmetic

As `Centroid.firstOrder`, with every operation rounded (`Verif.Py.Rounding`). The functions of numpy are parameters; the square is taken as a rounded
product. Turn numbers are exact (below `2 ^ 53`). Overflow and underflow are not modelled.
-/

namespace Verif.Decoherence

open Verif.Py

/-- Two of the functions of numpy. -/
structure Trig where
  cos : ℝ → ℝ
  sin : ℝ → ℝ

variable (R : Rounding)

/-- The value for a denominator `d` (decoherence.py:103-106). -/
noncomputable def rFirst (T : Trig) (Z nu0 m n d : ℝ) : ℝ :=
  let slip := R.rnd (R.rnd (R.rnd (2 * R.rnd Real.pi) * nu0) * n)
  let full := R.rnd (R.rnd (R.rnd (2 * R.rnd Real.pi) * n) * m)
  let half := R.rnd (R.rnd (R.rnd Real.pi * n) * m)
  R.rnd (R.rnd (Z / d) * R.rnd (R.rnd (T.cos slip * T.sin full) + R.rnd (R.rnd (2 * T.sin slip) * R.rnd (T.sin half * T.sin half))))

/-- `integrate_first_order` (decoherence.py:87-108). -/
noncomputable def Centroid.rFirstOrder (c : Centroid) (T : Trig) (turn : Option Int) : Except PyErr ℝ :=
  let n := turn.getD c.N
  if n = 0 then .ok c.Z
  else match c.mu with
    | [] => .error .indexError
    | m :: _ =>
      let d := R.rnd (R.rnd (R.rnd (2 * R.rnd Real.pi) * n) * m)
      if d = 0 then .error .zeroDivisionError
      else .ok (rFirst R T c.Z c.nu0 m n d)

end Verif.Decoherence
