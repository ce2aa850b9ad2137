import Verif.Ptcls.Distrib
import Verif.Py.Rounding

/-!
# Model of `offset_component` and `multiply_component` of `rsptcls/RsDistrib6D.py` with rounded arithmetic

As `offsetComponent` and `multiplyComponent`, with the operation on each particle rounded (`Verif.Py.Rounding`). Overflow and underflow are not
modelled.
-/

namespace Verif.Ptcls

open Verif.Py Verif.Stats6d

variable (R : Rounding)

/-- `offset_component` (RsDistrib6D.py:225-233). -/
noncomputable def rOffsetComponent (a : Arr) (offset : ℝ) (index : Int) : Except PyErr Arr :=
  if index < 0 ∨ 5 < index then .error .exception
  else .ok (a.map fun p i => if (i.1 : Int) = index then R.rnd (p i + offset) else p i)

/-- `multiply_component` (RsDistrib6D.py:235-243). -/
noncomputable def rMultiplyComponent (a : Arr) (factor : ℝ) (index : Int) : Except PyErr Arr :=
  if index < 0 ∨ 5 < index then .error .exception
  else .ok (a.map fun p i => if (i.1 : Int) = index then R.rnd (p i * factor) else p i)

end Verif.Ptcls
