import Verif.Ptcls.Distrib
import Verif.Ptcls.RoundedMoments

/-!
# Model of `rsptcls/RsTwiss2D.py` with rounded arithmetic

Every operation is rounded (`Verif.Py.Rounding`). Overflow and underflow are not modelled.
-/

namespace Verif.Ptcls

open Verif.Py

variable (R : Rounding)

/-- `RsTwiss2D(alpha_rms, beta_rms, emit_rms)` (RsTwiss2D.py:16-20) for Python floats. -/
noncomputable def rMkTwiss (alpha beta emit : ℝ) : Except PyErr Twiss :=
  if beta = 0 then .error .zeroDivisionError
  else .ok ⟨alpha, beta, emit, R.rnd (R.rnd (1 + R.rnd (alpha ^ 2)) / beta)⟩

/-- One plane of `calc_twiss6d` with the object that is stored (RsDistrib6D.py:126-157); the numbers are entries of numpy arrays, and beta is not zero there
unless the first moment is. -/
noncomputable def rTwissObject (s11 s12 s21 s22 : ℝ) : Except PyErr Twiss :=
  match rTwissPlane R s11 s12 s21 s22 with
  | .error e => .error e
  | .ok (alpha, beta, emit) => rMkTwiss R alpha beta emit

end Verif.Ptcls
