import Verif.Py.Rounding
import Verif.Py.Basic

/-!
# Model of `calc_twiss6d` of `rsptcls/RsDistrib6D.py` with rounded arithmetic

Every operation is rounded (`Verif.Py.Rounding`). Overflow and underflow are not modelled. The four numbers are the entries of the matrix
of `calc_correlations6d` for one plane.
-/

namespace Verif.Ptcls

open Verif.Py

variable (R : Rounding)

/-- `emitSQ` (RsDistrib6D.py:128). -/
noncomputable def rEmitSq (s11 s12 s21 s22 : ℝ) : ℝ := R.rnd (R.rnd (s11 * s22) - R.rnd (s12 * s21))

/-- One round of the loop of `calc_twiss6d` (RsDistrib6D.py:126-151): alpha, beta and emittance. -/
noncomputable def rTwissPlane (s11 s12 s21 s22 : ℝ) : Except PyErr (ℝ × ℝ × ℝ) :=
  if rEmitSq R s11 s12 s21 s22 ≤ 0 then .error .exception
  else
    let emit := R.rnd (Real.sqrt (rEmitSq R s11 s12 s21 s22))
    .ok (R.rnd (-s12 / emit), R.rnd (s11 / emit), emit)

end Verif.Ptcls
