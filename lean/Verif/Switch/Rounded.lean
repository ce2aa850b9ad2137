import Verif.Switch.Model
import Verif.Stats6d.RoundedAverage

/-!
# Model of the conversions of `rsbeams/rsdata/switchyard.py` with rounded arithmetic

Columns of type double are stored and read back bit by bit (`Verif.Switch.Model`, C01 and C17), so that only the arithmetic on the columns is
modelled here. Numbers are doubles with unbounded exponents; momenta and `constants.c` are not zero (numpy gives `inf` or `nan` otherwise).
-/

namespace Verif.Switch

open Verif.Py

variable (R : Rounding)

/-- One row of the columns of an elegant file (switchyard.py:200-205). -/
structure Columns where
  x : ℝ
  xp : ℝ
  y : ℝ
  yp : ℝ
  t : ℝ
  p : ℝ

/-- The row `write_elegant` writes for a particle (switchyard.py:191-196); `c` is `constants.c`. -/
noncomputable def rElegantOut (c : ℝ) (q : Part ℝ) : Columns :=
  ⟨q.x, R.rnd (q.ux / q.pt), q.y, R.rnd (q.uy / q.pt), R.rnd (q.ct / c), q.pt⟩

/-- The particle `read_elegant` makes of a row (switchyard.py:38-45). -/
noncomputable def rElegantIn (c : ℝ) (r : Columns) : Part ℝ :=
  ⟨r.x, R.rnd (r.xp * r.p), r.y, R.rnd (r.yp * r.p), R.rnd (r.t * c), r.p⟩

/-- The times of `write_genesis` (switchyard.py:255-256): `np.average` is `np.sum` divided by the number of particles. -/
noncomputable def rGenesisTimes (c : ℝ) (ps : List (Part ℝ)) : List ℝ :=
  let ts := ps.map fun q => R.rnd (q.ct / c)
  let avg := R.rnd (Verif.Sample.npSum R ts / ts.length)
  ts.map fun t => R.rnd (t - avg)

end Verif.Switch
