import Verif.Plot.Density
import Verif.Sample.Rounded

/-!
# Model of the points of `phase_space` (`rsplot/beam_plots.py`) with rounded arithmetic

The points that are given to `np.histogram2d` for the four pictures. `np.average` is `np.sum` (`Verif.Sample.npSum`) divided by the number of particles.
Overflow and underflow are not modelled. The counting in cells is that of `Verif.Plot.Density`.
-/

namespace Verif.Plot

open Verif.Py Verif.Sample

variable (R : Rounding)

/-- `np.average` of a column (beam_plots.py:113-115). For an empty column numpy gives `nan`, and there are no points. -/
noncomputable def rAverage (l : List ℝ) : ℝ := R.rnd (npSum R l / l.length)

/-- A column in thousandths (beam_plots.py:109-111). -/
noncomputable def rMilli (x : ℝ) : ℝ := R.rnd (x * 1000)

/-- The points of the fourth picture (beam_plots.py:112-116). If the average momentum is zero the quotients are not finite numbers, and `histogram2d`
raises ValueError. -/
noncomputable def rTimeDelta (page : List Ptcl) : Except PyErr (List (ℝ × ℝ)) :=
  let t0 := rAverage R (page.map Ptcl.t)
  let p0 := rAverage R (page.map Ptcl.p)
  if page ≠ [] ∧ p0 = 0 then .error .valueError
  else .ok (page.map fun q => (R.rnd (R.rnd (q.t - t0) * 1000000000000), R.rnd (R.rnd (q.p - p0) / p0)))

/-- The points of the four pictures (beam_plots.py:108-117). -/
noncomputable def rPictures (page : List Ptcl) : Except PyErr (List (List (ℝ × ℝ))) :=
  match rTimeDelta R page with
  | .error e => .error e
  | .ok td => .ok [page.map fun q => (rMilli R q.x, rMilli R q.xp), page.map fun q => (rMilli R q.y, rMilli R q.yp),
      page.map fun q => (rMilli R q.x, rMilli R q.y), td]

end Verif.Plot
