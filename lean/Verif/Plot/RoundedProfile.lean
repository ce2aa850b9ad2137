import Verif.Plot.Profile
import Verif.Py.Rounding

/-!
# Model of the magnet profile of `rsplot/util.py` with rounded arithmetic

Every operation is rounded (`Verif.Py.Rounding`). Overflow and underflow are not modelled. The objects of matplotlib are the numbers
given to their constructors; matplotlib itself adds the width to the left side.
-/

namespace Verif.Plot

open Verif.Py

variable (R : Rounding)

/-- The loop over the rows of the columns `s` and `ElementType` (util.py:91-104). -/
noncomputable def rProfileLoop (scale height : ℝ) (used : List (String × String)) :
    List (ℝ × String) → ℝ → Profile → Except PyErr Profile
  | [], _, p => .ok p
  | (pos, type) :: rows, s, p =>
    match used.lookup type with
    | none => rProfileLoop scale height used rows pos p
    | some base =>
      match elementColors.lookup base with
      | none => .error .keyError
      | some color =>
        let e1 := R.rnd (s * scale)
        let e2 := R.rnd (pos * scale)
        rProfileLoop scale height used rows pos
          ⟨p.lines ++ [⟨s, e1, 0, color⟩], p.rects ++ [⟨e1, R.rnd (-height / 2), R.rnd (e2 - e1), height, color⟩]⟩

/-- `plot_profile` (util.py:69-109). -/
noncomputable def rPlotProfile (rows : List (ℝ × String)) (scale height : ℝ) : Except PyErr Profile :=
  match rows.getLast? with
  | none => .error .indexError
  | some last =>
    rProfileLoop R scale height (invertMapping elementMappings) rows 0 ⟨[⟨0, R.rnd (last.1 * scale), 0, "k"⟩], []⟩

/-- The right side of a rectangle as matplotlib computes it: `x0 + width` (matplotlib.patches.Rectangle, not in /repo). -/
noncomputable def Rect.right (r : Rect) : ℝ := R.rnd (r.x + r.width)

end Verif.Plot
