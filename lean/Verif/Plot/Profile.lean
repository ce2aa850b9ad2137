import Mathlib.Data.Real.Basic
import Verif.Py.Basic

/-!
# Model of the magnet profile of `rsplot/util.py`

Floats are exact reals. The objects of matplotlib are the numbers given to their constructors.
-/

namespace Verif.Plot

/-- A dict of lists. -/
abbrev TypeMap := List (String × List String)

/-- `_element_mappings` (util.py:5-9). -/
def elementMappings : TypeMap :=
  [("QUAD", ["KQUAD", "QUAD"]), ("SBEND", ["SBEND", "CSBEND", "CSRCSBEND", "RBEND", "SBEN"]), ("SEXT", ["SEXT"]), ("RFCW", ["RFCW", "RFCA"]),
   ("OCT", ["OCTU", "KOCT"])]

/-- `_element_colors` (util.py:10-14). -/
def elementColors : List (String × String) :=
  [("QUAD", "tab:green"), ("SBEND", "tab:red"), ("SEXT", "tab:blue"), ("RFCW", "tab:orange"), ("OCT", "tab:purple")]

/-- The inner loop of `_invert_mapping` (util.py:63-64). The newest entry of the dict is in front, so that `lookup` finds it. -/
def invertList (key : String) : List String → List (String × String) → List (String × String)
  | [], d => d
  | el :: l, d => invertList key l ((el, key) :: d)

/-- `_invert_mapping` (util.py:57-66). -/
def invertFrom : TypeMap → List (String × String) → List (String × String)
  | [], d => d
  | (key, l) :: m, d => invertFrom m (invertList key l d)

/-- `_invert_mapping`. -/
def invertMapping (m : TypeMap) : List (String × String) := invertFrom m []

/-- Arguments of `Rectangle`, with its colour. -/
structure Rect where
  x : ℝ
  y : ℝ
  width : ℝ
  height : ℝ
  color : String

/-- A horizontal line. -/
structure Line where
  start : ℝ
  stop : ℝ
  height : ℝ
  color : String

/-- What is drawn. -/
structure Profile where
  lines : List Line
  rects : List Rect

/-- The loop over the rows of the columns `s` and `ElementType` (util.py:91-104). -/
noncomputable def profileLoop (scale height : ℝ) (used : List (String × String)) : List (ℝ × String) → ℝ → Profile → Except PyErr Profile
  | [], _, p => .ok p
  | (pos, type) :: rows, s, p =>
    match used.lookup type with
    | none => profileLoop scale height used rows pos p
    | some base =>
      match elementColors.lookup base with
      | none => .error .keyError
      | some color =>
        let e1 := s * scale
        let e2 := pos * scale
        profileLoop scale height used rows pos
          ⟨p.lines ++ [⟨s, e1, 0, color⟩], p.rects ++ [⟨e1, -height / 2, e2 - e1, height, color⟩]⟩

/-- `plot_profile` (util.py:69-109). -/
noncomputable def plotProfile (rows : List (ℝ × String)) (scale height : ℝ) : Except PyErr Profile :=
  match rows.getLast? with
  | none => .error .indexError
  | some last =>
    profileLoop scale height (invertMapping elementMappings) rows 0 ⟨[⟨0, last.1 * scale, 0, "k"⟩], []⟩

end Verif.Plot
