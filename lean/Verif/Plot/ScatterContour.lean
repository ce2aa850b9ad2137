import Verif.Plot.Density

/-!
# Model of `scatter_contour` of `rsplot/plot_ptcls.py`

Floats are exact reals. The calls of the axes are recorded; what matplotlib draws is not modelled, apart from the checks of the levels in
`contour` and `contourf` and, as a parameter, the outline that `contour` finds. The calls `ax.lines.remove(line)` and
`set_xscale(…, nonposx=…)` are those of the matplotlib versions before 3.5, for which the code is written.
-/

namespace Verif.Plot

/-- The argument `x_data`: a list of two axis ranges or an array with one entry per particle. -/
inductive XArg where
  | axes (xs ys : List ℝ)
  | array (xs : List ℝ)

/-- The argument `levels`: an integer or an array. -/
inductive LevelsArg where
  | count (n : Int)
  | values (l : List ℝ)

/-- A call of the axes. `removeLine` removes the line of the last `plot`. -/
inductive Call where
  | contour (level : ℝ)
  | contourf (levels : List ℝ)
  | plot (pts : List (ℝ × ℝ))
  | scatter (pts : List (ℝ × ℝ))
  | removeLine
  | xscale (log : Bool)
  | yscale (log : Bool)

/-- The first polygon of a contour line (`allsegs[0][0]`, if any) of these counts and edges at this level, as the test
`Path(outer_poly).contains_points`. -/
abbrev Outline := List (List Nat) × List ℝ × List ℝ → ℝ → Option (ℝ × ℝ → Bool)

/-- `np.linspace(a, b, n)`. -/
noncomputable def linspace (a b : ℝ) (n : Int) : Except PyErr (List ℝ) :=
  if n < 0 then .error .valueError
  else if n = 1 then .ok [a]
  else .ok ((List.range n.toNat).map fun k : Nat => a + k * ((b - a) / (n - 1)))

/-- The levels (plot_ptcls.py:65-68): an integer gives that many between the two numbers. An array of one entry is no integer
for `linspace`. -/
noncomputable def levelsOf (lo hi : ℝ) : LevelsArg → Except PyErr (List ℝ)
  | .count n => linspace lo hi n
  | .values [_] => .error .typeError
  | .values l => .ok l

/-- `levels[np.argmin(levels)]`. -/
noncomputable def lowest : List ℝ → Except PyErr ℝ
  | [] => .error .valueError
  | x :: l => .ok (minOf x l)

/-- Neighbours increase. -/
noncomputable def increasing : List ℝ → Bool
  | a :: b :: l => decide (a < b) && increasing (b :: l)
  | _ => true

/-- `my_hist.max()`. -/
def histMax (counts : List (List Nat)) : Nat := counts.flatten.foldl max 0

/-- The levels that `contourf` accepts: at least two and increasing, otherwise ValueError. -/
noncomputable def filled (levels : List ℝ) : Except PyErr (List Call) :=
  if levels.length < 2 then .error .valueError
  else if increasing levels = false then .error .valueError
  else .ok [.contourf levels]

/-- The levels over axis ranges (plot_ptcls.py:36-38). -/
noncomputable def axesLevels : List ℝ → LevelsArg → Except PyErr (List ℝ)
  | [], .count _ => .error .valueError
  | d :: ds, .count n => linspace (minOf d ds) (maxOf d ds) n
  | _, l => levelsOf 0 0 l

/-- Contours over axis ranges (plot_ptcls.py:35-55). The shape given to `reshape` has two floats, which raises TypeError, so that
line 52 is not reached. Numbers are Python floats. -/
noncomputable def axesContour (xs ys data : List ℝ) (levels : LevelsArg) : Except PyErr (List Call) :=
  match axesLevels data levels with
  | .error e => .error e
  | .ok _ =>
    match xs, ys with
    | x :: xs, y :: ys =>
      if maxOf y ys - minOf y ys = 0 then .error .zeroDivisionError
      else if (maxOf x xs - minOf x xs) / (maxOf y ys - minOf y ys) = 0 then .error .zeroDivisionError
      else .error .typeError
    | _, _ => .error .valueError

/-- Contours of a histogram (plot_ptcls.py:58-83), with the outline. `contour` needs two rows and two columns. -/
noncomputable def histContour (outline : Outline) (threshold : Nat) (xs ys : List ℝ) (divs : Int) (levels : LevelsArg) :
    Except PyErr (List Call × Option (ℝ × ℝ → Bool)) :=
  if xs.length ≠ ys.length then .error .valueError
  else
    match histogram2d (xs.zip ys) divs with
    | .error e => .error e
    | .ok h => do
      let ls ← levelsOf threshold (histMax h.1) levels
      let low ← lowest ls
      if divs < 2 then .error .typeError
      else
        let c ← filled ls
        .ok (.contour low :: c, outline h low)

/-- `np.hstack([x_data[:, None], y_data[:, None]])`. -/
def stacked : XArg → List ℝ → Except PyErr (List (ℝ × ℝ))
  | .axes _ _, _ => .error .typeError
  | .array xs, ys => if xs.length ≠ ys.length then .error .valueError else .ok (xs.zip ys)

/-- The scales (plot_ptcls.py:118-128). -/
def scaleCalls (plotType : String) : List Call :=
  (if plotType = "log-log" ∨ plotType = "semi-logx" then [.xscale true] else []) ++
  (if plotType = "log-log" ∨ plotType = "semi-logy" then [.yscale true] else []) ++
  (if plotType = "linear" ∨ plotType = "semi-logy" then [.xscale false] else []) ++
  (if plotType = "linear" ∨ plotType = "semi-logx" then [.yscale false] else [])

/-- `s.endswith('line')`. -/
def endsLine (s : String) : Bool := "line".toList.isSuffixOf s.toList

/-- `s.startswith('scatter')`. -/
def startsScatter (s : String) : Bool := "scatter".toList.isPrefixOf s.toList

/-- The contours (plot_ptcls.py:33-83) and the outline. -/
noncomputable def contourPart (outline : Outline) (flag : String) (x : XArg) (ys : List ℝ) (divs : Int) (levels : LevelsArg) :
    Except PyErr (List Call × Option (ℝ × ℝ → Bool)) :=
  if flag = "contour" ∨ flag = "combo" then
    match x with
    | .axes a b => match axesContour a b ys levels with
      | .error e => .error e
      | .ok c => .ok (c, none)
    | .array xs => histContour outline (if flag = "combo" then 8 else 1) xs ys divs levels
  else .ok ([], none)

/-- The array `x_plot` (plot_ptcls.py:85-100); not assigned for other flags, which do not use it. -/
def plotted (flag : String) (inside : Option (ℝ × ℝ → Bool)) (x : XArg) (ys : List ℝ) : Except PyErr (List (ℝ × ℝ)) :=
  if flag = "combo" then
    match stacked x ys with
    | .error e => .error e
    | .ok pts => match inside with
      | none => .ok pts
      | some f => .ok (pts.filter fun p => !f p)
  else if startsScatter flag || endsLine flag then stacked x ys
  else .ok []

/-- `scatter_contour` (plot_ptcls.py:31-130). -/
noncomputable def scatterContour (outline : Outline) (flag plotType : String) (x : XArg) (ys : List ℝ) (divs : Int) (levels : LevelsArg) :
    Except PyErr (List Call) := do
  let (c, inside) ← contourPart outline flag x ys divs levels
  let pts ← plotted flag inside x ys
  .ok (c ++ (if flag = "combo" ∨ flag = "scatter" ∨ flag = "scatter-line" then [.plot pts, .scatter pts, .removeLine] else []) ++
    (if endsLine flag then [.plot pts] else []) ++
    (if flag = "line" ∨ flag = "scatter" ∨ flag = "scatter-line" then scaleCalls plotType else []))

end Verif.Plot
