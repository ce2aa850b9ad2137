import Verif.Plot.Profile
import Verif.Plot.Symbol

/-!
# Model of `beamline_profile` of `rsplot/beam_plots.py`

Floats are exact reals and texts are lists of characters. The objects of matplotlib are the data and labels given to them; figure size,
fonts, axis limits and the saved file are left out (they do not depend on the data).
-/

namespace Verif.Plot

/-- One page of `sdds.columns`: the columns of numbers by name, and the column `ElementType` if there is one. -/
structure Table where
  nums : List (String × List ℝ)
  types : Option (List String)

/-- The entries of `_data_descriptions['&column'][name]` (SDDS.py:485-492) that are used. -/
structure ColText where
  symbol : List Char
  units : List Char
  description : List Char

/-- An open SDDS file: the pages and the descriptions of the columns. -/
structure Open where
  pages : List Table
  texts : List (String × ColText)

/-- One line of the plot. -/
structure Curve where
  xs : List ℝ
  ys : List ℝ
  label : List Char

/-- The plot. -/
structure BeamPlot where
  profile : Profile
  curves : List Curve
  ylabel : List Char

/-- `sdds.columns[page]`. -/
def pageAt (pages : List Table) (page : Int) : Option Table :=
  if 0 ≤ page then pages[page.toNat]? else if (-page).toNat ≤ pages.length then pages[pages.length - (-page).toNat]? else none

/-- A field of a structured array; numpy raises ValueError for an unknown name. -/
def Table.field (t : Table) (name : String) : Except PyErr (List ℝ) :=
  match t.nums.lookup name with
  | none => .error .valueError
  | some l => .ok l

/-- The label of a quantity (beam_plots.py:40-44, 53-57). -/
def labelOf (o : Open) (q : String) : Except PyErr (List Char) :=
  match o.texts.lookup q with
  | none => .error .keyError
  | some t => if t.symbol ≠ [] then formatSymbol t.symbol true else .ok t.description

/-- The text of the units of a quantity (beam_plots.py:65-69). -/
def unitsOf (o : Open) (q : String) : Except PyErr (List Char) :=
  match o.texts.lookup q with
  | none => .error .keyError
  | some t => if t.units ≠ [] then formatSymbol t.units true else .ok "$-$".toList

/-- The line of a quantity (beam_plots.py:37-45). -/
def curveOf (o : Open) (t : Table) (q : String) : Except PyErr Curve := do
  let xs ← t.field "s"
  let ys ← t.field q
  let label ← labelOf o q
  .ok ⟨xs, ys, label⟩

/-- `",".join(l)`. -/
def joinComma : List (List Char) → List Char
  | [] => []
  | [a] => a
  | a :: l => a ++ ',' :: joinComma l

/-- `util.plot_profile(sdds_columns, ax1, height=0.25)` (beam_plots.py:35; util.py:69-109): the column `s` is used first, then, for
tables with rows, the column `ElementType`. -/
noncomputable def profileOf (t : Table) : Except PyErr Profile := do
  let s ← t.field "s"
  if s = [] then .error .indexError
  else match t.types with
    | none => .error .valueError
    | some ts => plotProfile (s.zip ts) 1 (1 / 4)

/-- `quantities` after beam_plots.py:27-28. -/
def quantitiesOf : Option (List String) → List String
  | none => ["Sx", "Sy"]
  | some [] => ["Sx", "Sy"]
  | some l => l

/-- `beamline_profile` (beam_plots.py:14-81). -/
noncomputable def beamlineProfile (o : Open) (page : Int) (quantities : Option (List String)) : Except PyErr BeamPlot :=
  match pageAt o.pages page with
  | none => .error .indexError
  | some t => do
    let qs := quantitiesOf quantities
    let profile ← profileOf t
    let curves ← qs.mapM (curveOf o t)
    let labels ← qs.mapM (labelOf o)
    let units ← qs.mapM (unitsOf o)
    .ok ⟨profile, curves, joinComma labels ++ " (".toList ++ joinComma units ++ ")".toList⟩

end Verif.Plot
