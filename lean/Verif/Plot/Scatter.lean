import Mathlib.Algebra.Order.Floor.Ring
import Mathlib.Data.Real.Archimedean
import Verif.Plot.Histogram

/-!
# Model of `rsplot/RsScatterPS6D.py` and of the contour levels of `rsplot/plot_ptcls.py`

Floats are exact reals. Of the plot only the limits, the labels and the title are kept, and not the state after an exception.
-/

namespace Verif.Plot

/-- Attributes of `RsScatterPS6D` (RsScatterPS6D.py:19-35). The labels are an array of strings of five characters. -/
structure Scatter where
  data : List (List ℝ)
  labels : List (List Char)
  title : List Char
  figNum : Nat

/-- The labels of a new object (RsScatterPS6D.py:32). -/
def firstLabels : List (List Char) :=
  [['x', ' ', '[', 'm', ']'], ['p', 'x', '/', 'p', '0'], ['y', ' ', '[', 'm', ']'], ['p', 'y', '/', 'p', '0'], ['s', ' ', '[', 'm', ']'],
   ['d', 'p', '/', 'p', '0']]

/-- `__init__` (RsScatterPS6D.py:19-35) for a phase space of six rows. -/
def newScatter (numPtcls : Int) (data : List (List ℝ)) : Except PyErr Scatter :=
  if numPtcls > 1 then .ok ⟨data, firstLabels, "no plot title specified".toList, 0⟩
  else .error .exception

/-- An index into an array of length `n`; negative ones count from the end. -/
def arrayIndex (n : Nat) (i : Int) : Except PyErr Nat :=
  if 0 ≤ i ∧ i < n then .ok i.toNat
  else if i < 0 ∧ -(n : Int) ≤ i then .ok (i + n).toNat
  else .error .indexError

/-- What numpy stores of a string in an array of strings of five characters: the first five, without the NUL characters at the end. -/
def stored (label : List Char) : List Char := ((label.take 5).reverse.dropWhile fun c => c = '\x00').reverse

/-- `set_label` (RsScatterPS6D.py:44-46). -/
def Scatter.setLabel (p : Scatter) (i : Int) (label : List Char) : Except PyErr Scatter :=
  match arrayIndex p.labels.length i with
  | .error e => .error e
  | .ok k => .ok { p with labels := p.labels.set k (stored label) }

/-- `get_label` (RsScatterPS6D.py:48-49). -/
def Scatter.getLabel (p : Scatter) (i : Int) : Except PyErr (List Char) :=
  match arrayIndex p.labels.length i with
  | .error e => .error e
  | .ok k => .ok (p.labels.getD k [])

/-- The symmetric limits of an axis (RsScatterPS6D.py:62-67 and 69-74). -/
noncomputable def limits : List ℝ → Except PyErr (ℝ × ℝ)
  | [] => .error .valueError
  | x :: l =>
    let lo := minOf x l
    let hi := maxOf x l
    if -lo > hi then .ok (lo, |lo|) else .ok (-hi, hi)

/-- A plot. -/
structure Plotted where
  h : List ℝ
  v : List ℝ
  hLim : ℝ × ℝ
  vLim : ℝ × ℝ
  xlabel : List Char
  ylabel : List Char
  title : List Char
  figure : Nat

/-- `plot_data6d` (RsScatterPS6D.py:58-85). -/
noncomputable def Scatter.plot (p : Scatter) (hi vi : Int) : Except PyErr (Plotted × Scatter) :=
  match arrayIndex p.data.length hi, arrayIndex p.data.length vi with
  | .ok i, .ok j =>
    match limits (p.data.getD i []), limits (p.data.getD j []) with
    | .ok hl, .ok vl =>
      match p.getLabel hi, p.getLabel vi with
      | .ok xl, .ok yl =>
        .ok (⟨p.data.getD i [], p.data.getD j [], hl, vl, xl, yl, p.title, p.figNum + 1⟩, { p with figNum := p.figNum + 1 })
      | .error e, _ => .error e
      | _, .error e => .error e
    | .error e, _ => .error e
    | _, .error e => .error e
  | .error e, _ => .error e
  | _, .error e => .error e

/-- `numpy.rint`: ties go to the even number. -/
noncomputable def rint (x : ℝ) : ℤ :=
  if x - ⌊x⌋ < 1 / 2 then ⌊x⌋
  else if 1 / 2 < x - ⌊x⌋ then ⌊x⌋ + 1
  else if Even ⌊x⌋ then ⌊x⌋ else ⌊x⌋ + 1

/-- `numpy.around(x, decimals=3)`. -/
noncomputable def around3 (x : ℝ) : ℝ := rint (x * 1000) / 1000

/-- The largest and the smallest level (plot_ptcls.py:136-143). -/
noncomputable def levelRange (x : ℝ) (l : List ℝ) (multiplier : ℝ) : ℝ × ℝ :=
  let hi := multiplier * maxOf x l
  let lo := multiplier * minOf x l
  if |lo| < hi then (-around3 hi, around3 hi) else (around3 lo, |around3 lo|)

/-- `gen_contour_levels` (plot_ptcls.py:133-150) for a field of these values. -/
noncomputable def contourLevels (field : List ℝ) (n : Int) (multiplier : ℝ) : Except PyErr (List ℝ) :=
  match field with
  | [] => .error .valueError
  | x :: l =>
    let r := levelRange x l multiplier
    let delta := (r.2 - r.1) / n
    .ok ((List.range n.toNat).map fun i : Nat => r.1 + i * delta)

end Verif.Plot
