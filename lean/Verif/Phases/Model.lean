import Mathlib.Analysis.SpecialFunctions.Complex.Arg
import Mathlib.Algebra.BigOperators.Group.Finset.Basic
import Verif.Py.Basic

/-!
# Model of `rsptcls/phases.py`

Floats are exact reals; negative zero, infinities and NaN are left out. The tables of coordinates and
the imports have no effect on the two functions.
-/

namespace Verif.Phases

/-- `np.arctan2`. -/
noncomputable def arctan2 (y x : ℝ) : ℝ := Complex.arg ⟨x, y⟩

/-- `phase_advance` (phases.py:35-62) for points `(x, x')`. -/
noncomputable def phaseAdvance (p1 p2 : ℝ × ℝ) (clockwise : Bool) : ℝ :=
  let guess := arctan2 p1.2 p1.1 - arctan2 p2.2 p2.1
  let advance := if guess < 0 then 2 * Real.pi + guess else guess
  if clockwise then advance else 2 * Real.pi - advance

/-- An end of a Python slice, moved into the list. -/
def sliceEnd (len : Nat) (i : Int) : Nat :=
  if i < 0 then (i + len).toNat else min i.toNat len

/-- `l[i:j]`. -/
def slice {α : Type} (l : List α) (i j : Int) : List α :=
  (l.take (sliceEnd l.length j)).drop (sliceEnd l.length i)

/-- `np.fft.fft` at frequency index `m`. -/
noncomputable def dft (l : List ℝ) (m : Nat) : ℂ :=
  ∑ j ∈ Finset.range l.length, (l.getD j 0 : ℂ) * Complex.exp (-(2 * Real.pi * Complex.I * j * m / l.length))

/-- Loop of `np.argmax`: the first index of the largest value. -/
noncomputable def argmaxFrom (best : ℝ) (bestIndex index : Nat) : List ℝ → Nat
  | [] => bestIndex
  | x :: l => if best < x then argmaxFrom x index (index + 1) l else argmaxFrom best bestIndex (index + 1) l

/-- `np.argmax`. -/
noncomputable def argmax : List ℝ → Except PyErr Nat
  | [] => .error .valueError
  | x :: l => .ok (argmaxFrom x 0 1 l)

/-- Coordinates as an array with one axis, or as an array of shape `(n, 1)`. -/
inductive Signal where
  | flat (l : List ℝ)
  | column (l : List ℝ)

/-- `x_c[t_i:t_f]`. -/
def Signal.slice (i j : Int) : Signal → Signal
  | .flat l => .flat (Phases.slice l i j)
  | .column l => .column (Phases.slice l i j)

/-- `len(x_c)`. -/
def Signal.length : Signal → Nat
  | .flat l => l.length
  | .column l => l.length

/-- `np.abs(np.fft.fft(x))` (phases.py:84), flattened. The transform is along the last axis, which has length one in
a column. A transform of no points is refused. -/
noncomputable def spectrum : Signal → Except PyErr (List ℝ)
  | .flat l => if l = [] then .error .valueError else .ok ((List.range l.length).map fun m => ‖dft l m‖)
  | .column l => .ok (l.map fun x => ‖dft [x] 0‖)

/-- `tune_fft` (phases.py:67-92). -/
noncomputable def tuneFft (x : Signal) (ti : Int) (tf : Option Int) : Except PyErr ℝ :=
  let tf := match tf with
    | none => (x.length : Int)
    | some j => if j = 0 then (x.length : Int) else j
  let used := x.slice ti tf
  match spectrum used with
  | .error e => .error e
  | .ok sp => match argmax sp with
    | .error e => .error e
    | .ok m =>
      let q : ℝ := m / used.length
      .ok (if 1 / 2 < q then 1 - q else q)

end Verif.Phases
