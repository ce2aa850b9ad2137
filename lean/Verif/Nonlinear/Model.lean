import Mathlib.Analysis.SpecialFunctions.Trigonometric.Basic
import Verif.Py.Basic

/-!
# Model of `rslattice/nonlinear.py`

Floats are exact reals and the arguments are Python floats. Phases that are multiples of one half, where the
tangent is zero or infinite, and negative lengths, where the square roots are NaN, are `notModelled`.
`validate_sequence` does nothing.
-/

namespace Verif.Nonlinear

/-- Attributes set by `NonlinearInsert.__init__` (nonlinear.py:46-59). -/
structure Insert where
  length : ℝ
  phase : ℝ
  t : ℝ
  c : ℝ
  slices : Int

/-- Attributes set by `generate_sequence`. -/
structure Sequence where
  sVals : List ℝ
  beta0 : ℝ
  betas : List ℝ
  knll : List ℝ
  cnll : List ℝ

/-- `self.c = v` (nonlinear.py:66-70): the name `c` is not defined. -/
noncomputable def Insert.setC (i : Insert) (v : ℝ) : Insert × Option PyErr :=
  if v < 0 then (i, some .valueError) else (i, some .nameError)

/-- `np.linspace(start, stop, n)`. -/
noncomputable def linspace (start stop : ℝ) (n : Int) : Except PyErr (List ℝ) :=
  if n < 0 then .error .valueError
  else .ok ((List.range n.toNat).map fun k : Nat => start + k * ((stop - start) / (n - 1)))

/-- The focal length (nonlinear.py:76). -/
noncomputable def Insert.f0 (i : Insert) : ℝ := i.length / 4 * (1 + 1 / Real.tan (Real.pi * i.phase) ^ 2)

/-- The beta function at `s` (nonlinear.py:92-96). -/
noncomputable def Insert.beta (i : Insert) (s : ℝ) : ℝ :=
  i.length * (1 - s * (i.length - s) / i.length / i.f0) / Real.sqrt (1 - (1 - i.length / 2 / i.f0) ^ 2)

open Classical in
/-- `generate_sequence` (nonlinear.py:72-105). `start` divides by the number of slices, the expression for `beta0` by the
length. -/
noncomputable def Insert.generate (i : Insert) : Except PyErr Sequence :=
  if (∃ m : ℤ, i.phase = m / 2) ∨ i.length < 0 then .error .notModelled
  else if i.slices = 0 then .error .zeroDivisionError
  else
    let start := i.length / i.slices * (1 / 2)
    let stop := i.length - start
    match linspace start stop i.slices with
    | .error e => .error e
    | .ok s =>
      if i.length = 0 then .error .zeroDivisionError
      else
        let beta0 := i.length * (1 - 0 * i.length / i.length / i.f0) / Real.sqrt (1 - (1 - i.length / 2 / i.f0) ^ 2)
        let bn := s.map i.beta
        let knn := bn.map fun b => i.t * i.length / i.slices / b ^ 2
        let cnll := bn.map fun b => i.c * Real.sqrt b
        .ok ⟨s, beta0, bn, List.zipWith (fun k c => k * c ^ 2) knn cnll, cnll⟩

/-- `create_madx` (nonlinear.py:121-140) with the formatting of numbers as an argument. -/
def Sequence.madx (num : ℝ → String) (s : Sequence) : List String :=
  List.zipWith (fun k c => "nllens, knll = " ++ num k ++ ", cnll = " ++ num c ++ ";") s.knll s.cnll

end Verif.Nonlinear
