import Verif.Decoherence.Model

/-!
# Model of `_reduced_integrand` of `rsphysics/decoherence.py` for arrays

Real arithmetic, arrays of one dimension, turns other than zero. Empty arrays are taken as in NumPy from 2.2 on, where `if` of an empty array raises
ValueError; before, it was false.
-/

namespace Verif.Decoherence

/-- A number or an array of one dimension. -/
inductive Value
  | num (x : ℝ)
  | arr (l : List ℝ)

/-- Addition of an array of the same length, with broadcasting of numbers. -/
def Value.add : Value → List ℝ → Value
  | .num x, l => .arr (l.map (x + ·))
  | .arr m, l => .arr (List.zipWith (· + ·) m l)

/-- Multiplication by an array of the same length, with broadcasting of numbers. -/
def Value.mul : Value → List ℝ → Value
  | .num x, l => .arr (l.map (x * ·))
  | .arr m, l => .arr (List.zipWith (· * ·) m l)

/-- A function of numpy, or an operation with a number, entry by entry. -/
def Value.map (f : ℝ → ℝ) : Value → Value
  | .num x => .num (f x)
  | .arr l => .arr (l.map f)

/-- The loop over the coefficients (decoherence.py:42-46). -/
noncomputable def advanceArray (a : List ℝ) (n : Int) : List ℝ → Nat → Value → Value
  | [], _, advance => advance
  | m :: mu, order, advance => advanceArray a n mu (order + 1) (advance.add (a.map fun x => m * x ^ order / (2 * Real.pi * n) ^ (order - 1)))

/-- `_reduced_integrand` (decoherence.py:32-63) for an array: the comparison has a truth value for one entry only, otherwise ValueError is caught. -/
noncomputable def Centroid.integrandArray (c : Centroid) (n : Int) (a : List ℝ) : Value :=
  let advance := advanceArray a n c.mu 1 (.num 0)
  let coeff := c.Z / (2 * n)
  let slip := 2 * Real.pi * c.nu0 * n
  let angular := advance.map fun x => Real.cos slip * Real.cos x + Real.sin slip * Real.sin x
  let maxa := 2 * Real.pi * n
  let distr := match a with
    | [x] => if x ≤ maxa then angular.map (· / 1 / Real.pi) else .num 0
    | a => (angular.map (· / 1 / Real.pi)).mul (a.map fun x => if x < maxa then 1 else 0)
  distr.map (coeff * ·)

end Verif.Decoherence
