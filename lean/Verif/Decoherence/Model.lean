import Mathlib.MeasureTheory.Integral.IntervalIntegral.Basic
import Mathlib.Analysis.SpecialFunctions.Trigonometric.Basic
import Verif.Py.Basic

/-!
# Model of `rsphysics/decoherence.py`

Floats are exact reals, the arguments are Python floats (the turn numbers integers). `scipy.integrate.quad` is the exact integral and
`scipy.special.fresnel` the exact Fresnel integrals. `none` is NaN. The pool of processes is `map`. Arrays of amplitudes
(decoherence.py:59-61) are in `ArrayAny.lean`.
-/

namespace Verif.Decoherence

/-- Attributes of `CentroidPosition` (decoherence.py:13-30). -/
structure Centroid where
  N : Int
  Z : ℝ
  nu0 : ℝ
  mu : List ℝ

/-- The loop over the coefficients (decoherence.py:42-46). -/
noncomputable def advanceLoop (a : ℝ) (n : Int) : List ℝ → Nat → ℝ → ℝ
  | [], _, advance => advance
  | m :: mu, order, advance => advanceLoop a n mu (order + 1) (advance + m * a ^ order / (2 * Real.pi * n) ^ (order - 1))

/-- `_reduced_integrand` (decoherence.py:32-63) for a number `a`. -/
noncomputable def Centroid.integrand (c : Centroid) (n : Int) (a : ℝ) : ℝ :=
  let advance := advanceLoop a n c.mu 1 0
  let coeff := c.Z / (2 * n)
  let constSlip := 2 * Real.pi * c.nu0 * n
  let angular := Real.cos constSlip * Real.cos advance + Real.sin constSlip * Real.sin advance
  let maxa := 1 * 2 * Real.pi * n
  coeff * if a ≤ maxa then angular / 1 / Real.pi else 0

/-- `integrate_any_order` (decoherence.py:65-85). -/
noncomputable def Centroid.anyOrder (c : Centroid) (turn : Option Int) : ℝ :=
  let n := turn.getD c.N
  if n = 0 then c.Z else ∫ a in (0 : ℝ)..(2 * Real.pi * n), c.integrand n a

/-- `integrate_first_order` (decoherence.py:87-108). -/
noncomputable def Centroid.firstOrder (c : Centroid) (turn : Option Int) : Except PyErr ℝ :=
  let n := turn.getD c.N
  if n = 0 then .ok c.Z
  else match c.mu with
    | [] => .error .indexError
    | m :: _ =>
      if 2 * Real.pi * n * m = 0 then .error .zeroDivisionError
      else .ok (c.Z / (2 * Real.pi * n * m) *
        (Real.cos (2 * Real.pi * c.nu0 * n) * Real.sin (2 * Real.pi * n * m) +
          2 * Real.sin (2 * Real.pi * c.nu0 * n) * Real.sin (Real.pi * n * m) ^ 2))

/-- Sine integral of `scipy.special.fresnel`. -/
noncomputable def fresnelS (x : ℝ) : ℝ := ∫ t in (0 : ℝ)..x, Real.sin (Real.pi * t ^ 2 / 2)

/-- Cosine integral of `scipy.special.fresnel`. -/
noncomputable def fresnelC (x : ℝ) : ℝ := ∫ t in (0 : ℝ)..x, Real.cos (Real.pi * t ^ 2 / 2)

/-- The inner function of `integrate_second_order` (decoherence.py:127-132) where the root is a number. -/
noncomputable def Centroid.second (c : Centroid) (m0 m1 : ℝ) (u : ℝ) (n : Int) : ℝ :=
  let x := (m0 * n * Real.pi + m1 * u) / Real.sqrt (m1 * n * Real.pi ^ 2)
  let term1 := Real.cos (Real.pi * m0 ^ 2 * n / (2 * m1) + 2 * Real.pi * c.nu0 * n)
  let term2 := Real.sin (Real.pi * m0 ^ 2 * n / (2 * m1) + 2 * Real.pi * c.nu0 * n)
  fresnelC x * term1 + fresnelS x * term2

/-- `integrate_second_order` (decoherence.py:110-136). For `mu[1]` zero the quotient in `term1` is a division by zero. -/
noncomputable def Centroid.secondOrder (c : Centroid) (turn : Option Int) : Except PyErr (Option ℝ) :=
  let n := turn.getD c.N
  if n = 0 then .ok (some c.Z)
  else match c.mu with
    | m0 :: m1 :: _ =>
      if m1 = 0 then .error .zeroDivisionError
      else if m1 * n < 0 then .ok none
      else .ok (some ((c.second m0 m1 (2 * Real.pi * n) n - c.second m0 m1 0 n) * c.Z / Real.sqrt (4 * m1 * n)))
    | _ => .error .indexError

/-- The function chosen by `calculate_centroids` (decoherence.py:162-167). -/
noncomputable def Centroid.chosen (c : Centroid) (n : Int) : Except PyErr (Option ℝ) :=
  if c.mu.length = 1 then (c.firstOrder (some n)).map some
  else if c.mu.length = 2 then c.secondOrder (some n)
  else .ok (some (c.anyOrder (some n)))

/-- `calculate_centroids` (decoherence.py:138-173). -/
noncomputable def Centroid.calculate (c : Centroid) : Except PyErr (List (Option ℝ)) :=
  ((List.range c.N.toNat).map fun n : Nat => (n : Int)).mapM c.chosen

end Verif.Decoherence
