import Mathlib.Algebra.Order.Floor.Ring
import Mathlib.Data.Real.Archimedean
import Mathlib.Algebra.BigOperators.Group.List.Basic
import Verif.Py.Basic

/-!
# Model of the histograms of `rsplot/util.py` and of the current in `rsplot/beam_plots.py`

Floats are exact reals, so that the corrections for rounding in `np.histogram` do nothing. The charge is a Python float.
-/

namespace Verif.Plot

/-- `min` of a list with this first entry. -/
noncomputable def minOf (x : ℝ) (l : List ℝ) : ℝ := l.foldl min x

/-- `max` of a list with this first entry. -/
noncomputable def maxOf (x : ℝ) (l : List ℝ) : ℝ := l.foldl max x

/-- The range of `np.histogram`: 0 to 1 without data, and one unit around equal data. -/
noncomputable def histRange : List ℝ → ℝ × ℝ
  | [] => (0, 1)
  | x :: l => if minOf x l = maxOf x l then (minOf x l - 1 / 2, maxOf x l + 1 / 2) else (minOf x l, maxOf x l)

/-- The edge number `k` of `n` bins. -/
noncomputable def edge (r : ℝ × ℝ) (n k : Nat) : ℝ := r.1 + k * ((r.2 - r.1) / n)

/-- The bin of a number: the last bin has its upper edge. -/
noncomputable def binOf (r : ℝ × ℝ) (n : Nat) (x : ℝ) : Nat :=
  let i := ⌊(x - r.1) / (r.2 - r.1) * n⌋.toNat
  if i = n then n - 1 else i

/-- `np.histogram(data, bins=n)`: counts and edges. -/
noncomputable def histogram (data : List ℝ) (n : Int) : Except PyErr (List Nat × List ℝ) :=
  if n < 1 then .error .valueError
  else
    let r := histRange data
    let m := n.toNat
    .ok ((List.range m).map fun k => data.countP fun x => decide (binOf r m x = k), (List.range (m + 1)).map fun k => edge r m k)

/-- The middle points of neighbouring edges (util.py:114 and 124). -/
noncomputable def centers : List ℝ → List ℝ
  | a :: b :: l => (b + a) / 2 :: centers (b :: l)
  | _ => []

/-- `get_histogram_points` (util.py:112-116). -/
noncomputable def histogramPoints (data : List ℝ) (n : Int) : Except PyErr (List ℝ × List Nat) :=
  match histogram data n with
  | .error e => .error e
  | .ok (counts, bins) => .ok (centers bins, counts)

/-- `np.average`. -/
noncomputable def average (l : List ℝ) : ℝ := l.sum / l.length

/-- `get_current_from_t` (util.py:119-127). -/
noncomputable def currentFromT (times : List ℝ) (charge : ℝ) (n : Int) : Except PyErr (List ℝ × List ℝ) :=
  if times = [] then .error .zeroDivisionError
  else
    let q := charge / times.length
    match histogram (times.map fun t => t - average times) n with
    | .error e => .error e
    | .ok (counts, bins) =>
      let len := bins.getD 1 0 - bins.getD 0 0
      .ok (centers bins, counts.map fun (c : Nat) => (c : ℝ) * q / len)

/-- The argument `charge` of `longitudinal_phase_space`. -/
inductive ChargeArg where
  | auto
  | value (q : ℝ)

/-- The charge and the flag for normalised counts (beam_plots.py:170-184). `param` is the parameter `Charge` of the page. A name that is
not a field of the page raises ValueError, which is not caught. -/
noncomputable def chargeOf (arg : ChargeArg) (param : Option ℝ) : Except PyErr (ℝ × Bool) :=
  match arg with
  | .value q => .ok (q, false)
  | .auto =>
    match param with
    | none => .error .valueError
    | some q => if q = 0 then .ok (1, true) else .ok (q, false)

/-- The current and its label (beam_plots.py:166-192): `t` has the average subtracted before `get_current_from_t`. -/
noncomputable def longitudinalCurrent (times : List ℝ) (arg : ChargeArg) (param : Option ℝ) : Except PyErr (List ℝ × List ℝ × String) :=
  match chargeOf arg param with
  | .error e => .error e
  | .ok (q, normalized) =>
    match currentFromT (times.map fun t => t - average times) q 256 with
    | .error e => .error e
    | .ok (bins, current) =>
      if normalized then
        match current with
        | [] => .error .valueError
        | x :: l => .ok (bins, current.map fun c => c / maxOf x l, "Counts ()")
      else .ok (bins, current, "Current (A)")

end Verif.Plot
