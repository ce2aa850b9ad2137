import Verif.Plot.Histogram
import Verif.Sample.Rounded

/-!
# Model of the histograms of `rsplot/util.py` with rounded arithmetic

`np.histogram` with a number of bins: the edges are `np.linspace(first, last, n + 1)`; the bin of a number is guessed from its place between
`first` and `last`, and the guess is corrected by one bin with the edges. Numpy up to 1.22 multiplies by `n / (last - first)`, later
versions divide by `last - first` and multiply by `n`. Numbers of bins up to 2^53 are exact. Data so large that adding one half does not
change them have an empty range if they are equal (`notModelled`).
-/

namespace Verif.Plot

open Verif.Py Verif.Sample

variable (R : Rounding)

/-- The range of `np.histogram`, as `histRange`. -/
noncomputable def rHistRange : List ℝ → ℝ × ℝ
  | [] => (0, 1)
  | x :: l => if minOf x l = maxOf x l then (R.rnd (minOf x l - 1 / 2), R.rnd (maxOf x l + 1 / 2)) else (minOf x l, maxOf x l)

/-- The edge number `k` of `n` bins: `np.linspace`. The last edge is set to the end of the range. -/
noncomputable def rEdge (r : ℝ × ℝ) (n k : Nat) : ℝ :=
  if k = n then r.2 else R.rnd (R.rnd (k * R.rnd (R.rnd (r.2 - r.1) / n)) + r.1)

/-- The guess for the bin before truncation; `old` for numpy up to 1.22. -/
noncomputable def rGuess (old : Bool) (r : ℝ × ℝ) (n : Nat) (x : ℝ) : ℝ :=
  if old then R.rnd (R.rnd (x - r.1) * R.rnd (n / R.rnd (r.2 - r.1)))
  else R.rnd (R.rnd (R.rnd (x - r.1) / R.rnd (r.2 - r.1)) * n)

/-- The guess as a number of a bin: the last bin has its upper edge. -/
noncomputable def rFirst (old : Bool) (r : ℝ × ℝ) (n : Nat) (x : ℝ) : Nat :=
  let i := ⌊rGuess R old r n x⌋.toNat
  if i = n then n - 1 else i

/-- The bin of a number. -/
noncomputable def rBin (old : Bool) (r : ℝ × ℝ) (n : Nat) (x : ℝ) : Nat :=
  let i := rFirst R old r n x
  let j := if x < rEdge R r n i then i - 1 else i
  if rEdge R r n (j + 1) ≤ x ∧ j ≠ n - 1 then j + 1 else j

/-- `np.histogram(data, bins=n)`: counts and edges. -/
noncomputable def rHistogram (old : Bool) (data : List ℝ) (n : Int) : Except PyErr (List Nat × List ℝ) :=
  if n < 1 then .error .valueError
  else
    let r := rHistRange R data
    let m := n.toNat
    if r.1 = r.2 then .error .notModelled
    else .ok ((List.range m).map fun k => data.countP fun x => decide (rBin R old r m x = k), (List.range (m + 1)).map fun k => rEdge R r m k)

/-- The middle points of neighbouring edges (util.py:114 and 124). -/
noncomputable def rCenters : List ℝ → List ℝ
  | a :: b :: l => R.rnd (R.rnd (b + a) / 2) :: rCenters (b :: l)
  | _ => []

/-- `get_histogram_points` (util.py:112-116). -/
noncomputable def rHistogramPoints (old : Bool) (data : List ℝ) (n : Int) : Except PyErr (List ℝ × List Nat) :=
  match rHistogram R old data n with
  | .error e => .error e
  | .ok (counts, bins) => .ok (rCenters R bins, counts)

/-- The times around their average (util.py:122). -/
noncomputable def rCentred (times : List ℝ) : List ℝ :=
  times.map fun t => R.rnd (t - R.rnd (npSum R times / times.length))

/-- `get_current_from_t` (util.py:119-127). A length of zero gives `inf` or `nan` with a warning (`notModelled`). -/
noncomputable def rCurrentFromT (old : Bool) (times : List ℝ) (charge : ℝ) (n : Int) : Except PyErr (List ℝ × List ℝ) :=
  if times = [] then .error .zeroDivisionError
  else
    let q := R.rnd (charge / times.length)
    match rHistogram R old (rCentred R times) n with
    | .error e => .error e
    | .ok (counts, bins) =>
      let len := R.rnd (bins.getD 1 0 - bins.getD 0 0)
      if len = 0 then .error .notModelled
      else .ok (rCenters R bins, counts.map fun (c : Nat) => R.rnd (R.rnd ((c : ℝ) * q) / len))

end Verif.Plot
