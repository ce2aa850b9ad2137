import Verif.Plot.Histogram

/-!
# Model of the density plots of `rsplot/beam_plots.py`

Floats are exact reals. A page of an SDDS file is a list of particles. Of the figure, the pictures given to `imshow`, the curves given to
`plot` and their labels are modelled; what matplotlib does with them (interpolation, sizes, saving) is not.
-/

namespace Verif.Plot

/-- One row of the columns `x`, `xp`, `y`, `yp`, `t`, `p` of a page. -/
structure Ptcl where
  x : ℝ
  xp : ℝ
  y : ℝ
  yp : ℝ
  t : ℝ
  p : ℝ

/-- The number found by `np.searchsorted(edges, x, side='right')`; one less on the last edge (`np.histogramdd`). -/
noncomputable def edgesUpTo (edges : List ℝ) (x : ℝ) : Nat :=
  let i := (edges.takeWhile fun e => decide (e ≤ x)).length
  if x = edges.getLastD 0 then i - 1 else i

/-- The edges of `np.histogramdd` for `n` bins in one dimension. -/
noncomputable def edgesOf (data : List ℝ) (n : Nat) : List ℝ := (List.range (n + 1)).map fun k => edge (histRange data) n k

/-- `np.histogram2d(xs, ys, bins=n)`: counts, the first index for x, and the edges. The first and the last row and column, for numbers outside
of the edges, are cut off. -/
noncomputable def histogram2d (pts : List (ℝ × ℝ)) (n : Int) : Except PyErr (List (List Nat) × List ℝ × List ℝ) :=
  if n < 1 then .error .valueError
  else
    let m := n.toNat
    let ex := edgesOf (pts.map fun q => q.1) m
    let ey := edgesOf (pts.map fun q => q.2) m
    .ok ((List.range m).map fun i => (List.range m).map fun j =>
      pts.countP fun q => decide (edgesUpTo ex q.1 = i + 1) && decide (edgesUpTo ey q.2 = j + 1), ex, ey)

/-- `counts.T` for a square array. -/
def transposed (counts : List (List Nat)) : List (List Nat) :=
  (List.range counts.length).map fun j => counts.map fun row => row.getD j 0

/-- Arguments of `imshow` with `origin="lower"`: the first row is at the bottom. -/
structure Image where
  rows : List (List Nat)
  left : ℝ
  right : ℝ
  bottom : ℝ
  top : ℝ

/-- `np.min` of an array that is not empty. -/
noncomputable def npMin : List ℝ → ℝ
  | [] => 0
  | x :: l => minOf x l

/-- `np.max` of an array that is not empty. -/
noncomputable def npMax : List ℝ → ℝ
  | [] => 0
  | x :: l => maxOf x l

/-- One picture (beam_plots.py:120-127, 194-203 and 256-264). -/
noncomputable def density (pts : List (ℝ × ℝ)) (n : Int) : Except PyErr Image :=
  match histogram2d pts n with
  | .error e => .error e
  | .ok (counts, xb, yb) => .ok ⟨transposed counts, npMin xb, npMax xb, npMin yb, npMax yb⟩

/-- The points of the fourth picture of `phase_space` (beam_plots.py:112-116). If the average momentum is zero the quotients are not finite
numbers, and `histogram2d` raises ValueError. -/
noncomputable def timeDelta (page : List Ptcl) : Except PyErr (List (ℝ × ℝ)) :=
  let at' := average (page.map Ptcl.t)
  let ap := average (page.map Ptcl.p)
  if page ≠ [] ∧ ap = 0 then .error .valueError
  else .ok (page.map fun q => ((q.t - at') * 10 ^ 12, (q.p - ap) / ap))

/-- A picture with its two labels. -/
structure Panel where
  image : Image
  xlabel : String
  ylabel : String

/-- `phase_space` (beam_plots.py:84-134). -/
noncomputable def phaseSpace (page : List Ptcl) (bins : Int) : Except PyErr (List Panel) := do
  let a ← density (page.map fun q => (q.x * 10 ^ 3, q.xp * 10 ^ 3)) bins
  let b ← density (page.map fun q => (q.y * 10 ^ 3, q.yp * 10 ^ 3)) bins
  let c ← density (page.map fun q => (q.x * 10 ^ 3, q.y * 10 ^ 3)) bins
  let td ← timeDelta page
  let d ← density td bins
  .ok [⟨a, "x (mm)", "x' (mrad)"⟩, ⟨b, "y (mm)", "y' (mrad)"⟩, ⟨c, "x (mm)", "y (mm)"⟩, ⟨d, "t (ps)", "$\\delta$ ( )"⟩]

/-- A picture with the curves at its side and below: first and second argument of `plot`. -/
structure Projection where
  image : Image
  side : List Nat × List ℝ
  below : List ℝ × List Nat

/-- `phase_space_projection` (beam_plots.py:233-280) for two columns. -/
noncomputable def projection (pts : List (ℝ × ℝ)) : Except PyErr Projection := do
  let (xb, xc) ← histogramPoints (pts.map fun q => q.1 * 10 ^ 3) 256
  let (yb, yc) ← histogramPoints (pts.map fun q => q.2 * 10 ^ 3) 256
  let img ← density (pts.map fun q => (q.1 * 10 ^ 3, q.2 * 10 ^ 3)) 128
  .ok ⟨img, (yc, yb), (xb, xc)⟩

/-- `horizontal_phase_space` (beam_plots.py:221-224). -/
noncomputable def horizontal (page : List Ptcl) : Except PyErr Projection := projection (page.map fun q => (q.x, q.xp))

/-- `vertical_phase_space` (beam_plots.py:227-230). -/
noncomputable def vertical (page : List Ptcl) : Except PyErr Projection := projection (page.map fun q => (q.y, q.yp))

/-- The picture of `longitudinal_phase_space`, the momentum curve and the current curve with its label (beam_plots.py:161-213). -/
structure Longitudinal where
  image : Image
  side : List Nat × List ℝ
  below : List ℝ × List ℝ
  label : String

/-- `longitudinal_phase_space` (beam_plots.py:147-218). -/
noncomputable def longitudinal (page : List Ptcl) (arg : ChargeArg) (param : Option ℝ) : Except PyErr Longitudinal := do
  let times := page.map Ptcl.t
  let (tb, cur, label) ← longitudinalCurrent times arg param
  let (pb, pc) ← histogramPoints (page.map Ptcl.p) 256
  let img ← density (page.map fun q => ((q.t - average times) * 10 ^ 12, q.p)) 128
  .ok ⟨img, (pc, pb), (tb.map fun b => b * 10 ^ 12, cur), label⟩

end Verif.Plot
