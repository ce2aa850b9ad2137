import Verif.Kinematic.Rounded
import Verif.Nonlinear.Model

/-!
# Model of `generate_sequence` of `rslattice/nonlinear.py` with rounded arithmetic

Every operation is rounded (`Verif.Py.Rounding`). `x**2` is taken as `x * x`. Overflow and underflow are not modelled. The
tangent is an argument. It is a number of numpy, so nothing raises ZeroDivisionError behind it.
-/

namespace Verif.Nonlinear

open Verif.Py Verif.Kinematic

variable (R : Rounding)

/-- `a / b` of two numbers in numpy. -/
noncomputable def fdiv (a b : ℝ) : FVal :=
  if b = 0 then if 0 < a then .inf else if a < 0 then .ninf else .nan else .num (R.rnd (a / b))

/-- `v ** 2` in numpy. -/
noncomputable def fsq : FVal → FVal
  | .num x => .num (R.rnd (x * x))
  | .inf => .inf
  | .ninf => .inf
  | .nan => .nan

/-- `np.sqrt(v)`. -/
noncomputable def fsqrt : FVal → FVal
  | .num x => rsqrt R x
  | .inf => .inf
  | .ninf => .nan
  | .nan => .nan

/-- `a / v` for a number `a`. -/
noncomputable def funder (a : ℝ) : FVal → FVal
  | .num x => fdiv R a x
  | .inf => .num 0
  | .ninf => .num 0
  | .nan => .nan

/-- `v * w`. -/
noncomputable def fmul : FVal → FVal → FVal
  | .num a, w => w.scale R a
  | v, .num b => v.scale R b
  | .nan, _ => .nan
  | _, .nan => .nan
  | .inf, w => w
  | .ninf, .inf => .ninf
  | .ninf, .ninf => .inf

/-- The focal length (nonlinear.py:76) for a tangent `T`. -/
noncomputable def rFocal (L T : ℝ) : ℝ := R.rnd (R.rnd (L / 4) * R.rnd (1 + R.rnd (1 / R.rnd (T * T))))

/-- What stands below the square root (nonlinear.py:88, 95). -/
noncomputable def rRoot (L f : ℝ) : ℝ :=
  let y := R.rnd (1 - R.rnd (R.rnd (L / 2) / f))
  R.rnd (1 - R.rnd (y * y))

/-- A number divided by the square root (nonlinear.py:85-96). -/
noncomputable def rOver (a root : ℝ) : FVal := match rsqrt R root with
  | .num r => fdiv R a r
  | _ => .nan

/-- The initial beta function (nonlinear.py:85-89). -/
noncomputable def rBeta0 (L T : ℝ) : FVal :=
  let f := rFocal R L T
  rOver R (R.rnd (L * R.rnd (1 - R.rnd (R.rnd (R.rnd (0 * L) / L) / f)))) (rRoot R L f)

/-- The beta function at `s` (nonlinear.py:92-96). -/
noncomputable def rBetaAt (L T s : ℝ) : FVal :=
  let f := rFocal R L T
  rOver R (R.rnd (L * R.rnd (1 - R.rnd (R.rnd (R.rnd (s * R.rnd (L - s)) / L) / f)))) (rRoot R L f)

/-- The aperture parameter of a slice with beta function `b` (nonlinear.py:100). -/
noncomputable def rCnll (c : ℝ) (b : FVal) : FVal := (fsqrt R b).scale R c

/-- The strength of a slice with beta function `b` (nonlinear.py:99-101). -/
noncomputable def rKnll (t L : ℝ) (n : ℕ) (c : ℝ) (b : FVal) : FVal :=
  fmul R (funder R (R.rnd (R.rnd (t * L) / n)) (fsq R b)) (fsq R (rCnll R c b))

/-- `self.s_vals` (nonlinear.py:79-82) for `n` slices: `np.linspace` multiplies the step, adds the start and puts the stop at
the end. -/
noncomputable def rSvals (L : ℝ) (n : ℕ) : List ℝ :=
  let start := R.rnd (R.rnd (L / n) * (1 / 2))
  let stop := R.rnd (L - start)
  let step := R.rnd (R.rnd (stop - start) / (n - 1))
  (List.range n).map fun k => if k + 1 = n ∧ 1 < n then stop else R.rnd (R.rnd (k * step) + start)

/-- The attributes set by `generate_sequence` (nonlinear.py:72-105). -/
structure RSequence where
  sVals : List ℝ
  beta0 : FVal
  betas : List FVal
  knll : List FVal
  cnll : List FVal

/-- `generate_sequence` (nonlinear.py:72-105) for a positive length, at least one slice and a tangent other than zero. -/
noncomputable def rGenerate (L T t : ℝ) (n : ℕ) (c : ℝ) : RSequence :=
  let b := (rSvals R L n).map (rBetaAt R L T)
  ⟨rSvals R L n, rBeta0 R L T, b, b.map (rKnll R t L n c), b.map (rCnll R c)⟩

end Verif.Nonlinear
