import Mathlib.Algebra.Order.Field.Basic
import Mathlib.Algebra.BigOperators.Group.List.Basic
import Verif.Py.Basic

/-!
# Model of `rsbeams/rsstats/sample.py`

Numbers are elements of a linearly ordered field. The drawn numbers are inputs. The cubic spline of scipy is a
parameter: any function of the nodes, the values and the place.
-/

namespace Verif.Sample

variable {K : Type} [Field K] [LinearOrder K]

/-- The loop of `_calculate_cdf` (sample.py:18-22). -/
def cdfLoop (total : K) : K → List K → List K
  | _, [] => []
  | cumulative, w :: ws => (cumulative + w) / total :: cdfLoop total (cumulative + w) ws

/-- `_calculate_cdf` (sample.py:6-23). -/
def calculateCdf (weights : List K) : List K := cdfLoop weights.sum 0 weights

/-- Values for `args`: nothing, a number, or a tuple. -/
inductive Args (K : Type)
  | none
  | num (v : K)
  | tuple (vs : List K)
  deriving DecidableEq, Repr

/-- The arguments the distribution is called with (sample.py:42-49): numbers are put into a
tuple; false values (zero, the empty tuple) are left out. -/
def Args.passed : Args K → List K
  | .none => []
  | .num v => if v = 0 then [] else [v]
  | .tuple vs => vs

/-- A vectorised distribution function `f(grid, *args)`. -/
abbrev Dist (K : Type) := List K → List K → List K

/-- `cdf_on_grid` (sample.py:26-52). -/
def cdfOnGrid (f : Dist K) (grid : List K) (args : Args K) : List K :=
  calculateCdf (f grid args.passed)

/-- `np.linspace(a, b, wn)`; for `wn = 1` this is `[a]`. -/
def linspace (a b : K) (wn : Nat) : List K :=
  (List.range wn).map fun (i : Nat) => a + (i : K) * ((b - a) / (wn - 1 : Nat))

/-- `np.searchsorted(a, y)` for a sorted array: number of elements before the first that is not
smaller than `y`. -/
def searchsorted (a : List K) (y : K) : Nat := (a.takeWhile fun v => decide (v < y)).length

/-- `x[i]` for an array of indices; IndexError when one is out of range. -/
def takeAll (x : List K) : List Nat → Except PyErr (List K)
  | [] => .ok []
  | i :: is => match x[i]? with
    | none => .error .indexError
    | some v => match takeAll x is with
      | .error e => .error e
      | .ok vs => .ok (v :: vs)

/-- Keyword arguments `method` and `invert`. -/
structure Options where
  method : String
  invert : String

/-- A numpy array: its shape and its elements in order. -/
structure Arr (α : Type) where
  shape : List Nat
  data : List α
  deriving DecidableEq

/-- The drawn numbers as an array (sample.py:89-95): `np.random.random(n)` has shape `(n,)`,
`Halton(d=1).random(n)` has shape `(n, 1)`. -/
def draw (method : String) (y : List K) : Except PyErr (Arr K) :=
  if method = "random" then .ok ⟨[y.length], y⟩
  else if method = "halton" then .ok ⟨[y.length, 1], y⟩
  else .error .notImplementedError

/-- The function that `scipy.interpolate.interp1d(xs, ys, kind='cubic', fill_value='extrapolate')` makes. -/
abbrev Spline (K : Type) := List K → List K → K → K

/-- `interp1d` and its call (sample.py:101-103): ValueError if the lists have different lengths, if there are fewer than four nodes, and if two
nodes are equal. -/
def interpolate (spline : Spline K) (xs ys : List K) (at' : List K) : Except PyErr (List K) :=
  if xs.length ≠ ys.length then .error .valueError
  else if xs.length < 4 then .error .valueError
  else if xs.Nodup then .ok (at'.map (spline xs ys))
  else .error .valueError

/-- `sample` (sample.py:55-105). `y` are the drawn numbers, uniform or Halton, `y.length` is the `n`
of the call. -/
def sample (spline : Spline K) (f : Dist K) (a b : K) (args : Args K) (wn : Nat) (opt : Options) (y : List K) :
    Except PyErr (Arr K) :=
  let x := linspace a b wn
  let cdf := cdfOnGrid f x args
  match draw opt.method y with
  | .error e => .error e
  | .ok ys =>
    if opt.invert = "numeric" then
      match takeAll x (ys.data.map (searchsorted cdf)) with
      | .error e => .error e
      | .ok vs => .ok ⟨ys.shape, vs⟩
    else if opt.invert = "interpolate" then
      match interpolate spline cdf x ys.data with
      | .error e => .error e
      | .ok vs => .ok ⟨ys.shape, vs⟩
    else .error .notImplementedError

end Verif.Sample
