import Verif.Ptcls.Distrib
import Verif.Py.Rounding

/-!
# Model of `make_unif_distrib` and `make_gauss_distrib` of `rsptcls/RsDistrib6D.py` with rounded arithmetic

As `fillBall` and `fillRow`, with every operation rounded (`Verif.Py.Rounding`). `x**2` is taken as `x * x`. Overflow and underflow are not
modelled.
-/

namespace Verif.Ptcls

open Verif.Py Verif.Stats6d

variable (R : Rounding)

/-- `2. * numpy.random.uniform(0.0,1.0,1) - 1.` for the drawn number `a` (RsDistrib6D.py:66-68, 79-81). -/
noncomputable def rCoord (a : ℝ) : ℝ := R.rnd (R.rnd (2 * a) - 1)

/-- `test_sum` (RsDistrib6D.py:69 and 82). -/
noncomputable def rTestSum (x y z : ℝ) : ℝ := R.rnd (R.rnd (R.rnd (x * x) + R.rnd (y * y)) + R.rnd (z * z))

/-- One of the two loops of `make_unif_distrib` (RsDistrib6D.py:64-75 and 77-88), as `fillBall`. -/
noncomputable def rFillBall : Nat → List ℝ → Except PyErr (List (ℝ × ℝ × ℝ) × List ℝ)
  | 0, s => .ok ([], s)
  | n + 1, a :: b :: c :: s =>
    let x := rCoord R a
    let y := rCoord R b
    let z := rCoord R c
    if rTestSum R x y z < 1 then
      match rFillBall n s with
      | .error e => .error e
      | .ok (ps, s') => .ok ((x, y, z) :: ps, s')
    else rFillBall (n + 1) s
  | _ + 1, _ => .error .notModelled

/-- `make_unif_distrib` (RsDistrib6D.py:61-90). -/
noncomputable def rMakeUniform (n : Nat) (draws : List ℝ) : Except PyErr Arr :=
  match rFillBall R n draws with
  | .error e => .error e
  | .ok (qs, s) => match rFillBall R n s with
    | .error e => .error e
    | .ok (ps, _) => .ok (joinBall qs ps)

/-- The loop for one row in `make_gauss_distrib` (RsDistrib6D.py:96-102), as `fillRow`. -/
noncomputable def rFillRow (fac : ℝ) : Nat → List ℝ → Except PyErr (List ℝ × List ℝ)
  | 0, s => .ok ([], s)
  | n + 1, x :: s =>
    if R.rnd (x * x) < fac then
      match rFillRow fac n s with
      | .error e => .error e
      | .ok (xs, s') => .ok (x :: xs, s')
    else rFillRow fac (n + 1) s
  | _ + 1, [] => .error .notModelled

/-- The rows made by `m` passes of the loop over `nLoop` (RsDistrib6D.py:95-102). -/
noncomputable def rFillRows (fac : ℝ) (n : Nat) : Nat → List ℝ → Except PyErr (List (List ℝ))
  | 0, _ => .ok []
  | m + 1, s => match rFillRow R fac n s with
    | .error e => .error e
    | .ok (row, s') => match rFillRows fac n m s' with
      | .error e => .error e
      | .ok rows => .ok (row :: rows)

/-- `make_gauss_distrib` (RsDistrib6D.py:92-103): column `k` of the rows is particle `k`. -/
noncomputable def rMakeGauss (fac : ℝ) (n : Nat) (draws : List ℝ) : Except PyErr Arr :=
  match rFillRows R fac n 6 draws with
  | .error e => .error e
  | .ok rows => .ok ((List.range n).map fun k i => (rows.getD i.1 []).getD k 0)

end Verif.Ptcls
