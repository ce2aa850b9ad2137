import Verif.Bunch.Model
import Verif.Py.Rounding

/-!
# Model of `distribute_KV` of `rsptcls/bunch.py` with rounded arithmetic

As `Bunch.distributeKV`, with every operation rounded (`Verif.Py.Rounding`). `x**2` is taken as `x * x`; what `np.cos` and `np.sin` give is a
parameter. Overflow and underflow are not modelled.
-/

namespace Verif.Bunch

open Verif.Py

variable (R : Rounding)

/-- Two of the functions of numpy. -/
structure Trig where
  cos : ℝ → ℝ
  sin : ℝ → ℝ

/-- `compute_potential` (bunch.py:278-283). -/
noncomputable def rQuadratic (x y : ℝ) : ℝ := R.rnd (1 / 2 * R.rnd (R.rnd (x * x) + R.rnd (y * y)))

/-- A particle at the normalised position `(x, y)` where the potential is `v`, with energy `h` and the direction of momentum from the drawn
number `r` (bunch.py:234-246). -/
noncomputable def rPlace (T : Trig) (sh : Shape) (h v x y r : ℝ) : P4 :=
  let pMag := R.rnd (Real.sqrt (R.rnd (2 * R.rnd (h - v))))
  let pDir := R.rnd (R.rnd (2 * R.rnd Real.pi) * r)
  let pxHat := R.rnd (pMag * T.cos pDir)
  let pyHat := R.rnd (pMag * T.sin pDir)
  let bx := R.rnd (Real.sqrt sh.bx)
  let byy := R.rnd (Real.sqrt sh.byy)
  ![R.rnd (x * bx), R.rnd (R.rnd (pxHat - R.rnd (sh.ax * x)) / bx), R.rnd (y * byy), R.rnd (R.rnd (pyHat - R.rnd (sh.ay * y)) / byy)]

/-- A trial coordinate from a drawn number (bunch.py:229-230). -/
noncomputable def rTrialCoord (a m : ℝ) : ℝ := R.rnd (R.rnd (2 * R.rnd (1 / 2 - a)) * m)

/-- The loop of `distribute_KV` (bunch.py:227-253) with `n` particles still to be made, as `kvLoop`. Multiplying by 1 and -1 (`mirrors`) needs
no rounding. -/
noncomputable def rKvLoop (T : Trig) (sh : Shape) (quiet : Bool) (h xMax yMax : ℝ) : Nat → Nat → List ℝ → Except PyErr (List P4)
  | _, 0, _ => .ok []
  | 0, _ + 1, _ => .error .notModelled
  | fuel + 1, n + 1, a :: b :: s =>
    let x := rTrialCoord R a xMax
    let y := rTrialCoord R b yMax
    if rQuadratic R x y < h then
      match s with
      | [] => .error .notModelled
      | r :: s' =>
        let q := rPlace R T sh h (rQuadratic R x y) x y r
        match rKvLoop T sh quiet h xMax yMax fuel (if quiet then n - 3 else n) s' with
        | .error e => .error e
        | .ok l => .ok (q :: ((if quiet then mirrors q else []) ++ l))
    else rKvLoop T sh quiet h xMax yMax fuel (n + 1) s
  | _ + 1, _ + 1, _ => .error .notModelled

/-- `StandardBunch.distribute_KV` (bunch.py:203-255); `newton` is the root finder, applied to `whatsleft` (bunch.py:285-288). -/
noncomputable def rDistributeKV (T : Trig) (newton : Newton) (draws : List ℝ) (b : Bunch) : Bunch × Option PyErr :=
  if b.emitx ≠ b.emity then (b, some .assertionError)
  else
    let b' := { b with emit := R.rnd (4 * b.emitx) }
    b'.finish (
      if b'.emit < 0 ∨ b'.shape.bx ≤ 0 ∨ b'.shape.byy ≤ 0 then .error .notModelled
      else match newton (fun y => .ok (some (R.rnd (b'.emit - rQuadratic R 0 y)))) (R.rnd (Real.sqrt b'.emit)) with
        | .error e => .error e
        | .ok yMax => rKvLoop R T b'.shape b'.quiet b'.emit yMax yMax draws.length b'.npart draws)

end Verif.Bunch
