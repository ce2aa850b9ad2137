import Verif.Nonlinear.Rounded

/-!
# Model of `NonlinearBunch.compute_potential` of `rsptcls/bunch.py` with rounded arithmetic

Every operation is rounded (`Verif.Py.Rounding`). `x**2` is taken as `x * x`. Overflow and underflow are not modelled. What
`np.arccosh` and `np.arccos` give for arguments of their domain is a parameter; outside of it they give nan.
-/

namespace Verif.Bunch

open Verif.Py Verif.Kinematic Verif.Nonlinear

variable (R : Rounding)

/-- `np.sqrt(a**2 + yN**2)` (bunch.py:684-687). -/
noncomputable def rRadius (a yN : ℝ) : ℝ := R.rnd (√(R.rnd (R.rnd (a * a) + R.rnd (yN * yN))))

/-- `u` (bunch.py:684-685). -/
noncomputable def rU (xN yN : ℝ) : ℝ := R.rnd (R.rnd (rRadius R (R.rnd (xN + 1)) yN + rRadius R (R.rnd (xN - 1)) yN) / 2)

/-- `v` (bunch.py:686-687). -/
noncomputable def rV (xN yN : ℝ) : ℝ := R.rnd (R.rnd (rRadius R (R.rnd (xN + 1)) yN - rRadius R (R.rnd (xN - 1)) yN) / 2)

/-- Two of the functions of numpy. -/
structure Arc where
  cosh : ℝ → ℝ
  cos : ℝ → ℝ

/-- `elliptic` (bunch.py:689-693). -/
noncomputable def rElliptic (F : Arc) (u v : ℝ) : FVal :=
  match rsqrt R (R.rnd (R.rnd (u * u) - 1)), rsqrt R (R.rnd (1 - R.rnd (v * v))) with
  | .num a, .num b =>
    if u < 1 ∨ 1 < |v| then .nan
    else
      let f2u := R.rnd (R.rnd (u * a) * F.cosh u)
      let g2v := R.rnd (R.rnd (v * b) * R.rnd (-(R.rnd Real.pi) / 2 + F.cos v))
      fdiv R (R.rnd (f2u + g2v)) (R.rnd (R.rnd (u * u) - R.rnd (v * v)))
  | _, _ => .nan

/-- `q + v` for a number `q`. -/
noncomputable def fadd (q : ℝ) : FVal → FVal
  | .num x => .num (R.rnd (q + x))
  | v => v

/-- `compute_potential` (bunch.py:669-697). -/
noncomputable def rPotential (F : Arc) (t c x y : ℝ) : Except PyErr FVal :=
  let quadratic := R.rnd (1 / 2 * R.rnd (R.rnd (x * x) + R.rnd (y * y)))
  if t = 0 then .ok (.num (R.rnd (quadratic + 0)))
  else if c = 0 then .error .zeroDivisionError
  else
    let xN := R.rnd (x / c)
    let yN := R.rnd (y / c)
    .ok (fadd R quadratic ((rElliptic R F (rU R xN yN) (rV R xN yN)).scale R (R.rnd (R.rnd (-1 * t) * R.rnd (c * c)))))

end Verif.Bunch
