import Mathlib.Analysis.Real.Sqrt
import Verif.Stats6d.Jacobi

/-!
# Model of `rsptcls/RsTwiss2D.py`, `RsPhaseSpace6D.py`, `RsDistrib6D.py`, `RsPtclBeam6D.py`

Floats are exact reals. Arguments are Python floats, so dividing by zero raises
ZeroDivisionError. Random numbers are read from a list; when it is used up the result is
`notModelled`. Reading and writing `.npz` files is in `Store.lean`. The plane number is `0, 1, 2`
for x, y, z, and the rows of plane `k` are `2k` and `2k + 1`.
-/

namespace Verif.Ptcls

open Verif.Stats6d

/-- `RsTwiss2D` (RsTwiss2D.py:16-20). -/
structure Twiss where
  alpha : ℝ
  beta : ℝ
  emit : ℝ
  gamma : ℝ

/-- `RsTwiss2D(alpha_rms, beta_rms, emit_rms)` (RsTwiss2D.py:16-20). -/
noncomputable def mkTwiss (alpha beta emit : ℝ) : Except PyErr Twiss :=
  if beta = 0 then .error .zeroDivisionError
  else .ok ⟨alpha, beta, emit, (1 + alpha ^ 2) / beta⟩

/-- `RsPhaseSpace6D`: `num_ptcls` and `array_6d` (RsPhaseSpace6D.py:18-42). -/
structure PhaseSpace where
  num : Nat
  arr : Arr

/-- `RsPhaseSpace6D(num_ptcls)` (RsPhaseSpace6D.py:18-42). -/
noncomputable def newPhaseSpace (n : Int) : Except PyErr PhaseSpace :=
  if 0 < n then .ok ⟨n.toNat, List.replicate n.toNat fun _ => 0⟩ else .error .exception

/-- `set_array_6d` (RsPhaseSpace6D.py:87-89): the number of particles is not updated. -/
def PhaseSpace.setArray (s : PhaseSpace) (a : Arr) : PhaseSpace := { s with arr := a }

/-- `math.sqrt`. -/
noncomputable def msqrt (x : ℝ) : Except PyErr ℝ :=
  if x < 0 then .error .valueError else .ok (Real.sqrt x)

/-- The numbers `fac, f_inv, sin_phi, cos_phi` of one plane. -/
structure Coeffs where
  fac : ℝ
  inv : ℝ
  sin : ℝ
  cos : ℝ

/-- RsDistrib6D.py:180-208. -/
noncomputable def coeffs (alpha beta : ℝ) : Except PyErr Coeffs :=
  if beta = 0 then .error .zeroDivisionError
  else do
    let gamma := (1 + alpha ^ 2) / beta
    let gMinusB := gamma - beta
    let rt ← msqrt (gMinusB ^ 2 + 4 * alpha ^ 2)
    let lo ← msqrt (1 / 2 * (gamma + beta - rt))
    let hi ← msqrt (1 / 2 * (gamma + beta + rt))
    let (fac, inv) := if 0 ≤ gMinusB then (lo, hi) else (hi, lo)
    let (s, c) ← (if alpha = 0 then .ok (0, 1)
      else do
        let s ← msqrt (1 / 2 * (1 - |gMinusB| / rt))
        let c ← msqrt (1 / 2 * (1 + |gMinusB| / rt))
        .ok (s, c) : Except PyErr (ℝ × ℝ))
    .ok ⟨fac, inv, if alpha * gMinusB < 0 then -s else s, c⟩

/-- Row of the position of plane `k`. -/
def ix (k : Fin 3) : Fin 6 := ⟨2 * k.1, by omega⟩

/-- Row of the momentum of plane `k`. -/
def ip (k : Fin 3) : Fin 6 := ⟨2 * k.1 + 1, by omega⟩

/-- One particle: the rows of plane `k` of `a` are computed from the copy `t`
(RsDistrib6D.py:216-219). -/
noncomputable def planeStep (c : Coeffs) (rt : ℝ) (k : Fin 3) (t a : Vec) : Vec := fun i =>
  if i = ix k then rt * (c.fac * c.cos * t (ix k) - c.inv * c.sin * t (ip k))
  else if i = ip k then rt * (c.fac * c.sin * t (ix k) + c.inv * c.cos * t (ip k))
  else a i

/-- The loop over `num_ptcls` particles (RsDistrib6D.py:215-219). -/
noncomputable def planeLoop (c : Coeffs) (rt : ℝ) (k : Fin 3) : Nat → Arr → Arr → Except PyErr Arr
  | 0, _, as => .ok as
  | n + 1, t :: ts, a :: as => match planeLoop c rt k n ts as with
    | .error e => .error e
    | .ok rest => .ok (planeStep c rt k t a :: rest)
  | _ + 1, _, _ => .error .indexError

/-- One pass of the outer loop (RsDistrib6D.py:168-219). -/
noncomputable def onePlane (k : Fin 3) (tw : Twiss) (num : Nat) (temp arr : Arr) : Except PyErr Arr := do
  let c ← coeffs tw.alpha tw.beta
  let rt ← msqrt tw.emit
  planeLoop c rt k num temp arr

/-- `make_twiss_dist_6d` (RsDistrib6D.py:162-223). `mean_p_ev` is not used. -/
noncomputable def makeTwiss (s : PhaseSpace) (tw : Fin 3 → Twiss) : Except PyErr PhaseSpace := do
  let a0 ← onePlane 0 (tw 0) s.num s.arr s.arr
  let a1 ← onePlane 1 (tw 1) s.num s.arr a0
  let a2 ← onePlane 2 (tw 2) s.num s.arr a1
  .ok { s with arr := a2 }

/-- Twiss parameters of plane `k` from the matrix `sigma` (RsDistrib6D.py:126-151). -/
noncomputable def twissOf (sigma : Fin 6 → Fin 6 → ℝ) (k : Fin 3) : Except PyErr Twiss :=
  let emitSQ := sigma (ix k) (ix k) * sigma (ip k) (ip k) - sigma (ix k) (ip k) * sigma (ip k) (ix k)
  if emitSQ ≤ 0 then .error .exception
  else
    let emit := Real.sqrt emitSQ
    mkTwiss (-sigma (ix k) (ip k) / emit) (sigma (ix k) (ix k) / emit) emit

/-- `calc_twiss6d` (RsDistrib6D.py:120-160): the three values stored in `twiss6d`, and the array
after the call, which `calc_correlations6d` modifies. -/
noncomputable def calcTwiss (a : Arr) : Except PyErr (Twiss × Twiss × Twiss) × Arr :=
  match calcCorrelations a with
  | .error e => (.error e, a)
  | .ok (sigma, arr) =>
    (do
      let x ← twissOf sigma 0
      let y ← twissOf sigma 1
      let z ← twissOf sigma 2
      .ok (x, y, z), arr)

/-- `clean_phase_space_6d` (RsDistrib6D.py:105-110). -/
noncomputable def clean (a : Arr) : Except PyErr Arr := do
  let b ← rmCorrelations (subAvg a)
  normalizeRms (subAvg b)

/-- `offset_component` (RsDistrib6D.py:225-233). -/
noncomputable def offsetComponent (a : Arr) (offset : ℝ) (index : Int) : Except PyErr Arr :=
  if index < 0 ∨ 5 < index then .error .exception
  else .ok (a.map fun p i => if (i.1 : Int) = index then p i + offset else p i)

/-- `multiply_component` (RsDistrib6D.py:235-243). -/
noncomputable def multiplyComponent (a : Arr) (factor : ℝ) (index : Int) : Except PyErr Arr :=
  if index < 0 ∨ 5 < index then .error .exception
  else .ok (a.map fun p i => if (i.1 : Int) = index then p i * factor else p i)

/-- One of the two loops of `make_unif_distrib` (RsDistrib6D.py:64-75 and 77-88): `n` points are
still to be made; the list has the numbers drawn from `uniform(0, 1)`. -/
noncomputable def fillBall : Nat → List ℝ → Except PyErr (List (ℝ × ℝ × ℝ) × List ℝ)
  | 0, s => .ok ([], s)
  | n + 1, a :: b :: c :: s =>
    let x := 2 * a - 1
    let y := 2 * b - 1
    let z := 2 * c - 1
    if x ^ 2 + y ^ 2 + z ^ 2 < 1 then
      match fillBall n s with
      | .error e => .error e
      | .ok (ps, s') => .ok ((x, y, z) :: ps, s')
    else fillBall (n + 1) s
  | _ + 1, _ => .error .notModelled

/-- Positions and momenta of the particles. -/
def joinBall : List (ℝ × ℝ × ℝ) → List (ℝ × ℝ × ℝ) → Arr
  | (x, y, z) :: qs, (px, py, pz) :: ps => ![x, px, y, py, z, pz] :: joinBall qs ps
  | _, _ => []

/-- `make_unif_distrib` (RsDistrib6D.py:61-90). -/
noncomputable def makeUniform (n : Nat) (draws : List ℝ) : Except PyErr Arr :=
  match fillBall n draws with
  | .error e => .error e
  | .ok (qs, s) => match fillBall n s with
    | .error e => .error e
    | .ok (ps, _) => .ok (joinBall qs ps)

/-- The loop for one row in `make_gauss_distrib` (RsDistrib6D.py:96-102); the list has the numbers
drawn from the normal distribution. -/
noncomputable def fillRow (fac : ℝ) : Nat → List ℝ → Except PyErr (List ℝ × List ℝ)
  | 0, s => .ok ([], s)
  | n + 1, x :: s =>
    if x * x < fac then
      match fillRow fac n s with
      | .error e => .error e
      | .ok (xs, s') => .ok (x :: xs, s')
    else fillRow fac (n + 1) s
  | _ + 1, [] => .error .notModelled

/-- The rows made by `m` passes of the loop over `nLoop` (RsDistrib6D.py:95-102). -/
noncomputable def fillRows (fac : ℝ) (n : Nat) : Nat → List ℝ → Except PyErr (List (List ℝ))
  | 0, _ => .ok []
  | m + 1, s => match fillRow fac n s with
    | .error e => .error e
    | .ok (row, s') => match fillRows fac n m s' with
      | .error e => .error e
      | .ok rows => .ok (row :: rows)

/-- `make_gauss_distrib` (RsDistrib6D.py:92-103): column `k` of the rows is particle `k`. -/
noncomputable def makeGauss (fac : ℝ) (n : Nat) (draws : List ℝ) : Except PyErr Arr :=
  match fillRows fac n 6 draws with
  | .error e => .error e
  | .ok rows => .ok ((List.range n).map fun k i => (rows.getD i.1 []).getD k 0)

/-- `RsDistrib6D(num_ptcls, distrib_type, max_rms_fac)` (RsDistrib6D.py:22-50). For an unknown
type the message is built from `self.distrib_type`, which does not exist yet. -/
noncomputable def newDistrib (n : Int) (kind : String) (fac : ℝ) (draws : List ℝ) : Except PyErr PhaseSpace :=
  match newPhaseSpace n with
  | .error e => .error e
  | .ok s =>
    if kind ≠ "uniform" ∧ kind ≠ "gaussian" then .error .attributeError
    else if 0 < fac then
      match (if kind = "uniform" then makeUniform s.num draws else makeGauss fac s.num draws) with
      | .error e => .error e
      | .ok a => match clean a with
        | .error e => .error e
        | .ok b => .ok (s.setArray b)
    else .error .exception

/-- `RsPtclBeam6D(...)` (RsPtclBeam6D.py:29-45): the Twiss objects are made first. -/
noncomputable def newBeam (n : Int) (kind : String) (fac : ℝ) (ax bx ex ay by' ey az bz ez : ℝ) (draws : List ℝ) :
    Except PyErr PhaseSpace := do
  let x ← mkTwiss ax bx ex
  let y ← mkTwiss ay by' ey
  let z ← mkTwiss az bz ez
  let s ← newDistrib n kind fac draws
  makeTwiss s ![x, y, z]

/-- `get_beta0_gamma0` (RsPtclBeam6D.py:56-57). -/
noncomputable def beta0gamma0 (p m : ℝ) : Except PyErr ℝ := if m = 0 then .error .zeroDivisionError else .ok (p / m)

/-- `get_gamma0` (RsPtclBeam6D.py:59-60). -/
noncomputable def gamma0 (p m : ℝ) : Except PyErr ℝ := do
  let bg ← beta0gamma0 p m
  msqrt (bg ^ 2 + 1)

/-- `get_beta0` (RsPtclBeam6D.py:62-63). -/
noncomputable def beta0 (p m : ℝ) : Except PyErr ℝ := do
  let bg ← beta0gamma0 p m
  let g ← gamma0 p m
  if g = 0 then .error .zeroDivisionError else .ok (bg / g)

end Verif.Ptcls
