import Mathlib.Analysis.Real.Sqrt
import Verif.Stats6d.Model

/-!
# Model of `jacobi_eigen_solver6d` (`rsbeams/rsstats/stats6d.py:85-168`)

Floats are exact reals.
-/

namespace Verif.Stats6d

/-- Local variables of the solver: `sigma6D` (modified in place; only the upper triangle is
used), `eVals`, `bTemp`, `zTemp`, `eVecs`. `numRotations` is only counted and is left out. -/
structure JState where
  sigma : Fin 6 → Fin 6 → ℝ
  ev : Fin 6 → ℝ
  b : Fin 6 → ℝ
  z : Fin 6 → ℝ
  vecs : Fin 6 → Fin 6 → ℝ

/-- Set-up (stats6d.py:87-96). -/
noncomputable def jInit (sigma : Fin 6 → Fin 6 → ℝ) : JState :=
  { sigma := sigma, ev := fun i => sigma i i, b := fun i => sigma i i, z := fun _ => 0,
    vecs := fun i j => if i = j then 1 else 0 }

/-- Pairs `(ip, iq)` in loop order: `for ip in range(5): for iq in range(ip+1, 6)`. -/
def pairs : List (Fin 6 × Fin 6) :=
  (List.finRange 6).flatMap fun p => ((List.finRange 6).filter fun q => decide (p < q)).map fun q => (p, q)

/-- `sm` (stats6d.py:101-104). -/
noncomputable def offSum (s : JState) : ℝ := (pairs.map fun pq => |s.sigma pq.1 pq.2|).sum

/-- `tScal` (stats6d.py:124-130). -/
noncomputable def tScal (apq h g : ℝ) : ℝ :=
  if |h| + g = |h| then apq / h
  else
    let theta := (1 / 2) * h / apq
    let t := 1 / (|theta| + Real.sqrt (1 + theta ^ 2))
    if theta < 0 then t * (-1) else t

/-- One rotation of the pair `(p, q)` with sine `s` and `tau` (stats6d.py:139-159).
The four Python loops over `jLoop` touch disjoint pairs of entries and read only the
entries they write, so they are written as one simultaneous update. -/
noncomputable def rotSigma (sg : Fin 6 → Fin 6 → ℝ) (p q : Fin 6) (s tau : ℝ) :
    Fin 6 → Fin 6 → ℝ := fun r c =>
  if r = p ∧ c = q then 0
  else if r < p ∧ c = p then sg r p - s * (sg r q + sg r p * tau)
  else if r < p ∧ c = q then sg r q + s * (sg r p - sg r q * tau)
  else if r = p ∧ p < c ∧ c < q then sg p c - s * (sg c q + sg p c * tau)
  else if c = q ∧ p < r ∧ r < q then sg r q + s * (sg p r - sg r q * tau)
  else if r = p ∧ q < c then sg p c - s * (sg q c + sg p c * tau)
  else if r = q ∧ q < c then sg q c + s * (sg p c - sg q c * tau)
  else sg r c

/-- The update of `eVecs` (stats6d.py:154-158). -/
noncomputable def rotVecs (v : Fin 6 → Fin 6 → ℝ) (p q : Fin 6) (s tau : ℝ) :
    Fin 6 → Fin 6 → ℝ := fun j c =>
  if c = p then v j p - s * (v j q + v j p * tau)
  else if c = q then v j q + s * (v j p - v j q * tau)
  else v j c

/-- Body of the double loop for one pair (stats6d.py:116-160). `nMaster` is the sweep. -/
noncomputable def jStep (nMaster : Nat) (threshold : ℝ) (s : JState) (pq : Fin 6 × Fin 6) : JState :=
  let p := pq.1
  let q := pq.2
  let apq := s.sigma p q
  let g := 100 * |apq|
  if nMaster > 3 ∧ |s.ev p + g| = |s.ev p| ∧ |s.ev q + g| = |s.ev q| then
    { s with sigma := fun r c => if r = p ∧ c = q then 0 else s.sigma r c }
  else if |apq| > threshold then
    let h := s.ev q - s.ev p
    let t := tScal apq h g
    let c := 1 / Real.sqrt (1 + t ^ 2)
    let sn := t * c
    let tau := sn / (1 + c)
    let h' := t * apq
    { sigma := rotSigma s.sigma p q sn tau
      ev := fun i => if i = p then s.ev p - h' else if i = q then s.ev q + h' else s.ev i
      b := s.b
      z := fun i => if i = p then s.z p - h' else if i = q then s.z q + h' else s.z i
      vecs := rotVecs s.vecs p q sn tau }
  else s

/-- End of a sweep (stats6d.py:162-166). -/
noncomputable def jCollect (s : JState) : JState :=
  { s with b := fun i => s.b i + s.z i, ev := fun i => s.b i + s.z i, z := fun _ => 0 }

/-- `threshold` (stats6d.py:111-114). -/
noncomputable def jThreshold (nMaster : Nat) (sm : ℝ) : ℝ :=
  if nMaster < 3 then 0.2 * sm / 36 else 0

/-- One pass of the master loop after the convergence check. -/
noncomputable def jSweep (nMaster : Nat) (s : JState) : JState :=
  jCollect (pairs.foldl (jStep nMaster (jThreshold nMaster (offSum s))) s)

/-- The master loop (stats6d.py:98-168): `left` sweeps remain, the next one is `nMaster`. -/
noncomputable def jLoop : Nat → Nat → JState → Except PyErr ((Fin 6 → ℝ) × (Fin 6 → Fin 6 → ℝ))
  | 0, _, _ => .error .exception
  | left + 1, nMaster, s =>
    if offSum s = 0 then .ok (s.ev, s.vecs)
    else jLoop left (nMaster + 1) (jSweep nMaster s)

/-- `jacobi_eigen_solver6d` (stats6d.py:85-168): `(eVals, eVecs)`. -/
noncomputable def jacobi (sigma : Fin 6 → Fin 6 → ℝ) :
    Except PyErr ((Fin 6 → ℝ) × (Fin 6 → Fin 6 → ℝ)) :=
  jLoop 50 0 (jInit sigma)

/-- `rm_correlations6d` (stats6d.py:67-83), the array after the call. `sigmaM` is a new
matrix, so the solver's changes to it are not seen; the rotated data are those left by
`calc_correlations6d`. -/
noncomputable def rmCorrelations (a : Arr) : Except PyErr Arr := do
  let (sigmaM, arr) ← calcCorrelations a
  let (_, eigVecs) ← jacobi sigmaM
  .ok (rotate eigVecs arr)

end Verif.Stats6d
