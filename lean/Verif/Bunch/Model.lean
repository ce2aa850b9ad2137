import Mathlib.Analysis.SpecialFunctions.Arcosh
import Mathlib.Analysis.SpecialFunctions.Trigonometric.Inverse
import Mathlib.Analysis.SpecialFunctions.Log.Basic
import Verif.Py.Basic

/-!
# Model of `rsptcls/bunch.py`

Floats are exact reals and the arguments are Python floats, so dividing by zero raises
ZeroDivisionError. NaN is `none` where it can arise in the potential; square roots of negative
numbers elsewhere (negative beta, negative emittance) are `notModelled`. The numbers drawn from
`random.random` and `np.random.randn` are read from lists; when a list is used up the result is
`notModelled`. `scipy.optimize.newton` is an argument: an arbitrary function that may raise.
The attributes `npart`, `dist`, `quiet` are not changed after construction, `print_Twiss` and the
seed are left out.
-/

namespace Verif.Bunch

/-- Row of `particles`: x, xp, y, yp, z, dpop, id. -/
abbrev Row := Fin 7 → ℝ

/-- Transverse coordinates x, xp, y, yp. -/
abbrev P4 := Fin 4 → ℝ

/-- Attributes of `StandardBunch` (bunch.py:72-109). -/
structure Bunch where
  npart : Nat
  dist : String
  emitx : ℝ
  emity : ℝ
  emit : ℝ
  betax : ℝ
  alphax : ℝ
  betay : ℝ
  alphay : ℝ
  gammax : ℝ
  gammay : ℝ
  stdz : ℝ
  dpop : ℝ
  quiet : Bool
  particles : List Row

/-- Attributes of `NonlinearBunch` (bunch.py:352-356). -/
structure NBunch extends Bunch where
  t : ℝ
  c : ℝ
  cutoff : ℝ

/-- `StandardBunch(...)` (bunch.py:53-109). The sign of beta is not checked here. `np.zeros`
raises for a negative number of particles. -/
noncomputable def newBunch (npart : Int) (dist : String) (emitx emity betax alphax betay alphay stdz dpop : ℝ) (quiet : Bool) :
    Except PyErr Bunch :=
  if betax = 0 ∨ betay = 0 then .error .zeroDivisionError
  else if npart < 0 then .error .valueError
  else .ok
    { npart := npart.toNat, dist := dist, emitx := emitx, emity := emity, emit := emitx + emity, betax := betax, alphax := alphax,
      betay := betay, alphay := alphay, gammax := (1 + alphax ^ 2) / betax, gammay := (1 + alphay ^ 2) / betay, stdz := stdz,
      dpop := dpop, quiet := quiet, particles := (List.range npart.toNat).map fun (n : Nat) i => if i = 6 then (n : ℝ) else 0 }

/-- `NonlinearBunch(...)` (bunch.py:330-356). The parameter `queit` is not passed on, so `quiet` has
its default. -/
noncomputable def newNBunch (npart : Int) (dist : String) (emitx emity betax alphax betay alphay stdz dpop : ℝ) (_queit : Bool)
    (t c cutoff : ℝ) : Except PyErr NBunch :=
  match newBunch npart dist emitx emity betax alphax betay alphay stdz dpop false with
  | .error e => .error e
  | .ok b => .ok { toBunch := b, t := t, c := c, cutoff := cutoff }

/-! ## Properties of `StandardBunch`

A setter returns the object after the call and the exception. -/

/-- Reading `betax` (bunch.py:113-115). -/
def Bunch.readBetax (b : Bunch) : ℝ := b.betax

/-- Reading `betay`: `@betax.setter` (bunch.py:127) makes a property with the getter of `betax`. -/
def Bunch.readBetay (b : Bunch) : ℝ := b.betax

/-- `self.betax = v` (bunch.py:116-122). -/
noncomputable def Bunch.setBetax (b : Bunch) (v : ℝ) : Bunch × Option PyErr :=
  if v < 0 then (b, some .valueError)
  else if v = 0 then ({ b with betax := v }, some .zeroDivisionError)
  else ({ b with betax := v, gammax := (1 + b.alphax ^ 2) / v }, none)

/-- `self.betay = v` (bunch.py:127-133). -/
noncomputable def Bunch.setBetay (b : Bunch) (v : ℝ) : Bunch × Option PyErr :=
  if v < 0 then (b, some .valueError)
  else if v = 0 then ({ b with betay := v }, some .zeroDivisionError)
  else ({ b with betay := v, gammay := (1 + b.alphay ^ 2) / v }, none)

/-- `self.alphax = v` (bunch.py:138-142; the same in NonlinearBunch, 426-430). -/
noncomputable def Bunch.setAlphax (b : Bunch) (v : ℝ) : Bunch × Option PyErr :=
  if b.betax = 0 then ({ b with alphax := v }, some .zeroDivisionError)
  else ({ b with alphax := v, gammax := (1 + v ^ 2) / b.betax }, none)

/-- `self.alphay = v` (bunch.py:147-151; the same in NonlinearBunch, 435-439). -/
noncomputable def Bunch.setAlphay (b : Bunch) (v : ℝ) : Bunch × Option PyErr :=
  if b.betay = 0 then ({ b with alphay := v }, some .zeroDivisionError)
  else ({ b with alphay := v, gammay := (1 + v ^ 2) / b.betay }, none)

/-! ## Properties of `NonlinearBunch` -/

/-- `self.betax = v` (bunch.py:394-404). -/
noncomputable def NBunch.setBetax (b : NBunch) (v : ℝ) : NBunch × Option PyErr :=
  if v < 0 then (b, some .valueError)
  else if v = 0 then ({ b with betax := v }, some .zeroDivisionError)
  else ({ b with betax := v, gammax := (1 + b.alphax ^ 2) / v, betay := v, gammay := (1 + b.alphax ^ 2) / v }, none)

/-- `self.betay = v` (bunch.py:410-420). -/
noncomputable def NBunch.setBetay (b : NBunch) (v : ℝ) : NBunch × Option PyErr :=
  if v < 0 then (b, some .valueError)
  else if v = 0 then ({ b with betay := v }, some .zeroDivisionError)
  else ({ b with betay := v, gammay := (1 + b.alphay ^ 2) / v, betax := v, gammax := (1 + b.alphax ^ 2) / v }, none)

/-- A method of the base class on an object of the derived class. -/
def NBunch.lift (f : Bunch → Bunch × Option PyErr) (b : NBunch) : NBunch × Option PyErr :=
  ({ b with toBunch := (f b.toBunch).1 }, (f b.toBunch).2)

/-- `self.c = v` (bunch.py:363-367). -/
noncomputable def NBunch.setC (b : NBunch) (v : ℝ) : NBunch × Option PyErr :=
  if v < 0 then (b, some .valueError) else ({ b with c := v }, none)

/-- `self.t = v` (bunch.py:374-378). -/
noncomputable def NBunch.setT (b : NBunch) (v : ℝ) : NBunch × Option PyErr :=
  if v < 0 then (b, some .valueError) else ({ b with t := v }, none)

/-- `self.cutoff = v` (bunch.py:384-388): `cval` is not defined. -/
def NBunch.setCutoff (b : NBunch) (_v : ℝ) : NBunch × Option PyErr := (b, some .nameError)

/-! ## Potentials -/

/-- `StandardBunch.compute_potential` (bunch.py:279-283). -/
noncomputable def quadratic (x y : ℝ) : ℝ := 1 / 2 * (x ^ 2 + y ^ 2)

/-- `np.sqrt`; `none` is NaN. -/
noncomputable def npSqrt (x : ℝ) : Option ℝ := if x < 0 then none else some (Real.sqrt x)

/-- `np.arccosh`. -/
noncomputable def npArccosh (x : ℝ) : Option ℝ := if x < 1 then none else some (Real.arcosh x)

/-- `np.arccos`. -/
noncomputable def npArccos (x : ℝ) : Option ℝ := if x < -1 ∨ 1 < x then none else some (Real.arccos x)

/-- The elliptic part in scaled coordinates (bunch.py:684-693); zero over zero is NaN, other
divisions by zero are not numbers either. -/
noncomputable def elliptic (x y : ℝ) : Option ℝ := do
  let r1 ← npSqrt ((x + 1) ^ 2 + y ^ 2)
  let r2 ← npSqrt ((x - 1) ^ 2 + y ^ 2)
  let u := (r1 + r2) / 2
  let v := (r1 - r2) / 2
  let su ← npSqrt (u ^ 2 - 1)
  let au ← npArccosh u
  let sv ← npSqrt (1 - v ^ 2)
  let av ← npArccos v
  let f2u := u * su * au
  let g2v := v * sv * (-Real.pi / 2 + av)
  if u ^ 2 - v ^ 2 = 0 then none else some ((f2u + g2v) / (u ^ 2 - v ^ 2))

/-- `NonlinearBunch.compute_potential` (bunch.py:669-697). -/
noncomputable def potential (t c x y : ℝ) : Except PyErr (Option ℝ) :=
  if t = 0 then .ok (some (quadratic x y))
  else if c = 0 then .error .zeroDivisionError
  else .ok ((elliptic (x / c) (y / c)).map fun e => quadratic x y + -1 * t * c ^ 2 * e)

/-! ## Making particles -/

/-- The Twiss functions as read through the properties. -/
structure Shape where
  bx : ℝ
  byy : ℝ
  ax : ℝ
  ay : ℝ

/-- What `self.betax`, `self.betay`, `self.alphax`, `self.alphay` give. -/
def Bunch.shape (b : Bunch) : Shape := ⟨b.readBetax, b.readBetay, b.alphax, b.alphay⟩

/-- A particle at the normalised position `(x, y)` where the potential is `v`, with energy `h` and the
direction of momentum from the drawn number `r` (bunch.py:234-246; 504-516; 565-573; 635-643). -/
noncomputable def place (sh : Shape) (h v x y r : ℝ) : P4 :=
  let pMag := Real.sqrt (2 * (h - v))
  let pDir := 2 * Real.pi * r
  let pxHat := pMag * Real.cos pDir
  let pyHat := pMag * Real.sin pDir
  ![x * Real.sqrt sh.bx, (pxHat - sh.ax * x) / Real.sqrt sh.bx, y * Real.sqrt sh.byy, (pyHat - sh.ay * y) / Real.sqrt sh.byy]

/-- `exact_centroids` (bunch.py:290-303): the particles that are appended. -/
def mirrors (q : P4) : List P4 :=
  [![q 0 * -1, q 1 * 1, q 2 * -1, q 3 * 1], ![q 0 * -1, q 1 * -1, q 2 * -1, q 3 * -1], ![q 0 * 1, q 1 * -1, q 2 * 1, q 3 * -1]]

/-- A trial coordinate from a drawn number (bunch.py:229-230). -/
noncomputable def trialCoord (a m : ℝ) : ℝ := 2 * (1 / 2 - a) * m

/-- The loop of `distribute_KV` (bunch.py:227-253 and 497-523) with `n` particles still to be made. A trial
takes two numbers; a third is taken if it is accepted. NaN is not smaller than the emittance. -/
noncomputable def kvLoop (pot : ℝ → ℝ → Except PyErr (Option ℝ)) (sh : Shape) (quiet : Bool) (h xMax yMax : ℝ) :
    Nat → Nat → List ℝ → Except PyErr (List P4)
  | _, 0, _ => .ok []
  | 0, _ + 1, _ => .error .notModelled
  | fuel + 1, n + 1, a :: b :: s =>
    match pot (trialCoord a xMax) (trialCoord b yMax) with
    | .error e => .error e
    | .ok none => kvLoop pot sh quiet h xMax yMax fuel (n + 1) s
    | .ok (some v) =>
      if v < h then
        match s with
        | [] => .error .notModelled
        | r :: s' =>
          let q := place sh h v (trialCoord a xMax) (trialCoord b yMax) r
          match kvLoop pot sh quiet h xMax yMax fuel (if quiet then n - 3 else n) s' with
          | .error e => .error e
          | .ok l => .ok (q :: ((if quiet then mirrors q else []) ++ l))
      else kvLoop pot sh quiet h xMax yMax fuel (n + 1) s
  | _ + 1, _ + 1, _ => .error .notModelled

/-- Overwrite the transverse coordinates of a row. -/
def setRow (p : Row) (q : P4) : Row := fun i => if h : i.1 < 4 then q ⟨i.1, h⟩ else p i

/-- `self.particles[:,:4] = np.asarray(phaseSpaceList)` (bunch.py:255): an empty list has shape `(0,)`,
which cannot be broadcast; a list with one entry is broadcast. -/
def assign (ps : List Row) (l : List P4) : Except PyErr (List Row) :=
  match l with
  | [] => .error .valueError
  | [q] => .ok (ps.map fun p => setRow p q)
  | l => if l.length = ps.length then .ok (List.zipWith setRow ps l) else .error .valueError

/-- End of the three methods: assign the list or raise. -/
def Bunch.finish (b : Bunch) (l : Except PyErr (List P4)) : Bunch × Option PyErr :=
  match l with
  | .error e => (b, some e)
  | .ok l => match assign b.particles l with
    | .error e => (b, some e)
    | .ok ps => ({ b with particles := ps }, none)

/-- `scipy.optimize.newton` as an unknown function. -/
abbrev Newton := (ℝ → Except PyErr (Option ℝ)) → ℝ → Except PyErr ℝ

/-- `whatsleft` (bunch.py:285-288). -/
noncomputable def whatsleft (pot : ℝ → ℝ → Except PyErr (Option ℝ)) (emit y : ℝ) : Except PyErr (Option ℝ) :=
  match pot 0 y with
  | .error e => .error e
  | .ok v => .ok (v.map fun v => emit - v)

/-- The part of `distribute_KV` after the emittance was set (bunch.py:217-255 and 485-525); `xMax` is `none`
when it is `yMax`. -/
noncomputable def kvRun (newton : Newton) (pot : ℝ → ℝ → Except PyErr (Option ℝ)) (xMax : Option ℝ) (draws : List ℝ) (b : Bunch) :
    Except PyErr (List P4) :=
  if b.emit < 0 ∨ b.shape.bx ≤ 0 ∨ b.shape.byy ≤ 0 then .error .notModelled
  else match newton (whatsleft pot b.emit) (Real.sqrt b.emit) with
    | .error e => .error e
    | .ok yMax => kvLoop pot b.shape b.quiet b.emit (xMax.getD yMax) yMax draws.length b.npart draws

/-- `StandardBunch.distribute_KV` (bunch.py:203-255). -/
noncomputable def Bunch.distributeKV (newton : Newton) (draws : List ℝ) (b : Bunch) : Bunch × Option PyErr :=
  if b.emitx ≠ b.emity then (b, some .assertionError)
  else
    let b' := { b with emit := 4 * b.emitx }
    b'.finish (kvRun newton (fun x y => .ok (some (quadratic x y))) none draws b')

/-- `NonlinearBunch.distribute_KV` (bunch.py:468-525). -/
noncomputable def NBunch.distributeKV (newton : Newton) (draws : List ℝ) (b : NBunch) : NBunch × Option PyErr :=
  b.lift fun s =>
    if s.emitx ≠ s.emity then (s, some .assertionError)
    else
      let s' := { s with emit := s.emitx }
      s'.finish (kvRun newton (potential b.t b.c) (some b.c) draws s')

/-- `np.random.randn(self.npart) * s`: the drawn numbers must be `npart`. -/
def Bunch.column (b : Bunch) (l : List ℝ) (s : ℝ) : Except PyErr (List ℝ) :=
  if l.length = b.npart then .ok (l.map (· * s)) else .error .notModelled

/-- Column `i` of the array is replaced. -/
def setColumn (ps : List Row) (i : Fin 7) (l : List ℝ) : List Row :=
  List.zipWith (fun p x j => if j = i then x else p j) ps l

/-- `StandardBunch.distribute_Gaussian` (bunch.py:188-200) with the numbers drawn for the four columns. -/
noncomputable def Bunch.distributeGaussian (gx gxp gy gyp : List ℝ) (b : Bunch) : Bunch × Option PyErr :=
  if b.emitx * b.betax < 0 ∨ b.emitx * b.gammax < 0 ∨ b.emity * b.betay < 0 ∨ b.emity * b.gammay < 0 then (b, some .notModelled)
  else
    match b.column gx (Real.sqrt (b.emitx * b.betax)), b.column gxp (Real.sqrt (b.emitx * b.gammax)),
      b.column gy (Real.sqrt (b.emity * b.betay)), b.column gyp (Real.sqrt (b.emity * b.gammay)) with
    | .ok x, .ok xp, .ok y, .ok yp =>
      ({ b with particles := setColumn (setColumn (setColumn (setColumn b.particles 0 x) 1 xp) 2 y) 3 yp }, none)
    | _, _, _, _ => (b, some .notModelled)

/-- `set_longitudinal_coordinates` (bunch.py:154-163) with the numbers drawn for the two columns. -/
noncomputable def Bunch.setLongitudinal (stdz dpop : Option ℝ) (gz gd : List ℝ) (b : Bunch) : Bunch × Option PyErr :=
  let b' := { b with stdz := stdz.getD b.stdz, dpop := dpop.getD b.dpop }
  match b'.column gz b'.stdz, b'.column gd b'.dpop with
  | .ok z, .ok d => ({ b' with particles := setColumn (setColumn b'.particles 4 z) 5 d }, none)
  | _, _ => (b', some .notModelled)

/-- `while ranU <= 0: ranU = random.random()` (bunch.py:541-543). -/
noncomputable def firstPositive : List ℝ → Option (ℝ × List ℝ)
  | [] => none
  | u :: s => if u ≤ 0 then firstPositive s else some (u, s)

/-- The loop that looks for a position (bunch.py:557-561 and 628-632): position, potential (NaN ends the
loop) and the remaining numbers. -/
noncomputable def findPosition (pot : ℝ → ℝ → Except PyErr (Option ℝ)) (h xMax yMax : ℝ) :
    List ℝ → Except PyErr (ℝ × ℝ × Option ℝ × List ℝ)
  | a :: b :: s =>
    match pot (trialCoord a xMax) (trialCoord b yMax) with
    | .error e => .error e
    | .ok none => .ok (trialCoord a xMax, trialCoord b yMax, none, s)
    | .ok (some v) =>
      if h ≤ v then findPosition pot h xMax yMax s else .ok (trialCoord a xMax, trialCoord b yMax, some v, s)
  | _ => .error .notModelled

/-- The inner part of the waterbag and the Gaussian loop after the energy `h` was chosen
(bunch.py:549-582 and 618-652): the particle, if one was made, and the remaining numbers. The search for
a position is skipped for energies above 1e10, which is not modelled. -/
noncomputable def oneParticle (newton : Newton) (pot : ℝ → ℝ → Except PyErr (Option ℝ)) (sh : Shape) (emit c h : ℝ) (s : List ℝ) :
    Except PyErr (Option P4 × List ℝ) :=
  if h < 0 ∨ 10 ^ 10 < h then .error .notModelled
  else match newton (whatsleft pot emit) (Real.sqrt h) with
    | .error e => .error e
    | .ok yMax => match findPosition pot h c yMax s with
      | .error e => .error e
      | .ok (_, _, none, s') => .ok (none, s')
      | .ok (x, y, some v, s') => match s' with
        | [] => .error .notModelled
        | r :: s'' => .ok (some (place sh h v x y r), s'')

/-- The loop of `distribute_waterbag` (bunch.py:540-582). -/
noncomputable def waterbagLoop (newton : Newton) (pot : ℝ → ℝ → Except PyErr (Option ℝ)) (sh : Shape) (quiet : Bool) (emit c : ℝ) :
    Nat → Nat → List ℝ → Except PyErr (List P4)
  | _, 0, _ => .ok []
  | 0, _ + 1, _ => .error .notModelled
  | fuel + 1, n + 1, s => match firstPositive s with
    | none => .error .notModelled
    | some (u, s') => match oneParticle newton pot sh emit c (emit * Real.sqrt u) s' with
      | .error e => .error e
      | .ok (none, s'') => waterbagLoop newton pot sh quiet emit c fuel (n + 1) s''
      | .ok (some q, s'') => match waterbagLoop newton pot sh quiet emit c fuel (if quiet then n - 3 else n) s'' with
        | .error e => .error e
        | .ok l => .ok (q :: ((if quiet then mirrors q else []) ++ l))

/-- `distribute_waterbag` (bunch.py:528-584). -/
noncomputable def NBunch.distributeWaterbag (newton : Newton) (draws : List ℝ) (b : NBunch) : NBunch × Option PyErr :=
  b.lift fun s => s.finish
    (if s.shape.bx ≤ 0 ∨ s.shape.byy ≤ 0 then .error .notModelled
     else waterbagLoop newton (potential b.t b.c) s.shape s.quiet s.emit b.c draws.length s.npart draws)

/-- The search for an energy below the cutoff (bunch.py:605-612). -/
noncomputable def erlang (cutoff : ℝ) : List ℝ → Option (ℝ × List ℝ)
  | a :: b :: s =>
    if a * b ≤ 0 then erlang cutoff s
    else if cutoff < -1 * Real.log (a * b) then erlang cutoff s
    else some (-1 * Real.log (a * b), s)
  | _ => none

/-- The loop of `NonlinearBunch.distribute_Gaussian` (bunch.py:604-652). An exception comes with the value that
`self.emit` has at that time, which is the argument `cur` before the first particle. -/
noncomputable def gaussLoop (newton : Newton) (pot : ℝ → ℝ → Except PyErr (Option ℝ)) (sh : Shape) (quiet : Bool) (emit c cutoff : ℝ) :
    Nat → Nat → ℝ → List ℝ → Except (PyErr × ℝ) (List P4)
  | _, 0, _, _ => .ok []
  | 0, _ + 1, cur, _ => .error (.notModelled, cur)
  | fuel + 1, n + 1, cur, s => match erlang cutoff s with
    | none => .error (.notModelled, cur)
    | some (th, s') => match oneParticle newton pot sh (emit * th) c (emit * th) s' with
      | .error e => .error (e, emit * th)
      | .ok (none, s'') => gaussLoop newton pot sh quiet emit c cutoff fuel (n + 1) (emit * th) s''
      | .ok (some q, s'') =>
        match gaussLoop newton pot sh quiet emit c cutoff fuel (if quiet then n - 3 else n) (emit * th) s'' with
        | .error e => .error e
        | .ok l => .ok (q :: ((if quiet then mirrors q else []) ++ l))

/-- `NonlinearBunch.distribute_Gaussian` (bunch.py:587-657). The emittance is restored before the
assignment, but not after an exception in the loop. Cutoffs of 1e10 and above are not modelled. -/
noncomputable def NBunch.distributeGaussian (newton : Newton) (draws : List ℝ) (b : NBunch) : NBunch × Option PyErr :=
  b.lift fun s =>
    if s.shape.bx ≤ 0 ∨ s.shape.byy ≤ 0 ∨ 10 ^ 10 ≤ b.cutoff then (s, some .notModelled)
    else match gaussLoop newton (potential b.t b.c) s.shape s.quiet s.emit b.c b.cutoff draws.length s.npart s.emit draws with
      | .error (e, cur) => ({ s with emit := cur }, some e)
      | .ok l => s.finish (.ok l)

/-! ## `set_transverse_coordinates` -/

/-- Run `f` after a step that did not raise. -/
def andThen {B : Type} (r : B × Option PyErr) (f : B → B × Option PyErr) : B × Option PyErr :=
  match r with
  | (b, some e) => (b, some e)
  | (b, none) => f b

/-- `if v is not None: ...`. -/
def ifGiven {B : Type} (v : Option ℝ) (f : B → ℝ → B × Option PyErr) (b : B) : B × Option PyErr :=
  match v with
  | none => (b, none)
  | some v => f b v

/-- Arguments of `StandardBunch.set_transverse_coordinates`. -/
structure TArgs where
  emitx : Option ℝ
  emity : Option ℝ
  betax : Option ℝ
  alphax : Option ℝ
  betay : Option ℝ
  alphay : Option ℝ

/-- The assignments of `StandardBunch.set_transverse_coordinates` (bunch.py:168-179). -/
noncomputable def Bunch.assignArgs (a : TArgs) (b : Bunch) : Bunch × Option PyErr :=
  andThen (ifGiven a.betax Bunch.setBetax b) fun b =>
  andThen (ifGiven a.alphax Bunch.setAlphax b) fun b =>
  andThen (ifGiven a.betay Bunch.setBetax b) fun b =>
  andThen (ifGiven a.alphay Bunch.setAlphay b) fun b =>
  ({ b with emitx := a.emitx.getD b.emitx, emity := a.emity.getD b.emity }, none)

/-- `StandardBunch.set_transverse_coordinates` (bunch.py:165-185). -/
noncomputable def Bunch.setTransverse (newton : Newton) (a : TArgs) (gx gxp gy gyp draws : List ℝ) (b : Bunch) : Bunch × Option PyErr :=
  andThen (b.assignArgs a) fun b =>
  if b.dist = "Gaussian" then b.distributeGaussian gx gxp gy gyp
  else if b.dist = "KV" then b.distributeKV newton draws
  else (b, none)

/-- Arguments of `NonlinearBunch.set_transverse_coordinates`. -/
structure NArgs where
  emitx : Option ℝ
  emity : Option ℝ
  betax : Option ℝ
  alphax : Option ℝ
  cutoff : Option ℝ

/-- The assignments of `NonlinearBunch.set_transverse_coordinates` (bunch.py:446-457). -/
noncomputable def NBunch.assignArgs (a : NArgs) (b : NBunch) : NBunch × Option PyErr :=
  andThen (ifGiven a.betax NBunch.setBetax b) fun b =>
  andThen (ifGiven a.alphax (fun b v => b.lift fun s => s.setAlphax v) b) fun b =>
  ifGiven a.cutoff NBunch.setCutoff { b with emitx := a.emitx.getD b.emitx, emity := a.emity.getD b.emity }

/-- `NonlinearBunch.set_transverse_coordinates` (bunch.py:442-466). -/
noncomputable def NBunch.setTransverse (newton : Newton) (a : NArgs) (draws : List ℝ) (b : NBunch) : NBunch × Option PyErr :=
  andThen (b.assignArgs a) fun b =>
  if b.dist = "KV" then b.distributeKV newton draws
  else if b.dist = "waterbag" then b.distributeWaterbag newton draws
  else if b.dist = "Gaussian" then b.distributeGaussian newton draws
  else (b, none)

end Verif.Bunch
