import Mathlib.Analysis.Real.Sqrt
import Verif.Py.Basic

/-!
# Model of `rsbeams/rsstats/kinematic.py`, class `Converter`

Floats are exact reals. `np.sqrt` is `Real.sqrt`; on the physical domain used in the
theorems its argument is never negative and no divisor is zero, so numpy's `nan`/`inf`
branches are not reached. The command line path (`start_parser`, lines 73-75) is in
`CommandLine.lean`; the printed text (lines 167-184) is not modelled.
-/

namespace Verif.Kinematic

/-- The eight kinematic quantities (kinematic.py:81). -/
inductive Quantity where
  | momentum | velocity | energy | kenergy | betagamma | brho | beta | gamma
  deriving DecidableEq, Repr

/-- The module constants `e`, `c`, `m_e_ev`, `m_e_kg` (kinematic.py:6-10). They are
parameters of the model. -/
structure Consts where
  e : ℝ
  c : ℝ
  meEv : ℝ
  meKg : ℝ

/-- `ev_per_kg` (kinematic.py:11). -/
noncomputable def Consts.evPerKg (k : Consts) : ℝ := k.meEv / k.meKg

/-- Keyword arguments of `Converter.__init__` (kinematic.py:55-58). `none` is Python's `None`. -/
structure Args where
  quantity : Quantity → Option ℝ
  mass : Option ℝ
  massUnit : String
  inputUnit : String
  outputUnit : String

/-- The `outputs` dictionary (kinematic.py:101-117). For the six derived quantities
`none` stands for "still the bound method", as stored by the constructor; for `beta`,
`gamma`, `input` it stands for `None`. The unit label strings are computed by
`massLabel` and `inputLabel` below. -/
structure Outputs where
  momentum : Option ℝ
  velocity : Option ℝ
  energy : Option ℝ
  kenergy : Option ℝ
  betagamma : Option ℝ
  brho : Option ℝ
  beta : Option ℝ
  gamma : Option ℝ
  mass : Option ℝ
  input : Option ℝ
  inputType : Option Quantity

/-- A `Converter` object after construction. -/
structure Converter where
  args : Args
  mass : ℝ
  outputs : Outputs

/-- The list of keys in the order of kinematic.py:81. -/
def allQuantities : List Quantity :=
  [.momentum, .velocity, .energy, .kenergy, .betagamma, .brho, .beta, .gamma]

/-- `declaration` (kinematic.py:80-83): how many quantities are not `None`. -/
def declaration (a : Args) : Nat :=
  (allQuantities.filter fun q => (a.quantity q).isSome).length

/-- `conversion_factors` (kinematic.py:293-298), quantities only; `mass` is separate. -/
noncomputable def convFactor (k : Consts) : Quantity → Option ℝ
  | .momentum => some (1 / k.e * k.c)
  | .energy => some (1 / k.e)
  | .kenergy => some (1 / k.e)
  | _ => none

/-- The `mass` entry of `conversion_factors` (kinematic.py:297). -/
noncomputable def convMass (k : Consts) : ℝ := 1 / k.e * k.c ^ 2

/-- `_unit_convert(input_unit='SI', input_dict=self.args)` (kinematic.py:291-302):
exponent `2 * True - 1 = 1`, so multiply. -/
noncomputable def argsFromSI (k : Consts) (a : Args) : Args :=
  { a with
    quantity := fun q => (a.quantity q).map fun v =>
      match convFactor k q with
      | some f => v * f
      | none => v
    mass := a.mass.map fun m => m * convMass k }

/-- `_unit_convert(input_unit='eV', input_dict=self.outputs)` (kinematic.py:291-302):
exponent `2 * False - 1 = -1`, so divide. -/
noncomputable def outputsToSI (k : Consts) (o : Outputs) : Outputs :=
  { o with
    momentum := o.momentum.map fun v => v * (1 / k.e * k.c)⁻¹
    energy := o.energy.map fun v => v * (1 / k.e)⁻¹
    kenergy := o.kenergy.map fun v => v * (1 / k.e)⁻¹
    mass := o.mass.map fun v => v * (convMass k)⁻¹ }

/-- `x * (input_unit == 'eV') + y * (input_unit == 'SI')` with exactly one comparison
true (kinematic.py:122-123, 130-131). -/
noncomputable def pick (inputUnit : String) (ev si : ℝ) : ℝ :=
  ev * (if inputUnit = "eV" then 1 else 0) + si * (if inputUnit = "SI" then 1 else 0)

/-- Mass handling of the constructor (kinematic.py:119-135). `a` is the argument
dictionary after conversion. First component `self.mass`, second `outputs["mass"]`.
`if self.args['mass']` is false for `None` and for `0`. -/
noncomputable def massSetup (k : Consts) (a : Args) : ℝ × ℝ :=
  if a.massUnit = "eV" then
    match a.mass with
    | some m =>
      if m ≠ 0 then (m * pick a.inputUnit 1 (1 / k.evPerKg), m) else (k.meEv, k.meEv)
    | none => (k.meEv, k.meEv)
  else
    match a.mass with
    | some m => (m * pick a.inputUnit k.evPerKg 1, m)
    | none => (k.meEv, k.meEv / k.evPerKg)

/-- `Converter.__init__` (kinematic.py:55-135) without `start_parser`. -/
noncomputable def init (k : Consts) (a : Args) : Except PyErr Converter :=
  if ¬ ((a.massUnit = "eV" ∨ a.massUnit = "SI") ∧ (a.inputUnit = "eV" ∨ a.inputUnit = "SI")
      ∧ (a.outputUnit = "eV" ∨ a.outputUnit = "SI")) then
    .error .assertionError
  else if declaration a ≠ 1 then
    .error .assertionError
  else
    let a' := if a.inputUnit = "SI" then argsFromSI k a else a
    let ms := massSetup k a'
    .ok { args := a', mass := ms.1,
          outputs :=
            { momentum := none, velocity := none, energy := none, kenergy := none,
              betagamma := none, brho := none, beta := none, gamma := none,
              mass := some ms.2, input := none, inputType := none } }

/-- `start_momentum` (kinematic.py:244-249). -/
noncomputable def startMomentum (m p : ℝ) : ℝ × ℝ :=
  let n := p / m
  let beta := n / Real.sqrt (1 + n ^ 2)
  (beta, 1 / Real.sqrt (1 - beta ^ 2))

/-- The `start_*` methods (kinematic.py:189-267): `(beta, gamma)` from the given value. -/
noncomputable def start (k : Consts) (m : ℝ) : Quantity → ℝ → ℝ × ℝ
  | .velocity, v => let beta := v / k.c; (beta, 1 / Real.sqrt (1 - beta ^ 2))
  | .gamma, g => (Real.sqrt (1 - 1 / g ^ 2), g)
  | .beta, b => (b, 1 / Real.sqrt (1 - b ^ 2))
  | .betagamma, bg =>
      let beta := bg / Real.sqrt (1 + bg ^ 2)
      (beta, 1 / Real.sqrt (1 - beta ^ 2))
  | .momentum, p => startMomentum m p
  | .energy, en => let gamma := en / m; (Real.sqrt (1 - 1 / gamma ^ 2), gamma)
  | .kenergy, ke => let gamma := ke / m + 1; (Real.sqrt (1 - 1 / gamma ^ 2), gamma)
  | .brho, br => startMomentum m (br * k.c)

/-- One iteration of the loop of `__call__` that sets beta and gamma (kinematic.py:142-146). -/
noncomputable def setBetaGamma (k : Consts) (cv : Converter) (o : Outputs) (q : Quantity) : Outputs :=
  match cv.args.quantity q with
  | some v =>
    let bg := start k cv.mass q v
    { o with input := some v, inputType := some q, beta := some bg.1, gamma := some bg.2 }
  | none => o

/-- `if callable(value): outputs[key] = value(**outputs)` (kinematic.py:163-165): a method
is replaced by its value, a value is kept. -/
def fill (old : Option ℝ) (new : ℝ) : Option ℝ :=
  match old with
  | none => some new
  | some x => some x

/-- `__call__` (kinematic.py:137-186): new object state; the returned dictionary is the
`outputs` field of the new state. The branch with `beta`/`gamma` unset cannot occur after
a successful `init` (the methods would be called with `None`); it is left unchanged here. -/
noncomputable def call (k : Consts) (cv : Converter) : Converter :=
  let o := allQuantities.foldl (setBetaGamma k cv) cv.outputs
  let o :=
    match o.beta, o.gamma with
    | some b, some g =>
      { o with
        momentum := fill o.momentum (b * g * cv.mass)
        velocity := fill o.velocity (b * k.c)
        energy := fill o.energy (g * cv.mass)
        kenergy := fill o.kenergy (cv.mass * (g - 1))
        betagamma := fill o.betagamma (b * g)
        brho := fill o.brho (b * g * cv.mass / k.c) }
    | _, _ => o
  let o := if cv.args.outputUnit = "SI" then outputsToSI k o else o
  { cv with outputs := o }

/-- `n` successive calls. -/
noncomputable def calls (k : Consts) : Nat → Converter → Converter
  | 0, cv => cv
  | n + 1, cv => calls k n (call k cv)

/-- `Converter(**args)(silent=True)`: construct, call once, return the dictionary. -/
noncomputable def run (k : Consts) (a : Args) : Except PyErr Outputs :=
  (init k a).map fun cv => (call k cv).outputs

/-- Lookup of a quantity in the returned dictionary. -/
def Outputs.get (o : Outputs) : Quantity → Option ℝ
  | .momentum => o.momentum
  | .velocity => o.velocity
  | .energy => o.energy
  | .kenergy => o.kenergy
  | .betagamma => o.betagamma
  | .brho => o.brho
  | .beta => o.beta
  | .gamma => o.gamma

/-- `outputs["mass_unit"]` (kinematic.py:113-114). -/
def massLabel (a : Args) : String :=
  if a.massUnit = "eV" then "eV/c^2" else "kg"

/-- `outputs["input_unit"]` (kinematic.py:148-160). -/
def inputLabel (a : Args) (q : Quantity) : String :=
  if a.inputUnit = "eV" then
    match q with
    | .energy => "eV" | .kenergy => "eV" | .momentum => "eV/c" | .velocity => "m/s" | _ => ""
  else
    match q with
    | .energy => "J" | .kenergy => "J" | .momentum => "kg*m/s" | .velocity => "m/s" | _ => ""

/-- `outputs["p_unit"]` (kinematic.py:109-110). -/
def momentumLabel (a : Args) : String :=
  if a.outputUnit = "eV" then "eV/c" else "kg * m/s"

/-- `outputs["e_unit"]` (kinematic.py:111). -/
def energyLabel (a : Args) : String :=
  if a.outputUnit = "eV" then "eV" else "J"

/-- The label printed behind a quantity (kinematic.py:171-178). -/
def outputLabel (a : Args) : Quantity → String
  | .velocity => "m/s"
  | .momentum => momentumLabel a
  | .energy => energyLabel a
  | .kenergy => energyLabel a
  | .brho => "T*m"
  | _ => ""

end Verif.Kinematic
