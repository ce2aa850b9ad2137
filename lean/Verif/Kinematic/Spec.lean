import Mathlib.Analysis.Real.Sqrt
import Verif.Kinematic.Model

/-!
# What relativistic kinematics says, independently of the code

`Quantity`, `Args`, `Outputs` and `Consts` are the API data types; no function of the
model is used here.
-/

namespace Verif.Kinematic

/-- The constants are positive. -/
structure Consts.Pos (k : Consts) : Prop where
  e : 0 < k.e
  c : 0 < k.c
  meEv : 0 < k.meEv
  meKg : 0 < k.meKg

/-- The electron mass in eV and the electron mass in kg are the same mass: `m c^2 / e`. -/
def Consts.Consistent (k : Consts) : Prop := k.meEv * k.e = k.meKg * k.c ^ 2

/-- The particle mass in eV that the arguments describe: given in eV, given in kg, or the
electron by default. -/
noncomputable def trueMassEv (k : Consts) (a : Args) : ℝ :=
  match a.mass with
  | none => k.meEv
  | some m => if a.massUnit = "eV" then m else m * k.c ^ 2 / k.e

/-- One SI unit of the quantity expressed in the electron volt based unit. Momentum,
energy and kinetic energy change, the others have the same unit in both systems. -/
noncomputable def siUnit (k : Consts) : Quantity → ℝ
  | .momentum => k.c / k.e
  | .energy => 1 / k.e
  | .kenergy => 1 / k.e
  | _ => 1

/-- The value `v` of the quantity `q`, given in unit system `unit`, in electron volt units. -/
noncomputable def inEv (k : Consts) (unit : String) (q : Quantity) (v : ℝ) : ℝ :=
  if unit = "SI" then v * siUnit k q else v

/-- Values (in electron volt units) that a massive particle can have. -/
def Valid (c m : ℝ) : Quantity → ℝ → Prop
  | .velocity, v => |v| < c
  | .beta, b => |b| < 1
  | .gamma, g => 1 ≤ g
  | .energy, en => m ≤ en
  | .kenergy, ke => 0 ≤ ke
  | _, _ => True

/-- A complete kinematic state of a particle of mass `m` (eV), in electron volt units. -/
structure State where
  beta : ℝ
  gamma : ℝ
  momentum : ℝ
  velocity : ℝ
  energy : ℝ
  kenergy : ℝ
  betagamma : ℝ
  brho : ℝ

/-- The relations of special relativity. -/
structure State.Physical (c m : ℝ) (s : State) : Prop where
  gamma_ge : 1 ≤ s.gamma
  beta_lt : |s.beta| < 1
  lorentz : s.gamma ^ 2 * (1 - s.beta ^ 2) = 1
  mass_shell : s.energy ^ 2 = s.momentum ^ 2 + m ^ 2
  energy_gamma : s.energy = m * s.gamma
  energy_split : s.energy = s.kenergy + m
  momentum_bg : s.momentum = m * s.betagamma
  bg : s.betagamma = s.beta * s.gamma
  velocity_beta : s.velocity = s.beta * c
  rigidity : s.brho * c = s.momentum

def State.get (s : State) : Quantity → ℝ
  | .momentum => s.momentum
  | .velocity => s.velocity
  | .energy => s.energy
  | .kenergy => s.kenergy
  | .betagamma => s.betagamma
  | .brho => s.brho
  | .beta => s.beta
  | .gamma => s.gamma

/-- The returned dictionary shows the state `s` in the unit system `unit`. -/
def Shows (k : Consts) (unit : String) (o : Outputs) (s : State) : Prop :=
  ∀ q, ∃ w, o.get q = some w ∧ inEv k unit q w = s.get q

end Verif.Kinematic
