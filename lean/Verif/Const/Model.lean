import Verif.Py.Basic
import Mathlib.Analysis.Real.Pi.Bounds

/-!
# Model of `rsphysics/rsconst.py`

The module is a list of assignments that Python executes from top to bottom. Numbers are exact reals; the constants of scipy are any numbers.
-/

namespace Verif.Const

/-- Expressions that occur in the module. -/
inductive Ex where
  | num (q : ℚ)
  | name (n : String)
  | const (n : String)
  | pi
  | mul (a b : Ex)
  | div (a b : Ex)
  | sqrt (a : Ex)
  | square (a : Ex)

/-- Value of an expression: a name that has no value yet raises NameError. -/
noncomputable def Ex.eval (k : String → ℝ) (env : List (String × ℝ)) : Ex → Except PyErr ℝ
  | .num q => .ok q
  | .name n => match env.lookup n with
    | some v => .ok v
    | none => .error .nameError
  | .const n => .ok (k n)
  | .pi => .ok Real.pi
  | .mul a b => do
    let x ← a.eval k env
    let y ← b.eval k env
    .ok (x * y)
  | .div a b => do
    let x ← a.eval k env
    let y ← b.eval k env
    if y = 0 then .error .zeroDivisionError else .ok (x / y)
  | .sqrt a => do
    let x ← a.eval k env
    if x < 0 then .error .valueError else .ok (Real.sqrt x)
  | .square a => do
    let x ← a.eval k env
    .ok (x ^ 2)

/-- Execution of assignments. -/
noncomputable def run (k : String → ℝ) (env : List (String × ℝ)) : List (String × Ex) → Except PyErr (List (String × ℝ))
  | [] => .ok env
  | (n, e) :: l => do
    let v ← e.eval k env
    run k ((n, v) :: env) l

/-- The assignments of the module in their order (rsconst.py:11-34). -/
def assignments : List (String × Ex) :=
  [("C_to_STATC", .mul (.const "c") (.num 10)),
   ("EV_to_ERG", .num (1602 / 10 ^ 15)),
   ("KG_to_EV", .div (.name "c_SQ") (.name "e")),
   ("MKS_factor", .div (.num 1) (.mul (.mul (.num 4) .pi) (.const "epsilon_0"))),
   ("RT_2", .sqrt (.num 2)),
   ("RT_2_OVER_PI", .sqrt (.div (.num 2) .pi)),
   ("RT_TWO_PI", .sqrt (.mul (.num 2) .pi)),
   ("TWO_PI", .mul (.num 2) .pi),
   ("c", .const "c"),
   ("c_CGS", .mul (.const "c") (.num 100)),
   ("c_INV", .div (.num 1) (.const "c")),
   ("c_SQ", .square (.const "c")),
   ("e", .const "e"),
   ("e_CGS", .mul (.const "e") (.name "C_to_STATC")),
   ("epsilon_0", .const "epsilon_0"),
   ("m_e", .const "m_e"),
   ("m_e_CGS", .mul (.const "m_e") (.num 1000)),
   ("m_e_EV", .mul (.const "m_e") (.name "KG_to_EV")),
   ("m_p", .const "m_p"),
   ("m_p_CGS", .mul (.const "m_p") (.num 1000)),
   ("m_p_EV", .mul (.const "m_p") (.name "KG_to_EV")),
   ("mu_0", .const "mu_0"),
   ("pi", .pi)]

/-- Importing the module. -/
noncomputable def importModule (k : String → ℝ) : Except PyErr (List (String × ℝ)) := run k [] assignments

end Verif.Const
