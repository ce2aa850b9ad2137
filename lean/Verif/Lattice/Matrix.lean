import Mathlib.Analysis.SpecialFunctions.Pow.Complex
import Mathlib.LinearAlgebra.Matrix.Notation
import Verif.Lattice.Beamline

/-!
# Model of `StructuredBeamline.matrices` and `generate_matrix`
(`rsbeams/rslattice/Beamline.py:29-41, 236-260`)

SymPy expressions are syntax trees with a value in the complex numbers for given values of the
symbols. Simplification by SymPy keeps values and is not modelled; parameter names and text
values are taken as symbol names (SymPy would parse other text as an expression).
-/

namespace Verif.Lattice

/-- A SymPy expression. -/
inductive Ex (R : Type)
  | sym (s : Str)
  | val (x : R)
  | zero
  | one
  | neg (a : Ex R)
  | add (a b : Ex R)
  | mul (a b : Ex R)
  | div (a b : Ex R)
  | sqrt (a : Ex R)
  | cosh (a : Ex R)
  | sinh (a : Ex R)

variable {R : Type}

/-- `expr.subs(symbol, new)`. -/
def Ex.subs : Ex R → Str → Ex R → Ex R
  | .sym s, key, new => if s = key then new else .sym s
  | .val x, _, _ => .val x
  | .zero, _, _ => .zero
  | .one, _, _ => .one
  | .neg a, key, new => .neg (a.subs key new)
  | .add a b, key, new => .add (a.subs key new) (b.subs key new)
  | .mul a b, key, new => .mul (a.subs key new) (b.subs key new)
  | .div a b, key, new => .div (a.subs key new) (b.subs key new)
  | .sqrt a, key, new => .sqrt (a.subs key new)
  | .cosh a, key, new => .cosh (a.subs key new)
  | .sinh a, key, new => .sinh (a.subs key new)

/-- Value for given values of the symbols; `sqrt` is the principal square root. Division by
zero (`nan` in SymPy) gives 0 here. -/
noncomputable def Ex.eval (val : R → ℂ) (ρ : Str → ℂ) : Ex R → ℂ
  | .sym s => ρ s
  | .val x => val x
  | .zero => 0
  | .one => 1
  | .neg a => - a.eval val ρ
  | .add a b => a.eval val ρ + b.eval val ρ
  | .mul a b => a.eval val ρ * b.eval val ρ
  | .div a b => a.eval val ρ / b.eval val ρ
  | .sqrt a => a.eval val ρ ^ (2⁻¹ : ℂ)
  | .cosh a => Complex.cosh (a.eval val ρ)
  | .sinh a => Complex.sinh (a.eval val ρ)

/-- A 4 by 4 SymPy matrix. -/
abbrev ExM (R : Type) := Matrix (Fin 4) (Fin 4) (Ex R)

/-- `K1, L = symbols("K1 L")` (Beamline.py:29). -/
def symK1 : Ex R := .sym "K1".toList
/-- See `symK1`. -/
def symL : Ex R := .sym "L".toList

/-- The quadrupole matrix (Beamline.py:32-39). -/
def quadMatrix : ExM R :=
  let p : Ex R := .sqrt (.neg symK1)
  let q : Ex R := .sqrt symK1
  !![.cosh (.mul p symL), .div (.sinh (.mul p symL)) p, .zero, .zero;
     .mul p (.sinh (.mul p symL)), .cosh (.mul p symL), .zero, .zero;
     .zero, .zero, .cosh (.mul q symL), .div (.sinh (.mul q symL)) q;
     .zero, .zero, .mul q (.sinh (.mul q symL)), .cosh (.mul q symL)]

/-- The drift matrix (Beamline.py:40). -/
def driftMatrix : ExM R :=
  !![.one, symL, .zero, .zero;
     .zero, .one, .zero, .zero;
     .zero, .zero, .one, symL;
     .zero, .zero, .zero, .one]

/-- `matrices[type]` (Beamline.py:30-41), `none` for KeyError. -/
def typeMatrix (type : Str) : Option (ExM R) :=
  if type = "quadrupole".toList then some quadMatrix
  else if type = "drift".toList then some driftMatrix
  else none

/-- `matrix.subs(key, value)`. -/
def subsM (m : ExM R) (key : Str) (new : Ex R) : ExM R := fun i j => (m i j).subs key new

/-- A parameter value as an expression: text becomes a symbol. -/
def PVal.toEx : PVal R → Ex R
  | .num x => .val x
  | .str s => .sym s

/-- Substitution of the parameters of one element (Beamline.py:242-248). -/
def insertParams (m : ExM R) (ps : Params R) : ExM R :=
  ps.foldl (fun m kv => subsM m kv.1 kv.2.toEx) m

/-- Matrix of one entry (Beamline.py:239-248). A sub-beamline has no `type`. -/
def itemMatrix (h : Heap R) : Item → Except PyErr (ExM R)
  | .line _ => .error .attributeError
  | .elem e => match typeMatrix (h.elem e).type with
    | none => .error .keyError
    | some m => .ok (insertParams m (h.elem e).params)

/-- `a * b` for SymPy matrices. -/
def mulM (a b : ExM R) : ExM R := fun i j =>
  .add (.add (.add (.mul (a i 0) (b 0 j)) (.mul (a i 1) (b 1 j))) (.mul (a i 2) (b 2 j))) (.mul (a i 3) (b 3 j))

/-- The names of `variables` (Beamline.py:244-245). -/
def variablesOf (h : Heap R) (s : List Item) : List Str :=
  (s.flatMap fun i => match i with
    | .line _ => []
    | .elem e => (h.elem e).params.filterMap fun kv => match kv.2 with
      | .str v => some v
      | .num _ => none).eraseDups

/-- `elements[-1] * elements[-2] * ...` (Beamline.py:250-254); IndexError without elements. -/
def concatM (ms : List (ExM R)) : Except PyErr (ExM R) :=
  match ms.reverse with
  | [] => .error .indexError
  | m :: rest => .ok (rest.foldl mulM m)

/-- `generate_matrix()` (Beamline.py:236-260): the matrix, and the arguments of the function
returned along with it (no function if there are none). -/
def Heap.generateMatrix (h : Heap R) (l : Nat) : Except PyErr (ExM R × List Str) := do
  let ms ← (h.line l).seq.mapM (itemMatrix h)
  let m ← concatM ms
  .ok (m, variablesOf h (h.line l).seq)

end Verif.Lattice
