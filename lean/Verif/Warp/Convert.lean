import Verif.Import.Importer
import Verif.Warp.Writer
import Mathlib.Analysis.Real.Sqrt

/-!
# Model of `rsbeams/pkcli/lattice.py`

Numbers are real. `np.sqrt` of a negative number is not a number in Python and 0 here; the theorems
assume an energy of at least the mass. Not modelled: Sirepo's reader of elegant files, which gives
the JSON document and the commands, and messages. `Converter(momentum=...)` is called for a message
only (lattice.py:46).
-/

namespace Verif.Warp

open Verif.Lattice Verif.Import

noncomputable section

/-- Constants and `float(text)`. -/
structure Env where
  /-- Elementary charge. -/
  e : ℝ
  /-- Speed of light. -/
  c : ℝ
  /-- Electron mass in eV/c² (lattice.py:7). -/
  mass : ℝ
  float : Str → Option ℝ

/-- `_get_gradient` (lattice.py:10-22). -/
def getGradient (C : Env) (k1 energy mass : ℝ) (n : ℕ) : ℝ :=
  let gamma := energy / mass
  let beta := √(1 - 1 / gamma ^ 2)
  let momentum := beta * gamma * (mass * C.e / C.c ^ 2) * C.c
  let bRho := momentum / (1 * C.e)
  k1 * bRho ^ n

/-- `float(ele.parameters[key])`. -/
def getFloat (C : Env) (x : Elem ℝ) (key : Str) : Except PyErr ℝ :=
  match Params.getItem x.params key with
  | none => .error .keyError
  | some (.num v) => .ok v
  | some (.str s) => match C.float s with
    | some v => .ok v
    | none => .error .valueError

/-- `ele.parameters[key] = value`. -/
def setParam (x : Elem ℝ) (key : Str) (v : ℝ) : Elem ℝ := { x with params := Params.setItem x.params key (.num v) }

/-- One round of `_parameter_conversions` (lattice.py:27-32). -/
def convertElem (C : Env) (energy mass sgn : ℝ) (x : Elem ℝ) : Except PyErr (Elem ℝ) :=
  if x.type = "kquad".toList ∨ x.type = "quad".toList then
    match getFloat C x "k1".toList with
    | .ok k => .ok (setParam x "db".toList (sgn * getGradient C k energy mass 1))
    | .error err => .error err
  else if x.type = "csbend".toList ∨ x.type = "rben".toList then
    match getFloat C x "l".toList with
    | .error err => .error err
    | .ok l => match getFloat C x "angle".toList with
      | .error err => .error err
      | .ok a => if a = 0 then .error .zeroDivisionError else .ok (setParam x "rc".toList (l / a))
  else if x.type = "sext".toList then
    match getFloat C x "k2".toList with
    | .ok k => .ok (setParam x "db".toList (sgn * getGradient C k energy mass 2))
    | .error err => .error err
  else .ok x

/-- `_parameter_conversions` (lattice.py:24-32) on the flattened elements. -/
def convertAll (C : Env) (energy mass sgn : ℝ) : List Nat → Heap ℝ → Except PyErr (Heap ℝ)
  | [], h => .ok h
  | i :: is, h => match convertElem C energy mass sgn (h.elem i) with
    | .error err => .error err
    | .ok x => convertAll C energy mass sgn is (h.setElem i x)

/-- `_FIELD_MAP` (formatted_writer.py:10-39) as Sirepo's `_build_field_map` returns it: type to Warp
type and parameters. -/
def fieldMap : Mapping :=
  [("DRIF".toList, "Drft".toList, ["l".toList]), ("CSRDRIFT".toList, "Drft".toList, ["l".toList]),
   ("EDRIFT".toList, "Drft".toList, ["l".toList]), ("LSCDRIFT".toList, "Drft".toList, ["l".toList]),
   ("CSBEND".toList, "Bend".toList, ["l".toList, "rc".toList]), ("SBEN".toList, "Bend".toList, ["l".toList, "rc".toList]),
   ("CSRCSBEND".toList, "Bend".toList, ["l".toList, "rc".toList]), ("KSBEND".toList, "Bend".toList, ["l".toList, "rc".toList]),
   ("NIBEND".toList, "Bend".toList, ["l".toList, "rc".toList]), ("RBEN".toList, "Bend".toList, ["l".toList, "rc".toList]),
   ("TUBEND".toList, "Bend".toList, ["l".toList, "rc".toList]), ("QUAD".toList, "Quad".toList, ["l".toList, "db".toList]),
   ("KQUAD".toList, "Quad".toList, ["l".toList, "db".toList]), ("SEXT".toList, "Sext".toList, ["l".toList, "db".toList]),
   ("KSEXT".toList, "Sext".toList, ["l".toList, "db".toList])]

/-- The conversion and the writer on an imported beamline (lattice.py:53-55); `p` is the central
momentum in eV/c. `flip_sign=True` gives the sign -1. -/
def convertWrite (C : Env) (F : Fmt ℝ) (p : ℝ) (name : Str) (h : Heap ℝ) (es : List Nat) : Except PyErr Str :=
  match convertAll C p C.mass (1 - 2 * 1) es h with
  | .error err => .error err
  | .ok h' => (writeFile F fieldMap name (es.map h'.elem) []).2

/-- `elegant_to_warp` (lattice.py:36-57). `pMev` is the entry `p_central_mev` of the first run_setup
command; the nesting of the beamline is limited by `depth`. -/
def elegantToWarp (C : Env) (F : Fmt ℝ) (J : Json ℝ) (pMev : Option ℝ) (depth : Nat) (name : Str) : Except PyErr Str :=
  match pMev with
  | none => .error .valueError
  | some p => match parseJson J depth (upper name) with
    | .error err => .error err
    | .ok h => match h.elementsOf depth 0 with
      | none => .error .recursionError
      | some es => convertWrite C F (p * 1000000) (upper name) h es

end

end Verif.Warp
