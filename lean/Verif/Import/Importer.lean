import Verif.Lattice.Beamline

/-!
# Model of `parse_json` (`rsbeams/rslattice/templates/lattice_importer.py:35-104`)

The JSON document is given as Python data: the lists `models.beamlines` and `models.elements`
and the dictionary `models.rpnCache`. The fields `id`, `items`, `name` of a beamline and `_id`,
`name`, `type` of an element are present and of the right type; parameters are numbers or text.
Not modelled: reading the file, and Python's limit on the depth of the recursion, which is a
parameter here.
-/

namespace Verif.Import

open Verif.Lattice

variable {R : Type}

/-- A beamline of the document. -/
structure JLine where
  name : Str
  items : List Int

/-- An element of the document; `params` is the rest of its entries, including `_id`. -/
structure JElem (R : Type) where
  name : Str
  type : Str
  params : List (Str × PVal R)

/-- The document. -/
structure Json (R : Type) where
  lines : List (Int × JLine)
  elems : List (Int × JElem R)
  /-- `none`: the document has no `rpnCache`. -/
  cache : Option (Dict Str (PVal R))

/-- `{v[id]: v for v in ...}`. -/
def byId {α : Type} (vs : List (Int × α)) : Dict Int α := vs.foldl (fun d v => dset d v.1 v.2) []

/-- `beamline_definitions` (lattice_importer.py:63). -/
def Json.lineDict (J : Json R) : Dict Int JLine := byId J.lines

/-- `element_defitions` (lattice_importer.py:64). -/
def Json.elemDict (J : Json R) : Dict Int (JElem R) := byId J.elems

/-- `beamline_definitions[abs(item)]` (lattice_importer.py:76-77). -/
def Json.line? (J : Json R) (item : Int) : Option JLine := dget J.lineDict (item.natAbs : Int)

/-- `element_defitions[item]` (lattice_importer.py:93). -/
def Json.elem? (J : Json R) (item : Int) : Option (JElem R) := dget J.elemDict item

/-- Value of a parameter after `_replace_rpn_variables` (lattice_importer.py:42-46). Keys of the
cache are text, so numbers are never found. -/
def replaceVal (cache : Dict Str (PVal R)) : PVal R → PVal R
  | .num x => .num x
  | .str s => (dget cache s).getD (.str s)

/-- `_replace_rpn_variables` (lattice_importer.py:42-46). The cache is looked up for every
parameter, so without parameters it may be missing. -/
def replaceRpn (cache : Option (Dict Str (PVal R))) (ps : List (Str × PVal R)) : Except PyErr (List (Str × PVal R)) :=
  match cache with
  | none => if ps = [] then .ok [] else .error .keyError
  | some c => .ok (ps.map fun kv => (kv.1, replaceVal c kv.2))

/-- An item that is an element (lattice_importer.py:93-100). -/
def addElem (J : Json R) (item : Int) (l : Nat) (h : Heap R) : Except PyErr (Heap R) :=
  match J.elem? item with
  | none => .error .keyError
  | some e => match replaceRpn J.cache e.params with
    | .error err => .error err
    | .ok ps => match h.addElement l e.name e.type ps false with
      | (_, some err) => .error err
      | (h', none) => .ok h'

/-- The loop of `generate_beamline` (lattice_importer.py:74-100) on beamline object `l`; `sub` is
the recursive call. -/
def genWith (J : Json R) (sub : List Int → Nat → Heap R → Except PyErr (Heap R)) :
    List Int → Nat → Heap R → Except PyErr (Heap R)
  | [], _, h => .ok h
  | item :: items, l, h => match J.line? item with
    | some L =>
      let h1 := h.addBeamline l (some L.name)
      match dget (h1.line l).lines (some L.name) with
      | none => .error .keyError
      | some k => match sub (if 0 ≤ item then L.items else L.items.reverse) k h1 with
        | .error e => .error e
        | .ok h2 => genWith J sub items l h2
    | none => match addElem J item l h with
      | .error e => .error e
      | .ok h1 => genWith J sub items l h1

/-- `generate_beamline` with a limit on the depth of the recursion. -/
def generate (J : Json R) : Nat → List Int → Nat → Heap R → Except PyErr (Heap R)
  | 0 => genWith J fun _ _ _ => .error .recursionError
  | n + 1 => genWith J (generate J n)

/-- `parse_json` (lattice_importer.py:49-104). -/
def parseJson (J : Json R) (depth : Nat) (name : Str) : Except PyErr (Heap R) :=
  match J.lineDict.find? fun kv => kv.2.name = name with
  | none => .error .valueError
  | some kv => generate J depth kv.2.items 0 (Heap.init (some kv.2.name))

end Verif.Import
