import Verif.Lte.Parser

/-!
# Model of a `BeamlineParser` object that is used several times (`rsbeams/rslattice/lte_parser.py:42-193`)

`Verif.Lte.Parser` describes one call of a new object. Here the object is kept: its beamline, its lists and `set_beamline`. What is left of the object after
an exception is not modelled.
-/

namespace Verif.Lte

open Verif.Lattice

variable {R : Type}

/-- Attributes of `BeamlineParser` (lte_parser.py:42-57) after the file was cleaned; the beamline is object 0 of the heap. -/
structure Session (R : Type) where
  defs : List Str
  lines : Dict (Option Str) Str
  text : Str
  name : Str
  heap : Heap R

/-- `BeamlineParser(filename, beamline_name)` (lte_parser.py:42-57). -/
def newSession (N : Nums R) (file : List Str) (name : Str) : Except PyErr (Session R) :=
  match sanitize N file with
  | .error e => .error e
  | .ok c => .ok ⟨replaceVars N c, [], [], lower name, Heap.init (some name)⟩

/-- `set_beamline` (lte_parser.py:69-75): the name is stored as it is. -/
def Session.setBeamline (p : Session R) (name : Str) : Session R := { p with name := name }

/-- The loop of `find_beamlines` (lte_parser.py:85-95) on an object that has lines and a text already. -/
def findFrom (name : Str) (lines : Dict (Option Str) Str) (text : Str) : List Str → Found
  | [] => ⟨[], lines, text⟩
  | line :: rest =>
    let f := findFrom name lines text rest
    if hasSub "line=(".toList line then
      ⟨f.defs, dset f.lines (readName line) (afterEq line),
        if readName line = some name then afterEq line else f.text⟩
    else ⟨line :: f.defs, f.lines, f.text⟩

/-- `find_beamlines` (lte_parser.py:77-95). -/
def Session.find (p : Session R) : Session R :=
  if p.name = [] then p
  else
    let f := findFrom p.name p.lines p.text p.defs
    { p with defs := f.defs, lines := f.lines, text := f.text }

/-- `parse_set_beamline` (lte_parser.py:97-193), which adds to the beamline that is there. -/
def Session.parse (N : Nums R) (fuel : Nat) (p : Session R) : Option (Except PyErr (Session R)) :=
  if (dget p.lines (some p.name)).isSome then
    match parseLoop N p.defs p.lines fuel ⟨p.text.drop 1, [], false, none, p.heap⟩ with
    | none => none
    | some (.error e) => some (.error e)
    | some (.ok h) => some (.ok { p with heap := h })
  else some (.error .assertionError)

/-- `parser()` (lte_parser.py:59-67). -/
def Session.call (N : Nums R) (fuel : Nat) (p : Session R) : Option (Except PyErr (Session R)) := p.find.parse N fuel

/-- What a program does with a parser. -/
inductive SessionOp where
  | set (name : Str)
  | call

/-- A history, up to the first exception. -/
def Session.run (N : Nums R) (fuel : Nat) : List SessionOp → Session R → Option (Except PyErr (Session R))
  | [], p => some (.ok p)
  | .set n :: ops, p => Session.run N fuel ops (p.setBeamline n)
  | .call :: ops, p => match p.call N fuel with
    | some (.ok p') => Session.run N fuel ops p'
    | some (.error e) => some (.error e)
    | none => none

end Verif.Lte
