import Verif.Lattice.Beamline
import Verif.Lte.Rpn

/-!
# Model of `BeamlineParser` (`rsbeams/rslattice/lte_parser.py:31-326`)

A lattice file is a list of lines with their newlines (`readlines`). The beamline that is built
is object 0 of a heap, see `Verif.Lattice.Beamline`.

Not modelled: a file that cannot be read (lte_parser.py:53-54 prints a message and the
constructor then fails). `set_beamline` and further calls of the same parser object are in
`Verif.Lte.Session`.
-/

namespace Verif.Lte

open Verif.Lattice

variable {R : Type}

/-! ## Element definitions -/

/-- The loop over `key=value` (lte_parser.py:249-264). The fuel is larger than the text, which
gets shorter in every round. -/
def paramLoop (N : Nums R) : Nat → Str → Dict Str (PVal R) → Except PyErr (Dict Str (PVal R))
  | 0, _, _ => .error .notModelled
  | fuel + 1, s, ps => match partitionChar '=' s with
    | none => .ok ps
    | some (before, after) =>
      let key := strip before
      match parseRpn N after with
      | .ok x => paramLoop N fuel after (dset ps key (.num x))
      | .error .valueError =>
        let (value, rest) := match partitionChar ',' after with
          | some (a, b) => (a, b)
          | none => (after, [])
        match parseRpn N value with
        | .ok x => paramLoop N fuel rest (dset ps key (.num x))
        | .error .valueError => paramLoop N fuel rest (dset ps key (.str value))
        | .error e => .error e
      | .error e => .error e

/-- `_find_parameters` (lte_parser.py:233-266). -/
def findParameters (N : Nums R) (s : Str) : Except PyErr (Str × Dict Str (PVal R)) :=
  let typeStart := match findChar ':' s.reverse with
    | some i => s.length - (i + 1)
    | none => s.length
  let type := match findChar ',' s with
    | some e => strip ((s.take e).drop (typeStart + 1))
    | none => strip (s.dropLast.drop (typeStart + 1))
  let rest := match findChar ',' s with
    | some e => s.drop (e + 1)
    | none => s
  match paramLoop N (s.length + 1) rest [] with
  | .ok ps => .ok (type, ps)
  | .error e => .error e

/-! ## Cleaning the file -/

/-- Lines after the current one, already cleaned, and `rpn_variables`. -/
structure Clean (R : Type) where
  lines : List Str
  vars : Dict Str R

/-- `line[:line.find('!')]` if there is a comment (lte_parser.py:291-293). -/
def cutComment (s : Str) : Str := s.takeWhile (· ≠ '!')

/-- Continuation (lte_parser.py:295-303). -/
def joinLine (s : Str) (rest : List Str) : Except PyErr (Str × List Str) :=
  match (rstrip s).getLast? with
  | none => .error .indexError
  | some '&' => match rest with
    | [] => .error .indexError
    | next :: rest => .ok ((rstrip s).dropLast ++ strip next, rest)
  | some _ => .ok (s, rest)

/-- Stored variables (lte_parser.py:305-307). -/
def storeVar (N : Nums R) (s : Str) (vars : Dict Str R) : Except PyErr (Dict Str R) :=
  match lstrip s with
  | [] => .error .indexError
  | '%' :: _ =>
    let v := splitWs s
    match v.getLast? with
    | none => .error .indexError
    | some name => match parseRpn N (joinBlank ((v.take (v.length - 2)).drop 1)) with
      | .ok x => .ok (dset vars name x)
      | .error e => .error e
  | _ => .ok vars

/-- One round after the removal of comment lines (lte_parser.py:290-307), with the current line
at the head of the list. -/
def cleanRest (N : Nums R) (s : Str) (rest : List Str) (vars : Dict Str R) : Except PyErr (Clean R) :=
  match joinLine (cutComment s) rest with
  | .error e => .error e
  | .ok (s', rest') => match storeVar N s' vars with
    | .error e => .error e
    | .ok vars' => .ok ⟨s' :: rest', vars'⟩

/-- One round of the loop (lte_parser.py:279-307). After removing a comment line the round goes
on with the line behind it. -/
def cleanLine (N : Nums R) (line : Str) (c : Clean R) : Except PyErr (Clean R) :=
  match lstrip (lower line) with
  | [] => .ok c
  | '!' :: _ => match c.lines with
    | [] => .error .indexError
    | s :: rest => cleanRest N s rest c.vars
  | _ => cleanRest N (lower line) c.lines c.vars

/-- `_sanitize_lattice_definition` (lte_parser.py:268-307). -/
def sanitize (N : Nums R) : List Str → Except PyErr (Clean R)
  | [] => .ok ⟨[], []⟩
  | line :: lines => match sanitize N lines with
    | .ok c => cleanLine N line c
    | .error e => .error e

/-- One variable in one line (lte_parser.py:316-318). -/
def replaceVar (N : Nums R) (line : Str) (kv : Str × R) : Str :=
  if findSub kv.1 line = some 0 then line else replaceAll kv.1 (N.toText kv.2) line

/-- `_replace_stored_variables` (lte_parser.py:309-318). -/
def replaceVars (N : Nums R) (c : Clean R) : List Str :=
  c.lines.map fun line => c.vars.foldl (replaceVar N) line

/-! ## Lines -/

/-- `_read_name` (lte_parser.py:320-326); `none` stands for -1. -/
def readName (line : Str) : Option Str :=
  match findChar ':' line with
  | none => none
  | some e => some (stripChar '"' (line.take e))

/-- Everything behind the first `=` (lte_parser.py:87-89); the whole text if there is none. -/
def afterEq (line : Str) : Str :=
  match findChar '=' line with
  | some i => line.drop (i + 1)
  | none => line

/-- State after `find_beamlines`: element definitions, lines, text of the wanted line. -/
structure Found where
  defs : List Str
  lines : Dict (Option Str) Str
  text : Str
  deriving DecidableEq

/-- The loop of `find_beamlines` (lte_parser.py:85-95), from the last line to the first. -/
def findLoop (name : Str) : List Str → Found
  | [] => ⟨[], [], []⟩
  | line :: rest =>
    let f := findLoop name rest
    if hasSub "line=(".toList line then
      ⟨f.defs, dset f.lines (readName line) (afterEq line),
        if readName line = some name then afterEq line else f.text⟩
    else ⟨line :: f.defs, f.lines, f.text⟩

/-- `find_beamlines` (lte_parser.py:77-95): nothing is searched for an empty name. -/
def findBeamlines (name : Str) (defs : List Str) : Found :=
  if name = [] then ⟨defs, [], []⟩ else findLoop name defs

/-- `_expand_line` (lte_parser.py:195-231). -/
def expandLine (s : Str) (n : Nat) : Except PyErr Str :=
  match s.drop 1 with
  | [] => .error .indexError
  | '(' :: s' =>
    let (item, rest) := match findChar ')' s' with
      | some e => (s'.take e, s'.drop (e + 2))
      | none => (s'.dropLast, s'.drop 1)
    .ok ((List.replicate n (item ++ [','])).flatten ++ rest)
  | s' =>
    let (item, rest) := match findChar ',' s' with
      | some e => (s'.take e, s'.drop (e + 1))
      | none => match findChar ')' s' with
        | some e => (s'.take e, s'.drop (e + 1))
        | none => (s'.dropLast, s')
    .ok ((List.replicate n (item ++ [','])).flatten ++ rest)

/-- Leading digits and the rest (lte_parser.py:129-136): repetition is expanded. -/
def expandHead (s : Str) : Except PyErr Str :=
  let digits := s.takeWhile Char.isDigit
  let rest := s.dropWhile Char.isDigit
  if rest = [] then .error .indexError
  else if digits = [] then .ok s
  else match digitsVal 0 digits with
    | some n => expandLine rest n
    | none => .error .valueError

/-- Where the next name ends (lte_parser.py:137-140); the old value is kept if nothing is found. -/
def nameEnd (s : Str) (old : Option Nat) : Option Nat :=
  match findChar ',' s with
  | some e => some e
  | none => match findChar ')' s with
    | some e => some e
    | none => old

/-- The definition of an element: the last line that starts with `name:` (lte_parser.py:167-172). -/
def findDef (defs : List Str) (name : Str) : Option Str :=
  (defs.map dropQuotes).reverse.find? fun line => (name ++ [':']).isPrefixOf (lstrip line)

/-- Variables of the loop of `parse_set_beamline`; the last entry of `lines_list` comes first. -/
structure PState (R : Type) where
  bs : Str
  stack : List Str
  sub : Bool
  nextEnd : Option Nat
  heap : Heap R

/-- A line was named: it becomes the current text (lte_parser.py:144-160). -/
def enterLine (st : PState R) (bs name text : Str) (e : Nat) : PState R :=
  let rest := match findChar ',' bs with
    | some i => bs.drop (i + 1)
    | none => match findChar ')' bs with
      | some i => bs.drop (i + 1)
      | none => bs
  { bs := text.drop 1
    stack := if strip rest ≠ [] then rest :: st.stack else st.stack
    sub := true
    nextEnd := some e
    heap := st.heap.addBeamline 0 (some name) }

/-- The element was added: go on behind its name (lte_parser.py:182-193). -/
def afterElement (st : PState R) (bs : Str) (e : Nat) (h : Heap R) : PState R :=
  let rest := bs.drop (e + 1)
  let rest := if rstrip rest = [')'] then [] else rest
  if strip rest = [] then
    match st.stack with
    | [] => { st with bs := rest, nextEnd := some e, heap := h }
    | t :: ts => { bs := t, stack := ts, sub := false, nextEnd := some e, heap := h }
  else { st with bs := rest, nextEnd := some e, heap := h }

/-- One round of the loop (lte_parser.py:127-193). -/
def parseStep (N : Nums R) (defs : List Str) (lines : Dict (Option Str) Str) (st : PState R) :
    Except PyErr (PState R) :=
  match expandHead st.bs with
  | .error e => .error e
  | .ok bs => match nameEnd bs st.nextEnd with
    | none => .error .nameError
    | some e =>
      let name := strip (bs.take e)
      match dget lines (some name) with
      | some text => .ok (enterLine st bs name text e)
      | none =>
        let name := dropQuotes name
        match findDef defs name with
        | none => .error .typeError
        | some d => match findParameters N d with
          | .error err => .error err
          | .ok (type, ps) => match st.heap.addElement 0 name type ps st.sub with
            | (_, some err) => .error err
            | (h, none) => .ok (afterElement st bs e h)

/-- The loop of `parse_set_beamline`; `none`: still running. -/
def parseLoop (N : Nums R) (defs : List Str) (lines : Dict (Option Str) Str) :
    Nat → PState R → Option (Except PyErr (Heap R))
  | 0, st => if strip st.bs = [] then some (.ok st.heap) else none
  | fuel + 1, st =>
    if strip st.bs = [] then some (.ok st.heap)
    else match parseStep N defs lines st with
      | .ok st' => parseLoop N defs lines fuel st'
      | .error e => some (.error e)

/-- `parse_set_beamline` (lte_parser.py:97-193). -/
def parseLine (N : Nums R) (f : Found) (name : Str) (title : Option Str) (fuel : Nat) :
    Option (Except PyErr (Heap R)) :=
  if (dget f.lines (some name)).isSome then
    parseLoop N f.defs f.lines fuel ⟨f.text.drop 1, [], false, none, Heap.init title⟩
  else some (.error .assertionError)

/-- `BeamlineParser(filename, beamline_name)()` (lte_parser.py:42-67). -/
def parseFile (N : Nums R) (file : List Str) (name : Str) (fuel : Nat) : Option (Except PyErr (Heap R)) :=
  match sanitize N file with
  | .error e => some (.error e)
  | .ok c => parseLine N (findBeamlines (lower name) (replaceVars N c)) (lower name) (some name) fuel

end Verif.Lte
