import Verif.Lattice.Beamline
import Verif.Py.TextFind

/-!
# Model of `Trace3d` (`rsbeams/rslattice/trace3d_parser.py:12-233`)

A file is a list of lines. The beamline is object 0 of a heap, see `Verif.Lattice.Beamline`.
Floating point numbers have an arbitrary type. `\d` is taken as the ASCII digits.

Not modelled: a file that cannot be read, messages. `handle_bends` is in `Verif.Trace.Bends`, the subclass `TraceWin` is in `Verif.Trace.TraceWin`.
-/

namespace Verif.Trace

open Verif.Lattice

variable {R : Type}

/-! ## Regular expressions -/

/-- `[-+]?` of the number pattern: length matched and what follows
(trace3d_parser.py:153). -/
def matchSign (s : Str) : Nat × Str :=
  match s with
  | '-' :: t => (1, t)
  | '+' :: t => (1, t)
  | t => (0, t)

/-- Length of a match of `[-+]?\d*\.\d+` at the start (trace3d_parser.py:153). -/
def matchDecimal (s : Str) : Option Nat :=
  let t := (matchSign s).2
  match t.dropWhile Char.isDigit with
  | '.' :: u =>
    let f := u.takeWhile Char.isDigit
    if f = [] then none else some ((matchSign s).1 + (t.takeWhile Char.isDigit).length + 1 + f.length)
  | _ => none

/-- Length of a match of `\d+`. -/
def matchDigits (s : Str) : Option Nat :=
  let d := s.takeWhile Char.isDigit
  if d = [] then none else some d.length

/-- `[-+]?\d*\.\d+|\d+`: the first alternative is tried first. -/
def matchNumber (s : Str) : Option Nat :=
  match matchDecimal s with
  | some n => some n
  | none => matchDigits s

/-- Loop of `findAll`; `skip` characters of the text belong to the last match. -/
def findFrom (m : Str → Option Nat) : Nat → Str → List Str
  | _, [] => []
  | skip + 1, _ :: cs => findFrom m skip cs
  | 0, c :: cs => match m (c :: cs) with
    | some n => (c :: cs).take n :: findFrom m (n - 1) cs
    | none => findFrom m 0 cs

/-- `re.findall` for a pattern that does not match empty text. -/
def findAll (m : Str → Option Nat) (s : Str) : List Str := findFrom m 0 s

/-! ## Slices -/

/-- `s.find(sub)` as a number. -/
def pyFind (sub s : Str) : Int :=
  match findSub sub s with
  | some n => n
  | none => -1

/-- A slice bound. -/
def clip (len : Nat) (i : Int) : Nat :=
  if i < 0 then (len + i).toNat else min i.toNat len

/-- `s[a:]`. -/
def sliceFrom (s : Str) (a : Int) : Str := s.drop (clip s.length a)

/-- `s[a:b]`. -/
def slice (s : Str) (a b : Int) : Str := (s.take (clip s.length b)).drop (clip s.length a)

/-! ## Lines of the file -/

/-- One round of the cleaning loop (trace3d_parser.py:59-73). After removing a comment line the
round goes on with the line behind it. -/
def cleanLine (line : Str) (rest : List Str) : Except PyErr (List Str) :=
  match lstrip (lower line) with
  | [] => .ok rest
  | ';' :: _ => match rest with
    | [] => .error .indexError
    | s :: rest => .ok (s.takeWhile (· ≠ ';') :: rest)
  | _ => .ok ((lower line).takeWhile (· ≠ ';') :: rest)

/-- `_sanitize_lattice_definition` (trace3d_parser.py:48-73). -/
def sanitize : List Str → Except PyErr (List Str)
  | [] => .ok []
  | line :: lines => match sanitize lines with
    | .ok rest => cleanLine line rest
    | .error e => .error e

/-- `get_element_name` (trace3d_parser.py:135-140). -/
def elementName (line : Str) : Str :=
  strip (slice line (pyFind "cmt(".toList line + 4) (pyFind ")".toList line))

/-- `get_element_type` (trace3d_parser.py:142-147). -/
def elementType (line : Str) : Except PyErr Nat :=
  let start := pyFind "nt".toList line
  let eq := pyFind "=".toList (sliceFrom line start)
  match findAll matchDigits (sliceFrom line (start + eq)) with
  | [] => .error .indexError
  | d :: _ => match digitsVal 0 d with
    | some n => .ok n
    | none => .error .valueError

/-- `classifiers` (trace3d_parser.py:96-102). -/
def classifier (n : Nat) : Option Str :=
  if n = 1 then some "drift".toList
  else if n = 3 then some "quadrupole".toList
  else if n = 8 then some "sbend".toList
  else if n = 9 then some "edge".toList
  else if n = 10 then some "rfca".toList
  else none

/-- `elements[classifiers[type]]` (trace3d_parser.py:88-94). -/
def parameterNames (n : Nat) : Option (List Str) :=
  if n = 1 then some ["L".toList]
  else if n = 3 then some ["K1".toList, "L".toList, "DX".toList, "DY".toList, "OF".toList]
  else if n = 8 then some ["ANGLE".toList, "R".toList, "INDEX".toList, "VF".toList]
  else if n = 9 then some ["BETA".toList, "R".toList, "G".toList, "K1".toList, "K2".toList]
  else if n = 10 then some ["VOLT".toList, "PHASE".toList, "EGF".toList, "CHANGE_P0".toList, "H".toList]
  else none

/-- Floating point numbers as used here. -/
structure FNums (R : Type) where
  /-- `float(s)` for text that matched the pattern. -/
  float : Str → R
  mul : R → R → R
  abs : R → R
  /-- `conversions` (trace3d_parser.py:104-121). -/
  conv : List (Str × R)

/-- The table `conversions` of `Trace3d` (trace3d_parser.py:104-121) for the numbers 1e-3, π/180 and 1e6. -/
def traceConv (milli degree mega : R) : List (Str × R) :=
  [("L".toList, milli), ("R".toList, milli), ("G".toList, milli), ("dt".toList, degree), ("ANGLE".toList, degree), ("BETA".toList, degree),
   ("DX".toList, milli), ("DY".toList, milli), ("VOLT".toList, mega)]

/-- The texts of the numbers of a line (trace3d_parser.py:150-153). -/
def numberTexts (line : Str) : List Str :=
  let start := pyFind "a(".toList line
  let stop := pyFind "=".toList (sliceFrom line start) + start
  findAll matchNumber (sliceFrom line stop)

/-- `get_element_parameters` (trace3d_parser.py:149-164). The names of a type are distinct. -/
def elementParameters (F : FNums R) (line : Str) (type : Nat) : Except PyErr (Dict Str R) :=
  match parameterNames type with
  | none => .error .keyError
  | some names => .ok (names.zip ((numberTexts line).map F.float))

/-- `_convert_units` (trace3d_parser.py:166-171). -/
def convertUnits (F : FNums R) (ps : Dict Str R) : Dict Str R :=
  F.conv.foldl (fun ps kv => match dget ps kv.1 with
    | some x => dset ps kv.1 (F.mul x kv.2)
    | none => ps) ps

/-- `_standardize` on one element (trace3d_parser.py:176-178). -/
def standardizeElem (F : FNums R) (x : Elem R) : Except PyErr (Elem R) :=
  if x.type = "sbend".toList then
    match Params.getItem x.params "r".toList, Params.getItem x.params "angle".toList with
    | some (.num r), some (.num a) => .ok { x with params := Params.setItem x.params "l".toList (.num (F.abs (F.mul r a))) }
    | some _, some _ => .error .typeError
    | _, _ => .error .keyError
  else .ok x

/-- `_standardize` (trace3d_parser.py:173-178); the beamline has no sub-beamlines. -/
def standardize (F : FNums R) : List Item → Heap R → Except PyErr (Heap R)
  | [], h => .ok h
  | .line _ :: is, h => standardize F is h
  | .elem e :: is, h => match standardizeElem F (h.elem e) with
    | .ok x => standardize F is (h.setElem e x)
    | .error err => .error err

/-- One line (trace3d_parser.py:190-199). `handlers` is the attribute of that name: `none` for
`Trace3d`, which has none; otherwise whether the table has an entry, which is not modelled. -/
def parseElement (F : FNums R) (handlers : Option (Nat → Bool)) (line : Str) (h : Heap R) :
    Except PyErr (Heap R) :=
  match elementType line with
  | .error e => .error e
  | .ok type => match elementParameters F line type with
    | .error e => .error e
    | .ok ps => match handlers with
      | none => .error .attributeError
      | some t =>
        if t type then .error .notModelled
        else match classifier type with
          | none => .error .keyError
          | some cls =>
            match h.addElement 0 (elementName line) cls
                ((convertUnits F ps).map fun kv => (kv.1, .num kv.2)) false with
            | (_, some e) => .error e
            | (h', none) => standardize F (h'.line 0).seq h'

/-- The loop of `parse_set_beamline` (trace3d_parser.py:189-199). -/
def parseLines (F : FNums R) (handlers : Option (Nat → Bool)) : List Str → Heap R → Except PyErr (Heap R)
  | [], h => .ok h
  | line :: lines, h => match parseElement F handlers line h with
    | .ok h' => parseLines F handlers lines h'
    | .error e => .error e

/-- Positions of the lines with `cmt` (trace3d_parser.py:180-184). -/
def cmtLines (lines : List Str) : List Nat :=
  (List.range lines.length).filter fun i => hasSub "cmt".toList (lines.getD i [])

/-- `Trace3d(filename, name)()` (trace3d_parser.py:19-46, 180-199). -/
def parseFile (F : FNums R) (handlers : Option (Nat → Bool)) (name : Str) (file : List Str) :
    Except PyErr (Heap R) :=
  match sanitize file with
  | .error e => .error e
  | .ok lines => match cmtLines lines with
    | [] => .error .valueError
    | i :: is => parseLines F handlers ((lines.take ((i :: is).getLast (by simp))).drop i) (Heap.init (some name))

/-! ## Cavities -/

/-- `seq[i].parameters[key]`; text cannot be added. -/
def paramAt (h : Heap R) (i : Int) (key : Str) : Except PyErr R :=
  match pyIndex (h.line 0).seq i with
  | none => .error .indexError
  | some (.line _) => .error .attributeError
  | some (.elem e) => match Params.getItem (h.elem e).params key with
    | none => .error .keyError
    | some (.str _) => .error .typeError
    | some (.num x) => .ok x

/-- The assignments to the neighbours and the cavity at position `i` (trace3d_parser.py:226-230). -/
def mergeDrifts [Zero R] [Add R] (h : Heap R) (i : Nat) : Except PyErr (Heap R) :=
  match paramAt h ((i : Int) - 1) "L".toList, paramAt h ((i : Int) + 1) "L".toList with
  | .error e, _ => .error e
  | .ok _, .error e => .error e
  | .ok a, .ok b =>
    let h1 := (h.editIndex 0 ((i : Int) - 1) ["L".toList] [.num 0]).1
    let h2 := (h1.editIndex 0 ((i : Int) + 1) ["L".toList] [.num 0]).1
    .ok (h2.editIndex 0 i ["L".toList] [.num (a + b)]).1

/-- The first loop (trace3d_parser.py:221-230): positions and phases of the cavities.
`ninety` is the number 90. -/
def cavityLoop [Zero R] [Add R] [Sub R] (ninety : R) : List Nat → Heap R → List Nat → List R → Except PyErr (Heap R × List Nat × List R)
  | [], h, cavs, phases => .ok (h, cavs, phases)
  | i :: is, h, cavs, phases => match (h.line 0).seq[i]? with
    | some (.elem e) =>
      if (h.elem e).type = "rfca".toList then
        match paramAt h i "phase".toList with
        | .error err => .error err
        | .ok p => match mergeDrifts h i with
          | .error err => .error err
          | .ok h' => cavityLoop ninety is h' (cavs ++ [i]) (phases ++ [ninety - p])
      else cavityLoop ninety is h cavs phases
    | some (.line _) => .error .attributeError
    | none => .error .indexError

/-- The second loop (trace3d_parser.py:232-233). -/
def phaseLoop (phases : List R) : List Nat → Heap R → Heap R
  | [], h => h
  | i :: is, h => phaseLoop phases is
      (h.editIndex 0 i (List.replicate phases.length "phase".toList) (phases.map .num)).1

/-- `handle_cavities` (trace3d_parser.py:217-233). -/
def handleCavities [Zero R] [Add R] [Sub R] (ninety : R) (h : Heap R) : Except PyErr (Heap R) :=
  match cavityLoop ninety (List.range (h.line 0).seq.length) h [] [] with
  | .error e => .error e
  | .ok (h', cavs, phases) => .ok (phaseLoop phases cavs h')

end Verif.Trace
