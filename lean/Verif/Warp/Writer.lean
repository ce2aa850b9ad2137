import Verif.Lattice.Beamline

/-!
# Model of `WarpWriter` (`rsbeams/rslattice/formatted_writer.py:43-101`)

The text of a number is given by a function, and so is the truth value of a number. The mapping of
element types is made by a function of Sirepo and is a parameter here. Not modelled: messages, and
writing the text to the file.
-/

namespace Verif.Warp

open Verif.Lattice

variable {R : Type}

/-- `str.upper()` for ASCII text. -/
def upper (s : Str) : Str := s.map Char.toUpper

/-- `format` and `bool` of numbers. -/
structure Fmt (R : Type) where
  text : R → Str
  truthy : R → Bool

/-- `'{}'.format(value)`. -/
def Fmt.val (F : Fmt R) : PVal R → Str
  | .num x => F.text x
  | .str s => s

/-- Truth value of a parameter. -/
def Fmt.true (F : Fmt R) : PVal R → Bool
  | .num x => F.truthy x
  | .str s => !s.isEmpty

/-- The mapping: type in capitals to Warp type and parameters (formatted_writer.py:52). -/
abbrev Mapping := Dict Str (Str × List Str)

/-- `element_template` (formatted_writer.py:44). -/
def elementText (name type : Str) : Str := name ++ " = wp.".toList ++ type ++ "(".toList

/-- `parameter_template` (formatted_writer.py:45). -/
def parameterText (par value : Str) : Str := " ".toList ++ par ++ "=".toList ++ value ++ ",".toList

/-- The loop over the parameters (formatted_writer.py:71-75). -/
def parametersText (F : Fmt R) (x : Elem R) : List Str → Except PyErr Str
  | [] => .ok []
  | p :: ps => match Params.getItem x.params p with
    | none => .error .keyError
    | some v => match parametersText F x ps with
      | .ok s => .ok (parameterText p (F.val v) ++ s)
      | .error e => .error e

/-- Length of an element of unknown type (formatted_writer.py:84-87). -/
def driftLength (F : Fmt R) (x : Elem R) : Str :=
  match Params.get x.params "l".toList with
  | some v => if F.true v then F.val v else "0.0".toList
  | none => "0.0".toList

/-- The definition of an element (formatted_writer.py:68-76, 83-90). -/
def definition (F : Fmt R) (m : Mapping) (x : Elem R) : Except PyErr Str :=
  match dget m (upper x.type) with
  | some (t, ps) => match parametersText F x ps with
    | .ok s => .ok (elementText (upper x.name) t ++ s ++ ")".toList ++ "\n".toList)
    | .error e => .error e
  | none => .ok (elementText (upper x.name) "Drft".toList ++ parameterText "l".toList (driftLength F x) ++ ")".toList ++ "\n".toList)

/-- State of the loop: `element_names`, `contents`, `line_contents`. -/
structure WriteState where
  names : List Str
  contents : Str
  line : Str

/-- One round of the loop (formatted_writer.py:63-95): the state and the exception, if any. -/
def writeElem (F : Fmt R) (m : Mapping) (x : Elem R) (s : WriteState) : WriteState × Option PyErr :=
  let line := s.line ++ upper x.name ++ " + ".toList
  if s.names.contains (upper x.name) then (⟨s.names, s.contents, line⟩, none)
  else match definition F m x with
    | .ok t => (⟨s.names ++ [upper x.name], s.contents ++ t, line⟩, none)
    | .error e => (s, some e)

/-- The loop. -/
def writeElems (F : Fmt R) (m : Mapping) : List (Elem R) → WriteState → WriteState × Option PyErr
  | [], s => (s, none)
  | x :: xs, s => match writeElem F m x s with
    | (s', none) => writeElems F m xs s'
    | (s', some e) => (s', some e)

/-- `write_file` (formatted_writer.py:57-101) for a beamline with name `name` and flattened
elements `xs`; `names` is the attribute `element_names`. Result: `element_names` afterwards and the
text or the exception. -/
def writeFile (F : Fmt R) (m : Mapping) (name : Str) (xs : List (Elem R)) (names : List Str) : List Str × Except PyErr Str :=
  match writeElems F m xs ⟨names, "import warp as wp\n".toList, name ++ " = ".toList⟩ with
  | (s, none) => (s.names, .ok (s.contents ++ s.line.take (s.line.length - 2)))
  | (s, some e) => (s.names, .error e)

end Verif.Warp
