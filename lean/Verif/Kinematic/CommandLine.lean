import Verif.Kinematic.Model
import Verif.Py.Text

/-!
# Model of the command line of `rsbeams/rsstats/kinematic.py`

`parser` (kinematic.py:13-47), the branch of `Converter.__init__` for `start_parser` (kinematic.py:73-75) and `main` (kinematic.py:305-311). The
parser is the one of Python's `argparse` (3.7 to 3.11), here for optional arguments with one value each, one required group of exclusive arguments
and the help option. Not modelled: the argument `--`, text attached to the help option, printed text, values of floats that are not finite, and digits
that are not ASCII in negative numbers.
-/

namespace Verif.Kinematic

/-- The arguments of the parser. -/
inductive Opt where
  | help | q (x : Quantity) | mass | massUnit | inputUnit | outputUnit
  deriving DecidableEq, Repr

/-- `_option_string_actions` of the parser (kinematic.py:19-47), in the order in which they were added. -/
def optionStrings : List (Str × Opt) :=
  [("-h".toList, .help), ("--help".toList, .help), ("-p".toList, .q .momentum), ("--momentum".toList, .q .momentum), ("-v".toList, .q .velocity),
   ("--velocity".toList, .q .velocity), ("-E".toList, .q .energy), ("--energy".toList, .q .energy), ("-KE".toList, .q .kenergy),
   ("--kenergy".toList, .q .kenergy), ("-bg".toList, .q .betagamma), ("--betagamma".toList, .q .betagamma), ("-r".toList, .q .brho),
   ("--brho".toList, .q .brho), ("-b".toList, .q .beta), ("--beta".toList, .q .beta), ("-g".toList, .q .gamma), ("--gamma".toList, .q .gamma),
   ("-m".toList, .mass), ("--mass".toList, .mass), ("--mass_unit".toList, .massUnit), ("--unit".toList, .inputUnit),
   ("--output_unit".toList, .outputUnit)]

/-- How `parse_args` ends without a result: SystemExit with code 2 after an error, or with code 0 after the help text. -/
inductive Exit where
  | usage | help | notModelled
  deriving DecidableEq, Repr

/-- `_negative_number_matcher` of argparse. -/
def isNegNumber : Str → Bool
  | '-' :: t =>
    let a := t.takeWhile Char.isDigit
    let b := t.dropWhile Char.isDigit
    (!a.isEmpty && b.isEmpty) || (b.head? == some '.' && !b.tail.isEmpty && b.tail.all Char.isDigit)
  | _ => false

/-- `s.split('=', 1)` if there is an equal sign. -/
def splitEq (s : Str) : Option (Str × Str) :=
  if '=' ∈ s then some (s.takeWhile (· ≠ '='), (s.dropWhile (· ≠ '=')).tail) else none

/-- `_get_option_tuples` of argparse: what an argument can abbreviate, with the value attached to it. -/
def optionTuples (s : Str) : List (Opt × Option Str) :=
  if "--".toList.isPrefixOf s then
    let r := match splitEq s with
      | some (p, e) => (p, some e)
      | none => (s, none)
    optionStrings.filterMap fun x => if r.1.isPrefixOf x.1 then some (x.2, r.2) else none
  else
    optionStrings.filterMap fun x => if x.1 = s.take 2 then some (x.2, some (s.drop 2)) else if s.isPrefixOf x.1 then some (x.2, none) else none

/-- An argument after the first pass: a value, a known option with the value attached to it, or an unknown option. -/
inductive Tok where
  | value (s : Str) | option (o : Opt) (e : Option Str) | unknown
  deriving DecidableEq, Repr

/-- `_parse_optional` of argparse. -/
def parseOptional (s : Str) : Except Exit Tok :=
  if s = "--".toList then .error .notModelled
  else if s.head? ≠ some '-' then .ok (.value s)
  else match optionStrings.lookup s with
    | some o => .ok (.option o none)
    | none =>
      if s.length = 1 then .ok (.value s)
      else match (splitEq s).bind fun pe => (optionStrings.lookup pe.1).map fun o => (o, pe.2) with
        | some (o, e) => .ok (.option o (some e))
        | none => match optionTuples s with
          | [(o, e)] => .ok (.option o e)
          | _ :: _ :: _ => .error .usage
          | [] => .ok (if isNegNumber s || s.contains ' ' then .value s else .unknown)

/-- The namespace, and whether there are arguments that were not recognized. -/
structure Space where
  quantity : Quantity → Option ℝ := fun _ => none
  mass : Option ℝ := none
  massUnit : String := "eV"
  inputUnit : String := "eV"
  outputUnit : String := "eV"
  extra : Bool := false

/-- The choices of the three units (kinematic.py:31-47). -/
def unitOf (s : Str) : Except Exit String :=
  if s = "SI".toList then .ok "SI" else if s = "eV".toList then .ok "eV" else .error .usage

/-- `take_action` of argparse: the text is converted, and the other arguments of the exclusive group must not have been given. `parse` is
`float`, `none` for ValueError. -/
def store (parse : Str → Option ℝ) (n : Space) (o : Opt) (s : Str) : Except Exit Space :=
  match o with
  | .help => .error .notModelled
  | .q x => match parse s with
    | none => .error .usage
    | some v =>
      if allQuantities.any fun y => y ≠ x && (n.quantity y).isSome then .error .usage
      else .ok { n with quantity := fun y => if y = x then some v else n.quantity y }
  | .mass => match parse s with
    | none => .error .usage
    | some v => .ok { n with mass := some v }
  | .massUnit => (unitOf s).map fun u => { n with massUnit := u }
  | .inputUnit => (unitOf s).map fun u => { n with inputUnit := u }
  | .outputUnit => (unitOf s).map fun u => { n with outputUnit := u }

/-- The loop of `_parse_known_args` of argparse over the arguments. -/
def consume (parse : Str → Option ℝ) : List Tok → Space → Except Exit Space
  | [], n => .ok n
  | .value _ :: ts, n => consume parse ts { n with extra := true }
  | .unknown :: ts, n => consume parse ts { n with extra := true }
  | .option .help none :: _, _ => .error .help
  | .option o (some e) :: ts, n => match store parse n o e with
    | .error x => .error x
    | .ok n' => consume parse ts n'
  | .option o none :: .value s :: ts, n => match store parse n o s with
    | .error x => .error x
    | .ok n' => consume parse ts n'
  | .option _ none :: _, _ => .error .usage

/-- `parser.parse_args()` for the arguments `argv` behind the name of the program: at the end the required group is checked, and whether
there are arguments left. -/
def parseArgs (parse : Str → Option ℝ) (argv : List Str) : Except Exit Args :=
  match argv.mapM parseOptional with
  | .error x => .error x
  | .ok ts => match consume parse ts {} with
    | .error x => .error x
    | .ok n =>
      if !(allQuantities.any fun x => (n.quantity x).isSome) || n.extra then .error .usage
      else .ok ⟨n.quantity, n.mass, n.massUnit, n.inputUnit, n.outputUnit⟩

/-- The rest of `Converter.__init__` (kinematic.py:86-135): with a parser nothing is checked. -/
noncomputable def initParsed (k : Consts) (a : Args) : Converter :=
  let a' := if a.inputUnit = "SI" then argsFromSI k a else a
  let ms := massSetup k a'
  { args := a', mass := ms.1,
    outputs :=
      { momentum := none, velocity := none, energy := none, kenergy := none, betagamma := none, brho := none, beta := none, gamma := none,
        mass := some ms.2, input := none, inputType := none } }

/-- `main` (kinematic.py:305-311): what the converter prints. Without arguments the help text is printed and then the parser fails. -/
noncomputable def main (k : Consts) (parse : Str → Option ℝ) (argv : List Str) : Except Exit Outputs :=
  match parseArgs parse argv with
  | .error x => .error x
  | .ok a => .ok (call k (initParsed k a)).outputs

end Verif.Kinematic
