import Verif.Sdds.Header
import Verif.Py.TextLemmas

/-!
# What an SDDS header looks like, and what it means

A header is `SDDS1`, comment lines, `&parameter` and `&column` namelists and a `&data`
namelist, one namelist per line, entries `key=value,` or `key="value",`.
-/

namespace Verif.Sdds

/-- The keys that occur in namelists. -/
def knownKeys : List Str :=
  ["name".toList, "symbol".toList, "units".toList, "description".toList, "format_string".toList,
   "type".toList, "fixed_value".toList, "field_length".toList, "mode".toList, "lines_per_row".toList,
   "no_row_counts".toList, "additional_header_lines".toList]

/-- One entry of a namelist. -/
structure Attr where
  key : Str
  val : Str
  quoted : Bool
  deriving DecidableEq, Repr

/-- Text of an entry. -/
def Attr.text (a : Attr) : Str :=
  a.key ++ '=' :: (if a.quoted then '"' :: (a.val ++ ['"']) else a.val) ++ [',', ' ']

/-- Text that needs no quotes. -/
def PlainChar (c : Char) : Prop := lexSpace c = false ∧ c ≠ '"' ∧ c ≠ '\\'

instance (c : Char) : Decidable (PlainChar c) := by unfold PlainChar; infer_instance

/-- Entries whose value can be written down: ASCII, one line, no double quote, no backslash,
no comma at the end, and no white space unless quoted. -/
structure Attr.Ok (a : Attr) : Prop where
  key : a.key ∈ knownKeys
  ascii : Ascii a.val
  line : '\n' ∉ a.val
  noQuote : '"' ∉ a.val
  noEsc : '\\' ∉ a.val
  noComma : ∀ x, a.val.getLast? = some x → x ≠ ','
  plain : a.quoted = false → ∀ c ∈ a.val, lexSpace c = false

/-- The value an entry list gives to a key: the last entry counts. -/
def attrVal (as : List Attr) (key : Str) : Option Str :=
  ((as.filter fun a => a.key = key).getLast?).map Attr.val

/-- Kinds of namelists. -/
inductive NKind
  | param | col
  deriving DecidableEq, Repr

/-- A namelist on one line. `pad` are blanks before `&end`. -/
structure NDoc where
  kind : NKind
  attrs : List Attr
  pad : Nat := 0
  deriving DecidableEq, Repr

def NKind.word : NKind → Str
  | .param => "&parameter".toList
  | .col => "&column".toList

/-- Text of a line `&word entries &end`. -/
def nlText (word : Str) (attrs : List Attr) (pad : Nat) : Str :=
  word ++ ' ' :: (attrs.flatMap Attr.text ++ (List.replicate pad ' ' ++ ("&end".toList ++ ['\n'])))

def NDoc.text (n : NDoc) : Str := nlText n.kind.word n.attrs n.pad

/-- A whole header. -/
structure Doc where
  comments : List Str
  namelists : List NDoc
  data : List Attr
  deriving DecidableEq, Repr

/-- Text of the header. -/
def Doc.text (d : Doc) : Str :=
  "SDDS1\n".toList ++ d.comments.flatMap (fun c => '!' :: c ++ ['\n']) ++
  d.namelists.flatMap NDoc.text ++ nlText "&data".toList d.data 0

/-- Everything in the header can be written down. -/
structure Doc.Ok (d : Doc) : Prop where
  comments : ∀ c ∈ d.comments, Ascii c ∧ '\n' ∉ c
  namelists : ∀ n ∈ d.namelists, ∀ a ∈ n.attrs, a.Ok
  data : ∀ a ∈ d.data, a.Ok ∧ '&' ∉ a.val

/-- A parameter described by entries. -/
def paramOf (ft : FloatText) (as : List Attr) : Except PyErr ParamField :=
  let f := fun (s : String) => (attrVal as s.toList).getD []
  match attrVal as "fixed_value".toList with
  | some v => (parseFixed ft (f "type") v).map fun fx =>
      ⟨f "name", f "symbol", f "units", f "description", f "format_string", f "type", some fx⟩
  | none =>
    if f "type" ∈ dataTypes then
      .ok ⟨f "name", f "symbol", f "units", f "description", f "format_string", f "type", none⟩
    else .error .keyError

/-- A column described by entries. -/
def colOf (as : List Attr) : Except PyErr ColField :=
  let f := fun (s : String) => (attrVal as s.toList).getD []
  if f "type" ∉ dataTypes then .error .keyError
  else if f "type" = "string".toList ∧ attrVal as "field_length".toList ≠ none then .error .typeError
  else .ok ⟨f "name", f "symbol", f "units", f "description", f "format_string", f "type",
    attrVal as "field_length".toList⟩

/-- The entry lists of the namelists of one kind. -/
def Doc.attrsOf (d : Doc) (k : NKind) : List (List Attr) :=
  (d.namelists.filter fun n => n.kind = k).map NDoc.attrs

end Verif.Sdds
