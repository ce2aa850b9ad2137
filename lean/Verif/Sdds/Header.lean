import Verif.Py.Text

/-!
# Model of the SDDS header reader

`rsbeams/rsdata/utils.py`, `rsbeams/rsdata/datatypes.py` and the header part of
`rsbeams/rsdata/SDDS.py` (`readSDDS.__init__`, `_read_header`, `_parse_header`,
`_compose_*_datatypes`, the accessors). A file is its list of bytes. Loops that need not end
take a fuel argument; `none` means "still running after that many steps".
-/

namespace Verif.Sdds

/-- `utils._read_line` (utils.py:21-25): reads lines until one is neither empty, nor a lone
newline, nor a comment. At the end of the file `readline` keeps returning `b''`, so the loop
goes on. -/
def readLine : Nat → Bytes → Option (Str × Bytes)
  | 0, _ => none
  | fuel + 1, b =>
    let r := readline b
    let line := latin1 r.1
    if line = [] ∨ line = ['\n'] ∨ line.head? = some '!' then readLine fuel r.2
    else some (line, r.2)

/-- States of `shlex.read_token` that can occur: between tokens, in a word, in quotes, after
a backslash (with the state to return to). -/
inductive LexState
  | space | word | quote | escWord | escQuote
  deriving DecidableEq, Repr

/-- White space of `shlex`. -/
def lexSpace (c : Char) : Bool := c == ' ' || c == '\t' || c == '\r' || c == '\n'

/-- `utils._shlex_split` (utils.py:28-36): `shlex` in posix mode with `"` as the only quote,
`\` as escape, no comment characters and `whitespace_split`. `tok` is the token being built,
`quoted` is the local flag of `read_token`. -/
def lex : LexState → Str → Bool → Str → Except PyErr (List Str)
  | .space, _, _, [] => .ok []
  | .space, _, _, c :: cs =>
    if lexSpace c then lex .space [] false cs
    else if c = '\\' then lex .escWord [] false cs
    else if c = '"' then lex .quote [] false cs
    else lex .word [c] false cs
  | .word, tok, quoted, [] => if tok = [] ∧ quoted = false then .ok [] else .ok [tok]
  | .word, tok, quoted, c :: cs =>
    if lexSpace c then
      if tok = [] ∧ quoted = false then lex .space [] false cs
      else (lex .space [] false cs).map (tok :: ·)
    else if c = '"' then lex .quote tok quoted cs
    else if c = '\\' then lex .escWord tok quoted cs
    else lex .word (tok ++ [c]) quoted cs
  | .quote, _, _, [] => .error .valueError
  | .quote, tok, _, c :: cs =>
    if c = '"' then lex .word tok true cs
    else if c = '\\' then lex .escQuote tok true cs
    else lex .quote (tok ++ [c]) true cs
  | .escWord, _, _, [] => .error .valueError
  | .escWord, tok, quoted, c :: cs => lex .word (tok ++ [c]) quoted cs
  | .escQuote, _, _, [] => .error .valueError
  | .escQuote, tok, quoted, c :: cs =>
    if c ≠ '\\' ∧ c ≠ '"' then lex .quote (tok ++ ['\\', c]) quoted cs
    else lex .quote (tok ++ [c]) quoted cs

/-- `_shlex_split(line)`. -/
def shlexSplit (line : Str) : Except PyErr (List Str) := lex .space [] false line

/-- `entry[entry.find('=') + 1:]` (datatypes.py:24-25). -/
def afterEq (entry : Str) : Str :=
  if '=' ∈ entry then (entry.dropWhile (· ≠ '=')).drop 1 else entry

/-- The value `Datum.parse_namelist` (datatypes.py:19-25) gives to field `name`: the last
entry that starts with the name wins; `none` when the default is kept. -/
def getField (name : Str) (entries : List Str) : Option Str :=
  ((entries.filter fun e => name.isPrefixOf e).getLast?).map fun e => rstripChar ',' (afterEq e)

/-- Double precision numbers are kept as bit patterns. -/
abbrev F64 := BitVec 64

/-- Conversion between doubles and text: Python's `str(float)` and `float(str)`. Their
algorithms are not modelled; laws are stated where they are used. -/
structure FloatText where
  fmt : F64 → Str
  parse : Str → Except PyErr F64

/-- Value of `fixed_value` after `parse_fixed_value`. -/
inductive Fixed
  | int (i : Int)
  | float (x : F64)
  | str (s : Str)
  deriving DecidableEq, Repr

/-- Fields of a `Parameter` (datatypes.py:37-48). -/
structure ParamField where
  name : Str
  symbol : Str
  units : Str
  description : Str
  formatString : Str
  type : Str
  fixed : Option Fixed
  deriving DecidableEq, Repr

/-- Fields of a `Column` (datatypes.py:72-84). -/
structure ColField where
  name : Str
  symbol : Str
  units : Str
  description : Str
  formatString : Str
  type : Str
  /-- `none` is the default 0. -/
  fieldLength : Option Str
  deriving DecidableEq, Repr

/-- `utils.data_types` keys (utils.py:6-7). -/
def dataTypes : List Str :=
  ["double".toList, "short".toList, "long".toList, "string".toList, "char".toList, "float".toList]

/-- `Parameter.parse_fixed_value` (datatypes.py:55-69). -/
def parseFixed (ft : FloatText) (type v : Str) : Except PyErr Fixed :=
  if v = [] then .ok (.str [])
  else if type = "short".toList ∨ type = "long".toList then (parseInt v).map .int
  else if type = "double".toList then (ft.parse v).map .float
  else .ok (.str v)

/-- `Parameter(namelist)` (datatypes.py:37-53). -/
def mkParam (ft : FloatText) (namelist : Str) : Except PyErr ParamField := do
  let es ← shlexSplit namelist
  let f := fun (s : String) => (getField s.toList es).getD []
  let type := f "type"
  match getField "fixed_value".toList es with
  | some v => do
    let fx ← parseFixed ft type v
    .ok ⟨f "name", f "symbol", f "units", f "description", f "format_string", type, some fx⟩
  | none =>
    if type ∈ dataTypes then
      .ok ⟨f "name", f "symbol", f "units", f "description", f "format_string", type, none⟩
    else .error .keyError

/-- `Column(namelist)` (datatypes.py:72-103). A string column with a field length other than
the default calls `np.abs` on text, which raises TypeError. -/
def mkColumn (namelist : Str) : Except PyErr ColField := do
  let es ← shlexSplit namelist
  let f := fun (s : String) => (getField s.toList es).getD []
  let type := f "type"
  let fl := getField "field_length".toList es
  if type ∉ dataTypes then .error .keyError
  else if type = "string".toList ∧ fl ≠ none then .error .typeError
  else .ok ⟨f "name", f "symbol", f "units", f "description", f "format_string", type, fl⟩

/-- The fields of `Data` (datatypes.py:111-119) that the reader uses: mode, and whether
`no_row_counts` is truthy. Text read from the file is truthy when it is not empty. -/
structure DataField where
  mode : Str
  noRowCounts : Bool
  deriving DecidableEq, Repr

/-- Truth value of a field whose default is 0: any text that is not empty is true. -/
def textTrue : Option Str → Bool
  | some v => !v.isEmpty
  | none => false

/-- `Data(namelist)`. -/
def mkData (namelist : Str) : Except PyErr DataField := do
  let es ← shlexSplit namelist
  .ok ⟨(getField "mode".toList es).getD "binary".toList, textTrue (getField "no_row_counts".toList es)⟩

/-- `sdds_namelists` (SDDS.py:21). -/
def sddsNamelists : List Str :=
  ["&associate".toList, "&description".toList, "&include".toList, "&column".toList,
   "&parameter".toList, "&array".toList]

/-- Inner loops of `_read_header` (SDDS.py:126-133, 138-144): read lines until one contains
`&end`. The result is the list of lines of the namelist after the first. The test for `!` in
these loops never succeeds because `_read_line` skips comments. -/
def readNamelist (fuel : Nat) : Nat → Str → Bytes → Option (List Str × Bytes)
  | 0, _, _ => none
  | n + 1, line, b =>
    if hasSub "&end".toList line then some ([], b)
    else match readLine fuel b with
      | none => none
      | some (l, b') => match readNamelist fuel n l b' with
        | none => none
        | some (ls, b'') => some (l :: ls, b'')

/-- What `_read_header` leaves: `self.header`, `self._header_line_count`, and the rest of the
file. -/
structure RawHeader where
  namelists : List Str
  lineCount : Nat
  rest : Bytes
  deriving DecidableEq, Repr

/-- Main loop of `_read_header` (SDDS.py:119-148). -/
def headerLoop (fuel : Nat) : Nat → Nat → Bytes → Option (Except PyErr RawHeader)
  | 0, _, _ => none
  | n + 1, count, b =>
    match readLine fuel b with
    | none => none
    | some (line, b') =>
      if sddsNamelists.any fun nl => hasSub nl line then
        match readNamelist fuel fuel line b' with
        | none => none
        | some (ls, b'') =>
          match headerLoop fuel n (count + 1 + ls.length) b'' with
          | none => none
          | some (.error e) => some (.error e)
          | some (.ok h) => some (.ok { h with namelists := (line ++ ls.flatten) :: h.namelists })
      else if "&data".toList.isPrefixOf line then
        match readNamelist fuel fuel line b' with
        | none => none
        | some (ls, b'') => some (.ok ⟨[line ++ ls.flatten], count + 1 + ls.length, b''⟩)
      else some (.error .exception)

/-- `_read_header` (SDDS.py:110-153). -/
def readHeader (fuel : Nat) (file : Bytes) : Option (Except PyErr RawHeader) :=
  match readLine fuel file with
  | none => none
  | some (line, b) =>
    if hasSub "SDDS1".toList line then headerLoop fuel fuel 1 b
    else some (.error .exception)

/-- `self.data` restricted to what is used later. -/
structure Parsed where
  params : List ParamField
  cols : List ColField
  data : List DataField
  deriving DecidableEq, Repr

/-- Loop of `_parse_header` (SDDS.py:162-171). `&array` namelists raise AttributeError
(class `Array` has no `fields`), `&associate` namelists are only split, other namelists are
skipped. -/
def parseNamelists (ft : FloatText) : List Str → Parsed → Except PyErr Parsed
  | [], p => .ok p
  | nl :: rest, p =>
    let w := firstWord nl
    if w = "&parameter".toList then do
      let x ← mkParam ft nl
      parseNamelists ft rest { p with params := p.params ++ [x] }
    else if w = "&column".toList then do
      let x ← mkColumn nl
      parseNamelists ft rest { p with cols := p.cols ++ [x] }
    else if w = "&data".toList then do
      let x ← mkData nl
      parseNamelists ft rest { p with data := p.data ++ [x] }
    else if w = "&array".toList then do
      let _ ← shlexSplit nl
      .error .attributeError
    else if w = "&associate".toList then do
      let _ ← shlexSplit nl
      parseNamelists ft rest p
    else parseNamelists ft rest p

/-- Fixed-width numeric types of `utils.data_types` (utils.py:6-7). -/
inductive FType
  | double | float | long | short
  deriving DecidableEq, Repr

/-- Width in bytes. -/
def FType.size : FType → Nat
  | .double => 8
  | .float => 4
  | .long => 4
  | .short => 2

/-- Second component of a dtype field: a numeric type, `'S{}'`, `'S<n>'`, or the module
`np.char`, which is no type at all. -/
inductive KType
  | num (t : FType)
  | strRaw
  | strN (n : Nat)
  | char
  deriving DecidableEq, Repr

abbrev Key := Str × KType

/-- A list of dtype fields. -/
abbrev Dtype := List Key

/-- `utils.data_types[type]`; only used for types in the table. -/
def typeKey (type : Str) : KType :=
  if type = "double".toList then .num .double
  else if type = "short".toList then .num .short
  else if type = "long".toList then .num .long
  else if type = "float".toList then .num .float
  else if type = "string".toList then .strRaw
  else .char

/-- Field name `record_length` (SDDS.py:204, 234). -/
def recLenName : Str := "record_length".toList

/-- Field name `row_counts` (SDDS.py:246). -/
def rowCountsName : Str := "row_counts".toList

/-- The extra field in front of a binary string. -/
def recLenKey : Key := (recLenName, .num .long)

/-- The row count field. -/
def rowCountKey : Key := (rowCountsName, .num .long)

/-- `readSDDS` after `__init__`. -/
structure Reader where
  file : Bytes
  buffer : Bool
  maxStr : Nat
  headerEnd : Nat
  lineCount : Nat
  params : List ParamField
  cols : List ColField
  ascii : Bool
  noRowCounts : Bool
  deriving DecidableEq, Repr

/-- Binary column groups (SDDS.py:200-214): a string column ends the current group with its
length and starts a new one. -/
def colGroups : List ColField → Dtype → List Dtype
  | [], cur => [cur]
  | c :: cs, cur =>
    if c.type = "string".toList then (cur ++ [recLenKey]) :: colGroups cs [(c.name, .strRaw)]
    else colGroups cs (cur ++ [(c.name, typeKey c.type)])

/-- `_column_keys` after `_compose_column_datatypes` (SDDS.py:194-220). -/
def Reader.colKeys (r : Reader) : List Dtype :=
  if r.cols = [] then []
  else if r.ascii then
    [r.cols.map fun c => (c.name, if c.type = "string".toList then .strN r.maxStr else typeKey c.type)]
  else colGroups r.cols []

/-- Keys of one parameter that has no fixed value (SDDS.py:230-242). -/
def paramKeysOf (ascii : Bool) (maxStr : Nat) (p : ParamField) : List Dtype :=
  if p.fixed = none then
    if p.type = "string".toList then
      if ascii then [[(p.name, .strN maxStr)]] else [[recLenKey], [(p.name, .strRaw)]]
    else [[(p.name, typeKey p.type)]]
  else []

/-- `_parameter_keys` after `_compose_parameter_datatypes` (SDDS.py:222-253). -/
def Reader.paramKeys (r : Reader) : List Dtype :=
  let ks := r.params.flatMap (paramKeysOf r.ascii r.maxStr)
  if !r.ascii then [rowCountKey] :: ks
  else if !r.noRowCounts && !r.cols.isEmpty then ks ++ [[rowCountKey]]
  else ks

/-- `_variable_length_records` (SDDS.py:206-207, 233-235). -/
def Reader.varLen (r : Reader) : Bool :=
  !r.ascii && (r.cols.any (fun c => c.type = "string".toList) ||
    r.params.any fun p => p.fixed = none && p.type = "string".toList)

/-- `readSDDS(input_file, buffer, max_string_length)` (SDDS.py:35-83). In ASCII mode without
any parameter key, `self._parameter_keys[0]` (line 251) raises IndexError. -/
def openSdds (ft : FloatText) (fuel : Nat) (buffer : Bool) (maxStr : Nat) (file : Bytes) :
    Option (Except PyErr Reader) :=
  match readHeader fuel file with
  | none => none
  | some (.error e) => some (.error e)
  | some (.ok h) => some do
    let p ← parseNamelists ft h.namelists ⟨[], [], []⟩
    match p.data with
    | [] => .error .indexError
    | d :: _ =>
      let r : Reader :=
        { file := file, buffer := buffer, maxStr := maxStr,
          headerEnd := file.length - h.rest.length, lineCount := h.lineCount,
          params := p.params, cols := p.cols, ascii := d.mode = "ascii".toList,
          noRowCounts := d.noRowCounts }
      if r.ascii && r.paramKeys.isEmpty then .error .indexError
      else .ok r

/-- The dictionary built by `utils.list_to_dict` (utils.py:57-63) keeps the last definition
of a name. -/
def lastParam (ps : List ParamField) (name : Str) : Option ParamField :=
  (ps.filter fun p => p.name = name).getLast?

/-- Same for columns. -/
def lastCol (cs : List ColField) (name : Str) : Option ColField :=
  (cs.filter fun c => c.name = name).getLast?

/-- An accessor such as `parameter_units` (SDDS.py:467-483); unknown names raise KeyError. -/
def Reader.param (r : Reader) (name : Str) : Except PyErr ParamField :=
  match lastParam r.params name with
  | some p => .ok p
  | none => .error .keyError

/-- An accessor such as `column_units` (SDDS.py:485-498). -/
def Reader.col (r : Reader) (name : Str) : Except PyErr ColField :=
  match lastCol r.cols name with
  | some c => .ok c
  | none => .error .keyError

end Verif.Sdds
