import Verif.Sdds.Header

/-!
# Model of `writeSDDS` (`rsbeams/rsdata/SDDS.py:500-712`)

The machine is little-endian (`sys.byteorder == 'little'`). Arrays given as columns are
one-dimensional numpy arrays of one of the listed dtypes.
-/

namespace Verif.Sdds

/-- `key_indentity` keys (SDDS.py:532). -/
def writeTypes : List Str := ["double".toList, "short".toList, "long".toList, "string".toList]

/-- A Python value given as `parData` or `parFixedVal`. -/
inductive PyVal
  | int (i : Int)
  | float (x : F64)
  | str (s : Str)
  deriving DecidableEq, Repr

/-- Python truth value: zero (of both signs) and the empty string are false. -/
def PyVal.truthy : PyVal → Bool
  | .int i => i != 0
  | .float x => x != 0#64 && x != 0x8000000000000000#64
  | .str s => !s.isEmpty

/-- A dictionary stored by `create_parameter` (SDDS.py:618-622). -/
structure WParam where
  name : Str
  type : Str
  data : Option PyVal := none
  units : Str := []
  symbol : Str := []
  formatStr : Str := []
  description : Str := []
  fixed : Option PyVal := none
  deriving DecidableEq, Repr

/-- Array dtypes of columns. -/
inductive ADType
  | f64 | f32 | i64 | i32 | i16
  deriving DecidableEq, Repr

/-- Item size in bytes. -/
def ADType.size : ADType → Nat
  | .f64 => 8
  | .f32 => 4
  | .i64 => 8
  | .i32 => 4
  | .i16 => 2

/-- `np.result_type` of two dtypes. -/
def ADType.join : ADType → ADType → ADType
  | .f64, _ => .f64
  | _, .f64 => .f64
  | .f32, .f32 => .f32
  | .f32, .i16 => .f32
  | .i16, .f32 => .f32
  | .f32, _ => .f64
  | _, .f32 => .f64
  | .i64, _ => .i64
  | _, .i64 => .i64
  | .i32, _ => .i32
  | _, .i32 => .i32
  | .i16, .i16 => .i16

/-- A dictionary stored by `create_column` (SDDS.py:577-581); `data` are the bit patterns of
the array. -/
structure WCol where
  name : Str
  type : Str
  dtype : ADType
  data : List Nat
  units : Str := []
  symbol : Str := []
  formatStr : Str := []
  description : Str := []
  fieldLen : Int := 0
  deriving DecidableEq, Repr

/-- A `writeSDDS` object. -/
structure Writer where
  params : List WParam := []
  cols : List WCol := []
  deriving DecidableEq, Repr

/-- Conversions of the platform that are not modelled: text of floats, int to double in
`struct.pack('d', i)`, and numpy casts between different dtypes. -/
structure Env where
  ft : FloatText
  intToF64 : Int → Except PyErr F64
  cast : ADType → ADType → Nat → Nat

/-- `create_parameter` (SDDS.py:583-622). -/
def Writer.createParameter (w : Writer) (p : WParam) : Except PyErr Writer :=
  if p.type ∉ writeTypes then .error .assertionError
  else match p.fixed with
    | some v => if v.truthy && p.data.isSome then .error .assertionError
                else .ok { w with params := w.params ++ [p] }
    | none => .ok { w with params := w.params ++ [p] }

/-- `create_column` (SDDS.py:546-581). -/
def Writer.createColumn (w : Writer) (c : WCol) : Except PyErr Writer :=
  if c.type ∉ writeTypes then .error .assertionError
  else .ok { w with cols := w.cols ++ [c] }

/-- One attribute of a namelist, left out when empty (SDDS.py:501-506, 632-634, 642-644). -/
def attr (field : String) (quoted : Bool) (v : Str) : Str :=
  if v = [] then []
  else field.toList ++ (if quoted then '"' :: v ++ ['"'] else v) ++ [',', ' ']

/-- Text of a fixed value in the header; strings were quoted by `create_parameter`
(SDDS.py:611-616). False values are left out. -/
def fixedText (ft : FloatText) : Option PyVal → Str
  | none => []
  | some v => if v.truthy then match v with
      | .int i => intStr i
      | .float x => ft.fmt x
      | .str s => '"' :: s ++ ['"']
    else []

/-- The header line of a parameter (SDDS.py:630-636). -/
def paramLine (ft : FloatText) (p : WParam) : Str :=
  "&parameter ".toList ++ attr "name=" false p.name ++ attr "type=" false p.type ++
  attr "units=" true p.units ++ attr "symbol=" true p.symbol ++
  attr "format_string=" true p.formatStr ++ attr "description=" true p.description ++
  attr "fixed_value=" false (fixedText ft p.fixed) ++ "&end\n".toList

/-- The header line of a column (SDDS.py:638-646). -/
def colLine (c : WCol) : Str :=
  "&column ".toList ++ attr "name=" false c.name ++ attr "type=" false c.type ++
  attr "units=" true c.units ++ attr "symbol=" true c.symbol ++
  attr "format_string=" true c.formatStr ++ attr "description=" true c.description ++
  attr "field_length=" true (if c.fieldLen = 0 then [] else intStr c.fieldLen) ++ " &end\n".toList

/-- Everything `_write_header` writes (SDDS.py:624-648). -/
def headerText (ft : FloatText) (w : Writer) (mode : Str) : Str :=
  "SDDS1\n".toList ++ "!# little-endian\n".toList ++ (w.params.map (paramLine ft)).flatten ++
  (w.cols.map colLine).flatten ++ "&data mode=".toList ++ mode ++ ", &end\n".toList

/-- `pack('={}'.format(key_indentity[parType]), parData)` (SDDS.py:693-694). `short` maps to
the format `s`, which wants bytes; `string` gives the invalid format `=None`. -/
def packParam (env : Env) (type : Str) (v : PyVal) : Except PyErr Bytes :=
  if type = "double".toList then
    match v with
    | .float x => .ok (leBytes 8 x.toNat)
    | .int i => (env.intToF64 i).map fun x => leBytes 8 x.toNat
    | .str _ => .error .structError
  else if type = "long".toList then
    match v with
    | .int i => if -2147483648 ≤ i ∧ i < 2147483648 then .ok (leBytes 4 (toBits 4 i)) else .error .structError
    | _ => .error .structError
  else .error .structError

/-- The parameter loop of `save_sdds` in binary mode (SDDS.py:687-694): what was written, and
the exception that ended it. -/
def packParams (env : Env) : List WParam → Bytes × Option PyErr
  | [] => ([], none)
  | p :: ps => match p.data with
    | none => packParams env ps
    | some v => match packParam env p.type v with
      | .error e => ([], some e)
      | .ok b => let r := packParams env ps; (b ++ r.1, r.2)

/-- Common dtype of `np.column_stack`. -/
def stackType : List WCol → ADType
  | [] => .f64
  | [c] => c.dtype
  | c :: cs => c.dtype.join (stackType cs)

/-- One element as stored by `np.column_stack`. -/
def castTo (env : Env) (src dst : ADType) (x : Nat) : Nat := if src = dst then x else env.cast src dst x

/-- Bytes of row `i` of the stacked array. -/
def rowBytes (env : Env) (cols : List WCol) (i : Nat) : Bytes :=
  cols.flatMap fun c => leBytes (stackType cols).size (castTo env c.dtype (stackType cols) (c.data.getD i 0))

/-- `column_data.tofile` (SDDS.py:707), row by row; for a single column this is the array
itself. -/
def tableBytes (env : Env) (cols : List WCol) (rows : Nat) : Bytes :=
  (List.range rows).flatMap (rowBytes env cols)

/-- `column_data.shape[0]`; `none` when `np.column_stack` raises ValueError (SDDS.py:667-676). -/
def stackRows : List WCol → Option Nat
  | [] => some 0
  | c :: cs => if cs.all fun d => d.data.length = c.data.length then some c.data.length else none

/-- The file after `save_sdds(fileName, dataMode='binary')` (SDDS.py:650-712) and the
exception raised, if any. The file is opened for writing (and emptied) first; when an
exception ends the function the data written so far reach the file when it is closed. -/
def saveBinary (env : Env) (w : Writer) : Bytes × Option PyErr :=
  match stackRows w.cols with
  | none => ([], none)
  | some rows =>
    let h := utf8 (headerText env.ft w "binary".toList)
    if 4294967296 ≤ rows then (h, some .structError)
    else
      let ps := packParams env w.params
      match ps.2 with
      | some e => (h ++ leBytes 4 rows ++ ps.1, some e)
      | none => (h ++ leBytes 4 rows ++ ps.1 ++ tableBytes env w.cols rows, none)

end Verif.Sdds
