import Verif.Sdds.Write
import Verif.Sdds.Spec
import Verif.Sdds.SpecHeader

/-!
# What should come back after saving and reading a file
-/

namespace Verif.Sdds

/-- Text that the file format can carry in quotes: ASCII, one line, no double quote, no
backslash, no comma at the end. -/
structure CleanText (s : Str) : Prop where
  ascii : Ascii s
  line : '\n' ∉ s
  noQuote : '"' ∉ s
  noEsc : '\\' ∉ s
  noComma : ∀ x, s.getLast? = some x → x ≠ ','

/-- Text that needs no quotes: as before, without white space. -/
structure CleanWord (s : Str) : Prop extends CleanText s where
  ne : s ≠ []
  noSpace : ∀ c ∈ s, lexSpace c = false

/-- `float(str(x)) == x`, and the text is a plain word. True of Python for every float that
is not a NaN. -/
structure FloatText.Good (ft : FloatText) (x : F64) : Prop where
  word : CleanWord (ft.fmt x)
  back : ft.parse (ft.fmt x) = .ok x

/-- Types a column or parameter can have in a file that is written: the numeric ones. -/
def numType : Str → Option FType
  | s => if s = "double".toList then some .double else if s = "long".toList then some .long
    else if s = "short".toList then some .short else none

/-- The value stored for a parameter in the data section. -/
def dataVal : PyVal → Val
  | .float x => .num .double x.toNat
  | .int i => .num .long (toBits 4 i)
  | .str _ => .str []

/-- A data value of the declared type. -/
def DataOk (type : Str) : PyVal → Prop
  | .float _ => type = "double".toList
  | .int i => type = "long".toList ∧ -2147483648 ≤ i ∧ i < 2147483648
  | .str _ => False

/-- A fixed value of the declared type. -/
def FixedOk (ft : FloatText) (type : Str) : PyVal → Prop
  | .float x => type = "double".toList ∧ ft.Good x
  | .int _ => type = "long".toList ∨ type = "short".toList
  | .str s => type = "string".toList ∧ CleanText s

/-- The fixed value as the reader stores it. -/
def fixedVal : PyVal → Fixed
  | .float x => .float x
  | .int i => .int i
  | .str s => .str s

/-- Metadata that the format can carry. -/
structure WParam.Clean (p : WParam) : Prop where
  name : CleanWord p.name
  type : p.type ∈ writeTypes
  units : CleanText p.units
  symbol : CleanText p.symbol
  formatStr : CleanText p.formatStr
  description : CleanText p.description

structure WCol.Clean (c : WCol) : Prop where
  name : CleanWord c.name
  type : c.type ∈ writeTypes
  units : CleanText c.units
  symbol : CleanText c.symbol
  formatStr : CleanText c.formatStr
  description : CleanText c.description
  fieldLen : c.fieldLen = 0

/-- Conditions on the writer under which its header is well formed. -/
structure HeaderOk (ft : FloatText) (w : Writer) : Prop where
  params : ∀ p ∈ w.params, p.Clean
  cols : ∀ c ∈ w.cols, c.Clean
  fixed : ∀ p ∈ w.params, ∀ v, p.fixed = some v → v.truthy = true → FixedOk ft p.type v

/-- A parameter with data and without (true) fixed value. -/
def WParam.Data (p : WParam) (v : PyVal) : Prop :=
  p.data = some v ∧ DataOk p.type v ∧ ∀ f, p.fixed = some f → f.truthy = false

/-- A parameter with a fixed value that is not zero or empty. -/
def WParam.Fixd (ft : FloatText) (p : WParam) (v : PyVal) : Prop :=
  p.data = none ∧ p.fixed = some v ∧ v.truthy = true ∧ FixedOk ft p.type v

/-- A parameter the writer can store. -/
def WParam.Storable (ft : FloatText) (p : WParam) : Prop :=
  (∃ v, p.Data v) ∨ ∃ v, p.Fixd ft v

/-- A column whose array has the declared type. -/
def WCol.Has (c : WCol) (t : FType) (d : ADType) : Prop :=
  c.dtype = d ∧ numType c.type = some t ∧ ∀ x ∈ c.data, x < 256 ^ t.size

/-- Matching types: the array dtype of each SDDS type. -/
def adType : FType → ADType
  | .double => .f64
  | .float => .f32
  | .long => .i32
  | .short => .i16

/-- What the reader should know about a parameter. -/
def readParam (p : WParam) : ParamField :=
  ⟨p.name, p.symbol, p.units, p.description, p.formatStr, p.type,
    match p.fixed with
    | some v => if v.truthy then some (fixedVal v) else none
    | none => none⟩

/-- What the reader should know about a column. -/
def readCol (c : WCol) : ColField :=
  ⟨c.name, c.symbol, c.units, c.description, c.formatStr, c.type, none⟩

/-- The parameters record a user should see. -/
def savedParams (w : Writer) (rows : Nat) : Record :=
  (rowCountsName, .num .long rows) :: w.params.filterMap fun p => p.data.map fun v => (p.name, dataVal v)

/-- The rows a user should see; all columns have SDDS type `t`. -/
def savedRows (w : Writer) (t : FType) (rows : Nat) : List Record :=
  (List.range rows).map fun i => w.cols.map fun c => (c.name, .num t (c.data.getD i 0))

/-- Names can be used as numpy field names: no name twice among the parameters with data, none
twice among the columns, and none of the two names the reader uses itself. -/
structure Writer.Names (w : Writer) : Prop where
  params : (rowCountsName :: (w.params.filter (·.data.isSome)).map WParam.name).Nodup
  cols : (w.cols.map WCol.name).Nodup
  resParams : ∀ p ∈ w.params, p.name ≠ recLenName
  resCols : ∀ c ∈ w.cols, c.name ≠ recLenName

/-- The contents the writer can store exactly: clean metadata, parameters that are a double, a
32-bit integer or a fixed value, and `rows` rows of columns that all have the SDDS type `t` and
arrays of the matching dtype. -/
structure Writer.Ok (ft : FloatText) (w : Writer) (t : FType) (rows : Nat) : Prop extends Writer.Names w where
  header : HeaderOk ft w
  storable : ∀ p ∈ w.params, p.Storable ft
  has : ∀ c ∈ w.cols, c.Has t (adType t)
  lengths : ∀ c ∈ w.cols, c.data.length = rows
  noCols : w.cols = [] → rows = 0
  short : rows < 2147483648

end Verif.Sdds
