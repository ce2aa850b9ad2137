import Verif.Sdds.AsciiWrite
import Verif.Sdds.SpecWrite
import Verif.Sdds.SpecAscii

/-!
# What should come back after saving and reading an ASCII file
-/

namespace Verif.Sdds

/-- The value of a parameter in the data section of an ASCII file. -/
def textDataVal (type : Str) : PyVal → Val
  | .float x => .num .double x.toNat
  | .int i => if type = "short".toList then .num .short (toBits 2 i) else .num .long (toBits 4 i)
  | .str s => .str (utf8 s)

/-- A value of the declared type whose text stands on one line and is read back. -/
def TextData (ft : FloatText) (c : Conv) (maxStr : Nat) (type : Str) : PyVal → Prop
  | .float x => type = "double".toList ∧ Ascii (ft.fmt x) ∧ LineText (utf8 (ft.fmt x)) ∧ c.parse (ft.fmt x) = .ok x
  | .int i => type = "long".toList ∧ -2147483648 ≤ i ∧ i < 2147483648 ∨ type = "short".toList ∧ -32768 ≤ i ∧ i < 32768
  | .str s => type = "string".toList ∧ Ascii s ∧ LineText (utf8 s) ∧ s.length ≤ maxStr ∧ (utf8 s).getLast? ≠ some 0

/-- A parameter that an ASCII file can store: with data, or with a fixed value that is not zero or empty. -/
def WParam.TextStorable (ft : FloatText) (c : Conv) (maxStr : Nat) (p : WParam) : Prop :=
  (∃ v, p.data = some v ∧ TextData ft c maxStr p.type v ∧ ∀ f, p.fixed = some f → f.truthy = false) ∨ ∃ v, p.Fixd ft v

/-- `float(s)` of the text of an element gives the element, or a number that rounds to it if it is an integer. True of Python for all
numbers that are not NaN, because `%.18e` has more than 17 digits. -/
def ReadsBack (c : Conv) (s : Str) (x : Nat) : FType → Prop
  | .double => c.parse s = .ok (BitVec.ofNat 64 x)
  | .long => ∃ y, c.parse s = .ok y ∧ RoundsToZero y (ofBits 4 x)
  | .short => ∃ y, c.parse s = .ok y ∧ RoundsToZero y (ofBits 2 x)
  | .float => False

/-- A column whose array has the declared type and whose elements are written as words that are read back. -/
def WCol.TextHas (env : Env) (sci : Sci) (c : Conv) (cols : List WCol) (col : WCol) (t : FType) : Prop :=
  numType col.type = some t ∧ col.dtype = adType t ∧ ∀ x ∈ col.data, x < 256 ^ t.size ∧
    let s := sci (stackType cols) (castTo env col.dtype (stackType cols) x)
    Ascii s ∧ WordText (utf8 s) ∧ ReadsBack c s x t

/-- Contents for which the writer makes a well formed ASCII file, if there is at least one row or no column: clean metadata, names that
`genfromtxt` keeps. The columns may have different types. -/
structure Writer.TextOk (env : Env) (sci : Sci) (c : Conv) (maxStr : Nat) (w : Writer) (rows : Nat) : Prop extends Writer.Names w where
  header : HeaderOk env.ft w
  noReturn : '\r' ∉ headerText env.ft w "ascii".toList
  storable : ∀ p ∈ w.params, p.TextStorable env.ft c maxStr
  keptParams : ∀ p ∈ w.params, p.data.isSome → KeptName p.name
  keptCols : ∀ col ∈ w.cols, KeptName col.name
  has : ∀ col ∈ w.cols, ∃ t, col.TextHas env sci c w.cols t
  lengths : ∀ col ∈ w.cols, col.data.length = rows
  noCols : w.cols = [] → rows = 0
  short : rows < 2147483648
  some : (∃ p ∈ w.params, p.data.isSome) ∨ w.cols ≠ []

/-- The parameters record a user should see. -/
def savedTextParams (w : Writer) (rows : Nat) : Record :=
  (w.params.filterMap fun p => p.data.map fun v => (p.name, textDataVal p.type v)) ++
    if w.cols = [] then [] else [(rowCountsName, .num .long rows)]

/-- The rows a user should see. -/
def savedTextRows (w : Writer) (rows : Nat) : List Record :=
  (List.range rows).map fun i => w.cols.map fun c => (c.name, .num ((numType c.type).getD .double) (c.data.getD i 0))

end Verif.Sdds
