import Mathlib.Data.List.Forall2
import Verif.Sdds.Read

/-!
# What a binary SDDS data section looks like, and what should come out of it

Only the data types of the model (`Val`, `Record`, `FType`) are used here.
-/

namespace Verif.Sdds

/-- Types of data fields of a binary file. -/
inductive SType
  | num (t : FType)
  | str
  deriving DecidableEq, Repr

/-- Name of the type in the header. -/
def SType.name : SType → Str
  | .num .double => "double".toList
  | .num .float => "float".toList
  | .num .long => "long".toList
  | .num .short => "short".toList
  | .str => "string".toList

/-- The fields of a page: the parameters without fixed value and the columns, in order. -/
structure Layout where
  params : List (Str × SType)
  cols : List (Str × SType)

/-- The values of one page. -/
structure Page where
  params : List Val
  rows : List (List Val)

/-- Bytes of a value: little-endian numbers, strings after a 32-bit length. -/
def encodeVal : Val → Bytes
  | .num t x => leBytes t.size x
  | .str s => leBytes 4 s.length ++ s

/-- Bytes of a page: row count, parameters, rows. -/
def encodePage (pg : Page) : Bytes :=
  leBytes 4 pg.rows.length ++ pg.params.flatMap encodeVal ++ pg.rows.flatMap (·.flatMap encodeVal)

/-- A string the reader can give back: ASCII, no NUL at the end, not too long. -/
structure GoodStr (maxStr : Nat) (s : Bytes) : Prop where
  ascii : ∀ b ∈ s, b < 128
  noNul : s.getLast? ≠ some 0
  short : s.length ≤ maxStr
  lt : s.length < 2147483648

/-- The value belongs to the type. -/
def Fits (maxStr : Nat) : SType → Val → Prop
  | .num t, .num t' x => t = t' ∧ x < 256 ^ t.size
  | .str, .str s => GoodStr maxStr s
  | _, _ => False

/-- The page has the given layout, and no empty string as a parameter or in the last column
(numpy has no arrays whose items have no bytes). -/
def PageOk (maxStr : Nat) (l : Layout) (pg : Page) : Prop :=
  List.Forall₂ (fun f v => Fits maxStr f.2 v) l.params pg.params ∧
  (∀ row ∈ pg.rows, List.Forall₂ (fun f v => Fits maxStr f.2 v) l.cols row) ∧
  pg.rows.length < 2147483648 ∧ Val.str [] ∉ pg.params ∧ ∀ row ∈ pg.rows, row.getLast? ≠ some (.str [])

/-- Names can be used as numpy field names next to the reader's own. -/
def Layout.Ok (l : Layout) : Prop :=
  (rowCountsName :: l.params.map Prod.fst).Nodup ∧ recLenName ∉ l.params.map Prod.fst ∧
  (l.cols.map Prod.fst).Nodup ∧ recLenName ∉ l.cols.map Prod.fst

/-- The record a user should see in `parameters`. -/
def paramRecord (l : Layout) (pg : Page) : Record :=
  (rowCountsName, .num .long pg.rows.length) :: (l.params.map Prod.fst).zip pg.params

/-- The records a user should see in `columns`. -/
def rowRecords (l : Layout) (pg : Page) : List Record :=
  pg.rows.map fun row => (l.cols.map Prod.fst).zip row

/-- The reader was opened on a binary file with row counts whose header describes layout `l`. -/
structure Reader.Describes (r : Reader) (l : Layout) : Prop where
  binary : r.ascii = false
  counts : r.noRowCounts = false
  params : (r.params.filter fun p => p.fixed = none).map (fun p => (p.name, p.type)) =
    l.params.map fun f => (f.1, f.2.name)
  cols : r.cols.map (fun c => (c.name, c.type)) = l.cols.map fun f => (f.1, f.2.name)

end Verif.Sdds
