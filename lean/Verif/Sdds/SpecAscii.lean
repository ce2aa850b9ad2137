import Verif.Sdds.Ascii
import Verif.Sdds.SpecFile
import Mathlib.Algebra.Order.Field.Rat
import Mathlib.Algebra.Order.Group.Unbundled.Abs

/-!
# What an ASCII SDDS file looks like, and what should come out of it

One line for each parameter, one line with the number of rows, one line for each row, with blanks between the columns.
-/

namespace Verif.Sdds

/-- A page as text: the lines of the parameters, and the words of the rows. -/
structure TPage where
  params : List Bytes
  rows : List (List Bytes)
  deriving DecidableEq

/-- The lines of a page. Without columns there is no row count. -/
def TPage.lines (l : Layout) (t : TPage) : List Bytes :=
  t.params ++ if l.cols.isEmpty then [] else utf8 (natStr t.rows.length) :: t.rows.map fun ws => [(32 : UInt8)].intercalate ws

/-- Lines with their newlines. -/
def asLines (ls : List Bytes) : Bytes := ls.flatMap fun l => l ++ [10]

/-- The file. -/
def textFile (d : Doc) (l : Layout) (pages : List TPage) : Bytes := utf8 d.text ++ asLines (pages.flatMap (TPage.lines l))

/-- Text that can stand on a line of its own: not empty, one line, no exclamation mark, no blanks at the ends. -/
structure LineText (s : Bytes) : Prop where
  ne : s ≠ []
  oneLine : 10 ∉ s ∧ 13 ∉ s
  noComment : 33 ∉ s
  start : s.head? ≠ some 32
  stop : s.getLast? ≠ some 32

/-- Text that can stand between blanks: not empty, no white space, no exclamation mark. -/
structure WordText (s : Bytes) : Prop where
  ne : s ≠ []
  noSpace : ∀ b ∈ s, isStrSpace b = false
  noComment : 33 ∉ s

/-- The text stands for the value: floats are read as Python does, integers are decimal, strings stand for themselves. -/
def Denotes (c : Conv) (maxStr : Nat) : SType → Bytes → Val → Prop
  | .num .double, s, .num .double x => ∃ y, c.parse (latin1 s) = .ok y ∧ x = y.toNat
  | .num .float, s, .num .float x => ∃ y, c.parse (latin1 s) = .ok y ∧ x = c.single y
  | .num .long, s, .num .long x => ∃ i : Int, s = utf8 (intStr i) ∧ -2147483648 ≤ i ∧ i < 2147483648 ∧ x = toBits 4 i
  | .num .short, s, .num .short x => ∃ i : Int, s = utf8 (intStr i) ∧ -32768 ≤ i ∧ i < 32768 ∧ x = toBits 2 i
  | .str, s, .str t => t = s ∧ s.length ≤ maxStr ∧ s.getLast? ≠ some 0 ∧ ∀ b ∈ s, b < 128
  | _, _, _ => False

/-- The same for all fields of a parameter list or a row. -/
def AllDenote (c : Conv) (maxStr : Nat) : List (Str × SType) → List Bytes → List Val → Prop
  | [], [], [] => True
  | f :: fs, s :: ss, v :: vs => Denotes c maxStr f.2 s v ∧ AllDenote c maxStr fs ss vs
  | _, _, _ => False

/-- The absolute value of a finite double (IEEE 754, binary64). -/
def f64Abs (x : F64) : ℚ :=
  if x.toNat / 2 ^ 52 % 2048 = 0 then (x.toNat % 2 ^ 52 : ℕ) * 2 ^ (-1074 : ℤ)
  else (2 ^ 52 + x.toNat % 2 ^ 52 : ℕ) * 2 ^ ((x.toNat / 2 ^ 52 % 2048 : ℕ) - 1075 : ℤ)

/-- The value of a finite double. -/
def f64Value (x : F64) : ℚ := if x.toNat < 2 ^ 63 then f64Abs x else -f64Abs x

/-- `i` is the double `x` rounded towards zero. -/
structure RoundsToZero (x : F64) (i : Int) : Prop where
  finite : x.toNat / 2 ^ 52 % 2048 ≠ 2047
  below : |(i : ℚ)| ≤ |f64Value x|
  near : |f64Value x| < |(i : ℚ)| + 1
  sign : 0 ≤ (i : ℚ) * f64Value x

/-- Text of an integer in a table with several columns, such as `3.0e+00`: its value as a float, rounded towards zero. -/
def LooseInt (c : Conv) : SType → Bytes → Val → Prop
  | .num .long, s, .num .long x => ∃ y i, c.parse (latin1 s) = .ok y ∧ RoundsToZero y i ∧ -2147483648 ≤ i ∧ i < 2147483648 ∧ x = toBits 4 i
  | .num .short, s, .num .short x => ∃ y i, c.parse (latin1 s) = .ok y ∧ RoundsToZero y i ∧ -32768 ≤ i ∧ i < 32768 ∧ x = toBits 2 i
  | _, _, _ => False

/-- The same as `AllDenote`, with integers written as floats. -/
def AllLoose (c : Conv) (maxStr : Nat) : List (Str × SType) → List Bytes → List Val → Prop
  | [], [], [] => True
  | f :: fs, s :: ss, v :: vs => (Denotes c maxStr f.2 s v ∨ LooseInt c f.2 s v) ∧ AllLoose c maxStr fs ss vs
  | _, _, _ => False

/-- The words stand for the values of the row. Integers may be written as floats if there are several columns. -/
def RowDenotes (c : Conv) (maxStr : Nat) (fs : List (Str × SType)) (ws : List Bytes) (row : List Val) : Prop :=
  AllDenote c maxStr fs ws row ∨ 2 ≤ fs.length ∧ AllLoose c maxStr fs ws row

/-- `int(float(s))` gives back every decimal integer of 32 bits. True of Python. -/
def Conv.IntLaw (c : Conv) : Prop :=
  ∀ i : Int, -2147483648 ≤ i → i < 2147483648 → ∃ y, c.parse (intStr i) = .ok y ∧ RoundsToZero y i

/-- The page `t` holds the values of `pg`. -/
structure TPage.Holds (c : Conv) (maxStr : Nat) (l : Layout) (t : TPage) (pg : Page) : Prop where
  paramText : ∀ s ∈ t.params, LineText s
  rowText : ∀ ws ∈ t.rows, ∀ s ∈ ws, WordText s
  params : AllDenote c maxStr l.params t.params pg.params
  rows : List.Forall₂ (fun ws row => RowDenotes c maxStr l.cols ws row) t.rows pg.rows
  few : t.rows.length < 2147483648
  noRows : l.cols = [] → t.rows = []

/-- Names that `genfromtxt` keeps: no white space, no double quote, not `return`, `file` or `print`. -/
structure KeptName (n : Str) : Prop where
  ne : n ≠ []
  plain : ∀ ch ∈ n, isSpace ch = false ∧ ch ≠ '"'
  allowed : n ≠ "return".toList ∧ n ≠ "file".toList ∧ n ≠ "print".toList

/-- The record a user should see in `parameters`. -/
def textParamRecord (l : Layout) (pg : Page) : Record :=
  (l.params.map Prod.fst).zip pg.params ++ if l.cols.isEmpty then [] else [(rowCountsName, .num .long pg.rows.length)]

/-- The header announces ASCII pages of layout `l` with row counts. -/
structure Doc.AnnouncesText (ft : FloatText) (d : Doc) (l : Layout) : Prop where
  ok : d.Ok
  noReturn : '\r' ∉ d.text
  mode : (attrVal d.data "mode".toList).getD "binary".toList = "ascii".toList
  counts : attrVal d.data "no_row_counts".toList = none
  params : ((d.attrsOf .param).filter fun as => attrVal as "fixed_value".toList = none).map nameType =
    l.params.map fun f => (f.1, f.2.name)
  cols : (d.attrsOf .col).map nameType = l.cols.map fun f => (f.1, f.2.name)
  fixed : ∀ as ∈ d.attrsOf .param, ∀ v, attrVal as "fixed_value".toList = some v →
    ∃ x, parseFixed ft (nameType as).2 v = .ok x
  noLength : ∀ as ∈ d.attrsOf .col, attrVal as "field_length".toList = none
  some : l.params ≠ [] ∨ l.cols ≠ []

/-- The first line of the page has, after its first character, something else than white space. -/
def TPage.FirstLine (l : Layout) (t : TPage) : Prop := ∃ s ∈ (t.lines l).head?, ∃ b ∈ s.tail, isSpaceByte b = false

end Verif.Sdds
