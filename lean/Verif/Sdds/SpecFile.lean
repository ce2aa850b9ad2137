import Verif.Sdds.Spec
import Verif.Sdds.SpecHeader

/-!
# A whole binary file

A header (`Doc`), the layout of the pages that it announces, and the selection of pages.
-/

namespace Verif.Sdds

/-- Name and type an entry list gives to its field. -/
def nameType (as : List Attr) : Str × Str :=
  ((attrVal as "name".toList).getD [], (attrVal as "type".toList).getD [])

/-- The header announces binary pages of layout `l`: the parameters that have no fixed value
and the columns, in order, are those of `l`. -/
structure Doc.Announces (ft : FloatText) (d : Doc) (l : Layout) : Prop where
  ok : d.Ok
  mode : (attrVal d.data "mode".toList).getD "binary".toList ≠ "ascii".toList
  counts : attrVal d.data "no_row_counts".toList = none
  params : ((d.attrsOf .param).filter fun as => attrVal as "fixed_value".toList = none).map nameType =
    l.params.map fun f => (f.1, f.2.name)
  cols : (d.attrsOf .col).map nameType = l.cols.map fun f => (f.1, f.2.name)
  fixed : ∀ as ∈ d.attrsOf .param, ∀ v, attrVal as "fixed_value".toList = some v →
    ∃ x, parseFixed ft (nameType as).2 v = .ok x
  noLength : ∀ as ∈ d.attrsOf .col, attrVal as "field_length".toList = none

/-- The file. -/
def fileBytes (d : Doc) (pages : List Page) : Bytes := utf8 d.text ++ pages.flatMap encodePage

/-- The entries of a list whose position is in `s`, in order. -/
def atPages {α : Type} (s : List Nat) (xs : List α) : List α :=
  (xs.zipIdx.filter fun p => s.contains p.2).map Prod.fst

/-- The second byte of the page, which the unbuffered reader looks at, is not white space. -/
def MarkOk (pg : Page) : Prop := isSpaceByte (UInt8.ofNat (pg.rows.length / 256)) = false

/-- A line with its newline. -/
def IsLine (l : Bytes) : Prop := ∃ t, l = t ++ [10] ∧ 10 ∉ t

/-- A blank line or a comment line. -/
def Ignorable (l : Bytes) : Bool := l == [10] || l.head? == some 33

/-- The lines that matter. -/
def Relevant (ls : List Bytes) : List Bytes := ls.filter fun l => !Ignorable l

end Verif.Sdds
