import Verif.Import.Importer
import Verif.Lattice.Spec
import Mathlib.Data.List.Forall2

/-! # What the import of a Sirepo lattice means -/

namespace Verif.Import

open Verif.Lattice

variable {R : Type}

/-- The elements a list of items stands for: an element for itself, a line for its items, a line
with a minus sign for its items in reversed order. -/
inductive Stands (J : Json R) : List Int → List (JElem R) → Prop
  | nil : Stands J [] []
  | elem {i is e es} : J.line? i = none → J.elem? i = some e → Stands J is es → Stands J (i :: is) (e :: es)
  | line {i is L as bs} : 0 ≤ i → J.line? i = some L → Stands J L.items as → Stands J is bs →
      Stands J (i :: is) (as ++ bs)
  | reversed {i is L as bs} : i < 0 → J.line? i = some L → Stands J L.items as → Stands J is bs →
      Stands J (i :: is) (as.reverse ++ bs)

/-- The value meant by a parameter: text that is a name of a variable in the cache is the value
of that variable, other text and numbers are what they are. -/
def meant (vars : List (Str × PVal R)) : PVal R → PVal R
  | .num x => .num x
  | .str s => match vars.find? fun v => v.1 = s with
    | some v => v.2
    | none => .str s

/-- Element object `x` is the element `e` of the document: same name, type in lower case, and the
parameters with variables replaced by their values. -/
def IsElem (J : Json R) (e : JElem R) (x : Elem R) : Prop :=
  x.name = e.name ∧ x.type = strip (lower e.type) ∧
    ∀ k, Params.getItem x.params k =
      assigned (e.params.map fun kv => (kv.1, meant (J.cache.getD []) kv.2)) k

/-- The beamline object 0 has the elements `es` in this order. -/
def HasElements (J : Json R) (h : Heap R) (es : List (JElem R)) : Prop :=
  ∃ ids, Unfolds h (h.line 0).seq ids ∧ List.Forall₂ (IsElem J) es (ids.map h.elem)

end Verif.Import
