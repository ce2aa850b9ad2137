import Verif.Sdds.ReadState

/-!
# Model of the data arrays of `readSDDS` and their accessors

`rsbeams/rsdata/struct_data.py:4-29` and `rsbeams/rsdata/SDDS.py:59-69, 87-108, 185-192`.
-/

namespace Verif.Sdds

/-- A type in `StructData.data_type`: a type that was given, or `'U<n>'`. -/
inductive MType
  | kept (t : KType)
  | text (n : Nat)
  deriving DecidableEq, Repr

/-- The setter of `StructData.data_type` (struct_data.py:16-29) for a list of groups. The keys of the reader are always lists of lists, so the last
branch of the setter is not reached. -/
def mergedType (maxStr : Nat) (keys : List Dtype) : List (Str × MType) :=
  (keys.flatten.filter fun k => k.1 ≠ recLenName).map fun k =>
    (k.1, match k.2 with
      | .strRaw => .text maxStr
      | .strN _ => .text maxStr
      | t => .kept t)

/-- A `StructData` object (struct_data.py:4-10) as far as the accessors see it: `data` is `None` before the first call of `concat`. -/
structure StructData where
  dataType : List (Str × MType)
  data : Option (List (List Record))
  deriving DecidableEq, Repr

/-- The attributes `_parameters`, `_columns` and `_arrays` after `__init__`: `None` (SDDS.py:59-69) or made by `_initialize_data_arrays`
(SDDS.py:185-192), which makes no object for an empty list of keys. `_compose_array_datatypes` (SDDS.py:194-195) leaves the keys of arrays empty. -/
structure Attributes where
  parameters : Option StructData
  columns : Option StructData
  arrays : Option StructData
  deriving DecidableEq, Repr

/-- One attribute made by `_initialize_data_arrays`. -/
def initArray (maxStr : Nat) (keys : List Dtype) : Option StructData :=
  if 0 < keys.length then some ⟨mergedType maxStr keys, none⟩ else none

/-- The attributes of a new reader. -/
def Reader.attributes (r : Reader) : Attributes :=
  ⟨initArray r.maxStr r.paramKeys, initArray r.maxStr r.colKeys, initArray r.maxStr []⟩

/-- A successful call of `read` sets the data of the objects that are there (SDDS.py:398-401). -/
def Attributes.afterRead (a : Attributes) (pg : Pages) : Attributes :=
  { a with parameters := a.parameters.map fun s => { s with data := some pg.params },
           columns := a.columns.map fun s => { s with data := some pg.cols } }

/-- The accessors `parameters`, `columns` and `arrays` (SDDS.py:87-108): `None.data` raises AttributeError. -/
def access (s : Option StructData) : Except PyErr (Option (List (List Record))) :=
  match s with
  | none => .error .attributeError
  | some s => .ok s.data

end Verif.Sdds
