import Verif.Py.Basic

/-!
# Model of the array and files of `rsptcls/RsPhaseSpace6D.py`

The array has any shape here, as `set_array_6d` and `read_array` take any. Numbers are elements of any type `α` with a zero: `numpy.savez` and
`numpy.load` keep arrays as they are. Files are a table from names to arrays; a file that is not an `.npz` file with an entry `a` is not modelled.
The array belongs to the object alone: arrays that the caller changes later through another reference are not modelled.
-/

namespace Verif.Ptcls

/-- A numpy array: shape and entries in order. -/
structure NdArr (α : Type) where
  shape : List Nat
  data : List α
  deriving DecidableEq

/-- Attributes of `RsPhaseSpace6D`. -/
structure Store (α : Type) where
  num : Nat
  name : String
  arr : NdArr α
  deriving DecidableEq

/-- The files: the array stored under the entry `a`. -/
abbrev Files (α : Type) := List (String × NdArr α)

/-- Looking up a file. -/
def Files.get {α : Type} (fs : Files α) (name : String) : Option (NdArr α) := (fs.find? fun f => f.1 == name).map fun f => f.2

variable {α : Type} [Zero α]

/-- `numpy.zeros(6*n).reshape(6, n)` (RsPhaseSpace6D.py:40-42). -/
def zeros (n : Nat) : NdArr α := ⟨[6, n], List.replicate (6 * n) 0⟩

/-- `RsPhaseSpace6D(num_ptcls)` (RsPhaseSpace6D.py:18-26). -/
def newStore (n : Int) : Except PyErr (Store α) :=
  if 0 < n then .ok ⟨n.toNat, "ps6d", zeros n.toNat⟩ else .error .exception

/-- `check_array` (RsPhaseSpace6D.py:66-82): result and the object after the call. -/
def check (s : Store α) : Except PyErr Unit × Store α :=
  match s.arr.shape with
  | [a, b] =>
    if a ≠ 6 then (.error .exception, s)
    else if b < 1 then (.error .exception, s)
    else (.ok (), { s with num := b })
  | _ => (.error .exception, s)

/-- Methods that change the object or the files. -/
inductive StoreOp (α : Type) where
  | setNum (n : Int)
  | setName (s : String)
  | setArray (a : NdArr α)
  | check
  | write
  | read

/-- One call: its result, the object and the files afterwards (RsPhaseSpace6D.py:31-89). -/
def StoreOp.run (op : StoreOp α) (s : Store α) (fs : Files α) : Except PyErr Unit × Store α × Files α :=
  match op with
  | .setNum n => if 0 < n then (.ok (), { s with num := n.toNat, arr := zeros n.toNat }, fs) else (.error .exception, s, fs)
  | .setName t => if 0 < t.length then (.ok (), { s with name := t }, fs) else (.error .exception, s, fs)
  | .setArray a => (.ok (), { s with arr := a }, fs)
  | .check => match Ptcls.check s with
    | (r, s') => (r, s', fs)
  | .write => (.ok (), s, (s.name ++ ".npz", s.arr) :: fs)
  | .read => match Files.get fs (s.name ++ ".npz") with
    | none => (.error .osError, s, fs)
    | some a => match Ptcls.check { s with arr := a } with
      | (r, s') => (r, s', fs)

/-- A history of calls; a call that raises may be followed by others. -/
def runAll (s : Store α) (fs : Files α) : List (StoreOp α) → List (Except PyErr Unit) × Store α × Files α
  | [] => ([], s, fs)
  | op :: ops => match op.run s fs with
    | (r, s', fs') => match runAll s' fs' ops with
      | (rs, s'', fs'') => (r :: rs, s'', fs'')

end Verif.Ptcls
