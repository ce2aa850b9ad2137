import Verif.Py.TextFind
import Verif.Sdds.Accessors

/-!
# Model of the helpers of `rsbeams/rsdata/utils.py`
-/

namespace Verif.Sdds

/-- `_return_type` (utils.py:10-18): the slice starts at `type=` and has the length of the key. The keys are in the order of the table (utils.py:6-7). -/
def returnType (s : Str) : Option Str :=
  match findSub "type=".toList s with
  | none => none
  | some i => dataTypes.find? fun key => (findSub key ((s.drop i).take key.length)).isSome

/-- `get_entry_from_parameters` (utils.py:46-54): the first array whose first field has the name. The value of a record that is missing raises IndexError. -/
def getEntry (parameters : List (List Arr)) (entry : Str) (raiseError : Bool) : Except PyErr (Option Val) :=
  match parameters with
  | [] => .error .indexError
  | ps :: _ =>
    match ps.find? fun a => (a.dt.head?.map Prod.fst) = some entry with
    | some a => match a.rows.head?.bind (recField entry) with
      | some v => .ok (some v)
      | none => .error .indexError
    | none => if raiseError then .error .keyError else .ok none

/-- `k in gen` for the generator of `iter_always` (utils.py:39-43) whose next number is `g`: numbers are drawn until one equals `k`. `none` means that
the fuel was not enough. The second component is the next number of the generator. -/
def memGen (k : Nat) : Nat → Nat → Option (Bool × Nat)
  | 0, _ => none
  | fuel + 1, g => if g = k then some (true, g + 1) else memGen k fuel (g + 1)

/-- The page loop of `read()` without selection (SDDS.py:346-397) with both generators: `page` is the next number of `pages` and `g` that of `user_pages`.
The generator is asked after the parameters were read; as it does not look at them, it is asked first here. -/
def Reader.genLoop (r : Reader) : Nat → Nat → Nat → Pos → Pages → Option (Except PyErr Pages)
  | 0, _, _, _, _ => none
  | fuel + 1, page, g, p, acc =>
    match memGen page (fuel + 1) g with
    | none => none
    | some (w, g') =>
      if r.fileEnd p then some (.ok acc)
      else
        match r.readPage true w p acc with
        | .error e => some (.error e)
        | .ok (acc', p') => r.genLoop fuel (page + 1) g' p' acc'

end Verif.Sdds
