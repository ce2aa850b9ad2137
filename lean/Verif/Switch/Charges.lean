import Verif.Switch.Model

/-!
# Model of `read_elegant` with the charges of several pages

`Verif.Switch.readElegant` has no place for an array of charges, which `parameters['Charge'].squeeze()` gives for a file of several pages.
Here the total charge is a number or an array.
-/

namespace Verif.Switch

open Verif.Sdds

/-- `total_charge` of a species that has been read (switchyard.py:32-36): a number or an array of numbers. -/
inductive Charges (K : Type)
  | one (q : K)
  | many (qs : List K)
  deriving DecidableEq, Repr

section
variable {K : Type} [Field K]

/-- `parameters['Charge'].squeeze()` with the ValueError handler (switchyard.py:32-36). -/
def chargesOf (num : Num K) (pages : List (List Record)) : Except PyErr (Charges K) :=
  match pages with
  | [] => .error .indexError
  | [[r]] => match fieldOf num "Charge".toList r with
    | .error .valueError => .ok (.one 0)
    | .error e => .error e
    | .ok q => .ok (.one q)
  | pages => match pages.mapM fun pg => fieldOf num "Charge".toList (pg.headD []) with
    | .error .valueError => .ok (.one 0)
    | .error e => .error e
    | .ok qs => .ok (.many qs)

/-- `read_elegant` (switchyard.py:11-49) for the contents of a file: the coordinates and the total charge; charge and mass are those of
electrons as in `readElegant`. -/
def readElegantAll (ft : FloatText) (num : Num K) (fuel : Nat) (file : Bytes) :
    Option (Except PyErr (List (Part K) × Charges K)) :=
  match openSdds ft fuel true 100 file with
  | none => none
  | some (.error e) => some (.error e)
  | some (.ok r) =>
    if r.ascii then some (.error .notModelled)
    else match r.read fuel none with
      | none => none
      | some (.error e) => some (.error e)
      | some (.ok pg) => some do
        if r.cols = [] then .error .attributeError
        let sq := squeeze pg.cols
        let q ← chargesOf num pg.params
        let xs ← column num sq "x".toList
        let xps ← column num sq "xp".toList
        let ys ← column num sq "y".toList
        let yps ← column num sq "yp".toList
        let ts ← column num sq "t".toList
        let ps ← column num sq "p".toList
        .ok (particles num xs xps ys yps ts ps, q)

end

end Verif.Switch
