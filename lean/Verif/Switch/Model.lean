import Mathlib.Algebra.Field.Defs
import Mathlib.Algebra.BigOperators.Group.List.Basic
import Verif.Sdds.Read
import Verif.Sdds.Write

/-!
# Model of `rsbeams/rsdata/switchyard.py` and `rsbeams/rsptcls/species.py`

Coordinates are elements of a field `K` (exact arithmetic). Files written for elegant are the
bytes of `Verif.Sdds.saveBinary`; files read are bytes given to `Verif.Sdds.openSdds`.
-/

namespace Verif.Switch

open Verif.Sdds

/-- A row of `Species.coordinates` (species.py:20-42, names of the columns in
switchyard.py:122-127). -/
structure Part (K : Type) where
  x : K
  ux : K
  y : K
  uy : K
  ct : K
  pt : K
  deriving DecidableEq, Repr

/-- A `Species` (species.py:4-14). `totalCharge = none` is `None`. -/
structure Species (K : Type) where
  coords : List (Part K)
  charge : Int
  mass : Nat
  totalCharge : Option K
  deriving DecidableEq, Repr

/-- Numbers of the platform: doubles of values, values of doubles, and `scipy.constants.c`. -/
structure Num (K : Type) where
  enc : K → F64
  dec : F64 → K
  c : K

/-- A column of type double (switchyard.py:200-205). -/
def dcol {K : Type} (num : Num K) (name units : String) (data : List K) : WCol :=
  { name := name.toList, type := "double".toList, dtype := .f64,
    data := data.map fun v => (num.enc v).toNat, units := units.toList }

section
variable {K : Type} [Field K]

/-- The `writeSDDS` object filled by `write_elegant` (switchyard.py:189-205). -/
def elegantWriter (num : Num K) (s : Species K) : Except PyErr Writer := do
  let w : Writer := {}
  let w ← w.createParameter
    { name := "Charge".toList, type := "double".toList,
      data := s.totalCharge.map fun q => .float (num.enc q), units := "C".toList }
  let w ← w.createColumn (dcol num "x" "m" (s.coords.map (·.x)))
  let w ← w.createColumn (dcol num "xp" "" (s.coords.map fun p => p.ux / p.pt))
  let w ← w.createColumn (dcol num "y" "m" (s.coords.map (·.y)))
  let w ← w.createColumn (dcol num "yp" "" (s.coords.map fun p => p.uy / p.pt))
  let w ← w.createColumn (dcol num "t" "s" (s.coords.map fun p => p.ct / num.c))
  w.createColumn (dcol num "p" "m$be$nc" (s.coords.map (·.pt)))

/-- `write_elegant` for a species (switchyard.py:179-208): the file and the exception. -/
def writeElegant (env : Env) (num : Num K) (s : Species K) : Bytes × Option PyErr :=
  match elegantWriter num s with
  | .error e => ([], some e)
  | .ok w => saveBinary env w

/-- A field of one element of a structured array; the numpy error for an unknown field is
ValueError. Values of other types than double are outside the model. -/
def fieldOf (num : Num K) (name : Str) (r : Record) : Except PyErr K :=
  match r.find? (fun f => f.1 = name) with
  | none => .error .valueError
  | some (_, .num .double b) => .ok (num.dec (BitVec.ofNat 64 b))
  | some _ => .error .notModelled

/-- `columns.squeeze()` (switchyard.py:31) of the array of pages: what indexing with a field
name and `[:]` sees. -/
inductive Squeezed
  | empty                        -- `np.array([])`: no field names, IndexError
  | zeroDim (r : Record)         -- one page with one row: `[:]` raises IndexError
  | rows (rs : List Record)
  | table (r : Record)           -- pages times rows: does not fit in a column, ValueError
  deriving DecidableEq, Repr

/-- See `Squeezed`. Pages without rows never reach the array (`Reader.readPage`). -/
def squeeze : List (List Record) → Squeezed
  | [] => .empty
  | [[r]] => .zeroDim r
  | [rs] => .rows rs
  | pages => if pages.all fun pg => pg.length = 1 then .rows pages.flatten
             else .table ((pages.headD []).headD [])

/-- `particle_data[:, i] = sdds_data[col][:]` (switchyard.py:39-40) for one column. -/
def column (num : Num K) (sq : Squeezed) (name : Str) : Except PyErr (List K) :=
  match sq with
  | .empty => .error .indexError
  | .zeroDim r => do
    let _ ← fieldOf num name r
    .error .indexError
  | .rows rs => rs.mapM (fieldOf num name)
  | .table _ => .error .valueError

/-- `parameters['Charge'].squeeze()` with the ValueError handler (switchyard.py:32-36). With
several pages the result is an array of charges, given as `none`. -/
def chargeOf (num : Num K) (pages : List (List Record)) : Except PyErr (Option K) :=
  match pages with
  | [] => .error .indexError
  | [[r]] => match fieldOf num "Charge".toList r with
    | .error .valueError => .ok (some 0)
    | .error e => .error e
    | .ok q => .ok (some q)
  | pg :: _ => match fieldOf num "Charge".toList (pg.headD []) with
    | .error .valueError => .ok (some 0)
    | .error e => .error e
    | .ok _ => .ok none

/-- Six columns put together (switchyard.py:38-45): transverse momenta are angles times the
total momentum, and the time is multiplied by `c`. -/
def particles (num : Num K) : List K → List K → List K → List K → List K → List K → List (Part K)
  | x :: xs, xp :: xps, y :: ys, yp :: yps, t :: ts, p :: ps =>
    ⟨x, xp * p, y, yp * p, t * num.c, p⟩ :: particles num xs xps ys yps ts ps
  | _, _, _, _, _, _ => []

/-- `read_elegant` (switchyard.py:11-49) for the contents of a file. `readSDDS` is called with
its defaults, `buffer=True` and `max_string_length=100`; without columns `.columns` raises
AttributeError. A species with an array of charges is outside the model. -/
def readElegant (ft : FloatText) (num : Num K) (fuel : Nat) (file : Bytes) :
    Option (Except PyErr (Species K)) :=
  match openSdds ft fuel true 100 file with
  | none => none
  | some (.error e) => some (.error e)
  | some (.ok r) =>
    if r.ascii then some (.error .notModelled)
    else match r.read fuel none with
      | none => none
      | some (.error e) => some (.error e)
      | some (.ok pg) => some do
        if r.cols = [] then .error .attributeError
        let sq := squeeze pg.cols
        let q ← chargeOf num pg.params
        let xs ← column num sq "x".toList
        let xps ← column num sq "xp".toList
        let ys ← column num sq "y".toList
        let yps ← column num sq "yp".toList
        let ts ← column num sq "t".toList
        let ps ← column num sq "p".toList
        match q with
        | some q => .ok ⟨particles num xs xps ys yps ts ps, -1, 511000, some q⟩
        | none => .error .notModelled

/-- `T = ct / c`, then `T - np.average(T)` (switchyard.py:255-256). -/
def genesisTimes (num : Num K) (ps : List (Part K)) : List K :=
  let ts := ps.map fun p => p.ct / num.c
  ts.map fun t => t - ts.sum / (ts.length : K)

/-- Text of numbers: `str` of the total charge, and the text pandas writes. -/
structure Fmt (K : Type) where
  charge : Option K → Str
  csv : K → Str

/-- One line of `to_csv(sep=' ', header=False, index=False)` (switchyard.py:268-270). -/
def csvLine (f : Fmt K) (p : Part K) (t : K) : Str :=
  f.csv p.x ++ ' ' :: f.csv p.ux ++ ' ' :: f.csv p.y ++ ' ' :: f.csv p.uy ++ ' ' :: f.csv t ++
    ' ' :: f.csv p.pt ++ ['\n']

/-- The text `write_genesis` leaves in the file (switchyard.py:226-272). -/
def writeGenesis (num : Num K) (f : Fmt K) (version : Str) (s : Species K) : Str :=
  "? VERSION = ".toList ++ version ++ ['\n'] ++
  "? CHARGE = ".toList ++ f.charge s.totalCharge ++ ['\n'] ++
  "? SIZE = ".toList ++ natStr s.coords.length ++ ['\n'] ++
  "? COLUMNS X PX Y PY T P".toList ++ ['\n'] ++
  (List.zipWith (csvLine f) s.coords (genesisTimes num s.coords)).flatten

end

section
variable {K : Type}

/-- One line of `np.savetxt` (default delimiter). -/
def savetxtLine (fmt : K → Str) (p : Part K) : Str :=
  fmt p.x ++ ' ' :: fmt p.ux ++ ' ' :: fmt p.y ++ ' ' :: fmt p.uy ++ ' ' :: fmt p.ct ++
    ' ' :: fmt p.pt ++ ['\n']

/-- The text `write_opal` leaves in the file (switchyard.py:210-224); `fmt` is `'%.18e'`. -/
def writeOpal (fmt : K → Str) (s : Species K) : Str :=
  natStr s.coords.length ++ ['\n'] ++ (s.coords.map (savetxtLine fmt)).flatten

/-- What follows the last `sep` in the text, if it occurs. -/
def afterLast? (sep : Str) : Str → Option Str
  | [] => none
  | c :: cs => match afterLast? sep cs with
    | some t => some t
    | none => if sep.isPrefixOf (c :: cs) then some ((c :: cs).drop sep.length) else none

/-- `_get_step_number(key)`, that is `key.split('Step#')[-1]` (switchyard.py:299-301). `Step#`
cannot overlap itself, so the last piece is what follows its last occurrence. -/
def getStepNumber (key : Str) : Str := (afterLast? "Step#".toList key).getD key

/-- A group of an HDF5 file: its datasets and the two attributes that are read. -/
structure Group (K : Type) where
  data : Str → Option (List K)
  totalCharge : Option K
  charge : Option K

/-- An open HDF5 file: the groups and their names. -/
abbrev H5 (K : Type) := List (Str × Group K)

/-- The step numbers collected by the loop (switchyard.py:74-81). -/
def allSteps (keys : List Str) : List Int :=
  keys.filterMap fun k => match parseInt (getStepNumber k) with
    | .ok n => some n
    | .error _ => none

/-- `np.max`; ValueError for an empty list. -/
def npMax : List Int → Except PyErr Int
  | [] => .error .valueError
  | n :: ns => .ok (ns.foldl max n)

/-- The step that is read (switchyard.py:72-82). -/
def chooseStep (keys : List Str) (step : Option Int) : Except PyErr Int :=
  match step with
  | none => npMax (allSteps keys)
  | some n => if n = 0 then npMax (allSteps keys) else .ok n

/-- `'Step#{}'.format(n)` (switchyard.py:83). -/
def stepName (n : Int) : Str := "Step#".toList ++ intStr n

/-- `particle_data[:, i] = pcdata[loc+'/'+coord]` (switchyard.py:85-87): KeyError for a missing
dataset, a single number is broadcast, another length raises ValueError. -/
def opalColumn (g : Group K) (n : Nat) (name : String) : Except PyErr (List K) :=
  match g.data name.toList with
  | none => .error .keyError
  | some [v] => .ok (List.replicate n v)
  | some vs => if vs.length = n then .ok vs else .error .valueError

/-- Six columns of the particle array. -/
def zip6 : List K → List K → List K → List K → List K → List K → List (Part K)
  | x :: xs, px :: pxs, y :: ys, py :: pys, z :: zs, pz :: pzs =>
    ⟨x, px, y, py, z, pz⟩ :: zip6 xs pxs ys pys zs pzs
  | _, _, _, _, _, _ => []

/-- `read_opal(file_name, step_number)` (switchyard.py:52-95). -/
def readOpal [Zero K] [DecidableEq K] (f : H5 K) (step : Option Int) : Except PyErr (Species K) := do
  let n ← chooseStep (f.map (·.1)) step
  match f.find? fun g => g.1 = stepName n with
  | none => .error .keyError
  | some (_, g) =>
    match g.data "z".toList with
    | none => .error .keyError
    | some z =>
      let m := z.length
      let xs ← opalColumn g m "x"
      let pxs ← opalColumn g m "px"
      let ys ← opalColumn g m "y"
      let pys ← opalColumn g m "py"
      let zs ← opalColumn g m "z"
      let pzs ← opalColumn g m "pz"
      let q := match g.totalCharge with
        | some q => if q = 0 then g.charge else some q
        | none => g.charge
      if q.isNone then .error .assertionError
      else .ok ⟨zip6 xs pxs ys pys zs pzs, -1, 511000, q⟩

/-- `_supported_codes` (switchyard.py:118). -/
def supportedCodes : List Str := ["genesis".toList, "elegant".toList, "opal".toList]

/-- `is_supported` (switchyard.py:133-138). -/
def isSupported (code : Str) : Bool := supportedCodes.contains code

/-- The functions in `_readers` (switchyard.py:130). -/
inductive ReaderFn
  | elegant | opal
  deriving DecidableEq, Repr

/-- `_get_reader` (switchyard.py:149-155). -/
def getReader (fmt : Str) : Except PyErr ReaderFn :=
  if fmt = "elegant".toList then .ok .elegant
  else if fmt = "opal".toList then .ok .opal
  else .error .lookupError

/-- The functions in `_writers` (switchyard.py:131). -/
inductive WriterFn
  | elegant | genesis | opal
  deriving DecidableEq, Repr

/-- `self._writers[code]` (switchyard.py:294). -/
def getWriter (code : Str) : Except PyErr WriterFn :=
  if code = "elegant".toList then .ok .elegant
  else if code = "genesis".toList then .ok .genesis
  else if code = "opal".toList then .ok .opal
  else .error .keyError

/-- `Switchyard.species` (switchyard.py:129), a dictionary in insertion order. -/
abbrev Registry (K : Type) := List (Str × Species K)

/-- `self.species[name]`, `none` for a KeyError. -/
def Registry.get (s : Registry K) (name : Str) : Option (Species K) :=
  (s.find? fun e => e.1 = name).map (·.2)

/-- `setdefault` in `_species_insert` (switchyard.py:140-143). -/
def Registry.insert (s : Registry K) (name : Str) (sp : Species K) : Registry K :=
  if (s.get name).isSome then s else s ++ [(name, sp)]

/-- `species_name` or the default (switchyard.py:174-175, 291-292); the empty name is false. -/
def nameOr (name : Option Str) : Str :=
  match name with
  | some n => if n = [] then "species_0".toList else n
  | none => "species_0".toList

/-- Arguments of a call of `read`, and what the reader does with the file and the keyword
arguments. Readers do not look at the registry. -/
structure Call (K : Type) where
  fmt : Str
  name : Option Str
  outcome : ReaderFn → Except PyErr (Species K)

/-- `read` (switchyard.py:157-177): the registry afterwards and the exception. -/
def Registry.read (s : Registry K) (c : Call K) : Registry K × Option PyErr :=
  match getReader c.fmt with
  | .error e => (s, some e)
  | .ok r => match c.outcome r with
    | .error e => (s, some e)
    | .ok sp => (s.insert (nameOr c.name) sp, none)

/-- The registry after a sequence of calls whose exceptions are caught by the caller. -/
def Registry.readAll (s : Registry K) : List (Call K) → Registry K
  | [] => s
  | c :: cs => Registry.readAll (s.read c).1 cs

/-- What `write` (switchyard.py:274-296) gives to a writer: the function and the species. The
writer is looked up first; every writer begins by looking up the species. -/
def Registry.write (s : Registry K) (code : Str) (name : Option Str) : Except PyErr (WriterFn × Species K) := do
  let w ← getWriter code
  match s.get (nameOr name) with
  | none => .error .keyError
  | some sp => .ok (w, sp)

end

end Verif.Switch
