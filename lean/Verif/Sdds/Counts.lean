import Verif.Sdds.Ascii

/-!
# Model of `readSDDS.read` for binary files with any row count

`rsbeams/rsdata/SDDS.py:255-465`, as in `Verif.Sdds.Read`, but with integers for row counts and positions: a negative row count makes numpy read
everything that is left, and moves the position of a buffered reader back. `no_row_counts` with an unbuffered file is here, too. Where
`Verif.Sdds.Read` has a result, both models agree (`readZ_read`). Products are taken as unbounded integers, as there.
-/

namespace Verif.Sdds

/-- `np.frombuffer(buf, dtype=dk, count=count, offset=offset)`: a negative count takes all items that are left, which must be a whole number. -/
def frombufferZ (buf : Bytes) (dk : Dtype) (count offset : Int) : Except PyErr Arr :=
  if offset < 0 then do
    let _ ← itemSize dk
    .error .valueError
  else if 0 ≤ count then frombuffer buf dk count.toNat offset.toNat
  else do
    let size ← itemSize dk
    if size = 0 then .error .valueError
    else if buf.length < offset.toNat then .error .valueError
    else if (buf.length - offset.toNat) % size ≠ 0 then .error .valueError
    else .ok ⟨dk, decodeRows dk size ((buf.length - offset.toNat) / size) (buf.drop offset.toNat)⟩

/-- `np.fromfile(f, dtype=dk, count=count, offset=offset)` with the file at `ptr`: a negative count takes all whole items that are left. A place
before the start of the file raises OSError; a negative count behind the end of the file is not modelled. -/
def fromfileZ (buf : Bytes) (dk : Dtype) (count offset : Int) (ptr : Nat) : Except PyErr (Arr × Nat) :=
  if (ptr : Int) + offset < 0 then do
    let _ ← itemSize dk
    .error .osError
  else
    let start := ((ptr : Int) + offset).toNat
    if 0 ≤ count then fromfile buf dk count.toNat 0 start
    else do
      let size ← itemSize dk
      if size = 0 then .error .valueError
      else if buf.length < start then .error .notModelled
      else .ok (⟨dk, decodeRows dk size ((buf.length - start) / size) (buf.drop start)⟩, start + (buf.length - start) / size * size)

/-- `position` and the position of the open file. -/
structure ZPos where
  position : Int
  ptr : Nat
  deriving DecidableEq, Repr

/-- One call of the reader with the position update that follows it (SDDS.py:255-264, 418-420, 446-448, 460-462). -/
def Reader.readArrZ (r : Reader) (dk : Dtype) (count : Int) (p : ZPos) : Except PyErr (Arr × ZPos) :=
  if r.buffer then do
    let a ← frombufferZ r.file dk count p.position
    let size ← itemSize dk
    .ok (a, { p with position := p.position + size * count })
  else do
    let (a, ptr) ← fromfileZ r.file dk count p.position p.ptr
    .ok (a, { p with ptr := ptr })

/-- `_get_parameter_data` for binary files (SDDS.py:403-423). -/
def Reader.getParamsZ (r : Reader) : List Dtype → List Arr → ZPos → Except PyErr (List Arr × ZPos)
  | [], acc, p => .ok (acc, p)
  | dk :: dks, acc, p => do
    let dk' ← resolve r.varLen acc.getLast? dk
    let (a, p') ← r.readArrZ dk' 1 p
    r.getParamsZ dks (acc ++ [a]) p'

/-- `_get_column_data` when there is more than one group of columns (SDDS.py:429-449). -/
def Reader.getRowsZ (r : Reader) (keys : List Dtype) : Nat → ZPos → Except PyErr (List (List Arr) × ZPos)
  | 0, p => .ok ([], p)
  | n + 1, p => do
    let (row, p') ← r.getParamsZ keys [] p
    let (rest, p'') ← r.getRowsZ keys n p'
    .ok (row :: rest, p'')

/-- `_get_column_data` for binary files (SDDS.py:425-465); `range` of a negative number is empty. -/
def Reader.getColsZ (r : Reader) (rowCount : Int) (p : ZPos) : Except PyErr (List (List Arr) × ZPos) :=
  match r.colKeys with
  | [dk] => do
    let (a, p') ← r.readArrZ dk rowCount p
    .ok ([[a]], p')
  | keys => r.getRowsZ keys rowCount.toNat p

/-- `_check_file_end` (SDDS.py:284-303). -/
def Reader.fileEndZ (r : Reader) (p : ZPos) : Bool :=
  if r.buffer then (r.file.length : Int) ≤ p.position
  else match r.file.drop p.ptr with
    | [] => true
    | _ :: rest => (readline rest).1.all isSpaceByte

/-- `_get_ascii_row_count` on an unbuffered file (SDDS.py:315-322): the lines up to the first blank one. -/
def linesToBlank (b : Bytes) : Nat := ((fileLines b).takeWhile fun l => !l.all isSpaceByte).length

/-- `row_count` in `read` (SDDS.py:383-388). -/
def Reader.rowCountZ (r : Reader) (pd : List Arr) (p : ZPos) : Except PyErr Int :=
  if r.cols = [] then .ok 0
  else if !r.noRowCounts then
    match pd.find? fun a => (a.dt.head?.map Prod.fst) = some rowCountsName with
    | none => .error .keyError
    | some a => match a.rows.head?.bind (recField rowCountsName) with
      | some (.num t x) => .ok (ofBits t.size x)
      | _ => .error .indexError
  else if r.buffer then
    match bytesToZero (r.file.drop p.position.toNat) with
    | some n => .ok n
    | none => .error .typeError
  else .ok (linesToBlank (r.file.drop p.ptr))

/-- The pages kept so far. `StructData.add([])` appends `None` (struct_data.py:31-42). -/
structure ZPages where
  params : List (List Record)
  cols : List (Option (List Record))
  deriving DecidableEq, Repr

/-- What `StructData.add` appends. -/
def addPageZ (maxStr : Nat) (data : List (List Arr)) : Except PyErr (Option (List Record)) :=
  if data = [] then .ok none else (addPage maxStr data).map some

/-- Body of the page loop (SDDS.py:377-397). -/
def Reader.readPageZ (r : Reader) (all wanted : Bool) (p : ZPos) (acc : ZPages) : Except PyErr (ZPages × ZPos) := do
  let (pd, p1) ← r.getParamsZ r.paramKeys [] p
  let acc1 ← if wanted then do
      let pg ← addPage r.maxStr [pd]
      .ok { acc with params := acc.params ++ [pg] }
    else .ok acc
  let rc ← r.rowCountZ pd p1
  if rc = 0 then .ok (acc1, p1)
  else if all || wanted || r.varLen then do
    let (cd, p2) ← r.getColsZ rc p1
    let pg ← addPageZ r.maxStr cd
    .ok ({ acc1 with cols := acc1.cols ++ [pg] }, p2)
  else do
    let size ← itemSize (r.colKeys.headD [])
    .ok (acc1, { p1 with position := p1.position + size * rc })

/-- The page loop (SDDS.py:363-397). -/
def Reader.pageLoopZ (r : Reader) (sel : Option (List Nat)) : Nat → Nat → ZPos → ZPages → Option (Except PyErr ZPages)
  | 0, _, _, _ => none
  | fuel + 1, page, p, acc =>
    if pastPages sel page then some (.ok acc)
    else if r.fileEndZ p then some (.ok acc)
    else
      match r.readPageZ sel.isNone (wantedPage sel page) p acc with
      | .error e => some (.error e)
      | .ok (acc', p') => r.pageLoopZ sel fuel (page + 1) p' acc'

/-- `StructData.concat` (struct_data.py:44-45): pages of different lengths, or pages and `None`, cannot be stacked (ValueError since numpy 1.24). -/
def concatZ (pages : List (Option (List Record))) : Except PyErr (List (Option (List Record))) :=
  match pages with
  | [] => .ok []
  | pg :: rest => if rest.all fun q => q.map List.length = pg.map List.length then .ok pages else .error .valueError

/-- `read(pages)` for binary files (SDDS.py:324-401). -/
def Reader.readZ (r : Reader) (fuel : Nat) (sel : Option (List Nat)) : Option (Except PyErr ZPages) :=
  if sel = some [] then some (.error .valueError)
  else
    match r.pageLoopZ sel fuel 0 ⟨if r.buffer then r.headerEnd else 0, r.headerEnd⟩ ⟨[], []⟩ with
    | none => none
    | some (.error e) => some (.error e)
    | some (.ok pg) => some do
      let ps ← concat pg.params
      let cs ← concatZ pg.cols
      .ok ⟨ps, cs⟩

end Verif.Sdds
