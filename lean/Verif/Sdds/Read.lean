import Verif.Sdds.Header

/-!
# Model of `readSDDS.read` for binary files

`rsbeams/rsdata/SDDS.py:255-465` and `rsbeams/rsdata/struct_data.py`. The byte order is
little-endian (the class says so). Offsets are unbounded integers; numpy may compute
`itemsize * row_count` in 32 bits, so files of 2 GB and more are outside the model.
-/

namespace Verif.Sdds

/-- A value of a structured array: a number with its bit pattern, or the bytes of a string. -/
inductive Val
  | num (t : FType) (bits : Nat)
  | str (s : Bytes)
  deriving DecidableEq, Repr

/-- One element of a structured array. -/
abbrev Record := List (Str × Val)

/-- A one-dimensional structured array. -/
structure Arr where
  dt : Dtype
  rows : List Record
  deriving DecidableEq, Repr

/-- `np.dtype((name, type)).itemsize`. `'S{}'` and `np.char` are not types. -/
def keySize : KType → Except PyErr Nat
  | .num t => .ok t.size
  | .strN n => .ok n
  | .strRaw => .error .typeError
  | .char => .error .typeError

/-- `np.dtype(dk).itemsize`. Field names must differ. (An empty name, which numpy replaces by
`f0`, is not modelled.) -/
def itemSize (dk : Dtype) : Except PyErr Nat := do
  let sizes ← dk.mapM fun k => keySize k.2
  if (dk.map Prod.fst).Nodup then .ok sizes.sum else .error .valueError

/-- Numpy strings lose trailing NUL bytes. -/
def stripNul (s : Bytes) : Bytes := (s.reverse.dropWhile (· == 0)).reverse

/-- Bytes taken by a field whose size is known. -/
def keyWidth : KType → Nat
  | .num t => t.size
  | .strN n => n
  | _ => 0

/-- Value of one field. -/
def decodeKey : KType → Bytes → Val
  | .num t, b => .num t (leNat b)
  | _, b => .str (stripNul b)

/-- One record. -/
def decodeRec : Dtype → Bytes → Record
  | [], _ => []
  | k :: ks, b => (k.1, decodeKey k.2 (b.take (keyWidth k.2))) :: decodeRec ks (b.drop (keyWidth k.2))

/-- `n` records of `size` bytes each. -/
def decodeRows (dk : Dtype) (size : Nat) : Nat → Bytes → List Record
  | 0, _ => []
  | n + 1, b => decodeRec dk b :: decodeRows dk size n (b.drop size)

/-- `np.frombuffer(buf, dtype=dk, count=count, offset=offset)`, non-negative count. -/
def frombuffer (buf : Bytes) (dk : Dtype) (count offset : Nat) : Except PyErr Arr := do
  let size ← itemSize dk
  if size = 0 then .error .valueError
  else if buf.length < offset then .error .valueError
  else if buf.length - offset < count * size then .error .valueError
  else .ok ⟨dk, decodeRows dk size count (buf.drop offset)⟩

/-- `np.fromfile(f, dtype=dk, count=count, offset=offset)` with the file at `ptr`; returns the
new file position too. A short file gives fewer records. -/
def fromfile (buf : Bytes) (dk : Dtype) (count offset ptr : Nat) : Except PyErr (Arr × Nat) := do
  let size ← itemSize dk
  if size = 0 then .error .valueError
  else
    let start := ptr + offset
    let avail := (buf.length - start) / size
    if avail < count then .ok (⟨dk, decodeRows dk size avail (buf.drop start)⟩, max start buf.length)
    else .ok (⟨dk, decodeRows dk size count (buf.drop start)⟩, start + count * size)

/-- `position` and the position of the open file (used when not buffered). -/
structure Pos where
  position : Nat
  ptr : Nat
  deriving DecidableEq, Repr

/-- One call of the reader with the position update that follows it (SDDS.py:255-264,
418-420, 446-448, 460-462). -/
def Reader.readArr (r : Reader) (dk : Dtype) (count : Nat) (p : Pos) : Except PyErr (Arr × Pos) :=
  if r.buffer then do
    let a ← frombuffer r.file dk count p.position
    let size ← itemSize dk
    .ok (a, { p with position := p.position + size * count })
  else do
    let (a, ptr) ← fromfile r.file dk count p.position p.ptr
    .ok (a, { p with ptr := ptr })

/-- First value of a field of the first record. -/
def recField (name : Str) (rec : Record) : Option Val := (rec.find? fun kv => kv.1 = name).map Prod.snd

/-- `S{}`.format(n), and what `.format` does on the other kinds of type. -/
def fmtKey (t : KType) (n : Int) : Except PyErr KType :=
  match t with
  | .num _ => .error .attributeError
  | .char => .error .attributeError
  | .strN m => .ok (.strN m)
  | .strRaw => if 0 ≤ n then .ok (.strN n.toNat) else .error .typeError

/-- SDDS.py:406-411 and 433-439: if the previous array has a field `record_length`, its value
is put into the first field of `dk`. A missing field or record is ignored (`except`). -/
def resolve (varLen : Bool) (prev : Option Arr) (dk : Dtype) : Except PyErr Dtype :=
  if !varLen then .ok dk
  else match prev with
    | none => .ok dk
    | some a =>
      if (a.dt.map Prod.fst).contains recLenName then
        match a.rows.head?.bind (recField recLenName) with
        | some (.num t x) =>
          match dk with
          | [] => .ok []
          | k :: ks => do
            let t' ← fmtKey k.2 (ofBits t.size x)
            .ok ((k.1, t') :: ks)
        | _ => .ok dk
      else .ok dk

/-- `_get_parameter_data` for binary files (SDDS.py:403-423). `acc` are the arrays read so
far. -/
def Reader.getParams (r : Reader) : List Dtype → List Arr → Pos → Except PyErr (List Arr × Pos)
  | [], acc, p => .ok (acc, p)
  | dk :: dks, acc, p => do
    let dk' ← resolve r.varLen acc.getLast? dk
    let (a, p') ← r.readArr dk' 1 p
    r.getParams dks (acc ++ [a]) p'

/-- `_get_column_data` when there is more than one group of columns (SDDS.py:429-449): row by
row. -/
def Reader.getRows (r : Reader) (keys : List Dtype) : Nat → Pos → Except PyErr (List (List Arr) × Pos)
  | 0, p => .ok ([], p)
  | n + 1, p => do
    let (row, p') ← r.getParams keys [] p
    let (rest, p'') ← r.getRows keys n p'
    .ok (row :: rest, p'')

/-- `_get_column_data` for binary files (SDDS.py:425-465). -/
def Reader.getCols (r : Reader) (rowCount : Nat) (p : Pos) : Except PyErr (List (List Arr) × Pos) :=
  match r.colKeys with
  | [dk] => do
    let (a, p') ← r.readArr dk rowCount p
    .ok ([[a]], p')
  | keys => r.getRows keys rowCount p

/-- Casting a field to the type of the merged array: byte strings become text of bounded
length. Only ASCII bytes can be cast. -/
def castVal (maxStr : Nat) : Val → Except PyErr Val
  | .num t x => .ok (.num t x)
  | .str s => if s.all (· < 128) then .ok (.str (stripNul (s.take maxStr))) else .error .unicodeError

/-- The part of a record that `_merge` copies. -/
def mergeRec (maxStr : Nat) (rec : Record) : Except PyErr Record :=
  (rec.filter fun kv => kv.1 ≠ recLenName).mapM fun kv => do
    let v ← castVal maxStr kv.2
    .ok (kv.1, v)

/-- What `_merge` takes from one array: nothing when it only holds string lengths
(struct_data.py:50-55). -/
def mergeOne (maxStr : Nat) (a : Arr) : Except PyErr Record :=
  if (a.dt.map Prod.fst).all (· = recLenName) then .ok []
  else match a.rows with
    | [rec] => mergeRec maxStr rec
    | _ => .error .valueError

/-- `StructData._merge` (struct_data.py:47-56) for arrays read with `keys`: a single array is
returned as it is, several arrays of one record are joined. -/
def merge (maxStr : Nat) (arrs : List Arr) : Except PyErr (List Record) :=
  match arrs with
  | [a] => .ok a.rows
  | _ => do
    let names := (arrs.flatMap fun a => a.dt.map Prod.fst).filter (· ≠ recLenName)
    if ¬ names.Nodup then .error .valueError
    else do
      let recs ← arrs.mapM (mergeOne maxStr)
      .ok [recs.flatten]

/-- `StructData.add` (struct_data.py:31-42): the page that is appended. -/
def addPage (maxStr : Nat) (data : List (List Arr)) : Except PyErr (List Record) := do
  let parts ← data.mapM (merge maxStr)
  .ok parts.flatten

/-- White space bytes. -/
def isSpaceByte (b : UInt8) : Bool := b == 32 || (9 ≤ b && b ≤ 13)

/-- `_check_file_end` (SDDS.py:284-303). -/
def Reader.fileEnd (r : Reader) (p : Pos) : Bool :=
  if r.buffer then r.file.length ≤ p.position
  else match r.file.drop p.ptr with
    | [] => true
    | _ :: rest => (readline rest).1.all isSpaceByte

/-- `_get_ascii_row_count` on a buffered binary file (SDDS.py:305-313): bytes up to the first
zero; `None` when there is none. -/
def bytesToZero (b : Bytes) : Option Nat :=
  if b.contains 0 then some (b.takeWhile (· ≠ 0)).length else none

/-- `row_count` in `read` (SDDS.py:383-388). A negative count, and `no_row_counts` with an
unbuffered binary file, are outside the model. -/
def Reader.rowCount (r : Reader) (pd : List Arr) (p : Pos) : Except PyErr Nat :=
  if r.cols = [] then .ok 0
  else if !r.noRowCounts then
    match pd.find? fun a => (a.dt.head?.map Prod.fst) = some rowCountsName with
    | none => .error .keyError
    | some a => match a.rows.head?.bind (recField rowCountsName) with
      | some (.num t x) =>
        if 0 ≤ ofBits t.size x then .ok (ofBits t.size x).toNat else .error .notModelled
      | _ => .error .indexError
  else if r.buffer then
    match bytesToZero (r.file.drop p.position) with
    | some n => .ok n
    | none => .error .typeError
  else .error .notModelled

/-- The pages kept so far: `_parameters._data` and `_columns._data`. -/
structure Pages where
  params : List (List Record)
  cols : List (List Record)
  deriving DecidableEq, Repr

/-- Body of the page loop (SDDS.py:377-397) for one page that is not past the end. `wanted`
tells whether the page is selected, `all` whether no selection was made. -/
def Reader.readPage (r : Reader) (all wanted : Bool) (p : Pos) (acc : Pages) :
    Except PyErr (Pages × Pos) := do
  let (pd, p1) ← r.getParams r.paramKeys [] p
  let acc1 ← if wanted then do
      let pg ← addPage r.maxStr [pd]
      .ok { acc with params := acc.params ++ [pg] }
    else .ok acc
  let rc ← r.rowCount pd p1
  if rc = 0 then .ok (acc1, p1)
  else if all || wanted || r.varLen then do
    let (cd, p2) ← r.getCols rc p1
    let pg ← addPage r.maxStr cd
    .ok ({ acc1 with cols := acc1.cols ++ [pg] }, p2)
  else do
    let size ← itemSize (r.colKeys.headD [])
    .ok (acc1, { p1 with position := p1.position + size * rc })

/-- Is page `k` selected (SDDS.py:369-371, 380)? -/
def wantedPage (sel : Option (List Nat)) (k : Nat) : Bool :=
  match sel with
  | none => true
  | some s => s.contains k

/-- `page > np.max(pages)` (SDDS.py:374-376). -/
def pastPages (sel : Option (List Nat)) (k : Nat) : Bool :=
  match sel with
  | none => false
  | some s => decide (s.foldl max 0 < k)

/-- The page loop (SDDS.py:363-397). `sel = none` is `pages=None`; otherwise a list of page
numbers. -/
def Reader.pageLoop (r : Reader) (sel : Option (List Nat)) :
    Nat → Nat → Pos → Pages → Option (Except PyErr Pages)
  | 0, _, _, _ => none
  | fuel + 1, page, p, acc =>
    if pastPages sel page then some (.ok acc)
    else if r.fileEnd p then some (.ok acc)
    else
      match r.readPage sel.isNone (wantedPage sel page) p acc with
      | .error e => some (.error e)
      | .ok (acc', p') => r.pageLoop sel fuel (page + 1) p' acc'

/-- `StructData.concat` (struct_data.py:44-45): pages of different lengths cannot be stacked
(ValueError since numpy 1.24; before, an object array holding the same pages). -/
def concat (pages : List (List Record)) : Except PyErr (List (List Record)) :=
  match pages with
  | [] => .ok []
  | pg :: rest => if rest.all fun q => q.length = pg.length then .ok pages else .error .valueError

/-- `read(pages)` for binary files (SDDS.py:324-401): the pages of `.parameters` and
`.columns`. An empty list of pages makes `np.max` raise ValueError. -/
def Reader.read (r : Reader) (fuel : Nat) (sel : Option (List Nat)) : Option (Except PyErr Pages) :=
  if sel = some [] then some (.error .valueError)
  else
    let p0 : Pos := ⟨if r.buffer then r.headerEnd else 0, r.headerEnd⟩
    match r.pageLoop sel fuel 0 p0 ⟨[], []⟩ with
    | none => none
    | some (.error e) => some (.error e)
    | some (.ok pg) => some do
      let ps ← concat pg.params
      let cs ← concat pg.cols
      .ok ⟨ps, cs⟩

end Verif.Sdds
