import Verif.Sdds.Read

/-!
# Model of `readSDDS.read` for ASCII files

`rsbeams/rsdata/SDDS.py:255-465` and `numpy.genfromtxt` as it is called there. Bytes stand for the characters of the text, which numpy
decodes as latin-1. The conversion of text to floats is a parameter. An array of one row, which numpy squeezes to zero dimensions, is a list
of one row.
-/

namespace Verif.Sdds

/-- Conversions that are not modelled: `float(s)` and the rounding of a double to single precision. -/
structure Conv where
  parse : Str → Except PyErr F64
  single : F64 → Nat

/-- White space for `str.split()`, among the first 256 characters. -/
def isStrSpace (b : UInt8) : Bool := isSpaceByte b || (28 ≤ b && b ≤ 31) || b == 133 || b == 160

/-- `bytes.splitlines()`. `cr` tells that the last byte was a carriage return, whose line was already finished. -/
def splitLinesFrom : Bool → Bytes → Bytes → List Bytes
  | _, cur, [] => if cur = [] then [] else [cur]
  | cr, cur, b :: bs =>
    if b = 10 then if cr ∧ cur = [] then splitLinesFrom false [] bs else cur :: splitLinesFrom false [] bs
    else if b = 13 then cur :: splitLinesFrom true [] bs
    else splitLinesFrom false (cur ++ [b]) bs

/-- `bytes.splitlines()`. -/
def splitLines (b : Bytes) : List Bytes := splitLinesFrom false [] b

/-- The lines of a file, with their newlines, as they are read one by one. -/
def fileLinesFrom : Bytes → Bytes → List Bytes
  | cur, [] => if cur = [] then [] else [cur]
  | cur, b :: bs => if b = 10 then (cur ++ [b]) :: fileLinesFrom [] bs else fileLinesFrom (cur ++ [b]) bs

/-- The lines of a file. -/
def fileLines (b : Bytes) : List Bytes := fileLinesFrom [] b

/-- `self.openf` of a buffered reader: the lines without the comment lines (SDDS.py:176-177). -/
def bufferLines (file : Bytes) : List Bytes :=
  (splitLines file).filter fun l => (l.dropWhile isSpaceByte).head? ≠ some 33

/-- `line.strip(" \r\n")`. -/
def stripLine (l : Bytes) : Bytes :=
  let p := fun b : UInt8 => b == 32 || b == 13 || b == 10
  ((l.dropWhile p).reverse.dropWhile p).reverse

/-- `str.split()`: the words of a line. `cur` is the word begun. -/
def wordsFrom : Bytes → Bytes → List Bytes
  | cur, [] => if cur = [] then [] else [cur]
  | cur, b :: bs =>
    if isStrSpace b then if cur = [] then wordsFrom [] bs else cur :: wordsFrom [] bs
    else wordsFrom (cur ++ [b]) bs

/-- The fields of a line in `genfromtxt`: without the comment, split at white space, or not at all, because the delimiter of parameters
contains a newline (SDDS.py:413-414). -/
def fieldsOf (white : Bool) (line : Bytes) : List Bytes :=
  let l := stripLine (line.takeWhile (· ≠ 33))
  if l = [] then [] else if white then wordsFrom [] l else [l]

/-- The loop of `genfromtxt` over the lines: the rows, whether some line had another number of fields, and the lines not read. -/
def genRows (white : Bool) (nb : Nat) : Option Nat → List Bytes → List (List Bytes) × Bool × List Bytes
  | _, [] => ([], false, [])
  | max, line :: ls =>
    let f := fieldsOf white line
    if f = [] then genRows white nb max ls
    else if f.length ≠ nb then
      let r := genRows white nb max ls
      (r.1, true, r.2.2)
    else if max = some 1 then ([f], false, ls)
    else
      let r := genRows white nb (max.map (· - 1)) ls
      (f :: r.1, r.2.1, r.2.2)

/-- Number of fields of the first line that has any. -/
def firstCount (white : Bool) (lines : List Bytes) : Nat :=
  (((lines.map (fieldsOf white)).find? fun f => f ≠ []).getD []).length

/-- `int(x)` of a double: the value of the bit pattern rounded towards zero. NaN raises ValueError; the OverflowError of infinities is not
modelled. -/
def truncF64 (x : F64) : Except PyErr Int :=
  let bits := x.toNat
  let neg := 2 ^ 63 ≤ bits
  let e := bits / 2 ^ 52 % 2048
  let m := bits % 2 ^ 52
  if e = 2047 then if m = 0 then .error .notModelled else .error .valueError
  else
    let mant := if e = 0 then m else 2 ^ 52 + m
    let k := max e 1
    let a : Nat := if 1075 ≤ k then mant * 2 ^ (k - 1075) else mant / 2 ^ (1075 - k)
    .ok (if neg then -(a : Int) else a)

/-- Storing an integer in `n` bytes; integers that do not fit are not modelled. -/
def fitInt (n : Nat) (i : Int) : Except PyErr Nat :=
  if -((256 ^ n : Nat) : Int) ≤ 2 * i ∧ 2 * i < ((256 ^ n : Nat) : Int) then .ok (toBits n i) else .error .notModelled

/-- `int(s)`, with white space around the number. -/
def pyInt (s : Str) : Except PyErr Int := if '_' ∈ s then .error .notModelled else parseInt (strip s)

/-- How numpy converts the text of an array with one field: `int(s)` or `float(s)`, with their exceptions. -/
def strictNum (c : Conv) (t : FType) (s : Str) : Except PyErr Nat :=
  match t with
  | .double => (c.parse s).map BitVec.toNat
  | .float => (c.parse s).map c.single
  | .long => (pyInt s).bind (fitInt 4)
  | .short => (pyInt s).bind (fitInt 2)

/-- The converter of `genfromtxt` for floats: NaN if `float(s)` raises ValueError. -/
def looseFloat (c : Conv) (s : Str) : Except PyErr F64 :=
  match c.parse s with
  | .error .valueError => .ok 0x7FF8000000000000#64
  | r => r

/-- The converter of `genfromtxt` for integers: `int(float(s))`, and -1 if that raises ValueError. -/
def looseInt (c : Conv) (s : Str) : Except PyErr Int :=
  match (c.parse s).bind truncF64 with
  | .error .valueError => .ok (-1)
  | r => r

/-- How `genfromtxt` converts the text of an array with several fields. -/
def looseNum (c : Conv) (t : FType) (s : Str) : Except PyErr Nat :=
  match t with
  | .double => (looseFloat c s).map BitVec.toNat
  | .float => (looseFloat c s).map c.single
  | .long => (looseInt c s).bind (fitInt 4)
  | .short => (looseInt c s).bind (fitInt 2)

/-- Value of a field. -/
def textVal (c : Conv) (strict : Bool) (k : KType) (s : Bytes) : Except PyErr Val :=
  match k with
  | .num t => (if strict then strictNum c t (latin1 s) else looseNum c t (latin1 s)).map (Val.num t)
  | .strN n => .ok (.str (stripNul (s.take n)))
  | _ => .error .typeError

/-- Names that `genfromtxt` does not allow. -/
def excludedNames : List Str := ["return".toList, "file".toList, "print".toList]

/-- Field name after `NameValidator` of `genfromtxt`, without the numbering. -/
def validName (n : Str) : Str :=
  let m := ((strip n).map fun ch => if ch = ' ' then '_' else ch).filter (· ≠ '"')
  if m ∈ excludedNames then m ++ ['_'] else m

/-- Names after `NameValidator`: a name that occurred before gets a number. `seen` are the names so far. -/
def validNamesFrom : List Str → List Str → List Str
  | _, [] => []
  | seen, n :: ns =>
    let m := validName n
    (if seen.count m = 0 then m else m ++ '_' :: natStr (seen.count m)) :: validNamesFrom (m :: seen) ns

/-- Names after `NameValidator`. -/
def validNames (ns : List Str) : List Str := validNamesFrom [] ns

/-- The dtype with the validated names. Duplicate names raise ValueError, `np.char` TypeError. Empty names are not modelled. -/
def easyDtype (dk : Dtype) : Except PyErr Dtype := do
  let _ ← itemSize dk
  if (dk.map fun k => validName k.1).contains [] then .error .notModelled
  else .ok ((validNames (dk.map Prod.fst)).zip (dk.map Prod.snd))

/-- One record from the fields of a line. With several fields of the dtype further fields of the line are ignored. -/
def textRec (c : Conv) (dt : Dtype) (fields : List Bytes) : Except PyErr Record :=
  match dt with
  | [k] =>
    match fields with
    | [s] => (textVal c true k.2 s).map fun v => [(k.1, v)]
    | _ => .error .valueError
  | _ =>
    if fields.length < dt.length then .error .valueError
    else (dt.zip fields).mapM fun p => (textVal c false p.1.2 p.2).map fun v => (p.1.1, v)

/-- `np.genfromtxt(lines, dtype=dk, max_rows=max, comments='!', deletechars='')`: the array and the lines not read. -/
def genfromtxt (c : Conv) (white : Bool) (dk : Dtype) (max : Option Int) (lines : List Bytes) : Except PyErr (Arr × List Bytes) :=
  if (max.getD 1) < 1 then .error .valueError
  else do
    let dt ← easyDtype dk
    let (rows, bad, rest) := genRows white (firstCount white lines) (max.map Int.toNat) lines
    if bad then .error .valueError
    else do
      let recs ← rows.mapM (textRec c dt)
      .ok (⟨dt, recs⟩, rest)

/-- `position`, and the lines after the position of the open file (used when not buffered). -/
structure TPos where
  position : Nat
  rest : List Bytes
  deriving DecidableEq, Repr

/-- The lines that `genfromtxt` sees. -/
def Reader.source (r : Reader) (p : TPos) : List Bytes := if r.buffer then bufferLines r.file else p.rest

/-- `_get_parameter_data` for ASCII files (SDDS.py:403-423). -/
def Reader.textParams (r : Reader) (c : Conv) : List Dtype → List Arr → TPos → Except PyErr (List Arr × TPos)
  | [], acc, p => .ok (acc, p)
  | dk :: dks, acc, p => do
    let (a, rest) ← genfromtxt c false dk (some 1) ((r.source p).drop p.position)
    r.textParams c dks (acc ++ [a]) (if r.buffer then { p with position := p.position + 1 } else { p with rest := rest })

/-- `_get_column_data` for ASCII files (SDDS.py:450-465): there is one group of columns. -/
def Reader.textCols (r : Reader) (c : Conv) (rowCount : Option Int) (p : TPos) : Except PyErr (Arr × TPos) := do
  let (a, rest) ← genfromtxt c true (r.colKeys.headD []) rowCount ((r.source p).drop p.position)
  .ok (a, if r.buffer then { p with position := p.position + ((rowCount.getD 0).toNat + a.rows.length) } else { p with rest := rest })

/-- `_check_file_end` (SDDS.py:284-303): without buffer, one byte is read and then the rest of the line. -/
def Reader.textEnd (r : Reader) (p : TPos) : Bool :=
  if r.buffer then (bufferLines r.file).length ≤ p.position
  else match p.rest with
    | [] => true
    | line :: rest => (if line.tail = [] then rest.headD [] else line.tail).all isSpaceByte

/-- `_get_ascii_row_count` (SDDS.py:305-322). -/
def Reader.textRows (r : Reader) (p : TPos) : Option Int :=
  if r.buffer then
    let ls := (bufferLines r.file).drop p.position
    if [] ∈ ls then some (ls.takeWhile (· ≠ [])).length else none
  else some (p.rest.takeWhile fun l => !l.all isSpaceByte).length

/-- `row_count` in `read` (SDDS.py:383-388); `none` is None. -/
def Reader.textRowCount (r : Reader) (pd : List Arr) (p : TPos) : Except PyErr (Option Int) :=
  if r.cols = [] then .ok (some 0)
  else if !r.noRowCounts then
    match pd.find? fun a => (a.dt.head?.map Prod.fst) = some rowCountsName with
    | none => .error .keyError
    | some a => match a.rows.head?.bind (recField rowCountsName) with
      | some (.num .long x) => .ok (some (ofBits 4 x))
      | some _ => .error .notModelled
      | none => .error .indexError
  else .ok (r.textRows p)

/-- What `_merge` copies of one array (struct_data.py:50-55): its fields must be fields of the merged array, `names`. -/
def textMergeOne (maxStr : Nat) (names : List Str) (a : Arr) : Except PyErr Record :=
  if (a.dt.map Prod.fst).all (· = recLenName) then .ok []
  else if ((a.dt.map Prod.fst).filter (· ≠ recLenName)).all (names.contains ·) then
    match a.rows with
    | [rec] => mergeRec maxStr rec
    | _ => .error .valueError
  else .error .keyError

/-- The last value written to a field of `np.empty`; a field that was not written is not modelled. -/
def lastField (rec : Record) (n : Str) : Except PyErr (Str × Val) :=
  match (rec.filter fun kv => kv.1 = n).getLast? with
  | some kv => .ok kv
  | none => .error .notModelled

/-- `StructData._merge` (struct_data.py:47-56) for arrays read with `keys`. -/
def textMerge (maxStr : Nat) (keys : List Dtype) (arrs : List Arr) : Except PyErr (List Record) :=
  match arrs with
  | [a] => .ok a.rows
  | _ => do
    let names := (keys.flatMap fun dk => dk.map Prod.fst).filter (· ≠ recLenName)
    if ¬ names.Nodup then .error .valueError
    else do
      let recs ← arrs.mapM (textMergeOne maxStr names)
      let rec ← names.mapM (lastField recs.flatten)
      .ok [rec]

/-- Body of the page loop (SDDS.py:377-397) for one page that is not past the end. -/
def Reader.textPage (r : Reader) (c : Conv) (all wanted : Bool) (p : TPos) (acc : Pages) : Except PyErr (Pages × TPos) := do
  let (pd, p1) ← r.textParams c r.paramKeys [] p
  let acc1 ← if wanted then do
      let pg ← textMerge r.maxStr r.paramKeys pd
      .ok { acc with params := acc.params ++ [pg] }
    else .ok acc
  let rc ← r.textRowCount pd p1
  if rc = some 0 then .ok (acc1, p1)
  else if all || wanted then do
    let (cd, p2) ← r.textCols c rc p1
    .ok ({ acc1 with cols := acc1.cols ++ [cd.rows] }, p2)
  else do
    let size ← itemSize (r.colKeys.headD [])
    match rc with
    | none => .error .typeError
    | some n => if n < 0 then .error .notModelled else .ok (acc1, { p1 with position := p1.position + size * n.toNat })

/-- The page loop (SDDS.py:363-397). -/
def Reader.textLoop (r : Reader) (c : Conv) (sel : Option (List Nat)) : Nat → Nat → TPos → Pages → Option (Except PyErr Pages)
  | 0, _, _, _ => none
  | fuel + 1, page, p, acc =>
    if pastPages sel page then some (.ok acc)
    else if r.textEnd p then some (.ok acc)
    else
      match r.textPage c sel.isNone (wantedPage sel page) p acc with
      | .error e => some (.error e)
      | .ok (acc', p') => r.textLoop c sel fuel (page + 1) p' acc'

/-- `read(pages)` for ASCII files (SDDS.py:324-401). -/
def Reader.readText (r : Reader) (c : Conv) (fuel : Nat) (sel : Option (List Nat)) : Option (Except PyErr Pages) :=
  if sel = some [] then some (.error .valueError)
  else
    let p0 : TPos := ⟨if r.buffer then r.lineCount else 0, fileLines (r.file.drop r.headerEnd)⟩
    match r.textLoop c sel fuel 0 p0 ⟨[], []⟩ with
    | none => none
    | some (.error e) => some (.error e)
    | some (.ok pg) => some do
      let ps ← concat pg.params
      let cs ← concat pg.cols
      .ok ⟨ps, cs⟩

end Verif.Sdds
