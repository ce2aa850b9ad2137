import Verif.Sdds.LemmasAsciiWrite2
import Verif.Sdds.PropsAscii
import Verif.Sdds.PropsWrite
import Mathlib.Data.List.TakeWhile

/-!
# Property C108: saving and reading ASCII SDDS files
-/

namespace Verif.Sdds

/-- The first line of the data: the first parameter with data, or the number of rows. -/
def firstLine (ft : FloatText) (w : Writer) (rows : Nat) : Option Str := ((w.params.filterMap WParam.data).map (dataText ft) ++ [natStr rows]).head?

theorem firstLine_page {env : Env} {sci : Sci} {c : Conv} {m : Nat} {w : Writer} {rows : Nat} (h : w.TextOk env sci c m rows) :
    ((textPageT env sci w rows).lines (textLayout w)).head? = (firstLine env.ft w rows).map utf8 := by
  unfold firstLine TPage.lines
  have hp : (textPageT env sci w rows).params = ((w.params.filterMap WParam.data).map (dataText env.ft)).map utf8 := by
    unfold textPageT
    simp only
    generalize w.params = ps
    induction ps with
    | nil => rfl
    | cons p ps ih =>
      cases hd : p.data with
      | none => simp only [List.filterMap_cons, hd, Option.map_none, ih]
      | some v => simp only [List.filterMap_cons, hd, Option.map_some, List.map_cons, ih]
  have hlen : (textPageT env sci w rows).rows.length = rows := by
    show ((List.range rows).map _).length = rows
    rw [List.length_map, List.length_range]
  rw [hp, hlen]
  cases hd : (w.params.filterMap WParam.data).map (dataText env.ft) with
  | cons s ss => rfl
  | nil =>
    have hc : ¬ (textLayout w).cols.isEmpty = true := by
      intro h1
      have h0 : w.cols = [] := List.map_eq_nil_iff.mp (List.isEmpty_iff.mp h1)
      rcases h.some with ⟨p, hp, hv⟩ | hc
      · obtain ⟨v, hv⟩ := Option.isSome_iff_exists.mp hv
        have := List.map_eq_nil_iff.mp hd
        exact absurd (List.mem_filterMap.mpr ⟨p, hp, hv⟩) (by rw [this]; exact List.not_mem_nil)
      · exact hc h0
    rw [if_neg hc]
    rfl

/-! Concrete writers for the examples. All floats are integers. -/

def exFloatStr (x : F64) : Str := match truncF64 x with
  | .ok i => intStr i
  | .error _ => ['0']

def exEnvA : Env := ⟨⟨fun x => exFloatStr x ++ ".0".toList, fun _ => .error .valueError⟩, fun _ => .error .structError,
  fun d e x => match d, e with
    | .i32, .f64 => (intF64 (ofBits 4 x)).toNat
    | .i16, .f64 => (intF64 (ofBits 2 x)).toNat
    | _, _ => 0⟩

def exSci : Sci := fun d x => (match d with
  | .f64 => exFloatStr (BitVec.ofNat 64 x)
  | .i32 => intStr (ofBits 4 x)
  | _ => intStr (ofBits 2 x)) ++ ".0e+00".toList

def exConvA : Conv := ⟨fun s => (parseInt (s.takeWhile (· ≠ '.'))).map intF64, fun x => x.toNat % 2 ^ 32⟩

theorem exConvA_law : exConvA.IntLaw := by
  intro i h1 h2
  refine ⟨intF64 i, ?_, (truncF64_iff _ _).1 (truncF64_int i h1 h2)⟩
  have hno : (intStr i).takeWhile (· ≠ '.') = intStr i := by
    rw [List.takeWhile_eq_self_iff]
    intro ch hch
    by_contra hh
    have hd : ch = '.' := by simpa using hh
    subst hd
    have := parseInt_point hch
    rw [parseInt_intStr] at this
    cases this
  simp only [exConvA, hno, parseInt_intStr, Except.map]

/-- Parameters of all types, and columns of three types. -/
def exWriterA : Writer where
  params :=
    [{ name := "note".toList, type := "string".toList, data := some (.str "a b".toList) },
     { name := "charge".toList, type := "double".toList, data := some (.float (intF64 (-5))), units := "C".toList },
     { name := "turn".toList, type := "long".toList, data := some (.int (-3)) },
     { name := "n".toList, type := "short".toList, data := some (.int 7) },
     { name := "code".toList, type := "string".toList, fixed := some (.str "rs beams, v=1".toList) }]
  cols :=
    [{ name := "x".toList, type := "double".toList, dtype := .f64, data := [(intF64 1).toNat, (intF64 (-2)).toNat], units := "m".toList },
     { name := "id".toList, type := "long".toList, dtype := .i32, data := [4294967292, 8] },
     { name := "k".toList, type := "short".toList, dtype := .i16, data := [65535, 0] }]

instance (w : Writer) : Decidable w.Names :=
  decidable_of_iff ((rowCountsName :: (w.params.filter (·.data.isSome)).map WParam.name).Nodup ∧ (w.cols.map WCol.name).Nodup ∧
      (∀ p ∈ w.params, p.name ≠ recLenName) ∧ ∀ c ∈ w.cols, c.name ≠ recLenName)
    ⟨fun h => ⟨h.1, h.2.1, h.2.2.1, h.2.2.2⟩, fun h => ⟨h.params, h.cols, h.resParams, h.resCols⟩⟩

theorem exWriterA_header : HeaderOk exEnvA.ft exWriterA where
  params := by decide +kernel
  cols := by decide +kernel
  fixed := by
    intro p hp v hv ht
    simp only [exWriterA, List.mem_cons, List.not_mem_nil, or_false] at hp
    rcases hp with rfl | rfl | rfl | rfl | rfl
    · cases hv
    · cases hv
    · cases hv
    · cases hv
    · cases hv
      exact ⟨rfl, by decide +kernel⟩

theorem exWriterA_ok : exWriterA.TextOk exEnvA exSci exConvA 50 2 where
  toNames := by decide +kernel
  header := exWriterA_header
  noReturn := by decide +kernel
  storable := by
    intro p hp
    simp only [exWriterA, List.mem_cons, List.not_mem_nil, or_false] at hp
    rcases hp with rfl | rfl | rfl | rfl | rfl
    · exact Or.inl ⟨.str "a b".toList, rfl, ⟨rfl, by unfold Ascii; decide, by decide +kernel, by decide, by decide⟩, by simp⟩
    · exact Or.inl ⟨.float (intF64 (-5)), rfl, ⟨rfl, by unfold Ascii; decide +kernel, by decide +kernel, by decide +kernel⟩, by simp⟩
    · exact Or.inl ⟨.int (-3), rfl, .inl ⟨rfl, by decide, by decide⟩, by simp⟩
    · exact Or.inl ⟨.int 7, rfl, .inr ⟨rfl, by decide, by decide⟩, by simp⟩
    · exact Or.inr ⟨.str "rs beams, v=1".toList, rfl, rfl, rfl, rfl, by decide +kernel⟩
  keptParams := by decide +kernel
  keptCols := by decide +kernel
  has := by
    intro c hc
    simp only [exWriterA, List.mem_cons, List.not_mem_nil, or_false] at hc
    rcases hc with rfl | rfl | rfl
    · refine ⟨.double, rfl, rfl, ?_⟩
      intro x hx
      simp only [List.mem_cons, List.not_mem_nil, or_false] at hx
      rcases hx with rfl | rfl <;> exact ⟨by decide +kernel, by unfold Ascii; decide +kernel, by decide +kernel, by
        show exConvA.parse _ = _
        decide +kernel⟩
    · refine ⟨.long, rfl, rfl, ?_⟩
      intro x hx
      simp only [List.mem_cons, List.not_mem_nil, or_false] at hx
      rcases hx with rfl | rfl
      · exact ⟨by decide +kernel, by unfold Ascii; decide +kernel, by decide +kernel, intF64 (-4), by decide +kernel, (truncF64_iff _ _).1 (by decide +kernel)⟩
      · exact ⟨by decide +kernel, by unfold Ascii; decide +kernel, by decide +kernel, intF64 8, by decide +kernel, (truncF64_iff _ _).1 (by decide +kernel)⟩
    · refine ⟨.short, rfl, rfl, ?_⟩
      intro x hx
      simp only [List.mem_cons, List.not_mem_nil, or_false] at hx
      rcases hx with rfl | rfl
      · exact ⟨by decide +kernel, by unfold Ascii; decide +kernel, by decide +kernel, intF64 (-1), by decide +kernel, (truncF64_iff _ _).1 (by decide +kernel)⟩
      · exact ⟨by decide +kernel, by unfold Ascii; decide +kernel, by decide +kernel, intF64 0, by decide +kernel, (truncF64_iff _ _).1 (by decide +kernel)⟩
  lengths := by decide +kernel
  noCols := by decide +kernel
  short := by decide
  some := Or.inr (by decide +kernel)

/-- One column of the given type, and a parameter with two digits if wanted. -/
def exWriterB (type : Str) (dtype : ADType) (data : List Nat) (param : Bool) : Writer where
  params := if param then [{ name := "turn".toList, type := "long".toList, data := some (.int 12) }] else []
  cols := [{ name := "id".toList, type := type, dtype := dtype, data := data }]

theorem exWriterB_ok {type : Str} {dtype : ADType} {data : List Nat} {param : Bool}
    (h : (type = "long".toList ∧ dtype = .i32 ∨ type = "double".toList ∧ dtype = .f64) ∧ (data = [] ∨ data = [0])) :
    (exWriterB type dtype data param).TextOk exEnvA exSci exConvA 50 data.length where
  toNames := by obtain ⟨⟨rfl, rfl⟩ | ⟨rfl, rfl⟩, rfl | rfl⟩ := h <;> cases param <;> decide +kernel
  header := by
    obtain ⟨⟨rfl, rfl⟩ | ⟨rfl, rfl⟩, rfl | rfl⟩ := h <;> cases param <;> refine ⟨by decide +kernel, by decide +kernel, ?_⟩ <;>
    · intro p hp v hv
      first | (rw [List.mem_singleton.mp hp] at hv; cases hv) | cases hp
  noReturn := by obtain ⟨⟨rfl, rfl⟩ | ⟨rfl, rfl⟩, rfl | rfl⟩ := h <;> cases param <;> decide +kernel
  storable := by
    intro p hp
    cases param with
    | false => cases hp
    | true =>
      rw [List.mem_singleton.mp hp]
      exact Or.inl ⟨.int 12, rfl, .inl ⟨rfl, by decide, by decide⟩, by simp⟩
  keptParams := by obtain ⟨⟨rfl, rfl⟩ | ⟨rfl, rfl⟩, rfl | rfl⟩ := h <;> cases param <;> decide +kernel
  keptCols := by obtain ⟨⟨rfl, rfl⟩ | ⟨rfl, rfl⟩, rfl | rfl⟩ := h <;> cases param <;> decide +kernel
  has := by
    intro c hc
    rw [List.mem_singleton.mp hc]
    have hst : stackType (exWriterB type dtype data param).cols = dtype := rfl
    unfold WCol.TextHas
    rw [hst]
    obtain ⟨⟨rfl, rfl⟩ | ⟨rfl, rfl⟩, rfl | rfl⟩ := h
    · exact ⟨.long, rfl, rfl, fun x hx => by cases hx⟩
    · refine ⟨.long, rfl, rfl, fun x hx => ?_⟩
      rw [List.mem_singleton.mp hx]
      exact ⟨by decide +kernel, by unfold Ascii; decide +kernel, by decide +kernel, intF64 0, by decide +kernel, (truncF64_iff _ _).1 (by decide +kernel)⟩
    · exact ⟨.double, rfl, rfl, fun x hx => by cases hx⟩
    · refine ⟨.double, rfl, rfl, fun x hx => ?_⟩
      rw [List.mem_singleton.mp hx]
      exact ⟨by decide +kernel, by unfold Ascii; decide +kernel, by decide +kernel, by
        show exConvA.parse _ = _
        decide +kernel⟩
  lengths := by
    intro c hc
    rw [List.mem_singleton.mp hc]
  noCols := by intro h0; cases h0
  short := by obtain ⟨_, rfl | rfl⟩ := h <;> decide
  some := Or.inr (by simp [exWriterB])

/-- **C108.** An ASCII file that was saved is read back: the same names in the same order, the same parameters and the same table, also
with columns of different types. Proved for tables that have at least one row and, if they have a single column, doubles; without buffer the
first line of the data must have a second character that is not white space. The text of numbers must be read back by `float`. -/
theorem ascii_save_read_partial {env : Env} {sci : Sci} {c : Conv} (hc : c.IntLaw) {maxStr : Nat} {w : Writer} {rows : Nat}
    (h : w.TextOk env sci c maxStr rows) (hr : w.cols ≠ [] → 0 < rows) (hs : ∀ col, w.cols = [col] → col.type = "double".toList)
    {fuel : Nat} (hfuel : w.params.length + w.cols.length + 4 ≤ fuel) (buffer : Bool)
    (hb : buffer = false → ∃ s, firstLine env.ft w rows = some s ∧ ∃ b ∈ (utf8 s).tail, isSpaceByte b = false) :
    ∃ r, openSdds env.ft fuel buffer maxStr (saveAscii env sci w) = some (.ok r) ∧
      r.readText c fuel none = some (.ok ⟨[[savedTextParams w rows]], if w.cols = [] then [] else [savedTextRows w rows]⟩) := by
  rw [saveAscii_file h hr]
  have hlen : ∀ pg ∈ [textPageV w rows], pg.rows.length = rows := by
    intro pg hpg
    rw [List.mem_singleton.mp hpg]
    show ((List.range rows).map _).length = rows
    rw [List.length_map, List.length_range]
  have hfl : buffer = false → ∀ t ∈ [textPageT env sci w rows], t.FirstLine (textLayout w) := by
    intro hbuf t ht
    rw [List.mem_singleton.mp ht]
    obtain ⟨s, e1, b, hb1, hb2⟩ := hb hbuf
    refine ⟨utf8 s, ?_, b, hb1, hb2⟩
    rw [firstLine_page h, e1]
    rfl
  obtain ⟨r, h1, h2⟩ := ascii_read_partial (textLayout_announced h) (textLayout_ok h) hc (.cons (textPage_holds h hs) .nil) (n := rows)
    (fun hc => ⟨hr fun h0 => hc (by unfold textLayout; rw [h0]; rfl), hlen⟩) (fuel := fuel) (by simp [docText, docOf]; omega) buffer
    (fun _ => Or.inr (by simp)) hfl
  · refine ⟨r, h1, ?_⟩
    rw [h2]
    simp only [List.map_cons, List.map_nil, textParamRecord_saved, rowRecords_saved]
    congr 3
    by_cases h0 : w.cols = []
    · rw [if_pos h0, if_pos (by unfold textLayout; rw [h0]; rfl)]
    · have h3 : ¬ (textLayout w).cols.isEmpty = true := fun h1 => h0 (List.map_eq_nil_iff.mp (List.isEmpty_iff.mp h1))
      rw [if_neg h0, if_neg h3]

example : ∃ r, openSdds exEnvA.ft 20 false 50 (saveAscii exEnvA exSci exWriterA) = some (.ok r) ∧
    r.readText exConvA 20 none = some (.ok ⟨
      [[[("note".toList, .str [97, 32, 98]), ("charge".toList, .num .double (intF64 (-5)).toNat), ("turn".toList, .num .long 4294967293),
         ("n".toList, .num .short 7), ("row_counts".toList, .num .long 2)]]],
      [[[("x".toList, .num .double (intF64 1).toNat), ("id".toList, .num .long 4294967292), ("k".toList, .num .short 65535)],
        [("x".toList, .num .double (intF64 (-2)).toNat), ("id".toList, .num .long 8), ("k".toList, .num .short 0)]]]⟩) :=
  ascii_save_read_partial exConvA_law exWriterA_ok (by decide) (fun col hc => by cases hc) (by decide) false
    fun _ => ⟨"a b".toList, rfl, 98, by decide, by decide⟩

/-- **C108 is false without buffer** if the first line of the data has one character, such as a file without parameters and fewer than ten
rows, or with a first parameter of one digit: nothing is read. -/
theorem ascii_save_short_fails {env : Env} {sci : Sci} {c : Conv} {maxStr : Nat} {w : Writer} {rows : Nat}
    (h : w.TextOk env sci c maxStr rows) (hr : w.cols ≠ [] → 0 < rows) {ch : Char} (hch : ch.toNat < 128) (hn : ch ≠ '\n')
    (h1 : firstLine env.ft w rows = some [ch]) {fuel : Nat} (hfuel : w.params.length + w.cols.length + 3 ≤ fuel) :
    ∃ r, openSdds env.ft fuel false maxStr (saveAscii env sci w) = some (.ok r) ∧
      ∀ fuel', r.readText c (fuel' + 1) none = some (.ok ⟨[], []⟩) := by
  rw [saveAscii_file h hr]
  have hb : utf8 [ch] = [UInt8.ofNat ch.toNat] := by
    rw [utf8_ascii (fun x hx => by rw [List.mem_singleton.mp hx]; exact hch)]
    rfl
  refine ascii_short_line_fails (textLayout_announced h) c (b := UInt8.ofNat ch.toNat) ?_ ?_ maxStr (by simp [docText, docOf]; omega)
  · intro he
    have := congrArg UInt8.toNat he
    rw [UInt8.toNat_ofNat', Nat.mod_eq_of_lt (by omega)] at this
    exact hn (Char.toNat_inj.mp this)
  · rw [firstLine_page h, h1, Option.map_some, hb]

example : ∃ r, openSdds exEnvA.ft 20 false 50 (saveAscii exEnvA exSci (exWriterB "double".toList .f64 [0] false)) = some (.ok r) ∧
    ∀ fuel', r.readText exConvA (fuel' + 1) none = some (.ok ⟨[], []⟩) :=
  ascii_save_short_fails (rows := 1) (exWriterB_ok ⟨.inr ⟨rfl, rfl⟩, .inr rfl⟩) (by decide) (ch := '1') (by decide) (by decide)
    (by decide +kernel) (by decide)

/-- **C108 is false for a table with a single column of integers:** `np.savetxt` writes them with a decimal point, and reading raises
ValueError. -/
theorem ascii_save_integers_fails {env : Env} {sci : Sci} {c : Conv} {maxStr : Nat} {w : Writer} {rows : Nat}
    (h : w.TextOk env sci c maxStr rows) {col : WCol} (hcol : w.cols = [col]) (ht : col.type = "long".toList ∨ col.type = "short".toList)
    {x : Nat} {xs : List Nat} (hx : col.data = x :: xs) (hp : '.' ∈ sci col.dtype x) (hu : '_' ∉ sci col.dtype x)
    {fuel : Nat} (hfuel : w.params.length + w.cols.length + 3 ≤ fuel) (buffer : Bool)
    (hb : buffer = false → ∃ s, firstLine env.ft w rows = some s ∧ ∃ b ∈ (utf8 s).tail, isSpaceByte b = false) :
    ∃ r, openSdds env.ft fuel buffer maxStr (saveAscii env sci w) = some (.ok r) ∧
      ∀ fuel', r.readText c (fuel' + 1) none = some (.error .valueError) := by
  have hrows : rows = xs.length + 1 := by
    rw [← h.lengths col (by rw [hcol]; simp), hx]
    rfl
  subst hrows
  rw [saveAscii_file h fun _ => Nat.succ_pos _]
  obtain ⟨r, h1, h2, h3, h4, h5, h6, h7⟩ := open_text (textLayout_announced h)
    (asLines ([textPageT env sci w (xs.length + 1)].flatMap (TPage.lines (textLayout w)))) (fuel := fuel) (by simp [docText, docOf]; omega)
    buffer maxStr
  refine ⟨r, h1, ?_⟩
  intro fuel'
  subst h6 h7
  obtain ⟨t, hn, ht'⟩ : ∃ t, numType col.type = some t ∧ (t = .long ∨ t = .short) := by
    rcases ht with ht | ht <;> rw [ht]
    · exact ⟨.long, by decide, .inl rfl⟩
    · exact ⟨.short, by decide, .inr rfl⟩
  have hleft := Reader.left_start (r := r) (docText_ok h.header) (textLayout_announced h).noReturn
    (ls := (textPageT env sci w (xs.length + 1)).lines (textLayout w)) (TPage.lines_ok (textPage_paramText h) (textPage_rowText h))
    (by rw [h3]; simp) h4 h5
  have hpos : r.TPosOk ⟨if r.buffer then r.lineCount else 0, fileLines (r.file.drop r.headerEnd)⟩ := by
    intro hb'
    simp [hb']
  have hne : (textPageT env sci w (xs.length + 1)).rows ≠ [] := by
    intro h0
    have := congrArg List.length h0
    have hlen : (textPageT env sci w (xs.length + 1)).rows.length = xs.length + 1 := by
      show ((List.range _).map _).length = _
      rw [List.length_map, List.length_range]
    rw [hlen] at this
    cases this
  refine Reader.readText_error fuel' ?_ ?_
  · refine Reader.textEnd_page hpos (l := textLayout w) (t := textPageT env sci w (xs.length + 1)) ?_ ?_ (rest := []) (by rw [hleft, List.append_nil])
    · intro h0
      have := firstLine_page h
      rw [h0] at this
      unfold firstLine at this
      simp at this
    · intro hbuf
      obtain ⟨s, e1, b, hb1, hb2⟩ := hb hbuf
      refine ⟨utf8 s, ?_, b, hb1, hb2⟩
      rw [firstLine_page h, e1]
      rfl
  · refine Reader.textPage_colError h2 (textLayout_ok h) (t := textPageT env sci w (xs.length + 1)) (t' := zeroPage (textPageT env sci w (xs.length + 1))) (zeroPage_holds h hcol ht' hn) rfl
      (by unfold zeroPage; rw [List.length_map]) hne _ hpos [] (by rw [hleft, List.append_nil]) _ ?_
    have hrw : (textPageT env sci w (xs.length + 1)).rows =
        (utf8 (sci col.dtype x) :: xs.map fun y => utf8 (sci col.dtype y)).map fun s => [s] := by
      have : (textPageT env sci w (xs.length + 1)).rows = (col.data.map fun y => utf8 (sci col.dtype y)).map fun s => [s] := by
        unfold textPageT rowWords
        rw [hcol]
        simp only [stackType, castTo, if_true, List.map_cons, List.map_nil]
        rw [List.map_map, show xs.length + 1 = col.data.length by rw [hx]; rfl]
        refine List.ext_getElem (by simp) ?_
        intro i hi1 hi2
        simp only [List.length_map, List.length_range] at hi1
        simp [List.getElem?_eq_getElem hi1]
      rw [this, hx]
      rfl
    have hcols : (textLayout w).cols = [(col.name, .num t)] := by
      unfold textLayout
      rw [hcol]
      simp only [List.map_cons, List.map_nil, hn, Option.getD_some]
    have hword := textPage_rowText h
    rw [hrw] at hword
    have hasc : Ascii (sci col.dtype x) := by
      obtain ⟨t, _, _, g⟩ := h.has col (by rw [hcol]; simp)
      have := (g x (by rw [hx]; simp)).2.1
      rw [hcol] at this
      simpa only [stackType, castTo, if_true] using this
    rw [hcols, hrw, List.length_map, List.map_map]
    refine genfromtxt_int_error (f := (col.name, .num t)) (h.keptCols col (by rw [hcol]; simp)) (by rcases ht' with rfl | rfl <;> simp) ?_ ?_ r.tail ?_ []
    · intro y hy
      exact hword [y] (List.mem_map.mpr ⟨y, hy, rfl⟩) y (by simp)
    · rw [latin1_utf8 hasc]
      exact pyInt_point hp hu
    · unfold Reader.tail
      cases r.buffer <;> simp

example : ∃ r, openSdds exEnvA.ft 20 true 50 (saveAscii exEnvA exSci (exWriterB "long".toList .i32 [0] true)) = some (.ok r) ∧
    ∀ fuel', r.readText exConvA (fuel' + 1) none = some (.error .valueError) :=
  ascii_save_integers_fails (rows := 1) (exWriterB_ok ⟨.inl ⟨rfl, rfl⟩, .inr rfl⟩) rfl (.inl rfl) rfl (by decide +kernel) (by decide +kernel)
    (by decide) true (by simp)

/-- **C108 is false for columns without rows:** the line with the number of rows is left out, but the reader wants it. With a parameter
that has data, reading raises ValueError. -/
theorem ascii_save_empty_fails {env : Env} {sci : Sci} {c : Conv} {maxStr : Nat} {w : Writer} (h : w.TextOk env sci c maxStr 0)
    (hc : w.cols ≠ []) {p : WParam} (hp : p ∈ w.params) (hv : p.data.isSome = true)
    {fuel : Nat} (hfuel : w.params.length + w.cols.length + 3 ≤ fuel) (buffer : Bool)
    (hb : buffer = false → ∃ s, firstLine env.ft w 0 = some s ∧ ∃ b ∈ (utf8 s).tail, isSpaceByte b = false) :
    ∃ r, openSdds env.ft fuel buffer maxStr (saveAscii env sci w) = some (.ok r) ∧
      ∀ fuel', r.readText c (fuel' + 1) none = some (.error .valueError) := by
  rw [saveAscii_noRows h]
  obtain ⟨r, h1, h2, h3, h4, h5, h6, h7⟩ := open_text (textLayout_announced h) (asLines (textPageT env sci w 0).params) (fuel := fuel)
    (by simp [docText, docOf]; omega) buffer maxStr
  refine ⟨r, h1, ?_⟩
  intro fuel'
  subst h6 h7
  have hl : (⟨(textPageT env sci w 0).params, []⟩ : TPage).lines ⟨(textLayout w).params, []⟩ = (textPageT env sci w 0).params := by
    unfold TPage.lines
    simp
  have hleft := Reader.left_start (r := r) (docText_ok h.header) (textLayout_announced h).noReturn (ls := (textPageT env sci w 0).params)
    (fun x hx => ⟨(textPage_paramText h x hx).oneLine, (textPage_paramText h x hx).noComment⟩) h3 h4 h5
  have hpos : r.TPosOk ⟨if r.buffer then r.lineCount else 0, fileLines (r.file.drop r.headerEnd)⟩ := by
    intro hb'
    simp [hb']
  obtain ⟨v, hv⟩ := Option.isSome_iff_exists.mp hv
  have hmem : utf8 (dataText env.ft v) ∈ (textPageT env sci w 0).params := List.mem_filterMap.mpr ⟨p, hp, by rw [hv]; rfl⟩
  have hmem' : (p.name, textType p.type v) ∈ (textLayout w).params := List.mem_filterMap.mpr ⟨p, hp, by rw [hv]; rfl⟩
  refine Reader.readText_error fuel' ?_ ?_
  · refine Reader.textEnd_page hpos (l := ⟨(textLayout w).params, []⟩) (t := ⟨(textPageT env sci w 0).params, []⟩) ?_ ?_ (rest := [])
      (by rw [hl, hleft, List.append_nil])
    · rw [hl]
      exact List.ne_nil_of_mem hmem
    · intro hbuf
      obtain ⟨s, e1, b, hb1, hb2⟩ := hb hbuf
      refine ⟨utf8 s, ?_, b, hb1, hb2⟩
      have e2 := firstLine_page h
      rw [e1] at e2
      unfold TPage.lines at e2
      rw [List.head?_append_of_ne_nil _ (List.ne_nil_of_mem hmem)] at e2
      rw [hl, e2]
      rfl
  · exact Reader.textPage_missing h2 (textLayout_ok h) (fun h0 => hc (List.map_eq_nil_iff.mp h0)) (List.ne_nil_of_mem hmem')
      (textPage_paramText h) (textParams_denote _ h.storable) _ hpos hleft _

example : ∃ r, openSdds exEnvA.ft 20 false 50 (saveAscii exEnvA exSci (exWriterB "double".toList .f64 [] true)) = some (.ok r) ∧
    ∀ fuel', r.readText exConvA (fuel' + 1) none = some (.error .valueError) :=
  ascii_save_empty_fails (exWriterB_ok ⟨.inr ⟨rfl, rfl⟩, .inl rfl⟩) (by decide) (List.mem_cons_self) rfl (by decide) false
    fun _ => ⟨"12".toList, by decide +kernel, 50, by decide, by decide⟩

end Verif.Sdds
