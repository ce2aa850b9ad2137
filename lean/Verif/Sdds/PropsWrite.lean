import Verif.Sdds.LemmasWrite2
import Verif.Sdds.PropsRead

/-!
# Properties C01-C05 and C15: saving SDDS files
-/

namespace Verif.Sdds

/-! Concrete writers for the examples. -/

instance (s : Str) : Decidable (CleanText s) :=
  decidable_of_iff (Ascii s ∧ '\n' ∉ s ∧ '"' ∉ s ∧ '\\' ∉ s ∧ s.getLast? ≠ some ',')
    ⟨fun h => ⟨h.1, h.2.1, h.2.2.1, h.2.2.2.1, fun x hx hc => h.2.2.2.2 (by rw [hx, hc])⟩,
     fun h => ⟨h.ascii, h.line, h.noQuote, h.noEsc, fun hc => h.noComma _ hc rfl⟩⟩

instance (s : Str) : Decidable (CleanWord s) :=
  decidable_of_iff (CleanText s ∧ s ≠ [] ∧ ∀ c ∈ s, lexSpace c = false)
    ⟨fun h => ⟨h.1, h.2.1, h.2.2⟩, fun h => ⟨h.toCleanText, h.ne, h.noSpace⟩⟩

instance (p : WParam) : Decidable p.Clean :=
  decidable_of_iff (CleanWord p.name ∧ p.type ∈ writeTypes ∧ CleanText p.units ∧ CleanText p.symbol ∧
      CleanText p.formatStr ∧ CleanText p.description)
    ⟨fun h => ⟨h.1, h.2.1, h.2.2.1, h.2.2.2.1, h.2.2.2.2.1, h.2.2.2.2.2⟩,
     fun h => ⟨h.name, h.type, h.units, h.symbol, h.formatStr, h.description⟩⟩

instance (c : WCol) : Decidable c.Clean :=
  decidable_of_iff (CleanWord c.name ∧ c.type ∈ writeTypes ∧ CleanText c.units ∧ CleanText c.symbol ∧
      CleanText c.formatStr ∧ CleanText c.description ∧ c.fieldLen = 0)
    ⟨fun h => ⟨h.1, h.2.1, h.2.2.1, h.2.2.2.1, h.2.2.2.2.1, h.2.2.2.2.2.1, h.2.2.2.2.2.2⟩,
     fun h => ⟨h.name, h.type, h.units, h.symbol, h.formatStr, h.description, h.fieldLen⟩⟩

/-- An environment for examples; the double with bit pattern `0x4014000000000000` is 5.0. -/
def exEnv : Env := ⟨exText, fun _ => .error .structError, fun _ _ x => if x = 5 then 0x4014000000000000 else 0⟩

/-- A writer with a double, an integer and a fixed text, and two columns of two rows. -/
def exWriter : Writer where
  params :=
    [{ name := "charge".toList, type := "double".toList, data := some (.float 7#64), units := "C".toList },
     { name := "turn".toList, type := "long".toList, data := some (.int (-3)) },
     { name := "code".toList, type := "string".toList, fixed := some (.str "rs beams, v=1".toList) }]
  cols :=
    [{ name := "x".toList, type := "double".toList, dtype := .f64, data := [1, 2], units := "m".toList,
       description := "position = first, of two".toList },
     { name := "xp".toList, type := "double".toList, dtype := .f64, data := [3, 18446744073709551615] }]

theorem exWriter_header : HeaderOk exText exWriter where
  params := by decide +kernel
  cols := by decide +kernel
  fixed := by
    intro p hp v hv ht
    simp only [exWriter, List.mem_cons, List.not_mem_nil, or_false] at hp
    rcases hp with rfl | rfl | rfl
    · cases hv
    · cases hv
    · cases hv
      exact ⟨rfl, by decide +kernel⟩

theorem exWriter_ok : exWriter.Ok exText .double 2 where
  params := by decide +kernel
  cols := by decide +kernel
  resParams := by decide +kernel
  resCols := by decide +kernel
  header := exWriter_header
  storable := by
    intro p hp
    simp only [exWriter, List.mem_cons, List.not_mem_nil, or_false] at hp
    rcases hp with rfl | rfl | rfl
    · exact Or.inl ⟨.float 7#64, rfl, rfl, by simp⟩
    · exact Or.inl ⟨.int (-3), rfl, ⟨rfl, by decide, by decide⟩, by simp⟩
    · exact Or.inr ⟨.str "rs beams, v=1".toList, rfl, rfl, rfl, rfl, by decide +kernel⟩
  has := by
    intro c hc
    simp only [exWriter, List.mem_cons, List.not_mem_nil, or_false] at hc
    rcases hc with rfl | rfl
    · exact ⟨rfl, rfl, by decide⟩
    · exact ⟨rfl, rfl, by decide⟩
  lengths := by decide +kernel
  noCols := by decide +kernel
  short := by decide

/-- **C01.** Saving in binary mode does not raise, and opening and reading the file gives the
same names, in the same order, and the same values bit for bit. Proved when all columns have the
same type (`save_read_mixed_fails` shows the other case), row counts below 2^31 and, for
unbuffered reading, a row count whose second byte is not white space. -/
theorem save_read_partial {env : Env} {w : Writer} {t : FType} {rows : Nat} (h : w.Ok env.ft t rows) {fuel : Nat}
    (hfuel : w.params.length + w.cols.length + 3 ≤ fuel) (buffer : Bool) (maxStr : Nat)
    (hb : buffer = false → isSpaceByte (UInt8.ofNat (rows / 256)) = false) :
    (saveBinary env w).2 = none ∧
    ∃ r, openSdds env.ft fuel buffer maxStr (saveBinary env w).1 = some (.ok r) ∧
      r.params.map ParamField.name = w.params.map WParam.name ∧
      r.cols.map ColField.name = w.cols.map WCol.name ∧
      r.read fuel none = some (.ok ⟨[[savedParams w rows]],
        if rows = 0 ∨ w.cols = [] then [] else [savedRows w t rows]⟩) := by
  refine ⟨by rw [saveBinary_ok h], ?_⟩
  obtain ⟨r, h1, h2, h3, h4⟩ := save_open_read h hfuel buffer maxStr hb
  refine ⟨r, h1, ?_, ?_, h4⟩
  · rw [h2, List.map_map]; rfl
  · rw [h3, List.map_map]; rfl

example : (saveBinary exEnv exWriter).2 = none ∧
    ∃ r, openSdds exText 10 false 100 (saveBinary exEnv exWriter).1 = some (.ok r) ∧
      r.params.map ParamField.name = ["charge".toList, "turn".toList, "code".toList] ∧
      r.cols.map ColField.name = ["x".toList, "xp".toList] ∧
      r.read 10 none = some (.ok ⟨
        [[[("row_counts".toList, .num .long 2), ("charge".toList, .num .double 7),
           ("turn".toList, .num .long 4294967293)]]],
        [[[("x".toList, .num .double 1), ("xp".toList, .num .double 3)],
          [("x".toList, .num .double 2), ("xp".toList, .num .double 18446744073709551615)]]]⟩) :=
  save_read_partial (env := exEnv) exWriter_ok (by decide) false 100 (by decide)

/-- Integers come back as the same integers. -/
theorem dataVal_int {i : Int} (h1 : -2147483648 ≤ i) (h2 : i < 2147483648) :
    dataVal (.int i) = .num .long (toBits 4 i) ∧ ofBits 4 (toBits 4 i) = i := by
  refine ⟨rfl, ?_⟩
  unfold toBits ofBits
  rw [show (256 ^ 4 : Nat) = 4294967296 from rfl]
  split_ifs <;> omega

example : dataVal (.int (-5)) = .num .long 4294967291 := (dataVal_int (i := -5) (by norm_num) (by norm_num)).1

/-- Whatever happens later, the file starts with the header. -/
theorem saveBinary_starts (env : Env) {w : Writer} (h : stackRows w.cols ≠ none) :
    ∃ body, (saveBinary env w).1 = utf8 (headerText env.ft w "binary".toList) ++ body := by
  unfold saveBinary
  cases hr : stackRows w.cols with
  | none => exact absurd hr h
  | some rows =>
    simp only
    split_ifs with h1
    · exact ⟨[], by simp⟩
    · cases hp : (packParams env w.params).2 with
      | none => simp only; exact ⟨leBytes 4 rows ++ ((packParams env w.params).1 ++ tableBytes env w.cols rows), by simp⟩
      | some e => simp only; exact ⟨leBytes 4 rows ++ (packParams env w.params).1, by simp⟩

/-- A double and a long column, both with arrays of the declared type. -/
def exMixed : Writer where
  cols :=
    [{ name := "x".toList, type := "double".toList, dtype := .f64, data := [1] },
     { name := "id".toList, type := "long".toList, dtype := .i32, data := [5] }]

/-- **C01, false for columns of different types.** `np.column_stack` turns the integers into
doubles; the file cannot be read back. -/
theorem save_read_mixed_fails : (saveBinary exEnv exMixed).2 = none ∧
    ∃ r, openSdds exText 10 true 100 (saveBinary exEnv exMixed).1 = some (.ok r) ∧
      r.read 10 none = some (.error .valueError) := by
  refine ⟨by decide +kernel, ?_⟩
  have hh : HeaderOk exText exMixed := ⟨by decide +kernel, by decide +kernel, by intro p hp; cases hp⟩
  have key : (match openSdds exText 10 true 100 (saveBinary exEnv exMixed).1 with
      | some (.ok r) => r.read 10 none
      | _ => none) = some (.error .valueError) := by decide +kernel
  obtain ⟨body, hb⟩ := saveBinary_starts exEnv (w := exMixed) (by decide)
  have hb : (saveBinary exEnv exMixed).1 = utf8 (headerText exText exMixed "binary".toList) ++ body := hb
  rw [hb] at key ⊢
  rw [open_header hh body (fuel := 10) (by decide) true 100] at key ⊢
  exact ⟨_, rfl, key⟩

theorem lastParam_unique {α β : Type} [DecidableEq β] (f : α → β) (l : List α) (h : (l.map f).Nodup) (a : α)
    (ha : a ∈ l) : (l.filter fun b => f b = f a) = [a] := by
  induction l with
  | nil => cases ha
  | cons b l ih =>
    rw [List.map_cons, List.nodup_cons] at h
    rcases List.mem_cons.mp ha with rfl | ha
    · rw [List.filter_cons_of_pos (by simp)]
      congr 1
      rw [List.filter_eq_nil_iff]
      intro c hc hcb
      exact h.1 (List.mem_map.mpr ⟨c, hc, by simpa using hcb⟩)
    · rw [List.filter_cons_of_neg, ih h.2 ha]
      intro hba
      have : f b = f a := by simpa using hba
      exact h.1 (List.mem_map.mpr ⟨a, ha, this.symm⟩)

/-- **C02.** The accessors return the units, symbol, description and format string that were
given, for clean text (`CleanText`: ASCII, one line, without double quote, backslash and final
comma) and different names, whatever the data. -/
theorem metadata_partial {env : Env} {w : Writer} (h : HeaderOk env.ft w)
    (hp : (w.params.map WParam.name).Nodup) (hc : (w.cols.map WCol.name).Nodup) (hs : stackRows w.cols ≠ none)
    {fuel : Nat} (hfuel : w.params.length + w.cols.length + 3 ≤ fuel) (buffer : Bool) (maxStr : Nat) :
    ∃ r, openSdds env.ft fuel buffer maxStr (saveBinary env w).1 = some (.ok r) ∧
      (∀ p ∈ w.params, ∃ f, r.param p.name = .ok f ∧ f.units = p.units ∧ f.symbol = p.symbol ∧
        f.description = p.description ∧ f.formatString = p.formatStr ∧ f.type = p.type) ∧
      (∀ c ∈ w.cols, ∃ f, r.col c.name = .ok f ∧ f.units = c.units ∧ f.symbol = c.symbol ∧
        f.description = c.description ∧ f.formatString = c.formatStr ∧ f.type = c.type) := by
  obtain ⟨body, hb⟩ := saveBinary_starts env hs
  rw [hb]
  refine ⟨_, open_header h body hfuel buffer maxStr, ?_, ?_⟩
  · intro p hp'
    refine ⟨readParam p, ?_, rfl, rfl, rfl, rfl, rfl⟩
    unfold Reader.param lastParam
    simp only
    have := lastParam_unique ParamField.name (w.params.map readParam) (by rw [List.map_map]; exact hp) (readParam p)
      (List.mem_map_of_mem hp')
    have e : (readParam p).name = p.name := rfl
    rw [e] at this
    rw [this]
    rfl
  · intro c hc'
    refine ⟨readCol c, ?_, rfl, rfl, rfl, rfl, rfl⟩
    unfold Reader.col lastCol
    simp only
    have := lastParam_unique ColField.name (w.cols.map readCol) (by rw [List.map_map]; exact hc) (readCol c)
      (List.mem_map_of_mem hc')
    have e : (readCol c).name = c.name := rfl
    rw [e] at this
    rw [this]
    rfl

example : ∃ r, openSdds exText 10 true 100 (saveBinary exEnv exWriter).1 = some (.ok r) ∧
      (∀ p ∈ exWriter.params, ∃ f, r.param p.name = .ok f ∧ f.units = p.units ∧ f.symbol = p.symbol ∧
        f.description = p.description ∧ f.formatString = p.formatStr ∧ f.type = p.type) ∧
      (∀ c ∈ exWriter.cols, ∃ f, r.col c.name = .ok f ∧ f.units = c.units ∧ f.symbol = c.symbol ∧
        f.description = c.description ∧ f.formatString = c.formatStr ∧ f.type = c.type) :=
  metadata_partial (env := exEnv) exWriter_header (by decide) (by decide) (by decide) (by decide) true 100

/-- What the reader makes of the units of one column. -/
def unitsBack (u : Str) : Option (Except PyErr (List Str)) :=
  (openSdds exText 10 true 100 (saveBinary exEnv { cols := [{
    name := "x".toList, type := "double".toList, dtype := .f64, data := [1], units := u }] }).1).map
    fun r => r.map fun r => r.cols.map ColField.units

/-- **C02, false for other text.** Text outside ASCII is written as UTF-8 and read as latin-1;
a double quote ends the value (an even number of them is lost, an odd number makes the file
unreadable); a backslash before a double quote or backslash is lost; final commas are lost. -/
theorem metadata_fails :
    unitsBack "µm".toList = some (.ok ["Âµm".toList]) ∧
    unitsBack "a\"b\"c".toList = some (.ok ["abc".toList]) ∧
    unitsBack "a\"b".toList = some (.error .valueError) ∧
    unitsBack "a\\\\b".toList = some (.ok ["a\\b".toList]) ∧
    unitsBack "m,".toList = some (.ok ["m".toList]) := by
  refine ⟨?_, ?_, ?_, ?_, ?_⟩ <;> decide +kernel

/-- **C03.** A parameter with a fixed value that is not zero or empty is read back with that
value and type, and the data section is the one of the same writer without it. -/
theorem fixed_value_partial {env : Env} {w : Writer} (h : HeaderOk env.ft w)
    (hn : (w.params.map WParam.name).Nodup) (hs : stackRows w.cols ≠ none)
    {fuel : Nat} (hfuel : w.params.length + w.cols.length + 3 ≤ fuel) (buffer : Bool) (maxStr : Nat)
    {p : WParam} (hp : p ∈ w.params) {v : PyVal} (hv : p.fixed = some v) (ht : v.truthy = true) (hd : p.data = none) :
    (∃ r f, openSdds env.ft fuel buffer maxStr (saveBinary env w).1 = some (.ok r) ∧
      r.param p.name = .ok f ∧ f.fixed = some (fixedVal v) ∧ f.type = p.type) ∧
    ∃ body, (saveBinary env w).1 = utf8 (headerText env.ft w "binary".toList) ++ body ∧
      (saveBinary env { w with params := w.params.filter (· ≠ p) }).1 =
        utf8 (headerText env.ft { w with params := w.params.filter (· ≠ p) } "binary".toList) ++ body := by
  constructor
  · obtain ⟨body, hb⟩ := saveBinary_starts env hs
    rw [hb]
    refine ⟨_, readParam p, open_header h body hfuel buffer maxStr, ?_, ?_, rfl⟩
    · unfold Reader.param lastParam
      simp only
      have := lastParam_unique ParamField.name (w.params.map readParam) (by rw [List.map_map]; exact hn) (readParam p)
        (List.mem_map_of_mem hp)
      have e : (readParam p).name = p.name := rfl
      rw [e] at this
      rw [this]
      rfl
    · unfold readParam
      simp only [hv, ht, if_true]
  · have hpk : ∀ ps : List WParam, packParams env (ps.filter (· ≠ p)) = packParams env ps := by
      intro ps
      induction ps with
      | nil => rfl
      | cons q ps ih =>
        by_cases hq : q = p
        · subst hq
          rw [List.filter_cons_of_neg (by simp), ih]
          simp only [packParams, hd]
        · rw [List.filter_cons_of_pos (by simpa using hq)]
          simp only [packParams, ih]
    unfold saveBinary
    cases hr : stackRows w.cols with
    | none => exact absurd hr hs
    | some rows =>
      simp only [hpk]
      split_ifs with h1
      · exact ⟨[], by simp⟩
      · cases hq : (packParams env w.params).2 with
        | none =>
          simp only
          exact ⟨leBytes 4 rows ++ ((packParams env w.params).1 ++ tableBytes env w.cols rows), by simp, by simp⟩
        | some e => simp only; exact ⟨leBytes 4 rows ++ (packParams env w.params).1, by simp, by simp⟩

example : (∃ r f, openSdds exText 10 true 100 (saveBinary exEnv exWriter).1 = some (.ok r) ∧
      r.param "code".toList = .ok f ∧ f.fixed = some (.str "rs beams, v=1".toList) ∧ f.type = "string".toList) :=
  (fixed_value_partial (env := exEnv) exWriter_header (by decide) (by decide) (fuel := 10) (by decide) true 100
    (p := exWriter.params[2]) (by decide) (v := .str "rs beams, v=1".toList) rfl rfl rfl).1

/-- **C03, false for zero and empty fixed values.** They are left out of the header: the reader
sees a parameter without fixed value. -/
theorem fixed_value_fails {env : Env} {w : Writer} (h : HeaderOk env.ft w)
    (hn : (w.params.map WParam.name).Nodup) (hs : stackRows w.cols ≠ none)
    {fuel : Nat} (hfuel : w.params.length + w.cols.length + 3 ≤ fuel) (buffer : Bool) (maxStr : Nat)
    {p : WParam} (hp : p ∈ w.params) {v : PyVal} (hv : p.fixed = some v) (ht : v.truthy = false) :
    ∃ r f, openSdds env.ft fuel buffer maxStr (saveBinary env w).1 = some (.ok r) ∧
      r.param p.name = .ok f ∧ f.fixed = none := by
  obtain ⟨body, hb⟩ := saveBinary_starts env hs
  rw [hb]
  refine ⟨_, readParam p, open_header h body hfuel buffer maxStr, ?_, ?_⟩
  · unfold Reader.param lastParam
    simp only
    have := lastParam_unique ParamField.name (w.params.map readParam) (by rw [List.map_map]; exact hn) (readParam p)
      (List.mem_map_of_mem hp)
    have e : (readParam p).name = p.name := rfl
    rw [e] at this
    rw [this]
    rfl
  · unfold readParam
    simp only [hv, ht, Bool.false_eq_true, if_false]

/-- The values concerned are the integer 0, both zeros of the floats and the empty text. -/
theorem falsy_iff (v : PyVal) : v.truthy = false ↔
    v = .int 0 ∨ v = .float 0#64 ∨ v = .float 0x8000000000000000#64 ∨ v = .str [] := by
  cases v with
  | int i => simp [PyVal.truthy]
  | float x =>
    simp only [PyVal.truthy, Bool.and_eq_false_iff, bne_eq_false_iff_eq, PyVal.float.injEq, reduceCtorEq,
      false_or, or_false]
  | str s => simp [PyVal.truthy]

example : ∃ w : Writer, HeaderOk exText w ∧ ∃ p ∈ w.params, p.fixed = some (.int 0) ∧ stackRows w.cols ≠ none :=
  ⟨{ params := [{ name := "n".toList, type := "long".toList, fixed := some (.int 0) }] },
   ⟨by decide +kernel, by decide +kernel, by
      intro p hp v hv ht
      rw [List.mem_singleton.mp hp] at hv
      cases hv; cases ht⟩,
   _, List.mem_singleton.mpr rfl, rfl, by decide⟩

/-- Bytes per row according to the declared types. -/
def declaredWidth (cols : List WCol) : Nat :=
  (cols.map fun c => match numType c.type with | some t => t.size | none => 0).sum

theorem leBytes_len (n x : Nat) : (leBytes n x).length = n := by
  induction n generalizing x with
  | zero => rfl
  | succ n ih => simp [leBytes, ih]

theorem tableBytes_length (env : Env) (cols : List WCol) (rows : Nat) :
    (tableBytes env cols rows).length = rows * (cols.length * (stackType cols).size) := by
  have h1 : ∀ i, (rowBytes env cols i).length = cols.length * (stackType cols).size := by
    intro i
    unfold rowBytes
    generalize stackType cols = d
    induction cols with
    | nil => simp
    | cons c cs ih => simp only [List.flatMap_cons, List.length_append, ih, leBytes_len, List.length_cons]; ring
  unfold tableBytes
  rw [List.length_flatMap]
  simp [h1]

/-- **C04.** When the arrays have the dtype of the declared type, and all the same, the table
takes `rows` times the sum of the declared widths. -/
theorem column_bytes_partial (env : Env) {w : Writer} {t : FType} (h : ∀ c ∈ w.cols, c.Has t (adType t)) (rows : Nat) :
    (tableBytes env w.cols rows).length = rows * declaredWidth w.cols := by
  rw [tableBytes_length]
  by_cases hne : w.cols = []
  · simp [hne, declaredWidth]
  · rw [stackType_eq w.cols (fun c hc => (h c hc).1) hne, adType_size]
    congr 1
    unfold declaredWidth
    have : w.cols.map (fun c => match numType c.type with | some t => t.size | none => 0) =
        w.cols.map fun _ => t.size := by
      apply List.map_congr_left
      intro c hc
      rw [(h c hc).2.1]
    rw [this]
    simp

example : (tableBytes exEnv exWriter.cols 2).length = 2 * declaredWidth exWriter.cols :=
  column_bytes_partial exEnv exWriter_ok.has 2

/-- **C04, exact condition.** -/
theorem column_bytes_iff (env : Env) (cols : List WCol) (rows : Nat) (hr : 0 < rows) :
    (tableBytes env cols rows).length = rows * declaredWidth cols ↔
      cols.length * (stackType cols).size = declaredWidth cols := by
  rw [tableBytes_length]
  exact Nat.mul_right_inj (by omega)

theorem join_f64 (d e : ADType) : d = .f64 ∨ e = .f64 → d.join e = .f64 := by
  rintro (rfl | rfl)
  · rfl
  · cases d <;> rfl

theorem stackType_f64 (cols : List WCol) (h : ∃ c ∈ cols, c.dtype = .f64) : stackType cols = .f64 := by
  induction cols with
  | nil => obtain ⟨c, hc, -⟩ := h; cases hc
  | cons c cs ih =>
    cases cs with
    | nil =>
      obtain ⟨d, hd, he⟩ := h
      rw [List.mem_singleton.mp hd] at he
      exact he
    | cons c' cs =>
      change c.dtype.join (stackType (c' :: cs)) = .f64
      apply join_f64
      obtain ⟨d, hd, he⟩ := h
      rcases List.mem_cons.mp hd with rfl | hd
      · exact Or.inl he
      · exact Or.inr (ih ⟨d, hd, he⟩)

theorem width_lt (cols : List WCol) (hw : ∀ c ∈ cols, ∃ t, c.Has t (adType t)) :
    declaredWidth cols ≤ cols.length * 8 ∧
    ((∃ c ∈ cols, c.dtype ≠ .f64) → declaredWidth cols < cols.length * 8) := by
  induction cols with
  | nil => exact ⟨Nat.le_refl _, by rintro ⟨c, hc, -⟩; cases hc⟩
  | cons c cs ih =>
    have ih := ih fun d hd => hw d (List.mem_cons_of_mem _ hd)
    obtain ⟨t, h1, h2, -⟩ := hw c List.mem_cons_self
    have e : declaredWidth (c :: cs) = t.size + declaredWidth cs := by
      unfold declaredWidth
      rw [List.map_cons, List.sum_cons, h2]
    have ht : t.size ≤ 8 := by cases t <;> decide
    rw [e, List.length_cons]
    refine ⟨by omega, ?_⟩
    rintro ⟨d, hd, hne⟩
    rcases List.mem_cons.mp hd with rfl | hd
    · have : t.size < 8 := by
        cases t with
        | double => exact absurd h1 hne
        | float => decide
        | long => decide
        | short => decide
      omega
    · have := ih.2 ⟨d, hd, hne⟩
      omega

/-- **C04, false in general.** When a table holds a double column and a column of another type,
the file has more bytes than declared, even though every array has the declared type. -/
theorem column_bytes_fails (env : Env) (cols : List WCol) (rows : Nat) (hr : 0 < rows)
    (hw : ∀ c ∈ cols, ∃ t, c.Has t (adType t)) (h1 : ∃ c ∈ cols, c.dtype = .f64) (h2 : ∃ c ∈ cols, c.dtype ≠ .f64) :
    rows * declaredWidth cols < (tableBytes env cols rows).length := by
  rw [tableBytes_length, stackType_f64 cols h1]
  exact Nat.mul_lt_mul_of_pos_left ((width_lt cols hw).2 h2) hr

example : 1 * declaredWidth exMixed.cols < (tableBytes exEnv exMixed.cols 1).length :=
  column_bytes_fails exEnv exMixed.cols 1 (by decide)
    (by
      intro c hc
      simp only [exMixed, List.mem_cons, List.not_mem_nil, or_false] at hc
      rcases hc with rfl | rfl
      · exact ⟨.double, rfl, rfl, by decide⟩
      · exact ⟨.long, rfl, rfl, by decide⟩)
    ⟨exMixed.cols[0], by decide, rfl⟩ ⟨exMixed.cols[1], by decide, by decide⟩

/-- A value that `struct.pack` accepts for the declared type: a double takes floats and the
integers that fit, a long takes 32-bit integers, short and string take nothing. -/
def Packable (env : Env) (type : Str) (v : PyVal) : Prop :=
  (type = "double".toList ∧ ((∃ x, v = .float x) ∨ ∃ i x, v = .int i ∧ env.intToF64 i = .ok x)) ∨
  (type = "long".toList ∧ ∃ i, v = .int i ∧ -2147483648 ≤ i ∧ i < 2147483648)

theorem packParam_iff (env : Env) (type : Str) (v : PyVal) :
    (∃ b, packParam env type v = .ok b) ↔ Packable env type v := by
  unfold packParam Packable
  by_cases h1 : type = "double".toList
  · subst h1
    have hne : ¬ ("double".toList = "long".toList) := by decide
    simp only [if_true, true_and, hne, false_and, or_false]
    cases v with
    | float x => simp
    | int i =>
      cases hi : env.intToF64 i with
      | ok x => simp [Except.map, hi]
      | error e => simp [Except.map, hi]
    | str s => simp
  · simp only [h1, if_false, false_and, false_or]
    by_cases h2 : type = "long".toList
    · simp only [h2, if_true, true_and]
      cases v with
      | float x => simp
      | int i =>
        simp only [PyVal.int.injEq]
        split_ifs with h3
        · simp [h3]
        · simp only [reduceCtorEq, exists_false, false_iff]
          rintro ⟨j, rfl, h4⟩
          exact h3 h4
      | str s => simp
    · simp only [h2, if_false, reduceCtorEq, exists_false, false_and]

theorem packParams_iff (env : Env) (ps : List WParam) :
    (packParams env ps).2 = none ↔ ∀ p ∈ ps, ∀ v, p.data = some v → Packable env p.type v := by
  induction ps with
  | nil => simp [packParams]
  | cons p ps ih =>
    unfold packParams
    cases hd : p.data with
    | none =>
      simp only [ih, List.mem_cons, forall_eq_or_imp, hd, reduceCtorEq, false_implies, implies_true, true_and]
    | some v =>
      simp only [List.mem_cons, forall_eq_or_imp, hd, Option.some.injEq, forall_eq']
      cases hp : packParam env p.type v with
      | error e =>
        simp only [reduceCtorEq, false_iff, not_and]
        intro hpk
        obtain ⟨b, hb⟩ := (packParam_iff env p.type v).mpr hpk
        rw [hp] at hb; cases hb
      | ok b =>
        simp only [ih, (packParam_iff env p.type v).mp ⟨b, hp⟩, true_and]

/-- **C05, exact condition.** Saving columns of equal lengths in binary mode succeeds exactly
when the row count fits and every parameter with data is a double or long in range. -/
theorem save_succeeds_iff (env : Env) (w : Writer) (rows : Nat) (hr : stackRows w.cols = some rows) :
    (saveBinary env w).2 = none ↔
      rows < 4294967296 ∧ ∀ p ∈ w.params, ∀ v, p.data = some v → Packable env p.type v := by
  unfold saveBinary
  rw [hr]
  simp only
  split_ifs with h1
  · simp only [reduceCtorEq, false_iff, not_and]
    intro h; omega
  · rw [← packParams_iff]
    cases hp : (packParams env w.params).2 with
    | none => simp; omega
    | some e => simp

/-- **C05, what is true of it.** Every double and every 32-bit long can be saved. -/
theorem save_types_partial (env : Env) (w : Writer) (rows : Nat) (hr : stackRows w.cols = some rows)
    (hrows : rows < 4294967296) (h : ∀ p ∈ w.params, p.data = none ∨ (∃ x, p.data = some (.float x) ∧ p.type = "double".toList) ∨
      ∃ i : Int, p.data = some (.int i) ∧ p.type = "long".toList ∧ -2147483648 ≤ i ∧ i < 2147483648) :
    (saveBinary env w).2 = none := by
  rw [save_succeeds_iff env w rows hr]
  refine ⟨hrows, ?_⟩
  intro p hp v hv
  rcases h p hp with h | ⟨x, h1, h2⟩ | ⟨i, h1, h2, h3⟩
  · rw [h] at hv; cases hv
  · rw [h1] at hv; cases hv
    exact Or.inl ⟨h2, Or.inl ⟨x, rfl⟩⟩
  · rw [h1] at hv; cases hv
    exact Or.inr ⟨h2, i, rfl, h3⟩

example : (saveBinary exEnv exWriter).2 = none ∧
    (2 < 4294967296 ∧ ∀ p ∈ exWriter.params, ∀ v, p.data = some v → Packable exEnv p.type v) := by
  have h : (saveBinary exEnv exWriter).2 = none := by
    refine save_types_partial exEnv exWriter 2 (by decide +kernel) (by norm_num) fun p hp => ?_
    simp only [exWriter, List.mem_cons, List.not_mem_nil, or_false] at hp
    rcases hp with rfl | rfl | rfl
    · exact .inr (.inl ⟨_, rfl, rfl⟩)
    · exact .inr (.inr ⟨_, rfl, rfl, by norm_num, by norm_num⟩)
    · exact .inl rfl
  exact ⟨h, (save_succeeds_iff exEnv exWriter 2 (by decide +kernel)).1 h⟩

/-- **C05, false for short and string.** A parameter of type short or string with data, which
`create_parameter` accepts, makes `save_sdds` raise, whatever the value and the rest of the
file. -/
theorem save_types_fails (env : Env) (w : Writer) (rows : Nat) (hr : stackRows w.cols = some rows)
    {p : WParam} (hp : p ∈ w.params) {v : PyVal} (hv : p.data = some v)
    (ht : p.type = "short".toList ∨ p.type = "string".toList) :
    (saveBinary env w).2 ≠ none := by
  rw [Ne, save_succeeds_iff env w rows hr]
  rintro ⟨-, h⟩
  rcases h p hp v hv with ⟨h1, -⟩ | ⟨h1, -⟩ <;> rcases ht with ht | ht <;> rw [ht] at h1 <;> revert h1 <;> decide

example : ∃ w, (Writer.createParameter {} { name := "n".toList, type := "short".toList, data := some (.int 3) }) = .ok w ∧
    (saveBinary exEnv w).2 ≠ none :=
  ⟨_, rfl, save_types_fails exEnv _ 0 rfl (List.mem_cons_self) rfl (Or.inl rfl)⟩

/-- **C15, false.** When columns have different lengths the file is emptied and no exception is
raised, whatever it held before. -/
theorem failed_save_fails (env : Env) (w : Writer) {c d : WCol} (hc : c ∈ w.cols) (hd : d ∈ w.cols)
    (hne : c.data.length ≠ d.data.length) : saveBinary env w = ([], none) := by
  have : stackRows w.cols = none := by
    cases hw : w.cols with
    | nil => rw [hw] at hc; cases hc
    | cons a l =>
      simp only [stackRows]
      rw [if_neg]
      intro hall
      have key : ∀ x ∈ w.cols, x.data.length = a.data.length := by
        intro x hx
        rw [hw] at hx
        rcases List.mem_cons.mp hx with rfl | hx
        · rfl
        · simpa using List.all_eq_true.mp hall x hx
      exact hne (by rw [key c hc, key d hd])
  unfold saveBinary
  rw [this]

example : saveBinary exEnv { cols := [
    { name := "x".toList, type := "double".toList, dtype := .f64, data := [1] },
    { name := "y".toList, type := "double".toList, dtype := .f64, data := [1, 2] }] } = ([], none) :=
  failed_save_fails exEnv _ (c := { name := "x".toList, type := "double".toList, dtype := .f64, data := [1] })
    (d := { name := "y".toList, type := "double".toList, dtype := .f64, data := [1, 2] })
    (by decide) (by decide) (by decide)

end Verif.Sdds
