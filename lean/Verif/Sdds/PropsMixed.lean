import Verif.Sdds.PropsWrite

/-!
# Property C01: tables of every mix of column types, saved and read back
-/

namespace Verif.Sdds

/-- The contents the writer accepts: as `Writer.Ok`, but each column has a type of its own. -/
structure Writer.Typed (ft : FloatText) (w : Writer) (rows : Nat) : Prop extends Writer.Names w where
  header : HeaderOk ft w
  storable : ∀ p ∈ w.params, p.Storable ft
  has : ∀ c ∈ w.cols, ∃ t, c.Has t (adType t)
  lengths : ∀ c ∈ w.cols, c.data.length = rows
  noCols : w.cols = [] → rows = 0
  short : rows < 2147483648

/-- The declared type of a column. -/
def WCol.ftype (c : WCol) : FType := (numType c.type).getD .double

/-- The rows a user should see, each column with its own type. -/
def typedRows (w : Writer) (rows : Nat) : List Record :=
  (List.range rows).map fun i => w.cols.map fun c => (c.name, .num c.ftype (c.data.getD i 0))

/-- What a user should see. -/
def typedPages (w : Writer) (rows : Nat) : Pages :=
  ⟨[[savedParams w rows]], if rows = 0 ∨ w.cols = [] then [] else [typedRows w rows]⟩

theorem WCol.Has.ftype {c : WCol} {t : FType} {d : ADType} (h : c.Has t d) : c.ftype = t := by
  unfold WCol.ftype
  rw [h.2.1]
  rfl

/-- The layout the header describes. -/
def typedLayout (w : Writer) : Layout := ⟨savedLayout w.params, w.cols.map fun c => (c.name, .num c.ftype)⟩

theorem numType_cases {s : Str} {t : FType} (h : numType s = some t) : t = .double ∨ t = .long ∨ t = .short := by
  simp only [numType] at h
  split_ifs at h <;> cases h <;> simp

theorem join_size {s t : FType} (hs : s = .double ∨ s = .long ∨ s = .short)
    (ht : t = .double ∨ t = .long ∨ t = .short) :
    ∃ u, (u = .double ∨ u = .long ∨ u = .short) ∧ (adType s).join (adType t) = adType u ∧
      s.size ≤ u.size ∧ t.size ≤ u.size := by
  rcases hs with rfl | rfl | rfl <;> rcases ht with rfl | rfl | rfl <;>
    first
    | exact ⟨.double, by simp, rfl, by decide, by decide⟩
    | exact ⟨.long, by simp, rfl, by decide, by decide⟩
    | exact ⟨.short, by simp, rfl, by decide, by decide⟩

theorem stackType_wide (cols : List WCol) (hne : cols ≠ []) (h : ∀ c ∈ cols, ∃ t, c.Has t (adType t)) :
    ∃ u, (u = .double ∨ u = .long ∨ u = .short) ∧ stackType cols = adType u ∧ ∀ c ∈ cols, c.ftype.size ≤ u.size := by
  induction cols with
  | nil => exact absurd rfl hne
  | cons c cs ih =>
    obtain ⟨t, ht⟩ := h c List.mem_cons_self
    cases cs with
    | nil =>
      refine ⟨t, numType_cases ht.2.1, ht.1, ?_⟩
      intro d hd
      rw [List.mem_singleton.mp hd, ht.ftype]
    | cons c' cs =>
      obtain ⟨u, hu, e, hle⟩ := ih (by simp) fun d hd => h d (List.mem_cons_of_mem _ hd)
      obtain ⟨v, hv, e', h1, h2⟩ := join_size (numType_cases ht.2.1) hu
      refine ⟨v, hv, ?_, ?_⟩
      · change c.dtype.join (stackType (c' :: cs)) = _
        rw [e, ht.1, e']
      · intro d hd
        rcases List.mem_cons.mp hd with rfl | hd
        · rw [ht.ftype]; exact h1
        · exact le_trans (hle d hd) h2

theorem size_inj {s t : FType} (hs : s = .double ∨ s = .long ∨ s = .short)
    (ht : t = .double ∨ t = .long ∨ t = .short) (h : s.size = t.size) : s = t := by
  rcases hs with rfl | rfl | rfl <;> rcases ht with rfl | rfl | rfl <;> first | rfl | (exact absurd h (by decide))

theorem declaredWidth_eq (cols : List WCol) (h : ∀ c ∈ cols, ∃ t, c.Has t (adType t)) :
    declaredWidth cols = (cols.map fun c => c.ftype.size).sum := by
  unfold declaredWidth
  congr 1
  apply List.map_congr_left
  intro c hc
  obtain ⟨t, ht⟩ := h c hc
  rw [ht.ftype, ht.2.1]

theorem sum_le_of {α : Type} (f : α → Nat) (s : Nat) (l : List α) (h : ∀ a ∈ l, f a ≤ s) :
    (l.map f).sum ≤ l.length * s ∧ ((∃ a ∈ l, f a ≠ s) → (l.map f).sum < l.length * s) := by
  induction l with
  | nil => exact ⟨Nat.zero_le _, by rintro ⟨a, ha, -⟩; cases ha⟩
  | cons a l ih =>
    have ih := ih fun b hb => h b (List.mem_cons_of_mem _ hb)
    have ha := h a List.mem_cons_self
    rw [List.map_cons, List.sum_cons, List.length_cons, Nat.succ_mul]
    refine ⟨by omega, ?_⟩
    rintro ⟨b, hb, hne⟩
    rcases List.mem_cons.mp hb with rfl | hb
    · omega
    · have := ih.2 ⟨b, hb, hne⟩
      omega

/-- **C04, false in general.** Two columns of different types are enough for the file to hold
more bytes than declared. -/
theorem column_bytes_mixed_fails (env : Env) (cols : List WCol) (rows : Nat) (hr : 0 < rows)
    (hw : ∀ c ∈ cols, ∃ t, c.Has t (adType t)) {c d : WCol} (hc : c ∈ cols) (hd : d ∈ cols)
    (hne : c.dtype ≠ d.dtype) : rows * declaredWidth cols < (tableBytes env cols rows).length := by
  rw [tableBytes_length, declaredWidth_eq cols hw]
  apply Nat.mul_lt_mul_of_pos_left _ hr
  obtain ⟨u, hu, e, hle⟩ := stackType_wide cols (List.ne_nil_of_mem hc) hw
  rw [e, adType_size]
  apply (sum_le_of (fun c : WCol => c.ftype.size) u.size cols hle).2
  by_contra hall
  push Not at hall
  obtain ⟨s, hs⟩ := hw c hc
  obtain ⟨t, ht⟩ := hw d hd
  apply hne
  have h1 := hall c hc
  have h2 := hall d hd
  rw [hs.ftype] at h1
  rw [ht.ftype] at h2
  rw [hs.1, ht.1, size_inj (numType_cases hs.2.1) (numType_cases ht.2.1) (h1.trans h2.symm)]

theorem leNat_lt (b : Bytes) : leNat b < 256 ^ b.length := by
  induction b with
  | nil => exact Nat.one_pos
  | cons x b ih =>
    have := x.toNat_lt
    rw [leNat, List.length_cons, Nat.pow_succ]
    omega

/-- Any bytes of the right number are a row. -/
theorem row_of_bytes (m : Nat) (fs : List (Str × FType)) : ∀ b : Bytes, b.length = (fs.map fun f => f.2.size).sum →
    ∃ row, List.Forall₂ (fun f v => Fits m f.2 v) (fs.map fun f => (f.1, SType.num f.2)) row ∧
      row.flatMap encodeVal = b ∧ ∀ v ∈ row, v ≠ .str [] := by
  induction fs with
  | nil =>
    intro b hb
    rw [List.map_nil, List.sum_nil] at hb
    exact ⟨[], .nil, (List.length_eq_zero_iff.mp hb).symm, by simp⟩
  | cons f fs ih =>
    intro b hb
    rw [List.map_cons, List.sum_cons] at hb
    obtain ⟨row, h1, h2, h3⟩ := ih (b.drop f.2.size) (by rw [List.length_drop]; omega)
    have hl : (b.take f.2.size).length = f.2.size := by rw [List.length_take]; omega
    refine ⟨.num f.2 (leNat (b.take f.2.size)) :: row, .cons ⟨rfl, ?_⟩ h1, ?_, ?_⟩
    · have := leNat_lt (b.take f.2.size)
      rwa [hl] at this
    · rw [List.flatMap_cons, h2]
      change leBytes f.2.size _ ++ _ = b
      have e := leBytes_leNat (b.take f.2.size)
      rw [hl] at e
      rw [e]
      exact List.take_append_drop _ _
    · intro v hv
      rcases List.mem_cons.mp hv with rfl | hv
      · simp
      · exact h3 v hv

theorem rows_of_bytes (m : Nat) (fs : List (Str × FType)) (n : Nat) : ∀ b : Bytes,
    b.length = n * (fs.map fun f => f.2.size).sum →
    ∃ rows : List (List Val), rows.length = n ∧
      (∀ row ∈ rows, List.Forall₂ (fun f v => Fits m f.2 v) (fs.map fun f => (f.1, SType.num f.2)) row) ∧
      rows.flatMap (·.flatMap encodeVal) = b ∧ ∀ row ∈ rows, ∀ v ∈ row, v ≠ .str [] := by
  induction n with
  | zero =>
    intro b hb
    rw [Nat.zero_mul] at hb
    exact ⟨[], rfl, by simp, (List.length_eq_zero_iff.mp hb).symm, by simp⟩
  | succ n ih =>
    intro b hb
    rw [Nat.succ_mul] at hb
    obtain ⟨row, r1, r2, r3⟩ := row_of_bytes m fs (b.take (fs.map fun f => f.2.size).sum)
      (by rw [List.length_take]; omega)
    obtain ⟨rows, h1, h2, h3, h4⟩ := ih (b.drop (fs.map fun f => f.2.size).sum) (by rw [List.length_drop]; omega)
    refine ⟨row :: rows, by rw [List.length_cons, h1], ?_, ?_, ?_⟩
    · intro q hq
      rcases List.mem_cons.mp hq with rfl | hq
      · exact r1
      · exact h2 q hq
    · rw [List.flatMap_cons, r2, h3]
      exact List.take_append_drop _ _
    · intro q hq
      rcases List.mem_cons.mp hq with rfl | hq
      · exact r3
      · exact h4 q hq

theorem Reader.readPage_grows {r : Reader} {p p' : Pos} {acc acc' : Pages}
    (h : r.readPage true true p acc = .ok (acc', p')) : acc'.params.length = acc.params.length + 1 := by
  unfold Reader.readPage at h
  cases h1 : r.getParams r.paramKeys [] p with
  | error e => rw [h1] at h; cases h
  | ok x =>
    obtain ⟨pd, p1⟩ := x
    rw [h1] at h
    cases h2 : addPage r.maxStr [pd] with
    | error e => simp [h2, bind, Except.bind] at h
    | ok pg =>
      cases h3 : r.rowCount pd p1 with
      | error e => simp [h2, h3, bind, Except.bind] at h
      | ok rc =>
        by_cases h0 : rc = 0
        · simp only [h2, h3, bind, Except.bind, if_true, if_pos h0, Except.ok.injEq, Prod.mk.injEq] at h
          rw [← h.1]
          simp
        · cases h4 : r.getCols rc p1 with
          | error e => simp [h2, h3, h4, h0, bind, Except.bind] at h
          | ok y =>
            obtain ⟨cd, p2⟩ := y
            cases h5 : addPage r.maxStr cd with
            | error e => simp [h2, h3, h4, h5, h0, bind, Except.bind] at h
            | ok pg' =>
              simp only [h2, h3, h4, h5, bind, Except.bind, if_true, if_neg h0, Bool.true_or, Except.ok.injEq,
                Prod.mk.injEq] at h
              rw [← h.1]
              simp

theorem Reader.pageLoop_grows {r : Reader} : ∀ (fuel k : Nat) (p : Pos) (acc res : Pages),
    r.pageLoop none fuel k p acc = some (.ok res) → acc.params.length ≤ res.params.length := by
  intro fuel
  induction fuel with
  | zero => intro k p acc res h; cases h
  | succ fuel ih =>
    intro k p acc res h
    unfold Reader.pageLoop at h
    rw [if_neg (by simp [pastPages])] at h
    by_cases he : r.fileEnd p = true
    · rw [if_pos he] at h
      simp only [Option.some.injEq, Except.ok.injEq] at h
      rw [h]
    · rw [if_neg he] at h
      change (match r.readPage true true p acc with
        | Except.error e => some (Except.error e)
        | Except.ok (acc', p') => r.pageLoop none fuel (k + 1) p' acc') = _ at h
      cases hp : r.readPage true true p acc with
      | error e => rw [hp] at h; cases h
      | ok x =>
        obtain ⟨acc', p'⟩ := x
        rw [hp] at h
        have h1 := Reader.readPage_grows hp
        have h2 := ih _ _ _ _ h
        omega

theorem concat_self {pages res : List (List Record)} (h : concat pages = .ok res) : res = pages := by
  cases pages with
  | nil => cases h; rfl
  | cons pg rest =>
    unfold concat at h
    simp only at h
    split_ifs at h
    cases h; rfl

/-- When more bytes follow the first page, reading with a buffer never ends with one page. -/
theorem Reader.read_extra {r : Reader} {l : Layout} (hd : r.Describes l) (hl : l.Ok) (hb : r.buffer = true)
    {header rest : Bytes} {pg : Page} (hok : PageOk r.maxStr l pg)
    (hfile : r.file = header ++ (encodePage pg ++ rest)) (hend : r.headerEnd = header.length) (hrest : rest ≠ [])
    (fuel : Nat) (res : Pages) (h : r.read fuel none = some (.ok res)) : 2 ≤ res.params.length := by
  unfold Reader.read at h
  rw [if_neg (by simp)] at h
  simp only [hb, if_true] at h
  cases hloop : r.pageLoop none fuel 0 ⟨r.headerEnd, r.headerEnd⟩ ⟨[], []⟩ with
  | none => rw [hloop] at h; cases h
  | some x =>
    cases x with
    | error e => rw [hloop] at h; cases h
    | ok pgs =>
      rw [hloop] at h
      have hp : r.PosOk ⟨r.headerEnd, r.headerEnd⟩ := by intro hf; rw [hb] at hf; cases hf
      have hcur : r.cur ⟨r.headerEnd, r.headerEnd⟩ = header.length := by
        unfold Reader.cur; rw [if_pos hb]; exact hend
      have hdrop : r.file.drop (r.cur ⟨r.headerEnd, r.headerEnd⟩) = encodePage pg ++ rest := by
        rw [hcur, hfile, List.drop_left]
      have hle : r.cur ⟨r.headerEnd, r.headerEnd⟩ ≤ r.file.length := by
        rw [hcur, hfile, List.length_append]; omega
      have hlen : 2 ≤ pgs.params.length := by
        cases fuel with
        | zero => cases hloop
        | succ fuel =>
          unfold Reader.pageLoop at hloop
          rw [if_neg (by simp [pastPages]),
            if_neg (by rw [Reader.fileEnd_page hdrop (by intro hf; rw [hb] at hf; cases hf)]; simp)] at hloop
          change (match r.readPage true true _ ⟨[], []⟩ with
            | Except.error e => some (Except.error e)
            | Except.ok (acc', p') => r.pageLoop none fuel 1 p' acc') = _ at hloop
          rw [Reader.readPage_keep hd hl hok hp true hdrop hle] at hloop
          simp only at hloop
          cases fuel with
          | zero => cases hloop
          | succ fuel =>
            unfold Reader.pageLoop at hloop
            have hne : ¬ r.fileEnd (r.adv ⟨r.headerEnd, r.headerEnd⟩ (encodePage pg).length) = true := by
              unfold Reader.fileEnd Reader.adv
              simp only [hb, if_true, decide_eq_true_eq, hfile, hend, List.length_append]
              have := List.length_pos_iff.mpr hrest
              omega
            rw [if_neg (by simp [pastPages]), if_neg hne] at hloop
            generalize r.adv ⟨r.headerEnd, r.headerEnd⟩ (encodePage pg).length = p1 at hloop
            change (match r.readPage true true p1 _ with
              | Except.error e => some (Except.error e)
              | Except.ok (acc', p') => r.pageLoop none fuel 2 p' acc') = _ at hloop
            cases h2 : r.readPage true true p1 ((⟨[], []⟩ : Pages).append (pagesOf l [pg])) with
            | error e => rw [h2] at hloop; cases hloop
            | ok x =>
              obtain ⟨acc', p'⟩ := x
              rw [h2] at hloop
              have a1 := Reader.readPage_grows h2
              have a2 := Reader.pageLoop_grows _ _ _ _ _ hloop
              have a3 : ((⟨[], []⟩ : Pages).append (pagesOf l [pg])).params.length = 1 := rfl
              omega
      simp only [Option.some.injEq] at h
      cases h1 : concat pgs.params with
      | error e => rw [h1] at h; cases h
      | ok ps =>
        cases h2 : concat pgs.cols with
        | error e => rw [h1, h2] at h; cases h
        | ok cs =>
          rw [h1, h2] at h
          simp only [bind, Except.bind, Except.ok.injEq] at h
          rw [← h, concat_self h1]
          exact hlen

theorem typed_layout_ok {w : Writer} (h : w.Names) : (typedLayout w).Ok := by
  unfold Layout.Ok typedLayout
  simp only [savedLayout_names, List.map_map, Function.comp_def]
  refine ⟨h.params, ?_, h.cols, ?_⟩
  · intro hm
    obtain ⟨p, hp, hn⟩ := List.mem_map.mp hm
    exact h.resParams p (List.mem_filter.mp hp).1 hn
  · intro hm
    obtain ⟨c, hc, hn⟩ := List.mem_map.mp hm
    exact h.resCols c hc hn

/-- All columns have the same type. -/
def Writer.OneType (w : Writer) : Prop := ∀ c ∈ w.cols, ∀ d ∈ w.cols, c.dtype = d.dtype

theorem adType_inj {s t : FType} (h : adType s = adType t) : s = t := by
  cases s <;> cases t <;> first | rfl | cases h

/-- A writer with one type is one the earlier theorems speak of. -/
theorem Writer.Typed.ok {ft : FloatText} {w : Writer} {rows : Nat} (h : w.Typed ft rows) (ho : w.OneType) :
    ∃ t, w.Ok ft t rows ∧ ∀ c ∈ w.cols, c.ftype = t := by
  have key : ∃ t, ∀ c ∈ w.cols, c.Has t (adType t) := by
    cases hc : w.cols with
    | nil => exact ⟨.double, by simp⟩
    | cons c cs =>
      have hmem : c ∈ w.cols := by rw [hc]; exact List.mem_cons_self
      obtain ⟨t, ht⟩ := h.has c hmem
      refine ⟨t, fun d hd => ?_⟩
      rw [← hc] at hd
      obtain ⟨s, hs⟩ := h.has d hd
      have : s = t := adType_inj (by rw [← hs.1, ← ht.1]; exact ho d hd c hmem)
      rw [← this]
      exact hs
  obtain ⟨t, ht⟩ := key
  exact ⟨t, ⟨h.toNames, h.header, h.storable, ht, h.lengths, h.noCols, h.short⟩, fun c hc => (ht c hc).ftype⟩

theorem typedRows_eq {w : Writer} {t : FType} (h : ∀ c ∈ w.cols, c.ftype = t) (rows : Nat) :
    typedRows w rows = savedRows w t rows := by
  unfold typedRows savedRows
  apply List.map_congr_left
  intro i _
  apply List.map_congr_left
  intro c hc
  rw [h c hc]

/-- **C04, exactly when it holds.** With at least one row, the table has as many bytes as
declared exactly when all columns have one type. -/
theorem column_bytes_one_type_iff (env : Env) {w : Writer} {rows : Nat} (h : w.Typed env.ft rows) (hr : 0 < rows) :
    (tableBytes env w.cols rows).length = rows * declaredWidth w.cols ↔ w.OneType := by
  constructor
  · intro he c hc d hd
    by_contra hne
    have := column_bytes_mixed_fails env w.cols rows hr h.has hc hd hne
    omega
  · intro ho
    obtain ⟨t, hok, -⟩ := h.ok ho
    exact column_bytes_partial env hok.has rows

/-- **C01, exactly when it holds.** Whatever types the columns have: the file is written and
opened without an exception, and reading it (with the buffer) gives back the saved page exactly
when there are no rows or all columns have one type. Otherwise no successful read, however
long, gives a single page. -/
theorem save_read_iff {env : Env} {w : Writer} {rows : Nat} (h : w.Typed env.ft rows) {fuel : Nat}
    (hfuel : w.params.length + w.cols.length + 3 ≤ fuel) (maxStr : Nat) :
    (saveBinary env w).2 = none ∧
    ∃ r, openSdds env.ft fuel true maxStr (saveBinary env w).1 = some (.ok r) ∧
      (r.read fuel none = some (.ok (typedPages w rows)) ↔ rows = 0 ∨ w.OneType) ∧
      (¬ (rows = 0 ∨ w.OneType) → ∀ fuel' res, r.read fuel' none = some (.ok res) → 2 ≤ res.params.length) := by
  have hlt : ¬ 4294967296 ≤ rows := by have := h.short; omega
  have hsave : saveBinary env w = (utf8 (headerText env.ft w "binary".toList) ++
      (leBytes 4 rows ++ (savedVals w.params).flatMap encodeVal ++ tableBytes env w.cols rows), none) := by
    unfold saveBinary
    rw [stackRows_ok h.lengths h.noCols]
    simp only
    rw [if_neg hlt, packParams_ok env _ h.storable]
    simp only [List.append_assoc]
  rw [hsave]
  refine ⟨rfl, _, open_header h.header _ hfuel true maxStr, ?_⟩
  have hd : ∀ body : Bytes, Reader.Describes {
        file := utf8 (headerText env.ft w "binary".toList) ++ body,
        buffer := true, maxStr := maxStr,
        headerEnd := (utf8 (headerText env.ft w "binary".toList)).length,
        lineCount := w.params.length + w.cols.length + 2,
        params := w.params.map readParam, cols := w.cols.map readCol, ascii := false,
        noRowCounts := false } (typedLayout w) := by
    intro body
    refine ⟨rfl, rfl, savedParams_fields _ h.storable, ?_⟩
    unfold typedLayout
    simp only [List.map_map, Function.comp_def]
    apply List.map_congr_left
    intro c hc
    obtain ⟨t, ht⟩ := h.has c hc
    rw [ht.ftype, ← numType_name ht.2.1]
    rfl
  have hfits := savedVals_fits maxStr w.params h.storable
  have hnostr : Val.str [] ∉ savedVals w.params := by
    intro hmem
    unfold savedVals at hmem
    obtain ⟨p, hp, hv⟩ := List.mem_filterMap.mp hmem
    rcases h.storable p hp with ⟨v, h1, h2, h3⟩ | ⟨v, h1, h2⟩
    · rw [h1] at hv
      cases v with
      | float x => simp [dataVal] at hv
      | int i => simp [dataVal] at hv
      | str s => exact h2.elim
    · rw [h1] at hv
      simp at hv
  by_cases hcase : rows = 0 ∨ w.OneType
  · refine ⟨⟨fun _ => hcase, fun _ => ?_⟩, fun hn => absurd hcase hn⟩
    by_cases ho : w.OneType
    · obtain ⟨t, hok, ht⟩ := h.ok ho
      obtain ⟨r, h1, -, -, h2⟩ := save_open_read hok hfuel true maxStr (by simp)
      rw [hsave, open_header h.header _ hfuel true maxStr] at h1
      simp only [Option.some.injEq, Except.ok.injEq] at h1
      rw [h1, h2]
      unfold typedPages
      rw [typedRows_eq ht]
    · have h0 : rows = 0 := hcase.resolve_right ho
      have hpg : PageOk maxStr (typedLayout w) ⟨savedVals w.params, []⟩ :=
        ⟨hfits, by simp, by simp, hnostr, by simp⟩
      rw [Reader.read_ok (hd _) (typed_layout_ok h.toNames) none (by simp) (Or.inl rfl)
        (header := utf8 (headerText env.ft w "binary".toList)) (pages := [⟨savedVals w.params, []⟩])
        (by intro pg hm; rw [List.mem_singleton.mp hm]; exact hpg) (by simp) ?_ rfl (by simp; omega)]
      · have hpick : pick none 0 [(⟨savedVals w.params, []⟩ : Page)] = [⟨savedVals w.params, []⟩] := rfl
        rw [hpick]
        have hpr : paramRecord (typedLayout w) ⟨savedVals w.params, []⟩ = savedParams w rows := by
          unfold paramRecord savedParams
          rw [h0]
          exact congrArg _ (zip_savedVals _)
        unfold pagesOf typedPages
        rw [List.filter_cons_of_neg (by simp [hasData]), if_pos (Or.inl h0)]
        simp only [List.filter_nil, List.map_nil, List.map_cons, hpr]
        rfl
      · simp [encodePage, h0, tableBytes]
  · have hrows : 0 < rows := Nat.pos_of_ne_zero fun h0 => hcase (Or.inl h0)
    have hmix : ∃ c ∈ w.cols, ∃ d ∈ w.cols, c.dtype ≠ d.dtype := by
      by_contra hall
      apply hcase
      right
      intro c hc d hd
      by_contra hne
      exact hall ⟨c, hc, d, hd, hne⟩
    obtain ⟨c, hc, d, hdm, hne⟩ := hmix
    have hlong := column_bytes_mixed_fails env w.cols rows hrows h.has hc hdm hne
    have hwid : declaredWidth w.cols = ((w.cols.map fun c => (c.name, c.ftype)).map fun f => f.2.size).sum := by
      rw [declaredWidth_eq _ h.has, List.map_map]
      rfl
    generalize htab : tableBytes env w.cols rows = tab at hlong
    obtain ⟨rs, h1, h2, h3, h4⟩ := rows_of_bytes maxStr (w.cols.map fun c => (c.name, c.ftype)) rows
      (tab.take (rows * declaredWidth w.cols)) (by rw [← hwid, List.length_take]; omega)
    have hpg : PageOk maxStr (typedLayout w) ⟨savedVals w.params, rs⟩ := by
      refine ⟨hfits, ?_, by change rs.length < _; rw [h1]; exact h.short, hnostr, ?_⟩
      · intro row hrow
        have := h2 row hrow
        rw [List.map_map] at this
        exact this
      · intro row hrow hlast
        exact h4 row hrow _ (List.mem_of_getLast? hlast) rfl
    have hbody : leBytes 4 rows ++ (savedVals w.params).flatMap encodeVal ++ tab =
        encodePage ⟨savedVals w.params, rs⟩ ++ tab.drop (rows * declaredWidth w.cols) := by
      unfold encodePage
      simp only [h1, h3, List.append_assoc, List.take_append_drop]
    have hno : ∀ fuel' res, Reader.read _ fuel' none = some (.ok res) → 2 ≤ res.params.length :=
      Reader.read_extra (hd (leBytes 4 rows ++ (savedVals w.params).flatMap encodeVal ++ tab))
        (typed_layout_ok h.toNames) rfl
        (header := utf8 (headerText env.ft w "binary".toList)) (rest := tab.drop (rows * declaredWidth w.cols))
        hpg (by rw [hbody]) rfl (by
          intro hnil
          have := congrArg List.length hnil
          rw [List.length_drop, List.length_nil] at this
          omega)
    refine ⟨⟨fun hread => ?_, fun hc => absurd hc hcase⟩, fun _ => hno⟩
    have := hno fuel _ hread
    change 2 ≤ 1 at this
    omega

/-- The mixed table of the examples. -/
theorem exMixed_typed : exMixed.Typed exText 1 where
  params := by decide +kernel
  cols := by decide +kernel
  resParams := by decide +kernel
  resCols := by decide +kernel
  header := ⟨by decide +kernel, by decide +kernel, by intro p hp; cases hp⟩
  storable := by intro p hp; cases hp
  has := by
    intro c hc
    simp only [exMixed, List.mem_cons, List.not_mem_nil, or_false] at hc
    rcases hc with rfl | rfl
    · exact ⟨.double, rfl, rfl, by decide⟩
    · exact ⟨.long, rfl, rfl, by decide⟩
  lengths := by decide +kernel
  noCols := by decide +kernel
  short := by decide

theorem exMixed_not_one : ¬ (1 = 0 ∨ exMixed.OneType) := by
  rintro (h | h)
  · cases h
  · exact absurd (h _ List.mem_cons_self _ (List.mem_cons_of_mem _ List.mem_cons_self)) (by decide)

example : ∃ r, openSdds exText 10 true 100 (saveBinary exEnv exMixed).1 = some (.ok r) ∧
    ∀ fuel' res, r.read fuel' none = some (.ok res) → 2 ≤ res.params.length := by
  obtain ⟨-, r, h1, -, h2⟩ := save_read_iff (env := exEnv) exMixed_typed (fuel := 10) (by decide) 100
  exact ⟨r, h1, h2 exMixed_not_one⟩

example : (tableBytes exEnv exMixed.cols 1).length ≠ 1 * declaredWidth exMixed.cols := fun h =>
  exMixed_not_one (Or.inr ((column_bytes_one_type_iff exEnv exMixed_typed (by decide)).mp h))

example : exWriter.Typed exText 2 ∧ exWriter.OneType :=
  ⟨⟨exWriter_ok.toNames, exWriter_ok.header, exWriter_ok.storable, fun c hc => ⟨_, exWriter_ok.has c hc⟩,
    exWriter_ok.lengths, exWriter_ok.noCols, exWriter_ok.short⟩,
   fun c hc d hd => (exWriter_ok.has c hc).1.trans (exWriter_ok.has d hd).1.symm⟩

example : 1 * declaredWidth exMixed.cols < (tableBytes exEnv exMixed.cols 1).length :=
  column_bytes_mixed_fails exEnv exMixed.cols 1 (by decide) exMixed_typed.has List.mem_cons_self
    (List.mem_cons_of_mem _ List.mem_cons_self) (by decide)

end Verif.Sdds
