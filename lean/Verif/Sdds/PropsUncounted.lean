import Verif.Sdds.PropsRead

/-!
# C148: binary files whose header says that there are no row counts

A binary page always starts with its row count (SDDS.py:244-246), also if the entry `no_row_counts` of `&data` is set. The reader then does not use the
count, but takes the number of bytes before the next zero byte (SDDS.py:305-313, 383-388).
-/

namespace Verif.Sdds

/-- The header announces a binary file with this layout and says that there are no row counts. -/
structure Doc.AnnouncesUncounted (ft : FloatText) (d : Doc) (l : Layout) : Prop where
  ok : d.Ok
  mode : (attrVal d.data "mode".toList).getD "binary".toList ≠ "ascii".toList
  counts : ∃ v, attrVal d.data "no_row_counts".toList = some v ∧ v ≠ []
  params : ((d.attrsOf .param).filter fun as => attrVal as "fixed_value".toList = none).map nameType =
    l.params.map fun f => (f.1, f.2.name)
  cols : (d.attrsOf .col).map nameType = l.cols.map fun f => (f.1, f.2.name)
  fixed : ∀ as ∈ d.attrsOf .param, ∀ v, attrVal as "fixed_value".toList = some v →
    ∃ x, parseFixed ft (nameType as).2 v = .ok x
  noLength : ∀ as ∈ d.attrsOf .col, attrVal as "field_length".toList = none

/-- The same reader for a header without the entry. -/
def Reader.counted (r : Reader) : Reader := { r with noRowCounts := false }

theorem Reader.getParams_counted (r : Reader) (ks : List Dtype) : ∀ (acc : List Arr) (p : Pos), r.counted.getParams ks acc p = r.getParams ks acc p := by
  induction ks with
  | nil => intro acc p; rfl
  | cons k ks ih =>
    intro acc p
    unfold Reader.getParams
    have h1 : r.counted.varLen = r.varLen := rfl
    have h2 : ∀ dk, r.counted.readArr dk 1 p = r.readArr dk 1 p := fun _ => rfl
    simp only [h1, h2, ih]

theorem Reader.getRows_counted (r : Reader) (ks : List Dtype) : ∀ (n : Nat) (p : Pos), r.counted.getRows ks n p = r.getRows ks n p := by
  intro n
  induction n with
  | zero => intro p; rfl
  | succ n ih =>
    intro p
    unfold Reader.getRows
    simp only [Reader.getParams_counted, ih]

theorem Reader.getCols_counted (r : Reader) (n : Nat) (p : Pos) : r.counted.getCols n p = r.getCols n p := by
  unfold Reader.getCols
  have h1 : r.counted.colKeys = r.colKeys := rfl
  rw [h1]
  simp only [Reader.getRows_counted]
  rfl

/-- The whole first page, as `read([0])` sees it: the parameters are found, and the number of rows is the number of bytes before the first zero byte. -/
theorem uncounted_start {ft : FloatText} {d : Doc} {l : Layout} (h : d.AnnouncesUncounted ft l) (hl : l.Ok) (hcols : l.cols ≠ []) {pg : Page}
    {maxStr : Nat} (hpg : PageOk maxStr l pg) {tail : Bytes} {fuel : Nat} (hfuel : d.comments.length + d.namelists.length + 2 ≤ fuel) :
    ∃ r, openSdds ft fuel true maxStr (utf8 d.text ++ (paramBytes pg ++ tail)) = some (.ok r) ∧ r.counted.Describes l ∧ r.buffer = true ∧ r.maxStr = maxStr ∧
      ∃ p p1 : Pos, p = ⟨r.headerEnd, r.headerEnd⟩ ∧ r.fileEnd p = false ∧ p1 = r.adv p (paramBytes pg).length ∧
        r.file.drop (r.cur p1) = tail ∧ r.cur p1 ≤ r.file.length ∧ r.getParams r.paramKeys [] p = .ok (pageArrs l pg, p1) ∧
        r.rowCount (pageArrs l pg) p1 = match bytesToZero tail with | some n => .ok n | none => .error .typeError := by
  obtain ⟨ps, hp1, hp2⟩ := params_of _ _ h.params h.fixed
  obtain ⟨cs, hc1, hc2⟩ := cols_of _ _ h.cols h.noLength
  obtain ⟨v, hv, hv0⟩ := h.counts
  let r : Reader := {
        file := utf8 d.text ++ (paramBytes pg ++ tail), buffer := true, maxStr := maxStr,
        headerEnd := (utf8 d.text).length, lineCount := d.namelists.length + 2,
        params := ps, cols := cs, ascii := false,
        noRowCounts := textTrue (attrVal d.data "no_row_counts".toList) }
  have hd : r.counted.Describes l := ⟨rfl, rfl, hp2, hc2⟩
  have hr : openSdds ft fuel true maxStr (utf8 d.text ++ (paramBytes pg ++ tail)) = some (.ok r) := open_doc ft h.ok _ hfuel true maxStr hp1 hc1 h.mode
  have hcur : r.cur ⟨r.headerEnd, r.headerEnd⟩ = (utf8 d.text).length := rfl
  have hdrop : r.counted.file.drop (r.counted.cur ⟨r.headerEnd, r.headerEnd⟩) = paramBytes pg ++ tail := by
    show (utf8 d.text ++ (paramBytes pg ++ tail)).drop (utf8 d.text).length = _
    rw [List.drop_left]
  have hlen : 4 ≤ (paramBytes pg).length := by
    unfold paramBytes
    rw [List.length_append, leBytes_length]
    omega
  have hflen : r.file.length = (utf8 d.text).length + ((paramBytes pg).length + tail.length) := by
    show (utf8 d.text ++ (paramBytes pg ++ tail)).length = _
    rw [List.length_append, List.length_append]
  have hle : r.counted.cur ⟨r.headerEnd, r.headerEnd⟩ ≤ r.counted.file.length := by
    show (utf8 d.text).length ≤ r.file.length
    omega
  have hget := Reader.pageParams_ok (r := r.counted) hd hl (pg := pg) hpg (p := ⟨r.headerEnd, r.headerEnd⟩) (fun hb => by cases hb) hdrop hle
  rw [Reader.getParams_counted] at hget
  have hdrop1 : r.file.drop (r.cur (r.adv ⟨r.headerEnd, r.headerEnd⟩ (paramBytes pg).length)) = tail := by
    rw [Reader.cur_adv, ← List.drop_drop]
    have : r.file.drop (r.cur ⟨r.headerEnd, r.headerEnd⟩) = paramBytes pg ++ tail := hdrop
    rw [this, List.drop_left]
  refine ⟨r, hr, hd, rfl, rfl, _, _, rfl, ?_, rfl, hdrop1, ?_, hget, ?_⟩
  · unfold Reader.fileEnd
    rw [if_pos (show r.buffer = true from rfl), decide_eq_false_iff_not]
    show ¬ r.file.length ≤ (utf8 d.text).length
    omega
  · rw [Reader.cur_adv, hcur]
    omega
  · have hcne : r.cols ≠ [] := by
      intro h0
      have := hd.cols
      rw [show r.counted.cols = r.cols from rfl, h0] at this
      exact hcols (List.map_eq_nil_iff.1 this.symm)
    have hn : r.noRowCounts = true := by
      show textTrue (attrVal d.data "no_row_counts".toList) = true
      rw [hv]
      simpa [textTrue] using hv0
    unfold Reader.rowCount
    rw [if_neg hcne, hn, if_neg (by simp), if_pos (show r.buffer = true from rfl)]
    have : r.file.drop (r.adv ⟨r.headerEnd, r.headerEnd⟩ (paramBytes pg).length).position = tail := hdrop1
    rw [this]
    cases bytesToZero tail <;> rfl

/-- **C148 is false.** If the first zero byte of the rows is at place `z`, `read([0])` returns `z` rows of the first page, whatever its row count (`z` at most the
number of rows; no rows at all if the first byte is zero). `rest` is what follows the first page. -/
theorem uncounted_fails {ft : FloatText} {d : Doc} {l : Layout} (h : d.AnnouncesUncounted ft l) (hl : l.Ok) (hcols : l.cols ≠ []) {pg : Page}
    {maxStr : Nat} (hpg : PageOk maxStr l pg) (rest : Bytes) {z : Nat} (hz : z ≤ pg.rows.length) {first more : Bytes}
    (hrows : (pg.rows.flatMap (·.flatMap encodeVal)) ++ rest = first ++ 0 :: more) (h0 : (0 : UInt8) ∉ first) (hfirst : first.length = z) {fuel : Nat}
    (hfuel : d.comments.length + d.namelists.length + 2 ≤ fuel) :
    ∃ r, openSdds ft fuel true maxStr (utf8 d.text ++ (encodePage pg ++ rest)) = some (.ok r) ∧
      ∀ fuel', 2 ≤ fuel' → r.read fuel' (some [0]) = some (.ok ⟨[[paramRecord l pg]], if z = 0 then [] else [(rowRecords l pg).take z]⟩) := by
  have e : encodePage pg ++ rest = paramBytes pg ++ (colBytes pg ++ rest) := by rw [encodePage_eq, List.append_assoc]
  rw [e]
  obtain ⟨r, h1, h2, h3, h4, p, p1, h5, h6, h7, h8, h9, h10, h11⟩ := uncounted_start h hl hcols hpg (tail := colBytes pg ++ rest) hfuel
  refine ⟨r, h1, ?_⟩
  intro fuel' hf'
  subst h4
  have hz' : bytesToZero (colBytes pg ++ rest) = some z := by
    unfold bytesToZero colBytes
    rw [hrows, if_pos (by simp), List.takeWhile_append_of_pos, List.takeWhile_cons_of_neg (by simp)]
    · simpa using hfirst
    · intro b hb
      rw [decide_eq_true_eq]
      rintro rfl
      exact h0 hb
  rw [hz'] at h11
  simp only at h11
  have hpage : ∃ p2, r.readPage false true p ⟨[], []⟩ = .ok (⟨[[paramRecord l pg]], if z = 0 then [] else [(rowRecords l pg).take z]⟩, p2) := by
    unfold Reader.readPage
    rw [h10]
    simp only [bind, Except.bind, if_true, Reader.pageParams_merge hl hpg, h11, List.nil_append]
    by_cases hz0 : z = 0
    · rw [if_pos hz0, if_pos hz0]
      exact ⟨_, rfl⟩
    · rw [if_neg hz0, if_neg hz0]
      simp only [Bool.or_true, Bool.true_or, if_true]
      have hpg' : PageOk r.counted.maxStr l { pg with rows := pg.rows.take z } :=
        ⟨hpg.1, fun row hr => hpg.2.1 row (List.mem_of_mem_take hr), by
          have := hpg.2.2.1
          rw [List.length_take]
          omega, hpg.2.2.2.1, fun row hr => hpg.2.2.2.2 row (List.mem_of_mem_take hr)⟩
      have hsplit : colBytes pg = colBytes { pg with rows := pg.rows.take z } ++ (pg.rows.drop z).flatMap (·.flatMap encodeVal) := by
        unfold colBytes
        rw [← List.flatMap_append, List.take_append_drop]
      obtain ⟨cd, g1, g2⟩ := Reader.pageCols_ok (r := r.counted) h2 hl hpg' hcols (by
          intro hc
          have h12 := congrArg List.length hc
          rw [List.length_nil, List.length_take] at h12
          omega) (p := p1) (fun hb => by
            have : r.buffer = false := hb
            rw [h3] at this
            cases this) (rest := (pg.rows.drop z).flatMap (·.flatMap encodeVal) ++ rest) (by
            have : r.counted.file.drop (r.counted.cur p1) = colBytes pg ++ rest := h8
            rw [this, hsplit, List.append_assoc]) h9
      rw [Reader.getCols_counted] at g1
      rw [show ({ pg with rows := pg.rows.take z } : Page).rows.length = z by
        rw [List.length_take]
        omega] at g1
      have g2' : addPage r.maxStr cd = _ := g2
      rw [g1]
      simp only [g2']
      refine ⟨r.counted.adv p1 (colBytes { pg with rows := pg.rows.take z }).length, ?_⟩
      rw [show rowRecords l { pg with rows := pg.rows.take z } = (rowRecords l pg).take z by
        unfold rowRecords
        rw [List.map_take]]
  obtain ⟨p2, hpage⟩ := hpage
  obtain ⟨fuel', rfl⟩ : ∃ k, fuel' = k + 2 := ⟨fuel' - 2, by omega⟩
  have hloop : r.pageLoop (some [0]) (fuel' + 2) 0 p ⟨[], []⟩ = some (.ok ⟨[[paramRecord l pg]], if z = 0 then [] else [(rowRecords l pg).take z]⟩) := by
    unfold Reader.pageLoop
    rw [if_neg (by simp [pastPages]), h6, if_neg (by simp)]
    have hpage' : r.readPage (some [0]).isNone (wantedPage (some [0]) 0) p ⟨[], []⟩ = _ := hpage
    rw [hpage']
    simp only
    unfold Reader.pageLoop
    rw [if_pos (by simp [pastPages])]
  unfold Reader.read
  rw [if_neg (by simp), h3]
  simp only [if_true]
  rw [← h5, hloop]
  simp only [bind, Except.bind]
  by_cases hz0 : z = 0
  · simp [hz0, concat]
  · simp [hz0, concat]

/-- **C148, no zero byte.** If there is no zero byte after the parameters of the first page, `read()` raises TypeError. -/
theorem uncounted_none_fails {ft : FloatText} {d : Doc} {l : Layout} (h : d.AnnouncesUncounted ft l) (hl : l.Ok) (hcols : l.cols ≠ []) {pg : Page}
    {maxStr : Nat} (hpg : PageOk maxStr l pg) (rest : Bytes) (h0 : (0 : UInt8) ∉ (pg.rows.flatMap (·.flatMap encodeVal)) ++ rest) {fuel : Nat}
    (hfuel : d.comments.length + d.namelists.length + 2 ≤ fuel) :
    ∃ r, openSdds ft fuel true maxStr (utf8 d.text ++ (encodePage pg ++ rest)) = some (.ok r) ∧
      ∀ fuel', 0 < fuel' → r.read fuel' none = some (.error .typeError) := by
  have e : encodePage pg ++ rest = paramBytes pg ++ (colBytes pg ++ rest) := by rw [encodePage_eq, List.append_assoc]
  rw [e]
  obtain ⟨r, h1, h2, h3, h4, p, p1, h5, h6, h7, h8, h9, h10, h11⟩ := uncounted_start h hl hcols hpg (tail := colBytes pg ++ rest) hfuel
  refine ⟨r, h1, ?_⟩
  intro fuel' hf'
  subst h4
  have hz' : bytesToZero (colBytes pg ++ rest) = none := by
    unfold bytesToZero colBytes
    rw [if_neg (by simpa using h0)]
  rw [hz'] at h11
  simp only at h11
  have hpage : r.readPage true true p ⟨[], []⟩ = .error .typeError := by
    unfold Reader.readPage
    rw [h10]
    simp only [bind, Except.bind, if_true, Reader.pageParams_merge hl hpg, h11]
  obtain ⟨fuel', rfl⟩ : ∃ k, fuel' = k + 1 := ⟨fuel' - 1, by omega⟩
  have hloop : r.pageLoop none (fuel' + 1) 0 p ⟨[], []⟩ = some (.error .typeError) := by
    unfold Reader.pageLoop
    rw [if_neg (by simp [pastPages]), h6, if_neg (by simp)]
    have hpage' : r.readPage (none : Option (List Nat)).isNone (wantedPage none 0) p ⟨[], []⟩ = _ := hpage
    rw [hpage']
  unfold Reader.read
  rw [if_neg (by simp), h3]
  simp only [if_true]
  rw [← h5, hloop]

/-! ## Examples -/

/-- The columns of `exDoc`, with the entry. -/
def exDocUncounted : Doc := { exDoc with data := [exAttr "mode" "binary", exAttr "no_row_counts" "1"] }

theorem exDocUncounted_announces : exDocUncounted.AnnouncesUncounted exText exLayout where
  ok := by decide +kernel
  mode := by decide +kernel
  counts := ⟨"1".toList, by decide +kernel, by decide +kernel⟩
  params := exDoc_announces.params
  cols := exDoc_announces.cols
  fixed := exDoc_announces.fixed
  noLength := exDoc_announces.noLength

/-- The first page of `exPages`. -/
def exPageOne : Page := ⟨[.num .double 7], [[.num .double 1, .num .long 2], [.num .double 3, .num .long 4]]⟩

/-- Of two rows, only one is read, because the second byte is zero. -/
example : ∃ r, openSdds exText 20 true 50 (utf8 exDocUncounted.text ++ (encodePage exPageOne ++ [])) = some (.ok r) ∧
    ∀ fuel', 2 ≤ fuel' → r.read fuel' (some [0]) = some (.ok ⟨[[paramRecord exLayout exPageOne]],
      if 1 = 0 then [] else [(rowRecords exLayout exPageOne).take 1]⟩) :=
  uncounted_fails exDocUncounted_announces exLayout_ok (by decide) (exPages_ok 50 exPageOne (by simp [exPages, exPageOne])) [] (z := 1) (by decide) (first := [1])
    (more := (exPageOne.rows.flatMap (·.flatMap encodeVal)).drop 2) (by decide +kernel) (by decide) rfl (by decide)

/-- A row without a zero byte. -/
def exPageFull : Page := ⟨[.num .double 7], [[.num .double 0x0101010101010101, .num .long 0x01010101]]⟩

example : ∃ r, openSdds exText 20 true 50 (utf8 exDocUncounted.text ++ (encodePage exPageFull ++ [])) = some (.ok r) ∧
    ∀ fuel', 0 < fuel' → r.read fuel' none = some (.error .typeError) :=
  uncounted_none_fails exDocUncounted_announces exLayout_ok (by decide) (by simp [exPageFull, PageOk, exLayout, Fits, FType.size]) []
    (by decide +kernel) (by decide)

end Verif.Sdds
