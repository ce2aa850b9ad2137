import Verif.Sdds.LemmasCutU
import Verif.Sdds.PropsCut

/-!
# Property C123: cut files that are read without buffer
-/

namespace Verif.Sdds

theorem paramDks_last (fs : List (Str × Val)) (hne : fs ≠ []) (hn : ∀ f ∈ fs, f.1 ≠ recLenName) :
    ∃ dk, (paramDks fs).getLast? = some dk ∧ (dk.map Prod.fst).all (· = recLenName) = false := by
  induction fs with
  | nil => exact absurd rfl hne
  | cons f fs ih =>
    by_cases h0 : fs = []
    · subst h0
      have hf := hn f (by simp)
      obtain ⟨n, v⟩ := f
      cases v with
      | num t x => exact ⟨[(n, .num t)], rfl, by simpa using hf⟩
      | str s => exact ⟨[(n, .strRaw)], rfl, by simpa using hf⟩
    · obtain ⟨dk, h1, h2⟩ := ih h0 (fun g hg => hn g (List.mem_cons_of_mem _ hg))
      refine ⟨dk, ?_, h2⟩
      obtain ⟨n, v⟩ := f
      cases v <;> simp [paramDks, List.getLast?_cons, h1]

theorem colDks_last (fs : List (Str × Val)) : ∀ (cur : Dtype), (fs = [] → (cur.map Prod.fst).all (· = recLenName) = false) →
    (∀ f ∈ fs, f.1 ≠ recLenName) → ∃ dk, (colDks fs cur).getLast? = some dk ∧ (dk.map Prod.fst).all (· = recLenName) = false := by
  induction fs with
  | nil => intro cur h _; exact ⟨cur, rfl, h rfl⟩
  | cons f fs ih =>
    intro cur _ hn
    have hf := hn f (by simp)
    have hn' : ∀ g ∈ fs, g.1 ≠ recLenName := fun g hg => hn g (List.mem_cons_of_mem _ hg)
    obtain ⟨n, v⟩ := f
    cases v with
    | num t x =>
      obtain ⟨dk, h1, h2⟩ := ih (cur ++ [(n, .num t)]) (by intro; simp [hf]) hn'
      exact ⟨dk, by simpa [colDks] using h1, h2⟩
    | str s =>
      obtain ⟨dk, h1, h2⟩ := ih [(n, .strRaw)] (by intro; simp [hf]) hn'
      exact ⟨dk, by simp [colDks, List.getLast?_cons, h1], h2⟩

/-- The whole file behind a cut one. -/
def Reader.withTail (r : Reader) (tail : Bytes) : Reader := { r with file := r.file ++ tail }

theorem Reader.withTail_cut (r : Reader) (tail : Bytes) : (r.withTail tail).cutTo r.file.length = r := by
  unfold Reader.withTail Reader.cutTo
  simp

theorem Reader.withTail_describes {r : Reader} {l : Layout} (h : r.Describes l) (tail : Bytes) : (r.withTail tail).Describes l :=
  ⟨h.binary, h.counts, h.params, h.cols⟩

theorem Reader.paramKeys_page {r : Reader} {l : Layout} (hd : r.Describes l) {pg : Page} (hpg : PageOk r.maxStr l pg) :
    r.paramKeys = paramDks (rcField pg.rows.length :: fields l.params pg.params) := by
  unfold Reader.paramKeys
  rw [hd.binary]
  simp only [Bool.not_false, if_true]
  rw [paramKeys_fields r.params r.maxStr l.params hd.params, ← paramDks_fields hpg.1]
  rfl

theorem fields_names_ne {m : Nat} {fs : List (Str × SType)} {vs : List Val} (h : List.Forall₂ (fun f v => Fits m f.2 v) fs vs)
    (hn : recLenName ∉ fs.map Prod.fst) : ∀ f ∈ fields fs vs, f.1 ≠ recLenName := by
  intro f hf he
  apply hn
  rw [← (fields_spec h).1, ← he]
  exact List.mem_map.mpr ⟨f, hf, rfl⟩

theorem paramDks_len (fs : List (Str × Val)) : fs.length ≤ (paramDks fs).length := by
  induction fs with
  | nil => simp
  | cons f fs ih =>
    obtain ⟨n, v⟩ := f
    cases v <;> simp [paramDks] <;> omega

/-- A page that ends within its parameters. -/
theorem Reader.readPage_cutParams {r : Reader} {l : Layout} (hd : r.Describes l) (hl : l.Ok) (hb : r.buffer = false) {pg : Page}
    (hpg : PageOk r.maxStr l pg) (hcols : l.cols ≠ []) {p : Pos} (h0 : p.position = 0) (hp : p.ptr ≤ r.file.length) {k : Nat}
    (hf : r.file.drop p.ptr = (encodePage pg).take k) (hk : k < (paramBytes pg).length) (acc : Pages) :
    ∃ e, r.readPage true true p acc = .error e := by
  set full := r.withTail ((encodePage pg).drop k) with hfull
  have hdf : full.Describes l := Reader.withTail_describes hd _
  have hbf : full.buffer = false := hb
  have hcur : full.cur p = p.ptr := by simp [Reader.cur, hbf]
  have hfile : full.file = r.file ++ (encodePage pg).drop k := rfl
  have hkl : k ≤ (encodePage pg).length := by rw [encodePage_eq, List.length_append]; omega
  have hlen : r.file.length = p.ptr + k := by
    have := congrArg List.length hf
    rw [List.length_drop, List.length_take, Nat.min_eq_left hkl] at this
    omega
  have hdrop : full.file.drop (full.cur p) = paramBytes pg ++ colBytes pg := by
    rw [hcur, hfile, List.drop_append_of_le_length hp, hf, List.take_append_drop, encodePage_eq]
  have hcle : full.cur p ≤ full.file.length := by rw [hcur, hfile, List.length_append]; omega
  have hpar := Reader.pageParams_ok hdf hl hpg (fun _ => h0) hdrop hcle
  have hcut := Reader.getParams_cutU hbf (n := r.file.length) (by rw [hfile, List.length_append]; omega) _ _ p _ _ h0 (by omega) hpar
  have hadv : (full.adv p (paramBytes pg).length).ptr = p.ptr + (paramBytes pg).length := by simp [Reader.adv, hbf]
  have hcut := hcut.2.2.2 (by rw [hadv]; omega)
  rw [hfull, Reader.withTail_cut] at hcut
  have hkeys : (r.withTail ((encodePage pg).drop k)).paramKeys = r.paramKeys := rfl
  rw [hkeys] at hcut
  unfold Reader.readPage
  rcases hcut with ⟨e, he⟩ | ⟨arrs, he, hal, hbad⟩
  · exact ⟨e, by rw [he]; rfl⟩
  · rw [he]
    simp only [bind, Except.bind, List.nil_append, if_true]
    have hnames : ∀ f ∈ rcField pg.rows.length :: fields l.params pg.params, f.1 ≠ recLenName := by
      intro f hf
      rcases List.mem_cons.mp hf with rfl | hf
      · exact rowCounts_ne
      · exact fields_names_ne hpg.1 hl.2.1 f hf
    obtain ⟨dk, h1, h2⟩ := paramDks_last _ (by simp) hnames
    rw [← Reader.paramKeys_page hd hpg] at h1
    have hb2 := hbad dk h1
    by_cases h1l : arrs.length = 1
    · have hsingle : r.paramKeys = [dk] := by
        have : r.paramKeys.length = 1 := by omega
        obtain ⟨x, hx⟩ := List.length_eq_one_iff.mp this
        rw [hx] at h1 ⊢
        simpa using h1
      obtain ⟨a, rfl⟩ := List.length_eq_one_iff.mp h1l
      obtain ⟨a', ha, har, -⟩ := hb2
      simp only [List.getLast?_singleton, Option.some.injEq] at ha
      subst ha
      have hr : r.cols ≠ [] := by
        intro h
        have := hd.cols
        rw [h, List.map_nil] at this
        exact hcols (List.map_eq_nil_iff.mp this.symm)
      have hrc : ∃ e, r.rowCount [a] ⟨0, r.file.length⟩ = .error e := by
        unfold Reader.rowCount
        rw [if_neg hr, hd.counts]
        simp only [Bool.not_false, if_true]
        cases hfd : List.find? (fun a : Arr => (a.dt.head?.map Prod.fst) = some rowCountsName) [a] with
        | none => exact ⟨_, rfl⟩
        | some b =>
          have : b = a := by simpa using List.mem_of_find?_eq_some hfd
          subst this
          simp [har]
      obtain ⟨e, hrc⟩ := hrc
      simp only [addPage, merge, List.mapM_cons, List.mapM_nil, bind, Except.bind, pure, Except.pure, hrc]
      exact ⟨e, rfl⟩
    · obtain ⟨e, he2⟩ := addPage_bad (m := r.maxStr) (rows := [arrs]) (by simp) hb2 h2 h1l
      rw [he2]
      exact ⟨e, rfl⟩

/-- The reader behind the parameters of a cut page. -/
theorem Reader.cutPage_params {r : Reader} {l : Layout} (hd : r.Describes l) (hl : l.Ok) (hb : r.buffer = false) {pg : Page}
    (hpg : PageOk r.maxStr l pg) {p : Pos} (h0 : p.position = 0) (hp : p.ptr ≤ r.file.length) {k : Nat}
    (hf : r.file.drop p.ptr = (encodePage pg).take k) (hk : (paramBytes pg).length ≤ k) (hk' : k < (encodePage pg).length) :
    r.getParams r.paramKeys [] p = .ok (pageArrs l pg, ⟨0, p.ptr + (paramBytes pg).length⟩) ∧
      r.file.drop (p.ptr + (paramBytes pg).length) = (colBytes pg).take (k - (paramBytes pg).length) ∧ r.file.length = p.ptr + k := by
  have hcur : r.cur p = p.ptr := by simp [Reader.cur, hb]
  have hbody : (encodePage pg).take k = paramBytes pg ++ (colBytes pg).take (k - (paramBytes pg).length) := by
    obtain ⟨m, rfl⟩ : ∃ m, k = (paramBytes pg).length + m := ⟨k - (paramBytes pg).length, by omega⟩
    rw [encodePage_eq, List.take_length_add_append]
    congr 2
    omega
  refine ⟨?_, ?_, ?_⟩
  · rw [Reader.pageParams_ok hd hl hpg (fun _ => h0) (by rw [hcur, hf, hbody]) (by rw [hcur]; exact hp)]
    simp [Reader.adv, hb, h0]
  · rw [← List.drop_drop, hf, hbody, List.drop_left]
  · have := congrArg List.length hf
    rw [List.length_drop, List.length_take, Nat.min_eq_left hk'.le] at this
    omega

theorem rows_of_cut {pg : Page} {k : Nat} (hk : (paramBytes pg).length ≤ k) (hk' : k < (encodePage pg).length) : pg.rows ≠ [] := by
  intro h
  rw [encodePage_eq, List.length_append] at hk'
  simp [colBytes, h] at hk'
  omega

/-- A page that ends within its columns, some of which are strings. -/
theorem Reader.readPage_cutStrings {r : Reader} {l : Layout} (hd : r.Describes l) (hl : l.Ok) (hb : r.buffer = false) {pg : Page}
    (hpg : PageOk r.maxStr l pg) (hcols : l.cols ≠ []) (hs : SType.str ∈ l.cols.map Prod.snd) {p : Pos} (h0 : p.position = 0) (hp : p.ptr ≤ r.file.length) {k : Nat}
    (hf : r.file.drop p.ptr = (encodePage pg).take k) (hk : (paramBytes pg).length ≤ k) (hk' : k < (encodePage pg).length) (acc : Pages) :
    ∃ e, r.readPage true true p acc = .error e := by
  obtain ⟨g1, g2, g3⟩ := Reader.cutPage_params hd hl hb hpg h0 hp hf hk hk'
  have hrows := rows_of_cut hk hk'
  set p1 : Pos := ⟨0, p.ptr + (paramBytes pg).length⟩ with hp1
  set full := r.withTail ((encodePage pg).drop k) with hfull
  have hdf : full.Describes l := Reader.withTail_describes hd _
  have hbf : full.buffer = false := hb
  have hfile : full.file = r.file ++ (encodePage pg).drop k := rfl
  have hcur : full.cur p1 = p.ptr + (paramBytes pg).length := by simp [Reader.cur, hbf, hp1]
  have hdrop : full.file.drop (full.cur p1) = colBytes pg ++ [] := by
    rw [hcur, hfile, List.append_nil, List.drop_append_of_le_length (by omega), g2, encodePage_eq, List.drop_append,
      List.drop_eq_nil_of_le hk, List.nil_append, List.take_append_drop]
  have hlen : (encodePage pg).length = (paramBytes pg).length + (colBytes pg).length := by rw [encodePage_eq, List.length_append]
  have hle : full.cur p1 ≤ full.file.length := by rw [hcur, hfile, List.length_append]; omega
  have hgr := Reader.getRows_ok hdf hl hcols pg.rows p1 (fun _ => rfl) hpg.2.1 hpg.2.2.2.2 [] hdrop hle
  obtain ⟨row, hrow⟩ := List.exists_mem_of_ne_nil _ hrows
  have h := hpg.2.1 row hrow
  have hgroups := colDks_fields h r.cols [] hd.cols
  have hne : fields l.cols row ≠ [] := by
    obtain ⟨f, hf, -⟩ := fields_has_str h hs
    exact List.ne_nil_of_mem hf
  obtain ⟨dk, h1, h2⟩ := colDks_last (fields l.cols row) [] (fun e => absurd e hne) (fields_names_ne h hl.2.2.2)
  have hgc : full.cols = r.cols := rfl
  rw [hgc, hgroups] at hgr
  have hcut := Reader.getRows_cutU hbf (n := r.file.length) (by rw [hfile, List.length_append]; omega) h1 _ p1 _ _ rfl (by simp only [hp1]; omega) hgr
    (by simp only [Reader.adv, hbf, hp1, Bool.false_eq_true, if_false]
        have : (pg.rows.flatMap (·.flatMap encodeVal)).length = (colBytes pg).length := rfl
        omega)
  rw [hfull, Reader.withTail_cut] at hcut
  have hcne : r.cols ≠ [] := by
    intro h
    have := hd.cols
    rw [h, List.map_nil] at this
    exact hcols (List.map_eq_nil_iff.mp this.symm)
  have hk0 : r.colKeys = colDks (fields l.cols row) [] := by
    unfold Reader.colKeys
    rw [if_neg hcne, hd.binary, if_neg (by simp), hgroups]
  have hgetCols : r.getCols pg.rows.length p1 = r.getRows (colDks (fields l.cols row) []) pg.rows.length p1 := by
    unfold Reader.getCols
    rw [hk0]
    split
    · rename_i dk he
      exact absurd he (colDks_not_single _ _ (fields_has_str h hs) dk)
    · rfl
  have hlen1 : (colDks (fields l.cols row) []).length ≠ 1 := by
    intro hl1
    obtain ⟨x, hx⟩ := List.length_eq_one_iff.mp hl1
    exact colDks_not_single _ _ (fields_has_str h hs) x hx
  unfold Reader.readPage
  rw [g1]
  simp only [bind, Except.bind, if_true, Reader.pageParams_merge hl hpg, Reader.pageRowCount hd hpg hcols]
  rw [if_neg (by simpa using hrows)]
  simp only [Bool.or_true, Bool.true_or, if_true, hgetCols]
  rcases hcut with ⟨e, he⟩ | ⟨rows', q, he, rw', hm, hrl, hbad⟩
  · exact ⟨e, by rw [he]⟩
  · rw [he]
    obtain ⟨e, he2⟩ := addPage_bad (m := r.maxStr) hm hbad h2 (by rw [hrl]; exact hlen1)
    exact ⟨e, by simp only [he2]⟩

/-- A page of numbers that ends within its columns. -/
theorem Reader.readPage_cutNumbers {r : Reader} {l : Layout} (hd : r.Describes l) (hl : l.Ok) (hb : r.buffer = false) {pg : Page}
    (hpg : PageOk r.maxStr l pg) (hcols : l.cols ≠ []) (hs : SType.str ∉ l.cols.map Prod.snd) {p : Pos} (h0 : p.position = 0) (hp : p.ptr ≤ r.file.length) {j k : Nat}
    (hj : j < pg.rows.length)
    (hf : r.file.drop p.ptr = (encodePage pg).take k) (hk : (paramBytes pg).length + rowSize l.cols * j ≤ k)
    (hk' : k < (paramBytes pg).length + rowSize l.cols * (j + 1)) (acc : Pages) :
    r.readPage true true p acc = .ok (⟨acc.params ++ [[paramRecord l pg]], acc.cols ++ [(rowRecords l pg).take j]⟩, ⟨0, r.file.length⟩) := by
  have hrows : pg.rows ≠ [] := by rintro h0; rw [h0] at hj; simp at hj
  have hsz := rowSize_pos hpg hcols hs hrows
  have hmono : rowSize l.cols * (j + 1) ≤ rowSize l.cols * pg.rows.length := Nat.mul_le_mul_left _ hj
  have hel : (encodePage pg).length = (paramBytes pg).length + rowSize l.cols * pg.rows.length := by
    rw [encodePage_eq, List.length_append, colBytes_length hpg hs]
  obtain ⟨g1, g2, g3⟩ := Reader.cutPage_params hd hl hb hpg h0 hp hf (by omega) (by omega)
  set rest := (colBytes pg).take (k - (paramBytes pg).length) with hrest
  have havail : (r.file.length - (p.ptr + (paramBytes pg).length)) / rowSize l.cols = j := by
    have : r.file.length - (p.ptr + (paramBytes pg).length) = k - (paramBytes pg).length := by omega
    rw [this]
    refine Nat.div_eq_of_lt_le ?_ ?_
    · rw [Nat.mul_comm]; omega
    · rw [Nat.mul_comm]
      omega
  have hrec : decodeRows (numDt l.cols) (rowSize l.cols) j rest = (rowRecords l pg).take j := by
    have hb : colBytes pg = (rowRecords l pg).flatMap fRaw := by
      unfold colBytes rowRecords
      rw [List.flatMap_map]
      refine List.flatMap_congr ?_
      intro row hrow
      exact (encFs_size (hpg.2.1 row hrow) hs).2.symm
    have hdec : decodeRows (numDt l.cols) (rowSize l.cols) j rest = decodeRows (numDt l.cols) (rowSize l.cols) j (colBytes pg) := by
      rw [hrest, decodeRows_take _ _ (itemSize_widths (itemSize_numDt hl hpg hs hrows))]
      rw [Nat.mul_comm]
      omega
    rw [hdec, hb]
    have hj2 : j = ((rowRecords l pg).take j).length := by simp [rowRecords]; omega
    have hsplit : (rowRecords l pg).flatMap fRaw = ((rowRecords l pg).take j).flatMap fRaw ++ ((rowRecords l pg).drop j).flatMap fRaw := by
      rw [← List.flatMap_append, List.take_append_drop]
    rw [hsplit]
    generalize ((rowRecords l pg).drop j).flatMap fRaw = tl
    have hraw := decodeRows_raw (m := r.maxStr) (dk := numDt l.cols) (size := rowSize l.cols) ((rowRecords l pg).take j) ?_ tl
    · rw [← hj2] at hraw
      exact hraw
    intro fs hfs
    obtain ⟨row, hrow, rfl⟩ := List.mem_map.mp (List.mem_of_mem_take hfs)
    have h := hpg.2.1 row hrow
    exact ⟨(fields_spec h).2.1, fDt_fields h hs, (encFs_size h hs).1⟩
  have hcolread : r.getCols pg.rows.length ⟨0, p.ptr + (paramBytes pg).length⟩ =
      .ok ([[⟨numDt l.cols, (rowRecords l pg).take j⟩]], ⟨0, r.file.length⟩) := by
    unfold Reader.getCols
    rw [Reader.colKeys_num hd hpg hcols hs hrows]
    simp only [Reader.readArr, hb, Bool.false_eq_true, if_false, fromfile, itemSize_numDt hl hpg hs hrows, bind, Except.bind, Nat.add_zero]
    rw [if_neg (by omega), havail, if_pos hj]
    simp only [g2, hrec]
    rw [Nat.max_eq_right (by omega)]
  unfold Reader.readPage
  rw [g1]
  simp only [bind, Except.bind, if_true, Reader.pageParams_merge hl hpg, Reader.pageRowCount hd hpg hcols]
  rw [if_neg (by simpa using hrows)]
  simp only [Bool.or_true, Bool.true_or, if_true, hcolread]
  simp [addPage, merge, bind, Except.bind, pure, Except.pure]

/-- The loop over complete pages that something follows. -/
theorem Reader.pageLoop_prefix {r : Reader} {l : Layout} (hd : r.Describes l) (hl : l.Ok) (hb : r.buffer = false) (before : List Page) :
    (∀ q ∈ before, PageOk r.maxStr l q) → (∀ q ∈ before, MarkOk q) → ∀ (fuel i : Nat) (p : Pos) (acc : Pages) (rest : Bytes), p.position = 0 →
    r.file.drop p.ptr = before.flatMap encodePage ++ rest → p.ptr ≤ r.file.length →
    r.pageLoop none (before.length + fuel) i p acc =
      r.pageLoop none fuel (i + before.length) ⟨0, p.ptr + (before.flatMap encodePage).length⟩ (acc.append (pagesOf l before)) := by
  have hcur : ∀ p, r.cur p = p.ptr := by intro p; simp [Reader.cur, hb]
  induction before with
  | nil =>
    intro _ _ fuel i p acc rest h0 _ _
    rw [Pages.append_nil]
    obtain ⟨a, b⟩ := p
    simp only at h0
    subst h0
    simp
  | cons q before ih =>
    intro hok hm fuel i p acc rest h0 hf hle
    rw [List.flatMap_cons, List.append_assoc] at hf
    have hq := hok q (by simp)
    have hadv : r.adv p (encodePage q).length = ⟨0, p.ptr + (encodePage q).length⟩ := by simp [Reader.adv, hb, h0]
    have e : (q :: before).length + fuel = (before.length + fuel) + 1 := by simp; omega
    rw [e]
    conv_lhs => unfold Reader.pageLoop
    rw [Reader.fileEnd_page (by rw [hcur]; exact hf) (fun _ => hm q (by simp)),
      Option.isNone_none, show wantedPage none i = true from rfl, Reader.readPage_keep hd hl hq (fun _ => h0) true (by rw [hcur]; exact hf) (by rw [hcur]; exact hle) acc, hadv]
    simp only [pastPages, Bool.false_eq_true, if_false]
    have hlen : p.ptr + (encodePage q).length ≤ r.file.length := by
      have := congrArg List.length hf
      rw [List.length_drop, List.length_append] at this
      omega
    rw [ih (fun x hx => hok x (List.mem_cons_of_mem _ hx)) (fun x hx => hm x (List.mem_cons_of_mem _ hx)) fuel (i + 1) ⟨0, p.ptr + (encodePage q).length⟩ _ rest rfl
      (by rw [← List.drop_drop, hf, List.drop_left]) hlen]
    have e2 : (acc.append (pagesOf l [q])).append (pagesOf l before) = acc.append (pagesOf l (q :: before)) := by
      unfold pagesOf Pages.append
      simp only [List.map_cons, List.map_nil, List.filter_cons, List.filter_nil]
      split_ifs <;> simp
    rw [e2, List.flatMap_cons, List.length_append]
    simp only [List.length_cons]
    congr 1
    · omega
    · congr 1; omega

/-- The end of the file is seen in the first page byte alone, and not in two bytes. -/
theorem Reader.fileEnd_cut {r : Reader} (hb : r.buffer = false) {p : Pos} {pg : Page} (hm : MarkOk pg) {k : Nat} (hk : 0 < k)
    (hf : r.file.drop p.ptr = (encodePage pg).take k) : r.fileEnd p = decide (k = 1) := by
  unfold Reader.fileEnd
  rw [hb, hf]
  have e : encodePage pg = UInt8.ofNat pg.rows.length :: UInt8.ofNat (pg.rows.length / 256) ::
      (leBytes 2 (pg.rows.length / 256 / 256) ++ (pg.params.flatMap encodeVal ++ colBytes pg)) := by
    rw [encodePage_eq, paramBytes]
    simp [leBytes]
  rw [e]
  obtain ⟨k, rfl⟩ : ∃ m, k = m + 1 := ⟨k - 1, by omega⟩
  simp only [Bool.false_eq_true, if_false, List.take_succ_cons]
  cases k with
  | zero => simp [readline]
  | succ k =>
    unfold MarkOk at hm
    rw [List.take_succ_cons]
    unfold readline
    split <;> simp [hm]

/-- The pages that `read()` gives: columns can only be stacked if all pages have the same number of rows. -/
def stacked (params : List (List Record)) (cols : List (List Record)) : Except PyErr Pages :=
  if ∀ a ∈ cols, ∀ b ∈ cols, a.length = b.length then .ok ⟨params, cols⟩ else .error .valueError

theorem concat_stacked (cols : List (List Record)) :
    concat cols = if ∀ a ∈ cols, ∀ b ∈ cols, a.length = b.length then .ok cols else .error .valueError := by
  cases cols with
  | nil => simp [concat]
  | cons a cols =>
    unfold concat
    by_cases h : ∀ x ∈ a :: cols, ∀ y ∈ a :: cols, x.length = y.length
    · rw [if_pos h]
      simp only
      rw [if_pos]
      simp only [List.all_eq_true, decide_eq_true_eq]
      intro x hx
      exact h x (by simp [hx]) a (by simp)
    · rw [if_neg h]
      simp only
      rw [if_neg]
      simp only [List.all_eq_true, decide_eq_true_eq]
      intro h2
      apply h
      have h3 : ∀ x ∈ a :: cols, x.length = a.length := by
        intro x hx
        rcases List.mem_cons.mp hx with rfl | hx
        · rfl
        · exact h2 x hx
      intro x hx y hy
      rw [h3 x hx, h3 y hy]

/-- **C123, without buffer: what happens to every cut file.** After complete pages, one byte of another page is ignored; a cut within the
parameters, or anywhere in a page with string columns, is refused; a cut within columns of numbers gives the complete rows as if the page
had no more. In the accepted cases the columns are stacked, which needs pages of equal length. -/
theorem cut_unbuffered_exact {ft : FloatText} {d : Doc} {l : Layout} (h : d.Announces ft l) (hl : l.Ok) {before : List Page} {pg : Page} {maxStr : Nat}
    (hok : ∀ q ∈ before, PageOk maxStr l q) (hm : ∀ q ∈ before, MarkOk q) (hpg : PageOk maxStr l pg) (hmg : MarkOk pg) (hcols : l.cols ≠ []) {k : Nat}
    (hk : 0 < k) (hk' : k < (encodePage pg).length) {fuel : Nat}
    (hfuel : d.comments.length + d.namelists.length + before.length + 2 ≤ fuel) :
    ∃ r, openSdds ft fuel false maxStr (cutFile d before pg k) = some (.ok r) ∧
      (k = 1 → r.read fuel none = some (stacked (before.map fun q => [paramRecord l q]) ((before.filter fun q => q.rows ≠ []).map (rowRecords l)))) ∧
      (2 ≤ k → k < (encodePage { pg with rows := [] }).length ∨ SType.str ∈ l.cols.map Prod.snd → ∃ e, r.read fuel none = some (.error e)) ∧
      (SType.str ∉ l.cols.map Prod.snd → ∀ j, (encodePage { pg with rows := pg.rows.take j }).length ≤ k →
        k < (encodePage { pg with rows := pg.rows.take (j + 1) }).length →
        r.read fuel none = some (stacked ((before ++ [pg]).map fun q => [paramRecord l q])
          ((before.filter fun q => q.rows ≠ []).map (rowRecords l) ++ [(rowRecords l pg).take j]))) := by
  obtain ⟨r, h1, h2, h3, h4, h5, h6⟩ := open_body h (before.flatMap encodePage ++ (encodePage pg).take k) (fuel := fuel) (by omega) false maxStr
  refine ⟨r, h1, ?_⟩
  subst h6
  have hp0 : (utf8 d.text).length ≤ r.file.length := by rw [h3, List.length_append]; omega
  have hd0 : r.file.drop (utf8 d.text).length = before.flatMap encodePage ++ (encodePage pg).take k := by rw [h3, List.drop_left]
  set pz : Pos := ⟨0, (utf8 d.text).length + (before.flatMap encodePage).length⟩ with hpz
  have hpzle : pz.ptr ≤ r.file.length := by simp only [hpz]; rw [h3, List.length_append, List.length_append]; omega
  have hdz : r.file.drop pz.ptr = (encodePage pg).take k := by
    simp only [hpz]
    rw [← List.drop_drop, hd0, List.drop_left]
  have hplen : (encodePage { pg with rows := [] }).length = (paramBytes pg).length := by
    rw [encodePage_eq]
    simp [paramBytes, colBytes, leBytes_length]
  have hfilt : (pagesOf l before).cols = (before.filter fun q => q.rows ≠ []).map (rowRecords l) := by
    unfold pagesOf
    simp only
    congr 1
    apply List.filter_congr
    intro q _
    unfold hasData
    cases hc : l.cols with
    | nil => exact absurd hc hcols
    | cons => cases hq : q.rows <;> simp
  obtain ⟨g, rfl⟩ : ∃ g, fuel = before.length + (g + 2) := ⟨fuel - before.length - 2, by omega⟩
  have hread : r.read (before.length + (g + 2)) none = match r.pageLoop none (g + 2) (0 + before.length) pz (pagesOf l before) with
      | none => none
      | some (.error e) => some (.error e)
      | some (.ok pg) => some ((concat pg.params).bind fun ps => (concat pg.cols).bind fun cs => .ok ⟨ps, cs⟩) := by
    unfold Reader.read
    rw [if_neg (by simp)]
    simp only [h5, Bool.false_eq_true, if_false, h4]
    rw [Reader.pageLoop_prefix h2 hl h5 before hok hm (g + 2) 0 ⟨0, (utf8 d.text).length⟩ ⟨[], []⟩ _ rfl hd0 hp0]
    have : Pages.append ⟨[], []⟩ (pagesOf l before) = pagesOf l before := by simp [Pages.append]
    rw [this]
    rfl
  have hfe := Reader.fileEnd_cut h5 hmg hk hdz
  have hstack : ∀ (ps : List (List Record)) cs, (∀ a ∈ ps, a.length = 1) →
      ((concat ps).bind fun ps => (concat cs).bind fun cs => .ok ⟨ps, cs⟩) = stacked ps cs := by
    intro ps cs hps
    rw [concat_ok hps, concat_stacked]
    unfold stacked
    by_cases hc : ∀ a ∈ cs, ∀ b ∈ cs, a.length = b.length
    · rw [if_pos hc, if_pos hc]; rfl
    · rw [if_neg hc, if_neg hc]; rfl
  refine ⟨?_, ?_, ?_⟩
  · intro hk1
    rw [hread]
    unfold Reader.pageLoop
    rw [hfe, hk1]
    simp only [pastPages, Bool.false_eq_true, if_false, decide_true, if_true]
    rw [hstack _ _ (by intro a ha; simp only [pagesOf, List.mem_map] at ha; obtain ⟨q, _, rfl⟩ := ha; rfl), hfilt]
    rfl
  · intro hk2 hcase
    have hfe : r.fileEnd pz = false := by rw [hfe]; simp; omega
    have herr : ∃ e, r.readPage true true pz (pagesOf l before) = .error e := by
      by_cases hkp : k < (paramBytes pg).length
      · exact Reader.readPage_cutParams h2 hl h5 hpg hcols rfl hpzle hdz hkp _
      · have hs : SType.str ∈ l.cols.map Prod.snd := by
          rcases hcase with hc | hc
          · rw [hplen] at hc; exact absurd hc hkp
          · exact hc
        exact Reader.readPage_cutStrings h2 hl h5 hpg hcols hs rfl hpzle hdz (by omega) hk' _
    obtain ⟨e, he⟩ := herr
    refine ⟨e, ?_⟩
    rw [hread]
    unfold Reader.pageLoop
    rw [hfe, Option.isNone_none, show wantedPage none (0 + before.length) = true from rfl, he]
    simp [pastPages]
  · intro hs j hj1 hj2
    rw [encodePage_length_cut hpg hs, List.length_take] at hj1 hj2
    have hjl : j < pg.rows.length := by
      by_contra hcon
      rw [Nat.min_eq_right (by omega)] at hj1
      have hel : (encodePage pg).length = (paramBytes pg).length + rowSize l.cols * pg.rows.length := by
        rw [encodePage_eq, List.length_append, colBytes_length hpg hs]
      omega
    rw [Nat.min_eq_left (by omega)] at hj1 hj2
    have h4' : 4 ≤ (paramBytes pg).length := by simp [paramBytes, leBytes_length]
    have hfe : r.fileEnd pz = false := by rw [hfe]; simp; omega
    have hend : r.fileEnd ⟨0, r.file.length⟩ = true := Reader.fileEnd_done (by simp [Reader.cur, h5])
    rw [hread]
    unfold Reader.pageLoop
    rw [hfe, Option.isNone_none, show wantedPage none (0 + before.length) = true from rfl,
      Reader.readPage_cutNumbers h2 hl h5 hpg hcols hs rfl hpzle hjl hdz hj1 hj2]
    simp only [pastPages, Bool.false_eq_true, if_false]
    unfold Reader.pageLoop
    rw [hend]
    simp only [pastPages, Bool.false_eq_true, if_false, if_true]
    rw [hstack, hfilt]
    · simp [pagesOf]
    · intro a ha
      simp only [pagesOf, List.mem_append, List.mem_map, List.mem_singleton] at ha
      rcases ha with ⟨q, _, rfl⟩ | rfl <;> rfl

/-! Examples: the files of C06 with the last bytes missing. -/

example : ∃ r, openSdds exText 20 false 50 (cutFile exDoc [exPages[0]] exPages[1] 30) = some (.ok r) ∧
    r.read 20 none = some (stacked ([exPages[0], exPages[1]].map fun q => [paramRecord exLayout q])
      ((([exPages[0]] : List Page).filter fun q => q.rows ≠ []).map (rowRecords exLayout) ++ [(rowRecords exLayout exPages[1]).take 1])) := by
  obtain ⟨r, h1, -, -, h2⟩ := cut_unbuffered_exact (before := [exPages[0]]) (pg := exPages[1]) (k := 30) (fuel := 20) exDoc_announces exLayout_ok
    (fun q hq => exPages_ok 50 q (by simp at hq; simp [hq])) (fun q hq => by simp at hq; subst hq; unfold MarkOk; decide)
    (exPages_ok 50 _ (by simp)) (by unfold MarkOk; decide) (by decide) (by decide) (by decide) (by decide)
  exact ⟨r, h1, h2 (by decide) 1 (by decide) (by decide)⟩

example : ∃ r, openSdds exText 20 false 50 (cutFile exDoc [exPages[0]] exPages[1] 7) = some (.ok r) ∧ ∃ e, r.read 20 none = some (.error e) := by
  obtain ⟨r, h1, -, h2, -⟩ := cut_unbuffered_exact (before := [exPages[0]]) (pg := exPages[1]) (k := 7) (fuel := 20) exDoc_announces exLayout_ok
    (fun q hq => exPages_ok 50 q (by simp at hq; simp [hq])) (fun q hq => by simp at hq; subst hq; unfold MarkOk; decide)
    (exPages_ok 50 _ (by simp)) (by unfold MarkOk; decide) (by decide) (by decide) (by decide) (by decide)
  exact ⟨r, h1, h2 (by decide) (Or.inl (by decide))⟩

end Verif.Sdds
