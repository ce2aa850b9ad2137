import Verif.Sdds.LemmasCut

/-!
# Property C123: files that are cut off
-/

namespace Verif.Sdds

/-- A file of which the end is missing: complete pages, and the first `k` bytes of another page. -/
def cutFile (d : Doc) (before : List Page) (pg : Page) (k : Nat) : Bytes :=
  utf8 d.text ++ (before.flatMap encodePage ++ (encodePage pg).take k)

theorem open_body {ft : FloatText} {d : Doc} {l : Layout} (h : d.Announces ft l) (body : Bytes) {fuel : Nat}
    (hfuel : d.comments.length + d.namelists.length + 2 ≤ fuel) (buffer : Bool) (maxStr : Nat) :
    ∃ r, openSdds ft fuel buffer maxStr (utf8 d.text ++ body) = some (.ok r) ∧ r.Describes l ∧
      r.file = utf8 d.text ++ body ∧ r.headerEnd = (utf8 d.text).length ∧ r.buffer = buffer ∧ r.maxStr = maxStr := by
  obtain ⟨ps, hp1, hp2⟩ := params_of _ _ h.params h.fixed
  obtain ⟨cs, hc1, hc2⟩ := cols_of _ _ h.cols h.noLength
  refine ⟨_, open_doc ft h.ok _ hfuel buffer maxStr hp1 hc1 h.mode, ⟨rfl, ?_, hp2, hc2⟩, rfl, rfl, rfl, rfl⟩
  simp only [h.counts]
  rfl

/-- The page loop on a cut file. -/
theorem Reader.loopKept_cut {r : Reader} {l : Layout} (hd : r.Describes l) (hl : l.Ok) (hb : r.buffer = true) {pg : Page}
    (hpg : PageOk r.maxStr l pg) {n k : Nat} (hn : n ≤ r.file.length) (hk : 0 < k) (hk' : k < (encodePage pg).length) :
    ∀ (before : List Page), (∀ q ∈ before, PageOk r.maxStr l q) → ∀ (fuel i : Nat) (p : Pos) (acc : Pages), before.length < fuel →
    r.file.drop p.position = before.flatMap encodePage ++ encodePage pg → p.position ≤ r.file.length →
    n = p.position + (before.flatMap encodePage).length + k →
    (r.cutTo n).loopKept none fuel i p acc =
      some (acc.join ((pagesOf l before).join ⟨if (paramBytes pg).length ≤ k then [[paramRecord l pg]] else [], []⟩), .error .valueError) := by
  have hb' : (r.cutTo n).buffer = true := hb
  have hlen : (r.cutTo n).file.length = n := by simp [Reader.cutTo, hn]
  have hend : ∀ p : Pos, p.position < n → (r.cutTo n).fileEnd p = false := by
    intro p hp
    unfold Reader.fileEnd
    rw [if_pos hb', hlen]
    simpa using hp
  have hcur : ∀ p, r.cur p = p.position := by intro p; simp [Reader.cur, hb]
  have hadv : ∀ p x, (r.adv p x).position = p.position + x := by intro p x; rw [← hcur, Reader.cur_adv, hcur]
  have hpos : ∀ p, r.PosOk p := by intro p h; rw [hb] at h; cases h
  intro before
  induction before with
  | nil =>
    intro _ fuel i p acc hf hdrop hp hn'
    obtain ⟨fuel, rfl⟩ : ∃ m, fuel = m + 1 := ⟨fuel - 1, by simp at hf; omega⟩
    simp only [List.flatMap_nil, List.nil_append, List.length_nil, Nat.add_zero] at hdrop hn'
    unfold Reader.loopKept
    rw [hend p (by omega)]
    simp only [pastPages, Bool.false_eq_true, if_false, Option.isNone_none, wantedPage]
    have hfull := Reader.readPage_keep hd hl hpg (hpos p) true (rest := []) (by rw [hcur, hdrop, List.append_nil]) (by rw [hcur]; exact hp) acc
    rw [Reader.readPage_cut hb hd.counts hn (by omega) hfull, if_neg (by rw [hadv]; omega)]
    simp only [Option.some.injEq, Prod.mk.injEq, and_true]
    rw [pageLeft_acc]
    congr 1
    unfold Reader.pageLeft
    have hkeys : (r.cutTo n).paramKeys = r.paramKeys := rfl
    have hm : (r.cutTo n).maxStr = r.maxStr := rfl
    have hpar := Reader.pageParams_ok hd hl hpg (hpos p) (rest := colBytes pg) (by rw [hcur, hdrop, encodePage_eq]) (by rw [hcur]; exact hp)
    rw [hkeys, hm, (Reader.getParams_cut hb hn _ _ _ _ _ (by omega) hpar).2, hadv]
    by_cases hc : (paramBytes pg).length ≤ k
    · rw [if_pos (by omega), if_pos hc]
      simp only [if_true, Reader.pageParams_merge hl hpg]
      simp [noPages, Pages.join, pagesOf]
    · rw [if_neg (by omega), if_neg hc]
      simp [noPages, Pages.join, pagesOf]
  | cons q before ih =>
    intro hok fuel i p acc hf hdrop hp hn'
    obtain ⟨fuel, rfl⟩ : ∃ m, fuel = m + 1 := ⟨fuel - 1, by simp at hf; omega⟩
    rw [List.flatMap_cons, List.append_assoc] at hdrop
    rw [List.flatMap_cons, List.length_append] at hn'
    unfold Reader.loopKept
    rw [hend p (by omega)]
    simp only [pastPages, Bool.false_eq_true, if_false, Option.isNone_none, wantedPage]
    have hq := hok q List.mem_cons_self
    have hfull := Reader.readPage_keep hd hl hq (hpos p) true (rest := before.flatMap encodePage ++ encodePage pg)
      (by rw [hcur, hdrop]) (by rw [hcur]; exact hp) acc
    rw [Reader.readPage_cut hb hd.counts hn (by omega) hfull, if_pos (by rw [hadv]; omega)]
    simp only
    have hle : p.position + (encodePage q).length ≤ r.file.length := by
      have := congrArg List.length hdrop
      rw [List.length_drop, List.length_append] at this
      omega
    rw [ih (fun x hx => hok x (List.mem_cons_of_mem _ hx)) fuel (i + 1) _ _ (by simp at hf; omega) (by
      rw [hadv, ← List.drop_drop, hdrop, List.drop_left]) (by rw [hadv]; exact hle) (by rw [hadv]; omega)]
    have e : (acc.append (pagesOf l [q])) = acc.join (pagesOf l [q]) := rfl
    have e2 : pagesOf l (q :: before) = (pagesOf l [q]).join (pagesOf l before) := by
      unfold pagesOf Pages.join
      simp only [List.map_cons, List.map_nil, List.filter_cons, List.filter_nil]
      split_ifs <;> simp
    rw [e, e2, join_assoc, join_assoc]

/-- What a call of `read()` does with a cut file. -/
theorem cut_call {ft : FloatText} {d : Doc} {l : Layout} (h : d.Announces ft l) (hl : l.Ok) {before : List Page} {pg : Page} {maxStr : Nat}
    (hok : ∀ q ∈ before, PageOk maxStr l q) (hpg : PageOk maxStr l pg) {k : Nat} (hk : 0 < k) (hk' : k < (encodePage pg).length) {fuel : Nat}
    (hfuel : d.comments.length + d.namelists.length + before.length + 2 ≤ fuel) :
    ∃ r, openSdds ft fuel true maxStr (cutFile d before pg k) = some (.ok r) ∧ r.Describes l ∧
      ∀ c, r.call c fuel noPages none =
        some ((pagesOf l before).join ⟨if (paramBytes pg).length ≤ k then [[paramRecord l pg]] else [], []⟩, .error .valueError) := by
  obtain ⟨r, h1, h2, h3, h4, h5, h6⟩ := open_body h (before.flatMap encodePage ++ (encodePage pg).take k) (fuel := fuel) (by omega) true maxStr
  refine ⟨r, h1, h2, ?_⟩
  subst h6
  intro c
  let full : Reader := { r with file := utf8 d.text ++ (before.flatMap encodePage ++ encodePage pg) }
  have hd : full.Describes l := ⟨h2.binary, h2.counts, h2.params, h2.cols⟩
  have hcut : r = full.cutTo ((utf8 d.text).length + (before.flatMap encodePage).length + k) := by
    have : (utf8 d.text ++ (before.flatMap encodePage ++ encodePage pg)).take ((utf8 d.text).length + (before.flatMap encodePage).length + k) = r.file := by
      rw [h3, ← List.append_assoc, ← List.append_assoc, ← List.length_append, List.take_length_add_append]
    unfold Reader.cutTo
    rw [this]
  unfold Reader.call
  simp only [h2.binary, reduceCtorEq, if_false, Bool.false_eq_true]
  have hloop := Reader.loopKept_cut hd hl (hb := h5) hpg (n := (utf8 d.text).length + (before.flatMap encodePage).length + k)
    (by simp only [full, List.length_append]; omega) hk hk' before hok fuel 0 ⟨r.headerEnd, r.headerEnd⟩ noPages (by omega)
    (by simp only [full, h4]; rw [List.drop_left]) (by simp only [full, h4, List.length_append]; omega) (by rw [h4])
  rw [← hcut] at hloop
  rw [h5]
  simp only [if_true]
  rw [hloop, none_join]

/-- **C123, what is true of it.** A buffered binary file that ends within a page is refused. -/
theorem cut_refused_partial {ft : FloatText} {d : Doc} {l : Layout} (h : d.Announces ft l) (hl : l.Ok) {before : List Page} {pg : Page} {maxStr : Nat}
    (hok : ∀ q ∈ before, PageOk maxStr l q) (hpg : PageOk maxStr l pg) {k : Nat} (hk : 0 < k) (hk' : k < (encodePage pg).length) {fuel : Nat}
    (hfuel : d.comments.length + d.namelists.length + before.length + 2 ≤ fuel) :
    ∃ r, openSdds ft fuel true maxStr (cutFile d before pg k) = some (.ok r) ∧ r.read fuel none = some (.error .valueError) := by
  obtain ⟨r, h1, h2, h3⟩ := cut_call h hl hok hpg hk hk' hfuel
  refine ⟨r, h1, ?_⟩
  have hf := call_first r ⟨fun _ => .error .valueError, fun _ => 0⟩ fuel none
  rw [h3, h2.binary] at hf
  simpa using hf.symm

theorem encodePage_length_cut {m : Nat} {l : Layout} {pg : Page} (hpg : PageOk m l pg) (hs : SType.str ∉ l.cols.map Prod.snd) (j : Nat) :
    (encodePage { pg with rows := pg.rows.take j }).length = (paramBytes pg).length + rowSize l.cols * (pg.rows.take j).length := by
  have hpg' : PageOk m l { pg with rows := pg.rows.take j } := by
    refine ⟨hpg.1, fun row hrow => hpg.2.1 row (List.mem_of_mem_take hrow), lt_of_le_of_lt ?_ hpg.2.2.1,
      hpg.2.2.2.1, fun row hrow => hpg.2.2.2.2 row (List.mem_of_mem_take hrow)⟩
    simp
  rw [encodePage_eq, List.length_append, colBytes_length hpg' hs]
  simp [paramBytes, leBytes_length]

/-- **C123, false without buffer.** A file with one page of numbers, of which `j` rows are complete, is read without complaint: the `j` rows are
given, and the parameter `row_counts` has the number of rows that the file should have. -/
theorem cut_unbuffered_fails {ft : FloatText} {d : Doc} {l : Layout} (h : d.Announces ft l) (hl : l.Ok) {pg : Page} {maxStr : Nat}
    (hpg : PageOk maxStr l pg) (hm : MarkOk pg) (hcols : l.cols ≠ []) (hs : SType.str ∉ l.cols.map Prod.snd) {j k : Nat} (hj : j < pg.rows.length)
    (hk : (encodePage { pg with rows := pg.rows.take j }).length ≤ k) (hk' : k < (encodePage { pg with rows := pg.rows.take (j + 1) }).length) {fuel : Nat}
    (hfuel : d.comments.length + d.namelists.length + 2 ≤ fuel) :
    ∃ r, openSdds ft fuel false maxStr (cutFile d [] pg k) = some (.ok r) ∧
      r.read fuel none = some (.ok ⟨[[paramRecord l pg]], [(rowRecords l pg).take j]⟩) := by
  rw [encodePage_length_cut hpg hs, List.length_take, Nat.min_eq_left (by omega)] at hk hk'
  have hrows : pg.rows ≠ [] := by rintro h0; rw [h0] at hj; simp at hj
  have hsz := rowSize_pos hpg hcols hs hrows
  obtain ⟨r, h1, h2, h3, h4, h5, h6⟩ := open_body h (([] : List Page).flatMap encodePage ++ (encodePage pg).take k) (fuel := fuel) (by omega) false maxStr
  refine ⟨r, h1, ?_⟩
  subst h6
  have hk2 : k = (paramBytes pg).length + (k - (paramBytes pg).length) := by omega
  have hbody : (encodePage pg).take k = paramBytes pg ++ (colBytes pg).take (k - (paramBytes pg).length) := by
    rw [encodePage_eq, hk2, List.take_length_add_append]
    congr 2
    omega
  rw [List.flatMap_nil, List.nil_append, hbody] at h3
  set rest := (colBytes pg).take (k - (paramBytes pg).length) with hrest
  set p0 : Pos := ⟨if r.buffer then r.headerEnd else 0, r.headerEnd⟩ with hp0
  have hcur : r.cur p0 = (utf8 d.text).length := by simp [Reader.cur, h5, hp0, h4]
  have hdrop : r.file.drop (r.cur p0) = paramBytes pg ++ rest := by rw [hcur, h3, List.drop_left]
  have hle : r.cur p0 ≤ r.file.length := by rw [hcur, h3, List.length_append]; omega
  have hposok : r.PosOk p0 := by intro hb; simp [hp0, hb]
  have hfe : r.fileEnd p0 = false := by
    unfold Reader.fileEnd
    rw [h5]
    have hd2 : r.file.drop p0.ptr = UInt8.ofNat pg.rows.length :: UInt8.ofNat (pg.rows.length / 256) ::
        (leBytes 2 (pg.rows.length / 256 / 256) ++ (pg.params.flatMap encodeVal ++ rest)) := by
      have : p0.ptr = r.cur p0 := by simp [Reader.cur, h5]
      rw [this, hdrop, paramBytes]
      simp [leBytes]
    rw [hd2]
    simp only [Bool.false_eq_true, if_false]
    unfold MarkOk at hm
    unfold readline
    split <;> simp [hm]
  have hpar := Reader.pageParams_ok h2 hl hpg hposok hdrop hle
  set p1 := r.adv p0 (paramBytes pg).length with hp1
  have hp1c : p1 = ⟨0, (utf8 d.text).length + (paramBytes pg).length⟩ := by
    rw [hp1, Reader.adv, h5, hp0, h5, h4]
    simp
  have hrl : rest.length = k - (paramBytes pg).length := by
    rw [hrest, List.length_take, colBytes_length hpg hs]
    have : rowSize l.cols * (min (j + 1) pg.rows.length) ≤ rowSize l.cols * pg.rows.length := Nat.mul_le_mul_left _ (Nat.min_le_right _ _)
    have h' : min (j + 1) pg.rows.length = j + 1 := by omega
    rw [h'] at this
    omega
  have hflen : r.file.length = (utf8 d.text).length + ((paramBytes pg).length + rest.length) := by rw [h3, List.length_append, List.length_append]
  have havail : (r.file.length - ((utf8 d.text).length + (paramBytes pg).length)) / rowSize l.cols = j := by
    have : r.file.length - ((utf8 d.text).length + (paramBytes pg).length) = k - (paramBytes pg).length := by omega
    rw [this]
    refine Nat.div_eq_of_lt_le ?_ ?_
    · rw [Nat.mul_comm]; omega
    · rw [Nat.mul_comm]
      omega
  have hrec : decodeRows (numDt l.cols) (rowSize l.cols) j rest = (rowRecords l pg).take j := by
    have hb : colBytes pg = (rowRecords l pg).flatMap fRaw := by
      unfold colBytes rowRecords
      rw [List.flatMap_map]
      refine List.flatMap_congr ?_
      intro row hrow
      exact (encFs_size (hpg.2.1 row hrow) hs).2.symm
    have hdec : decodeRows (numDt l.cols) (rowSize l.cols) j rest = decodeRows (numDt l.cols) (rowSize l.cols) j (colBytes pg) := by
      rw [hrest, decodeRows_take _ _ (itemSize_widths (itemSize_numDt hl hpg hs hrows))]
      rw [Nat.mul_comm]
      omega
    rw [hdec, hb]
    have hj2 : j = ((rowRecords l pg).take j).length := by simp [rowRecords]; omega
    have hsplit : (rowRecords l pg).flatMap fRaw = ((rowRecords l pg).take j).flatMap fRaw ++ ((rowRecords l pg).drop j).flatMap fRaw := by
      rw [← List.flatMap_append, List.take_append_drop]
    rw [hsplit]
    generalize ((rowRecords l pg).drop j).flatMap fRaw = tl
    have hraw := decodeRows_raw (m := r.maxStr) (dk := numDt l.cols) (size := rowSize l.cols) ((rowRecords l pg).take j) ?_ tl
    · rw [← hj2] at hraw
      exact hraw
    intro fs hfs
    obtain ⟨row, hrow, rfl⟩ := List.mem_map.mp (List.mem_of_mem_take hfs)
    have h := hpg.2.1 row hrow
    exact ⟨(fields_spec h).2.1, fDt_fields h hs, (encFs_size h hs).1⟩
  have hcolread : r.getCols pg.rows.length p1 = .ok ([[⟨numDt l.cols, (rowRecords l pg).take j⟩]], ⟨0, r.file.length⟩) := by
    unfold Reader.getCols
    rw [Reader.colKeys_num h2 hpg hcols hs hrows]
    simp only [Reader.readArr, h5, Bool.false_eq_true, if_false, fromfile, itemSize_numDt hl hpg hs hrows, bind, Except.bind, hp1c, Nat.add_zero]
    rw [if_neg (by omega), havail, if_pos hj]
    have : r.file.drop ((utf8 d.text).length + (paramBytes pg).length) = rest := by
      rw [h3, ← List.append_assoc, ← List.length_append, List.drop_left]
    simp only [this, hrec]
    rw [Nat.max_eq_right (by omega)]
  unfold Reader.read
  rw [if_neg (by simp)]
  obtain ⟨f, rfl⟩ : ∃ f, fuel = f + 2 := ⟨fuel - 2, by omega⟩
  have hpage : r.readPage true true p0 ⟨[], []⟩ = .ok (⟨[[paramRecord l pg]], [(rowRecords l pg).take j]⟩, ⟨0, r.file.length⟩) := by
    unfold Reader.readPage
    rw [hpar]
    simp only [bind, Except.bind, if_true, Reader.pageParams_merge hl hpg, Reader.pageRowCount h2 hpg hcols]
    rw [if_neg (by simpa using hrows)]
    simp only [Bool.or_true, Bool.true_or, if_true, hcolread]
    simp [addPage, merge, bind, Except.bind, pure, Except.pure]
  have hend : r.fileEnd ⟨0, r.file.length⟩ = true := Reader.fileEnd_done (by simp [Reader.cur, h5])
  rw [hp0] at hfe hpage
  simp only
  unfold Reader.pageLoop
  rw [hfe]
  simp only [pastPages, Bool.false_eq_true, if_false, Option.isNone_none, wantedPage, hpage]
  unfold Reader.pageLoop
  rw [hend]
  simp [pastPages, concat, bind, Except.bind]

/-- **C121, after a cut file.** If the file ends within the columns of a page, `read()` raises but keeps the parameters of that page. A later
call gives them without columns: from there on parameters and columns do not belong together. -/
theorem cut_then_read_fails {ft : FloatText} {d : Doc} {l : Layout} (h : d.Announces ft l) (hl : l.Ok) {before : List Page} {pg : Page} {maxStr : Nat}
    (hok : ∀ q ∈ before, PageOk maxStr l q) (hrows : ∀ q ∈ before, q.rows ≠ []) (hcols : l.cols ≠ []) (hpg : PageOk maxStr l pg) {k : Nat}
    (hk : (encodePage { pg with rows := [] }).length ≤ k) (hk' : k < (encodePage pg).length) {fuel : Nat}
    (hfuel : d.comments.length + d.namelists.length + before.length + 2 ≤ fuel) :
    ∃ r, openSdds ft fuel true maxStr (cutFile d before pg k) = some (.ok r) ∧
      ∀ c sel new, r.read fuel sel = some (.ok new) →
        ∃ res, r.calls c fuel noPages [none, sel] =
          some (⟨(before.map fun q => [paramRecord l q]) ++ [[paramRecord l pg]] ++ new.params, before.map (rowRecords l) ++ new.cols⟩, res) := by
  have hlen : (encodePage { pg with rows := [] }).length = (paramBytes pg).length := by
    rw [encodePage_eq]
    simp [paramBytes, colBytes, leBytes_length]
  rw [hlen] at hk
  have h4 : 4 ≤ (paramBytes pg).length := by simp [paramBytes, leBytes_length]
  obtain ⟨r, h1, h2, h3⟩ := cut_call h hl hok hpg (by omega) hk' hfuel
  refine ⟨r, h1, ?_⟩
  intro c sel new hnew
  have hr : r.ascii = false := h2.binary
  obtain ⟨res, h5, -⟩ := read_again_partial r c fuel ((pagesOf l before).join ⟨[[paramRecord l pg]], []⟩) sel new (by rw [hr]; exact hnew)
  refine ⟨res, ?_⟩
  unfold Reader.calls
  · rw [h3 c, if_pos hk]
    simp only
    unfold Reader.calls
    rw [h5]
    simp only [Option.some.injEq, Prod.mk.injEq, and_true, Pages.join, pagesOf, List.append_nil, Pages.mk.injEq, true_and]
    rw [filter_hasData hcols hrows]

/-! Examples: the files of C06 with the last bytes missing. -/

example : ∃ r, openSdds exText 20 true 50 (cutFile exDoc [exPages[0]] exPages[1] 30) = some (.ok r) ∧ r.read 20 none = some (.error .valueError) :=
  cut_refused_partial exDoc_announces exLayout_ok (fun q hq => exPages_ok 50 q (by simp at hq; simp [hq])) (exPages_ok 50 _ (by simp)) (by decide)
    (by decide) (by decide)

example : ∃ r, openSdds exText 20 false 50 (cutFile exDoc [] exPages[1] 30) = some (.ok r) ∧
    r.read 20 none = some (.ok ⟨[[[("row_counts".toList, .num .long 2), ("charge".toList, .num .double 8)]]],
      [[[("x".toList, .num .double 5), ("id".toList, .num .long 6)]]]⟩) :=
  cut_unbuffered_fails (j := 1) exDoc_announces exLayout_ok (exPages_ok 50 _ (by simp)) (by unfold MarkOk; decide) (by decide) (by decide)
    (by decide) (by decide) (by decide) (by decide)

example : ∃ r, openSdds exText 20 true 50 (cutFile exDoc [exPages[0]] exPages[1] 30) = some (.ok r) ∧
    ∀ c sel new, r.read 20 sel = some (.ok new) → ∃ kept res, r.calls c 20 noPages [none, sel] = some (kept, res) ∧ kept.params.length = 2 + new.params.length := by
  obtain ⟨r, h1, h2⟩ := cut_then_read_fails (before := [exPages[0]]) (pg := exPages[1]) (k := 30) exDoc_announces exLayout_ok (fun q hq => exPages_ok 50 q (by simp at hq; simp [hq])) (by decide) (by decide) (exPages_ok 50 _ (by simp))
    (by decide) (by decide) (fuel := 20) (by decide)
  refine ⟨r, h1, fun c sel new hn => ?_⟩
  obtain ⟨res, h3⟩ := h2 c sel new hn
  exact ⟨_, res, h3, by simp; omega⟩

end Verif.Sdds
