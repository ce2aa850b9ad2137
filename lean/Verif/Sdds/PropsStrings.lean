import Verif.Sdds.LemmasStrings

/-!
# Property C09: strings of every kind in binary files
-/

set_option linter.unusedSimpArgs false

namespace Verif.Sdds

/-- Columns of a page with at least one row. -/
theorem Reader.pageCols_any {r : Reader} {l : Layout} (hd : r.Describes l) (hl : l.Ok) {pg : Page}
    (hpg : PageStored l pg) (hcols : l.cols ≠ []) (hrows : pg.rows ≠ []) {p : Pos} (hp : r.PosOk p)
    {rest : Bytes} (hf : r.file.drop (r.cur p) = colBytes pg ++ rest) (hc : r.cur p ≤ r.file.length) :
    ((∃ row ∈ pg.rows, row.getLast? = some (.str [])) → r.getCols pg.rows.length p = .error .valueError) ∧
    ((¬ ∃ row ∈ pg.rows, row.getLast? = some (.str [])) →
      ∃ cd, r.getCols pg.rows.length p = .ok (cd, r.adv p (colBytes pg).length) ∧
        addPage r.maxStr cd = if ∀ row ∈ pg.rows, ∀ v ∈ row, AsciiVal v then .ok (shownRows r.maxStr l pg)
          else .error .unicodeError) := by
  by_cases hs : SType.str ∈ l.cols.map Prod.snd
  · have hcne : r.cols ≠ [] := by
      intro h
      have := hd.cols
      rw [h, List.map_nil] at this
      exact hcols (List.map_eq_nil_iff.mp this.symm)
    have hk : r.colKeys = colGroups r.cols [] := by
      unfold Reader.colKeys
      rw [if_neg hcne, hd.binary, if_neg (by simp)]
    have h1 : r.getCols pg.rows.length p = r.getRows (colGroups r.cols []) pg.rows.length p := by
      unfold Reader.getCols
      rw [hk]
      obtain ⟨row, hrow⟩ := List.exists_mem_of_ne_nil _ hrows
      have h := hpg.2.1 row hrow
      rw [colDks_stored h r.cols [] hd.cols]
      split
      · rename_i dk he
        exact absurd he (colDks_not_single _ _ (stored_has_str h hs) dk)
      · rfl
    have h2 := Reader.getRows_any hd hl hcols pg.rows p hp hpg.2.1 rest hf hc
    rw [h1, h2]
    refine ⟨fun h => by rw [if_pos h], fun h => ?_⟩
    rw [if_neg h]
    exact ⟨_, rfl, addPage_any hl hs pg.rows hpg.2.1⟩
  · have hfit : ∀ row ∈ pg.rows, List.Forall₂ (fun f v => Fits r.maxStr f.2 v) l.cols row :=
      fun row hrow => stored_fits (hpg.2.1 row hrow) hs
    have hnum : ∀ row ∈ pg.rows, ∀ v ∈ row, ∃ t x, v = Val.num t x := by
      intro row hrow v hv
      have h := hpg.2.1 row hrow
      rw [← (stored_spec h).2.1] at hv
      obtain ⟨f, hf, rfl⟩ := List.mem_map.mp hv
      exact fields_num (hfit row hrow) hs f hf
    have hno : ¬ ∃ row ∈ pg.rows, row.getLast? = some (.str []) := by
      rintro ⟨row, hrow, hlast⟩
      obtain ⟨t, x, he⟩ := hnum row hrow _ (List.mem_of_getLast? hlast)
      cases he
    refine ⟨fun h => absurd h hno, fun _ => ?_⟩
    have hasc : ∀ row ∈ pg.rows, ∀ v ∈ row, AsciiVal v := by
      intro row hrow v hv
      obtain ⟨t, x, rfl⟩ := hnum row hrow v hv
      trivial
    rw [if_pos hasc]
    -- the numbers are read as one table
    have hshown : shownRows r.maxStr l pg = rowRecords l pg := by
      unfold shownRows rowRecords
      apply List.map_congr_left
      intro row hrow
      congr 1
      rw [List.map_congr_left (g := id), List.map_id]
      intro v hv
      obtain ⟨t, x, rfl⟩ := hnum row hrow v hv
      rfl
    rw [hshown]
    have hk : r.colKeys = [numDt l.cols] := by
      obtain ⟨row, hrow⟩ := List.exists_mem_of_ne_nil _ hrows
      have hcne : r.cols ≠ [] := by
        intro h
        have := hd.cols
        rw [h, List.map_nil] at this
        exact hcols (List.map_eq_nil_iff.mp this.symm)
      unfold Reader.colKeys
      rw [if_neg hcne, hd.binary, if_neg (by simp), colDks_fields (hfit row hrow) r.cols [] hd.cols,
        colDks_single _ _ (fields_num (hfit row hrow) hs), List.nil_append, fDt_fields (hfit row hrow) hs]
    -- a page with the same rows and no parameters
    have hq : PageOk r.maxStr ⟨[], l.cols⟩ ⟨[], pg.rows⟩ := by
      refine ⟨List.Forall₂.nil, hfit, hpg.2.2, by simp, ?_⟩
      intro row hrow hlast
      exact hno ⟨row, hrow, hlast⟩
    have hl' : Layout.Ok ⟨[], l.cols⟩ := ⟨by simp, by simp, hl.2.2.1, hl.2.2.2⟩
    have hlen := colBytes_length hq hs
    have hread := Reader.readArr_ok hp (itemSize_numDt hl' hq hs hrows) (rowSize_pos hq hcols hs hrows) hf hlen hc
    refine ⟨[[⟨numDt l.cols, rowRecords l pg⟩]], ?_, ?_⟩
    · unfold Reader.getCols
      rw [hk]
      have hlen' : (colBytes pg).length = rowSize l.cols * pg.rows.length := hlen
      simp only [bind, Except.bind, hlen'] at hread ⊢
      rw [hread]
      simp only
      congr 4
      have hb : colBytes pg = (rowRecords l pg).flatMap fRaw := by
        unfold colBytes rowRecords
        rw [List.flatMap_map]
        refine List.flatMap_congr ?_
        intro row hrow
        exact (encFs_size (hfit row hrow) hs).2.symm
      have hl2 : pg.rows.length = (rowRecords l pg).length := by simp [rowRecords]
      rw [hb, hl2]
      rw [decodeRows_raw (m := r.maxStr) _ ?_ rest]
      intro fs hfs
      obtain ⟨row, hrow, rfl⟩ := List.mem_map.mp hfs
      have h := hfit row hrow
      exact ⟨(fields_spec h).2.1, fDt_fields h hs, (encFs_size h hs).1⟩
    · simp [addPage, merge, bind, Except.bind, pure, Except.pure]

/-- **C09, exactly.** What `read` does with a page of a binary file whose strings are arbitrary.
An empty string parameter, or an empty string in the last column, raises ValueError. Otherwise a
string that is not ASCII raises UnicodeError. Otherwise every number comes back as written, and
every string cut to `max_string_length` and without NULs at the end. Errors of the parameters
come first. -/
theorem read_strings_exact {ft : FloatText} {d : Doc} {l : Layout} (h : d.Announces ft l) (hl : l.Ok)
    {pg : Page} {maxStr : Nat} (hok : PageStored l pg) (hc : l.cols ≠ []) (hr : pg.rows ≠ []) {fuel : Nat}
    (hfuel : d.comments.length + d.namelists.length + 3 ≤ fuel) (buffer : Bool)
    (hm : buffer = false → MarkOk pg) :
    ∃ r, openSdds ft fuel buffer maxStr (fileBytes d [pg]) = some (.ok r) ∧
      r.read fuel none = some (
        if Val.str [] ∈ pg.params then .error .valueError
        else if ¬ ∀ v ∈ pg.params, AsciiVal v then .error .unicodeError
        else if ∃ row ∈ pg.rows, row.getLast? = some (.str []) then .error .valueError
        else if ¬ ∀ row ∈ pg.rows, ∀ v ∈ row, AsciiVal v then .error .unicodeError
        else .ok ⟨[[(rowCountsName, .num .long pg.rows.length) ::
            (l.params.map Prod.fst).zip (pg.params.map (shown maxStr))]],
          [pg.rows.map fun row => (l.cols.map Prod.fst).zip (row.map (shown maxStr))]⟩) := by
  obtain ⟨r, g1, g2, g3, g4, g5, g6⟩ := open_file h [pg] (fuel := fuel) (by omega) buffer maxStr
  refine ⟨r, g1, ?_⟩
  subst g5 g6
  set p0 : Pos := ⟨if r.buffer then r.headerEnd else 0, r.headerEnd⟩ with hp0
  have hcur : r.cur p0 = r.headerEnd := by
    unfold Reader.cur
    cases hb : r.buffer <;> simp [hp0, hb]
  have hpos : r.PosOk p0 := by intro hb; simp [hp0, hb]
  have hf : r.file.drop (r.cur p0) = encodePage pg ++ [] := by
    rw [hcur, g3, g4, List.drop_left]; simp
  have hle0 : r.cur p0 ≤ r.file.length := by
    rw [hcur, g3, g4, List.length_append]; omega
  have hend0 := Reader.fileEnd_page hf hm
  have hf' := hf
  rw [encodePage_eq, List.append_assoc] at hf'
  have hdrop : r.file.drop (r.cur (r.adv p0 (paramBytes pg).length)) = colBytes pg ++ [] := by
    rw [Reader.cur_adv, ← List.drop_drop, hf', List.drop_left]
  have hle1 : r.cur (r.adv p0 (paramBytes pg).length) ≤ r.file.length := by
    have := congrArg List.length hf'
    rw [List.length_drop, List.length_append] at this
    rw [Reader.cur_adv]; omega
  have hdone : r.fileEnd (r.adv p0 (encodePage pg).length) = true := by
    refine Reader.fileEnd_done ?_
    rw [Reader.cur_adv, ← List.drop_drop, hf, List.drop_left]
  obtain ⟨c1, c2⟩ := Reader.pageCols_any g2 hl hok hc hr (Reader.adv_ok hpos _) hdrop hle1
  have hA := Reader.pageParams_any g2 hl hok hpos hf' hle0
  have hB := Reader.pageParams_mergeAny (r := r) hl hok
  have hrc := Reader.pageRowCount_any g2 hok hc (r.adv p0 (paramBytes pg).length)
  have hrl : ¬ pg.rows.length = 0 := by simpa using hr
  obtain ⟨n, rfl⟩ : ∃ n, fuel = n + 2 := ⟨fuel - 2, by omega⟩
  have hpast : ∀ k, pastPages none k = false := fun _ => rfl
  have hw : ∀ k, wantedPage none k = true := fun _ => rfl
  unfold Reader.read
  rw [if_neg (by simp)]
  simp only
  rw [← hp0]
  simp only [Reader.pageLoop, hpast, hw, hend0, Bool.false_eq_true, if_false, Option.isNone_none]
  by_cases k1 : Val.str [] ∈ pg.params
  · rw [if_pos k1] at hA ⊢
    have : r.readPage true true p0 ⟨[], []⟩ = .error .valueError := by
      unfold Reader.readPage
      rw [hA]
      rfl
    rw [this]
  rw [if_neg k1] at hA ⊢
  by_cases k2 : ∀ v ∈ pg.params, AsciiVal v
  swap
  · rw [if_pos k2]
    rw [if_neg k2] at hB
    have : r.readPage true true p0 ⟨[], []⟩ = .error .unicodeError := by
      unfold Reader.readPage
      rw [hA]
      simp only [bind, Except.bind, if_true, hB]
    rw [this]
  rw [if_neg (not_not.mpr k2)]
  rw [if_pos k2] at hB
  by_cases k3 : ∃ row ∈ pg.rows, row.getLast? = some (.str [])
  · rw [if_pos k3]
    have : r.readPage true true p0 ⟨[], []⟩ = .error .valueError := by
      unfold Reader.readPage
      rw [hA]
      simp only [bind, Except.bind, if_true, hB, hrc, if_neg hrl, Bool.true_or, c1 k3]
    rw [this]
  rw [if_neg k3]
  obtain ⟨cd, hcd, hadd⟩ := c2 k3
  by_cases k4 : ∀ row ∈ pg.rows, ∀ v ∈ row, AsciiVal v
  swap
  · rw [if_pos k4]
    rw [if_neg k4] at hadd
    have : r.readPage true true p0 ⟨[], []⟩ = .error .unicodeError := by
      unfold Reader.readPage
      rw [hA]
      simp only [bind, Except.bind, if_true, hB, hrc, if_neg hrl, Bool.true_or, hcd, hadd]
    rw [this]
  rw [if_neg (not_not.mpr k4)]
  rw [if_pos k4] at hadd
  have : r.readPage true true p0 ⟨[], []⟩ = .ok (⟨[[(rowCountsName, .num .long pg.rows.length) ::
      (l.params.map Prod.fst).zip (pg.params.map (shown r.maxStr))]], [shownRows r.maxStr l pg]⟩,
      r.adv p0 (encodePage pg).length) := by
    unfold Reader.readPage
    rw [hA]
    simp only [bind, Except.bind, if_true, hB, hrc, if_neg hrl, Bool.true_or, hcd, hadd, Reader.adv_adv]
    rw [encodePage_eq, List.length_append]
    rfl
  rw [this]
  simp only [hdone, if_true]
  rfl

theorem stripNul_last (s : Bytes) : (stripNul s).getLast? ≠ some 0 := by
  unfold stripNul
  rw [List.getLast?_reverse]
  intro h
  have := List.head?_dropWhile_not (fun x : UInt8 => x == 0) s.reverse
  rw [h] at this
  simp at this

theorem stripNul_length (s : Bytes) : (stripNul s).length ≤ s.length := by
  unfold stripNul
  rw [List.length_reverse]
  exact le_trans (List.dropWhile_sublist _).length_le (by simp)

theorem shown_iff (m : Nat) (s : Bytes) : shown m (.str s) = .str s ↔ s.length ≤ m ∧ s.getLast? ≠ some 0 := by
  simp only [shown, Val.str.injEq]
  constructor
  · intro h
    constructor
    · rw [← h]
      exact le_trans (stripNul_length _) (by rw [List.length_take]; exact min_le_left _ _)
    · rw [← h]; exact stripNul_last _
  · rintro ⟨h1, h2⟩
    rw [stripNul_good h2, List.take_of_length_le h1, stripNul_good h2]

theorem zip_inj {α β : Type} {a : List α} {b c : List β} (hb : b.length = a.length) (hc : c.length = a.length)
    (h : a.zip b = a.zip c) : b = c := by
  have h1 := congrArg (List.map Prod.snd) h
  rwa [List.map_snd_zip (by omega), List.map_snd_zip (by omega)] at h1

theorem map_shown_iff (m : Nat) (vs : List Val) :
    vs.map (shown m) = vs ↔ ∀ s, Val.str s ∈ vs → s.length ≤ m ∧ s.getLast? ≠ some 0 := by
  constructor
  · intro h s hs
    rw [← shown_iff]
    have : vs.map (shown m) = vs.map id := by rw [h, List.map_id]
    exact List.map_inj_left.mp this _ hs
  · intro h
    conv_rhs => rw [← List.map_id vs]
    apply List.map_congr_left
    intro v hv
    cases v with
    | num t x => rfl
    | str s => exact (shown_iff m s).mpr (h s hv)

/-- **C09, when it holds.** The page comes back as written exactly when every string is ASCII, at
most `max_string_length` long and without NUL at the end, no string parameter is empty, and no
row has an empty string in the last column. -/
theorem read_strings_iff {ft : FloatText} {d : Doc} {l : Layout} (h : d.Announces ft l) (hl : l.Ok)
    {pg : Page} {maxStr : Nat} (hok : PageStored l pg) (hc : l.cols ≠ []) (hr : pg.rows ≠ []) {fuel : Nat}
    (hfuel : d.comments.length + d.namelists.length + 3 ≤ fuel) (buffer : Bool)
    (hm : buffer = false → MarkOk pg) :
    ∃ r, openSdds ft fuel buffer maxStr (fileBytes d [pg]) = some (.ok r) ∧
      (r.read fuel none = some (.ok ⟨[[(rowCountsName, .num .long pg.rows.length) ::
          (l.params.map Prod.fst).zip pg.params]],
        [pg.rows.map fun row => (l.cols.map Prod.fst).zip row]⟩) ↔
        (∀ s, Val.str s ∈ pg.params ++ pg.rows.flatten →
          (∀ b ∈ s, b < 128) ∧ s.length ≤ maxStr ∧ s.getLast? ≠ some 0) ∧
        Val.str [] ∉ pg.params ∧ ∀ row ∈ pg.rows, row.getLast? ≠ some (.str [])) := by
  obtain ⟨r, g1, g2⟩ := read_strings_exact h hl (maxStr := maxStr) hok hc hr hfuel buffer hm
  refine ⟨r, g1, ?_⟩
  have hlp : pg.params.length = (l.params.map Prod.fst).length := by rw [List.length_map, hok.1.length_eq]
  have hlr : ∀ row ∈ pg.rows, row.length = (l.cols.map Prod.fst).length := by
    intro row hrow
    rw [List.length_map, (hok.2.1 row hrow).length_eq]
  have hascii : ∀ vs : List Val, (∀ v ∈ vs, AsciiVal v) ↔ ∀ s, Val.str s ∈ vs → ∀ b ∈ s, b < 128 := by
    intro vs
    constructor
    · intro ha s hs; exact ha _ hs
    · intro ha v hv
      cases v with
      | num t x => trivial
      | str s => exact ha s hv
  rw [g2]
  by_cases k1 : Val.str [] ∈ pg.params
  · rw [if_pos k1]
    simp [k1]
  rw [if_neg k1]
  by_cases k2 : ∀ v ∈ pg.params, AsciiVal v
  swap
  · rw [if_pos k2]
    constructor
    · intro hx; simp at hx
    · rintro ⟨hx, -⟩
      exact absurd ((hascii _).mpr fun s hs => (hx s (by simp [hs])).1) k2
  rw [if_neg (not_not.mpr k2)]
  by_cases k3 : ∃ row ∈ pg.rows, row.getLast? = some (.str [])
  · rw [if_pos k3]
    constructor
    · intro hx; simp at hx
    · rintro ⟨-, -, hx⟩
      obtain ⟨row, hrow, hlast⟩ := k3
      exact absurd hlast (hx row hrow)
  rw [if_neg k3]
  by_cases k4 : ∀ row ∈ pg.rows, ∀ v ∈ row, AsciiVal v
  swap
  · rw [if_pos k4]
    constructor
    · intro hx; simp at hx
    · rintro ⟨hx, -⟩
      refine absurd ?_ k4
      intro row hrow
      exact (hascii _).mpr fun s hs => (hx s (by
        rw [List.mem_append]; exact Or.inr (List.mem_flatten.mpr ⟨row, hrow, hs⟩))).1
  rw [if_neg (not_not.mpr k4)]
  simp only [Option.some.injEq, Except.ok.injEq, Pages.mk.injEq, List.cons.injEq, and_true, true_and]
  constructor
  · rintro ⟨hx1, hx2⟩
    have hp : pg.params.map (shown maxStr) = pg.params := zip_inj (by simpa using hlp) hlp hx1
    have hq : ∀ row ∈ pg.rows, row.map (shown maxStr) = row := by
      intro row hrow
      exact zip_inj (by simpa using hlr row hrow) (hlr row hrow) (List.map_inj_left.mp hx2 row hrow)
    refine ⟨?_, k1, fun row hrow hlast => k3 ⟨row, hrow, hlast⟩⟩
    intro s hs
    rcases List.mem_append.mp hs with hs | hs
    · exact ⟨(hascii _).mp k2 s hs, (map_shown_iff _ _).mp hp s hs⟩
    · obtain ⟨row, hrow, hs⟩ := List.mem_flatten.mp hs
      exact ⟨(hascii _).mp (k4 row hrow) s hs, (map_shown_iff _ _).mp (hq row hrow) s hs⟩
  · rintro ⟨hx, -, -⟩
    rw [(map_shown_iff maxStr pg.params).mpr fun s hs => (hx s (by simp [hs])).2]
    refine ⟨rfl, ?_⟩
    apply List.map_congr_left
    intro row hrow
    rw [(map_shown_iff maxStr row).mpr fun s hs => (hx s (by
        rw [List.mem_append]; exact Or.inr (List.mem_flatten.mpr ⟨row, hrow, hs⟩))).2]

/-- A string that is not ASCII, one with a NUL at the end, and an empty one before a number. -/
def exPageAny : Page := ⟨[.str [181]], [[.str [], .num .double 1], [.str [68, 0], .num .double 2]]⟩

theorem exPageAny_stored : PageStored exLayoutS exPageAny := by
  simp [exPageAny, PageStored, exLayoutS, Stored, FType.size]

example : ∃ r, openSdds exText 20 true 100 (fileBytes exDocS [exPageAny]) = some (.ok r) ∧
    r.read 20 none = some (.error .unicodeError) := by
  obtain ⟨r, h1, h2⟩ := read_strings_exact exDocS_announces exLayoutS_ok (maxStr := 100) exPageAny_stored (by decide)
    (by decide) (fuel := 20) (by decide) true (by simp)
  exact ⟨r, h1, h2.trans (by decide +kernel)⟩

/-- Empty strings before a number come back; a NUL at the end does not. -/
example : ∃ r, openSdds exText 20 true 3 (fileBytes exDocS
      [⟨[.str [97, 98, 99, 100]], [[.str [], .num .double 1], [.str [68, 0], .num .double 2]]⟩]) = some (.ok r) ∧
    r.read 20 none = some (.ok ⟨[[[("row_counts".toList, .num .long 2), ("file".toList, .str [97, 98, 99])]]],
      [[[("elem".toList, .str []), ("s".toList, .num .double 1)],
        [("elem".toList, .str [68]), ("s".toList, .num .double 2)]]]⟩) := by
  obtain ⟨r, h1, h2⟩ := read_strings_exact exDocS_announces exLayoutS_ok (maxStr := 3)
    (pg := ⟨[.str [97, 98, 99, 100]], [[.str [], .num .double 1], [.str [68, 0], .num .double 2]]⟩)
    (by simp [PageStored, exLayoutS, Stored, FType.size]) (by decide)
    (by decide) (fuel := 20) (by decide) true (by simp)
  exact ⟨r, h1, h2.trans (by decide +kernel)⟩

example : ∃ r, openSdds exText 20 false 100 (fileBytes exDocS [exPageAny]) = some (.ok r) ∧
    r.read 20 none ≠ some (.ok ⟨[[(rowCountsName, .num .long 2) :: (exLayoutS.params.map Prod.fst).zip [.str [181]]]],
      [exPageAny.rows.map fun row => (exLayoutS.cols.map Prod.fst).zip row]⟩) := by
  obtain ⟨r, h1, h2⟩ := read_strings_iff exDocS_announces exLayoutS_ok (maxStr := 100) exPageAny_stored (by decide)
    (by decide) (fuel := 20) (by decide) false (by intro _; unfold MarkOk; decide)
  refine ⟨r, h1, fun hx => ?_⟩
  have := (h2.mp hx).1 [181] (by simp [exPageAny])
  exact absurd this.1 (by decide)

end Verif.Sdds
