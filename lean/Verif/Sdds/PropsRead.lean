import Verif.Sdds.LemmasFile

/-!
# Properties C06-C09 and C16: reading binary SDDS files
-/

namespace Verif.Sdds

/-! Concrete files for the examples below. -/

/-- A text conversion that knows no floats. -/
def exText : FloatText := ⟨fun _ => [], fun _ => .error .valueError⟩

def exAttr (k v : String) : Attr := ⟨k.toList, v.toList, false⟩

/-- Two parameters and two columns of fixed width. -/
def exDoc : Doc where
  comments := [" made by hand".toList]
  namelists :=
    [⟨.param, [exAttr "name" "charge", exAttr "type" "double"], 0⟩,
     ⟨.param, [exAttr "name" "note", exAttr "type" "string", exAttr "fixed_value" "hello"], 0⟩,
     ⟨.col, [exAttr "name" "x", exAttr "type" "double", ⟨"units".toList, "m".toList, true⟩], 1⟩,
     ⟨.col, [exAttr "name" "id", exAttr "type" "long"], 1⟩]
  data := [exAttr "mode" "binary"]

def exLayout : Layout := ⟨[("charge".toList, .num .double)], [("x".toList, .num .double), ("id".toList, .num .long)]⟩

def exPages : List Page :=
  [⟨[.num .double 7], [[.num .double 1, .num .long 2], [.num .double 3, .num .long 4]]⟩,
   ⟨[.num .double 8], [[.num .double 5, .num .long 6], [.num .double 7, .num .long 8]]⟩]

/-- The same with strings. -/
def exDocS : Doc where
  comments := []
  namelists :=
    [⟨.param, [exAttr "name" "file", exAttr "type" "string"], 0⟩,
     ⟨.col, [exAttr "name" "elem", exAttr "type" "string"], 1⟩,
     ⟨.col, [exAttr "name" "s", exAttr "type" "double"], 1⟩]
  data := [exAttr "mode" "binary"]

def exLayoutS : Layout := ⟨[("file".toList, .str)], [("elem".toList, .str), ("s".toList, .num .double)]⟩

def exPagesS : List Page :=
  [⟨[.str [97]], [[.str [81, 49], .num .double 1], [.str [68], .num .double 2]]⟩]

instance (s : Str) : Decidable (Ascii s) := by unfold Ascii; infer_instance

instance (a : Attr) : Decidable a.Ok :=
  decidable_of_iff (a.key ∈ knownKeys ∧ Ascii a.val ∧ '\n' ∉ a.val ∧ '"' ∉ a.val ∧ '\\' ∉ a.val ∧
      (a.val.getLast? ≠ some ',') ∧ (a.quoted = false → ∀ c ∈ a.val, lexSpace c = false))
    ⟨fun h => ⟨h.1, h.2.1, h.2.2.1, h.2.2.2.1, h.2.2.2.2.1, fun x hx hc => h.2.2.2.2.2.1 (by rw [hx, hc]), h.2.2.2.2.2.2⟩,
     fun h => ⟨h.key, h.ascii, h.line, h.noQuote, h.noEsc, fun hc => h.noComma _ hc rfl, h.plain⟩⟩

instance (d : Doc) : Decidable d.Ok :=
  decidable_of_iff ((∀ c ∈ d.comments, Ascii c ∧ '\n' ∉ c) ∧ (∀ n ∈ d.namelists, ∀ a ∈ n.attrs, a.Ok) ∧
      (∀ a ∈ d.data, a.Ok ∧ '&' ∉ a.val))
    ⟨fun h => ⟨h.1, h.2.1, h.2.2⟩, fun h => ⟨h.comments, h.namelists, h.data⟩⟩

theorem exDoc_announces : exDoc.Announces exText exLayout where
  ok := by decide +kernel
  mode := by decide +kernel
  counts := by decide +kernel
  params := by decide +kernel
  cols := by decide +kernel
  fixed := by
    intro as has v hv
    refine ⟨.str v, ?_⟩
    have : as = [exAttr "name" "charge", exAttr "type" "double"] ∨
        as = [exAttr "name" "note", exAttr "type" "string", exAttr "fixed_value" "hello"] := by
      simpa [exDoc, Doc.attrsOf] using has
    rcases this with rfl | rfl
    · have h0 : attrVal [exAttr "name" "charge", exAttr "type" "double"] "fixed_value".toList = none := by decide +kernel
      rw [h0] at hv; cases hv
    · have h0 : attrVal [exAttr "name" "note", exAttr "type" "string", exAttr "fixed_value" "hello"]
          "fixed_value".toList = some "hello".toList := by decide +kernel
      rw [h0] at hv; cases hv
      rfl
  noLength := by decide +kernel

theorem exDocS_announces : exDocS.Announces exText exLayoutS where
  ok := by decide +kernel
  mode := by decide +kernel
  counts := by decide +kernel
  params := by decide +kernel
  cols := by decide +kernel
  fixed := by
    intro as has v hv
    have : as = [exAttr "name" "file", exAttr "type" "string"] := by
      simpa [exDocS, Doc.attrsOf] using has
    subst this
    have h0 : attrVal [exAttr "name" "file", exAttr "type" "string"] "fixed_value".toList = none := by decide +kernel
    rw [h0] at hv; cases hv
  noLength := by decide +kernel

theorem exLayout_ok : exLayout.Ok := by unfold Layout.Ok; decide +kernel

theorem exLayoutS_ok : exLayoutS.Ok := by unfold Layout.Ok; decide +kernel

theorem exPages_ok (m : Nat) : ∀ pg ∈ exPages, PageOk m exLayout pg := by
  simp [exPages, PageOk, exLayout, Fits, FType.size]

theorem exPagesS_ok : ∀ pg ∈ exPagesS, PageOk 100 exLayoutS pg := by
  have h1 : GoodStr 100 [97] := ⟨by decide, by decide, by decide, by decide⟩
  have h2 : GoodStr 100 [81, 49] := ⟨by decide, by decide, by decide, by decide⟩
  have h3 : GoodStr 100 [68] := ⟨by decide, by decide, by decide, by decide⟩
  simp [exPagesS, PageOk, exLayoutS, Fits, FType.size, h1, h2, h3]

/-- **C06.** Reading a binary file gives the parameters and the columns of every page, in file
order. Proved for files with columns whose pages all have the same number `n > 0` of rows
(see `read_ragged_fails` for the other files), fixed-width or string fields, and, when reading
without buffer, row counts whose second byte is not white space. -/
theorem read_all_pages_partial {ft : FloatText} {d : Doc} {l : Layout} (h : d.Announces ft l) (hl : l.Ok)
    {pages : List Page} {maxStr : Nat} (hok : ∀ pg ∈ pages, PageOk maxStr l pg) (hc : l.cols ≠ []) {n : Nat}
    (hn : 0 < n) (hrows : ∀ pg ∈ pages, pg.rows.length = n) {fuel : Nat}
    (hfuel : d.comments.length + d.namelists.length + pages.length + 2 ≤ fuel) (buffer : Bool)
    (hm : buffer = false → ∀ pg ∈ pages, MarkOk pg) :
    ∃ r, openSdds ft fuel buffer maxStr (fileBytes d pages) = some (.ok r) ∧
      r.read fuel none = some (.ok ⟨pages.map fun pg => [paramRecord l pg], pages.map (rowRecords l)⟩) := by
  obtain ⟨r, h1, h2, h3, h4, h5, h6⟩ := open_file h pages (fuel := fuel) (by omega) buffer maxStr
  refine ⟨r, h1, ?_⟩
  subst h5 h6
  rw [Reader.read_ok h2 hl none (by simp) (Or.inl rfl) hok hm h3 h4 (by omega), pick_none]
  have hne : ∀ pg ∈ pages, pg.rows ≠ [] := by
    intro pg hpg h0
    have := hrows pg hpg
    rw [h0] at this
    simp at this
    omega
  unfold pagesOf
  rw [filter_hasData hc hne, concat_same (n := n)]
  · rfl
  · intro p hp
    obtain ⟨pg, hpg, rfl⟩ := List.mem_map.mp hp
    unfold rowRecords
    rw [List.length_map, hrows pg hpg]

example : ∃ r, openSdds exText 20 false 50 (fileBytes exDoc exPages) = some (.ok r) ∧
    r.read 20 none = some (.ok ⟨
      [[[("row_counts".toList, .num .long 2), ("charge".toList, .num .double 7)]],
       [[("row_counts".toList, .num .long 2), ("charge".toList, .num .double 8)]]],
      [[[("x".toList, .num .double 1), ("id".toList, .num .long 2)],
        [("x".toList, .num .double 3), ("id".toList, .num .long 4)]],
       [[("x".toList, .num .double 5), ("id".toList, .num .long 6)],
        [("x".toList, .num .double 7), ("id".toList, .num .long 8)]]]⟩) :=
  read_all_pages_partial exDoc_announces exLayout_ok (exPages_ok 50) (by decide) (n := 2) (by decide) (by decide)
    (by decide) false (by intro _; unfold MarkOk; decide)

/-- **C06, the other files.** When two pages have different numbers of rows (both not zero),
`read` raises. -/
theorem read_ragged_fails {ft : FloatText} {d : Doc} {l : Layout} (h : d.Announces ft l) (hl : l.Ok)
    {pages : List Page} {maxStr : Nat} (hok : ∀ pg ∈ pages, PageOk maxStr l pg) (hc : l.cols ≠ [])
    (hrag : ∃ p ∈ pages, ∃ q ∈ pages, p.rows ≠ [] ∧ q.rows ≠ [] ∧ p.rows.length ≠ q.rows.length) {fuel : Nat}
    (hfuel : d.comments.length + d.namelists.length + pages.length + 2 ≤ fuel) :
    ∃ r, openSdds ft fuel true maxStr (fileBytes d pages) = some (.ok r) ∧
      r.read fuel none = some (.error .valueError) := by
  obtain ⟨r, h1, h2, h3, h4, h5, h6⟩ := open_file h pages (fuel := fuel) (by omega) true maxStr
  refine ⟨r, h1, ?_⟩
  subst h6
  rw [Reader.read_ok h2 hl none (by simp) (Or.inl rfl) hok (by rw [h5]; simp) h3 h4 (by omega), pick_none]
  obtain ⟨p, hp, q, hq, hp0, hq0, hne⟩ := hrag
  unfold pagesOf
  rw [concat_ragged]
  · rfl
  · refine ⟨rowRecords l p, List.mem_map_of_mem (List.mem_filter.mpr ⟨hp, ?_⟩), rowRecords l q,
      List.mem_map_of_mem (List.mem_filter.mpr ⟨hq, ?_⟩), ?_⟩
    · simp [hasData, hc, hp0]
    · simp [hasData, hc, hq0]
    · simpa [rowRecords] using hne

example : ∃ r, openSdds exText 20 true 50 (fileBytes exDoc
      [⟨[.num .double 7], [[.num .double 1, .num .long 2]]⟩,
       ⟨[.num .double 8], [[.num .double 5, .num .long 6], [.num .double 7, .num .long 8]]⟩]) = some (.ok r) ∧
    r.read 20 none = some (.error .valueError) :=
  read_ragged_fails exDoc_announces exLayout_ok
    (by simp [PageOk, exLayout, Fits, FType.size]) (by decide)
    ⟨⟨[.num .double 7], [[.num .double 1, .num .long 2]]⟩, by simp,
     ⟨[.num .double 8], [[.num .double 5, .num .long 6], [.num .double 7, .num .long 8]]⟩, by simp,
     by simp, by simp, by simp⟩ (by decide)

/-- **C07.** `read(pages=s)` gives the pages a full read gives, restricted to the numbers in
`s`. Proved for buffered files without string fields and pages with equally many rows. Numbers
past the end of the file are ignored. -/
theorem read_selected_partial {ft : FloatText} {d : Doc} {l : Layout} (h : d.Announces ft l) (hl : l.Ok)
    (hnum : SType.str ∉ (l.params ++ l.cols).map Prod.snd)
    {pages : List Page} {maxStr : Nat} (hok : ∀ pg ∈ pages, PageOk maxStr l pg) (hc : l.cols ≠ []) {n : Nat}
    (hn : 0 < n) (hrows : ∀ pg ∈ pages, pg.rows.length = n) {fuel : Nat}
    (hfuel : d.comments.length + d.namelists.length + pages.length + 2 ≤ fuel) (s : List Nat) (hs : s ≠ []) :
    ∃ r P C, openSdds ft fuel true maxStr (fileBytes d pages) = some (.ok r) ∧
      P.length = pages.length ∧ C.length = pages.length ∧
      r.read fuel none = some (.ok ⟨P, C⟩) ∧
      r.read fuel (some s) = some (.ok ⟨atPages s P, atPages s C⟩) := by
  obtain ⟨r, h1, h2, h3, h4, h5, h6⟩ := open_file h pages (fuel := fuel) (by omega) true maxStr
  subst h6
  have hne : ∀ pg ∈ pages, pg.rows ≠ [] := by
    intro pg hpg h0
    have := hrows pg hpg
    rw [h0] at this
    simp at this
    omega
  have hlen : ∀ p ∈ pages.map (rowRecords l), p.length = n := by
    intro p hp
    obtain ⟨pg, hpg, rfl⟩ := List.mem_map.mp hp
    unfold rowRecords
    rw [List.length_map, hrows pg hpg]
  refine ⟨r, pages.map fun pg => [paramRecord l pg], pages.map (rowRecords l), h1, by simp, by simp, ?_, ?_⟩
  · rw [Reader.read_ok h2 hl none (by simp) (Or.inl rfl) hok (by rw [h5]; simp) h3 h4 (by omega), pick_none]
    unfold pagesOf
    rw [filter_hasData hc hne, concat_same hlen]
    rfl
  · rw [Reader.read_ok h2 hl (some s) (by simpa using hs) (Or.inr ⟨h5, hnum⟩) hok (by rw [h5]; simp) h3 h4 (by omega),
      pick_atPages]
    unfold pagesOf
    rw [filter_hasData hc (fun pg hpg => hne pg (atPages_subset s pages pg hpg)), concat_same (n := n), atPages_map,
      atPages_map]
    · rfl
    · intro p hp
      obtain ⟨pg, hpg, rfl⟩ := List.mem_map.mp hp
      exact hlen _ (List.mem_map_of_mem (atPages_subset s pages pg hpg))

example : ∃ r P C, openSdds exText 20 true 50 (fileBytes exDoc exPages) = some (.ok r) ∧
    P.length = exPages.length ∧ C.length = exPages.length ∧
    r.read 20 none = some (.ok ⟨P, C⟩) ∧ r.read 20 (some [1, 5]) = some (.ok ⟨atPages [1, 5] P, atPages [1, 5] C⟩) :=
  read_selected_partial exDoc_announces exLayout_ok (by decide) (exPages_ok 50) (by decide) (n := 2) (by decide)
    (by decide) (by decide) [1, 5] (by decide)

/-- What `atPages` means. -/
theorem atPages_spec {α : Type} (s : List Nat) (xs : List α) (x : α) :
    x ∈ atPages s xs ↔ ∃ k ∈ s, xs[k]? = some x := by
  unfold atPages
  simp only [List.mem_map, List.mem_filter, List.contains_iff_mem, Prod.exists, exists_and_right, exists_eq_right,
    List.mk_mem_zipIdx_iff_getElem?]
  constructor
  · rintro ⟨k, h1, h2⟩; exact ⟨k, h2, h1⟩
  · rintro ⟨k, h1, h2⟩; exact ⟨k, h2, h1⟩

/-- A reader of a file with a string column and two pages. -/
def exSelS : Bytes := fileBytes exDocS
  [⟨[.str [97]], [[.str [81, 49], .num .double 1]]⟩, ⟨[.str [98]], [[.str [68], .num .double 2]]⟩]

/-- **C07, false with strings.** Asking for page 1 of a file with a string column gives the
parameters of page 1 but the columns of both pages. -/
theorem read_selected_strings_fails : ∃ r, openSdds exText 20 true 100 exSelS = some (.ok r) ∧
    r.read 20 (some [1]) = some (.ok ⟨
      [[[("row_counts".toList, .num .long 1), ("file".toList, .str [98])]]],
      [[[("elem".toList, .str [81, 49]), ("s".toList, .num .double 1)]],
       [[("elem".toList, .str [68]), ("s".toList, .num .double 2)]]]⟩) := by
  obtain ⟨r, h1, -⟩ := open_file exDocS_announces
    [⟨[.str [97]], [[.str [81, 49], .num .double 1]]⟩, ⟨[.str [98]], [[.str [68], .num .double 2]]⟩] (fuel := 20)
    (by decide) true 100
  refine ⟨r, h1, ?_⟩
  have : openSdds exText 20 true 100 exSelS = some (.ok r) := h1
  have key : (match openSdds exText 20 true 100 exSelS with
      | some (.ok r) => r.read 20 (some [1])
      | _ => none) = some (.ok ⟨
      [[[("row_counts".toList, .num .long 1), ("file".toList, .str [98])]]],
      [[[("elem".toList, .str [81, 49]), ("s".toList, .num .double 1)]],
       [[("elem".toList, .str [68]), ("s".toList, .num .double 2)]]]⟩) := by decide +kernel
  rw [this] at key
  exact key

/-- **C07, false without buffer.** Skipping page 0 does not move the file position, so the page
returned is not page 1 of the file. -/
theorem read_selected_unbuffered_fails : ∃ r, openSdds exText 20 false 50 (fileBytes exDoc exPages) = some (.ok r) ∧
    r.read 20 (some [1]) ≠ some (.ok ⟨[[paramRecord exLayout exPages[1]]], [rowRecords exLayout exPages[1]]⟩) := by
  obtain ⟨r, h1, -⟩ := open_file exDoc_announces exPages (fuel := 20) (by decide) false 50
  refine ⟨r, h1, ?_⟩
  have key : ((match openSdds exText 20 false 50 (fileBytes exDoc exPages) with
      | some (.ok r) => r.read 20 (some [1])
      | _ => none) ≠ some (.ok ⟨[[paramRecord exLayout exPages[1]]], [rowRecords exLayout exPages[1]]⟩)) := by
    decide +kernel
  rw [h1] at key
  exact key

/-- **C08.** Reading with and without buffer gives the same result, page selection aside, for
every binary file whose pages do not have white space as their second byte. -/
theorem buffer_agree_partial {ft : FloatText} {d : Doc} {l : Layout} (h : d.Announces ft l) (hl : l.Ok)
    {pages : List Page} {maxStr : Nat} (hok : ∀ pg ∈ pages, PageOk maxStr l pg)
    (hm : ∀ pg ∈ pages, MarkOk pg) {fuel : Nat}
    (hfuel : d.comments.length + d.namelists.length + pages.length + 2 ≤ fuel) :
    ∃ r r', openSdds ft fuel true maxStr (fileBytes d pages) = some (.ok r) ∧
      openSdds ft fuel false maxStr (fileBytes d pages) = some (.ok r') ∧
      r.read fuel none = r'.read fuel none ∧ r.read fuel none ≠ none := by
  obtain ⟨r, h1, h2, h3, h4, h5, h6⟩ := open_file h pages (fuel := fuel) (by omega) true maxStr
  obtain ⟨r', h1', h2', h3', h4', h5', h6'⟩ := open_file h pages (fuel := fuel) (by omega) false maxStr
  refine ⟨r, r', h1, h1', ?_, ?_⟩
  · rw [Reader.read_ok h2 hl none (by simp) (Or.inl rfl) (by rw [h6]; exact hok) (fun _ => hm) h3 h4 (by omega),
      Reader.read_ok h2' hl none (by simp) (Or.inl rfl) (by rw [h6']; exact hok) (fun _ => hm) h3' h4' (by omega)]
  · rw [Reader.read_ok h2 hl none (by simp) (Or.inl rfl) (by rw [h6]; exact hok) (fun _ => hm) h3 h4 (by omega)]
    simp

example : ∃ r r', openSdds exText 20 true 100 (fileBytes exDocS exPagesS) = some (.ok r) ∧
    openSdds exText 20 false 100 (fileBytes exDocS exPagesS) = some (.ok r') ∧
    r.read 20 none = r'.read 20 none ∧ r.read 20 none ≠ none :=
  buffer_agree_partial exDocS_announces exLayoutS_ok exPagesS_ok (by unfold MarkOk; decide) (by decide)

theorem readline_newline (rest : Bytes) : (readline (10 :: rest)).1 = [10] := by
  simp [readline]

/-- **C08, false in general.** If the number of rows of the first page is between 2560 and 2815
(second byte `\n`), the unbuffered reader takes the file for finished and returns nothing, while
the buffered reader returns the page. -/
theorem buffer_newline_fails {ft : FloatText} {d : Doc} {l : Layout} (h : d.Announces ft l) (hl : l.Ok)
    {pg : Page} {pages : List Page} {maxStr : Nat} (hok : ∀ q ∈ pg :: pages, PageOk maxStr l q)
    (hrow : pg.rows.length / 256 = 10) (hsame : ∀ q ∈ pages, q.rows.length = pg.rows.length) (hc : l.cols ≠ []) {fuel : Nat}
    (hfuel : d.comments.length + d.namelists.length + pages.length + 3 ≤ fuel) :
    ∃ r r' P C, openSdds ft fuel true maxStr (fileBytes d (pg :: pages)) = some (.ok r) ∧
      openSdds ft fuel false maxStr (fileBytes d (pg :: pages)) = some (.ok r') ∧
      r.read fuel none = some (.ok ⟨[paramRecord l pg] :: P, rowRecords l pg :: C⟩) ∧
      r'.read fuel none = some (.ok ⟨[], []⟩) := by
  obtain ⟨r, h1, h2, h3, h4, h5, h6⟩ := open_file h (pg :: pages) (fuel := fuel) (by omega) true maxStr
  obtain ⟨r', h1', h2', h3', h4', h5', h6'⟩ := open_file h (pg :: pages) (fuel := fuel) (by omega) false maxStr
  have hlen : ∀ q ∈ pg :: pages, q.rows.length = pg.rows.length := by
    intro q hq
    rcases List.mem_cons.mp hq with rfl | hq
    · rfl
    · exact hsame q hq
  refine ⟨r, r', pages.map fun pg => [paramRecord l pg], pages.map (rowRecords l), h1, h1', ?_, ?_⟩
  · rw [Reader.read_ok h2 hl none (by simp) (Or.inl rfl) (by rw [h6]; exact hok) (by rw [h5]; simp) h3 h4
      (by simp; omega), pick_none]
    unfold pagesOf
    rw [filter_hasData hc, concat_same (n := pg.rows.length)]
    · rfl
    · intro p hp
      obtain ⟨q, hq, rfl⟩ := List.mem_map.mp hp
      unfold rowRecords
      rw [List.length_map, hlen q hq]
    · intro q hq h0
      have := hlen q hq
      rw [h0] at this
      simp at this
      omega
  · unfold Reader.read
    rw [if_neg (by simp)]
    obtain ⟨n, rfl⟩ : ∃ n, fuel = n + 1 := ⟨fuel - 1, by omega⟩
    have hend : r'.fileEnd ⟨if r'.buffer then r'.headerEnd else 0, r'.headerEnd⟩ = true := by
      unfold Reader.fileEnd
      rw [h5', h3', h4']
      simp only [Bool.false_eq_true, if_false, List.drop_left, List.flatMap_cons, encodePage]
      have hb : ∃ b c, leBytes 4 pg.rows.length = b :: 10 :: c := by
        refine ⟨UInt8.ofNat pg.rows.length, leBytes 2 (pg.rows.length / 256 / 256), ?_⟩
        unfold leBytes leBytes
        rw [hrow]
        rfl
      obtain ⟨b, c, hbc⟩ := hb
      rw [hbc]
      simp only [List.cons_append]
      rw [readline_newline]
      decide
    simp only [Reader.pageLoop, pastPages, hend, Bool.false_eq_true, if_false, if_true]
    rfl

example : ∃ (l : Layout) (pg : Page), l.Ok ∧ PageOk 10 l pg ∧ pg.rows.length / 256 = 10 ∧ l.cols ≠ [] := by
  refine ⟨exLayout, ⟨[.num .double 7], List.replicate 2560 [.num .double 1, .num .long 2]⟩, exLayout_ok, ?_, ?_, ?_⟩
  · refine ⟨by simp [exLayout, Fits, FType.size], ?_, ?_⟩
    swap
    · refine ⟨?_, by simp, ?_⟩
      · change (List.replicate 2560 _).length < _
        rw [List.length_replicate]; decide
      · intro row hrow
        rw [List.eq_of_mem_replicate hrow]
        simp
    intro row hrow
    rw [List.eq_of_mem_replicate hrow]
    simp [exLayout, Fits, FType.size]
  · have : ∀ n, n = 2560 → n / 256 = 10 := by intro n hn; omega
    exact this _ List.length_replicate
  · decide

/-- **C09.** Strings of binary files: every string that is ASCII, has no NUL at the end
and is not longer than `max_string_length` comes back as written, and so do the numbers around
it, for any number and position of string fields, when no parameter and no last column is an
empty string (see `read_strings_exact` for the other strings). -/
theorem read_strings_partial {ft : FloatText} {d : Doc} {l : Layout} (h : d.Announces ft l) (hl : l.Ok)
    {pg : Page} {maxStr : Nat} (hok : PageOk maxStr l pg) (hc : l.cols ≠ []) (hr : pg.rows ≠ []) {fuel : Nat}
    (hfuel : d.comments.length + d.namelists.length + 3 ≤ fuel) (buffer : Bool)
    (hm : buffer = false → MarkOk pg) :
    ∃ r, openSdds ft fuel buffer maxStr (fileBytes d [pg]) = some (.ok r) ∧
      r.read fuel none = some (.ok ⟨[[(rowCountsName, .num .long pg.rows.length) :: (l.params.map Prod.fst).zip pg.params]],
        [pg.rows.map fun row => (l.cols.map Prod.fst).zip row]⟩) :=
  read_all_pages_partial h hl (by simpa using hok) hc (List.length_pos_of_ne_nil hr) (by simp)
    (by simp; omega) buffer (by simpa using hm)

example : ∃ r, openSdds exText 20 true 100 (fileBytes exDocS exPagesS) = some (.ok r) ∧
    r.read 20 none = some (.ok ⟨[[[("row_counts".toList, .num .long 2), ("file".toList, .str [97])]]],
      [[[("elem".toList, .str [81, 49]), ("s".toList, .num .double 1)],
        [("elem".toList, .str [68]), ("s".toList, .num .double 2)]]]⟩) :=
  read_strings_partial exDocS_announces exLayoutS_ok (exPagesS_ok _ (by simp [exPagesS])) (by decide) (by decide)
    (by decide) true (by simp)

/-- **C09, false for empty strings and for non-ASCII strings.** -/
theorem read_strings_fails :
    (∃ r, openSdds exText 20 true 100 (fileBytes exDocS [⟨[.str []], [[.str [68], .num .double 2]]⟩]) = some (.ok r) ∧
      r.read 20 none = some (.error .valueError)) ∧
    (∃ r, openSdds exText 20 true 100 (fileBytes exDocS [⟨[.str [181]], [[.str [68], .num .double 2]]⟩]) = some (.ok r) ∧
      r.read 20 none = some (.error .unicodeError)) := by
  constructor
  · obtain ⟨r, h1, -⟩ := open_file exDocS_announces [⟨[.str []], [[.str [68], .num .double 2]]⟩] (fuel := 20)
      (by decide) true 100
    refine ⟨r, h1, ?_⟩
    have key : (match openSdds exText 20 true 100 (fileBytes exDocS [⟨[.str []], [[.str [68], .num .double 2]]⟩]) with
      | some (.ok r) => r.read 20 none
      | _ => none) = some (.error .valueError) := by decide +kernel
    rw [h1] at key
    exact key
  · obtain ⟨r, h1, -⟩ := open_file exDocS_announces [⟨[.str [181]], [[.str [68], .num .double 2]]⟩] (fuel := 20)
      (by decide) true 100
    refine ⟨r, h1, ?_⟩
    have key : (match openSdds exText 20 true 100 (fileBytes exDocS [⟨[.str [181]], [[.str [68], .num .double 2]]⟩]) with
      | some (.ok r) => r.read 20 none
      | _ => none) = some (.error .unicodeError) := by decide +kernel
    rw [h1] at key
    exact key

/-- **C16.** After a successful read of pages that all have rows, entry `k` of the parameters and
entry `k` of the columns belong to page `k`. -/
theorem pages_aligned_partial {ft : FloatText} {d : Doc} {l : Layout} (h : d.Announces ft l) (hl : l.Ok)
    {pages : List Page} {maxStr : Nat} (hok : ∀ pg ∈ pages, PageOk maxStr l pg) (hc : l.cols ≠ [])
    (hrows : ∀ pg ∈ pages, pg.rows ≠ []) {fuel : Nat}
    (hfuel : d.comments.length + d.namelists.length + pages.length + 2 ≤ fuel) :
    ∃ r, openSdds ft fuel true maxStr (fileBytes d pages) = some (.ok r) ∧
      ∀ res, r.read fuel none = some (.ok res) →
        res.params.length = pages.length ∧ res.cols.length = pages.length ∧
        ∀ k (hk : k < pages.length), res.params[k]? = some [paramRecord l pages[k]] ∧
          res.cols[k]? = some (rowRecords l pages[k]) := by
  obtain ⟨r, h1, h2, h3, h4, h5, h6⟩ := open_file h pages (fuel := fuel) (by omega) true maxStr
  refine ⟨r, h1, ?_⟩
  subst h6
  intro res hres
  rw [Reader.read_ok h2 hl none (by simp) (Or.inl rfl) hok (by rw [h5]; simp) h3 h4 (by omega), pick_none] at hres
  unfold pagesOf at hres
  rw [filter_hasData hc hrows] at hres
  have hcon : concat (pages.map (rowRecords l)) = .ok (pages.map (rowRecords l)) ∨
      concat (pages.map (rowRecords l)) = .error .valueError := by
    cases hq : pages.map (rowRecords l) with
    | nil => exact Or.inl rfl
    | cons a b => simp only [concat]; split_ifs <;> simp
  rcases hcon with hcon | hcon
  · simp only [hcon, Except.bind] at hres
    cases hres
    refine ⟨by simp, by simp, ?_⟩
    intro k hk
    simp [hk]
  · simp only [hcon, Except.bind] at hres
    cases hres

example : ∃ r, openSdds exText 20 true 50 (fileBytes exDoc exPages) = some (.ok r) ∧
    ∀ res, r.read 20 none = some (.ok res) →
      res.params.length = exPages.length ∧ res.cols.length = exPages.length ∧
      ∀ k (hk : k < exPages.length), res.params[k]? = some [paramRecord exLayout exPages[k]] ∧
        res.cols[k]? = some (rowRecords exLayout exPages[k]) :=
  pages_aligned_partial exDoc_announces exLayout_ok (exPages_ok 50) (by decide) (by decide) (by decide)

/-- **C16, false with empty pages.** Pages without rows leave no entry in the columns: if the
first page is empty, entry 0 of the columns belongs to page 1. -/
theorem pages_shifted_fails {ft : FloatText} {d : Doc} {l : Layout} (h : d.Announces ft l) (hl : l.Ok)
    {p0 p1 : Page} {maxStr : Nat} (h0 : PageOk maxStr l p0) (h1 : PageOk maxStr l p1) (hc : l.cols ≠ [])
    (he : p0.rows = []) (hne : p1.rows ≠ []) {fuel : Nat}
    (hfuel : d.comments.length + d.namelists.length + 4 ≤ fuel) :
    ∃ r, openSdds ft fuel true maxStr (fileBytes d [p0, p1]) = some (.ok r) ∧
      r.read fuel none = some (.ok ⟨[[paramRecord l p0], [paramRecord l p1]], [rowRecords l p1]⟩) := by
  obtain ⟨r, g1, g2, g3, g4, g5, g6⟩ := open_file h [p0, p1] (fuel := fuel) (by omega) true maxStr
  refine ⟨r, g1, ?_⟩
  subst g6
  rw [Reader.read_ok g2 hl none (by simp) (Or.inl rfl) (by simp [h0, h1]) (by rw [g5]; simp) g3 g4 (by simp; omega),
    pick_none]
  have e0 : hasData l p0 = false := by simp [hasData, he]
  have e1 : hasData l p1 = true := by simp [hasData, hc, hne]
  unfold pagesOf
  rw [List.filter_cons_of_neg (by simp [e0]), List.filter_cons_of_pos e1]
  rfl

example : ∃ r, openSdds exText 20 true 50 (fileBytes exDoc [⟨[.num .double 7], []⟩, exPages[1]]) = some (.ok r) ∧
    r.read 20 none = some (.ok ⟨[[paramRecord exLayout ⟨[.num .double 7], []⟩], [paramRecord exLayout exPages[1]]],
      [rowRecords exLayout exPages[1]]⟩) :=
  pages_shifted_fails exDoc_announces exLayout_ok (by simp [PageOk, exLayout, Fits, FType.size])
    (exPages_ok 50 _ (by simp [exPages])) (by decide) rfl (by decide) (by decide)

end Verif.Sdds
