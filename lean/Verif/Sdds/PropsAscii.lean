import Verif.Sdds.LemmasAscii3
import Verif.Sdds.PropsRead

/-!
# Properties C14 and C107: reading ASCII SDDS files
-/

namespace Verif.Sdds

/-! Concrete files for the examples below. -/

/-- Bits of the double of a natural number below 2^32. -/
def natF64 (n : Nat) : Nat := if n = 0 then 0 else (Nat.log2 n + 1023) * 2 ^ 52 + (n * 2 ^ (52 - Nat.log2 n) - 2 ^ 52)

/-- Bits of the double of an integer. -/
def intF64 (i : Int) : F64 := BitVec.ofNat 64 (if i < 0 then 2 ^ 63 + natF64 i.natAbs else natF64 i.natAbs)

theorem natF64_spec {n : Nat} (h0 : 0 < n) (h : n < 2 ^ 32) : ∃ e m, e ≤ 31 ∧ natF64 n = (e + 1023) * 2 ^ 52 + m ∧ m < 2 ^ 52 ∧
    2 ^ 52 + m = n * 2 ^ (52 - e) := by
  have hn : n ≠ 0 := by omega
  have h1 : 2 ^ Nat.log2 n ≤ n := Nat.log2_self_le hn
  have h2 : n < 2 ^ (Nat.log2 n + 1) := Nat.lt_log2_self
  have he : Nat.log2 n ≤ 31 := by
    have := (Nat.log2_lt hn).mpr h
    omega
  have e1 : 2 ^ Nat.log2 n * 2 ^ (52 - Nat.log2 n) = 2 ^ 52 := by rw [← Nat.pow_add]; congr 1; omega
  have e2 : 2 ^ (Nat.log2 n + 1) * 2 ^ (52 - Nat.log2 n) = 2 ^ 53 := by rw [← Nat.pow_add]; congr 1; omega
  have h3 : 2 ^ 52 ≤ n * 2 ^ (52 - Nat.log2 n) := by rw [← e1]; exact Nat.mul_le_mul_right _ h1
  have h4 : n * 2 ^ (52 - Nat.log2 n) < 2 ^ 53 := by
    rw [← e2]
    exact Nat.mul_lt_mul_of_pos_right h2 (Nat.two_pow_pos _)
  refine ⟨Nat.log2 n, n * 2 ^ (52 - Nat.log2 n) - 2 ^ 52, he, ?_, ?_, ?_⟩
  · unfold natF64
    rw [if_neg hn]
  · have : (2 : Nat) ^ 53 = 2 ^ 52 + 2 ^ 52 := by norm_num
    omega
  · omega

theorem truncF64_int (i : Int) (h1 : -2147483648 ≤ i) (h2 : i < 2147483648) : truncF64 (intF64 i) = .ok i := by
  by_cases h0 : i = 0
  · subst h0
    decide +kernel
  · obtain ⟨e, m, he, hb, hm, hv⟩ := natF64_spec (n := i.natAbs) (by omega) (by norm_num; omega)
    have key : ∀ s : Nat, s ≤ 1 → (s * 2 ^ 63 + natF64 i.natAbs) / 2 ^ 52 % 2048 = e + 1023 ∧
        (s * 2 ^ 63 + natF64 i.natAbs) % 2 ^ 52 = m ∧ s * 2 ^ 63 + natF64 i.natAbs < 2 ^ 64 ∧
        (2 ^ 63 ≤ s * 2 ^ 63 + natF64 i.natAbs ↔ s = 1) := by
      intro s hs
      rw [hb]
      norm_num at hm ⊢
      omega
    have hval : ∀ s : Nat, s ≤ 1 → truncF64 (BitVec.ofNat 64 (s * 2 ^ 63 + natF64 i.natAbs)) =
        .ok (if s = 1 then -(i.natAbs : Int) else i.natAbs) := by
      intro s hs
      obtain ⟨k1, k2, k3, k4⟩ := key s hs
      unfold truncF64
      simp only [BitVec.toNat_ofNat, Nat.mod_eq_of_lt k3, k1, k2]
      have hmax : max (e + 1023) 1 = e + 1023 := by omega
      rw [hmax, if_neg (show ¬ e + 1023 = 2047 by omega), if_neg (show ¬ 1075 ≤ e + 1023 by omega),
        if_neg (show ¬ e + 1023 = 0 by omega), hv, show 1075 - (e + 1023) = 52 - e by omega, Nat.mul_div_cancel _ (Nat.two_pow_pos _)]
      simp only [k4]
    unfold intF64
    by_cases hneg : i < 0
    · rw [if_pos hneg]
      have := hval 1 (by omega)
      rw [one_mul] at this
      rw [this, if_pos rfl]
      congr 1
      omega
    · rw [if_neg hneg]
      have := hval 0 (by omega)
      rw [zero_mul, zero_add] at this
      rw [this, if_neg (by omega)]
      congr 1
      omega

/-- A conversion that only knows integers. -/
def exConv : Conv := ⟨fun s => (parseInt s).map intF64, fun x => x.toNat % 2 ^ 32⟩

theorem exConv_law : exConv.IntLaw := by
  intro i h1 h2
  refine ⟨intF64 i, ?_, (truncF64_iff _ _).1 (truncF64_int i h1 h2)⟩
  unfold exConv
  simp only [parseInt_intStr, Except.map]

/-- One parameter and two columns. -/
def exDocT : Doc where
  comments := [" made by hand".toList]
  namelists :=
    [⟨.param, [exAttr "name" "note", exAttr "type" "string"], 0⟩,
     ⟨.col, [exAttr "name" "x", exAttr "type" "double"], 1⟩,
     ⟨.col, [exAttr "name" "id", exAttr "type" "long"], 1⟩]
  data := [exAttr "mode" "ascii"]

def exLayoutT : Layout := ⟨[("note".toList, .str)], [("x".toList, .num .double), ("id".toList, .num .long)]⟩

/-- Pages with the parameters "a b" and "c d" and two rows each. -/
def exTexts : List TPage :=
  [⟨[[97, 32, 98]], [[[49], [50]], [[51], [45, 52]]]⟩, ⟨[[99, 32, 100]], [[[53], [54]], [[55], [56]]]⟩]

def exPagesT : List Page :=
  [⟨[.str [97, 32, 98]], [[.num .double (intF64 1).toNat, .num .long 2], [.num .double (intF64 3).toNat, .num .long 4294967292]]⟩,
   ⟨[.str [99, 32, 100]], [[.num .double (intF64 5).toNat, .num .long 6], [.num .double (intF64 7).toNat, .num .long 8]]⟩]

/-- The same with columns only: one column, one page of two rows. -/
def exDocC : Doc where
  comments := []
  namelists := [⟨.col, [exAttr "name" "x", exAttr "type" "double"], 1⟩]
  data := [exAttr "mode" "ascii"]

def exLayoutC : Layout := ⟨[], [("x".toList, .num .double)]⟩

def exTextsC : List TPage := [⟨[], [[[49]], [[50]]]⟩]

def exPagesC : List Page := [⟨[], [[.num .double (intF64 1).toNat], [.num .double (intF64 2).toNat]]⟩]

instance (s : Bytes) : Decidable (LineText s) :=
  decidable_of_iff (s ≠ [] ∧ (10 ∉ s ∧ 13 ∉ s) ∧ 33 ∉ s ∧ s.head? ≠ some 32 ∧ s.getLast? ≠ some 32)
    ⟨fun h => ⟨h.1, h.2.1, h.2.2.1, h.2.2.2.1, h.2.2.2.2⟩, fun h => ⟨h.ne, h.oneLine, h.noComment, h.start, h.stop⟩⟩

instance (s : Bytes) : Decidable (WordText s) :=
  decidable_of_iff (s ≠ [] ∧ (∀ b ∈ s, isStrSpace b = false) ∧ 33 ∉ s)
    ⟨fun h => ⟨h.1, h.2.1, h.2.2⟩, fun h => ⟨h.ne, h.noSpace, h.noComment⟩⟩

instance (n : Str) : Decidable (KeptName n) :=
  decidable_of_iff (n ≠ [] ∧ (∀ ch ∈ n, isSpace ch = false ∧ ch ≠ '"') ∧ (n ≠ "return".toList ∧ n ≠ "file".toList ∧ n ≠ "print".toList))
    ⟨fun h => ⟨h.1, h.2.1, h.2.2⟩, fun h => ⟨h.ne, h.plain, h.allowed⟩⟩

theorem exDocT_announces : exDocT.AnnouncesText exText exLayoutT where
  ok := by decide +kernel
  noReturn := by decide +kernel
  mode := by decide +kernel
  counts := by decide +kernel
  params := by decide +kernel
  cols := by decide +kernel
  fixed := by
    intro as has v hv
    have : as = [exAttr "name" "note", exAttr "type" "string"] := by
      simpa [exDocT, Doc.attrsOf] using has
    subst this
    have h0 : attrVal [exAttr "name" "note", exAttr "type" "string"] "fixed_value".toList = none := by decide +kernel
    rw [h0] at hv; cases hv
  noLength := by decide +kernel
  some := Or.inl (by decide +kernel)

theorem exLayoutT_ok : exLayoutT.TextOk := ⟨by unfold Layout.Ok; decide +kernel, by decide +kernel, by decide +kernel⟩

theorem exDocC_announces : exDocC.AnnouncesText exText exLayoutC where
  ok := by decide +kernel
  noReturn := by decide +kernel
  mode := by decide +kernel
  counts := by decide +kernel
  params := by decide +kernel
  cols := by decide +kernel
  fixed := by
    intro as has v hv
    simp [exDocC, Doc.attrsOf] at has
  noLength := by decide +kernel
  some := Or.inr (by decide +kernel)

theorem exLayoutC_ok : exLayoutC.TextOk := ⟨by unfold Layout.Ok; decide +kernel, by decide +kernel, by decide +kernel⟩

theorem denotes_double {m : Nat} (s : Bytes) (i : Int) (h : parseInt (latin1 s) = .ok i) :
    Denotes exConv m (.num .double) s (.num .double (intF64 i).toNat) := by
  refine ⟨intF64 i, ?_, rfl⟩
  simp only [exConv, h, Except.map]

theorem denotes_long {m : Nat} (s : Bytes) (i : Int) (x : Nat) (h : s = utf8 (intStr i)) (h1 : -2147483648 ≤ i) (h2 : i < 2147483648)
    (hx : x = toBits 4 i) : Denotes exConv m (.num .long) s (.num .long x) := ⟨i, h, h1, h2, hx⟩

theorem exTexts_hold : List.Forall₂ (fun t pg => t.Holds exConv 50 exLayoutT pg) exTexts exPagesT := by
  refine .cons ⟨by decide, by decide, ⟨⟨rfl, by decide, by decide, by decide⟩, trivial⟩, .cons (.inl ⟨?_, ?_, trivial⟩) (.cons (.inl ⟨?_, ?_, trivial⟩) .nil), by decide, by decide⟩
    (.cons ⟨by decide, by decide, ⟨⟨rfl, by decide, by decide, by decide⟩, trivial⟩, .cons (.inl ⟨?_, ?_, trivial⟩) (.cons (.inl ⟨?_, ?_, trivial⟩) .nil), by decide, by decide⟩ .nil)
  · exact denotes_double [49] 1 (by decide +kernel)
  · exact denotes_long [50] 2 _ (by decide +kernel) (by decide) (by decide) (by decide)
  · exact denotes_double [51] 3 (by decide +kernel)
  · exact denotes_long [45, 52] (-4) _ (by decide +kernel) (by decide) (by decide) (by decide)
  · exact denotes_double [53] 5 (by decide +kernel)
  · exact denotes_long [54] 6 _ (by decide +kernel) (by decide) (by decide) (by decide)
  · exact denotes_double [55] 7 (by decide +kernel)
  · exact denotes_long [56] 8 _ (by decide +kernel) (by decide) (by decide) (by decide)

theorem exTextsC_hold : List.Forall₂ (fun t pg => t.Holds exConv 50 exLayoutC pg) exTextsC exPagesC := by
  refine .cons ⟨by decide, by decide, trivial, .cons (.inl ⟨?_, trivial⟩) (.cons (.inl ⟨?_, trivial⟩) .nil), by decide, by decide⟩ .nil
  · exact denotes_double [49] 1 (by decide +kernel)
  · exact denotes_double [50] 2 (by decide +kernel)

/-- **C14.** Reading an ASCII file gives the parameters and the columns of every page, in file order. Proved for files whose pages all have
the same number `n > 0` of rows or that have no columns, with field names that `genfromtxt` keeps. A buffered reader gets only one page if
there are columns (see `ascii_buffered_fails`). Without buffer the first line of each page must have more than one character (see
`ascii_short_line_fails`). -/
theorem ascii_read_partial {ft : FloatText} {d : Doc} {l : Layout} (h : d.AnnouncesText ft l) (hl : l.TextOk) {c : Conv} (hc : c.IntLaw)
    {ts : List TPage} {pages : List Page} {maxStr : Nat} (hh : List.Forall₂ (fun t pg => t.Holds c maxStr l pg) ts pages) {n : Nat}
    (hrows : l.cols ≠ [] → 0 < n ∧ ∀ pg ∈ pages, pg.rows.length = n) {fuel : Nat}
    (hfuel : d.comments.length + d.namelists.length + ts.length + 2 ≤ fuel) (buffer : Bool)
    (hb : buffer = true → l.cols = [] ∨ ts.length ≤ 1) (hm : buffer = false → ∀ t ∈ ts, t.FirstLine l) :
    ∃ r, openSdds ft fuel buffer maxStr (textFile d l ts) = some (.ok r) ∧
      r.readText c fuel none = some (.ok ⟨pages.map fun pg => [textParamRecord l pg],
        if l.cols.isEmpty then [] else pages.map (rowRecords l)⟩) := by
  obtain ⟨r, h1, h2, h3, h4, h5, h6, h7⟩ := open_text h (asLines (ts.flatMap (TPage.lines l))) (fuel := fuel) (by omega) buffer maxStr
  refine ⟨r, h1, ?_⟩
  subst h6 h7
  rw [Reader.readText_ok h2 hl h.some hc h.ok h.noReturn hh hm ?_ h3 h4 h5 (by omega)]
  · by_cases hc0 : l.cols = []
    · have : (textPagesOf l pages).cols = [] := by
        unfold textPagesOf
        simp only [List.map_eq_nil_iff, List.filter_eq_nil_iff]
        intro pg _
        simp [hasData, hc0]
      rw [this, hc0]
      rfl
    · obtain ⟨hn, hr⟩ := hrows hc0
      have hne : ∀ pg ∈ pages, pg.rows ≠ [] := by
        intro pg hpg h0
        have := hr pg hpg
        rw [h0] at this
        simp at this
        omega
      unfold textPagesOf
      rw [filter_hasData hc0 hne, concat_same (n := n)]
      · have : l.cols.isEmpty = false := by simpa using hc0
        rw [this]
        rfl
      · intro p hp
        obtain ⟨pg, hpg, rfl⟩ := List.mem_map.mp hp
        unfold rowRecords
        rw [List.length_map, hr pg hpg]
  · intro hbuf t ht
    rcases hb hbuf with h0 | h0
    · obtain ⟨pg, _, hpg⟩ := forall₂_left hh t (List.mem_of_mem_dropLast ht)
      exact hpg.noRows h0
    · have : ts.dropLast = [] := List.length_eq_zero_iff.mp (by rw [List.length_dropLast]; omega)
      rw [this] at ht
      cases ht

example : ∃ r, openSdds exText 20 false 50 (textFile exDocT exLayoutT exTexts) = some (.ok r) ∧
    r.readText exConv 20 none = some (.ok ⟨
      [[[("note".toList, .str [97, 32, 98]), ("row_counts".toList, .num .long 2)]],
       [[("note".toList, .str [99, 32, 100]), ("row_counts".toList, .num .long 2)]]],
      [[[("x".toList, .num .double (intF64 1).toNat), ("id".toList, .num .long 2)],
        [("x".toList, .num .double (intF64 3).toNat), ("id".toList, .num .long 4294967292)]],
       [[("x".toList, .num .double (intF64 5).toNat), ("id".toList, .num .long 6)],
        [("x".toList, .num .double (intF64 7).toNat), ("id".toList, .num .long 8)]]]⟩) := by
  refine ascii_read_partial exDocT_announces exLayoutT_ok exConv_law exTexts_hold (n := 2) (fun _ => ⟨by decide, by decide⟩) (by decide) false
    (by simp) ?_
  intro _ t ht
  have : t = ⟨[[97, 32, 98]], [[[49], [50]], [[51], [45, 52]]]⟩ ∨ t = ⟨[[99, 32, 100]], [[[53], [54]], [[55], [56]]]⟩ := by
    simpa [exTexts] using ht
  rcases this with rfl | rfl
  · exact ⟨[97, 32, 98], rfl, 98, by decide, by decide⟩
  · exact ⟨[99, 32, 100], rfl, 100, by decide, by decide⟩

example : ∃ r, openSdds exText 20 true 50 (textFile exDocC exLayoutC exTextsC) = some (.ok r) ∧
    r.readText exConv 20 none = some (.ok ⟨[[[("row_counts".toList, .num .long 2)]]],
      [[[("x".toList, .num .double (intF64 1).toNat)], [("x".toList, .num .double (intF64 2).toNat)]]]⟩) :=
  ascii_read_partial exDocC_announces exLayoutC_ok exConv_law exTextsC_hold (n := 2) (fun _ => ⟨by decide, by decide⟩) (by decide) true
    (fun _ => Or.inr (by decide)) (by simp)

/-- **C14 is false for buffered files.** With two pages or more and at least one row in each page, a buffered reader never returns as many
pages of `n` rows as the file has: the line position advances by twice the number of rows. -/
theorem ascii_buffered_fails {ft : FloatText} {d : Doc} {l : Layout} (h : d.AnnouncesText ft l) (c : Conv)
    {ts : List TPage} {pages : List Page} {maxStr : Nat} (hh : List.Forall₂ (fun t pg => t.Holds c maxStr l pg) ts pages) {n : Nat} (hn : 0 < n)
    (hrows : ∀ pg ∈ pages, pg.rows.length = n) (hpages : 2 ≤ pages.length) {fuel : Nat}
    (hfuel : d.comments.length + d.namelists.length + 2 ≤ fuel) :
    ∃ r, openSdds ft fuel true maxStr (textFile d l ts) = some (.ok r) ∧
      ∀ fuel' ps, r.readText c fuel' none ≠ some (.ok ⟨ps, pages.map (rowRecords l)⟩) := by
  obtain ⟨r, h1, h2, h3, h4, h5, h6, h7⟩ := open_text h (asLines (ts.flatMap (TPage.lines l))) (fuel := fuel) (by omega) true maxStr
  refine ⟨r, h1, ?_⟩
  intro fuel' ps hr
  subst h7
  have hloop := Reader.readText_pages hr
  obtain ⟨new, e1, e2⟩ := Reader.textLoop_pos h6 h2.counts n hn _ _ _ _ _ hloop
  simp only [List.nil_append] at e1
  have hne : new ≠ [] := by
    rw [← e1]
    intro h0
    rw [List.map_eq_nil_iff] at h0
    rw [h0] at hpages
    simp at hpages
  have hall : ∀ rows ∈ new, rows.length = n := by
    rw [← e1]
    intro rows hrow
    obtain ⟨pg, hpg, rfl⟩ := List.mem_map.mp hrow
    unfold rowRecords
    rw [List.length_map, hrows pg hpg]
  have hlines : (ts.flatMap (TPage.lines l)).length = ts.length * ((pFields l).length + n) := by
    clear hr hloop e1 e2 h1 h3 hpages
    induction hh with
    | nil => simp
    | cons g1 g2 ih =>
      rename_i t pg ts pgs
      have hpr : t.rows.length = n := by
        rw [← g1.length]
        exact hrows pg (by simp)
      have hcol : l.cols.isEmpty = false := by
        cases hc : l.cols.isEmpty with
        | false => rfl
        | true =>
          rw [g1.noRows (List.isEmpty_iff.mp hc)] at hpr
          simp at hpr
          omega
      have hpl := (AllDenote.length g1.params).1
      have hl1 : (t.lines l).length = (pFields l).length + n := by
        unfold TPage.lines pFields
        simp only [hcol, Bool.false_eq_true, if_false, List.length_append, List.length_cons, List.length_map, List.length_nil, hpl, hpr]
        omega
      rw [List.flatMap_cons, List.length_append, hl1, ih fun x hx => hrows x (by simp [hx]), List.length_cons, Nat.add_mul ts.length 1, one_mul]
      omega
  have hbuf : (bufferLines r.file).length = d.namelists.length + 2 + ts.length * ((pFields l).length + n) := by
    have hok : ∀ x ∈ ts.flatMap (TPage.lines l), ((10 : UInt8) ∉ x ∧ (13 : UInt8) ∉ x) ∧ (33 : UInt8) ∉ x := by
      intro x hx
      obtain ⟨t, ht, hx⟩ := List.mem_flatMap.mp hx
      obtain ⟨pg, _, hpg⟩ := forall₂_left hh t ht
      exact hpg.lines_ok x hx
    rw [h3, bufferLines_file h.ok h.noReturn (fun x hx => (hok x hx).1) fun x hx => notComment_mem (hok x hx).2, List.length_append, hlines]
    simp [headLines]
  have hkeys : r.paramKeys.length = (pFields l).length := by rw [h2.paramKeys, List.length_map]
  have hlen : new.length = ts.length := by
    rw [← e1, List.length_map]
    exact hh.length_eq.symm
  have := e2 hne hall
  rw [hbuf, hkeys, hlen, h6] at this
  simp only [if_true, h5] at this
  have hts : 2 ≤ ts.length := by rw [hh.length_eq]; exact hpages
  obtain ⟨q, hq⟩ : ∃ q, ts.length = q + 2 := ⟨ts.length - 2, by omega⟩
  rw [hq, show 2 * (q + 2) - 1 = 2 * q + 3 by omega] at this
  have e3 : (q + 2) * ((pFields l).length + n) = (q + 2) * (pFields l).length + (q + 2) * n := Nat.mul_add _ _ _
  have e4 : (2 * q + 3) * n = (q + 2) * n + (q + 1) * n := by rw [← Nat.add_mul]; congr 1; omega
  have e5 : n ≤ (q + 1) * n := Nat.le_mul_of_pos_left n (by omega)
  omega

example : ∃ r, openSdds exText 20 true 50 (textFile exDocT exLayoutT exTexts) = some (.ok r) ∧
    ∀ fuel' ps, r.readText exConv fuel' none ≠ some (.ok ⟨ps, exPagesT.map (rowRecords exLayoutT)⟩) :=
  ascii_buffered_fails exDocT_announces exConv exTexts_hold (n := 2) (by decide) (by decide) (by decide) (by decide)

/-- **C14 is false for unbuffered files** that begin with a line of one character, such as files without parameters whose first page has
fewer than ten rows: the test for the end of the file takes the character away and sees an empty line. Nothing is read. -/
theorem ascii_short_line_fails {ft : FloatText} {d : Doc} {l : Layout} (h : d.AnnouncesText ft l) (c : Conv) {t : TPage} {ts : List TPage}
    {b : UInt8} (hb : b ≠ 10) (ht : (t.lines l).head? = some [b]) (maxStr : Nat) {fuel : Nat}
    (hfuel : d.comments.length + d.namelists.length + 2 ≤ fuel) :
    ∃ r, openSdds ft fuel false maxStr (textFile d l (t :: ts)) = some (.ok r) ∧
      ∀ fuel', r.readText c (fuel' + 1) none = some (.ok ⟨[], []⟩) := by
  obtain ⟨r, h1, h2, h3, h4, h5, h6, h7⟩ := open_text h (asLines ((t :: ts).flatMap (TPage.lines l))) (fuel := fuel) (by omega) false maxStr
  refine ⟨r, h1, ?_⟩
  intro fuel'
  obtain ⟨ls, hls⟩ : ∃ ls, (t :: ts).flatMap (TPage.lines l) = [b] :: ls := by
    rw [List.flatMap_cons]
    cases hh : t.lines l with
    | nil => rw [hh] at ht; cases ht
    | cons x xs =>
      rw [hh] at ht
      have : x = [b] := by simpa using ht
      exact ⟨xs ++ ts.flatMap (TPage.lines l), by rw [this]; rfl⟩
  have hfl : fileLines (r.file.drop r.headerEnd) = [b, 10] :: fileLines (asLines ls) := by
    rw [h3, h4, List.drop_left, hls]
    have e : asLines ([b] :: ls) = [b] ++ 10 :: asLines ls := by simp [asLines]
    rw [e]
    unfold fileLines
    rw [fileLinesFrom_line [b] [] _ (by simpa using fun hh => hb hh.symm)]
    rfl
  have hend : ∀ n, r.textEnd ⟨n, fileLines (r.file.drop r.headerEnd)⟩ = true := by
    intro n
    unfold Reader.textEnd
    rw [h6, hfl]
    simp only [Bool.false_eq_true, if_false]
    rw [if_neg (show ¬ [b, 10].tail = [] by simp)]
    rfl
  unfold Reader.readText
  rw [if_neg (by simp)]
  simp only
  unfold Reader.textLoop
  rw [if_neg (by simp [pastPages]), if_pos (hend _)]
  rfl

example : ∃ r, openSdds exText 20 false 50 (textFile exDocC exLayoutC exTextsC) = some (.ok r) ∧
    ∀ fuel', r.readText exConv (fuel' + 1) none = some (.ok ⟨[], []⟩) :=
  ascii_short_line_fails exDocC_announces exConv (b := 50) (by decide) (by decide +kernel) 50 (by decide)

/-- **C107.** Whatever the data of an ASCII file are, the fields of `parameters` and `columns` have the names of the header. Proved for
names without white space and double quotes that are not `return`, `file` or `print`. -/
theorem ascii_names_partial {ft : FloatText} {d : Doc} {l : Layout} (h : d.AnnouncesText ft l) (hl : l.TextOk) (c : Conv) (data : Bytes)
    (buffer : Bool) (maxStr : Nat) {fuel : Nat} (hfuel : d.comments.length + d.namelists.length + 2 ≤ fuel) :
    ∃ r, openSdds ft fuel buffer maxStr (utf8 d.text ++ data) = some (.ok r) ∧
      ∀ fuel' sel out, r.readText c fuel' sel = some (.ok out) →
        (∀ page ∈ out.params, ∀ rec ∈ page, rec.map Prod.fst = l.params.map Prod.fst ++ if l.cols = [] then [] else ["row_counts".toList]) ∧
        ∀ page ∈ out.cols, ∀ rec ∈ page, rec.map Prod.fst = l.cols.map Prod.fst := by
  obtain ⟨r, h1, h2, h3, h4, h5, h6, h7⟩ := open_text h data (fuel := fuel) (by omega) buffer maxStr
  refine ⟨r, h1, ?_⟩
  intro fuel' sel out hr
  have hnames : (pFields l).map Prod.fst = l.params.map Prod.fst ++ if l.cols = [] then [] else ["row_counts".toList] := by
    unfold pFields
    rw [List.map_append]
    by_cases hc : l.cols = []
    · rw [if_pos (List.isEmpty_iff.mpr hc), if_pos hc]
      rfl
    · rw [if_neg (fun hh => hc (List.isEmpty_iff.mp hh)), if_neg hc]
      rfl
  refine Reader.textLoop_forall
    (fun page => ∀ rec ∈ page, rec.map Prod.fst = l.params.map Prod.fst ++ if l.cols = [] then [] else ["row_counts".toList])
    (fun page => ∀ rec ∈ page, rec.map Prod.fst = l.cols.map Prod.fst) ?_ ?_ _ _ _ _ _ (Reader.readText_pages hr)
    (fun x hx => absurd hx List.not_mem_nil) fun x hx => absurd hx List.not_mem_nil
  · intro pd pg hpd hm rec hrec
    rw [← hnames]
    rcases textMerge_cases hm with ⟨a, rfl, rfl⟩ | ⟨recs, rec', _, g2, rfl⟩
    · rw [h2.paramKeys] at hpd
      generalize hg : (pFields l) = fs at hpd
      cases fs with
      | nil => cases hpd
      | cons f fs =>
        rw [List.map_cons] at hpd
        cases hpd with
        | cons g1 g2 =>
          have hfs : fs = [] := by
            have := g2.length_eq
            rw [List.length_map, List.length_nil] at this
            exact List.length_eq_zero_iff.mp this
          rw [g1.2 rec hrec, hfs]
          have : KeptName f.1 := pFields_kept hl f (by rw [hg]; simp)
          show validNames [f.1] = [f.1]
          exact validNames_kept (fun n hn => by rw [List.mem_singleton.mp hn]; exact this) (by simp)
    · rw [List.mem_singleton.mp hrec, mapM_lastField_names _ _ g2, h2.paramKeys, keyNames, List.filter_eq_self]
      intro a ha
      simp only [ne_eq, decide_eq_true_eq]
      rintro rfl
      exact (pFields_names hl).2 ha
  · intro a ha rec hrec
    by_cases hc : l.cols = []
    · have hr0 : r.cols = [] := by
        have := h2.cols
        rw [hc] at this
        exact List.map_eq_nil_iff.mp this
      have hk : r.colKeys = [] := by
        unfold Reader.colKeys
        rw [if_pos hr0]
      rw [ha.2 rec hrec, hk, hc]
      rfl
    · rw [ha.2 rec hrec, h2.colKeys hc]
      have e : (List.headD [l.cols.map (tKey r.maxStr)] []).map Prod.fst = l.cols.map Prod.fst := by
        rw [List.headD_cons, List.map_map]
        rfl
      rw [e]
      refine validNames_kept ?_ hl.ok.2.2.1
      intro n hn
      obtain ⟨f, hf, rfl⟩ := List.mem_map.mp hn
      exact hl.cols f hf

example : ∃ r, openSdds exText 20 true 50 (utf8 exDocT.text ++ [10, 33]) = some (.ok r) ∧
    ∀ fuel' sel out, r.readText exConv fuel' sel = some (.ok out) →
      (∀ page ∈ out.params, ∀ rec ∈ page, rec.map Prod.fst = ["note".toList, "row_counts".toList]) ∧
      ∀ page ∈ out.cols, ∀ rec ∈ page, rec.map Prod.fst = ["x".toList, "id".toList] :=
  ascii_names_partial exDocT_announces exLayoutT_ok exConv [10, 33] true 50 (by decide)

/-- **C107 is false** for columns called `return`, `file` or `print` and for columns with a blank in their names: no record that is read,
of whatever file, has the names of the header. -/
theorem ascii_column_names_fails {ft : FloatText} {d : Doc} {l : Layout} (h : d.AnnouncesText ft l) {n : Str} (hn : n ∈ l.cols.map Prod.fst)
    (hbad : n = "return".toList ∨ n = "file".toList ∨ n = "print".toList ∨ ' ' ∈ n) (c : Conv) (data : Bytes) (buffer : Bool) (maxStr : Nat)
    {fuel : Nat} (hfuel : d.comments.length + d.namelists.length + 2 ≤ fuel) :
    ∃ r, openSdds ft fuel buffer maxStr (utf8 d.text ++ data) = some (.ok r) ∧
      ∀ fuel' sel out, r.readText c fuel' sel = some (.ok out) →
        ∀ page ∈ out.cols, ∀ rec ∈ page, n ∉ rec.map Prod.fst ∧ rec.map Prod.fst ≠ l.cols.map Prod.fst := by
  obtain ⟨r, h1, h2, h3, h4, h5, h6, h7⟩ := open_text h data (fuel := fuel) (by omega) buffer maxStr
  refine ⟨r, h1, ?_⟩
  have hch : ChangedName n := by
    unfold ChangedName excludedNames
    rcases hbad with h | h | h | h
    · exact Or.inl (by simp [h])
    · exact Or.inl (by simp [h])
    · exact Or.inl (by simp [h])
    · exact Or.inr h
  intro fuel' sel out hr
  refine (Reader.textLoop_forall (fun _ => True)
    (fun page => ∀ rec ∈ page, n ∉ rec.map Prod.fst ∧ rec.map Prod.fst ≠ l.cols.map Prod.fst) (fun _ _ _ _ => trivial) ?_ _ _ _ _ _
    (Reader.readText_pages hr) (fun x hx => trivial) fun x hx => absurd hx List.not_mem_nil).2
  intro a ha rec hrec
  have hno : n ∉ rec.map Prod.fst := by
    rw [ha.2 rec hrec]
    exact validNamesFrom_ne hch _ _
  exact ⟨hno, fun he => hno (he ▸ hn)⟩

/-- A column called `file`. -/
def exDocF : Doc where
  comments := []
  namelists := [⟨.col, [exAttr "name" "file", exAttr "type" "double"], 1⟩]
  data := [exAttr "mode" "ascii"]

def exLayoutF : Layout := ⟨[], [("file".toList, .num .double)]⟩

theorem exDocF_announces : exDocF.AnnouncesText exText exLayoutF where
  ok := by decide +kernel
  noReturn := by decide +kernel
  mode := by decide +kernel
  counts := by decide +kernel
  params := by decide +kernel
  cols := by decide +kernel
  fixed := by
    intro as has v hv
    simp [exDocF, Doc.attrsOf] at has
  noLength := by decide +kernel
  some := Or.inr (by decide +kernel)

example : ∃ r, openSdds exText 20 true 50 (utf8 exDocF.text ++ [50, 10, 55, 10, 56, 10]) = some (.ok r) ∧
    ∀ fuel' sel out, r.readText exConv fuel' sel = some (.ok out) →
      ∀ page ∈ out.cols, ∀ rec ∈ page, "file".toList ∉ rec.map Prod.fst ∧ rec.map Prod.fst ≠ ["file".toList] :=
  ascii_column_names_fails exDocF_announces (n := "file".toList) (by decide +kernel) (Or.inr (Or.inl rfl)) exConv _ true 50 (by decide)

/-- The column is there, under another name. -/
example : ((openSdds exText 20 true 50 (utf8 exDocF.text ++ [50, 10, 55, 10, 56, 10])).bind fun r => match r with
    | .ok r => (r.readText exConv 20 none).bind fun o => match o with
      | .ok o => some o.cols
      | .error _ => none
    | .error _ => none) =
    some [[[("file_".toList, .num .double (intF64 7).toNat)], [("file_".toList, .num .double (intF64 8).toNat)]]] := by decide +kernel

/-- **C107 is false** for parameters with such names: if the page has two lines of parameters or more, counting the row count, no page is
ever stored, whatever the data are; reading raises KeyError when the arrays are merged. -/
theorem ascii_param_names_fails {ft : FloatText} {d : Doc} {l : Layout} (h : d.AnnouncesText ft l) {n : Str} (hn : n ∈ l.params.map Prod.fst)
    (hbad : n = "return".toList ∨ n = "file".toList ∨ n = "print".toList ∨ ' ' ∈ n) (htwo : 2 ≤ l.params.length ∨ l.cols ≠ [])
    (c : Conv) (data : Bytes) (buffer : Bool) (maxStr : Nat) {fuel : Nat} (hfuel : d.comments.length + d.namelists.length + 2 ≤ fuel) :
    ∃ r, openSdds ft fuel buffer maxStr (utf8 d.text ++ data) = some (.ok r) ∧
      ∀ fuel' sel out, r.readText c fuel' sel = some (.ok out) → out.params = [] := by
  obtain ⟨r, h1, h2, h3, h4, h5, h6, h7⟩ := open_text h data (fuel := fuel) (by omega) buffer maxStr
  refine ⟨r, h1, ?_⟩
  have hch : ChangedName n := by
    unfold ChangedName excludedNames
    rcases hbad with h | h | h | h
    · exact Or.inl (by simp [h])
    · exact Or.inl (by simp [h])
    · exact Or.inl (by simp [h])
    · exact Or.inr h
  intro fuel' sel out hr
  have key : ∀ page ∈ out.params, False := by
    refine (Reader.textLoop_forall (fun _ => False) (fun _ => True) ?_ (fun _ _ => trivial) _ _ _ _ _ (Reader.readText_pages hr)
      (fun x hx => by cases hx) fun x hx => trivial).1
    intro pd pg hpd hm
    have hlen : 2 ≤ r.paramKeys.length := by
      rw [h2.paramKeys, List.length_map]
      unfold pFields
      have hpos : 0 < l.params.length := by
        obtain ⟨f, hf, _⟩ := List.mem_map.mp hn
        exact List.length_pos_of_mem hf
      rcases htwo with h0 | h0
      · rw [List.length_append]; omega
      · have : l.cols.isEmpty = false := by simpa using h0
        rw [this]
        simp
        omega
    rcases textMerge_cases hm with ⟨a, rfl, _⟩ | ⟨recs, rec', g1, g2, _⟩
    · have := hpd.length_eq
      simp at this
      omega
    · have hnn : n ≠ recLenName := by
        rintro rfl
        rcases hch with h0 | h0
        · revert h0; decide
        · revert h0; decide
      have hmem : n ∈ ((r.paramKeys.flatMap fun dk => dk.map Prod.fst).filter (· ≠ recLenName)) := by
        rw [h2.paramKeys, keyNames, List.mem_filter]
        refine ⟨?_, by simpa using hnn⟩
        unfold pFields
        rw [List.map_append]
        exact List.mem_append_left _ hn
      have hrec := mapM_lastField_names _ _ g2
      rw [← hrec] at hmem
      obtain ⟨kv, hkv, hkn⟩ := List.mem_map.mp hmem
      obtain ⟨m, _, hlf⟩ := mapM_mem _ _ _ g2 kv hkv
      obtain ⟨hk1, hk2⟩ := lastField_names hlf
      obtain ⟨rc, hrc, hkr⟩ := List.mem_flatten.mp hk2
      obtain ⟨a, ha, hone⟩ := mapM_mem _ _ _ g1 rc hrc
      obtain ⟨dk, _, hnb⟩ := forall₂_left hpd.flip a ha
      have := textMergeOne_names hnb.2 hone kv hkr
      rw [hkn] at this
      exact validNamesFrom_ne hch _ _ this
  cases hp : out.params with
  | nil => rfl
  | cons x xs => exact absurd (key x (by rw [hp]; simp)) id

/-- A parameter called `print` beside the column `x`. -/
def exDocP : Doc where
  comments := []
  namelists :=
    [⟨.param, [exAttr "name" "print", exAttr "type" "string"], 0⟩,
     ⟨.col, [exAttr "name" "x", exAttr "type" "double"], 1⟩]
  data := [exAttr "mode" "ascii"]

def exLayoutP : Layout := ⟨[("print".toList, .str)], [("x".toList, .num .double)]⟩

theorem exDocP_announces : exDocP.AnnouncesText exText exLayoutP where
  ok := by decide +kernel
  noReturn := by decide +kernel
  mode := by decide +kernel
  counts := by decide +kernel
  params := by decide +kernel
  cols := by decide +kernel
  fixed := by
    intro as has v hv
    have : as = [exAttr "name" "print", exAttr "type" "string"] := by
      simpa [exDocP, Doc.attrsOf] using has
    subst this
    have h0 : attrVal [exAttr "name" "print", exAttr "type" "string"] "fixed_value".toList = none := by decide +kernel
    rw [h0] at hv; cases hv
  noLength := by decide +kernel
  some := Or.inl (by decide +kernel)

example : ∃ r, openSdds exText 20 true 50 (utf8 exDocP.text ++ [97, 10, 50, 10, 55, 10, 56, 10]) = some (.ok r) ∧
    ∀ fuel' sel out, r.readText exConv fuel' sel = some (.ok out) → out.params = [] :=
  ascii_param_names_fails exDocP_announces (n := "print".toList) (by decide +kernel) (Or.inr (Or.inr (Or.inl rfl)))
    (Or.inr (by decide +kernel)) exConv _ true 50 (by decide)

/-- Reading that file raises KeyError. -/
example : ((openSdds exText 20 true 50 (utf8 exDocP.text ++ [97, 10, 50, 10, 55, 10, 56, 10])).bind fun r => match r with
    | .ok r => (r.readText exConv 20 none).bind fun o => match o with
      | .ok _ => none
      | .error e => some e
    | .error _ => none) = some .keyError := by decide +kernel

end Verif.Sdds
