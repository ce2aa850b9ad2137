import Verif.Sdds.PropsRead

/-! Exactly which pages the unbuffered reader sees, and when it agrees with the buffered one (C08). -/

namespace Verif.Sdds

/-- The bytes behind the first one go on with a line of white space. -/
def LooksEnded (b : Bytes) : Bool := (readline b.tail).1.all isSpaceByte

/-- The pages in front of the first one that looks like the end of the file. -/
def seenPages : List Page → List Page
  | [] => []
  | pg :: rest => if LooksEnded ((pg :: rest).flatMap encodePage) then [] else pg :: seenPages rest

theorem Reader.fileEnd_looks {r : Reader} (hb : r.buffer = false) {p : Pos} {pg : Page} {rest : Bytes}
    (hf : r.file.drop (r.cur p) = encodePage pg ++ rest) : r.fileEnd p = LooksEnded (encodePage pg ++ rest) := by
  have e : encodePage pg ++ rest = UInt8.ofNat pg.rows.length :: UInt8.ofNat (pg.rows.length / 256) ::
      (leBytes 2 (pg.rows.length / 256 / 256) ++ (pg.params.flatMap encodeVal ++ (colBytes pg ++ rest))) := by
    rw [encodePage_eq, paramBytes]
    simp [leBytes]
  unfold Reader.fileEnd
  unfold Reader.cur at hf
  rw [hb] at hf
  simp only [Bool.false_eq_true, if_false] at hf
  rw [if_neg (by rw [hb]; simp), hf, e]
  rfl

theorem Reader.pageLoop_seen {r : Reader} {l : Layout} (hd : r.Describes l) (hl : l.Ok) (hb : r.buffer = false)
    (pages : List Page) : (∀ pg ∈ pages, PageOk r.maxStr l pg) →
    ∀ (fuel k : Nat) (p : Pos) (acc : Pages), pages.length < fuel → r.PosOk p →
    r.file.drop (r.cur p) = pages.flatMap encodePage → r.cur p ≤ r.file.length →
    r.pageLoop none fuel k p acc = some (.ok (acc.append (pagesOf l (seenPages pages)))) := by
  induction pages with
  | nil =>
    intro hok fuel k p acc hfuel hp hf hc
    obtain ⟨fuel, rfl⟩ : ∃ n, fuel = n + 1 := ⟨fuel - 1, by simp at hfuel; omega⟩
    unfold Reader.pageLoop
    rw [Reader.fileEnd_done (by simpa using hf)]
    simp only [if_true, ite_self, seenPages, Pages.append_nil]
  | cons pg pages ih =>
    intro hok fuel k p acc hfuel hp hf hc
    obtain ⟨fuel, rfl⟩ : ∃ n, fuel = n + 1 := ⟨fuel - 1, by simp at hfuel; omega⟩
    rw [List.flatMap_cons] at hf
    have hpg := hok pg (by simp)
    have hdrop : r.file.drop (r.cur (r.adv p (encodePage pg).length)) = pages.flatMap encodePage := by
      rw [Reader.cur_adv, ← List.drop_drop, hf, List.drop_left]
    have hle : r.cur (r.adv p (encodePage pg).length) ≤ r.file.length := by
      have := congrArg List.length hf
      rw [List.length_drop, List.length_append] at this
      rw [Reader.cur_adv]; omega
    have hrec := fun acc' => ih (fun x hx => hok x (by simp [hx]))
      fuel (k + 1) (r.adv p (encodePage pg).length) acc' (by simp at hfuel; omega) (Reader.adv_ok hp _) hdrop hle
    unfold Reader.pageLoop
    rw [if_neg (by simp [pastPages]), Reader.fileEnd_looks hb hf]
    unfold seenPages
    rw [List.flatMap_cons]
    by_cases he : LooksEnded (encodePage pg ++ pages.flatMap encodePage) = true
    · rw [if_pos he, if_pos he, Pages.append_nil]
    · rw [if_neg he, if_neg he]
      have hw : wantedPage none k = true := rfl
      rw [hw, Reader.readPage_keep hd hl hpg hp _ hf hc]
      simp only [hrec]
      congr 2
      simp only [Pages.append, pagesOf, List.map_cons, List.map_nil, List.append_assoc, List.singleton_append,
        Pages.mk.injEq, true_and, List.append_cancel_left_eq]
      rw [← List.map_append, ← List.filter_append]
      rfl

theorem Reader.read_seen {r : Reader} {l : Layout} (hd : r.Describes l) (hl : l.Ok) (hb : r.buffer = false)
    {header : Bytes} {pages : List Page} (hok : ∀ pg ∈ pages, PageOk r.maxStr l pg)
    (hfile : r.file = header ++ pages.flatMap encodePage) (hend : r.headerEnd = header.length)
    {fuel : Nat} (hfuel : pages.length < fuel) :
    r.read fuel none = some ((concat (pagesOf l (seenPages pages)).cols).bind fun cs =>
      .ok ⟨(seenPages pages).map fun pg => [paramRecord l pg], cs⟩) := by
  have hcur : r.cur ⟨if r.buffer then r.headerEnd else 0, r.headerEnd⟩ = header.length := by
    unfold Reader.cur
    rw [hb]
    simp [hend]
  unfold Reader.read
  rw [if_neg (by simp)]
  simp only
  rw [Reader.pageLoop_seen hd hl hb pages hok fuel 0 _ _ hfuel ?_ ?_ ?_]
  · have := concat_params l (seenPages pages)
    simp only [Pages.append, List.nil_append, this, bind, Except.bind]
  · intro hb; simp [hb]
  · rw [hcur, hfile, List.drop_left]
  · rw [hcur, hfile, List.length_append]; omega

theorem seenPages_prefix (pages : List Page) : seenPages pages <+: pages := by
  induction pages with
  | nil => exact List.prefix_refl _
  | cons pg rest ih =>
    unfold seenPages
    split
    · exact List.nil_prefix
    · exact List.prefix_cons_inj pg |>.mpr ih

theorem seenPages_all_iff (pages : List Page) : seenPages pages = pages ↔
    ∀ pre pg post, pages = pre ++ pg :: post → LooksEnded ((pg :: post).flatMap encodePage) = false := by
  induction pages with
  | nil => simp [seenPages]
  | cons q rest ih =>
    unfold seenPages
    by_cases he : LooksEnded ((q :: rest).flatMap encodePage) = true
    · rw [if_pos he]
      constructor
      · intro h; cases h
      · intro h
        rw [h [] q rest rfl] at he
        cases he
    · rw [if_neg he]
      constructor
      · intro h pre pg post hp
        cases pre with
        | nil =>
          simp only [List.nil_append, List.cons.injEq] at hp
          rw [← hp.1, ← hp.2]
          simpa using he
        | cons a pre =>
          simp only [List.cons_append, List.cons.injEq] at hp
          exact ih.mp (List.cons.inj h).2 pre pg post hp.2
      · intro h
        rw [ih.mpr fun pre pg post hp => h (q :: pre) pg post (by rw [hp]; rfl)]

/-- **C08, exactly.** For every binary file the unbuffered reader does what the buffered reader does with the same file cut before the first page
whose bytes behind the first one go on with a line of white space. -/
theorem buffer_unbuffered_exact {ft : FloatText} {d : Doc} {l : Layout} (h : d.Announces ft l) (hl : l.Ok)
    {pages : List Page} {maxStr : Nat} (hok : ∀ pg ∈ pages, PageOk maxStr l pg) {fuel : Nat}
    (hfuel : d.comments.length + d.namelists.length + pages.length + 2 ≤ fuel) :
    ∃ r r', openSdds ft fuel true maxStr (fileBytes d (seenPages pages)) = some (.ok r) ∧
      openSdds ft fuel false maxStr (fileBytes d pages) = some (.ok r') ∧
      r'.read fuel none = r.read fuel none := by
  have hpre := seenPages_prefix pages
  have hlen := hpre.length_le
  obtain ⟨r, h1, h2, h3, h4, h5, h6⟩ := open_file h (seenPages pages) (fuel := fuel) (by omega) true maxStr
  obtain ⟨r', h1', h2', h3', h4', h5', h6'⟩ := open_file h pages (fuel := fuel) (by omega) false maxStr
  refine ⟨r, r', h1, h1', ?_⟩
  rw [Reader.read_ok h2 hl none (by simp) (Or.inl rfl) (by rw [h6]; exact fun q hq => hok q (hpre.subset hq)) (by rw [h5]; simp) h3 h4 (by omega),
    Reader.read_seen h2' hl h5' (by rw [h6']; exact hok) h3' h4' (by omega), pick_none]

/-- **C08, when it holds.** For files whose pages with rows have equally many rows (the others cannot be read with buffer, `read_ragged_fails`), the
two readers agree exactly when no page looks like the end of the file: behind its first byte there is a line that is not white space. -/
theorem buffer_agree_iff {ft : FloatText} {d : Doc} {l : Layout} (h : d.Announces ft l) (hl : l.Ok)
    {pages : List Page} {maxStr : Nat} (hok : ∀ pg ∈ pages, PageOk maxStr l pg) {n : Nat}
    (hrows : ∀ pg ∈ pages, pg.rows = [] ∨ pg.rows.length = n) {fuel : Nat}
    (hfuel : d.comments.length + d.namelists.length + pages.length + 2 ≤ fuel) :
    ∃ r r', openSdds ft fuel true maxStr (fileBytes d pages) = some (.ok r) ∧
      openSdds ft fuel false maxStr (fileBytes d pages) = some (.ok r') ∧
      (r.read fuel none = r'.read fuel none ↔ ∀ pre pg post, pages = pre ++ pg :: post →
        (readline ((pg :: post).flatMap encodePage).tail).1.all isSpaceByte = false) := by
  obtain ⟨r, h1, h2, h3, h4, h5, h6⟩ := open_file h pages (fuel := fuel) (by omega) true maxStr
  obtain ⟨r', h1', h2', h3', h4', h5', h6'⟩ := open_file h pages (fuel := fuel) (by omega) false maxStr
  refine ⟨r, r', h1, h1', ?_⟩
  have hcat : ∀ qs : List Page, (∀ q ∈ qs, q ∈ pages) → concat (pagesOf l qs).cols = .ok (pagesOf l qs).cols := by
    intro qs hqs
    refine concat_ok (n := n) ?_
    intro c hc
    unfold pagesOf at hc
    obtain ⟨q, hq, rfl⟩ := List.mem_map.mp hc
    rw [List.mem_filter] at hq
    rcases hrows q (hqs q hq.1) with h0 | h0
    · have := hq.2
      simp [hasData, h0] at this
    · unfold rowRecords
      rw [List.length_map, h0]
  rw [Reader.read_ok h2 hl none (by simp) (Or.inl rfl) (by rw [h6]; exact hok) (by rw [h5]; simp) h3 h4 (by omega), pick_none,
    Reader.read_seen h2' hl h5' (by rw [h6']; exact hok) h3' h4' (by omega), hcat pages fun q hq => hq,
    hcat (seenPages pages) fun q hq => (seenPages_prefix pages).subset hq]
  refine Iff.trans ?_ (seenPages_all_iff pages)
  constructor
  · intro he
    simp only [Except.bind, Option.some.injEq, Except.ok.injEq, Pages.mk.injEq] at he
    have := congrArg List.length he.1
    rw [List.length_map, List.length_map] at this
    exact ((seenPages_prefix pages).eq_of_length this.symm)
  · intro he
    rw [he]

/-- A page of 2560 rows behind one of no rows: the unbuffered reader sees the first page only. -/
example : ∃ r r', openSdds exText 20 true 50 (fileBytes exDoc [⟨[.num .double 7], []⟩,
      ⟨[.num .double 7], List.replicate 2560 [.num .double 1, .num .long 2]⟩]) = some (.ok r) ∧
    openSdds exText 20 false 50 (fileBytes exDoc [⟨[.num .double 7], []⟩,
      ⟨[.num .double 7], List.replicate 2560 [.num .double 1, .num .long 2]⟩]) = some (.ok r') ∧
    r.read 20 none ≠ r'.read 20 none := by
  obtain ⟨r, r', h1, h2, h3⟩ := buffer_agree_iff (pages := [⟨[.num .double 7], []⟩,
      ⟨[.num .double 7], List.replicate 2560 [.num .double 1, .num .long 2]⟩]) (maxStr := 50) exDoc_announces exLayout_ok (n := 2560) (by
    intro pg hpg
    rcases List.mem_cons.mp hpg with rfl | hpg
    · simp [PageOk, exLayout, Fits, FType.size]
    · rw [List.mem_singleton] at hpg
      subst hpg
      refine ⟨by simp [exLayout, Fits, FType.size], ?_, ?_, by simp, ?_⟩
      · intro row hrow
        rw [List.eq_of_mem_replicate hrow]
        simp [exLayout, Fits, FType.size]
      · show (List.replicate 2560 _).length < _
        rw [List.length_replicate]
        decide
      · intro row hrow
        rw [List.eq_of_mem_replicate hrow]
        simp) (by
    intro pg hpg
    rcases List.mem_cons.mp hpg with rfl | hpg
    · exact Or.inl rfl
    · rw [List.mem_singleton] at hpg
      subst hpg
      exact Or.inr List.length_replicate) (fuel := 20) (by decide)
  refine ⟨r, r', h1, h2, fun he => ?_⟩
  have := h3.mp he [⟨[.num .double 7], []⟩] _ [] rfl
  have e : ∀ pg : Page, pg.rows.length = 2560 → ∃ rest, ([pg].flatMap encodePage).tail = 10 :: rest := by
    intro pg hpg
    rw [List.flatMap_cons, encodePage_eq, paramBytes, hpg]
    exact ⟨_, rfl⟩
  obtain ⟨rest, hrest⟩ := e ⟨[.num .double 7], List.replicate 2560 [.num .double 1, .num .long 2]⟩ List.length_replicate
  rw [hrest, readline_newline] at this
  exact absurd this (by decide)

/-- **C07, any row counts.** In every buffered file of numbers `read(pages=s)` looks at the selected pages only: if two of them have different
numbers of rows (both not zero) it raises ValueError, and otherwise it gives their parameters and the rows of those that have rows, in file
order. -/
theorem read_selected_exact {ft : FloatText} {d : Doc} {l : Layout} (h : d.Announces ft l) (hl : l.Ok)
    (hnum : SType.str ∉ (l.params ++ l.cols).map Prod.snd)
    {pages : List Page} {maxStr : Nat} (hok : ∀ pg ∈ pages, PageOk maxStr l pg) (hc : l.cols ≠ []) {fuel : Nat}
    (hfuel : d.comments.length + d.namelists.length + pages.length + 2 ≤ fuel) (s : List Nat) (hs : s ≠ []) :
    ∃ r, openSdds ft fuel true maxStr (fileBytes d pages) = some (.ok r) ∧
      ((∃ p ∈ atPages s pages, ∃ q ∈ atPages s pages, p.rows ≠ [] ∧ q.rows ≠ [] ∧ p.rows.length ≠ q.rows.length) →
        r.read fuel (some s) = some (.error .valueError)) ∧
      ((∀ p ∈ atPages s pages, ∀ q ∈ atPages s pages, p.rows ≠ [] → q.rows ≠ [] → p.rows.length = q.rows.length) →
        r.read fuel (some s) = some (.ok ⟨(atPages s pages).map fun pg => [paramRecord l pg],
          ((atPages s pages).filter fun pg => pg.rows ≠ []).map (rowRecords l)⟩)) := by
  obtain ⟨r, h1, h2, h3, h4, h5, h6⟩ := open_file h pages (fuel := fuel) (by omega) true maxStr
  subst h6
  refine ⟨r, h1, ?_⟩
  rw [Reader.read_ok h2 hl (some s) (by simpa using hs) (Or.inr ⟨h5, hnum⟩) hok (by rw [h5]; simp) h3 h4 (by omega), pick_atPages]
  have hfilter : (pagesOf l (atPages s pages)).cols = ((atPages s pages).filter fun pg => pg.rows ≠ []).map (rowRecords l) := by
    unfold pagesOf
    simp only
    congr 1
    apply List.filter_congr
    intro pg _
    have h1 : l.cols.isEmpty = false := by simpa using hc
    simp only [hasData, h1, Bool.not_false, Bool.true_and]
    cases pg.rows <;> simp
  rw [hfilter]
  constructor
  · rintro ⟨p, hp, q, hq, hp0, hq0, hne⟩
    rw [concat_ragged]
    · rfl
    · refine ⟨rowRecords l p, List.mem_map_of_mem (List.mem_filter.mpr ⟨hp, by simpa using hp0⟩), rowRecords l q,
        List.mem_map_of_mem (List.mem_filter.mpr ⟨hq, by simpa using hq0⟩), ?_⟩
      simpa [rowRecords] using hne
  · intro heq
    have hcat : concat (((atPages s pages).filter fun pg => pg.rows ≠ []).map (rowRecords l)) =
        .ok (((atPages s pages).filter fun pg => pg.rows ≠ []).map (rowRecords l)) := by
      cases hf : (atPages s pages).filter fun pg => pg.rows ≠ [] with
      | nil => rfl
      | cons q qs =>
        have hall : ∀ x ∈ q :: qs, x ∈ atPages s pages ∧ x.rows ≠ [] := by
          intro x hx
          rw [← hf, List.mem_filter] at hx
          exact ⟨hx.1, by simpa using hx.2⟩
        refine concat_ok (n := q.rows.length) ?_
        intro c hc
        obtain ⟨x, hx, rfl⟩ := List.mem_map.mp hc
        have a := hall x hx
        have b := hall q List.mem_cons_self
        unfold rowRecords
        rw [List.length_map]
        exact heq x a.1 q b.1 a.2 b.2
    rw [hcat]
    rfl

/-- Page 1 alone of a file with pages of one and two rows, which cannot be read as a whole. -/
example : ∃ r, openSdds exText 20 true 50 (fileBytes exDoc
      [⟨[.num .double 7], [[.num .double 1, .num .long 2]]⟩,
       ⟨[.num .double 8], [[.num .double 5, .num .long 6], [.num .double 7, .num .long 8]]⟩]) = some (.ok r) ∧
    r.read 20 (some [1]) = some (.ok ⟨[[[("row_counts".toList, .num .long 2), ("charge".toList, .num .double 8)]]],
      [[[("x".toList, .num .double 5), ("id".toList, .num .long 6)], [("x".toList, .num .double 7), ("id".toList, .num .long 8)]]]⟩) := by
  obtain ⟨r, h1, -, h2⟩ := read_selected_exact (maxStr := 50) (pages := [⟨[.num .double 7], [[.num .double 1, .num .long 2]]⟩,
       ⟨[.num .double 8], [[.num .double 5, .num .long 6], [.num .double 7, .num .long 8]]⟩]) exDoc_announces exLayout_ok (by decide)
    (by simp [PageOk, exLayout, Fits, FType.size]) (by decide) (fuel := 20) (by decide) [1] (by decide)
  exact ⟨r, h1, h2 (by decide)⟩

end Verif.Sdds
