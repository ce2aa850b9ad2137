import Verif.Sdds.PropsBuffer

/-! Which entry of the columns belongs to which page (C16). -/

namespace Verif.Sdds

theorem map_filter_getElem {α β : Type} (f : α → β) (p : α → Bool) (xs ys : List α) (x : α) (hx : p x = true) :
    (((xs ++ x :: ys).filter p).map f)[(xs.filter p).length]? = some (f x) := by
  rw [List.filter_append, List.map_append, List.filter_cons, if_pos hx]
  rw [List.getElem?_append_right (by simp)]
  simp

/-- **C16, exactly.** In every binary file whose pages with rows have equally many rows, with or without buffer, entry `k` of the parameters is page
`k`, and the entry of the columns of a page with rows has the number of pages with rows before it. There is one entry of the columns for each page exactly
if all pages have rows. -/
theorem pages_aligned_iff {ft : FloatText} {d : Doc} {l : Layout} (h : d.Announces ft l) (hl : l.Ok)
    {pages : List Page} {maxStr : Nat} (hok : ∀ pg ∈ pages, PageOk maxStr l pg) (hc : l.cols ≠ []) {n : Nat}
    (hrows : ∀ pg ∈ pages, pg.rows = [] ∨ pg.rows.length = n) {fuel : Nat}
    (hfuel : d.comments.length + d.namelists.length + pages.length + 2 ≤ fuel) (buffer : Bool)
    (hm : buffer = false → ∀ pg ∈ pages, MarkOk pg) :
    ∃ r res, openSdds ft fuel buffer maxStr (fileBytes d pages) = some (.ok r) ∧ r.read fuel none = some (.ok res) ∧
      res.params = pages.map (fun pg => [paramRecord l pg]) ∧
      (∀ pre pg post, pages = pre ++ pg :: post → pg.rows ≠ [] → res.cols[pre.countP (fun q => q.rows ≠ [])]? = some (rowRecords l pg)) ∧
      (res.cols.length = pages.length ↔ ∀ pg ∈ pages, pg.rows ≠ []) ∧
      ((∀ k (hk : k < pages.length), res.cols[k]? = some (rowRecords l pages[k])) ↔ ∀ pg ∈ pages, pg.rows ≠ []) := by
  obtain ⟨r, h1, h2, h3, h4, h5, h6⟩ := open_file h pages (fuel := fuel) (by omega) buffer maxStr
  have hcols : (pagesOf l pages).cols = (pages.filter fun pg => decide (pg.rows ≠ [])).map (rowRecords l) := by
    unfold pagesOf
    simp only
    congr 1
    apply List.filter_congr
    intro pg _
    have h1 : l.cols.isEmpty = false := by simpa using hc
    simp only [hasData, h1, Bool.not_false, Bool.true_and]
    cases pg.rows <;> simp
  have hcat : concat (pagesOf l pages).cols = .ok (pagesOf l pages).cols := by
    refine concat_ok (n := n) ?_
    intro c hcc
    rw [hcols] at hcc
    obtain ⟨q, hq, rfl⟩ := List.mem_map.mp hcc
    rw [List.mem_filter] at hq
    rcases hrows q hq.1 with h0 | h0
    · have := hq.2
      simp [h0] at this
    · unfold rowRecords
      rw [List.length_map, h0]
  have hread : r.read fuel none = some (.ok ⟨pages.map fun pg => [paramRecord l pg],
      (pages.filter fun pg => decide (pg.rows ≠ [])).map (rowRecords l)⟩) := by
    rw [Reader.read_ok h2 hl none (by simp) (Or.inl rfl) (by rw [h6]; exact hok) (by rw [h5]; exact hm) h3 h4 (by omega), pick_none, hcat, hcols]
    rfl
  have hlen : ((pages.filter fun pg => decide (pg.rows ≠ [])).map (rowRecords l)).length = pages.length ↔ ∀ pg ∈ pages, pg.rows ≠ [] := by
    rw [List.length_map, List.length_filter_eq_length_iff]
    simp
  refine ⟨r, _, h1, hread, rfl, ?_, hlen, ?_⟩
  · intro pre pg post hp hne
    simp only
    rw [hp, List.countP_eq_length_filter]
    exact map_filter_getElem _ _ _ _ _ (by simpa using hne)
  · constructor
    · intro hk
      rw [← hlen]
      apply le_antisymm
      · rw [List.length_map]
        exact List.length_filter_le _ _
      · by_contra hlt
        have hlt := not_le.mp hlt
        have := hk _ hlt
        simp at this
    · intro hall k hk
      simp only
      rw [List.filter_eq_self.mpr (by simpa using hall), List.getElem?_map, List.getElem?_eq_getElem hk]
      rfl

/-- Two pages with rows around one without: the last page is entry 1. -/
example : ∃ r res, openSdds exText 20 false 50 (fileBytes exDoc
      [⟨[.num .double 7], [[.num .double 1, .num .long 2]]⟩, ⟨[.num .double 8], []⟩,
       ⟨[.num .double 9], [[.num .double 5, .num .long 6]]⟩]) = some (.ok r) ∧ r.read 20 none = some (.ok res) ∧
    res.cols[1]? = some [[("x".toList, .num .double 5), ("id".toList, .num .long 6)]] := by
  obtain ⟨r, res, h1, h2, -, h3, -⟩ := pages_aligned_iff (maxStr := 50) (pages := [⟨[.num .double 7], [[.num .double 1, .num .long 2]]⟩,
      ⟨[.num .double 8], []⟩, ⟨[.num .double 9], [[.num .double 5, .num .long 6]]⟩]) exDoc_announces exLayout_ok
    (by simp [PageOk, exLayout, Fits, FType.size]) (by decide) (n := 1) (by decide) (fuel := 20) (by decide) false
    (by intro _; unfold MarkOk; decide)
  exact ⟨r, res, h1, h2, h3 [⟨[.num .double 7], [[.num .double 1, .num .long 2]]⟩, ⟨[.num .double 8], []⟩] _ [] rfl (by decide)⟩

end Verif.Sdds
