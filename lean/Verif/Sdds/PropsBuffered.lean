import Verif.Sdds.PropsRagged

/-!
# Properties C14 and C110 for buffered ASCII files

With the buffer, as many lines as the table has rows are skipped behind each page (SDDS.py:459-461 counts the rows twice).
-/

namespace Verif.Sdds

/-- A file in which further lines follow each page. -/
def gapFile (d : Doc) (l : Layout) (ps : List (TPage × List Bytes)) : Bytes :=
  utf8 d.text ++ asLines (ps.flatMap fun x => x.1.lines l ++ x.2)

/-- Lines that are not comments. -/
def PlainLines (ls : List Bytes) : Prop := ∀ x ∈ ls, ((10 : UInt8) ∉ x ∧ (13 : UInt8) ∉ x) ∧ (33 : UInt8) ∉ x

theorem gapLines_ok {c : Conv} {maxStr : Nat} {l : Layout} {ps : List (TPage × List Bytes)} {pgs : List Page}
    (h : List.Forall₂ (fun x pg => x.1.Holds c maxStr l pg ∧ PlainLines x.2) ps pgs) :
    PlainLines (ps.flatMap fun x => x.1.lines l ++ x.2) := by
  intro x hx
  obtain ⟨t, ht, hx⟩ := List.mem_flatMap.mp hx
  obtain ⟨pg, _, hpg⟩ := forall₂_left h t ht
  rcases List.mem_append.mp hx with hx | hx
  · exact hpg.1.lines_ok x hx
  · exact hpg.2 x hx

/-- The pages with their gaps are read; then the reader stands at the lines behind them. -/
theorem Reader.textLoop_gaps {r : Reader} {l : Layout} (hd : r.DescribesText l) (hl : l.TextOk) (hs : l.params ≠ [] ∨ l.cols ≠ [])
    {c : Conv} (hc : c.IntLaw) (hb : r.buffer = true) {ps : List (TPage × List Bytes)} {pgs : List Page}
    (h : List.Forall₂ (fun x pg => x.1.Holds c r.maxStr l pg ∧ PlainLines x.2) ps pgs) :
    (∀ x ∈ ps, x.2.length = x.1.rows.length) →
    ∀ (fuel k : Nat) (p : TPos) (acc : Pages) (rest : List Bytes), r.left p = (ps.flatMap fun x => x.1.lines l ++ x.2) ++ rest →
    ∃ p', r.left p' = rest ∧
      r.textLoop c none (ps.length + fuel) k p acc = r.textLoop c none fuel (k + ps.length) p' (acc.append (textPagesOf l pgs)) := by
  have hpos : ∀ p, r.TPosOk p := fun p h0 => by rw [hb] at h0; cases h0
  have htail : r.tail = [] := by unfold Reader.tail; rw [hb]; rfl
  induction h with
  | nil =>
    intro _ fuel k p acc rest hleft
    exact ⟨p, by simpa using hleft, by simp [Pages.append, textPagesOf]⟩
  | cons h1 h2 ih =>
    rename_i x pg ps pgs
    intro hg fuel k p acc rest hleft
    rw [List.flatMap_cons, List.append_assoc, List.append_assoc] at hleft
    have hleft' : r.left p = (x.1.lines l).map (· ++ r.tail) ++ (x.2 ++ ((ps.flatMap fun x => x.1.lines l ++ x.2) ++ rest)) := by
      rw [hleft, htail]
      simp
    obtain ⟨p', e1, -, e3⟩ := Reader.textPage_ok hd hl hc h1.1 p (hpos p) _ hleft' acc true
    rw [hb, if_pos rfl, ← hg x (by simp), List.drop_left] at e3
    obtain ⟨p'', g1, g2⟩ := ih (fun y hy => hg y (by simp [hy])) fuel (k + 1) p' (acc.append (textPagesOf l [pg])) rest e3
    refine ⟨p'', g1, ?_⟩
    rw [List.length_cons, show ps.length + 1 + fuel = (ps.length + fuel) + 1 by omega, Reader.textLoop,
      if_neg (by simp [pastPages]),
      if_neg (by rw [Reader.textEnd_page (hpos p) (h1.1.lines_ne hs) (fun hb' => by rw [hb] at hb'; cases hb') hleft']; simp)]
    have e1' : r.textPage c (none : Option (List Nat)).isNone (wantedPage none k) p acc = _ := e1
    rw [e1']
    simp only
    rw [g2, textPagesOf_append, show k + 1 + ps.length = k + (ps.length + 1) by omega]

theorem concat_pages {l : Layout} {pages : List Page} {n : Nat} (hrows : l.cols ≠ [] → 0 < n ∧ ∀ pg ∈ pages, pg.rows.length = n) :
    concat (textPagesOf l pages).params = .ok (pages.map fun pg => [textParamRecord l pg]) ∧
    concat (textPagesOf l pages).cols = .ok (if l.cols.isEmpty then [] else pages.map (rowRecords l)) := by
  constructor
  · refine concat_same (n := 1) ?_
    intro x hx
    obtain ⟨y, _, rfl⟩ := List.mem_map.mp hx
    rfl
  · by_cases hc0 : l.cols = []
    · have : (textPagesOf l pages).cols = [] := by
        unfold textPagesOf
        simp only [List.map_eq_nil_iff, List.filter_eq_nil_iff]
        intro pg _
        simp [hasData, hc0]
      rw [this, hc0]
      rfl
    · obtain ⟨hn, hr⟩ := hrows hc0
      have hne : ∀ pg ∈ pages, pg.rows ≠ [] := by
        intro pg hpg h0
        have := hr pg hpg
        rw [h0] at this
        simp at this
        omega
      have hcol : l.cols.isEmpty = false := by simpa using hc0
      unfold textPagesOf
      simp only
      rw [filter_hasData hc0 hne, concat_same (n := n), hcol]
      · rfl
      · intro p hp
        obtain ⟨pg, hpg, rfl⟩ := List.mem_map.mp hp
        unfold rowRecords
        rw [List.length_map, hr pg hpg]

/-- **C14 with buffer.** What is read exactly: behind each page as many lines are skipped, whatever they hold, as its table has rows. Lines behind the
last page are ignored if they are not more than its rows. -/
theorem ascii_buffered_gaps {ft : FloatText} {d : Doc} {l : Layout} (h : d.AnnouncesText ft l) (hl : l.TextOk) {c : Conv} (hc : c.IntLaw)
    {ps : List (TPage × List Bytes)} {t : TPage} {more : List Bytes} {pages : List Page} {pg : Page} {maxStr : Nat}
    (hh : List.Forall₂ (fun x pg => x.1.Holds c maxStr l pg ∧ PlainLines x.2) ps pages) (ht : t.Holds c maxStr l pg) (hmore : PlainLines more)
    (hgap : ∀ x ∈ ps, x.2.length = x.1.rows.length) (hlast : more.length ≤ t.rows.length) {n : Nat}
    (hrows : l.cols ≠ [] → 0 < n ∧ ∀ x ∈ pages ++ [pg], x.rows.length = n) {fuel : Nat}
    (hfuel : d.comments.length + d.namelists.length + 2 ≤ fuel) :
    ∃ r, openSdds ft fuel true maxStr (gapFile d l (ps ++ [(t, more)])) = some (.ok r) ∧
      ∀ fuel', ps.length + 1 < fuel' → r.readText c fuel' none = some (.ok ⟨(pages ++ [pg]).map fun pg => [textParamRecord l pg],
        if l.cols.isEmpty then [] else (pages ++ [pg]).map (rowRecords l)⟩) := by
  obtain ⟨r, h1, h2, h3, h4, h5, h6, h7⟩ := open_text h (asLines ((ps ++ [(t, more)]).flatMap fun x => x.1.lines l ++ x.2)) (fuel := fuel) (by omega)
    true maxStr
  refine ⟨r, h1, ?_⟩
  intro fuel' hfuel'
  subst h7
  have htail : r.tail = [] := by unfold Reader.tail; rw [h6]; rfl
  have hok : PlainLines ((ps ++ [(t, more)]).flatMap fun x => x.1.lines l ++ x.2) := by
    rw [List.flatMap_append, List.flatMap_singleton]
    intro x hx
    rcases List.mem_append.mp hx with hx | hx
    · exact gapLines_ok hh x hx
    · rcases List.mem_append.mp hx with hx | hx
      · exact ht.lines_ok x hx
      · exact hmore x hx
  have hleft := Reader.left_start (r := r) h.ok h.noReturn hok h3 h4 h5
  rw [htail] at hleft
  simp only [List.append_nil, List.map_id'] at hleft
  rw [List.flatMap_append, List.flatMap_singleton] at hleft
  obtain ⟨p', g1, g2⟩ := Reader.textLoop_gaps h2 hl h.some hc h6 hh hgap (fuel' - ps.length) 0 _ ⟨[], []⟩ _ hleft
  have hpos : r.TPosOk p' := fun h0 => by rw [h6] at h0; cases h0
  have g1' : r.left p' = (t.lines l).map (· ++ r.tail) ++ more := by rw [g1, htail]; simp
  obtain ⟨p'', e1, -, e3⟩ := Reader.textPage_ok h2 hl hc ht p' hpos _ g1' (Pages.append ⟨[], []⟩ (textPagesOf l pages)) true
  rw [h6, if_pos rfl, List.drop_eq_nil_of_le hlast] at e3
  have hend : r.textEnd p'' = true := Reader.textEnd_nil (fun h0 => by rw [h6] at h0; cases h0) e3
  have hloop : r.textLoop c none fuel' 0 ⟨if r.buffer then r.lineCount else 0, fileLines (r.file.drop r.headerEnd)⟩ ⟨[], []⟩ =
      some (.ok (Pages.append ⟨[], []⟩ (textPagesOf l (pages ++ [pg])))) := by
    rw [show ps.length + (fuel' - ps.length) = fuel' by omega] at g2
    rw [g2]
    obtain ⟨f, hf⟩ : ∃ f, fuel' - ps.length = f + 2 := ⟨fuel' - ps.length - 2, by omega⟩
    rw [hf, Reader.textLoop, if_neg (by simp [pastPages]),
      if_neg (by rw [Reader.textEnd_page hpos (ht.lines_ne h.some) (fun hb' => by rw [h6] at hb'; cases hb') g1']; simp)]
    have e1' : r.textPage c (none : Option (List Nat)).isNone (wantedPage none (0 + ps.length)) p' (Pages.append ⟨[], []⟩ (textPagesOf l pages)) = _ := e1
    rw [e1']
    simp only
    rw [Reader.textLoop, if_neg (by simp [pastPages]), if_pos hend]
    congr 2
    simp only [Pages.append, textPagesOf, List.map_append, List.filter_append, List.nil_append]
  obtain ⟨q1, q2⟩ := concat_pages (l := l) (pages := pages ++ [pg]) hrows
  unfold Reader.readText
  rw [if_neg (by simp)]
  simp only
  rw [hloop]
  simp only [Pages.append, List.nil_append, q1, q2, bind, Except.bind]

theorem exTexts_two : exTexts[0].Holds exConv 50 exLayoutT exPagesT[0] ∧ exTexts[1].Holds exConv 50 exLayoutT exPagesT[1] := by
  have := exTexts_hold
  unfold exTexts exPagesT at this
  cases this with
  | cons a b => cases b with
    | cons b _ => exact ⟨a, b⟩

def exGap : List Bytes := [[113], [114]]

theorem exGap_plain : PlainLines exGap := by
  unfold exGap
  intro x hx
  simp only [List.mem_cons, List.not_mem_nil, or_false] at hx
  rcases hx with rfl | rfl <;> decide

/-- Two lines follow the first page of two rows, none the second. -/
example : ∃ r, openSdds exText 20 true 50 (gapFile exDocT exLayoutT ([(exTexts[0], exGap)] ++ [(exTexts[1], ([] : List Bytes))])) = some (.ok r) ∧
    ∀ fuel', 2 < fuel' → r.readText exConv fuel' none = some (.ok ⟨[exPagesT[0], exPagesT[1]].map fun pg => [textParamRecord exLayoutT pg],
      [exPagesT[0], exPagesT[1]].map (rowRecords exLayoutT)⟩) :=
  ascii_buffered_gaps exDocT_announces exLayoutT_ok exConv_law (.cons ⟨exTexts_two.1, exGap_plain⟩ .nil) exTexts_two.2 (by intro x hx; cases hx)
    (by decide) (by decide) (n := 2) (fun _ => ⟨by decide, by decide⟩) (fuel := 20) (by decide)

/-- **C14 and C110 fail silently with buffer.** A second page of not more lines than the first table has rows is lost, whatever it holds: nothing is
refused, and the first page alone is returned. -/
theorem ascii_buffered_lost {ft : FloatText} {d : Doc} {l : Layout} (h : d.AnnouncesText ft l) (hl : l.TextOk) {c : Conv} (hc : c.IntLaw)
    {t t2 : TPage} {pg : Page} {maxStr : Nat} (ht : t.Holds c maxStr l pg) (h2 : PlainLines (t2.lines l)) (hlen : (t2.lines l).length ≤ t.rows.length)
    (hne : t2.lines l ≠ []) {fuel : Nat} (hfuel : d.comments.length + d.namelists.length + 2 ≤ fuel) :
    ∃ r, openSdds ft fuel true maxStr (textFile d l [t, t2]) = some (.ok r) ∧
      ∀ fuel', 1 < fuel' → r.readText c fuel' none = some (.ok ⟨[[textParamRecord l pg]], [rowRecords l pg]⟩) := by
  have hpos : 0 < t.rows.length := Nat.lt_of_lt_of_le (List.length_pos_of_ne_nil hne) hlen
  have hcne : l.cols ≠ [] := by
    intro h0
    rw [ht.noRows h0] at hpos
    simp at hpos
  obtain ⟨r, h1, h3⟩ := ascii_buffered_gaps h hl hc (ps := []) .nil ht h2 (by simp) hlen (n := t.rows.length)
    (fun _ => ⟨hpos, by simpa using ht.length⟩) hfuel
  refine ⟨r, ?_, fun fuel' hf => ?_⟩
  · rw [← h1]
    unfold gapFile textFile
    simp
  · rw [h3 fuel' (by simpa using hf)]
    have : l.cols.isEmpty = false := by simpa using hcne
    rw [this]
    rfl

/-- A second page of one row behind a page of two rows. -/
example : ∃ r, openSdds exText 20 true 50 (textFile exDocC exLayoutC [exTextsC[0], ⟨[], [[[51]]]⟩]) = some (.ok r) ∧
    ∀ fuel', 1 < fuel' → r.readText exConv fuel' none = some (.ok ⟨[[textParamRecord exLayoutC exPagesC[0]]], [rowRecords exLayoutC exPagesC[0]]⟩) := by
  have h : exTextsC[0].Holds exConv 50 exLayoutC exPagesC[0] := by
    have := exTextsC_hold
    unfold exTextsC exPagesC at this
    cases this with
    | cons a _ => exact a
  have hl : (TPage.mk [] [[[51]]]).lines exLayoutC = [[49], [51]] := by decide +kernel
  refine ascii_buffered_lost exDocC_announces exLayoutC_ok exConv_law h ?_ ?_ ?_ (fuel := 20) (by decide)
  · rw [hl]
    intro x hx
    simp only [List.mem_cons, List.not_mem_nil, or_false] at hx
    rcases hx with rfl | rfl <;> decide
  · rw [hl]
    decide
  · rw [hl]
    simp

/-- **C110 with buffer.** A ragged table is refused if behind each page before it there are as many lines as that page has rows. -/
theorem ascii_ragged_gaps {ft : FloatText} {d : Doc} {l : Layout} (h : d.AnnouncesText ft l) (hl : l.TextOk) {c : Conv} (hc : c.IntLaw)
    {ps : List (TPage × List Bytes)} {pages : List Page} {maxStr : Nat}
    (hh : List.Forall₂ (fun x pg => x.1.Holds c maxStr l pg ∧ PlainLines x.2) ps pages) (hgap : ∀ x ∈ ps, x.2.length = x.1.rows.length)
    {t t' : TPage} {pg : Page} (ht : t'.Holds c maxStr l pg) (hp1 : t'.params = t.params) (hp2 : t'.rows.length = t.rows.length)
    (hbad : Ragged l.cols.length t.rows) {more : List Bytes} (hmore : PlainLines more) {fuel : Nat}
    (hfuel : d.comments.length + d.namelists.length + 2 ≤ fuel) :
    ∃ r, openSdds ft fuel true maxStr (gapFile d l (ps ++ [(t, more)])) = some (.ok r) ∧
      ∀ fuel', ps.length < fuel' → r.readText c fuel' none = some (.error .valueError) := by
  obtain ⟨r, h1, h2, h3, h4, h5, h6, h7⟩ := open_text h (asLines ((ps ++ [(t, more)]).flatMap fun x => x.1.lines l ++ x.2)) (fuel := fuel) (by omega)
    true maxStr
  refine ⟨r, h1, ?_⟩
  intro fuel' hfuel'
  subst h7
  have htail : r.tail = [] := by unfold Reader.tail; rw [h6]; rfl
  have hne : t.rows ≠ [] := by
    intro h0
    obtain ⟨ws, hws, _⟩ := hbad.bad
    rw [h0] at hws
    cases hws
  have hcne : l.cols ≠ [] := by
    intro h0
    have := ht.noRows h0
    rw [this] at hp2
    exact hne (List.length_eq_zero_iff.mp hp2.symm)
  have hok : PlainLines ((ps ++ [(t, more)]).flatMap fun x => x.1.lines l ++ x.2) := by
    rw [List.flatMap_append, List.flatMap_singleton]
    intro x hx
    rcases List.mem_append.mp hx with hx | hx
    · exact gapLines_ok hh x hx
    · rcases List.mem_append.mp hx with hx | hx
      · exact TPage.lines_ok (hp1 ▸ ht.paramText) (fun ws hws => (hbad.words ws hws).2) x hx
      · exact hmore x hx
  have hleft := Reader.left_start (r := r) h.ok h.noReturn hok h3 h4 h5
  rw [htail] at hleft
  simp only [List.append_nil, List.map_id'] at hleft
  rw [List.flatMap_append, List.flatMap_singleton] at hleft
  obtain ⟨p', g1, g2⟩ := Reader.textLoop_gaps h2 hl h.some hc h6 hh hgap (fuel' - ps.length) 0 _ ⟨[], []⟩ _ hleft
  have hpos : r.TPosOk p' := fun h0 => by rw [h6] at h0; cases h0
  have g1' : r.left p' = (t.lines l).map (· ++ r.tail) ++ more := by rw [g1, htail]; simp
  have hlne : t.lines l ≠ [] := by
    unfold TPage.lines
    have : l.cols.isEmpty = false := by simpa using hcne
    rw [this]
    simp
  have e1 := Reader.textPage_colError h2 hl (t := t) ht hp1 hp2 hne p' hpos more g1' (Pages.append ⟨[], []⟩ (textPagesOf l pages))
    (genfromtxt_ragged hcne hl.cols hl.ok.2.2.1 hbad r.tail r.tail_cases more)
  have hloop : r.textLoop c none fuel' 0 ⟨if r.buffer then r.lineCount else 0, fileLines (r.file.drop r.headerEnd)⟩ ⟨[], []⟩ =
      some (.error .valueError) := by
    rw [show ps.length + (fuel' - ps.length) = fuel' by omega] at g2
    rw [g2]
    obtain ⟨f, hf⟩ : ∃ f, fuel' - ps.length = f + 1 := ⟨fuel' - ps.length - 1, by omega⟩
    rw [hf, Reader.textLoop, if_neg (by simp [pastPages]),
      if_neg (by rw [Reader.textEnd_page hpos hlne (fun hb' => by rw [h6] at hb'; cases hb') g1']; simp)]
    have e1' : r.textPage c (none : Option (List Nat)).isNone (wantedPage none (0 + ps.length)) p' (Pages.append ⟨[], []⟩ (textPagesOf l pages)) = _ := e1
    rw [e1']
  unfold Reader.readText
  rw [if_neg (by simp)]
  simp only
  rw [hloop]

/-- Two lines follow the first page; the second page has a row of one word. -/
example : ∃ r, openSdds exText 20 true 50
      (gapFile exDocT exLayoutT ([(exTexts[0], exGap)] ++ [(⟨[[99, 32, 100]], [[[53], [54]], [[55]]]⟩, ([] : List Bytes))])) = some (.ok r) ∧
    ∀ fuel', 1 < fuel' → r.readText exConv fuel' none = some (.error .valueError) := by
  refine ascii_ragged_gaps (t := ⟨[[99, 32, 100]], [[[53], [54]], [[55]]]⟩) exDocT_announces exLayoutT_ok exConv_law
    (.cons ⟨exTexts_two.1, exGap_plain⟩ .nil) (by decide) exTexts_two.2 rfl rfl ⟨?_, ⟨[[55]], by decide, by decide⟩, ?_⟩
    (by intro x hx; cases hx) (fuel := 20) (by decide)
  · have hw : ∀ b : UInt8, isStrSpace b = false → b ≠ 33 → WordText [b] := fun b hb hc =>
      ⟨by simp, by simpa using hb, by simpa using fun h => hc h.symm⟩
    intro ws hws
    simp only [List.mem_cons, List.not_mem_nil, or_false] at hws
    rcases hws with rfl | rfl
    · refine ⟨by simp, fun s hs => ?_⟩
      simp only [List.mem_cons, List.not_mem_nil, or_false] at hs
      rcases hs with rfl | rfl
      · exact hw 53 (by decide) (by decide)
      · exact hw 54 (by decide) (by decide)
    · refine ⟨by simp, fun s hs => ?_⟩
      rw [List.mem_singleton.mp hs]
      exact hw 55 (by decide) (by decide)
  · rintro - ⟨m, h1, h2⟩
    have := h2 [[55]] (by simp)
    have h3 : 2 < m := h1
    simp at this
    omega

end Verif.Sdds
