import Verif.Sdds.LemmasAsciiWrite2
import Verif.Sdds.PropsAscii

/-!
# Property C110: ASCII tables whose rows have other numbers of words than there are columns
-/

namespace Verif.Sdds

/-- Some line has another number of words than the first one. -/
theorem genRows_ragged (tail : Bytes) (ht : tail = [] ∨ tail = [10]) (nb : Nat) (rest : List Bytes) :
    ∀ (rows : List (List Bytes)) (n : Nat), rows.length ≤ n → (∀ ws ∈ rows, ws ≠ [] ∧ ∀ s ∈ ws, WordText s) →
      (∃ ws ∈ rows, ws.length ≠ nb) → (genRows true nb (some n) (rows.map (rowLine tail) ++ rest)).2.1 = true := by
  intro rows
  induction rows with
  | nil => rintro n _ _ ⟨ws, hws, _⟩; cases hws
  | cons w rows ih =>
    intro n hn hw hbad
    have hf : fieldsOf true (rowLine tail w) = w := fieldsOf_row (hw w (by simp)).1 (hw w (by simp)).2 tail ht
    rw [List.map_cons, List.cons_append, genRows, hf]
    simp only
    rw [if_neg (hw w (by simp)).1]
    by_cases hl : w.length = nb
    · obtain ⟨ws, hws, hne⟩ := hbad
      have hws' : ws ∈ rows := by
        rcases List.mem_cons.mp hws with rfl | h
        · exact absurd hl hne
        · exact h
      have hpos : 0 < rows.length := List.length_pos_of_mem hws'
      rw [List.length_cons] at hn
      rw [if_neg (by simpa using hl), if_neg (by simp; omega)]
      exact ih (n - 1) (by omega) (fun x hx => hw x (by simp [hx])) ⟨ws, hws', hne⟩
    · rw [if_pos hl]

/-- The number of words of the first line. -/
theorem firstCount_rows {tail : Bytes} (ht : tail = [] ∨ tail = [10]) {w : List Bytes} {rows : List (List Bytes)} (hne : w ≠ [])
    (hw : ∀ s ∈ w, WordText s) (rest : List Bytes) : firstCount true ((w :: rows).map (rowLine tail) ++ rest) = w.length := by
  have hf : fieldsOf true (rowLine tail w) = w := fieldsOf_row hne hw tail ht
  unfold firstCount
  rw [List.map_cons, List.cons_append, List.map_cons, hf, List.find?_cons_of_pos (by simpa using hne)]
  rfl

/-- A table that has `k` columns but whose rows do not all have `k` words, and that is not one whose rows all have the same larger number of
words. -/
structure Ragged (k : Nat) (rows : List (List Bytes)) : Prop where
  words : ∀ ws ∈ rows, ws ≠ [] ∧ ∀ s ∈ ws, WordText s
  bad : ∃ ws ∈ rows, ws.length ≠ k
  notWide : 2 ≤ k → ¬ ∃ m, k < m ∧ ∀ ws ∈ rows, ws.length = m

theorem genfromtxt_ragged {c : Conv} {m : Nat} {fs : List (Str × SType)} (hne : fs ≠ []) (hk : ∀ f ∈ fs, KeptName f.1)
    (hd : (fs.map Prod.fst).Nodup) {rows : List (List Bytes)} (h : Ragged fs.length rows) (tail : Bytes) (ht : tail = [] ∨ tail = [10])
    (rest : List Bytes) :
    genfromtxt c true (fs.map (tKey m)) (some (rows.length : Int)) (rows.map (rowLine tail) ++ rest) = .error .valueError := by
  cases rows with
  | nil =>
    obtain ⟨ws, hws, _⟩ := h.bad
    cases hws
  | cons w rows =>
    have hw := h.words w (by simp)
    unfold genfromtxt
    rw [if_neg (by simp only [Option.getD_some, List.length_cons]; omega), easyDtype_kept]
    · simp only [bind, Except.bind, firstCount_rows ht hw.1 hw.2]
      rw [show Option.map Int.toNat (some (((w :: rows).length : Nat) : Int)) = some (w :: rows).length by simp]
      by_cases hsame : ∃ ws ∈ w :: rows, ws.length ≠ w.length
      · rw [if_pos (genRows_ragged tail ht w.length rest (w :: rows) _ (le_refl _) h.words hsame)]
      · push Not at hsame
        rw [genRows_rows tail ht w.length (List.length_pos_of_ne_nil hw.1) rest (w :: rows) (by simp) fun ws hws => ⟨hsame ws hws, (h.words ws hws).2⟩]
        simp only [Bool.false_eq_true, if_false]
        have hwk : w.length ≠ fs.length := by
          obtain ⟨ws, hws, hb⟩ := h.bad
          rw [hsame ws hws] at hb
          exact hb
        rw [mapM_error_head]
        match fs, hne, hwk with
        | [f], _, hwk =>
          match w, hwk with
          | [], _ => rfl
          | [s], hwk => exact absurd rfl hwk
          | _ :: _ :: _, _ => rfl
        | f :: g :: fs, _, hwk =>
          have hlt : w.length < (f :: g :: fs).length := by
            by_contra hc
            refine h.notWide (by simp) ⟨w.length, by omega, hsame⟩
          show (if w.length < ((f :: g :: fs).map (tKey m)).length then _ else _) = _
          rw [if_pos (by rw [List.length_map]; exact hlt)]
    · intro k hk'
      obtain ⟨f, _, rfl⟩ := List.mem_map.mp hk'
      exact tKey_known m f
    · intro k hk'
      obtain ⟨f, hf, rfl⟩ := List.mem_map.mp hk'
      exact hk f hf
    · rw [List.map_map]
      exact hd

/-- After good pages, an error in the next page ends `read`. In a buffered file there are no pages before it. -/
theorem Reader.textLoop_error {r : Reader} {l : Layout} (hd : r.DescribesText l) (hl : l.TextOk) (hs : l.params ≠ [] ∨ l.cols ≠ [])
    {c : Conv} (hc : c.IntLaw) {ts : List TPage} {pgs : List Page} (h : List.Forall₂ (fun t pg => t.Holds c r.maxStr l pg) ts pgs)
    {rest : List Bytes} {e : PyErr} (he : ∀ p acc, r.TPosOk p → r.left p = rest → r.textEnd p = false ∧ r.textPage c true true p acc = .error e) :
    (r.buffer = false → ∀ t ∈ ts, t.FirstLine l) → (r.buffer = true → ts = []) →
    ∀ (fuel k : Nat) (p : TPos) (acc : Pages), ts.length < fuel → r.TPosOk p →
    r.left p = (ts.flatMap (TPage.lines l)).map (· ++ r.tail) ++ rest → r.textLoop c none fuel k p acc = some (.error e) := by
  induction h with
  | nil =>
    intro _ _ fuel k p acc hfuel hp hleft
    obtain ⟨fuel, rfl⟩ : ∃ n, fuel = n + 1 := ⟨fuel - 1, by simp at hfuel; omega⟩
    obtain ⟨h1, h2⟩ := he p acc hp (by simpa using hleft)
    unfold Reader.textLoop
    rw [if_neg (by simp [pastPages]), if_neg (by rw [h1]; simp)]
    have e1' : r.textPage c (none : Option (List Nat)).isNone (wantedPage none k) p acc = _ := h2
    rw [e1']
  | cons h1 h2 ih =>
    rename_i t pg ts pgs
    intro hm hb fuel k p acc hfuel hp hleft
    obtain ⟨fuel, rfl⟩ : ∃ n, fuel = n + 1 := ⟨fuel - 1, by simp at hfuel; omega⟩
    have hbuf : r.buffer = false := by
      cases hb' : r.buffer with
      | false => rfl
      | true => exact absurd (hb hb') (by simp)
    rw [List.flatMap_cons, List.map_append, List.append_assoc] at hleft
    obtain ⟨p', e1, e2, e3⟩ := Reader.textPage_ok hd hl hc h1 p hp _ hleft acc true
    rw [hbuf] at e3
    unfold Reader.textLoop
    rw [if_neg (by simp [pastPages]),
      if_neg (by rw [Reader.textEnd_page hp (h1.lines_ne hs) (fun hb' => hm hb' t (by simp)) hleft]; simp)]
    have e1' : r.textPage c (none : Option (List Nat)).isNone (wantedPage none k) p acc = _ := e1
    rw [e1']
    simp only
    exact ih (fun hb' x hx => hm hb' x (by simp [hx])) (fun hb' => by rw [hbuf] at hb'; cases hb') fuel (k + 1) p' _
      (by simp at hfuel; omega) e2 e3

/-- **C110.** A table some row of which has not as many words as there are columns is refused with ValueError, also after pages that can be
read (without buffer). Proved for all such tables but those whose rows all have the same larger number of words (see
`ascii_extra_words_fails`). The page `t` has the parameters and the number of rows of a page `t'` that could be read. -/
theorem ascii_ragged_partial {ft : FloatText} {d : Doc} {l : Layout} (h : d.AnnouncesText ft l) (hl : l.TextOk) {c : Conv} (hc : c.IntLaw)
    {ts : List TPage} {pages : List Page} {maxStr : Nat} (hh : List.Forall₂ (fun t pg => t.Holds c maxStr l pg) ts pages)
    {t t' : TPage} {pg : Page} (ht : t'.Holds c maxStr l pg) (hp1 : t'.params = t.params) (hp2 : t'.rows.length = t.rows.length)
    (hbad : Ragged l.cols.length t.rows) {fuel : Nat} (hfuel : d.comments.length + d.namelists.length + 2 ≤ fuel) (buffer : Bool)
    (hb : buffer = true → ts = []) (hm : buffer = false → ∀ x ∈ ts ++ [t], x.FirstLine l) :
    ∃ r, openSdds ft fuel buffer maxStr (textFile d l (ts ++ [t])) = some (.ok r) ∧
      ∀ fuel', ts.length < fuel' → r.readText c fuel' none = some (.error .valueError) := by
  obtain ⟨r, h1, h2, h3, h4, h5, h6, h7⟩ := open_text h (asLines ((ts ++ [t]).flatMap (TPage.lines l))) (fuel := fuel) (by omega) buffer maxStr
  refine ⟨r, h1, ?_⟩
  intro fuel' hfuel'
  subst h6 h7
  have hne : t.rows ≠ [] := by
    intro h0
    obtain ⟨ws, hws, _⟩ := hbad.bad
    rw [h0] at hws
    cases hws
  have hcne : l.cols ≠ [] := by
    intro h0
    have := ht.noRows h0
    rw [this] at hp2
    exact hne (List.length_eq_zero_iff.mp hp2.symm)
  have hok : ∀ x ∈ (ts ++ [t]).flatMap (TPage.lines l), ((10 : UInt8) ∉ x ∧ (13 : UInt8) ∉ x) ∧ (33 : UInt8) ∉ x := by
    intro x hx
    obtain ⟨y, hy, hx⟩ := List.mem_flatMap.mp hx
    rcases List.mem_append.mp hy with hy | hy
    · obtain ⟨pg, _, hpg⟩ := forall₂_left hh y hy
      exact hpg.lines_ok x hx
    · rw [List.mem_singleton.mp hy] at hx
      exact TPage.lines_ok (hp1 ▸ ht.paramText) (fun ws hws => (hbad.words ws hws).2) x hx
  have hleft := Reader.left_start (r := r) h.ok h.noReturn hok h3 h4 h5
  rw [List.flatMap_append, List.map_append, List.flatMap_singleton] at hleft
  have hpos : r.TPosOk ⟨if r.buffer then r.lineCount else 0, fileLines (r.file.drop r.headerEnd)⟩ := by
    intro hb'
    simp [hb']
  unfold Reader.readText
  rw [if_neg (by simp)]
  simp only
  rw [Reader.textLoop_error h2 hl h.some hc hh (e := .valueError) ?_ (fun hb' x hx => hm hb' x (by simp [hx])) hb fuel' 0 _ _ hfuel' hpos hleft]
  intro p acc hp hp'
  refine ⟨?_, ?_⟩
  · refine Reader.textEnd_page hp (l := l) (t := t) ?_ (fun hb' => hm hb' t (by simp)) (rest := []) (by rw [hp', List.append_nil])
    unfold TPage.lines
    have : l.cols.isEmpty = false := by simpa using hcne
    rw [this]
    simp
  · refine Reader.textPage_colError h2 hl (t := t) ht hp1 hp2 hne p hp [] (by rw [hp', List.append_nil]) acc ?_
    exact genfromtxt_ragged hcne hl.cols hl.ok.2.2.1 hbad r.tail r.tail_cases []

/-- The second page of the example has a row of one word. -/
example : ∃ r, openSdds exText 20 false 50 (textFile exDocT exLayoutT ([exTexts[0]] ++ [⟨[[99, 32, 100]], [[[53], [54]], [[55]]]⟩])) = some (.ok r) ∧
    ∀ fuel', 1 < fuel' → r.readText exConv fuel' none = some (.error .valueError) := by
  obtain ⟨h1, h2⟩ : exTexts[0].Holds exConv 50 exLayoutT exPagesT[0] ∧ exTexts[1].Holds exConv 50 exLayoutT exPagesT[1] := by
    have := exTexts_hold
    unfold exTexts exPagesT at this
    cases this with
    | cons a b => cases b with
      | cons b _ => exact ⟨a, b⟩
  refine ascii_ragged_partial (t := ⟨[[99, 32, 100]], [[[53], [54]], [[55]]]⟩) exDocT_announces exLayoutT_ok exConv_law (.cons h1 .nil) h2 rfl rfl ⟨?_, ⟨[[55]], by decide, by decide⟩, ?_⟩
    (fuel := 20) (by decide) false (by simp) ?_
  · have hw : ∀ b : UInt8, isStrSpace b = false → b ≠ 33 → WordText [b] := fun b hb hc =>
      ⟨by simp, by simpa using hb, by simpa using fun h => hc h.symm⟩
    intro ws hws
    simp only [List.mem_cons, List.not_mem_nil, or_false] at hws
    rcases hws with rfl | rfl
    · refine ⟨by simp, ?_⟩
      intro s hs
      simp only [List.mem_cons, List.not_mem_nil, or_false] at hs
      rcases hs with rfl | rfl
      · exact hw 53 (by decide) (by decide)
      · exact hw 54 (by decide) (by decide)
    · refine ⟨by simp, ?_⟩
      intro s hs
      rw [List.mem_singleton.mp hs]
      exact hw 55 (by decide) (by decide)
  · rintro _ ⟨m, hm, hall⟩
    have := hall [[55]] (by simp)
    simp [exLayoutT] at hm this
    omega
  · intro _ x hx
    simp only [List.singleton_append, List.mem_cons, List.not_mem_nil, or_false] at hx
    rcases hx with rfl | rfl
    · exact ⟨[97, 32, 98], rfl, 98, by decide, by decide⟩
    · exact ⟨[99, 32, 100], rfl, 100, by decide, by decide⟩

/-! ## Rows that are all too long -/

theorem zip_extra {α β : Type} : ∀ (a : List α) (b e : List β), b.length = a.length → a.zip (b ++ e) = a.zip b := by
  intro a
  induction a with
  | nil => intro b e h; simp
  | cons x a ih =>
    intro b e h
    cases b with
    | nil => simp at h
    | cons y b => simp [ih b e (by simpa using h)]

theorem textRec_extra (c : Conv) {dt : Dtype} (h2 : 2 ≤ dt.length) {ws e : List Bytes} (hl : ws.length = dt.length) :
    textRec c dt (ws ++ e) = textRec c dt ws := by
  match dt, h2 with
  | f :: g :: dt, _ =>
    show (if (ws ++ e).length < (f :: g :: dt).length then _ else _) = (if ws.length < (f :: g :: dt).length then _ else _)
    rw [if_neg (by rw [List.length_append]; omega), if_neg (by omega), zip_extra _ _ _ hl]

/-- A table with further words in every row gives the same array. -/
theorem genfromtxt_extra {c : Conv} (hc : c.IntLaw) {m : Nat} {fs : List (Str × SType)} (h2 : 2 ≤ fs.length)
    (hk : ∀ f ∈ fs, KeptName f.1) (hd : (fs.map Prod.fst).Nodup) {rows rows' : List (List Bytes)} {vals : List (List Val)} {k : Nat}
    (hrows : rows' ≠ []) (hw : ∀ ws ∈ rows, ∀ s ∈ ws, WordText s) (h : List.Forall₂ (fun ws row => RowDenotes c m fs ws row) rows' vals)
    (hx : List.Forall₂ (fun ws' ws => ∃ e : List Bytes, ws = ws' ++ e ∧ e.length = k) rows' rows)
    (tail : Bytes) (ht : tail = [] ∨ tail = [10]) (rest : List Bytes) :
    genfromtxt c true (fs.map (tKey m)) (some (rows.length : Int)) (rows.map (rowLine tail) ++ rest) =
      .ok (⟨fs.map (tKey m), vals.map fun row => (fs.map Prod.fst).zip row⟩, rest) := by
  have hne : fs ≠ [] := by rintro rfl; simp at h2
  have hlen' : ∀ ws ∈ rows', ws.length = fs.length := by
    intro ws hws
    clear hrows hx
    induction h with
    | nil => cases hws
    | cons h1 _ ih =>
      rcases List.mem_cons.mp hws with rfl | hws
      · exact (AllLoose.length h1.loose).1
      · exact ih hws
  have hlen : ∀ ws ∈ rows, ws.length = fs.length + k := by
    intro ws hws
    clear hrows h hw
    induction hx with
    | nil => cases hws
    | cons h1 _ ih =>
      rcases List.mem_cons.mp hws with rfl | hws
      · obtain ⟨e, rfl, he⟩ := h1
        rw [List.length_append, hlen' _ (by simp), he]
      · exact ih (fun x hx => hlen' x (by simp [hx])) hws
  have hrows2 : rows ≠ [] := by
    rintro rfl
    cases hx
    exact hrows rfl
  have hcount : firstCount true (rows.map (rowLine tail) ++ rest) = fs.length + k := by
    cases rows with
    | nil => exact absurd rfl hrows2
    | cons ws rows =>
      have hwl := hlen ws (by simp)
      rw [firstCount_rows ht (by rintro rfl; simp at hwl; omega) (hw ws (by simp)), hwl]
  have h3 : rows.mapM (textRec c (fs.map (tKey m))) = .ok (vals.map fun row => (fs.map Prod.fst).zip row) := by
    clear hrows hw hlen hrows2 hcount
    induction h generalizing rows with
    | nil => cases hx; rfl
    | cons h1 _ ih =>
      cases hx with
      | cons x1 x2 =>
        obtain ⟨e, rfl, _⟩ := x1
        refine mapM_ok_cons _ _ _ _ _ ?_ (ih x2 fun x hx => hlen' x (by simp [hx]))
        rw [textRec_extra c (by rw [List.length_map]; exact h2) (by rw [List.length_map]; exact hlen' _ (by simp))]
        exact textRec_ok hc h1 hne
  unfold genfromtxt
  have hp : 0 < rows.length := List.length_pos_of_ne_nil hrows2
  rw [if_neg (by simp; omega), easyDtype_kept]
  · simp only [bind, Except.bind, hcount]
    rw [show Option.map Int.toNat (some (rows.length : Int)) = some rows.length by simp,
      genRows_rows tail ht _ (by omega) rest rows hrows2 fun ws hws => ⟨hlen ws hws, hw ws hws⟩]
    simp only [Bool.false_eq_true, if_false, h3]
  · intro k hk'
    obtain ⟨f, _, rfl⟩ := List.mem_map.mp hk'
    exact tKey_known m f
  · intro k hk'
    obtain ⟨f, hf, rfl⟩ := List.mem_map.mp hk'
    exact hk f hf
  · rw [List.map_map]
    exact hd

/-- The last page of a file, when its table can be read. -/
theorem Reader.textPage_cols {r : Reader} {l : Layout} (hd : r.DescribesText l) (hl : l.TextOk) {c : Conv} {t t' : TPage} {pg : Page}
    (h : t'.Holds c r.maxStr l pg) (hp1 : t'.params = t.params) (hp2 : t'.rows.length = t.rows.length) (hpos : t.rows ≠ []) (p : TPos)
    (hp : r.TPosOk p) (hleft : r.left p = (t.lines l).map (· ++ r.tail)) (acc : Pages) {a : Arr}
    (he : genfromtxt c true (l.cols.map (tKey r.maxStr)) (some (t.rows.length : Int)) (t.rows.map (rowLine r.tail)) = .ok (a, [])) :
    ∃ p', r.textPage c true true p acc = .ok (⟨acc.params ++ [[textParamRecord l pg]], acc.cols ++ [a.rows]⟩, p') ∧ r.TPosOk p' ∧
      r.left p' = [] := by
  have hcne : l.cols ≠ [] := by
    intro h0
    have := h.noRows h0
    rw [this] at hp2
    exact hpos (List.length_eq_zero_iff.mp hp2.symm)
  have htx : pTexts l t = pTexts l t' := by unfold pTexts; rw [hp1, hp2]
  rw [lines_eq l t r.tail (fun h0 => absurd h0 hcne), htx] at hleft
  obtain ⟨p1, e1, e2, e3⟩ := Reader.textParams_ok (r := r) (c := c) (t.rows.map (rowLine r.tail)) (pFields l) (pTexts l t') (pVals l pg)
    (pFields_kept hl) h.pText h.pAll [] p hp hleft
  have hm := textMerge_ok h.pAll (pFields_names hl).1 (pFields_names hl).2
  unfold Reader.textPage
  rw [hd.paramKeys, e1]
  simp only [bind, Except.bind, List.nil_append, if_true, hm, textParamRecord_eq h, Reader.textRowCount_ok hd hl h]
  rw [if_neg (by rw [hp2]; simp; exact hpos), if_pos (by simp)]
  have hsrc : (r.source p1).drop p1.position = t.rows.map (rowLine r.tail) := e3
  unfold Reader.textCols
  rw [hd.colKeys hcne, hsrc, List.headD_cons, hp2, he]
  refine ⟨_, rfl, ?_, ?_⟩
  · intro hb
    simp only [hb, Bool.false_eq_true, if_false]
    exact e2 hb
  · cases hb : r.buffer with
    | true =>
      have h1 : r.source p1 = bufferLines r.file := by unfold Reader.source; rw [hb]; rfl
      rw [h1] at hsrc
      unfold Reader.left Reader.source
      rw [hb]
      simp only [if_true]
      rw [← List.drop_drop, hsrc]
      exact List.drop_of_length_le (by simp)
    | false =>
      unfold Reader.left Reader.source
      rw [hb]
      simp

/-- **C110 is false if all rows are too long.** With two columns or more, `k` further words in every row are ignored: the file gives what the
file without them gives. -/
theorem ascii_extra_words_fails {ft : FloatText} {d : Doc} {l : Layout} (h : d.AnnouncesText ft l) (hl : l.TextOk) (h2 : 2 ≤ l.cols.length)
    {c : Conv} (hc : c.IntLaw) {maxStr : Nat} {t t' : TPage} {pg : Page} (ht : t'.Holds c maxStr l pg) (hne : t'.rows ≠ [])
    (hp1 : t'.params = t.params) {k : Nat}
    (hx : List.Forall₂ (fun ws' ws => ∃ e : List Bytes, ws = ws' ++ e ∧ e.length = k ∧ ∀ s ∈ e, WordText s) t'.rows t.rows)
    {fuel : Nat} (hfuel : d.comments.length + d.namelists.length + 2 ≤ fuel) (buffer : Bool) (hm : buffer = false → t.FirstLine l) :
    ∃ r, openSdds ft fuel buffer maxStr (textFile d l [t]) = some (.ok r) ∧
      ∀ fuel', 1 < fuel' → r.readText c fuel' none = some (.ok ⟨[[textParamRecord l pg]], [rowRecords l pg]⟩) := by
  obtain ⟨r, h1, hdes, h3, h4, h5, h6, h7⟩ := open_text h (asLines ([t].flatMap (TPage.lines l))) (fuel := fuel) (by omega) buffer maxStr
  refine ⟨r, h1, ?_⟩
  intro fuel' hfuel'
  subst h6 h7
  have hp2 : t'.rows.length = t.rows.length := hx.length_eq
  have hne' : t.rows ≠ [] := by
    intro h0
    rw [h0] at hp2
    exact hne (List.length_eq_zero_iff.mp hp2)
  have hcne : l.cols ≠ [] := by
    intro h0
    rw [h0] at h2
    simp at h2
  have hwords : ∀ ws ∈ t.rows, ∀ s ∈ ws, WordText s := by
    intro ws hws s hs
    obtain ⟨ws', hws', e, rfl, _, he⟩ := forall₂_left hx.flip ws hws
    rcases List.mem_append.mp hs with hs | hs
    · exact ht.rowText ws' hws' s hs
    · exact he s hs
  have hleft := Reader.left_start (r := r) h.ok h.noReturn (ls := t.lines l) (TPage.lines_ok (hp1 ▸ ht.paramText) hwords)
    (by rw [h3]; simp) h4 h5
  have hpos : r.TPosOk ⟨if r.buffer then r.lineCount else 0, fileLines (r.file.drop r.headerEnd)⟩ := by
    intro hb'
    simp [hb']
  have hg := genfromtxt_extra (m := r.maxStr) hc h2 hl.cols hl.ok.2.2.1 hne hwords ht.rows
    (hx.imp fun _ _ ⟨e, he1, he2, _⟩ => ⟨e, he1, he2⟩) r.tail r.tail_cases []
  rw [List.append_nil] at hg
  obtain ⟨p', e1, e2, e3⟩ := Reader.textPage_cols hdes hl (t := t) ht hp1 hp2 hne' _ hpos hleft ⟨[], []⟩
    (a := ⟨_, pg.rows.map fun row => (l.cols.map Prod.fst).zip row⟩) hg
  obtain ⟨fuel', rfl⟩ : ∃ n, fuel' = n + 2 := ⟨fuel' - 2, by omega⟩
  have hend : r.textEnd ⟨if r.buffer then r.lineCount else 0, fileLines (r.file.drop r.headerEnd)⟩ = false := by
    refine Reader.textEnd_page hpos (l := l) (t := t) ?_ hm (rest := []) (by rw [hleft, List.append_nil])
    unfold TPage.lines
    have : l.cols.isEmpty = false := by simpa using hcne
    rw [this]
    simp
  have hloop : r.textLoop c none (fuel' + 2) 0 ⟨if r.buffer then r.lineCount else 0, fileLines (r.file.drop r.headerEnd)⟩ ⟨[], []⟩ =
      some (.ok ⟨[[textParamRecord l pg]], [rowRecords l pg]⟩) := by
    unfold Reader.textLoop
    rw [if_neg (by simp [pastPages]), if_neg (by rw [hend]; simp)]
    have e1' : r.textPage c (none : Option (List Nat)).isNone (wantedPage none 0) _ _ = _ := e1
    rw [e1']
    simp only
    unfold Reader.textLoop
    rw [if_neg (by simp [pastPages]), if_pos (Reader.textEnd_nil e2 e3)]
    rfl
  unfold Reader.readText
  rw [if_neg (by simp)]
  simp only
  rw [hloop]
  rfl

/-- Rows "1 2 9" and "3 -4 9" in a table of two columns. -/
example : ∃ r, openSdds exText 20 true 50 (textFile exDocT exLayoutT [⟨[[97, 32, 98]], [[[49], [50], [57]], [[51], [45, 52], [57]]]⟩]) = some (.ok r) ∧
    ∀ fuel', 1 < fuel' → r.readText exConv fuel' none = some (.ok ⟨[[textParamRecord exLayoutT exPagesT[0]]], [rowRecords exLayoutT exPagesT[0]]⟩) := by
  have h1 : exTexts[0].Holds exConv 50 exLayoutT exPagesT[0] := by
    have := exTexts_hold
    unfold exTexts exPagesT at this
    cases this with
    | cons a b => exact a
  have hw : ∀ s ∈ [([57] : Bytes)], WordText s := by
    intro s hs
    rw [List.mem_singleton.mp hs]
    exact ⟨by simp, by decide, by decide⟩
  exact ascii_extra_words_fails (t := ⟨[[97, 32, 98]], [[[49], [50], [57]], [[51], [45, 52], [57]]]⟩) exDocT_announces exLayoutT_ok (by decide) exConv_law h1 (by decide) rfl (k := 1)
    (.cons ⟨[[57]], rfl, rfl, hw⟩ (.cons ⟨[[57]], rfl, rfl, hw⟩ .nil)) (fuel := 20) (by decide) true (by simp)

end Verif.Sdds
