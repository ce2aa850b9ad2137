import Verif.Sdds.PropsAscii
import Verif.Sdds.ReadState

/-!
# ASCII files without row counts (C145)

With `no_row_counts=1` the rows of a page end at an empty line or with the file.
-/

namespace Verif.Sdds

/-- The lines of a page without the row count. -/
def TPage.body (t : TPage) : List Bytes := t.params ++ t.rows.map fun ws => [(32 : UInt8)].intercalate ws

/-- The lines of a file: an empty line between the pages, and, if `ended`, one behind the last page. -/
def freeLines (ended : Bool) : List TPage → List Bytes
  | [] => []
  | [t] => t.body ++ if ended then [[]] else []
  | t :: t' :: ts => t.body ++ [] :: freeLines ended (t' :: ts)

/-- The file. -/
def freeFile (d : Doc) (ended : Bool) (ts : List TPage) : Bytes := utf8 d.text ++ asLines (freeLines ended ts)

/-- The header announces ASCII pages of layout `l` without row counts. -/
structure Doc.AnnouncesFree (ft : FloatText) (d : Doc) (l : Layout) : Prop where
  ok : d.Ok
  noReturn : '\r' ∉ d.text
  mode : (attrVal d.data "mode".toList).getD "binary".toList = "ascii".toList
  counts : ∃ v, attrVal d.data "no_row_counts".toList = some v ∧ v ≠ []
  params : ((d.attrsOf .param).filter fun as => attrVal as "fixed_value".toList = none).map nameType =
    l.params.map fun f => (f.1, f.2.name)
  cols : (d.attrsOf .col).map nameType = l.cols.map fun f => (f.1, f.2.name)
  fixed : ∀ as ∈ d.attrsOf .param, ∀ v, attrVal as "fixed_value".toList = some v →
    ∃ x, parseFixed ft (nameType as).2 v = .ok x
  noLength : ∀ as ∈ d.attrsOf .col, attrVal as "field_length".toList = none
  someParam : l.params ≠ []
  someCol : l.cols ≠ []

/-- The record a user should see in `parameters`. -/
def freeParamRecord (l : Layout) (pg : Page) : Record := (l.params.map Prod.fst).zip pg.params

/-- The pages read. -/
def freePagesOf (l : Layout) (pages : List Page) : Pages :=
  ⟨pages.map fun pg => [freeParamRecord l pg], (pages.filter (hasData l)).map (rowRecords l)⟩

/-- What the constructor finds in the header. -/
structure Reader.DescribesFree (r : Reader) (l : Layout) : Prop where
  ascii : r.ascii = true
  counts : r.noRowCounts = true
  params : (r.params.filter fun p => p.fixed = none).map (fun p => (p.name, p.type)) =
    l.params.map fun f => (f.1, f.2.name)
  cols : r.cols.map (fun c => (c.name, c.type)) = l.cols.map fun f => (f.1, f.2.name)

theorem Reader.DescribesFree.paramKeys {r : Reader} {l : Layout} (h : r.DescribesFree l) :
    r.paramKeys = l.params.map fun f => [tKey r.maxStr f] := by
  unfold Reader.paramKeys
  simp only [h.ascii, h.counts, paramKeys_text r.params r.maxStr l.params h.params]
  simp

theorem Reader.DescribesFree.colKeys {r : Reader} {l : Layout} (h : r.DescribesFree l) (hc : l.cols ≠ []) :
    r.colKeys = [l.cols.map (tKey r.maxStr)] :=
  Reader.DescribesText.colKeys (r := { r with noRowCounts := false }) ⟨h.ascii, rfl, h.params, h.cols⟩ hc

theorem open_free {ft : FloatText} {d : Doc} {l : Layout} (h : d.AnnouncesFree ft l) (body : Bytes) {fuel : Nat}
    (hfuel : d.comments.length + d.namelists.length + 2 ≤ fuel) (buffer : Bool) (maxStr : Nat) :
    ∃ r, openSdds ft fuel buffer maxStr (utf8 d.text ++ body) = some (.ok r) ∧ r.DescribesFree l ∧
      r.file = utf8 d.text ++ body ∧ r.headerEnd = (utf8 d.text).length ∧ r.lineCount = d.namelists.length + 2 ∧
      r.buffer = buffer ∧ r.maxStr = maxStr := by
  obtain ⟨ps, hp1, hp2⟩ := params_of _ _ h.params h.fixed
  obtain ⟨cs, hc1, hc2⟩ := cols_of _ _ h.cols h.noLength
  obtain ⟨v, hv, hv0⟩ := h.counts
  let r : Reader := {
        file := utf8 d.text ++ body, buffer := buffer, maxStr := maxStr,
        headerEnd := (utf8 d.text).length, lineCount := d.namelists.length + 2,
        params := ps, cols := cs, ascii := true,
        noRowCounts := textTrue (attrVal d.data "no_row_counts".toList) }
  have hd : r.DescribesFree l := ⟨rfl, by simp only [r, hv, textTrue]; simpa using hv0, hp2, hc2⟩
  refine ⟨r, open_docText ft h.ok body hfuel buffer maxStr hp1 hc1 h.mode r rfl ?_, hd, rfl, rfl, rfl, rfl, rfl⟩
  rw [hd.paramKeys]
  simpa using h.someParam

theorem genfromtxt_blank {c : Conv} {white : Bool} {dk : Dtype} {max : Option Int} {b : Bytes} (hb : fieldsOf white b = []) (ls : List Bytes) :
    genfromtxt c white dk max (b :: ls) = genfromtxt c white dk max ls := by
  have h1 : firstCount white (b :: ls) = firstCount white ls := by
    unfold firstCount
    rw [List.map_cons, hb, List.find?_cons_of_neg (by simp)]
  have h2 : ∀ nb mx, genRows white nb mx (b :: ls) = genRows white nb mx ls := by
    intro nb mx
    rw [genRows]
    simp only [hb, if_true]
  unfold genfromtxt
  rw [h1, h2]

/-- Without buffer an empty line before a page makes no difference. -/
theorem Reader.textPage_blank {r : Reader} (hb : r.buffer = false) {c : Conv} {b : Bytes} (hf : fieldsOf false b = []) {ls : List Bytes}
    (hk : r.paramKeys ≠ []) (all w : Bool) (acc : Pages) :
    r.textPage c all w ⟨0, b :: ls⟩ acc = r.textPage c all w ⟨0, ls⟩ acc := by
  have : r.textParams c r.paramKeys [] ⟨0, b :: ls⟩ = r.textParams c r.paramKeys [] ⟨0, ls⟩ := by
    cases h : r.paramKeys with
    | nil => exact absurd h hk
    | cons dk dks =>
      rw [Reader.textParams, Reader.textParams]
      unfold Reader.source
      simp only [hb, Bool.false_eq_true, if_false, List.drop_zero]
      rw [genfromtxt_blank hf]
  unfold Reader.textPage
  rw [this]

theorem rowLine_space {ws : List Bytes} (hne : ws ≠ []) (h : ∀ s ∈ ws, WordText s) (tail : Bytes) :
    (rowLine tail ws).all isSpaceByte = false ∧ rowLine tail ws ≠ [] := by
  cases ws with
  | nil => exact absurd rfl hne
  | cons s ws =>
    have h1 := h s (by simp)
    cases s with
    | nil => exact absurd rfl h1.ne
    | cons b s =>
      have h2 := h1.noSpace b (by simp)
      have h3 : ∃ x, rowLine tail ((b :: s) :: ws) = b :: x := by
        unfold rowLine
        cases ws with
        | nil => exact ⟨_, by simp [List.intercalate]; rfl⟩
        | cons v ws => exact ⟨_, by simp [List.intercalate]; rfl⟩
      obtain ⟨x, hx⟩ := h3
      rw [hx]
      refine ⟨?_, by simp⟩
      rw [List.all_cons]
      unfold isStrSpace at h2
      simp only [Bool.or_eq_false_iff] at h2
      rw [h2.1.1.1]
      rfl

theorem genRows_none (tail : Bytes) (ht : tail = [] ∨ tail = [10]) (nb : Nat) (hnb : 0 < nb) :
    ∀ rows : List (List Bytes), (∀ ws ∈ rows, ws.length = nb ∧ ∀ s ∈ ws, WordText s) →
      genRows true nb none (rows.map (rowLine tail)) = (rows, false, []) := by
  intro rows
  induction rows with
  | nil => intro _; rfl
  | cons ws rows ih =>
    intro h
    obtain ⟨h1, h2⟩ := h ws (by simp)
    have hne : ws ≠ [] := by
      rintro rfl
      simp at h1
      omega
    have hf : fieldsOf true (rowLine tail ws) = ws := fieldsOf_row hne h2 tail ht
    rw [List.map_cons, genRows]
    simp only [hf]
    rw [if_neg hne, if_neg (by simp [h1]), if_neg (by simp), Option.map_none, ih fun x hx => h x (by simp [hx])]

/-- Without a limit all rows are read. -/
theorem genfromtxt_none {c : Conv} (hc : c.IntLaw) {m : Nat} {fs : List (Str × SType)} (hne : fs ≠ [])
    (hk : ∀ f ∈ fs, KeptName f.1) (hd : (fs.map Prod.fst).Nodup) {rows : List (List Bytes)} {vals : List (List Val)}
    (hrows : rows ≠ []) (hw : ∀ ws ∈ rows, ∀ s ∈ ws, WordText s) (h : List.Forall₂ (fun ws row => RowDenotes c m fs ws row) rows vals)
    (tail : Bytes) (ht : tail = [] ∨ tail = [10]) :
    genfromtxt c true (fs.map (tKey m)) none (rows.map (rowLine tail)) =
      .ok (⟨fs.map (tKey m), vals.map fun row => (fs.map Prod.fst).zip row⟩, []) := by
  have h0 := genfromtxt_rows hc hne hk hd hrows hw h tail ht []
  rw [List.append_nil] at h0
  have hlen : ∀ ws ∈ rows, ws.length = fs.length := by
    intro ws hws
    obtain ⟨row, _, h1⟩ := forall₂_left h ws hws
    exact (AllLoose.length h1.loose).1
  have hpos : 0 < fs.length := List.length_pos_of_ne_nil hne
  have h2 : firstCount true (rows.map (rowLine tail)) = fs.length := by
    cases rows with
    | nil => exact absurd rfl hrows
    | cons ws rows =>
      have hwl := hlen ws (by simp)
      have hwne : ws ≠ [] := by
        rintro rfl
        simp at hwl
        omega
      have hf : fieldsOf true (rowLine tail ws) = ws := fieldsOf_row hwne (hw ws (by simp)) tail ht
      unfold firstCount
      rw [List.map_cons, List.map_cons, hf, List.find?_cons_of_pos (by simpa using hwne)]
      exact hwl
  have h3 := genRows_rows tail ht fs.length hpos [] rows hrows fun ws hws => ⟨hlen ws hws, hw ws hws⟩
  have h4 := genRows_none tail ht fs.length hpos rows fun ws hws => ⟨hlen ws hws, hw ws hws⟩
  rw [List.append_nil] at h3
  have hp : 0 < rows.length := List.length_pos_of_ne_nil hrows
  unfold genfromtxt at h0 ⊢
  rw [if_neg (by simp; omega), h2, show Option.map Int.toNat (some (rows.length : Int)) = some rows.length by simp, h3] at h0
  rw [if_neg (by simp), h2, Option.map_none, h4]
  exact h0

/-- Reading one page of a file without row counts. -/
theorem Reader.freePage_ok {r : Reader} {l : Layout} (hd : r.DescribesFree l) (hl : l.TextOk) (hcne : l.cols ≠ []) {c : Conv} (hc : c.IntLaw)
    {t : TPage} {pg : Page} (h : t.Holds c r.maxStr l pg) (hrows : t.rows ≠ []) (p : TPos) (hp : r.TPosOk p) {rest : List Bytes}
    (hrest : rest = [] ∨ ∃ more, rest = r.tail :: more)
    (hleft : r.left p = t.body.map (· ++ r.tail) ++ rest) (acc : Pages) (all : Bool) :
    ∃ p', r.textPage c all true p acc = .ok (acc.append (freePagesOf l [pg]), p') ∧ r.TPosOk p' ∧
      r.left p' = if r.buffer then rest.drop t.rows.length else rest := by
  have hbody : t.body.map (· ++ r.tail) = t.params.map (· ++ r.tail) ++ t.rows.map (rowLine r.tail) := by
    unfold TPage.body rowLine
    rw [List.map_append, List.map_map]
    rfl
  rw [hbody, List.append_assoc] at hleft
  obtain ⟨p1, e1, e2, e3⟩ := Reader.textParams_ok (r := r) (c := c) (t.rows.map (rowLine r.tail) ++ rest) l.params t.params pg.params
    hl.params h.paramText h.params [] p hp hleft
  have hm := textMerge_ok h.params (List.nodup_cons.1 hl.ok.1).2 (by
    intro hmem
    have := (pFields_names hl).2
    unfold pFields at this
    rw [List.map_append, List.mem_append] at this
    exact this (Or.inl hmem))
  have hlen := h.length
  have hpos : 0 < t.rows.length := List.length_pos_of_ne_nil hrows
  have hpne : pg.rows ≠ [] := by
    intro he
    rw [he] at hlen
    simp at hlen
    omega
  have hwl : ∀ ws ∈ t.rows, ws ≠ [] := by
    intro ws hws
    obtain ⟨row, _, h1⟩ := forall₂_left h.rows ws hws
    have h2 := (AllLoose.length h1.loose).1
    rintro rfl
    exact hcne (List.length_eq_zero_iff.1 h2.symm)
  have hcols : r.cols ≠ [] := by
    intro h0
    have := hd.cols
    rw [h0] at this
    exact hcne (List.map_eq_nil_iff.1 this.symm)
  have hsrc : (r.source p1).drop p1.position = t.rows.map (rowLine r.tail) ++ rest := e3
  have hh : hasData l pg = true := by
    unfold hasData
    simp [hcne, hpne]
  have hpages : acc.append (freePagesOf l [pg]) = ⟨acc.params ++ [[freeParamRecord l pg]],
      acc.cols ++ [pg.rows.map fun row => (l.cols.map Prod.fst).zip row]⟩ := by
    unfold Pages.append freePagesOf
    rw [List.filter_cons_of_pos hh]
    rfl
  -- the number of rows, and what `genfromtxt` reads
  have hcount : ∃ rc a, r.textRowCount (List.zipWith (pArr r.maxStr) l.params pg.params) p1 = .ok rc ∧ rc ≠ some 0 ∧
      genfromtxt c true (l.cols.map (tKey r.maxStr)) rc (t.rows.map (rowLine r.tail) ++ rest) = .ok (a, rest) ∧
      a.rows = (pg.rows.map fun row => (l.cols.map Prod.fst).zip row) ∧ (rest ≠ [] → rc = some (t.rows.length : Int)) := by
    have hg := genfromtxt_rows hc hcne hl.cols hl.ok.2.2.1 hrows h.rowText h.rows r.tail r.tail_cases rest
    unfold Reader.textRowCount
    rw [if_neg hcols, hd.counts]
    simp only [Bool.not_true, Bool.false_eq_true, if_false]
    cases hb : r.buffer with
    | false =>
      have htail : r.tail = [10] := by unfold Reader.tail; rw [hb]; rfl
      have hrest' : p1.rest = t.rows.map (rowLine r.tail) ++ rest := by
        unfold Reader.source at hsrc
        rw [hb, e2 hb] at hsrc
        simpa using hsrc
      refine ⟨some (t.rows.length : Int), _, ?_, by simp; exact hrows, hg, rfl, fun _ => rfl⟩
      unfold Reader.textRows
      rw [hb, hrest']
      simp only [Bool.false_eq_true, if_false, Except.ok.injEq, Option.some.injEq, Nat.cast_inj]
      rw [List.takeWhile_append_of_pos]
      · rcases hrest with rfl | ⟨more, rfl⟩
        · simp
        · rw [List.takeWhile_cons_of_neg (by rw [htail]; decide)]
          simp
      · intro x hx
        obtain ⟨ws, hws, rfl⟩ := List.mem_map.1 hx
        rw [(rowLine_space (hwl ws hws) (h.rowText ws hws) r.tail).1]
        rfl
    | true =>
      have htail : r.tail = [] := by unfold Reader.tail; rw [hb]; rfl
      have hls : (bufferLines r.file).drop p1.position = t.rows.map (rowLine r.tail) ++ rest := by
        unfold Reader.source at hsrc
        rw [hb] at hsrc
        simpa using hsrc
      have hnot : [] ∉ t.rows.map (rowLine r.tail) := by
        intro hx
        obtain ⟨ws, hws, h0⟩ := List.mem_map.1 hx
        exact (rowLine_space (hwl ws hws) (h.rowText ws hws) r.tail).2 h0
      unfold Reader.textRows
      simp only [hb, if_true, hls]
      rcases hrest with rfl | ⟨more, rfl⟩
      · have hg' := genfromtxt_none hc hcne hl.cols hl.ok.2.2.1 hrows h.rowText h.rows r.tail r.tail_cases
        rw [List.append_nil, if_neg hnot]
        exact ⟨none, _, rfl, by simp, hg', rfl, fun hx => absurd rfl hx⟩
      · refine ⟨some (t.rows.length : Int), _, ?_, by simp; exact hrows, hg, rfl, fun _ => rfl⟩
        rw [if_pos (by rw [htail]; simp), List.takeWhile_append_of_pos, List.takeWhile_cons_of_neg (by rw [htail]; simp)]
        · simp
        · intro x hx
          simp only [ne_eq, decide_eq_true_eq]
          rintro rfl
          exact hnot hx
  obtain ⟨rc, a, c1, c2, c3, c4, c5⟩ := hcount
  have hm' : textMerge r.maxStr (l.params.map fun f => [tKey r.maxStr f]) (List.zipWith (pArr r.maxStr) l.params pg.params) =
      .ok [freeParamRecord l pg] := hm
  unfold Reader.textPage
  rw [hd.paramKeys, e1]
  simp only [bind, Except.bind, List.nil_append, if_true, hm', c1]
  rw [if_neg c2, if_pos (by simp)]
  unfold Reader.textCols
  rw [hd.colKeys hcne, hsrc, List.headD_cons, c3]
  simp only [bind, Except.bind]
  rw [hpages, c4]
  refine ⟨_, rfl, ?_, ?_⟩
  · intro hb
    rw [hb]
    exact e2 hb
  · cases hb : r.buffer with
    | true =>
      have h1 : r.source p1 = bufferLines r.file := by unfold Reader.source; rw [hb]; rfl
      rw [h1] at hsrc
      unfold Reader.left Reader.source
      rw [hb]
      simp only [if_true]
      rw [← List.drop_drop, hsrc, List.length_map, hlen]
      rw [List.drop_append, List.drop_of_length_le (by simp), List.length_map, List.nil_append]
      rcases hrest with rfl | ⟨more, rfl⟩
      · simp
      · rw [c5 (by simp)]
        simp
    | false =>
      unfold Reader.left Reader.source
      rw [hb]
      simp only [Bool.false_eq_true, if_false]
      rw [e2 hb]
      rfl

theorem freePagesOf_append (l : Layout) (a : Pages) (pg : Page) (pgs : List Page) :
    (a.append (freePagesOf l [pg])).append (freePagesOf l pgs) = a.append (freePagesOf l (pg :: pgs)) := by
  unfold Pages.append freePagesOf
  simp only [List.map_cons, List.map_nil, List.append_assoc, List.singleton_append, Pages.mk.injEq, true_and,
    List.append_cancel_left_eq]
  rw [← List.map_append, ← List.filter_append]
  rfl

/-- The first parameter of the page, from its character number `k` on, is not only white space. -/
def TPage.FirstFrom (k : Nat) (t : TPage) : Prop := ∃ s ∈ t.params.head?, ∃ b ∈ s.drop k, isSpaceByte b = false

/-- Without buffer: the start of a page is not the end of the file. -/
theorem Reader.textEnd_first {r : Reader} (hb : r.buffer = false) {t : TPage} {rest : List Bytes} :
    (t.FirstFrom 1 → r.textEnd ⟨0, t.body.map (· ++ [10]) ++ rest⟩ = false) ∧
    (t.FirstFrom 0 → r.textEnd ⟨0, [10] :: (t.body.map (· ++ [10]) ++ rest)⟩ = false) := by
  constructor
  · rintro ⟨s, hs, b, hb', hsp⟩
    obtain ⟨ss, hss⟩ : ∃ ss, t.params = s :: ss := by
      cases h : t.params with
      | nil => rw [h] at hs; cases hs
      | cons x xs =>
        rw [h] at hs
        cases hs
        exact ⟨xs, rfl⟩
    unfold Reader.textEnd TPage.body
    rw [hb, hss]
    simp only [Bool.false_eq_true, if_false, List.cons_append, List.map_cons]
    have hst : (s ++ [10]).tail = s.tail ++ [10] := by
      cases s with
      | nil => simp at hb'
      | cons a s => rfl
    rw [hst, if_neg (by simp), List.all_eq_false]
    rw [List.drop_one] at hb'
    exact ⟨b, by simp [hb'], by simp [hsp]⟩
  · rintro ⟨s, hs, b, hb', hsp⟩
    obtain ⟨ss, hss⟩ : ∃ ss, t.params = s :: ss := by
      cases h : t.params with
      | nil => rw [h] at hs; cases hs
      | cons x xs =>
        rw [h] at hs
        cases hs
        exact ⟨xs, rfl⟩
    unfold Reader.textEnd TPage.body
    rw [hb, hss]
    simp only [Bool.false_eq_true, if_false, List.cons_append, List.map_cons, List.tail_cons, if_true, List.headD_cons]
    rw [List.all_eq_false]
    rw [List.drop_zero] at hb'
    exact ⟨b, by simp [hb'], by simp [hsp]⟩

theorem freeLines_cons (ended : Bool) (t : TPage) (ts : List TPage) : ∃ rest, freeLines ended (t :: ts) = t.body ++ rest ∧
    (ts = [] → rest = [] ∨ rest = [[]]) ∧ (ts ≠ [] → rest = [] :: freeLines ended ts) := by
  cases ts with
  | nil => exact ⟨_, rfl, fun _ => by cases ended <;> simp, fun h => absurd rfl h⟩
  | cons t' ts => exact ⟨_, rfl, fun h => by simp at h, fun _ => rfl⟩

/-- The page loop without buffer; `pre` tells that there is an empty line before the first page. -/
theorem Reader.freeLoop_ok {r : Reader} {l : Layout} (hb : r.buffer = false) (hd : r.DescribesFree l) (hl : l.TextOk)
    (hpne : l.params ≠ []) (hcne : l.cols ≠ []) {c : Conv} (hc : c.IntLaw) (ended : Bool) {ts : List TPage} {pgs : List Page}
    (h : List.Forall₂ (fun t pg => t.Holds c r.maxStr l pg) ts pgs) : (∀ t ∈ ts, t.rows ≠ []) → (∀ t ∈ ts.tail, t.FirstFrom 0) →
    ∀ (pre : Bool), (∀ t ∈ ts.head?, t.FirstFrom (if pre then 0 else 1)) → ∀ (fuel k : Nat) (acc : Pages), ts.length < fuel →
    r.textLoop c none fuel k ⟨0, (if pre then [[10]] else []) ++ (freeLines ended ts).map (· ++ [10])⟩ acc = some (.ok (acc.append (freePagesOf l pgs))) := by
  have htail : r.tail = [10] := by unfold Reader.tail; rw [hb]; rfl
  have hend0 : r.textEnd ⟨0, []⟩ = true := by unfold Reader.textEnd; rw [hb]; rfl
  have hend1 : r.textEnd ⟨0, [[10]]⟩ = true := by unfold Reader.textEnd; rw [hb]; rfl
  induction h with
  | nil =>
    intro _ _ pre _ fuel k acc hfuel
    obtain ⟨fuel, rfl⟩ : ∃ n, fuel = n + 1 := ⟨fuel - 1, by simp at hfuel; omega⟩
    unfold Reader.textLoop
    rw [if_neg (by simp [pastPages]), if_pos]
    · simp [Pages.append, freePagesOf]
    · cases pre with
      | true => exact hend1
      | false => exact hend0
  | cons h1 h2 ih =>
    rename_i t pg ts pgs
    intro hrows hfirst pre hpre fuel k acc hfuel
    obtain ⟨fuel, rfl⟩ : ∃ n, fuel = n + 1 := ⟨fuel - 1, by simp at hfuel; omega⟩
    obtain ⟨rest, hr1, hr2, hr3⟩ := freeLines_cons ended t ts
    have hkeys : r.paramKeys ≠ [] := by
      rw [hd.paramKeys]
      simpa using hpne
    have hleft : r.left ⟨0, t.body.map (· ++ [10]) ++ rest.map (· ++ [10])⟩ = t.body.map (· ++ r.tail) ++ rest.map (· ++ [10]) := by
      unfold Reader.left Reader.source
      rw [hb, htail]
      rfl
    have hrest : rest.map (· ++ [10]) = [] ∨ ∃ more, rest.map (· ++ [10]) = r.tail :: more := by
      rw [htail]
      by_cases hts : ts = []
      · rcases hr2 hts with h0 | h0
        · exact Or.inl (by rw [h0]; rfl)
        · exact Or.inr ⟨[], by rw [h0]; rfl⟩
      · exact Or.inr ⟨_, by rw [hr3 hts]; rfl⟩
    obtain ⟨p', e1, e2, e3⟩ := Reader.freePage_ok hd hl hcne hc h1 (hrows t (by simp)) ⟨0, t.body.map (· ++ [10]) ++ rest.map (· ++ [10])⟩
      (fun _ => rfl) hrest hleft acc true
    rw [hb] at e3
    have hp' : p' = ⟨0, rest.map (· ++ [10])⟩ := by
      have h0 := e2 hb
      unfold Reader.left Reader.source at e3
      rw [hb, h0] at e3
      obtain ⟨a, b⟩ := p'
      simp only at h0
      subst h0
      simpa using e3
    have hpage : r.textPage c true true ⟨0, (if pre then [[10]] else []) ++ (freeLines ended (t :: ts)).map (· ++ [10])⟩ acc =
        .ok (acc.append (freePagesOf l [pg]), ⟨0, rest.map (· ++ [10])⟩) := by
      rw [hr1, List.map_append, ← hp', ← e1]
      cases pre with
      | true => exact Reader.textPage_blank hb (by decide) hkeys true true acc
      | false => rfl
    have hnot : r.textEnd ⟨0, (if pre then [[10]] else []) ++ (freeLines ended (t :: ts)).map (· ++ [10])⟩ = false := by
      have hf := hpre t (by simp)
      rw [hr1, List.map_append]
      cases pre with
      | true => exact (Reader.textEnd_first hb).2 hf
      | false => exact (Reader.textEnd_first hb).1 hf
    unfold Reader.textLoop
    rw [if_neg (by simp [pastPages]), hnot, if_neg (by simp)]
    have hpage' : r.textPage c (none : Option (List Nat)).isNone (wantedPage none k)
      ⟨0, (if pre then [[10]] else []) ++ (freeLines ended (t :: ts)).map (· ++ [10])⟩ acc = _ := hpage
    rw [hpage']
    simp only
    by_cases hts : ts = []
    · subst hts
      cases h2
      obtain ⟨fuel, rfl⟩ : ∃ n, fuel = n + 1 := ⟨fuel - 1, by simp at hfuel; omega⟩
      unfold Reader.textLoop
      rw [if_neg (by simp [pastPages]), if_pos]
      rcases hr2 rfl with h0 | h0
      · rw [h0]; exact hend0
      · rw [h0]; exact hend1
    · have hrest' : rest.map (· ++ [10]) = (if true then [[10]] else []) ++ (freeLines ended ts).map (· ++ [10]) := by
        rw [hr3 hts]
        rfl
      rw [hrest', ih (fun x hx => hrows x (by simp [hx])) (fun x hx => hfirst x (List.mem_of_mem_tail hx)) true
        (fun x hx => hfirst x (by
          rw [List.tail_cons]
          exact List.mem_of_mem_head? hx)) fuel (k + 1) _ (by simp at hfuel; omega), freePagesOf_append]

/-- The page loop with buffer, for pages of one row and for a single page. -/
theorem Reader.freeLoop_buffered {r : Reader} {l : Layout} (hb : r.buffer = true) (hd : r.DescribesFree l) (hl : l.TextOk)
    (hcne : l.cols ≠ []) {c : Conv} (hc : c.IntLaw) (ended : Bool) {ts : List TPage} {pgs : List Page}
    (h : List.Forall₂ (fun t pg => t.Holds c r.maxStr l pg) ts pgs) : (∀ t ∈ ts, t.rows ≠ []) → (2 ≤ ts.length → ∀ t ∈ ts, t.rows.length = 1) →
    ∀ (fuel k : Nat) (p : TPos) (acc : Pages), ts.length < fuel → r.left p = freeLines ended ts →
    r.textLoop c none fuel k p acc = some (.ok (acc.append (freePagesOf l pgs))) := by
  have htail : r.tail = [] := by unfold Reader.tail; rw [hb]; rfl
  have hok : ∀ p, r.TPosOk p := by intro p h0; rw [hb] at h0; cases h0
  have hend : ∀ p, r.left p = [] → r.textEnd p = true := fun p h0 => by rw [Reader.textEnd_left hb, h0]; rfl
  induction h with
  | nil =>
    intro _ _ fuel k p acc hfuel hleft
    obtain ⟨fuel, rfl⟩ : ∃ n, fuel = n + 1 := ⟨fuel - 1, by simp at hfuel; omega⟩
    unfold Reader.textLoop
    rw [if_neg (by simp [pastPages]), if_pos (hend p hleft)]
    simp [Pages.append, freePagesOf]
  | cons h1 h2 ih =>
    rename_i t pg ts pgs
    intro hrows hone fuel k p acc hfuel hleft
    obtain ⟨fuel, rfl⟩ : ∃ n, fuel = n + 1 := ⟨fuel - 1, by simp at hfuel; omega⟩
    obtain ⟨rest, hr1, hr2, hr3⟩ := freeLines_cons ended t ts
    have hrest : rest = [] ∨ ∃ more, rest = r.tail :: more := by
      rw [htail]
      by_cases hts : ts = []
      · rcases hr2 hts with h0 | h0
        · exact Or.inl h0
        · exact Or.inr ⟨[], h0⟩
      · exact Or.inr ⟨_, hr3 hts⟩
    have hleft' : r.left p = t.body.map (· ++ r.tail) ++ rest := by
      rw [hleft, hr1, htail]
      simp
    obtain ⟨p', e1, e2, e3⟩ := Reader.freePage_ok hd hl hcne hc h1 (hrows t (by simp)) p (hok p) hrest hleft' acc true
    rw [hb, if_pos rfl] at e3
    have hpos : 0 < t.rows.length := List.length_pos_of_ne_nil (hrows t (by simp))
    have hbody : t.body ≠ [] := by
      unfold TPage.body
      intro h0
      rw [List.append_eq_nil_iff, List.map_eq_nil_iff] at h0
      exact hrows t (by simp) h0.2
    unfold Reader.textLoop
    rw [if_neg (by simp [pastPages]), Reader.textEnd_left hb, hleft, hr1, if_neg (by simp [hbody])]
    have e1' : r.textPage c (none : Option (List Nat)).isNone (wantedPage none k) p acc = _ := e1
    rw [e1']
    simp only
    have hnext : r.left p' = freeLines ended ts := by
      rw [e3]
      by_cases hts : ts = []
      · rw [hts]
        rcases hr2 hts with h0 | h0
        · rw [h0]; simp [freeLines]
        · rw [h0, List.drop_of_length_le (by simp; omega)]; rfl
      · rw [hone (by
            have := List.length_pos_of_ne_nil hts
            simp; omega) t (by simp), hr3 hts]
        rfl
    rw [ih (fun x hx => hrows x (by simp [hx])) (fun h0 x hx => hone (by simp; omega) x (by simp [hx])) fuel (k + 1) p' _
      (by simp at hfuel; omega) hnext, freePagesOf_append]

theorem freeLines_mem {ended : Bool} {ts : List TPage} {x : Bytes} (h : x ∈ freeLines ended ts) : x = [] ∨ ∃ t ∈ ts, x ∈ t.body := by
  induction ts with
  | nil => cases h
  | cons t ts ih =>
    obtain ⟨rest, hr1, hr2, hr3⟩ := freeLines_cons ended t ts
    rw [hr1, List.mem_append] at h
    rcases h with h | h
    · exact Or.inr ⟨t, by simp, h⟩
    · by_cases hts : ts = []
      · rcases hr2 hts with h0 | h0
        · rw [h0] at h; cases h
        · rw [h0] at h
          exact Or.inl (by simpa using h)
      · rw [hr3 hts] at h
        rcases List.mem_cons.1 h with h | h
        · exact Or.inl h
        · rcases ih h with h | ⟨t', h1, h2⟩
          · exact Or.inl h
          · exact Or.inr ⟨t', by simp [h1], h2⟩

/-- **C145.** Reading an ASCII file without row counts gives the parameters and the columns of every page, in file order. Proved for files whose pages all
have the same number `n > 0` of rows. With buffer there must be one page, or one row on each page (`free_buffered_fails`); without buffer the
first parameter of the file must have more than one character, and no page may begin with white space only. Comment lines are excluded
(`free_comment_fails`). -/
theorem free_read_partial {ft : FloatText} {d : Doc} {l : Layout} (h : d.AnnouncesFree ft l) (hl : l.TextOk) {c : Conv} (hc : c.IntLaw)
    {ts : List TPage} {pages : List Page} {maxStr : Nat} (hh : List.Forall₂ (fun t pg => t.Holds c maxStr l pg) ts pages) {n : Nat}
    (hn : 0 < n) (hrows : ∀ pg ∈ pages, pg.rows.length = n) {fuel : Nat}
    (hfuel : d.comments.length + d.namelists.length + ts.length + 2 ≤ fuel) (buffer ended : Bool)
    (hb : buffer = true → n = 1 ∨ ts.length ≤ 1)
    (hm : buffer = false → (∀ t ∈ ts.head?, t.FirstFrom 1) ∧ ∀ t ∈ ts.tail, t.FirstFrom 0) :
    ∃ r, openSdds ft fuel buffer maxStr (freeFile d ended ts) = some (.ok r) ∧
      r.readText c fuel none = some (.ok ⟨pages.map fun pg => [freeParamRecord l pg], pages.map (rowRecords l)⟩) := by
  obtain ⟨r, h1, h2, h3, h4, h5, h6, h7⟩ := open_free h (asLines (freeLines ended ts)) (fuel := fuel) (by omega) buffer maxStr
  refine ⟨r, h1, ?_⟩
  subst h6 h7
  have hlen : ∀ t ∈ ts, t.rows.length = n := by
    intro t ht
    obtain ⟨pg, hpg, h0⟩ := forall₂_left hh t ht
    rw [← h0.length]
    exact hrows pg hpg
  have hne : ∀ t ∈ ts, t.rows ≠ [] := by
    intro t ht h0
    have := hlen t ht
    rw [h0] at this
    simp at this
    omega
  have hstart := Reader.left_start h.ok h.noReturn (ls := freeLines ended ts) (r := r) (by
    intro x hx
    rcases freeLines_mem hx with rfl | ⟨t, ht, hx⟩
    · simp
    · obtain ⟨pg, _, hpg⟩ := forall₂_left hh t ht
      refine hpg.lines_ok x ?_
      have : l.cols.isEmpty = false := by simpa using h.someCol
      unfold TPage.lines
      rw [this]
      unfold TPage.body at hx
      simp only [Bool.false_eq_true, if_false, List.mem_append, List.mem_cons] at hx ⊢
      tauto) h3 h4 h5
  have hloop : r.textLoop c none fuel 0 ⟨if r.buffer then r.lineCount else 0, fileLines (r.file.drop r.headerEnd)⟩ ⟨[], []⟩ =
      some (.ok ((⟨[], []⟩ : Pages).append (freePagesOf l pages))) := by
    cases hbuf : r.buffer with
    | true =>
      refine Reader.freeLoop_buffered hbuf h2 hl h.someCol hc ended hh hne ?_ fuel 0 _ _ (by omega) ?_
      · intro h0 t ht
        rcases hb hbuf with h1 | h1
        · rw [hlen t ht, h1]
        · omega
      · rw [hbuf] at hstart
        rw [hstart]
        unfold Reader.tail
        rw [hbuf]
        simp
    | false =>
      have hstart' : fileLines (r.file.drop r.headerEnd) = (freeLines ended ts).map (· ++ [10]) := by
        rw [hbuf] at hstart
        unfold Reader.left Reader.source Reader.tail at hstart
        rw [hbuf] at hstart
        exact hstart
      rw [hstart']
      have := Reader.freeLoop_ok hbuf h2 hl h.someParam h.someCol hc ended hh hne (hm hbuf).2 false (hm hbuf).1 fuel 0 ⟨[], []⟩ (by omega)
      simpa using this
  unfold Reader.readText
  rw [if_neg (by simp)]
  simp only
  rw [hloop]
  have hp : concat (freePagesOf l pages).params = .ok (pages.map fun pg => [freeParamRecord l pg]) := by
    refine concat_same (n := 1) ?_
    intro x hx
    obtain ⟨y, _, rfl⟩ := List.mem_map.mp hx
    rfl
  have hc' : concat (freePagesOf l pages).cols = .ok (pages.map (rowRecords l)) := by
    unfold freePagesOf
    rw [filter_hasData h.someCol (by
      intro pg hpg h0
      have := hrows pg hpg
      rw [h0] at this
      simp at this
      omega)]
    refine concat_same (n := n) ?_
    intro x hx
    obtain ⟨pg, hpg, rfl⟩ := List.mem_map.mp hx
    unfold rowRecords
    rw [List.length_map, hrows pg hpg]
  simp only [Pages.append, List.nil_append, hp, hc', bind, Except.bind]

/-! ## Where it fails -/

theorem Reader.textTail_free {r : Reader} (hb : r.buffer = true) (hn : r.noRowCounts = true) (hcols : r.cols ≠ []) {c : Conv} {all w : Bool}
    {pd : List Arr} {acc1 acc' : Pages} {p1 p' : TPos} (h : r.textTail c all w pd acc1 p1 = .ok (acc', p')) :
    p1.position ≤ p'.position ∧ (acc'.cols = acc1.cols ∨ ∃ rows, acc'.cols = acc1.cols ++ [rows] ∧
      ([] ∈ (bufferLines r.file).drop p1.position → p1.position + 2 * rows.length ≤ p'.position ∧
        p1.position + rows.length + 1 ≤ (bufferLines r.file).length) ∧
      p1.position + rows.length ≤ p'.position ∧ (rows ≠ [] → p1.position + rows.length ≤ (bufferLines r.file).length)) := by
  have hcount : r.textRowCount pd p1 = .ok (r.textRows p1) := by
    unfold Reader.textRowCount
    rw [if_neg hcols, hn]
    rfl
  have hrows : r.textRows p1 = if [] ∈ (bufferLines r.file).drop p1.position then
      some ((((bufferLines r.file).drop p1.position).takeWhile (· ≠ [])).length : Int) else none := by
    unfold Reader.textRows
    rw [hb]
    rfl
  obtain ⟨-, ⟨rfl, h6⟩ | ⟨rc, a, h6, h7, h8⟩⟩ := Reader.textTail_split h
  · exact ⟨h6, Or.inl rfl⟩
  · rw [hcount, hrows] at h6
    unfold Reader.textCols at h7
    cases h1 : genfromtxt c true (r.colKeys.headD []) rc ((r.source p1).drop p1.position) with
    | error e => rw [h1] at h7; cases h7
    | ok y =>
      rw [h1] at h7
      obtain ⟨y1, y2⟩ := y
      simp only [bind, Except.bind, hb, if_true, Except.ok.injEq, Prod.mk.injEq] at h7
      obtain ⟨rfl, rfl⟩ := h7
      obtain ⟨l1, l2⟩ := genfromtxt_length h1
      unfold Reader.source at l1
      rw [hb] at l1
      simp only [if_true, List.length_drop] at l1
      refine ⟨by simp only; omega, Or.inr ⟨y1.rows, h8, ?_, by simp only; omega, ?_⟩⟩
      · intro hmem
        rw [if_pos hmem] at h6
        simp only [Except.ok.injEq] at h6
        have h9 := l2 _ h6.symm
        have h10 : (((bufferLines r.file).drop p1.position).takeWhile (· ≠ [])).length < ((bufferLines r.file).drop p1.position).length := by
          generalize (bufferLines r.file).drop p1.position = ls at hmem
          clear h6 h9 l1
          induction ls with
          | nil => cases hmem
          | cons x xs ih =>
            by_cases hx : x = []
            · rw [List.takeWhile_cons_of_neg (by simp [hx])]
              simp
            · rw [List.takeWhile_cons_of_pos (by simp [hx])]
              have := ih ((List.mem_cons.1 hmem).resolve_left (Ne.symm hx))
              simp only [List.length_cons]
              omega
        rw [List.length_drop] at h10
        rw [← h6]
        simp only [Option.getD_some, Int.toNat_natCast]
        omega
      · intro hne
        have hpos := List.length_pos_of_ne_nil hne
        omega

/-- If a buffered reader returns `m` pages of `n` rows each, the file is longer than it should be. -/
theorem Reader.freeLoop_pos {r : Reader} (hb : r.buffer = true) (hn : r.noRowCounts = true) (hcols : r.cols ≠ []) {c : Conv} (n e : Nat) (hpos : 0 < n)
    (he : e ≤ 1) (hB : ∀ q, [] ∉ (bufferLines r.file).drop q → (bufferLines r.file).length ≤ q + (r.paramKeys.length + n) ∧
      (q < (bufferLines r.file).length → e = 0)) :
    ∀ (fuel k : Nat) (p : TPos) (acc out : Pages), r.textLoop c none fuel k p acc = some (.ok out) →
    ∃ new, out.cols = acc.cols ++ new ∧ (new ≠ [] → (∀ rows ∈ new, rows.length = n) →
      p.position + new.length * r.paramKeys.length + (2 * new.length - 1) * n + e ≤ (bufferLines r.file).length) := by
  intro fuel
  induction fuel with
  | zero => intro k p acc out h; cases h
  | succ fuel ih =>
    intro k p acc out h
    unfold Reader.textLoop at h
    rw [if_neg (by simp [pastPages])] at h
    by_cases h2 : r.textEnd p = true
    · rw [if_pos h2] at h
      cases h
      exact ⟨[], by simp, fun hne => absurd rfl hne⟩
    · rw [if_neg h2] at h
      cases h3 : r.textPage c (none : Option (List Nat)).isNone (wantedPage none k) p acc with
      | error e => rw [h3] at h; cases h
      | ok x =>
        obtain ⟨acc', p'⟩ := x
        rw [h3] at h
        obtain ⟨new, e1, e2⟩ := ih _ _ _ _ h
        obtain ⟨pd, p1, acc1, g1, g2, _, g4⟩ := Reader.textPage_split h3
        have hp1 : p1.position = p.position + r.paramKeys.length := Reader.textParams_pos hb _ _ _ _ g1
        have hacc : acc1.cols = acc.cols := by
          obtain ⟨pg, _, rfl⟩ := g2 rfl
          rfl
        obtain ⟨a1, a2 | ⟨rows, a2, a3, a4, a5⟩⟩ := Reader.textTail_free hb hn hcols g4
        · refine ⟨new, by rw [e1, a2, hacc], fun hne hall => ?_⟩
          have := e2 hne hall
          omega
        · refine ⟨rows :: new, by rw [e1, a2, hacc]; simp, fun _ hall => ?_⟩
          have hr := hall rows (by simp)
          have hrne : rows ≠ [] := by
            rintro rfl
            simp at hr
            omega
          have a5 := a5 hrne
          by_cases hmem : [] ∈ (bufferLines r.file).drop p1.position
          · obtain ⟨a3, a6⟩ := a3 hmem
            by_cases hnew : new = []
            · subst hnew
              simp only [List.length_cons, List.length_nil]
              omega
            · have := e2 hnew fun x hx => hall x (by simp [hx])
              obtain ⟨q, hq⟩ : ∃ q, new.length = q + 1 := ⟨new.length - 1, by
                have := List.length_pos_of_ne_nil hnew
                omega⟩
              simp only [List.length_cons]
              rw [hq] at this ⊢
              rw [show 2 * (q + 1) - 1 = 2 * q + 1 by omega] at this
              rw [show 2 * (q + 1 + 1) - 1 = 2 * q + 1 + 2 by omega]
              rw [Nat.add_mul (2 * q + 1) 2 n, Nat.add_mul (q + 1) 1 r.paramKeys.length]
              rw [hr] at a3
              omega
          · obtain ⟨b1, b2⟩ := hB _ hmem
            have b2 := b2 (by omega)
            by_cases hnew : new = []
            · subst hnew
              simp only [List.length_cons, List.length_nil]
              omega
            · exfalso
              have := e2 hnew fun x hx => hall x (by simp [hx])
              obtain ⟨q, hq⟩ : ∃ q, new.length = q + 1 := ⟨new.length - 1, by
                have := List.length_pos_of_ne_nil hnew
                omega⟩
              rw [hq, show 2 * (q + 1) - 1 = 2 * q + 1 by omega, Nat.add_mul q 1, Nat.add_mul (2 * q) 1] at this
              omega

theorem freeLines_last {ended : Bool} {ts : List TPage} (h : 2 ≤ ts.length) {m : Nat} (hm : ∀ t ∈ ts, t.body.length = m) :
    ∃ pre last, freeLines ended ts = pre ++ [] :: (last ++ if ended then [[]] else []) ∧ last.length = m ∧
      (freeLines ended ts).length = ts.length * m + (ts.length - 1) + if ended then 1 else 0 := by
  induction ts with
  | nil => simp at h
  | cons t ts ih =>
    cases ts with
    | nil => simp at h
    | cons t' ts =>
      cases ts with
      | nil =>
        refine ⟨t.body, t'.body, rfl, hm t' (by simp), ?_⟩
        rw [freeLines, freeLines]
        simp only [List.length_append, List.length_cons, hm t (by simp), hm t' (by simp), List.length_nil]
        cases ended <;> simp <;> omega
      | cons t'' ts =>
        obtain ⟨pre, last, h1, h2, h3⟩ := ih (by simp) fun x hx => hm x (by simp [hx])
        refine ⟨t.body ++ [] :: pre, last, ?_, h2, ?_⟩
        · rw [freeLines, h1]
          simp
        · rw [freeLines, List.length_append, List.length_cons, h3, hm t (by simp)]
          simp only [List.length_cons]
          rw [Nat.add_mul (ts.length + 1 + 1) 1]
          omega

/-- **C145 is false for buffered files.** With two pages or more and two rows or more on each page, a buffered reader never returns as many pages of `n` rows
as the file has. -/
theorem free_buffered_fails {ft : FloatText} {d : Doc} {l : Layout} (h : d.AnnouncesFree ft l) (c : Conv)
    {ts : List TPage} {pages : List Page} {maxStr : Nat} (hh : List.Forall₂ (fun t pg => t.Holds c maxStr l pg) ts pages) {n : Nat} (hn : 2 ≤ n)
    (hrows : ∀ pg ∈ pages, pg.rows.length = n) (hpages : 2 ≤ pages.length) (ended : Bool) {fuel : Nat}
    (hfuel : d.comments.length + d.namelists.length + 2 ≤ fuel) :
    ∃ r, openSdds ft fuel true maxStr (freeFile d ended ts) = some (.ok r) ∧
      ∀ fuel' ps, r.readText c fuel' none ≠ some (.ok ⟨ps, pages.map (rowRecords l)⟩) := by
  obtain ⟨r, h1, h2, h3, h4, h5, h6, h7⟩ := open_free h (asLines (freeLines ended ts)) (fuel := fuel) (by omega) true maxStr
  refine ⟨r, h1, ?_⟩
  intro fuel' ps hr
  subst h7
  have hloop := Reader.readText_pages hr
  have hcols : r.cols ≠ [] := by
    intro h0
    have := h2.cols
    rw [h0] at this
    exact h.someCol (List.map_eq_nil_iff.1 this.symm)
  have hts : 2 ≤ ts.length := by rw [hh.length_eq]; exact hpages
  have hbody : ∀ t ∈ ts, t.body.length = l.params.length + n := by
    intro t ht
    obtain ⟨pg, hpg, g⟩ := forall₂_left hh t ht
    unfold TPage.body
    rw [List.length_append, List.length_map, (AllDenote.length g.params).1, ← g.length, hrows pg hpg]
  obtain ⟨pre, last, g1, g2, g3⟩ := freeLines_last (ended := ended) hts hbody
  have hbuf : bufferLines r.file = headLines d ++ freeLines ended ts := by
    have hok : ∀ x ∈ freeLines ended ts, ((10 : UInt8) ∉ x ∧ (13 : UInt8) ∉ x) ∧ (33 : UInt8) ∉ x := by
      intro x hx
      rcases freeLines_mem hx with rfl | ⟨t, ht, hx⟩
      · simp
      · obtain ⟨pg, _, hpg⟩ := forall₂_left hh t ht
        refine hpg.lines_ok x ?_
        have : l.cols.isEmpty = false := by simpa using h.someCol
        unfold TPage.lines
        rw [this]
        unfold TPage.body at hx
        simp only [Bool.false_eq_true, if_false, List.mem_append, List.mem_cons] at hx ⊢
        tauto
    rw [h3, bufferLines_file h.ok h.noReturn (fun x hx => (hok x hx).1) fun x hx => notComment_mem (hok x hx).2]
  have hhead : (headLines d).length = d.namelists.length + 2 := by simp [headLines]
  have hkeys : r.paramKeys.length = l.params.length := by rw [h2.paramKeys, List.length_map]
  have hT : (bufferLines r.file).length = d.namelists.length + 2 + (ts.length * (l.params.length + n) + (ts.length - 1) + if ended then 1 else 0) := by
    rw [hbuf, List.length_append, hhead, g3]
  obtain ⟨new, e1, e2⟩ := Reader.freeLoop_pos h6 h2.counts hcols n (if ended then 1 else 0) (by omega) (by cases ended <;> simp) (by
    intro q hq
    have hdec : bufferLines r.file = (headLines d ++ pre) ++ [] :: (last ++ if ended then [[]] else []) := by
      rw [hbuf, g1, List.append_assoc]
    rw [hkeys]
    have hlen : (bufferLines r.file).length = (headLines d ++ pre).length + 1 + (l.params.length + n) + if ended then 1 else 0 := by
      rw [hdec]
      simp only [List.length_append, List.length_cons, g2]
      cases ended <;> simp <;> omega
    have hq1 : (headLines d ++ pre).length < q := by
      by_contra hc
      apply hq
      rw [hdec, List.drop_append_of_le_length (by omega)]
      simp
    cases ended with
    | false =>
      simp only [Bool.false_eq_true, if_false] at hlen
      exact ⟨by omega, fun _ => rfl⟩
    | true =>
      have : (bufferLines r.file).length ≤ q := by
        by_contra hc
        apply hq
        have : bufferLines r.file = ((headLines d ++ pre) ++ [] :: last) ++ [[]] := by
          rw [hdec]
          simp
        rw [this] at hc ⊢
        rw [List.length_append, List.length_singleton] at hc
        rw [List.drop_append_of_le_length (by omega)]
        simp
      omega) _ _ _ _ _ hloop
  simp only [List.nil_append] at e1
  have hne : new ≠ [] := by
    rw [← e1]
    intro h0
    rw [List.map_eq_nil_iff] at h0
    rw [h0] at hpages
    simp at hpages
  have hall : ∀ rows ∈ new, rows.length = n := by
    rw [← e1]
    intro rows hrow
    obtain ⟨pg, hpg, rfl⟩ := List.mem_map.mp hrow
    unfold rowRecords
    rw [List.length_map, hrows pg hpg]
  have hlen : new.length = ts.length := by
    rw [← e1, List.length_map]
    exact hh.length_eq.symm
  have := e2 hne hall
  rw [hT, hkeys, hlen, h6] at this
  simp only [if_true, h5] at this
  obtain ⟨q, hq⟩ : ∃ q, ts.length = q + 2 := ⟨ts.length - 2, by omega⟩
  rw [hq, show 2 * (q + 2) - 1 = 2 * q + 3 by omega] at this
  have e3 : (q + 2) * (l.params.length + n) = (q + 2) * l.params.length + (q + 2) * n := Nat.mul_add _ _ _
  have e4 : (2 * q + 3) * n = (q + 2) * n + (q + 1) * n := by rw [← Nat.add_mul]; congr 1; omega
  have e5 : (q + 1) * 2 ≤ (q + 1) * n := Nat.mul_le_mul_left _ hn
  omega

theorem genRows_bad {white : Bool} {nb : Nat} {bad : Bytes} {more : List Bytes} (hb0 : fieldsOf white bad ≠ []) (hb : (fieldsOf white bad).length ≠ nb) :
    ∀ (ls : List Bytes) (mx : Nat), (∀ x ∈ ls, fieldsOf white x = [] ∨ (fieldsOf white x).length = nb) →
    (ls.filter fun x => fieldsOf white x ≠ []).length < mx → (genRows white nb (some mx) (ls ++ bad :: more)).2.1 = true := by
  intro ls
  induction ls with
  | nil =>
    intro mx _ _
    rw [List.nil_append, genRows]
    simp only [if_neg hb0, if_pos hb]
  | cons x ls ih =>
    intro mx h hmx
    rw [List.cons_append, genRows]
    by_cases h0 : fieldsOf white x = []
    · simp only [h0, if_true]
      refine ih mx (fun y hy => h y (by simp [hy])) ?_
      rwa [List.filter_cons_of_neg (by simp [h0])] at hmx
    · have h1 := (h x (by simp)).resolve_left h0
      rw [List.filter_cons_of_pos (by simp [h0]), List.length_cons] at hmx
      simp only [if_neg h0, h1, ne_eq, not_true_eq_false, if_false]
      rw [if_neg (by simp; omega)]
      exact ih (mx - 1) (fun y hy => h y (by simp [hy])) (by omega)

/-- **C145, comments.** A comment line among the rows of a page is counted as a row. Without buffer, reading a file with a comment among the rows
of the first page raises ValueError if the first line of the next page has another number of words than there are columns. The parameters of the first page
are kept for later calls, its rows are not. -/
theorem free_comment_fails {ft : FloatText} {d : Doc} {l : Layout} (h : d.AnnouncesFree ft l) (hl : l.TextOk) (c : Conv) {maxStr : Nat}
    {t : TPage} {pg : Page} (hh : t.Holds c maxStr l pg) {before after : List (List Bytes)} (hrows : t.rows = before ++ after) (hne : t.rows ≠ [])
    (hfirst : t.FirstFrom 1) {comment : Bytes} (hcom : comment.head? = some 33) (hcom' : 10 ∉ comment) {ws : List Bytes} (hws : ws ≠ [])
    (hwords : ∀ s ∈ ws, WordText s) (hother : ws.length ≠ l.cols.length) {more : List Bytes} (hmore : ∀ x ∈ more, 10 ∉ x) {fuel : Nat}
    (hfuel : d.comments.length + d.namelists.length + 2 ≤ fuel) :
    ∃ r, openSdds ft fuel false maxStr (utf8 d.text ++ asLines (t.params ++ (before.map ([(32 : UInt8)].intercalate ·) ++
        comment :: (after.map ([(32 : UInt8)].intercalate ·) ++ [] :: [(32 : UInt8)].intercalate ws :: more)))) = some (.ok r) ∧
      ∀ fuel', 0 < fuel' → r.readText c fuel' none = some (.error .valueError) ∧
        r.call c fuel' ⟨[], []⟩ none = some (⟨[[freeParamRecord l pg]], []⟩, .error .valueError) := by
  obtain ⟨r, h1, h2, h3, h4, h5, h6, h7⟩ := open_free h (asLines (t.params ++ (before.map ([(32 : UInt8)].intercalate ·) ++
        comment :: (after.map ([(32 : UInt8)].intercalate ·) ++ [] :: [(32 : UInt8)].intercalate ws :: more)))) (fuel := fuel) hfuel false maxStr
  refine ⟨r, h1, ?_⟩
  intro fuel' hf'
  subst h7
  have htail : r.tail = [10] := by unfold Reader.tail; rw [h6]; rfl
  have hcols : r.cols ≠ [] := by
    intro h0
    have := h2.cols
    rw [h0] at this
    exact h.someCol (List.map_eq_nil_iff.1 this.symm)
  have hword10 : ∀ vs : List Bytes, (∀ s ∈ vs, WordText s) → (10 : UInt8) ∉ [(32 : UInt8)].intercalate vs := by
    intro vs hvs hmem
    rcases row_mem vs 10 hmem with h0 | ⟨s, hs, h0⟩
    · exact absurd h0 (by decide)
    · have := (hvs s hs).noSpace 10 h0
      revert this
      decide
  have hrt : ∀ vs ∈ before ++ after, vs ≠ [] ∧ vs.length = l.cols.length ∧ ∀ s ∈ vs, WordText s := by
    intro vs hvs
    rw [← hrows] at hvs
    obtain ⟨row, _, g⟩ := forall₂_left hh.rows vs hvs
    have g2 := (AllLoose.length g.loose).1
    refine ⟨?_, g2, hh.rowText vs hvs⟩
    rintro rfl
    exact h.someCol (List.length_eq_zero_iff.1 g2.symm)
  have hlines : ∀ x ∈ t.params ++ (before.map ([(32 : UInt8)].intercalate ·) ++
        comment :: (after.map ([(32 : UInt8)].intercalate ·) ++ [] :: [(32 : UInt8)].intercalate ws :: more)), (10 : UInt8) ∉ x := by
    intro x hx
    simp only [List.mem_append, List.mem_cons, List.mem_map] at hx
    rcases hx with hx | ⟨vs, hvs, rfl⟩ | rfl | ⟨vs, hvs, rfl⟩ | rfl | rfl | hx
    · exact (hh.paramText x hx).oneLine.1
    · exact hword10 vs (hrt vs (by simp [hvs])).2.2
    · exact hcom'
    · exact hword10 vs (hrt vs (by simp [hvs])).2.2
    · simp
    · exact hword10 ws hwords
    · exact hmore x hx
  have hstart : fileLines (r.file.drop r.headerEnd) = t.params.map (· ++ r.tail) ++ (before.map (rowLine [10]) ++
      (comment ++ [10]) :: (after.map (rowLine [10]) ++ [10] :: rowLine [10] ws :: more.map (· ++ [10]))) := by
    rw [h3, h4, List.drop_left, fileLines_asLines _ hlines, htail]
    simp only [List.map_append, List.map_cons, List.map_map]
    rfl
  have hcomf : fieldsOf true (comment ++ [10]) = [] := by
    cases comment with
    | nil => cases hcom
    | cons b s =>
      simp only [List.head?_cons, Option.some.injEq] at hcom
      subst hcom
      rfl
  have hblank : fieldsOf true [10] = [] := by decide
  have hwsf : fieldsOf true (rowLine [10] ws) = ws := fieldsOf_row hws hwords [10] (Or.inr rfl)
  have hrow : ∀ vs ∈ before ++ after, fieldsOf true (rowLine [10] vs) = vs := fun vs hvs =>
    fieldsOf_row (hrt vs hvs).1 (hrt vs hvs).2.2 [10] (Or.inr rfl)
  let good : List Bytes := before.map (rowLine [10]) ++ (comment ++ [10]) :: (after.map (rowLine [10]) ++ [[10]])
  have hsplit : before.map (rowLine [10]) ++ (comment ++ [10]) :: (after.map (rowLine [10]) ++ [10] :: rowLine [10] ws :: more.map (· ++ [10])) =
      good ++ rowLine [10] ws :: more.map (· ++ [10]) := by simp [good]
  have hgood : ∀ x ∈ good, fieldsOf true x = [] ∨ (fieldsOf true x).length = l.cols.length := by
    intro x hx
    simp only [good, List.mem_append, List.mem_cons, List.mem_map, List.not_mem_nil, or_false] at hx
    rcases hx with ⟨vs, hvs, rfl⟩ | rfl | ⟨vs, hvs, rfl⟩ | rfl
    · rw [hrow vs (by simp [hvs])]; exact Or.inr (hrt vs (by simp [hvs])).2.1
    · exact Or.inl hcomf
    · rw [hrow vs (by simp [hvs])]; exact Or.inr (hrt vs (by simp [hvs])).2.1
    · exact Or.inl hblank
  have hfilter : good.filter (fun x => fieldsOf true x ≠ []) = (before ++ after).map (rowLine [10]) := by
    have hf : ∀ vs : List (List Bytes), (∀ v ∈ vs, v ∈ before ++ after) →
        (vs.map (rowLine [10])).filter (fun x => fieldsOf true x ≠ []) = vs.map (rowLine [10]) := by
      intro vs hvs
      rw [List.filter_eq_self]
      intro x hx
      obtain ⟨v, hv, rfl⟩ := List.mem_map.1 hx
      rw [hrow v (hvs v hv)]
      simpa using (hrt v (hvs v hv)).1
    simp only [good]
    rw [List.filter_append, List.filter_cons_of_neg (by simp [hcomf]), List.filter_append, List.filter_cons_of_neg (by simp [hblank]),
      hf before (fun v hv => by simp [hv]), hf after (fun v hv => by simp [hv])]
    simp
  have hfc : firstCount true (good ++ rowLine [10] ws :: more.map (· ++ [10])) = l.cols.length := by
    unfold firstCount
    have hex : ∃ x ∈ good, fieldsOf true x ≠ [] := by
      obtain ⟨v, hv⟩ := List.exists_mem_of_ne_nil _ hne
      rw [hrows] at hv
      have : rowLine [10] v ∈ good.filter (fun x => fieldsOf true x ≠ []) := by rw [hfilter]; exact List.mem_map_of_mem hv
      rw [List.mem_filter] at this
      exact ⟨_, this.1, by simpa using this.2⟩
    rw [List.map_append, List.find?_append]
    cases hfind : (good.map (fieldsOf true)).find? (fun f => f ≠ []) with
    | none =>
      obtain ⟨x, hx, hx'⟩ := hex
      have := List.find?_eq_none.1 hfind (fieldsOf true x) (List.mem_map_of_mem hx)
      simp at this
      exact absurd this hx'
    | some f =>
      have h8 := List.mem_of_find?_eq_some hfind
      have h9 := List.find?_some hfind
      obtain ⟨x, hx, rfl⟩ := List.mem_map.1 h8
      simp only [Option.some_or, Option.getD_some]
      exact (hgood x hx).resolve_left (by simpa using h9)
  obtain ⟨p1, e1, e2, e3⟩ := Reader.textParams_ok (r := r) (c := c) (good ++ rowLine [10] ws :: more.map (· ++ [10])) l.params t.params pg.params
    hl.params hh.paramText hh.params [] ⟨0, fileLines (r.file.drop r.headerEnd)⟩ (fun _ => rfl) (by
      unfold Reader.left Reader.source
      rw [h6, hstart, hsplit]
      rfl)
  have hp1 : p1 = ⟨0, good ++ rowLine [10] ws :: more.map (· ++ [10])⟩ := by
    have h0 := e2 h6
    unfold Reader.left Reader.source at e3
    rw [h6, h0] at e3
    obtain ⟨a, b⟩ := p1
    simp only at h0
    subst h0
    simpa using e3
  have hcount : r.textRowCount (List.zipWith (pArr r.maxStr) l.params pg.params) p1 = .ok (some ((t.rows.length + 1 : Nat) : Int)) := by
    unfold Reader.textRowCount Reader.textRows
    rw [if_neg hcols, h2.counts, h6, hp1, ← hsplit]
    simp only [Bool.not_true, Bool.false_eq_true, if_false, Except.ok.injEq, Option.some.injEq, Nat.cast_inj]
    rw [List.takeWhile_append_of_pos, List.takeWhile_cons_of_pos, List.takeWhile_append_of_pos, List.takeWhile_cons_of_neg]
    · rw [hrows]
      simp
      omega
    · decide
    · intro x hx
      obtain ⟨v, hv, rfl⟩ := List.mem_map.1 hx
      rw [(rowLine_space (hrt v (by simp [hv])).1 (hrt v (by simp [hv])).2.2 [10]).1]
      rfl
    · cases comment with
      | nil => cases hcom
      | cons b s =>
        simp only [List.head?_cons, Option.some.injEq] at hcom
        subst hcom
        rw [List.cons_append, List.all_cons]
        rfl
    · intro x hx
      obtain ⟨v, hv, rfl⟩ := List.mem_map.1 hx
      rw [(rowLine_space (hrt v (by simp [hv])).1 (hrt v (by simp [hv])).2.2 [10]).1]
      rfl
  have hgen : genfromtxt c true (l.cols.map (tKey r.maxStr)) (some ((t.rows.length + 1 : Nat) : Int)) (good ++ rowLine [10] ws :: more.map (· ++ [10])) =
      .error .valueError := by
    unfold genfromtxt
    rw [if_neg (by simp), easyDtype_kept]
    · simp only [bind, Except.bind, hfc]
      rw [show Option.map Int.toNat (some ((t.rows.length + 1 : Nat) : Int)) = some (t.rows.length + 1) by simp,
        genRows_bad (by rw [hwsf]; exact hws) (by rw [hwsf]; exact hother) good _ hgood (by
          rw [hfilter, List.length_map, ← hrows]
          omega)]
      rfl
    · intro k hk'
      obtain ⟨f, _, rfl⟩ := List.mem_map.mp hk'
      exact tKey_known _ f
    · intro k hk'
      obtain ⟨f, hf, rfl⟩ := List.mem_map.mp hk'
      exact hl.cols f hf
    · rw [List.map_map]
      exact hl.ok.2.2.1
  have hm := textMerge_ok hh.params (List.nodup_cons.1 hl.ok.1).2 (by
    intro hmem
    have := (pFields_names hl).2
    unfold pFields at this
    rw [List.map_append, List.mem_append] at this
    exact this (Or.inl hmem))
  have hpage : r.textPage c true true ⟨0, fileLines (r.file.drop r.headerEnd)⟩ ⟨[], []⟩ = .error .valueError := by
    unfold Reader.textPage
    rw [h2.paramKeys, e1]
    simp only [bind, Except.bind, List.nil_append, if_true, hm, hcount]
    rw [if_neg (by simp; omega), if_pos (by simp)]
    unfold Reader.textCols
    rw [h2.colKeys h.someCol, List.headD_cons, hp1]
    unfold Reader.source
    rw [h6]
    simp only [Bool.false_eq_true, if_false, List.drop_zero, hgen]
    rfl
  have hnot : r.textEnd ⟨0, fileLines (r.file.drop r.headerEnd)⟩ = false := by
    have hbody : ∃ rest, fileLines (r.file.drop r.headerEnd) = (⟨t.params, []⟩ : TPage).body.map (· ++ [10]) ++ rest :=
      ⟨_, by rw [hstart, htail]; simp [TPage.body]; rfl⟩
    obtain ⟨rest, hrest⟩ := hbody
    rw [hrest]
    exact (Reader.textEnd_first h6).1 hfirst
  obtain ⟨fuel', rfl⟩ : ∃ k, fuel' = k + 1 := ⟨fuel' - 1, by omega⟩
  have hloop : r.textLoop c none (fuel' + 1) 0 ⟨0, fileLines (r.file.drop r.headerEnd)⟩ ⟨[], []⟩ = some (.error .valueError) := by
    unfold Reader.textLoop
    rw [if_neg (by simp [pastPages]), hnot, if_neg (by simp)]
    have hpage' : r.textPage c (none : Option (List Nat)).isNone (wantedPage none 0) ⟨0, fileLines (r.file.drop r.headerEnd)⟩ ⟨[], []⟩ = _ := hpage
    rw [hpage']
  constructor
  · unfold Reader.readText
    rw [if_neg (by simp)]
    simp only [h6, Bool.false_eq_true, if_false]
    rw [hloop]
  have hkept : r.textKept c none (fuel' + 1) 0 ⟨0, fileLines (r.file.drop r.headerEnd)⟩ ⟨[], []⟩ =
      some (⟨[[freeParamRecord l pg]], []⟩, .error .valueError) := by
    unfold Reader.textKept
    rw [if_neg (by simp [pastPages]), hnot, if_neg (by simp)]
    have hpage' : r.textPage c (none : Option (List Nat)).isNone (wantedPage none 0) ⟨0, fileLines (r.file.drop r.headerEnd)⟩ ⟨[], []⟩ = _ := hpage
    rw [hpage']
    simp only [Option.some.injEq, Prod.mk.injEq, and_true]
    unfold Reader.textLeft
    rw [h2.paramKeys, e1]
    simp only [List.nil_append, hm, wantedPage, if_true]
    rfl
  unfold Reader.call
  rw [if_neg (by simp), h2.ascii, h6]
  simp only [Bool.false_eq_true, if_false, if_true, hkept]

/-- **C145, pages passed over.** The one page of a buffered file without an empty line at its end cannot be passed over: asking for other pages raises TypeError
instead of returning none. -/
theorem free_skip_fails {ft : FloatText} {d : Doc} {l : Layout} (h : d.AnnouncesFree ft l) (hl : l.TextOk) (c : Conv) {maxStr : Nat}
    {t : TPage} {pg : Page} (hh : t.Holds c maxStr l pg) (hne : t.rows ≠ []) {sel : List Nat} (hsel : sel ≠ []) (h0 : 0 ∉ sel) {fuel : Nat}
    (hfuel : d.comments.length + d.namelists.length + 2 ≤ fuel) :
    ∃ r, openSdds ft fuel true maxStr (freeFile d false [t]) = some (.ok r) ∧
      ∀ fuel', 0 < fuel' → r.readText c fuel' (some sel) = some (.error .typeError) := by
  obtain ⟨r, h1, h2, h3, h4, h5, h6, h7⟩ := open_free h (asLines (freeLines false [t])) (fuel := fuel) hfuel true maxStr
  refine ⟨r, h1, ?_⟩
  intro fuel' hf'
  subst h7
  have htail : r.tail = [] := by unfold Reader.tail; rw [h6]; rfl
  have hfree : freeLines false [t] = t.body := by simp [freeLines]
  have hstart := Reader.left_start h.ok h.noReturn (ls := freeLines false [t]) (r := r) (by
    intro x hx
    rw [hfree] at hx
    refine hh.lines_ok x ?_
    have : l.cols.isEmpty = false := by simpa using h.someCol
    unfold TPage.lines
    rw [this]
    unfold TPage.body at hx
    simp only [Bool.false_eq_true, if_false, List.mem_append, List.mem_cons] at hx ⊢
    tauto) h3 h4 h5
  rw [hfree, htail] at hstart
  have hcols : r.cols ≠ [] := by
    intro h0
    have := h2.cols
    rw [h0] at this
    exact h.someCol (List.map_eq_nil_iff.1 this.symm)
  have hwl : ∀ ws ∈ t.rows, ws ≠ [] := by
    intro ws hws
    obtain ⟨row, _, h1⟩ := forall₂_left hh.rows ws hws
    have h2 := (AllLoose.length h1.loose).1
    rintro rfl
    exact h.someCol (List.length_eq_zero_iff.1 h2.symm)
  obtain ⟨p1, e1, e2, e3⟩ := Reader.textParams_ok (r := r) (c := c) (t.rows.map (rowLine r.tail)) l.params t.params pg.params
    hl.params hh.paramText hh.params [] ⟨if r.buffer then r.lineCount else 0, fileLines (r.file.drop r.headerEnd)⟩
    (fun hf => by rw [h6] at hf; cases hf) (by
      rw [hstart, htail]
      simp [TPage.body, rowLine])
  have hcount : r.textRowCount (List.zipWith (pArr r.maxStr) l.params pg.params) p1 = .ok none := by
    unfold Reader.textRowCount Reader.textRows
    unfold Reader.left Reader.source at e3
    rw [h6] at e3
    simp only [if_true] at e3
    rw [if_neg hcols, h2.counts, h6]
    simp only [Bool.not_true, Bool.false_eq_true, if_false, if_true, e3, htail]
    rw [if_neg]
    intro hmem
    obtain ⟨ws, hws, hx⟩ := List.mem_map.1 hmem
    have := (rowLine_space (hwl ws hws) (hh.rowText ws hws) []).2
    exact this hx
  obtain ⟨size, hsize⟩ := itemSize_ok (dk := l.cols.map (tKey r.maxStr)) (by
    intro k hk'
    obtain ⟨f, _, rfl⟩ := List.mem_map.mp hk'
    exact tKey_known _ f) (by
    rw [List.map_map]
    exact hl.ok.2.2.1)
  have hpage : r.textPage c false false ⟨if r.buffer then r.lineCount else 0, fileLines (r.file.drop r.headerEnd)⟩ ⟨[], []⟩ = .error .typeError := by
    unfold Reader.textPage
    rw [h2.paramKeys, e1]
    simp only [bind, Except.bind, List.nil_append, Bool.false_eq_true, if_false, hcount]
    rw [if_neg (by simp), if_neg (by simp), h2.colKeys h.someCol, List.headD_cons, hsize]
  have hnot : r.textEnd ⟨if r.buffer then r.lineCount else 0, fileLines (r.file.drop r.headerEnd)⟩ = false := by
    rw [Reader.textEnd_left h6, hstart]
    unfold TPage.body
    simp [hne]
  obtain ⟨fuel', rfl⟩ : ∃ k, fuel' = k + 1 := ⟨fuel' - 1, by omega⟩
  have hloop : r.textLoop c (some sel) (fuel' + 1) 0 ⟨if r.buffer then r.lineCount else 0, fileLines (r.file.drop r.headerEnd)⟩ ⟨[], []⟩ =
      some (.error .typeError) := by
    unfold Reader.textLoop
    rw [if_neg (by simp [pastPages]), hnot, if_neg (by simp)]
    have hw : wantedPage (some sel) 0 = false := by simpa [wantedPage] using h0
    rw [hw]
    have hpage' : r.textPage c (some sel).isNone false ⟨if r.buffer then r.lineCount else 0, fileLines (r.file.drop r.headerEnd)⟩ ⟨[], []⟩ = _ := hpage
    rw [hpage']
  unfold Reader.readText
  rw [if_neg (by simpa using hsel)]
  simp only
  rw [hloop]

/-! ## Examples -/

/-- One parameter and two columns, without row counts. -/
def exDocFree : Doc where
  comments := []
  namelists :=
    [⟨.param, [exAttr "name" "note", exAttr "type" "string"], 0⟩,
     ⟨.col, [exAttr "name" "x", exAttr "type" "double"], 1⟩,
     ⟨.col, [exAttr "name" "id", exAttr "type" "long"], 1⟩]
  data := [exAttr "mode" "ascii", exAttr "no_row_counts" "1"]

theorem exDocFree_announces : exDocFree.AnnouncesFree exText exLayoutT where
  ok := by decide +kernel
  noReturn := by decide +kernel
  mode := by decide +kernel
  counts := ⟨"1".toList, by decide +kernel, by decide +kernel⟩
  params := by decide +kernel
  cols := by decide +kernel
  fixed := by
    intro as has v hv
    have : as = [exAttr "name" "note", exAttr "type" "string"] := by
      simpa [exDocFree, Doc.attrsOf] using has
    subst this
    have h0 : attrVal [exAttr "name" "note", exAttr "type" "string"] "fixed_value".toList = none := by decide +kernel
    rw [h0] at hv; cases hv
  noLength := by decide +kernel
  someParam := by decide +kernel
  someCol := by decide +kernel

instance (k : Nat) (t : TPage) : Decidable (t.FirstFrom k) :=
  decidable_of_iff (t.params.head?.any fun s => (s.drop k).any fun b => !isSpaceByte b) (by
    unfold TPage.FirstFrom
    cases t.params.head? <;> simp)

example : ∃ r, openSdds exText 20 false 50 (freeFile exDocFree false exTexts) = some (.ok r) ∧
    r.readText exConv 20 none = some (.ok ⟨exPagesT.map fun pg => [freeParamRecord exLayoutT pg], exPagesT.map (rowRecords exLayoutT)⟩) :=
  free_read_partial exDocFree_announces exLayoutT_ok exConv_law exTexts_hold (n := 2) (by decide) (by decide) (by decide) false false
    (by simp) (fun _ => ⟨by decide, by decide⟩)

example : ∃ r, openSdds exText 20 true 50 (freeFile exDocFree true exTexts) = some (.ok r) ∧
    ∀ fuel' ps, r.readText exConv fuel' none ≠ some (.ok ⟨ps, exPagesT.map (rowRecords exLayoutT)⟩) :=
  free_buffered_fails exDocFree_announces exConv exTexts_hold (n := 2) (by decide) (by decide) (by decide) true (by decide)

/-- A comment between the two rows of the first page, and a parameter of three words on the next one. -/
example : ∃ r, openSdds exText 20 false 50 (utf8 exDocFree.text ++ asLines ([[97, 32, 98]] ++ ([[[49], [50]]].map ([(32 : UInt8)].intercalate ·) ++
      [33, 33] :: ([[[51], [45, 52]]].map ([(32 : UInt8)].intercalate ·) ++ [] :: [(32 : UInt8)].intercalate [[97], [98], [99]] :: [[49, 32, 50]])))) =
    some (.ok r) ∧ ∀ fuel', 0 < fuel' → r.readText exConv fuel' none = some (.error .valueError) ∧
      r.call exConv fuel' ⟨[], []⟩ none = some (⟨[[freeParamRecord exLayoutT
        ⟨[.str [97, 32, 98]], [[.num .double (intF64 1).toNat, .num .long 2], [.num .double (intF64 3).toNat, .num .long 4294967292]]⟩]], []⟩,
        .error .valueError) :=
  free_comment_fails exDocFree_announces exLayoutT_ok exConv (t := ⟨[[97, 32, 98]], [[[49], [50]], [[51], [45, 52]]]⟩)
    (pg := ⟨[.str [97, 32, 98]], [[.num .double (intF64 1).toNat, .num .long 2], [.num .double (intF64 3).toNat, .num .long 4294967292]]⟩)
    (by cases exTexts_hold; assumption) (before := [[[49], [50]]]) (after := [[[51], [45, 52]]]) rfl (by decide) (by decide) rfl (by decide)
    (by decide) (by decide) (by decide) (by decide) (by decide)

example : ∃ r, openSdds exText 20 true 50 (freeFile exDocFree false [⟨[[97, 32, 98]], [[[49], [50]], [[51], [45, 52]]]⟩]) = some (.ok r) ∧
    ∀ fuel', 0 < fuel' → r.readText exConv fuel' (some [2, 1]) = some (.error .typeError) :=
  free_skip_fails exDocFree_announces exLayoutT_ok exConv
    (pg := ⟨[.str [97, 32, 98]], [[.num .double (intF64 1).toNat, .num .long 2], [.num .double (intF64 3).toNat, .num .long 4294967292]]⟩)
    (by cases exTexts_hold; assumption) (by decide) (by decide) (by decide) (by decide)

end Verif.Sdds
