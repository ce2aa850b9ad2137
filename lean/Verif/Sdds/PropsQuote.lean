import Verif.Sdds.LemmasQuote

/-!
# Properties C02 and C12: double quotes inside of texts
-/

namespace Verif.Sdds

/-! ### Counting quotes -/

theorem count_moji {d : Char} (hd : d.toNat < 128) (v : Str) : (moji v).count d = v.count d := by
  induction v with
  | nil => rfl
  | cons c v ih =>
    rw [moji_cons, List.count_append, ih]
    by_cases hc : c.toNat < 128
    · rw [moji_ascii (s := [c]) (by intro x hx; rw [List.mem_singleton.1 hx]; exact hc), ← List.count_append]
      rfl
    · have h1 : d ≠ c := by
        rintro rfl
        exact hc hd
      rw [List.count_eq_zero_of_not_mem, Nat.zero_add, List.count_cons_of_ne (Ne.symm h1)]
      rw [mem_moji hd, List.mem_singleton]
      exact h1

theorem key_noQuote {k : Str} (h : k ∈ knownKeys) : k.count '"' = 0 := by
  revert k
  decide

theorem attr_count {a : Attr} (h : a.key ∈ knownKeys) : (a.text.count '"') % 2 = a.val.count '"' % 2 := by
  have hk := key_noQuote h
  unfold Attr.text
  cases hq : a.quoted
  · simp [List.count_append, hk]
  · simp [List.count_append, hk]
    omega

theorem attrs_count (as : List Attr) (h : ∀ a ∈ as, a.key ∈ knownKeys) :
    (as.flatMap Attr.text).count '"' % 2 = (as.flatMap Attr.val).count '"' % 2 := by
  induction as with
  | nil => rfl
  | cons a as ih =>
    rw [List.flatMap_cons, List.flatMap_cons, List.count_append, List.count_append]
    have h1 := attr_count (h a (by simp))
    have h2 := ih fun b hb => h b (by simp [hb])
    omega

theorem nlText_count {word : Str} (hw : word.count '"' = 0) (as : List Attr) (h : ∀ a ∈ as, a.key ∈ knownKeys) (pad : Nat) :
    (nlText word (as.map Attr.moji) pad).count '"' % 2 = (as.flatMap Attr.val).count '"' % 2 := by
  have h1 := attrs_count (as.map Attr.moji) (by
    intro a ha
    obtain ⟨b, hb, rfl⟩ := List.mem_map.1 ha
    exact h b hb)
  have h2 : ((as.map Attr.moji).flatMap Attr.val).count '"' = (as.flatMap Attr.val).count '"' := by
    clear h1 h
    induction as with
    | nil => rfl
    | cons a as ih =>
      rw [List.map_cons, List.flatMap_cons, List.flatMap_cons, List.count_append, List.count_append, ih]
      congr 1
      exact count_moji (by decide) _
  rw [nlText_eq]
  unfold nlBody
  rw [List.count_append, List.count_append, hw, List.count_cons_of_ne (by decide), List.count_append, List.count_append,
    List.count_replicate]
  have h3 : "&end".toList.count '"' = 0 := by decide
  have h4 : ['\n'].count '"' = 0 := by decide
  rw [h3, h4, if_neg (by decide)]
  omega

/-! ### Writers with any texts of one line without backslashes -/

/-- Text of one line without backslash; anything else may occur, double quotes too. -/
structure FlatText (s : Str) : Prop where
  line : '\n' ∉ s
  noEsc : '\\' ∉ s

structure WParam.Flat (ft : FloatText) (p : WParam) : Prop where
  name : FlatText p.name
  type : FlatText p.type
  units : FlatText p.units
  symbol : FlatText p.symbol
  formatStr : FlatText p.formatStr
  description : FlatText p.description
  fixed : FlatText (fixedText ft p.fixed)
  number : ∀ x, p.fixed = some (.float x) → (PyVal.float x).truthy = true → ft.fmt x ≠ []

structure WCol.Flat (c : WCol) : Prop where
  name : FlatText c.name
  type : FlatText c.type
  units : FlatText c.units
  symbol : FlatText c.symbol
  formatStr : FlatText c.formatStr
  description : FlatText c.description
  fieldLen : c.fieldLen = 0

/-- All texts of the header are of one line and have no backslash. -/
structure HeaderFlat (ft : FloatText) (w : Writer) : Prop where
  params : ∀ p ∈ w.params, p.Flat ft
  cols : ∀ c ∈ w.cols, c.Flat

/-- The texts of a definition, in the order they are written. -/
def WParam.texts (ft : FloatText) (p : WParam) : Str :=
  p.name ++ p.type ++ p.units ++ p.symbol ++ p.formatStr ++ p.description ++ fixedText ft p.fixed

/-- As `WParam.texts`. -/
def WCol.texts (c : WCol) : Str := c.name ++ c.type ++ c.units ++ c.symbol ++ c.formatStr ++ c.description

theorem optAttr_val (k : Str) (q : Bool) (v : Str) : (optAttr k q v).flatMap Attr.val = v := by
  unfold optAttr
  split_ifs with h
  · rw [h]; rfl
  · simp

theorem colAttrs_val (c : WCol) : (colAttrs c).flatMap Attr.val = c.texts := by
  unfold colAttrs WCol.texts
  simp only [List.flatMap_append, optAttr_val]

theorem fixedAttr_count (ft : FloatText) (o : Option PyVal) :
    ((fixedAttr ft o).flatMap Attr.val).count '"' % 2 = (fixedText ft o).count '"' % 2 := by
  cases o with
  | none => rfl
  | some v =>
    by_cases h : v.truthy = true
    · unfold fixedAttr fixedText
      simp only [h, if_true]
      cases v with
      | int i => simp
      | float x => simp
      | str s =>
        simp [List.count_append]
        omega
    · have h : v.truthy = false := by simpa using h
      simp [fixedAttr, fixedText, h]

theorem paramAttrs_count (ft : FloatText) (p : WParam) :
    ((paramAttrs ft p).flatMap Attr.val).count '"' % 2 = (p.texts ft).count '"' % 2 := by
  unfold paramAttrs WParam.texts
  simp only [List.flatMap_append, optAttr_val, List.count_append]
  have := fixedAttr_count ft p.fixed
  omega

theorem fixedAttr_sub {ft : FloatText} {o : Option PyVal} {a : Attr} (h : a ∈ fixedAttr ft o) {c : Char} (hc : c ∈ a.val) :
    c ∈ fixedText ft o := by
  cases o with
  | none => cases h
  | some v =>
    by_cases ht : v.truthy = true
    · unfold fixedText
      simp only [fixedAttr, ht, if_true] at h ⊢
      cases v with
      | int i => rw [List.mem_singleton.1 h] at hc; exact hc
      | float x => rw [List.mem_singleton.1 h] at hc; exact hc
      | str s => rw [List.mem_singleton.1 h] at hc; simp [hc]
    · have ht : v.truthy = false := by simpa using ht
      simp only [fixedAttr, ht, Bool.false_eq_true, if_false] at h
      cases h

theorem fixedAttr_key {ft : FloatText} {o : Option PyVal} {a : Attr} (h : a ∈ fixedAttr ft o) : a.key ∈ knownKeys := by
  cases o with
  | none => cases h
  | some v =>
    by_cases ht : v.truthy = true
    · simp only [fixedAttr, ht, if_true] at h
      cases v <;> (rw [List.mem_singleton.1 h]; exact (by decide : "fixed_value".toList ∈ knownKeys))
    · have ht : v.truthy = false := by simpa using ht
      simp only [fixedAttr, ht, Bool.false_eq_true, if_false] at h
      cases h

/-- Every entry of a definition has a known key and text as in `FlatText`. -/
theorem paramAttrs_flat {ft : FloatText} {p : WParam} (h : p.Flat ft) :
    ∀ a ∈ paramAttrs ft p, a.key ∈ knownKeys ∧ FlatText a.val := by
  intro a ha
  simp only [paramAttrs, List.mem_append] at ha
  rcases ha with (((((ha | ha) | ha) | ha) | ha) | ha) | ha
  · rw [mem_optAttr ha]; exact ⟨(by decide : "name".toList ∈ knownKeys), h.name⟩
  · rw [mem_optAttr ha]; exact ⟨(by decide : "type".toList ∈ knownKeys), h.type⟩
  · rw [mem_optAttr ha]; exact ⟨(by decide : "units".toList ∈ knownKeys), h.units⟩
  · rw [mem_optAttr ha]; exact ⟨(by decide : "symbol".toList ∈ knownKeys), h.symbol⟩
  · rw [mem_optAttr ha]; exact ⟨(by decide : "format_string".toList ∈ knownKeys), h.formatStr⟩
  · rw [mem_optAttr ha]; exact ⟨(by decide : "description".toList ∈ knownKeys), h.description⟩
  · exact ⟨fixedAttr_key ha, fun hc => h.fixed.line (fixedAttr_sub ha hc), fun hc => h.fixed.noEsc (fixedAttr_sub ha hc)⟩

theorem colAttrs_flat {c : WCol} (h : c.Flat) : ∀ a ∈ colAttrs c, a.key ∈ knownKeys ∧ FlatText a.val := by
  intro a ha
  simp only [colAttrs, List.mem_append] at ha
  rcases ha with ((((ha | ha) | ha) | ha) | ha) | ha
  · rw [mem_optAttr ha]; exact ⟨(by decide : "name".toList ∈ knownKeys), h.name⟩
  · rw [mem_optAttr ha]; exact ⟨(by decide : "type".toList ∈ knownKeys), h.type⟩
  · rw [mem_optAttr ha]; exact ⟨(by decide : "units".toList ∈ knownKeys), h.units⟩
  · rw [mem_optAttr ha]; exact ⟨(by decide : "symbol".toList ∈ knownKeys), h.symbol⟩
  · rw [mem_optAttr ha]; exact ⟨(by decide : "format_string".toList ∈ knownKeys), h.formatStr⟩
  · rw [mem_optAttr ha]; exact ⟨(by decide : "description".toList ∈ knownKeys), h.description⟩

theorem headerText_flat {ft : FloatText} {w : Writer} (h : HeaderFlat ft w) :
    headerText ft w "binary".toList = (docOf ft w).text := by
  have hp : w.params.map (paramLine ft) = w.params.map fun p => nlText "&parameter".toList (paramAttrs ft p) 0 :=
    List.map_congr_left fun p hp => paramLine_eq (h.params p hp).number
  have hc : w.cols.map colLine = w.cols.map fun c => nlText "&column".toList (colAttrs c) 1 :=
    List.map_congr_left fun c hc => colLine_eq (h.cols c hc).fieldLen
  unfold headerText Doc.text docOf
  rw [hp, hc, List.flatMap_append, List.flatMap_map, List.flatMap_map]
  exact assemble headBang rfl dataLine

theorem docOf_data (ft : FloatText) (w : Writer) : ∀ a ∈ (docOf ft w).data, a.Ok ∧ '&' ∉ a.val :=
  (docOf_ok (w := {}) ⟨by simp, by simp, by simp⟩ : (docOf ft {}).Ok).data

theorem docOf_entries {ft : FloatText} {w : Writer} (h : HeaderFlat ft w) :
    ∀ n ∈ (docOf ft w).namelists, ∀ a ∈ n.attrs, a.key ∈ knownKeys ∧ FlatText a.val := by
  intro n hn a ha
  rcases List.mem_append.mp hn with hn | hn
  · obtain ⟨p, hp, rfl⟩ := List.mem_map.mp hn
    exact paramAttrs_flat (h.params p hp) a ha
  · obtain ⟨c, hc, rfl⟩ := List.mem_map.mp hn
    exact colAttrs_flat (h.cols c hc) a ha

theorem docOf_flat {ft : FloatText} {w : Writer} (h : HeaderFlat ft w) : (docOf ft w).Flat := by
  refine ⟨?_, fun n hn a ha => ⟨(docOf_entries h n hn a ha).1, (docOf_entries h n hn a ha).2.line⟩, docOf_data ft w⟩
  intro c hc
  rw [List.mem_singleton.mp hc]
  exact ⟨by unfold Ascii; decide, by decide⟩

theorem nlText_noEsc {word : Str} (hw : '\\' ∉ word) {as : List Attr} (h : ∀ a ∈ as, a.key ∈ knownKeys ∧ '\\' ∉ a.val) (pad : Nat) :
    '\\' ∉ nlText word as pad := by
  rw [nlText_eq]
  unfold nlBody
  intro hc
  simp only [List.mem_append, List.mem_cons, List.mem_flatMap, List.mem_replicate] at hc
  rcases hc with (hc | hc | ⟨a, ha, hc⟩ | ⟨-, hc⟩ | hc) | hc
  · exact hw hc
  · exact absurd hc (by decide)
  · obtain ⟨h1, h2⟩ := h a ha
    have hk : '\\' ∉ a.key := by
      generalize a.key = k at h1
      revert k
      decide
    unfold Attr.text at hc
    cases hq : a.quoted <;> simp only [hq, Bool.false_eq_true, if_false, if_true, List.mem_append, List.mem_cons,
      List.not_mem_nil, or_false, Char.reduceEq, false_or] at hc <;> tauto
  · exact absurd hc (by decide)
  · exact absurd hc (by decide)
  · exact absurd hc (by decide)

/-- The lines that the reader takes apart, and that none has a backslash. -/
theorem header_lines {ft : FloatText} {w : Writer} (h : HeaderFlat ft w) (body : Bytes) {fuel : Nat}
    (hfuel : w.params.length + w.cols.length + 3 ≤ fuel) :
    ∃ hd, readHeader fuel (utf8 (headerText ft w "binary".toList) ++ body) = some (.ok hd) ∧
      (∀ nl ∈ hd.namelists, '\\' ∉ nl) ∧
      (∀ p ∈ w.params, nlText "&parameter".toList ((paramAttrs ft p).map Attr.moji) 0 ∈ hd.namelists) ∧
      ∀ c ∈ w.cols, nlText "&column".toList ((colAttrs c).map Attr.moji) 1 ∈ hd.namelists := by
  rw [headerText_flat h]
  refine ⟨_, readHeader_flat (docOf_flat h) body ?_, ?_, ?_, ?_⟩
  · simp only [docOf, List.length_append, List.length_map, List.length_cons, List.length_nil]
    omega
  · intro nl hn
    simp only [List.mem_append, List.map_map, List.mem_map, Function.comp, List.mem_singleton] at hn
    rcases hn with ⟨n, hn, rfl⟩ | rfl
    · refine nlText_noEsc ?_ ?_ _
      · have : ∀ k : NKind, '\\' ∉ k.word := by intro k; cases k <;> decide
        exact this _
      · intro a ha
        obtain ⟨b, hb, rfl⟩ := List.mem_map.1 ha
        obtain ⟨h1, h2⟩ := docOf_entries h n hn b hb
        exact ⟨h1, fun hc => h2.noEsc ((mem_moji (by decide) _).1 hc)⟩
    · show '\\' ∉ nlText "&data".toList [⟨"mode".toList, "binary".toList, false⟩] 0
      decide
  · intro p hp
    refine List.mem_append_left _ (List.mem_map.2 ⟨_, List.mem_map.2 ⟨⟨.param, paramAttrs ft p, 0⟩, ?_, rfl⟩, rfl⟩)
    exact List.mem_append_left _ (List.mem_map.2 ⟨p, hp, rfl⟩)
  · intro c hc
    refine List.mem_append_left _ (List.mem_map.2 ⟨_, List.mem_map.2 ⟨⟨.col, colAttrs c, 1⟩, ?_, rfl⟩, rfl⟩)
    exact List.mem_append_right _ (List.mem_map.2 ⟨c, hc, rfl⟩)

/-- **C02, double quotes are always lost.** If no text of a writer has a backslash or a line end, then a text with a double quote never
returns: whatever the reader holds for that text, after opening the file, has no double quote. -/
theorem quotes_never_return {env : Env} {w : Writer} (h : HeaderFlat env.ft w) (hs : stackRows w.cols ≠ none)
    {fuel : Nat} (hfuel : w.params.length + w.cols.length + 3 ≤ fuel) (buffer : Bool) (maxStr : Nat) {r : Reader}
    (ho : openSdds env.ft fuel buffer maxStr (saveBinary env w).1 = some (.ok r)) :
    (∀ n f, r.param n = .ok f → '"' ∉ f.units ∧ '"' ∉ f.symbol ∧ '"' ∉ f.description ∧ '"' ∉ f.formatString ∧
      ∀ s, f.fixed = some (.str s) → '"' ∉ s) ∧
    ∀ n f, r.col n = .ok f → '"' ∉ f.units ∧ '"' ∉ f.symbol ∧ '"' ∉ f.description ∧ '"' ∉ f.formatString := by
  obtain ⟨body, hb⟩ := saveBinary_starts env hs
  rw [hb] at ho
  obtain ⟨hd, p, h1, h2, -, h4, h5⟩ := openSdds_parts ho
  obtain ⟨hd', h1', hl, -⟩ := header_lines h body hfuel
  rw [h1'] at h1
  simp only [Option.some.injEq, Except.ok.injEq] at h1
  subst h1
  obtain ⟨a, b, -⟩ := parse_noQuote hd'.namelists hl _ _ (by simp) (by simp) h2
  constructor
  · intro n f hf
    have hm : f ∈ r.params := by
      unfold Reader.param lastParam at hf
      cases hg : (r.params.filter fun x => x.name = n).getLast? with
      | none => rw [hg] at hf; cases hf
      | some x =>
        rw [hg] at hf
        cases hf
        exact List.mem_of_mem_filter (List.mem_of_getLast? hg)
    rw [h4] at hm
    obtain ⟨-, q1, q2, q3, q4, -, q5⟩ := a f hm
    exact ⟨q2, q1, q3, q4, q5⟩
  · intro n f hf
    have hm : f ∈ r.cols := by
      unfold Reader.col lastCol at hf
      cases hg : (r.cols.filter fun x => x.name = n).getLast? with
      | none => rw [hg] at hf; cases hf
      | some x =>
        rw [hg] at hf
        cases hf
        exact List.mem_of_mem_filter (List.mem_of_getLast? hg)
    rw [h5] at hm
    obtain ⟨-, q1, q2, q3, q4, -⟩ := b f hm
    exact ⟨q2, q1, q3, q4⟩

/-- **C02, an odd number of double quotes.** If the texts of one definition have an odd number of double quotes, the file that is
written cannot be opened. -/
theorem odd_quotes_fail {env : Env} {w : Writer} (h : HeaderFlat env.ft w) (hs : stackRows w.cols ≠ none)
    {fuel : Nat} (hfuel : w.params.length + w.cols.length + 3 ≤ fuel) (buffer : Bool) (maxStr : Nat)
    (hodd : (∃ p ∈ w.params, (p.texts env.ft).count '"' % 2 = 1) ∨ ∃ c ∈ w.cols, c.texts.count '"' % 2 = 1) :
    ∃ e, openSdds env.ft fuel buffer maxStr (saveBinary env w).1 = some (.error e) := by
  obtain ⟨body, hb⟩ := saveBinary_starts env hs
  rw [hb]
  obtain ⟨hd, h1, hl, hp, hc⟩ := header_lines h body hfuel
  cases hx : openSdds env.ft fuel buffer maxStr (utf8 (headerText env.ft w "binary".toList) ++ body) with
  | none =>
    exfalso
    unfold openSdds at hx
    rw [h1] at hx
    cases hx
  | some x =>
    cases x with
    | error e => exact ⟨e, rfl⟩
    | ok r =>
      exfalso
      obtain ⟨hd', q, g1, g2, -⟩ := openSdds_parts hx
      rw [h1] at g1
      simp only [Option.some.injEq, Except.ok.injEq] at g1
      subst g1
      obtain ⟨-, -, hev⟩ := parse_noQuote hd.namelists hl _ _ (by simp) (by simp) g2
      rcases hodd with ⟨p, hpm, ho⟩ | ⟨c, hcm, ho⟩
      · have := hev _ (hp p hpm) (Or.inl (firstWord_nl "&parameter".toList (by decide) (by decide) _ _))
        rw [nlText_count (by decide) _ (fun a ha => (paramAttrs_flat (h.params p hpm) a ha).1), paramAttrs_count, ho] at this
        cases this
      · have := hev _ (hc c hcm) (Or.inr (firstWord_nl "&column".toList (by decide) (by decide) _ _))
        rw [nlText_count (by decide) _ (fun a ha => (colAttrs_flat (h.cols c hcm) a ha).1), colAttrs_val, ho] at this
        cases this

/-- **C12, the exact condition.** For a definition of entries that are words or text in quotes (any text but the double quote, not
ending with an odd number of backslashes, line ends only where the definition is read to its end, see `LinesOk`), as written to a file
and read from it line by line, the value of the last entry with a key is its text exactly if it is ASCII, has no two backslashes in a
row and does not end with a comma. -/
theorem quoted_verbatim_iff {word : Str} (hw : word ∈ ["&parameter".toList, "&column".toList, "&data".toList])
    (pre post : List Attr) (a : Attr) (hq : a.quoted = true) (h : ∀ b ∈ pre ++ a :: post, b.Wide)
    (hl : LinesOk ((pre ++ a :: post).map Attr.val))
    (hk : ∀ b ∈ post, b.key ≠ a.key) (pad fuel n : Nat) (hn : ((pre ++ a :: post).flatMap Attr.val).count '\n' < n) (rest : Bytes) :
    ∃ line b ls es, readLine (fuel + 1) (utf8 (nlText word (pre ++ a :: post) pad) ++ rest) = some (line, b) ∧
      readNamelist (fuel + 1) n line b = some (ls, rest) ∧
      shlexSplit (line ++ ls.flatten) = .ok es ∧ (getField a.key es = some a.val ↔ Kept a.val) := by
  have hw' : word ≠ [] ∧ (∀ c ∈ word, PlainChar c) ∧ (∀ n ∈ knownKeys, n.isPrefixOf word = false) ∧ word.head? = some '&' ∧
      ∀ d ∈ word, d.toNat < 128 ∧ d ≠ '\n' := by
    have : ∀ w ∈ ["&parameter".toList, "&column".toList, "&data".toList], w ≠ [] ∧ (∀ c ∈ w, PlainChar c) ∧
      (∀ n ∈ knownKeys, n.isPrefixOf w = false) ∧ w.head? = some '&' ∧ ∀ d ∈ w, d.toNat < 128 ∧ d ≠ '\n' := by decide +kernel
    exact this word hw
  obtain ⟨w1, w2, w3, w4, w5⟩ := hw'
  have ha := h a (by simp)
  have hkey : a.key ∈ knownKeys := ha.key
  have hbody := bodyOk_of_lines hw (fun b hb => (h b hb).key) hl pad
  obtain ⟨line, ls, b, r1, -, r3, r4, -⟩ : ∃ line ls b,
      (∀ fuel, readLine (fuel + 1) (utf8 (nlText word (pre ++ a :: post) pad) ++ rest) = some (line, b)) ∧ word <+: line ∧
      (∀ fuel n, ((pre ++ a :: post).flatMap Attr.val).count '\n' < n → readNamelist (fuel + 1) n line b = some (ls, rest)) ∧
      line ++ ls.flatten = nlText word ((pre ++ a :: post).map Attr.moji) pad ∧
      ls.length = ((pre ++ a :: post).flatMap Attr.val).count '\n' := by
    cases word with
    | nil => exact absurd rfl w1
    | cons c w =>
      refine read_definition ?_ w5 (fun b hb => (h b hb).key) hbody rest
      simp only [List.head?_cons, Option.some.injEq] at w4
      rw [w4]
      decide
  refine ⟨line, b, ls, _, r1 fuel, r3 fuel n hn, (congrArg shlexSplit r4).trans (shlex_wide word w1 w2 _ h pad), ?_⟩
  · rw [getField_wide hkey (w3 _ hkey) _ h]
    have hv : attrVal ((pre ++ a :: post).map Attr.held) a.key = some (heldText a.val) := by
      unfold attrVal
      have hpost : (post.map Attr.held).filter (fun b => b.key = a.key) = [] := by
        refine List.filter_eq_nil_iff.mpr fun b hb => ?_
        obtain ⟨x, hx, rfl⟩ := List.mem_map.1 hb
        exact fun he => hk x hx (of_decide_eq_true he)
      rw [List.map_append, List.map_cons, List.filter_append, List.filter_cons_of_pos (by simp [Attr.held]), hpost]
      simp [Attr.held, hq]
    have hval : QuotedText a.val := by
      have := ha.val
      rw [if_pos hq] at this
      exact this
    rw [hv, Option.some.injEq]
    exact heldText_iff hval

/-- Backslashes that are not in a row and line ends are kept, and the comma at the end is not. -/
example : ∃ line b ls es,
    readLine 1 (utf8 (nlText "&column".toList [exAttr "name" "x", ⟨"units".toList, "a\\b\nc,".toList, true⟩] 1) ++ []) =
      some (line, b) ∧ readNamelist 1 2 line b = some (ls, []) ∧
      shlexSplit (line ++ ls.flatten) = .ok es ∧ getField "units".toList es ≠ some "a\\b\nc,".toList := by
  obtain ⟨line, b, ls, es, h1, h2, h3, h4⟩ := quoted_verbatim_iff (word := "&column".toList) (by decide) [exAttr "name" "x"] []
    ⟨"units".toList, "a\\b\nc,".toList, true⟩ rfl (by
      intro b hb
      simp only [List.cons_append, List.nil_append, List.mem_cons, List.not_mem_nil, or_false] at hb
      rcases hb with rfl | rfl
      · exact Attr.Ok.wide (by decide +kernel)
      · exact QuotedText.wide ⟨by decide +kernel, by decide +kernel⟩ (by decide))
    (LinesOk.of_noEnd (by decide +kernel) (by decide +kernel) (by decide +kernel)) (by simp) 1 0 2 (by decide +kernel) []
  exact ⟨line, b, ls, es, h1, h2, h3, fun he => absurd (h4.1 he).2.2 (by decide +kernel)⟩

/-- A parameter with two double quotes in its units, and a column with one. -/
def exQuotes : Writer where
  params :=
    [{ name := "p".toList, type := "double".toList, units := "\"m\"".toList }]

/-- The same with a single double quote, in a column. -/
def exQuoteOdd : Writer where
  cols :=
    [{ name := "x".toList, type := "double".toList, dtype := .f64, data := [1], units := "5\" pipe".toList }]

theorem exQuotes_flat : HeaderFlat exText exQuotes := by
  have q : ∀ v : Str, '\n' ∉ v → '\\' ∉ v → FlatText v := fun v a b => ⟨a, b⟩
  refine ⟨?_, by intro c hc; cases hc⟩
  intro p hp
  obtain rfl := List.mem_singleton.mp hp
  exact ⟨q _ (by decide +kernel) (by decide +kernel), q _ (by decide +kernel) (by decide +kernel),
    q _ (by decide +kernel) (by decide +kernel), q _ (by decide +kernel) (by decide +kernel),
    q _ (by decide +kernel) (by decide +kernel), q _ (by decide +kernel) (by decide +kernel),
    q _ (by decide +kernel) (by decide +kernel), by intro x hx; cases hx⟩

theorem exQuoteOdd_flat : HeaderFlat exText exQuoteOdd := by
  have q : ∀ v : Str, '\n' ∉ v → '\\' ∉ v → FlatText v := fun v a b => ⟨a, b⟩
  refine ⟨(by intro c hc; cases hc), ?_⟩
  intro p hp
  obtain rfl := List.mem_singleton.mp hp
  exact ⟨q _ (by decide +kernel) (by decide +kernel), q _ (by decide +kernel) (by decide +kernel),
    q _ (by decide +kernel) (by decide +kernel), q _ (by decide +kernel) (by decide +kernel),
    q _ (by decide +kernel) (by decide +kernel), q _ (by decide +kernel) (by decide +kernel), rfl⟩

/-- The file with two quotes opens, and the quotes are gone. -/
example : ∃ r, openSdds exText 10 true 100 (saveBinary exEnv exQuotes).1 = some (.ok r) ∧
    ∀ f, r.param "p".toList = .ok f → f.units ≠ "\"m\"".toList := by
  have key : (match openSdds exText 10 true 100 (saveBinary exEnv exQuotes).1 with
      | some (.ok _) => true
      | _ => false) = true := by decide +kernel
  cases ho : openSdds exText 10 true 100 (saveBinary exEnv exQuotes).1 with
  | none => rw [ho] at key; cases key
  | some x =>
    cases x with
    | error e => rw [ho] at key; cases key
    | ok r =>
      refine ⟨r, rfl, fun f hf he => ?_⟩
      have := (quotes_never_return (env := exEnv) exQuotes_flat (by decide) (by decide) true 100 ho).1 _ f hf
      exact this.1 (by rw [he]; decide)

/-- The file with one quote does not open. -/
example : ∃ e, openSdds exText 10 true 100 (saveBinary exEnv exQuoteOdd).1 = some (.error e) :=
  odd_quotes_fail (env := exEnv) exQuoteOdd_flat (by decide) (by decide) true 100
    (Or.inr ⟨_, List.mem_cons_self .., by decide +kernel⟩)

/-- A file with a quoted text: no text of the reader has a double quote. -/
example : ∃ r, openSdds exText 10 true 100 (saveBinary exEnv exQuotes).1 = some (.ok r) ∧ ∀ p ∈ r.params, p.NoQuote := by
  have key : (match openSdds exText 10 true 100 (saveBinary exEnv exQuotes).1 with
      | some (.ok r) => decide (92 ∉ (saveBinary exEnv exQuotes).1.take r.headerEnd)
      | _ => false) = true := by decide +kernel
  cases ho : openSdds exText 10 true 100 (saveBinary exEnv exQuotes).1 with
  | none => rw [ho] at key; cases key
  | some x =>
    cases x with
    | error e => rw [ho] at key; cases key
    | ok r =>
      rw [ho] at key
      exact ⟨r, rfl, (quotes_need_backslash ho (of_decide_eq_true key)).1⟩

end Verif.Sdds
