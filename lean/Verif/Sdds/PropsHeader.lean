import Verif.Sdds.LemmasFuel
import Verif.Sdds.LemmasHeader
import Verif.Sdds.PropsRead

/-!
# Properties C10-C13: headers of SDDS files
-/

namespace Verif.Sdds

/-- Names the reader exposes, without the file itself. -/
structure SameHeader (r r' : Reader) : Prop where
  params : r'.params = r.params
  cols : r'.cols = r.cols
  ascii : r'.ascii = r.ascii
  noRowCounts : r'.noRowCounts = r.noRowCounts

/-- **C10.** Let the header of a file be the lines `L`, and let `L'` be the same lines with
comment lines and blank lines put in (or taken out) anywhere before the last line. Then the
second file gives the same parameters, columns and data mode, and its data section starts right
after `L'`. Namelists over several lines are included. -/
theorem header_comments {ft : FloatText} {L L' : List Bytes} (hL : ∀ l ∈ L, IsLine l) (hL' : ∀ l ∈ L', IsLine l)
    (hsame : Relevant L = Relevant L') (hlast : ∀ l, L'.getLast? = some l → Ignorable l = false) (body : Bytes)
    {fuel fuel' : Nat} (hf : L'.length < fuel') {buffer : Bool} {maxStr : Nat} {r : Reader}
    (h : openSdds ft fuel buffer maxStr (L.flatten ++ body) = some (.ok r)) (hend : r.headerEnd = L.flatten.length) :
    ∃ r', openSdds ft fuel' buffer maxStr (L'.flatten ++ body) = some (.ok r') ∧ SameHeader r r' ∧
      r'.headerEnd = L'.flatten.length ∧ r'.file.drop r'.headerEnd = body := by
  unfold openSdds at h ⊢
  cases hq : readHeader fuel (L.flatten ++ body) with
  | none => rw [hq] at h; cases h
  | some e =>
    cases e with
    | error e => rw [hq] at h; cases h
    | ok raw =>
      rw [hq] at h
      simp only [Option.some.injEq] at h
      cases hp : parseNamelists ft raw.namelists ⟨[], [], []⟩ with
      | error e => rw [hp] at h; cases h
      | ok p =>
        rw [hp] at h
        simp only [bind, Except.bind] at h
        cases hd : p.data with
        | nil => rw [hd] at h; cases h
        | cons d ds =>
          rw [hd] at h
          simp only at h
          -- the header of the first file ends where `L` ends
          have hrest : raw.rest.length = body.length := by
            have hle : raw.rest.length ≤ (L.flatten ++ body).length := by
              unfold readHeader at hq
              cases hq1 : readLine fuel (L.flatten ++ body) with
              | none => rw [hq1] at hq; cases hq
              | some lb =>
                rw [hq1] at hq
                simp only at hq
                split_ifs at hq with h1
                · have := headerLoop_le hq
                  have := readLine_lt hq1
                  omega
                · cases hq
            have : (L.flatten ++ body).length - raw.rest.length = L.flatten.length := by
              split_ifs at h with h1
              · rw [Except.ok.injEq] at h
                rw [← h] at hend
                exact hend
            rw [List.length_append] at this hle
            omega
          -- the second header
          have hsim : readHeader fuel' (L'.flatten ++ body) = some (.ok ⟨raw.namelists, raw.lineCount, body⟩) := by
            unfold readHeader at hq ⊢
            cases hq1 : readLine fuel (L.flatten ++ body) with
            | none => rw [hq1] at hq; cases hq
            | some lb =>
              obtain ⟨l, b'⟩ := lb
              rw [hq1] at hq
              simp only at hq
              split_ifs at hq with h1
              · have hle := headerLoop_le hq
                obtain ⟨M, M', k1, k2, k3, k4, k5, k6, k7⟩ := readLine_sim hL hL' hsame hlast hq1 (by omega) hf
                rw [k1] at hq
                rw [k7]
                simp only
                rw [if_pos h1]
                exact headerLoop_sim k2 k3 k4 k5 hq hrest (by omega) (by omega)
              · cases hq
          rw [hsim]
          simp only [bind, Except.bind]
          rw [hp]
          simp only [hd]
          split_ifs at h with h1
          · rw [Except.ok.injEq] at h
            subst h
            split_ifs with h2
            · exact absurd h2 h1
            · refine ⟨_, rfl, ⟨rfl, rfl, rfl, rfl⟩, ?_, ?_⟩
              · simp
              · simp

/-- Lines of the example header with and without comments. -/
def exLines (s : List String) : List Bytes := s.map fun l => utf8 (l.toList ++ ['\n'])

example : ∃ (L L' : List Bytes) (r : Reader), L.length < L'.length ∧ (∀ l ∈ L, IsLine l) ∧ (∀ l ∈ L', IsLine l) ∧
    Relevant L = Relevant L' ∧ (∀ l, L'.getLast? = some l → Ignorable l = false) ∧
    openSdds exText 20 true 50 (L.flatten ++ [1, 2, 3]) = some (.ok r) ∧ r.headerEnd = L.flatten.length ∧
    r.cols.length = 1 := by
  have hline : ∀ s : List String, (∀ l ∈ s, 10 ∉ utf8 l.toList) → ∀ l ∈ exLines s, IsLine l := by
    intro s hs l hl
    obtain ⟨t, ht, rfl⟩ := List.mem_map.mp hl
    exact ⟨utf8 t.toList, by rw [utf8_append]; rfl, hs t ht⟩
  have h1 : (openSdds exText 20 true 50 ((exLines ["SDDS1", "&column name=x, type=double,", " &end",
      "&data mode=binary, &end"]).flatten ++ [1, 2, 3])).isSome = true := by decide +kernel
  have h2 : ∀ r, openSdds exText 20 true 50 ((exLines ["SDDS1", "&column name=x, type=double,", " &end",
      "&data mode=binary, &end"]).flatten ++ [1, 2, 3]) = some (.ok r) → r.headerEnd = (exLines ["SDDS1",
      "&column name=x, type=double,", " &end", "&data mode=binary, &end"]).flatten.length ∧ r.cols.length = 1 := by
    have : (match openSdds exText 20 true 50 ((exLines ["SDDS1", "&column name=x, type=double,", " &end",
      "&data mode=binary, &end"]).flatten ++ [1, 2, 3]) with
      | some (.ok r) => decide (r.headerEnd = (exLines ["SDDS1",
      "&column name=x, type=double,", " &end", "&data mode=binary, &end"]).flatten.length ∧ r.cols.length = 1)
      | _ => true) = true := by decide +kernel
    intro r hr
    rw [hr] at this
    simpa using this
  have h3 : ∃ r, openSdds exText 20 true 50 ((exLines ["SDDS1", "&column name=x, type=double,", " &end",
      "&data mode=binary, &end"]).flatten ++ [1, 2, 3]) = some (.ok r) := by
    have : (match openSdds exText 20 true 50 ((exLines ["SDDS1", "&column name=x, type=double,", " &end",
      "&data mode=binary, &end"]).flatten ++ [1, 2, 3]) with
      | some (.ok _) => true
      | _ => false) = true := by decide +kernel
    split at this
    · next r hr => exact ⟨r, hr⟩
    · cases this
  obtain ⟨r, hr⟩ := h3
  refine ⟨_, exLines ["SDDS1", "! a comment", "", "&column name=x, type=double,", "! inside", " &end",
      "!", "&data mode=binary, &end"], r, by decide, hline _ (by decide +kernel), hline _ (by decide +kernel),
      by decide +kernel, ?_, hr, (h2 r hr).1, (h2 r hr).2⟩
  have : (exLines ["SDDS1", "! a comment", "", "&column name=x, type=double,", "! inside", " &end",
      "!", "&data mode=binary, &end"]).getLast? = some (utf8 "&data mode=binary, &end\n".toList) := by decide +kernel
  intro l hl
  rw [this] at hl
  cases hl
  decide +kernel

/-- The number of steps allowed does not change the result of opening a file. -/
theorem open_fuel {ft : FloatText} {f f' : Nat} {buffer : Bool} {m : Nat} {b : Bytes} {x y : Except PyErr Reader}
    (h : openSdds ft f buffer m b = some x) (h' : openSdds ft f' buffer m b = some y) : x = y := by
  have h1 := open_mono (Nat.le_max_left f f') h
  have h2 := open_mono (Nat.le_max_right f f') h'
  rw [h1] at h2
  exact Option.some.inj h2

/-- **C11, what is true of it.** Opening a file with a complete header (comments, one-line
namelists, any entries that can be written down) ends, with a reader or an exception. -/
theorem open_ends_partial (ft : FloatText) {d : Doc} (h : d.Ok) (body : Bytes) (buffer : Bool) (maxStr : Nat) :
    ∃ fuel x, openSdds ft fuel buffer maxStr (utf8 d.text ++ body) = some x := by
  refine ⟨d.comments.length + d.namelists.length + 2, ?_⟩
  unfold openSdds
  rw [readHeader_doc h body (Nat.le_refl _)]
  exact ⟨_, rfl⟩

example : exDoc.Ok := exDoc_announces.ok

/-- **C11, false.** An empty file, or a file of comments and blank lines only: the constructor
never comes back. -/
theorem open_blank_fails (ft : FloatText) {L : List Bytes} (hL : ∀ l ∈ L, IsLine l) (h : ∀ l ∈ L, Ignorable l = true)
    (fuel : Nat) (buffer : Bool) (maxStr : Nat) : openSdds ft fuel buffer maxStr L.flatten = none := by
  unfold openSdds readHeader
  rw [readLine_blank hL]
  unfold Relevant
  rw [List.filter_eq_nil_iff]
  intro l hl
  simp [h l hl]

example : openSdds exText 1000 true 50 [] = none :=
  open_blank_fails exText (L := []) (by simp) (by simp) 1000 true 50

/-- **C11, false.** A file that starts well but ends before the `&data` line: the constructor
never comes back. -/
theorem open_truncated_fails (ft : FloatText) {first : Bytes} {L : List Bytes} (h1 : IsLine first)
    (h2 : Ignorable first = false) (h3 : hasSub "SDDS1".toList (latin1 first) = true) (hL : ∀ l ∈ L, IsLine l)
    (h : ∀ l ∈ Relevant L, ∃ nl ∈ sddsNamelists, hasSub nl (latin1 l) = true)
    (fuel : Nat) (buffer : Bool) (maxStr : Nat) : openSdds ft fuel buffer maxStr (first ++ L.flatten) = none := by
  unfold openSdds readHeader
  cases fuel with
  | zero => rfl
  | succ n =>
    rw [readLine_relevant h1 h2]
    simp only
    rw [if_pos h3, headerLoop_never hL]
    intro l hl
    rw [List.any_eq_true]
    exact h l hl

example : openSdds exText 1000 true 50 (utf8 "SDDS1\n".toList ++
    (exLines ["! comment", "&column name=x, type=double, &end"]).flatten) = none := by
  refine open_truncated_fails exText ⟨utf8 "SDDS1".toList, by decide +kernel, by decide +kernel⟩ (by decide +kernel)
    (by decide +kernel) ?_ ?_ 1000 true 50
  · intro l hl
    simp only [exLines, List.map_cons, List.map_nil, List.mem_cons, List.not_mem_nil, or_false] at hl
    rcases hl with rfl | rfl
    · exact ⟨utf8 "! comment".toList, by rw [utf8_append]; rfl, by decide +kernel⟩
    · exact ⟨utf8 "&column name=x, type=double, &end".toList, by rw [utf8_append]; rfl, by decide +kernel⟩
  · decide +kernel

/-- **C12.** In a namelist of well formed entries (`Attr.Ok`: ASCII text on one line without
double quote and backslash and not ending in a comma, in quotes or without white space), the
value the reader stores for a key is the text of the last entry with that key, verbatim. -/
theorem quoted_verbatim_partial {word : Str} (hw : word ∈ ["&parameter".toList, "&column".toList, "&data".toList])
    (pre post : List Attr) (a : Attr) (h : ∀ b ∈ pre ++ a :: post, b.Ok) (hk : ∀ b ∈ post, b.key ≠ a.key) (pad : Nat) :
    ∃ es, shlexSplit (nlText word (pre ++ a :: post) pad) = .ok es ∧ getField a.key es = some a.val := by
  have hw' : word ≠ [] ∧ (∀ c ∈ word, PlainChar c) ∧ ∀ n ∈ knownKeys, n.isPrefixOf word = false := by
    have : ∀ w ∈ ["&parameter".toList, "&column".toList, "&data".toList],
      w ≠ [] ∧ (∀ c ∈ w, PlainChar c) ∧ ∀ n ∈ knownKeys, n.isPrefixOf w = false := by decide +kernel
    exact this word hw
  have hkey : a.key ∈ knownKeys := (h a (by simp)).key
  refine ⟨_, shlex_nl word hw'.1 hw'.2.1 _ h pad, ?_⟩
  rw [getField_attrs hkey (hw'.2.2 _ hkey) _ h]
  unfold attrVal
  have hpost : post.filter (fun b => b.key = a.key) = [] := List.filter_eq_nil_iff.mpr (by simpa using hk)
  rw [List.filter_append, List.filter_cons_of_pos (by simp), hpost]
  simp

example : ∃ es, shlexSplit "&column name=x, description=\"it's a = b, &end of it\", type=double,  &end\n".toList = .ok es ∧
    getField "description".toList es = some "it's a = b, &end of it".toList :=
  quoted_verbatim_partial (word := "&column".toList) (by decide) [exAttr "name" "x"] [exAttr "type" "double"]
    ⟨"description".toList, "it's a = b, &end of it".toList, true⟩ (by decide +kernel) (by decide +kernel) 1

/-- **C12, false for text that ends in a comma.** -/
theorem quoted_comma_fails : ∃ es, shlexSplit "&column name=x, units=\"m,\", type=double,  &end\n".toList = .ok es ∧
    getField "units".toList es = some "m".toList := by
  refine ⟨["&column".toList, "name=x,".toList, "units=m,,".toList, "type=double,".toList, "&end".toList], ?_, ?_⟩ <;>
    decide +kernel

theorem attrVal_snoc_ne (as : List Attr) (a : Attr) (k : Str) (h : a.key ≠ k) : attrVal (as ++ [a]) k = attrVal as k := by
  unfold attrVal
  rw [List.filter_append, List.filter_cons_of_neg (by simpa using h), List.filter_nil, List.append_nil]

theorem attrVal_snoc_eq (as : List Attr) (a : Attr) : attrVal (as ++ [a]) a.key = some a.val := by
  unfold attrVal
  rw [List.filter_append, List.filter_cons_of_pos (by simp), List.filter_nil]
  simp

theorem attrVal_none (as : List Attr) (k : Str) (h : ∀ a ∈ as, a.key ≠ k) : attrVal as k = none := by
  unfold attrVal
  rw [List.filter_eq_nil_iff.mpr (by simpa using h)]
  rfl

/-- **C13, false.** Adding `no_row_counts=0`, the default, to the `&data` namelist of any header
switches the row counts off. -/
theorem explicit_zero_fails (ft : FloatText) {d : Doc} (h : d.Ok) (hno : ∀ a ∈ d.data, a.key ≠ "no_row_counts".toList)
    (body : Bytes) {fuel : Nat} (hfuel : d.comments.length + d.namelists.length + 2 ≤ fuel) (buffer : Bool) (maxStr : Nat)
    {ps : List ParamField} {cs : List ColField} (hps : (d.attrsOf .param).mapM (paramOf ft) = .ok ps)
    (hcs : (d.attrsOf .col).mapM colOf = .ok cs)
    (hbin : (attrVal d.data "mode".toList).getD "binary".toList ≠ "ascii".toList) :
    ∃ r r', openSdds ft fuel buffer maxStr (utf8 d.text ++ body) = some (.ok r) ∧
      openSdds ft fuel buffer maxStr (utf8 (Doc.text { d with data := d.data ++ [exAttr "no_row_counts" "0"] }) ++ body) =
        some (.ok r') ∧
      r.noRowCounts = false ∧ r'.noRowCounts = true := by
  have hn : attrVal d.data "no_row_counts".toList = none :=
    attrVal_none _ _ hno
  have h' : Doc.Ok { d with data := d.data ++ [exAttr "no_row_counts" "0"] } := by
    refine ⟨h.comments, h.namelists, ?_⟩
    intro a ha
    rcases List.mem_append.mp ha with ha | ha
    · exact h.data a ha
    · rw [List.mem_singleton.mp ha]
      decide +kernel
  have hmode : ∀ k, "no_row_counts".toList ≠ k → attrVal (d.data ++ [exAttr "no_row_counts" "0"]) k = attrVal d.data k :=
    fun k hk => attrVal_snoc_ne _ _ _ hk
  have hnew : attrVal (d.data ++ [exAttr "no_row_counts" "0"]) "no_row_counts".toList = some "0".toList :=
    attrVal_snoc_eq _ (exAttr "no_row_counts" "0")
  refine ⟨_, _, open_doc ft h body hfuel buffer maxStr hps hcs hbin,
    open_doc ft h' body hfuel buffer maxStr hps hcs ?_, ?_, ?_⟩
  · simp only
    rw [hmode _ (by decide)]
    exact hbin
  · simp only [hn]; rfl
  · simp only [hnew]; rfl

example : ∃ ps cs, (exDocS.attrsOf .param).mapM (paramOf exText) = .ok ps ∧ (exDocS.attrsOf .col).mapM colOf = .ok cs ∧
    exDocS.Ok ∧ (∀ a ∈ exDocS.data, a.key ≠ "no_row_counts".toList) ∧
    (attrVal exDocS.data "mode".toList).getD "binary".toList ≠ "ascii".toList := by
  obtain ⟨ps, h1, -⟩ := params_of _ _ exDocS_announces.params exDocS_announces.fixed
  obtain ⟨cs, h2, -⟩ := cols_of _ _ exDocS_announces.cols exDocS_announces.noLength
  exact ⟨ps, cs, h1, h2, exDocS_announces.ok, by decide +kernel, by decide +kernel⟩

/-- **C13, what is true of it.** Writing out `mode=binary` changes nothing. -/
theorem explicit_mode_partial (ft : FloatText) {d : Doc} (h : d.Ok) (hno : ∀ a ∈ d.data, a.key ≠ "mode".toList)
    (body : Bytes) {fuel : Nat} (hfuel : d.comments.length + d.namelists.length + 2 ≤ fuel) (buffer : Bool) (maxStr : Nat)
    {ps : List ParamField} {cs : List ColField} (hps : (d.attrsOf .param).mapM (paramOf ft) = .ok ps)
    (hcs : (d.attrsOf .col).mapM colOf = .ok cs) :
    ∃ r r', openSdds ft fuel buffer maxStr (utf8 d.text ++ body) = some (.ok r) ∧
      openSdds ft fuel buffer maxStr (utf8 (Doc.text { d with data := d.data ++ [exAttr "mode" "binary"] }) ++ body) =
        some (.ok r') ∧ SameHeader r r' ∧ r.ascii = false := by
  have hn : attrVal d.data "mode".toList = none :=
    attrVal_none _ _ hno
  have h' : Doc.Ok { d with data := d.data ++ [exAttr "mode" "binary"] } := by
    refine ⟨h.comments, h.namelists, ?_⟩
    intro a ha
    rcases List.mem_append.mp ha with ha | ha
    · exact h.data a ha
    · rw [List.mem_singleton.mp ha]
      decide +kernel
  have hother : attrVal (d.data ++ [exAttr "mode" "binary"]) "no_row_counts".toList =
      attrVal d.data "no_row_counts".toList := attrVal_snoc_ne _ _ _ (by decide)
  have hnew : attrVal (d.data ++ [exAttr "mode" "binary"]) "mode".toList = some "binary".toList :=
    attrVal_snoc_eq _ (exAttr "mode" "binary")
  refine ⟨_, _, open_doc ft h body hfuel buffer maxStr hps hcs (by rw [hn]; decide),
    open_doc ft h' body hfuel buffer maxStr hps hcs ?_, ⟨rfl, rfl, rfl, ?_⟩, rfl⟩
  · simp only [hnew]; decide
  · simp only [hother]

example : Doc.Ok { exDoc with data := [] } ∧ ∀ a ∈ ({ exDoc with data := [] } : Doc).data, a.key ≠ "mode".toList := by
  decide +kernel

end Verif.Sdds
