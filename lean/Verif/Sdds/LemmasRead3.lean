import Verif.Sdds.LemmasRead2

/-!
# Lemmas on the binary reader: one page
-/

set_option linter.unusedSimpArgs false
set_option linter.unusedVariables false

namespace Verif.Sdds

/-- Fields with their values. -/
def fields (fs : List (Str × SType)) (vs : List Val) : List (Str × Val) := (fs.map Prod.fst).zip vs

theorem fields_spec {m : Nat} {fs : List (Str × SType)} {vs : List Val}
    (h : List.Forall₂ (fun f v => Fits m f.2 v) fs vs) :
    (fields fs vs).map Prod.fst = fs.map Prod.fst ∧ (∀ f ∈ fields fs vs, ValOk m f.2) ∧
    encFs (fields fs vs) = vs.flatMap encodeVal := by
  induction h with
  | nil => simp [fields, encFs]
  | cons h _ ih =>
    rename_i f v fs vs _
    obtain ⟨h1, h2, h3⟩ := ih
    refine ⟨?_, ?_, ?_⟩
    · simpa [fields] using h1
    · intro x hx
      simp only [fields, List.map_cons, List.zip_cons_cons, List.mem_cons] at hx
      rcases hx with rfl | hx
      · exact h.valOk
      · exact h2 x hx
    · simp only [encFs, fields, List.map_cons, List.zip_cons_cons, List.flatMap_cons] at h3 ⊢
      rw [h3]

theorem fields_snd {m : Nat} {fs : List (Str × SType)} {vs : List Val}
    (h : List.Forall₂ (fun f v => Fits m f.2 v) fs vs) : (fields fs vs).map Prod.snd = vs := by
  unfold fields
  rw [List.map_snd_zip]
  rw [List.length_map, h.length_eq]

theorem fields_last {m : Nat} {fs : List (Str × SType)} {vs : List Val}
    (h : List.Forall₂ (fun f v => Fits m f.2 v) fs vs) (hne : fields fs vs ≠ [])
    (hl : vs.getLast? ≠ some (.str [])) : ∃ f, (fields fs vs).getLast? = some f ∧ f.2 ≠ .str [] := by
  refine ⟨_, List.getLast?_eq_some_getLast hne, ?_⟩
  intro hs
  apply hl
  rw [← fields_snd h, List.getLast?_map, List.getLast?_eq_some_getLast hne, Option.map_some, hs]

theorem SType.name_str {t : SType} : t.name = "string".toList ↔ t = .str := by
  cases t with
  | num t => cases t <;> simp [SType.name] <;> decide
  | str => simp [SType.name]

theorem typeKey_name (t : FType) : typeKey (SType.num t).name = .num t := by
  cases t <;> rfl

/-- Keys of a parameter by type. -/
def sKeys (f : Str × SType) : List Dtype :=
  match f.2 with
  | .num t => [[(f.1, .num t)]]
  | .str => [[recLenKey], [(f.1, .strRaw)]]

theorem paramDks_fields {m : Nat} {fs : List (Str × SType)} {vs : List Val}
    (h : List.Forall₂ (fun f v => Fits m f.2 v) fs vs) : paramDks (fields fs vs) = fs.flatMap sKeys := by
  induction h with
  | nil => simp [fields, paramDks]
  | cons h _ ih =>
    rename_i f v fs vs _
    obtain ⟨n, t⟩ := f
    simp only [fields, List.map_cons, List.zip_cons_cons, List.flatMap_cons] at ih ⊢
    cases t <;> cases v <;> simp only [Fits] at h
    · obtain ⟨rfl, _⟩ := h
      simp only [paramDks, sKeys]
      rw [ih]; rfl
    · simp only [paramDks, sKeys]
      rw [ih]; rfl

theorem paramKeys_fields (ps : List ParamField) (mx : Nat) : ∀ (fs : List (Str × SType)),
    (ps.filter fun p => p.fixed = none).map (fun p => (p.name, p.type)) = fs.map (fun f => (f.1, f.2.name)) →
    ps.flatMap (paramKeysOf false mx) = fs.flatMap sKeys := by
  induction ps with
  | nil =>
    intro fs h
    simp only [List.filter_nil, List.map_nil] at h
    rw [List.map_eq_nil_iff.mp h.symm]; rfl
  | cons p ps ih =>
    intro fs h
    by_cases hp : p.fixed = none
    · rw [List.filter_cons_of_pos (by simpa using hp)] at h
      cases fs with
      | nil => simp at h
      | cons f fs =>
        simp only [List.map_cons, List.cons.injEq] at h
        rw [List.flatMap_cons, List.flatMap_cons, ih fs h.2]
        obtain ⟨n, t⟩ := f
        simp only [Prod.mk.injEq] at h
        congr 1
        unfold paramKeysOf sKeys
        rw [if_pos hp, h.1.1, h.1.2]
        cases t with
        | num t => rw [if_neg (by rw [SType.name_str]; simp), typeKey_name]
        | str => rw [if_pos (by rw [SType.name_str])]; rfl
    · rw [List.filter_cons_of_neg (by simpa using hp)] at h
      rw [List.flatMap_cons, ih fs h]
      unfold paramKeysOf
      rw [if_neg hp]; rfl

theorem colDks_fields {m : Nat} {fs : List (Str × SType)} {vs : List Val}
    (h : List.Forall₂ (fun f v => Fits m f.2 v) fs vs) : ∀ (cs : List ColField) (cur : Dtype),
    cs.map (fun c => (c.name, c.type)) = fs.map (fun f => (f.1, f.2.name)) →
    colGroups cs cur = colDks (fields fs vs) cur := by
  induction h with
  | nil =>
    intro cs cur hc
    rw [List.map_nil] at hc
    rw [List.map_eq_nil_iff.mp hc]; rfl
  | cons h _ ih =>
    rename_i f v fs vs _
    intro cs cur hc
    cases cs with
    | nil => simp at hc
    | cons c cs =>
      simp only [List.map_cons, List.cons.injEq, Prod.mk.injEq] at hc
      obtain ⟨⟨h1, h2⟩, h3⟩ := hc
      obtain ⟨n, t⟩ := f
      simp only [fields, List.map_cons, List.zip_cons_cons] at ih ⊢
      simp only at h1 h2
      unfold colGroups
      cases t <;> cases v <;> simp only [Fits] at h
      · obtain ⟨rfl, _⟩ := h
        rw [if_neg (by rw [h2, SType.name_str]; simp), h1, h2, typeKey_name, ih _ _ h3]
        rfl
      · rw [if_pos (by rw [h2, SType.name_str]), h1, ih _ _ h3]
        rfl

theorem Reader.Describes.varLen_true {r : Reader} {l : Layout} (h : r.Describes l)
    (hs : SType.str ∈ (l.params ++ l.cols).map Prod.snd) : r.varLen = true := by
  unfold Reader.varLen
  rw [h.binary]
  obtain ⟨⟨n, t⟩, hf, rfl⟩ := List.mem_map.mp hs
  rcases List.mem_append.mp hf with hf | hf
  · have : (n, SType.name .str) ∈ (r.params.filter fun p => p.fixed = none).map (fun p => (p.name, p.type)) := by
      rw [h.params]
      exact List.mem_map.mpr ⟨_, hf, rfl⟩
    obtain ⟨p, hp, he⟩ := List.mem_map.mp this
    rw [List.mem_filter] at hp
    have : (r.params.any fun p => p.fixed = none && p.type = "string".toList) = true := by
      rw [List.any_eq_true]
      refine ⟨p, hp.1, ?_⟩
      have h2 : p.type = "string".toList := (Prod.mk.inj he).2
      simpa [h2] using hp.2
    rw [this]; simp
  · have : (n, SType.name .str) ∈ r.cols.map (fun p => (p.name, p.type)) := by
      rw [h.cols]
      exact List.mem_map.mpr ⟨_, hf, rfl⟩
    obtain ⟨p, hp, he⟩ := List.mem_map.mp this
    have : (r.cols.any fun p => p.type = "string".toList) = true := by
      rw [List.any_eq_true]
      refine ⟨p, hp, ?_⟩
      have h2 : p.type = "string".toList := (Prod.mk.inj he).2
      simpa using h2
    rw [this]; simp

theorem Reader.Describes.varLen_false {r : Reader} {l : Layout} (h : r.Describes l)
    (hs : SType.str ∉ (l.params ++ l.cols).map Prod.snd) : r.varLen = false := by
  by_contra hv
  have hv : r.varLen = true := by simpa using hv
  unfold Reader.varLen at hv
  rw [h.binary] at hv
  simp only [Bool.not_false, Bool.true_and, Bool.or_eq_true] at hv
  apply hs
  rw [List.map_append, List.mem_append]
  rcases hv with hv | hv
  · right
    rw [List.any_eq_true] at hv
    obtain ⟨p, hp, he⟩ := hv
    have : (p.name, p.type) ∈ l.cols.map fun f => (f.1, f.2.name) := by
      rw [← h.cols]; exact List.mem_map.mpr ⟨_, hp, rfl⟩
    obtain ⟨f, hf, he2⟩ := List.mem_map.mp this
    refine List.mem_map.mpr ⟨f, hf, ?_⟩
    rw [← SType.name_str, (Prod.mk.inj he2).2]
    exact of_decide_eq_true he
  · left
    rw [List.any_eq_true] at hv
    obtain ⟨p, hp, he⟩ := hv
    rw [Bool.and_eq_true] at he
    have : (p.name, p.type) ∈ l.params.map fun f => (f.1, f.2.name) := by
      rw [← h.params]; exact List.mem_map.mpr ⟨_, List.mem_filter.mpr ⟨hp, he.1⟩, rfl⟩
    obtain ⟨f, hf, he2⟩ := List.mem_map.mp this
    refine List.mem_map.mpr ⟨f, hf, ?_⟩
    rw [← SType.name_str, (Prod.mk.inj he2).2]
    exact of_decide_eq_true he.2

theorem fields_str {m : Nat} {fs : List (Str × SType)} {vs : List Val}
    (h : List.Forall₂ (fun f v => Fits m f.2 v) fs vs) {f : Str × Val} (hf : f ∈ fields fs vs) {s : Bytes}
    (he : f.2 = .str s) : SType.str ∈ fs.map Prod.snd := by
  induction h with
  | nil => simp [fields] at hf
  | cons h _ ih =>
    rename_i f' v fs vs _
    simp only [fields, List.map_cons, List.zip_cons_cons, List.mem_cons] at hf ⊢
    rcases hf with rfl | hf
    · left
      simp only at he
      subst he
      obtain ⟨n, t⟩ := f'
      cases t with
      | num t => simp [Fits] at h
      | str => rfl
    · right
      exact ih hf

/-- The row count field of a page. -/
def rcField (n : Nat) : Str × Val := (rowCountsName, .num .long n)

/-- Arrays read for the parameters of a page. -/
def pageArrs (l : Layout) (pg : Page) : List Arr :=
  ⟨fDt [rcField pg.rows.length], [[rcField pg.rows.length]]⟩ :: paramArrs (fields l.params pg.params)

/-- Bytes of the parameters of a page. -/
def paramBytes (pg : Page) : Bytes := leBytes 4 pg.rows.length ++ pg.params.flatMap encodeVal

/-- Bytes of the rows of a page. -/
def colBytes (pg : Page) : Bytes := pg.rows.flatMap (·.flatMap encodeVal)

theorem encodePage_eq (pg : Page) : encodePage pg = paramBytes pg ++ colBytes pg := rfl

theorem rcField_ok (m : Nat) {n : Nat} (h : n < 2147483648) : ValOk m (rcField n).2 := by
  simp only [ValOk, rcField, FType.size]
  norm_num; omega

theorem rowCounts_ne : rowCountsName ≠ recLenName := by decide

theorem Reader.pageParams_ok {r : Reader} {l : Layout} (hd : r.Describes l) (hl : l.Ok) {pg : Page}
    (hpg : PageOk r.maxStr l pg) {p : Pos} (hp : r.PosOk p) {rest : Bytes}
    (hf : r.file.drop (r.cur p) = paramBytes pg ++ rest) (hc : r.cur p ≤ r.file.length) :
    r.getParams r.paramKeys [] p = .ok (pageArrs l pg, r.adv p (paramBytes pg).length) := by
  obtain ⟨e1, e2, e3⟩ := fields_spec hpg.1
  have hk : r.paramKeys = paramDks (rcField pg.rows.length :: fields l.params pg.params) := by
    unfold Reader.paramKeys
    rw [hd.binary]
    simp only [Bool.not_false, if_true]
    rw [paramKeys_fields r.params r.maxStr l.params hd.params, ← paramDks_fields hpg.1]
    rfl
  have he : paramBytes pg = encFs (rcField pg.rows.length :: fields l.params pg.params) := by
    unfold paramBytes
    rw [← e3]
    simp [encFs, rcField, encodeVal, FType.size]
  rw [hk, he]
  rw [he] at hf
  rw [Reader.getParams_ok (m := r.maxStr) _ [] p hp ?_ ?_ ?_ ?_ (by intro x hx; simp at hx) rest hf hc]
  · rfl
  · intro f hf
    rcases List.mem_cons.mp hf with rfl | hf
    · exact rcField_ok _ hpg.2.2.1
    · exact e2 f hf
  · intro f hf
    rcases List.mem_cons.mp hf with rfl | hf
    · exact rowCounts_ne
    · intro hn
      apply hl.2.1
      rw [← e1, ← hn]
      exact List.mem_map.mpr ⟨f, hf, rfl⟩
  · intro f hf
    rcases List.mem_cons.mp hf with rfl | hf
    · simp [rcField]
    · intro hs
      apply hpg.2.2.2.1
      rw [← fields_snd hpg.1, ← hs]
      exact List.mem_map_of_mem hf
  · intro f hf hs
    rcases List.mem_cons.mp hf with rfl | hf
    · obtain ⟨s, hs⟩ := hs
      simp [rcField] at hs
    · obtain ⟨s, hs⟩ := hs
      apply hd.varLen_true
      rw [List.map_append, List.mem_append]
      exact Or.inl (fields_str hpg.1 hf hs)

theorem Reader.pageParams_merge {r : Reader} {l : Layout} (hl : l.Ok) {pg : Page}
    (hpg : PageOk r.maxStr l pg) : addPage r.maxStr [pageArrs l pg] = .ok [paramRecord l pg] := by
  obtain ⟨e1, e2, e3⟩ := fields_spec hpg.1
  have hn : ∀ f ∈ fields l.params pg.params, f.1 ≠ recLenName := by
    intro f hf hn
    apply hl.2.1
    rw [← e1, ← hn]
    exact List.mem_map.mpr ⟨f, hf, rfl⟩
  have hm : merge r.maxStr (pageArrs l pg) = .ok [paramRecord l pg] := by
    have hrec : paramRecord l pg = rcField pg.rows.length :: fields l.params pg.params := rfl
    by_cases hfs : paramArrs (fields l.params pg.params) = []
    · have : fields l.params pg.params = [] := by
        generalize fields l.params pg.params = fs at hfs
        cases fs with
        | nil => rfl
        | cons f fs =>
          obtain ⟨n, v⟩ := f
          cases v <;> simp [paramArrs] at hfs
      rw [hrec, this]
      unfold pageArrs
      rw [this]
      rfl
    · obtain ⟨L, hL1, hL2⟩ := mergeAll_params (m := r.maxStr) _ e2 hn
      have h0 := mergeOne_plain (m := r.maxStr) [rcField pg.rows.length]
        (by simpa using rcField_ok _ hpg.2.2.1) (by simpa [rcField] using rowCounts_ne)
      rw [merge_general (L := [rcField pg.rows.length] :: L) ?_ ?_ ?_]
      · rw [List.flatten_cons, hL2, hrec]; rfl
      · intro a ha
        unfold pageArrs at ha
        injection ha with _ ha
        exact hfs ha
      · exact mapM_ok_cons _ _ _ _ _ h0 hL1
      · unfold pageArrs
        rw [List.flatMap_cons, List.filter_append, names_params _ hn, e1]
        have := hl.1
        simpa [fDt_names, rcField, rowCounts_ne] using this
  unfold addPage
  rw [List.mapM_cons, hm]
  rfl

theorem Reader.pageRowCount {r : Reader} {l : Layout} (hd : r.Describes l) {pg : Page}
    (hpg : PageOk r.maxStr l pg) (hcols : l.cols ≠ []) (p : Pos) :
    r.rowCount (pageArrs l pg) p = .ok pg.rows.length := by
  have hcne : r.cols ≠ [] := by
    intro h
    have := hd.cols
    rw [h, List.map_nil] at this
    exact hcols (List.map_eq_nil_iff.mp this.symm)
  have h4 : ofBits FType.long.size pg.rows.length = pg.rows.length := by
    unfold ofBits
    have := hpg.2.2.1
    rw [if_pos (by simp only [FType.size]; norm_num; omega)]
  unfold Reader.rowCount
  rw [if_neg hcne, hd.counts]
  simp only [Bool.not_false, if_true, pageArrs]
  rw [List.find?_cons_of_pos (by simp [fDt, rcField])]
  simp only [List.head?_cons, Option.bind_some]
  have : recField rowCountsName [rcField pg.rows.length] = some (.num .long pg.rows.length) := by
    simp [recField, rcField]
  rw [this]
  simp only [h4]
  simp

/-- Rows with strings. -/
theorem Reader.getRows_ok {r : Reader} {l : Layout} (hd : r.Describes l) (hl : l.Ok)
    (hcols : l.cols ≠ []) (rows : List (List Val)) :
    ∀ (p : Pos), r.PosOk p → (∀ row ∈ rows, List.Forall₂ (fun f v => Fits r.maxStr f.2 v) l.cols row) →
    (∀ row ∈ rows, row.getLast? ≠ some (.str [])) →
    ∀ rest, r.file.drop (r.cur p) = rows.flatMap (·.flatMap encodeVal) ++ rest →
    r.cur p ≤ r.file.length →
    r.getRows (colGroups r.cols []) rows.length p =
      .ok (rows.map fun row => colArrs (fields l.cols row) [],
        r.adv p (rows.flatMap (·.flatMap encodeVal)).length) := by
  induction rows with
  | nil =>
    intro p hp h hla rest hf hc
    simp [Reader.getRows, Reader.adv_zero]
  | cons row rows ih =>
    intro p hp h hla rest hf hc
    have hrow := h row (by simp)
    obtain ⟨e1, e2, e3⟩ := fields_spec hrow
    rw [List.flatMap_cons, List.append_assoc, ← e3] at hf
    have hne : fields l.cols row ≠ [] := by
      intro hx
      rw [hx] at e1
      exact hcols (List.map_eq_nil_iff.mp e1.symm)
    have h1 := Reader.getCols_row_ok (r := r) (m := r.maxStr) (fields l.cols row) [] [] [] p hp
      (by simpa using e2)
      (by
        intro f hf hn
        apply hl.2.2.2
        rw [← e1, ← hn]
        exact List.mem_map.mpr ⟨f, by simpa using hf, rfl⟩)
      (by rw [List.nil_append, e1]; exact hl.2.2.1)
      (by
        rintro f hf ⟨s, hs⟩
        apply hd.varLen_true
        rw [List.map_append, List.mem_append]
        exact Or.inr (fields_str hrow hf hs))
      (by
        intro more
        exact resolve_noLen (by intro x hx; simp at hx) _)
      (by simpa using fields_last hrow hne (hla row (by simp))) (rows.flatMap (·.flatMap encodeVal) ++ rest) (by simpa [fRaw] using hf) hc
    rw [List.length_cons, Reader.getRows, colDks_fields hrow r.cols [] hd.cols, h1]
    simp only [bind, Except.bind]
    have hz : (fRaw ([] : List (Str × Val))).length = 0 := rfl
    rw [hz, Nat.zero_add]
    have hdrop : r.file.drop (r.cur (r.adv p (encFs (fields l.cols row)).length)) =
        rows.flatMap (·.flatMap encodeVal) ++ rest := by
      rw [Reader.cur_adv, ← List.drop_drop, hf, List.drop_left]
    have hle : r.cur (r.adv p (encFs (fields l.cols row)).length) ≤ r.file.length := by
      have := congrArg List.length hf
      rw [List.length_drop, List.length_append] at this
      rw [Reader.cur_adv]; omega
    rw [← colDks_fields hrow r.cols [] hd.cols, ih _ (Reader.adv_ok hp _) (fun x hx => h x (by simp [hx]))
      (fun x hx => hla x (by simp [hx])) rest hdrop hle]
    simp only [Reader.adv_adv, List.map_cons, List.nil_append, List.flatMap_cons, List.length_append, e3]

theorem colArrs_length (fs : List (Str × Val)) : ∀ cur,
    (∃ f ∈ fs, ∃ s, f.2 = .str s) → ∀ a, colArrs fs cur ≠ [a] := by
  induction fs with
  | nil => rintro cur ⟨f, hf, _⟩; simp at hf
  | cons f fs ih =>
    intro cur h a
    obtain ⟨n, v⟩ := f
    cases v with
    | num t x =>
      obtain ⟨g, hg, s, hs⟩ := h
      rcases List.mem_cons.mp hg with rfl | hg
      · simp at hs
      · exact ih _ ⟨g, hg, s, hs⟩ a
    | str s =>
      intro hx
      simp only [colArrs, List.cons.injEq] at hx
      have : colArrs fs [(n, .str s)] ≠ [] := by
        clear hx ih h
        generalize [(n, Val.str s)] = cur
        induction fs generalizing cur with
        | nil => simp [colArrs]
        | cons f fs ih =>
          obtain ⟨n', v⟩ := f
          cases v
          · exact ih _
          · simp [colArrs]
      exact this hx.2

theorem colDks_single (fs : List (Str × Val)) : ∀ cur, (∀ f ∈ fs, ∃ t x, f.2 = .num t x) →
    colDks fs cur = [cur ++ fDt fs] := by
  induction fs with
  | nil => intro cur _; simp [colDks, fDt]
  | cons f fs ih =>
    intro cur h
    obtain ⟨n, v⟩ := f
    obtain ⟨t, x, hx⟩ := h (n, v) (by simp)
    simp only at hx
    subst hx
    simp only [colDks]
    rw [ih _ fun f hf => h f (by simp [hf])]
    simp [fDt, valKey]

theorem colDks_not_single (fs : List (Str × Val)) : ∀ cur,
    (∃ f ∈ fs, ∃ s, f.2 = .str s) → ∀ a, colDks fs cur ≠ [a] := by
  induction fs with
  | nil => rintro cur ⟨f, hf, _⟩; simp at hf
  | cons f fs ih =>
    intro cur h a
    obtain ⟨n, v⟩ := f
    cases v with
    | num t x =>
      obtain ⟨g, hg, s, hs⟩ := h
      rcases List.mem_cons.mp hg with rfl | hg
      · simp at hs
      · exact ih _ ⟨g, hg, s, hs⟩ a
    | str s =>
      intro hx
      simp only [colDks, List.cons.injEq] at hx
      have : colDks fs [(n, .strRaw)] ≠ [] := by
        clear hx ih h
        generalize [(n, KType.strRaw)] = cur
        induction fs generalizing cur with
        | nil => simp [colDks]
        | cons f fs ih =>
          obtain ⟨n', v⟩ := f
          cases v
          · exact ih _
          · simp [colDks]
      exact this hx.2

theorem fields_num {m : Nat} {fs : List (Str × SType)} {vs : List Val}
    (h : List.Forall₂ (fun f v => Fits m f.2 v) fs vs) (hs : SType.str ∉ fs.map Prod.snd) :
    ∀ f ∈ fields fs vs, ∃ t x, f.2 = .num t x := by
  intro f hf
  cases hv : f.2 with
  | num t x => exact ⟨t, x, rfl⟩
  | str s => exact absurd (fields_str h hf hv) hs

theorem fields_has_str {m : Nat} {fs : List (Str × SType)} {vs : List Val}
    (h : List.Forall₂ (fun f v => Fits m f.2 v) fs vs) (hs : SType.str ∈ fs.map Prod.snd) :
    ∃ f ∈ fields fs vs, ∃ s, f.2 = .str s := by
  induction h with
  | nil => simp at hs
  | cons h _ ih =>
    rename_i f v fs vs _
    simp only [List.map_cons, List.mem_cons] at hs
    rcases hs with hs | hs
    · obtain ⟨n, t⟩ := f
      simp only at hs
      subst hs
      cases v with
      | num t x => simp [Fits] at h
      | str s => exact ⟨(n, .str s), by simp [fields], s, rfl⟩
    · obtain ⟨g, hg, s, hs⟩ := ih hs
      exact ⟨g, by simp only [fields, List.map_cons, List.zip_cons_cons, List.mem_cons]; exact Or.inr hg, s, hs⟩

/-- The dtype of the columns without strings. -/
def numDt (fs : List (Str × SType)) : Dtype :=
  fs.map fun f => (f.1, match f.2 with | .num t => .num t | .str => .strRaw)

theorem fDt_fields {m : Nat} {fs : List (Str × SType)} {vs : List Val}
    (h : List.Forall₂ (fun f v => Fits m f.2 v) fs vs) (hs : SType.str ∉ fs.map Prod.snd) :
    fDt (fields fs vs) = numDt fs := by
  induction h with
  | nil => rfl
  | cons h _ ih =>
    rename_i f v fs vs _
    simp only [List.map_cons, List.mem_cons, not_or] at hs
    obtain ⟨n, t⟩ := f
    have ih := ih hs.2
    cases t <;> cases v <;> simp only [Fits] at h
    · obtain ⟨rfl, _⟩ := h
      simp only [fields, List.map_cons, List.zip_cons_cons, fDt, numDt] at ih ⊢
      rw [ih]; rfl
    · simp at hs

/-- Bytes of a row without strings. -/
def rowSize (fs : List (Str × SType)) : Nat := (fs.map fun f => match f.2 with | .num t => t.size | .str => 0).sum

theorem encFs_size {m : Nat} {fs : List (Str × SType)} {vs : List Val}
    (h : List.Forall₂ (fun f v => Fits m f.2 v) fs vs) (hs : SType.str ∉ fs.map Prod.snd) :
    (fRaw (fields fs vs)).length = rowSize fs ∧ fRaw (fields fs vs) = vs.flatMap encodeVal := by
  induction h with
  | nil => exact ⟨rfl, rfl⟩
  | cons h _ ih =>
    rename_i f v fs vs _
    simp only [List.map_cons, List.mem_cons, not_or] at hs
    obtain ⟨n, t⟩ := f
    obtain ⟨ih1, ih2⟩ := ih hs.2
    cases t <;> cases v <;> simp only [Fits] at h
    · obtain ⟨rfl, _⟩ := h
      simp only [fields, List.map_cons, List.zip_cons_cons, fRaw, rowSize, List.flatMap_cons,
        List.length_append, List.sum_cons, encodeVal, rawVal, leBytes_length] at ih1 ih2 ⊢
      rw [ih1, ih2]
      exact ⟨rfl, rfl⟩
    · simp at hs

theorem Reader.colKeys_num {r : Reader} {l : Layout} (hd : r.Describes l) {pg : Page}
    (hpg : PageOk r.maxStr l pg) (hcols : l.cols ≠ []) (hs : SType.str ∉ l.cols.map Prod.snd)
    (hrows : pg.rows ≠ []) : r.colKeys = [numDt l.cols] := by
  obtain ⟨row, hrow⟩ := List.exists_mem_of_ne_nil _ hrows
  have h := hpg.2.1 row hrow
  have hcne : r.cols ≠ [] := by
    intro h
    have := hd.cols
    rw [h, List.map_nil] at this
    exact hcols (List.map_eq_nil_iff.mp this.symm)
  unfold Reader.colKeys
  rw [if_neg hcne, hd.binary, if_neg (by simp), colDks_fields h r.cols [] hd.cols,
    colDks_single _ _ (fields_num h hs), List.nil_append, fDt_fields h hs]

theorem itemSize_numDt {m : Nat} {l : Layout} (hl : l.Ok) {pg : Page}
    (hpg : PageOk m l pg) (hs : SType.str ∉ l.cols.map Prod.snd) (hrows : pg.rows ≠ []) :
    itemSize (numDt l.cols) = .ok (rowSize l.cols) := by
  obtain ⟨row, hrow⟩ := List.exists_mem_of_ne_nil _ hrows
  have h := hpg.2.1 row hrow
  obtain ⟨e1, e2, e3⟩ := fields_spec h
  rw [← fDt_fields h hs, itemSize_fDt _ (by rw [e1]; exact hl.2.2.1), (encFs_size h hs).1]

theorem colBytes_length {m : Nat} {l : Layout} {pg : Page} (hpg : PageOk m l pg)
    (hs : SType.str ∉ l.cols.map Prod.snd) : (colBytes pg).length = rowSize l.cols * pg.rows.length := by
  unfold colBytes
  have := hpg.2.1
  generalize pg.rows = rows at this
  induction rows with
  | nil => simp
  | cons row rows ih =>
    rw [List.flatMap_cons, List.length_append, ih fun x hx => this x (by simp [hx]), List.length_cons,
      ← (encFs_size (this row (by simp)) hs).2, (encFs_size (this row (by simp)) hs).1]
    ring

theorem rowSize_pos {m : Nat} {l : Layout} {pg : Page} (hpg : PageOk m l pg) (hcols : l.cols ≠ [])
    (hs : SType.str ∉ l.cols.map Prod.snd) (hrows : pg.rows ≠ []) : 0 < rowSize l.cols := by
  obtain ⟨row, hrow⟩ := List.exists_mem_of_ne_nil _ hrows
  have h := hpg.2.1 row hrow
  obtain ⟨e1, e2, e3⟩ := fields_spec h
  rw [← (encFs_size h hs).1]
  have hx : fields l.cols row ≠ [] := by
    intro hx
    rw [hx] at e1
    exact hcols (List.map_eq_nil_iff.mp e1.symm)
  obtain ⟨f, hf⟩ := List.exists_mem_of_ne_nil _ hx
  refine fRaw_pos hf ?_
  obtain ⟨t, x, ht⟩ := fields_num h hs f hf
  rw [ht]
  simp

theorem mapM_ok_map {α β : Type} (f : α → Except PyErr β) (g : α → β) (l : List α)
    (h : ∀ a ∈ l, f a = .ok (g a)) : l.mapM f = .ok (l.map g) := by
  induction l with
  | nil => rfl
  | cons a l ih =>
    rw [List.map_cons, mapM_ok_cons f a l (g a) (l.map g) (h a (by simp)) (ih fun a ha => h a (by simp [ha]))]

/-- Columns of a page with at least one row. -/
theorem Reader.pageCols_ok {r : Reader} {l : Layout} (hd : r.Describes l) (hl : l.Ok) {pg : Page}
    (hpg : PageOk r.maxStr l pg) (hcols : l.cols ≠ []) (hrows : pg.rows ≠ []) {p : Pos} (hp : r.PosOk p)
    {rest : Bytes} (hf : r.file.drop (r.cur p) = colBytes pg ++ rest) (hc : r.cur p ≤ r.file.length) :
    ∃ cd, r.getCols pg.rows.length p = .ok (cd, r.adv p (colBytes pg).length) ∧
      addPage r.maxStr cd = .ok (rowRecords l pg) := by
  by_cases hs : SType.str ∈ l.cols.map Prod.snd
  · have hcne : r.cols ≠ [] := by
      intro h
      have := hd.cols
      rw [h, List.map_nil] at this
      exact hcols (List.map_eq_nil_iff.mp this.symm)
    have hk : r.colKeys = colGroups r.cols [] := by
      unfold Reader.colKeys
      rw [if_neg hcne, hd.binary, if_neg (by simp)]
    have h1 : r.getCols pg.rows.length p = r.getRows (colGroups r.cols []) pg.rows.length p := by
      unfold Reader.getCols
      rw [hk]
      obtain ⟨row, hrow⟩ := List.exists_mem_of_ne_nil _ hrows
      have h := hpg.2.1 row hrow
      rw [colDks_fields h r.cols [] hd.cols]
      split
      · rename_i dk he
        exact absurd he (colDks_not_single _ _ (fields_has_str h hs) dk)
      · rfl
    refine ⟨_, h1.trans (Reader.getRows_ok hd hl hcols pg.rows p hp hpg.2.1 hpg.2.2.2.2 rest hf hc), ?_⟩
    unfold addPage
    rw [List.mapM_map, mapM_ok_map _ (fun row => [fields l.cols row])]
    · simp only [bind, Except.bind]
      congr 1
      unfold rowRecords
      rw [← List.flatMap_def, List.map_eq_flatMap]
      rfl
    · intro row hrow
      have h := hpg.2.1 row hrow
      obtain ⟨e1, e2, e3⟩ := fields_spec h
      have hn : ∀ f ∈ fields l.cols row, f.1 ≠ recLenName := by
        intro f hf hn
        apply hl.2.2.2
        rw [← e1, ← hn]
        exact List.mem_map.mpr ⟨f, hf, rfl⟩
      obtain ⟨L, h1, h2⟩ := mergeAll_cols (m := r.maxStr) (fields l.cols row) [] (by simpa using e2) (by simpa using hn)
      simp only [Function.comp]
      rw [merge_general (colArrs_length _ _ (fields_has_str h hs)) h1 ?_, h2, List.nil_append]
      rw [names_cols _ _ (by simpa using hn), List.nil_append, e1]
      exact hl.2.2.1
  · have hk := Reader.colKeys_num hd hpg hcols hs hrows
    have hlen := colBytes_length hpg hs
    have hread := Reader.readArr_ok hp (itemSize_numDt hl hpg hs hrows) (rowSize_pos hpg hcols hs hrows) hf hlen hc
    refine ⟨[[⟨numDt l.cols, rowRecords l pg⟩]], ?_, ?_⟩
    · unfold Reader.getCols
      rw [hk]
      simp only [hread, bind, Except.bind, hlen]
      congr 4
      have hb : colBytes pg = (rowRecords l pg).flatMap fRaw := by
        unfold colBytes rowRecords
        rw [List.flatMap_map]
        refine List.flatMap_congr ?_
        intro row hrow
        exact (encFs_size (hpg.2.1 row hrow) hs).2.symm
      have hl2 : pg.rows.length = (rowRecords l pg).length := by simp [rowRecords]
      rw [hb, hl2]
      rw [decodeRows_raw (m := r.maxStr) _ ?_ rest]
      intro fs hfs
      obtain ⟨row, hrow, rfl⟩ := List.mem_map.mp hfs
      have h := hpg.2.1 row hrow
      exact ⟨(fields_spec h).2.1, fDt_fields h hs, (encFs_size h hs).1⟩
    · simp [addPage, merge, bind, Except.bind, pure, Except.pure]

end Verif.Sdds
