import Verif.Sdds.LemmasAsciiWrite

/-!
# Lemmas on ASCII files that cannot be read back
-/

namespace Verif.Sdds

theorem mapM_error_head {α β : Type} (f : α → Except PyErr β) (a : α) (as : List α) {e : PyErr} (h : f a = .error e) :
    (a :: as).mapM f = .error e := by
  rw [List.mapM_cons, h]
  rfl

/-- `int(s)` fails on the first row of a table with a single column of integers. -/
theorem genfromtxt_int_error {c : Conv} {m : Nat} {f : Str × SType} (hk : KeptName f.1) (hf : f.2 = .num .long ∨ f.2 = .num .short) {s : Bytes}
    {ss : List Bytes} (hw : ∀ x ∈ s :: ss, WordText x) (hs : pyInt (latin1 s) = .error .valueError) (tail : Bytes) (ht : tail = [] ∨ tail = [10])
    (rest : List Bytes) :
    genfromtxt c true [tKey m f] (some ((s :: ss).length : Int)) ((s :: ss).map (fun x => rowLine tail [x]) ++ rest) = .error .valueError := by
  have hrows : (s :: ss).map (fun x => rowLine tail [x]) = ((s :: ss).map fun x => [x]).map (rowLine tail) := by
    rw [List.map_map]
    rfl
  have h2 : firstCount true ((s :: ss).map (fun x => rowLine tail [x]) ++ rest) = 1 := by
    have hfl : fieldsOf true (rowLine tail [s]) = [s] := fieldsOf_row (by simp) (by simpa using hw s (by simp)) tail ht
    unfold firstCount
    rw [List.map_cons, List.cons_append, List.map_cons, hfl, List.find?_cons_of_pos (by simp)]
    rfl
  have hg := genRows_rows tail ht 1 (by decide) rest ((s :: ss).map fun x => [x]) (by simp) (by
    intro ws hws
    obtain ⟨x, hx, rfl⟩ := List.mem_map.mp hws
    exact ⟨rfl, by simpa using hw x hx⟩)
  rw [List.length_map] at hg
  unfold genfromtxt
  rw [if_neg (by simp only [Option.getD_some, List.length_cons]; omega), easyDtype_kept (dk := [tKey m f])]
  · simp only [bind, Except.bind, h2]
    rw [show Option.map Int.toNat (some ((s :: ss).length : Int)) = some (s :: ss).length by simp, hrows, hg]
    simp only [Bool.false_eq_true, if_false]
    rw [List.map_cons, mapM_error_head]
    unfold textRec tKey textVal
    rcases hf with hf | hf
    · rw [hf]
      simp only [strictNum, hs, Except.bind, Except.map, if_true]
    · rw [hf]
      simp only [strictNum, hs, Except.bind, Except.map, if_true]
  · intro k hk
    rw [List.mem_singleton.mp hk]
    exact tKey_known m f
  · intro k hk
    rw [List.mem_singleton.mp hk]
    assumption
  · simp

/-- The page fails when its table fails. `t'` is a page with the same parameters and number of rows that holds `pg`. -/
theorem Reader.textPage_colError {r : Reader} {l : Layout} (hd : r.DescribesText l) (hl : l.TextOk) {c : Conv} {t t' : TPage} {pg : Page}
    (h : t'.Holds c r.maxStr l pg) (hp1 : t'.params = t.params) (hp2 : t'.rows.length = t.rows.length) (hpos : t.rows ≠ []) (p : TPos)
    (hp : r.TPosOk p) (rest : List Bytes) (hleft : r.left p = (t.lines l).map (· ++ r.tail) ++ rest) (acc : Pages) {e : PyErr}
    (he : genfromtxt c true (l.cols.map (tKey r.maxStr)) (some (t.rows.length : Int)) (t.rows.map (rowLine r.tail) ++ rest) = .error e) :
    r.textPage c true true p acc = .error e := by
  have hcne : l.cols ≠ [] := by
    intro h0
    have := h.noRows h0
    rw [this] at hp2
    exact hpos (List.length_eq_zero_iff.mp hp2.symm)
  have htx : pTexts l t = pTexts l t' := by unfold pTexts; rw [hp1, hp2]
  rw [lines_eq l t r.tail (fun h0 => absurd h0 hcne), List.append_assoc, htx] at hleft
  obtain ⟨p1, e1, e2, e3⟩ := Reader.textParams_ok (r := r) (c := c) (t.rows.map (rowLine r.tail) ++ rest) (pFields l) (pTexts l t') (pVals l pg)
    (pFields_kept hl) h.pText h.pAll [] p hp hleft
  have hm := textMerge_ok h.pAll (pFields_names hl).1 (pFields_names hl).2
  unfold Reader.textPage
  rw [hd.paramKeys, e1]
  simp only [bind, Except.bind, List.nil_append, if_true, hm, Reader.textRowCount_ok hd hl h]
  rw [if_neg (by rw [hp2]; simp; exact hpos), if_pos (by simp)]
  have hsrc : (r.source p1).drop p1.position = t.rows.map (rowLine r.tail) ++ rest := e3
  unfold Reader.textCols
  rw [hd.colKeys hcne, hsrc, List.headD_cons, hp2, he]
  rfl

/-- An error in the first page ends `read`. -/
theorem Reader.readText_error {r : Reader} {c : Conv} {e : PyErr} (fuel : Nat)
    (h0 : r.textEnd ⟨if r.buffer then r.lineCount else 0, fileLines (r.file.drop r.headerEnd)⟩ = false)
    (h1 : r.textPage c true true ⟨if r.buffer then r.lineCount else 0, fileLines (r.file.drop r.headerEnd)⟩ ⟨[], []⟩ = .error e) :
    r.readText c (fuel + 1) none = some (.error e) := by
  unfold Reader.readText
  rw [if_neg (by simp)]
  simp only
  unfold Reader.textLoop
  rw [if_neg (by simp [pastPages]), if_neg (by rw [h0]; simp)]
  have hw : wantedPage none 0 = true := rfl
  rw [hw, Option.isNone_none, h1]

/-! ## Tables without rows -/

theorem Reader.textParams_append {r : Reader} {c : Conv} : ∀ (ds es : List Dtype) (acc : List Arr) (p : TPos),
    r.textParams c (ds ++ es) acc p = (r.textParams c ds acc p).bind fun x => r.textParams c es x.1 x.2 := by
  intro ds
  induction ds with
  | nil => intro es acc p; rfl
  | cons dk ds ih =>
    intro es acc p
    rw [List.cons_append, Reader.textParams, Reader.textParams]
    cases genfromtxt c false dk (some 1) ((r.source p).drop p.position) with
    | error e => rfl
    | ok x =>
      simp only [bind, Except.bind]
      rw [ih]
      rfl

/-- Nothing left: an array without rows. -/
theorem genfromtxt_nil {c : Conv} {m : Nat} {f : Str × SType} (hk : KeptName f.1) :
    genfromtxt c false [tKey m f] (some 1) [] = .ok (⟨[tKey m f], []⟩, []) := by
  unfold genfromtxt
  rw [if_neg (by decide), easyDtype_kept (dk := [tKey m f])]
  · rfl
  · intro k hk
    rw [List.mem_singleton.mp hk]
    exact tKey_known m f
  · intro k hk
    rw [List.mem_singleton.mp hk]
    assumption
  · simp

theorem mapM_error_last {α β : Type} (f : α → Except PyErr β) (as : List α) (bs : List β) (a : α) {e : PyErr} (h : as.mapM f = .ok bs)
    (ha : f a = .error e) : (as ++ [a]).mapM f = .error e := by
  rw [List.mapM_append, h]
  simp only [bind, Except.bind]
  rw [mapM_error_head f a [] ha]

/-- If the line with the number of rows is missing the arrays cannot be merged. -/
theorem textMerge_missing {c : Conv} {m : Nat} {fs : List (Str × SType)} {ss : List Bytes} {vs : List Val} (h : AllDenote c m fs ss vs)
    (hne : fs ≠ []) {g : Str × SType} (hd : ((fs ++ [g]).map Prod.fst).Nodup) (hr : recLenName ∉ (fs ++ [g]).map Prod.fst) :
    textMerge m ((fs ++ [g]).map fun f => [tKey m f]) (List.zipWith (pArr m) fs vs ++ [⟨[tKey m g], []⟩]) = .error .valueError := by
  have key : ∀ {fs : List (Str × SType)} {ss : List Bytes} {vs : List Val} (names : List Str), AllDenote c m fs ss vs →
      recLenName ∉ fs.map Prod.fst → (∀ f ∈ fs, f.1 ∈ names) →
      (List.zipWith (pArr m) fs vs).mapM (textMergeOne m names) = .ok (((fs.map Prod.fst).zip vs).map fun x => [x]) := by
    intro fs
    induction fs with
    | nil => intro ss vs _ h _ _; cases ss <;> cases vs <;> first | rfl | exact absurd h id
    | cons f fs ih =>
      intro ss vs names h hr hn
      cases ss with
      | nil => exact absurd h id
      | cons s ss =>
        cases vs with
        | nil => exact absurd h id
        | cons v vs =>
          rw [List.map_cons, List.mem_cons, not_or] at hr
          refine mapM_ok_cons _ _ _ _ _ ?_ (ih names h.2 hr.2 fun g hg => hn g (by simp [hg]))
          have hne : f.1 ≠ recLenName := fun he => hr.1 he.symm
          have hmem := hn f (by simp)
          unfold textMergeOne pArr
          have e : ([tKey m f].map Prod.fst : List Str) = [f.1] := rfl
          simp only [e]
          rw [if_neg (by simp [hne]), if_pos (by simp [hne, hmem])]
          unfold mergeRec
          rw [List.filter_cons_of_pos (by simpa using hne), List.filter_nil]
          refine mapM_ok_cons _ _ _ _ _ ?_ rfl
          simp only [castVal_denoted h.1, bind, Except.bind]
  have hnames : ((((fs ++ [g]).map fun f => [tKey m f]).flatMap fun dk => dk.map Prod.fst).filter (· ≠ recLenName)) =
      (fs ++ [g]).map Prod.fst := by
    have e : (((fs ++ [g]).map fun f => [tKey m f]).flatMap fun dk => dk.map Prod.fst) = (fs ++ [g]).map Prod.fst := by
      generalize fs ++ [g] = L
      induction L with
      | nil => rfl
      | cons f fs ih =>
        rw [List.map_cons, List.flatMap_cons, ih]
        rfl
    rw [e, List.filter_eq_self]
    intro a ha
    simp only [ne_eq, decide_eq_true_eq]
    rintro rfl
    exact hr ha
  have hlen := AllDenote.length h
  unfold textMerge
  split
  · rename_i a he
    have := congrArg List.length he
    simp only [List.length_append, List.length_zipWith, List.length_cons, List.length_nil] at this
    have := List.length_pos_of_ne_nil hne
    omega
  · simp only [hnames]
    rw [if_neg (by simpa using hd), mapM_error_last _ _ _ _ (key ((fs ++ [g]).map Prod.fst) h ?_ ?_) ?_]
    · rfl
    · intro hm
      exact hr (by rw [List.map_append]; exact List.mem_append_left _ hm)
    · intro f hf
      exact List.mem_map.mpr ⟨f, List.mem_append_left _ hf, rfl⟩
    · have hg : g.1 ≠ recLenName := by
        intro he
        exact hr (he ▸ List.mem_map.mpr ⟨g, by simp, rfl⟩)
      unfold textMergeOne
      have e : ([tKey m g].map Prod.fst : List Str) = [g.1] := rfl
      simp only [e]
      rw [if_neg (by simp [hg]), if_pos (by simp [hg])]

/-! ## Integers written as floats -/

theorem digitsVal_none : ∀ (s : Str) (acc : Nat), '.' ∈ s → digitsVal acc s = none := by
  intro s
  induction s with
  | nil => intro acc h; cases h
  | cons a s ih =>
    intro acc h
    unfold digitsVal
    rcases List.mem_cons.mp h with rfl | h
    · rfl
    · rw [ih _ h]
      split <;> rfl

theorem parseInt_point {s : Str} (h : '.' ∈ s) : parseInt s = .error .valueError := by
  cases s with
  | nil => cases h
  | cons a s =>
    unfold parseInt
    simp only
    by_cases ha : (a == '-' || a == '+') = true
    · rw [if_pos ha]
      have hs : '.' ∈ s := by
        rcases List.mem_cons.mp h with rfl | h
        · exact absurd ha (by decide)
        · exact h
      cases s with
      | nil => cases hs
      | cons b s => simp only [digitsVal_none _ 0 hs]
    · rw [if_neg ha, digitsVal_none _ 0 h]

theorem mem_dropWhile_of_neg {α : Type} {q : α → Bool} {a : α} (ha : q a = false) : ∀ {l : List α}, a ∈ l → a ∈ l.dropWhile q := by
  intro l
  induction l with
  | nil => intro h; cases h
  | cons b l ih =>
    intro h
    by_cases hb : q b = true
    · rw [List.dropWhile_cons_of_pos hb]
      rcases List.mem_cons.mp h with rfl | h
      · rw [ha] at hb; cases hb
      · exact ih h
    · rw [List.dropWhile_cons_of_neg hb]
      exact h

theorem pyInt_point {s : Str} (h : '.' ∈ s) (hu : '_' ∉ s) : pyInt s = .error .valueError := by
  unfold pyInt
  rw [if_neg hu]
  refine parseInt_point ?_
  unfold strip
  rw [List.mem_reverse]
  refine mem_dropWhile_of_neg (by decide) ?_
  rw [List.mem_reverse]
  exact mem_dropWhile_of_neg (by decide) h

/-- A page with the same parameters and number of rows whose table holds zeros. -/
def zeroPage (t : TPage) : TPage := ⟨t.params, t.rows.map fun _ => [utf8 "0".toList]⟩

theorem zeroPage_holds {env : Env} {sci : Sci} {c : Conv} {m : Nat} {w : Writer} {rows : Nat} (h : w.TextOk env sci c m rows) {col : WCol}
    (hc : w.cols = [col]) {t : FType} (ht : t = .long ∨ t = .short) (hn : numType col.type = some t) :
    (zeroPage (textPageT env sci w rows)).Holds c m (textLayout w)
      ⟨(textPageV w rows).params, (textPageT env sci w rows).rows.map fun _ => [.num t 0]⟩ where
  paramText := by
    intro s hs
    obtain ⟨p, hp, hv⟩ := List.mem_filterMap.mp hs
    obtain ⟨v, hv', rfl⟩ := Option.map_eq_some_iff.mp hv
    rcases h.storable p hp with ⟨u, h1, h2, _⟩ | ⟨u, h1, _⟩
    · rw [hv'] at h1
      cases h1
      exact textData_line h2
    · rw [hv'] at h1; cases h1
  rowText := by
    intro ws hws s hs
    obtain ⟨x, _, rfl⟩ := List.mem_map.mp hws
    rw [List.mem_singleton.mp hs]
    exact ⟨by decide, by decide, by decide⟩
  params := textParams_denote _ h.storable
  rows := by
    unfold zeroPage
    rw [List.forall₂_map_left_iff, List.forall₂_map_right_iff, List.forall₂_same]
    intro x _
    left
    unfold textLayout
    rw [hc]
    simp only [List.map_cons, List.map_nil, hn, Option.getD_some]
    refine ⟨?_, trivial⟩
    rcases ht with rfl | rfl <;> exact ⟨0, by decide +kernel, by decide, by decide, by decide⟩
  few := by
    show (List.map _ ((List.range rows).map _)).length < _
    rw [List.length_map, List.length_map, List.length_range]
    exact h.short
  noRows := by
    intro h0
    have : w.cols = [] := List.map_eq_nil_iff.mp h0
    rw [hc] at this
    cases this

theorem textPage_rowText {env : Env} {sci : Sci} {c : Conv} {m : Nat} {w : Writer} {rows : Nat} (h : w.TextOk env sci c m rows) :
    ∀ ws ∈ (textPageT env sci w rows).rows, ∀ s ∈ ws, WordText s := by
  intro ws hws s hs
  obtain ⟨i, hi, rfl⟩ := List.mem_map.mp hws
  obtain ⟨u, hu, rfl⟩ := List.mem_map.mp hs
  obtain ⟨col, hc, rfl⟩ := List.mem_map.mp hu
  obtain ⟨t, _, _, h3⟩ := h.has col hc
  exact (h3 _ (getD_mem (by rw [h.lengths col hc]; exact List.mem_range.mp hi) 0)).2.2.1

theorem textPage_paramText {env : Env} {sci : Sci} {c : Conv} {m : Nat} {w : Writer} {rows : Nat} (h : w.TextOk env sci c m rows) :
    ∀ s ∈ (textPageT env sci w rows).params, LineText s := by
  intro s hs
  obtain ⟨p, hp, hv⟩ := List.mem_filterMap.mp hs
  obtain ⟨v, hv', rfl⟩ := Option.map_eq_some_iff.mp hv
  rcases h.storable p hp with ⟨u, h1, h2, _⟩ | ⟨u, h1, _⟩
  · rw [hv'] at h1
    cases h1
    exact textData_line h2
  · rw [hv'] at h1; cases h1

/-- The number of rows is left out of a table without rows. -/
theorem saveAscii_noRows {env : Env} {sci : Sci} {c : Conv} {m : Nat} {w : Writer} (h : w.TextOk env sci c m 0) :
    saveAscii env sci w = utf8 (docText env.ft w).text ++ asLines (textPageT env sci w 0).params := by
  unfold saveAscii
  rw [stackRows_ok h.lengths h.noCols]
  simp only [if_true, List.range_zero, List.flatMap_nil, List.append_nil]
  rw [headerText_ascii h.header]
  congr 1
  unfold paramsText asLines textPageT
  rw [utf8_flatMap]
  simp only [utf8_newline]
  generalize w.params = ps
  induction ps with
  | nil => rfl
  | cons p ps ih =>
    cases hd : p.data with
    | none => simp only [List.filterMap_cons, hd, Option.map_none, ih]
    | some v => simp only [List.filterMap_cons, hd, Option.map_some, List.flatMap_cons, ih]

/-- A page that lacks the line with the number of rows. -/
theorem Reader.textPage_missing {r : Reader} {l : Layout} (hd : r.DescribesText l) (hl : l.TextOk) (hcols : l.cols ≠ []) (hpar : l.params ≠ [])
    {c : Conv} {ss : List Bytes} {vs : List Val} (ht : ∀ s ∈ ss, LineText s) (h : AllDenote c r.maxStr l.params ss vs) (p : TPos)
    (hp : r.TPosOk p) (hleft : r.left p = ss.map (· ++ r.tail)) (acc : Pages) :
    r.textPage c true true p acc = .error .valueError := by
  have hf : pFields l = l.params ++ [(rowCountsName, .num .long)] := by
    unfold pFields
    rw [if_neg (fun h0 => hcols (List.isEmpty_iff.mp h0))]
  have hk := pFields_kept hl
  have hn := pFields_names hl
  rw [hf] at hk hn
  obtain ⟨p1, e1, e2, e3⟩ := Reader.textParams_ok (r := r) (c := c) [] l.params ss vs
    (fun f hf => hk f (List.mem_append_left _ hf)) ht h [] p hp (by rw [hleft, List.append_nil])
  have e3' : (r.source p1).drop p1.position = [] := e3
  unfold Reader.textPage
  rw [hd.paramKeys, hf, List.map_append, Reader.textParams_append, e1]
  simp only [Except.bind, List.map_cons, List.map_nil, List.nil_append]
  unfold Reader.textParams
  rw [e3', genfromtxt_nil (hk _ (by simp))]
  have hm := textMerge_missing h hpar hn.1 hn.2
  rw [List.map_append] at hm
  simp only [List.map_cons, List.map_nil] at hm
  simp only [bind, Except.bind, Reader.textParams, if_true, hm]

end Verif.Sdds
