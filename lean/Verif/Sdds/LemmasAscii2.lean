import Verif.Sdds.LemmasAscii

/-!
# Lemmas on ASCII SDDS files: pages and whole files
-/

namespace Verif.Sdds

/-- The reader was opened on an ASCII file with row counts whose header describes layout `l`. -/
structure Reader.DescribesText (r : Reader) (l : Layout) : Prop where
  ascii : r.ascii = true
  counts : r.noRowCounts = false
  params : (r.params.filter fun p => p.fixed = none).map (fun p => (p.name, p.type)) =
    l.params.map fun f => (f.1, f.2.name)
  cols : r.cols.map (fun c => (c.name, c.type)) = l.cols.map fun f => (f.1, f.2.name)

/-- Names in a layout that survive. -/
structure Layout.TextOk (l : Layout) : Prop where
  ok : l.Ok
  params : ∀ f ∈ l.params, KeptName f.1
  cols : ∀ f ∈ l.cols, KeptName f.1

/-- The fields read one line at a time. -/
def pFields (l : Layout) : List (Str × SType) := l.params ++ if l.cols.isEmpty then [] else [(rowCountsName, .num .long)]

def pTexts (l : Layout) (t : TPage) : List Bytes := t.params ++ if l.cols.isEmpty then [] else [utf8 (natStr t.rows.length)]

def pVals (l : Layout) (pg : Page) : List Val := pg.params ++ if l.cols.isEmpty then [] else [.num .long pg.rows.length]

theorem tKey_eq (m : Nat) (f : Str × SType) (name type : Str) (h : (name, type) = (f.1, f.2.name)) :
    (name, if type = "string".toList then KType.strN m else typeKey type) = tKey m f := by
  obtain ⟨n, t⟩ := f
  simp only [Prod.mk.injEq] at h
  rw [h.1, h.2]
  unfold tKey
  cases t with
  | num t => rw [if_neg (by rw [SType.name_str]; simp), typeKey_name]
  | str => rw [if_pos (by rw [SType.name_str])]

theorem paramKeys_text (ps : List ParamField) (m : Nat) : ∀ (fs : List (Str × SType)),
    (ps.filter fun p => p.fixed = none).map (fun p => (p.name, p.type)) = fs.map (fun f => (f.1, f.2.name)) →
    ps.flatMap (paramKeysOf true m) = fs.map fun f => [tKey m f] := by
  induction ps with
  | nil =>
    intro fs h
    simp only [List.filter_nil, List.map_nil] at h
    rw [List.map_eq_nil_iff.mp h.symm]; rfl
  | cons p ps ih =>
    intro fs h
    by_cases hp : p.fixed = none
    · rw [List.filter_cons_of_pos (by simpa using hp)] at h
      cases fs with
      | nil => simp at h
      | cons f fs =>
        simp only [List.map_cons, List.cons.injEq] at h
        rw [List.flatMap_cons, List.map_cons, ih fs h.2, ← tKey_eq m f _ _ h.1]
        unfold paramKeysOf
        rw [if_pos hp]
        by_cases hs : p.type = "string".toList
        · rw [if_pos hs, if_pos hs, if_pos rfl]; rfl
        · rw [if_neg hs, if_neg hs]; rfl
    · rw [List.filter_cons_of_neg (by simpa using hp)] at h
      rw [List.flatMap_cons, ih fs h]
      unfold paramKeysOf
      rw [if_neg hp]; rfl

theorem map_isEmpty {α β γ : Type} {f : α → γ} {g : β → γ} {a : List α} {b : List β} (h : a.map f = b.map g) : a.isEmpty = b.isEmpty := by
  cases a <;> cases b <;> simp at h ⊢

theorem Reader.DescribesText.paramKeys {r : Reader} {l : Layout} (h : r.DescribesText l) :
    r.paramKeys = (pFields l).map fun f => [tKey r.maxStr f] := by
  unfold Reader.paramKeys pFields
  simp only [h.ascii, h.counts, paramKeys_text r.params r.maxStr l.params h.params, map_isEmpty h.cols]
  cases hc : l.cols.isEmpty
  · simp [tKey, rowCountKey]
  · simp

theorem Reader.DescribesText.colKeys {r : Reader} {l : Layout} (h : r.DescribesText l) (hc : l.cols ≠ []) :
    r.colKeys = [l.cols.map (tKey r.maxStr)] := by
  have e : r.cols.map (fun c => (c.name, if c.type = "string".toList then KType.strN r.maxStr else typeKey c.type)) =
      l.cols.map (tKey r.maxStr) := by
    have := h.cols
    generalize r.cols = cs at this
    generalize l.cols = fs at this
    induction cs generalizing fs with
    | nil => cases fs with
      | nil => rfl
      | cons f fs => simp at this
    | cons c cs ih =>
      cases fs with
      | nil => simp at this
      | cons f fs =>
        rw [List.map_cons, List.map_cons, List.cons.injEq] at this
        rw [List.map_cons, List.map_cons, ih fs this.2, tKey_eq r.maxStr f _ _ this.1]
  unfold Reader.colKeys
  rw [if_neg, if_pos h.ascii, e]
  intro h0
  have := h.cols
  rw [h0] at this
  exact hc (List.map_eq_nil_iff.mp this.symm)

/-- The lines still to be read. -/
def Reader.left (r : Reader) (p : TPos) : List Bytes := (r.source p).drop p.position

/-- End of the lines that the reader sees. -/
def Reader.tail (r : Reader) : Bytes := if r.buffer then [] else [10]

theorem Reader.tail_cases (r : Reader) : r.tail = [] ∨ r.tail = [10] := by
  unfold Reader.tail
  split <;> simp

/-- Without buffer the position stays at 0. -/
def Reader.TPosOk (r : Reader) (p : TPos) : Prop := r.buffer = false → p.position = 0

/-- The arrays of the parameters. -/
def pArr (m : Nat) (f : Str × SType) (v : Val) : Arr := ⟨[tKey m f], [[(f.1, v)]]⟩

theorem Reader.textParams_ok {r : Reader} {c : Conv} (rest : List Bytes) : ∀ (fs : List (Str × SType)) (ss : List Bytes) (vs : List Val),
    (∀ f ∈ fs, KeptName f.1) → (∀ s ∈ ss, LineText s) → AllDenote c r.maxStr fs ss vs → ∀ (acc : List Arr) (p : TPos), r.TPosOk p →
    r.left p = ss.map (· ++ r.tail) ++ rest →
    ∃ p', r.textParams c (fs.map fun f => [tKey r.maxStr f]) acc p = .ok (acc ++ List.zipWith (pArr r.maxStr) fs vs, p') ∧
      r.TPosOk p' ∧ r.left p' = rest := by
  intro fs
  induction fs with
  | nil =>
    intro ss vs _ _ h acc p hp hl
    cases ss with
    | cons s ss => cases vs <;> exact absurd h id
    | nil => exact ⟨p, by simp [Reader.textParams], hp, by simpa using hl⟩
  | cons f fs ih =>
    intro ss vs hk hs h acc p hp hl
    cases ss with
    | nil => exact absurd h id
    | cons s ss =>
      cases vs with
      | nil => exact absurd h id
      | cons v vs =>
        have hg := genfromtxt_param (hk f (by simp)) (hs s (by simp)) h.1 r.tail r.tail_cases (ss.map (· ++ r.tail) ++ rest)
        have hsrc : (r.source p).drop p.position = (s ++ r.tail) :: (ss.map (· ++ r.tail) ++ rest) := hl
        have hih := ih ss vs (fun x hx => hk x (by simp [hx])) (fun x hx => hs x (by simp [hx])) h.2 (acc ++ [pArr r.maxStr f v])
          (if r.buffer then { p with position := p.position + 1 } else { p with rest := ss.map (· ++ r.tail) ++ rest })
        obtain ⟨p', e1, e2, e3⟩ := hih (by
            intro hb
            rw [hb]
            exact hp hb) (by
            cases hb : r.buffer with
            | true =>
              simp only [if_true]
              have h1 : r.source p = bufferLines r.file := by unfold Reader.source; rw [hb]; rfl
              rw [h1] at hsrc
              unfold Reader.left Reader.source
              rw [hb]
              simp only [if_true]
              rw [← List.drop_drop, hsrc]
              rfl
            | false =>
              simp only [Bool.false_eq_true, if_false]
              unfold Reader.left Reader.source
              rw [hb]
              simp only [Bool.false_eq_true, if_false]
              rw [hp hb]
              rfl)
        refine ⟨p', ?_, e2, e3⟩
        rw [List.map_cons, Reader.textParams, hsrc, hg]
        simp only [bind, Except.bind]
        rw [show (⟨[tKey r.maxStr f], [[(f.1, v)]]⟩ : Arr) = pArr r.maxStr f v from rfl, e1]
        simp

theorem pFields_kept {l : Layout} (h : l.TextOk) : ∀ f ∈ pFields l, KeptName f.1 := by
  intro f hf
  unfold pFields at hf
  rcases List.mem_append.mp hf with hf | hf
  · exact h.params f hf
  · cases hc : l.cols.isEmpty with
    | true => rw [hc] at hf; cases hf
    | false =>
      rw [hc] at hf
      have : f = (rowCountsName, .num .long) := by simpa using hf
      subst this
      exact ⟨by decide, by decide, by decide⟩

theorem natStr_byte (n : Nat) : ∀ b ∈ utf8 (natStr n), 48 ≤ b ∧ b ≤ 57 := by
  have ha : Ascii (natStr n) := intStr_ascii (.ofNat n)
  rw [utf8_ascii ha]
  intro b hb
  obtain ⟨ch, hc, rfl⟩ := List.mem_map.mp hb
  have := Char.isDigit_iff_toNat.mp (natStr_digits n ch hc)
  have e1 : '0'.toNat = 48 := rfl
  have e2 : '9'.toNat = 57 := rfl
  rw [e1, e2] at this
  rw [UInt8.le_iff_toNat_le, UInt8.le_iff_toNat_le, UInt8.toNat_ofNat']
  have h3 : ch.toNat % 2 ^ 8 = ch.toNat := Nat.mod_eq_of_lt (by omega)
  rw [h3]
  exact this

theorem natStr_lineText (n : Nat) : LineText (utf8 (natStr n)) := by
  have hb := natStr_byte n
  refine ⟨?_, ⟨fun h => ?_, fun h => ?_⟩, fun h => ?_, fun h => ?_, fun h => ?_⟩
  · have ha : Ascii (natStr n) := intStr_ascii (.ofNat n)
    rw [utf8_ascii ha]
    intro h
    exact natStr_ne_nil n (List.map_eq_nil_iff.mp h)
  · exact absurd (hb _ h) (by decide)
  · exact absurd (hb _ h) (by decide)
  · exact absurd (hb _ h) (by decide)
  · exact absurd (hb _ (List.mem_of_mem_head? h)) (by decide)
  · exact absurd (hb _ (List.mem_of_mem_getLast? h)) (by decide)

theorem toBits_nat {n : Nat} (h : n < 2147483648) : toBits 4 (n : Int) = n := by
  unfold toBits
  norm_num
  omega

theorem AllDenote.append {c : Conv} {m : Nat} : ∀ {fs : List (Str × SType)} {ss : List Bytes} {vs : List Val} {f : Str × SType} {s : Bytes} {v : Val},
    AllDenote c m fs ss vs → Denotes c m f.2 s v → AllDenote c m (fs ++ [f]) (ss ++ [s]) (vs ++ [v])
  | [], [], [], _, _, _, _, h => ⟨h, trivial⟩
  | [], [], _ :: _, _, _, _, h, _ => absurd h id
  | [], _ :: _, _, _, _, _, h, _ => absurd h id
  | _ :: _, [], _, _, _, _, h, _ => absurd h id
  | _ :: _, _ :: _, [], _, _, _, h, _ => absurd h id
  | _ :: _, _ :: _, _ :: _, _, _, _, h, h' => ⟨h.1, AllDenote.append h.2 h'⟩

theorem TPage.Holds.length {c : Conv} {m : Nat} {l : Layout} {t : TPage} {pg : Page} (h : t.Holds c m l pg) :
    pg.rows.length = t.rows.length := h.rows.length_eq.symm

theorem TPage.Holds.pAll {c : Conv} {m : Nat} {l : Layout} {t : TPage} {pg : Page} (h : t.Holds c m l pg) :
    AllDenote c m (pFields l) (pTexts l t) (pVals l pg) := by
  unfold pFields pTexts pVals
  cases hc : l.cols.isEmpty with
  | true => simpa using h.params
  | false =>
    simp only [Bool.false_eq_true, if_false]
    refine AllDenote.append h.params ?_
    exact ⟨(t.rows.length : Int), rfl, by omega, by have := h.few; omega, by rw [toBits_nat h.few, h.length]⟩

theorem TPage.Holds.pText {c : Conv} {m : Nat} {l : Layout} {t : TPage} {pg : Page} (h : t.Holds c m l pg) :
    ∀ s ∈ pTexts l t, LineText s := by
  intro s hs
  unfold pTexts at hs
  rcases List.mem_append.mp hs with hs | hs
  · exact h.paramText s hs
  · cases hc : l.cols.isEmpty with
    | true => rw [hc] at hs; cases hs
    | false =>
      rw [hc] at hs
      have : s = utf8 (natStr t.rows.length) := by simpa using hs
      rw [this]
      exact natStr_lineText _

theorem pFields_names {l : Layout} (h : l.TextOk) : ((pFields l).map Prod.fst).Nodup ∧ recLenName ∉ (pFields l).map Prod.fst := by
  obtain ⟨h1, h2, _⟩ := h.ok
  rw [List.nodup_cons] at h1
  unfold pFields
  cases hc : l.cols.isEmpty with
  | true => simpa using ⟨h1.2, by simpa using h2⟩
  | false =>
    simp only [Bool.false_eq_true, if_false, List.map_append, List.map_cons, List.map_nil]
    constructor
    · rw [List.nodup_append]
      refine ⟨h1.2, by simp, ?_⟩
      intro a ha b hb
      rw [List.mem_singleton.mp hb]
      rintro rfl
      exact h1.1 ha
    · intro hm
      rcases List.mem_append.mp hm with hm | hm
      · exact h2 hm
      · exact absurd (List.mem_singleton.mp hm) (by decide)

theorem mapM_lastField (rec : Record) (hd : (rec.map Prod.fst).Nodup) : (rec.map Prod.fst).mapM (lastField rec) = .ok rec := by
  have key : ∀ sub : Record, (∀ x ∈ sub, x ∈ rec) → (sub.map Prod.fst).mapM (lastField rec) = .ok sub := by
    intro sub
    induction sub with
    | nil => intro _; rfl
    | cons x sub ih =>
      intro h
      refine mapM_ok_cons _ _ _ _ _ ?_ (ih fun y hy => h y (by simp [hy]))
      have hf : rec.filter (fun kv => kv.1 = x.1) = [x] := by
        have hx := h x (by simp)
        clear ih h
        induction rec with
        | nil => cases hx
        | cons y rec ih' =>
          rw [List.map_cons, List.nodup_cons] at hd
          rcases List.mem_cons.mp hx with rfl | hx
          · rw [List.filter_cons_of_pos (by simp), List.filter_eq_nil_iff.mpr]
            intro z hz he
            exact hd.1 (List.mem_map.mpr ⟨z, hz, by simpa using he⟩)
          · rw [List.filter_cons_of_neg, ih' hd.2 hx]
            intro he
            exact hd.1 (List.mem_map.mpr ⟨x, hx, by simpa using (of_decide_eq_true he).symm⟩)
      unfold lastField
      rw [hf]
      rfl
  exact key rec fun _ h => h

theorem textMerge_ok {c : Conv} {m : Nat} {fs : List (Str × SType)} {ss : List Bytes} {vs : List Val} (h : AllDenote c m fs ss vs)
    (hd : (fs.map Prod.fst).Nodup) (hr : recLenName ∉ fs.map Prod.fst) :
    textMerge m (fs.map fun f => [tKey m f]) (List.zipWith (pArr m) fs vs) = .ok [(fs.map Prod.fst).zip vs] := by
  have key : ∀ {fs : List (Str × SType)} {ss : List Bytes} {vs : List Val} (names : List Str), AllDenote c m fs ss vs →
      recLenName ∉ fs.map Prod.fst → (∀ f ∈ fs, f.1 ∈ names) →
      (List.zipWith (pArr m) fs vs).mapM (textMergeOne m names) = .ok (((fs.map Prod.fst).zip vs).map fun x => [x]) := by
    intro fs
    induction fs with
    | nil => intro ss vs _ h _ _; cases ss <;> cases vs <;> first | rfl | exact absurd h id
    | cons f fs ih =>
      intro ss vs names h hr hn
      cases ss with
      | nil => exact absurd h id
      | cons s ss =>
        cases vs with
        | nil => exact absurd h id
        | cons v vs =>
          rw [List.map_cons, List.mem_cons, not_or] at hr
          refine mapM_ok_cons _ _ _ _ _ ?_ (ih names h.2 hr.2 fun g hg => hn g (by simp [hg]))
          have hne : f.1 ≠ recLenName := fun he => hr.1 he.symm
          have hmem := hn f (by simp)
          unfold textMergeOne pArr
          have e : ([tKey m f].map Prod.fst : List Str) = [f.1] := rfl
          simp only [e]
          rw [if_neg (by simp [hne]), if_pos (by simp [hne, hmem])]
          unfold mergeRec
          rw [List.filter_cons_of_pos (by simpa using hne), List.filter_nil]
          refine mapM_ok_cons _ _ _ _ _ ?_ rfl
          simp only [castVal_denoted h.1, bind, Except.bind]
  have hlen := AllDenote.length h
  have hfst : ((fs.map Prod.fst).zip vs).map Prod.fst = fs.map Prod.fst := by
    rw [List.map_fst_zip]
    simp [hlen.2]
  by_cases h1 : ∃ a, List.zipWith (pArr m) fs vs = [a]
  · obtain ⟨a, ha⟩ := h1
    rw [ha]
    cases fs with
    | nil => simp at ha
    | cons f fs =>
      cases vs with
      | nil => simp at ha
      | cons v vs =>
        rw [List.zipWith_cons_cons, List.cons.injEq] at ha
        have hl2 := congrArg List.length ha.2
        simp only [List.length_zipWith, List.length_nil] at hl2
        simp only [List.length_cons] at hlen
        have hfs : fs = [] := List.length_eq_zero_iff.mp (by omega)
        have hvs : vs = [] := List.length_eq_zero_iff.mp (by omega)
        subst hfs hvs
        rw [← ha.1]
        rfl
  · have hnames : (((fs.map fun f => [tKey m f]).flatMap fun dk => dk.map Prod.fst).filter (· ≠ recLenName)) = fs.map Prod.fst := by
      have e : ((fs.map fun f => [tKey m f]).flatMap fun dk => dk.map Prod.fst) = fs.map Prod.fst := by
        clear h hd hr key hlen hfst h1
        induction fs with
        | nil => rfl
        | cons f fs ih =>
          rw [List.map_cons, List.flatMap_cons, ih]
          rfl
      rw [e, List.filter_eq_self]
      intro a ha
      simp only [ne_eq, decide_eq_true_eq]
      rintro rfl
      exact hr ha
    have hun : textMerge m (fs.map fun f => [tKey m f]) (List.zipWith (pArr m) fs vs) = (do
        let names := (((fs.map fun f => [tKey m f]).flatMap fun dk => dk.map Prod.fst).filter (· ≠ recLenName))
        if ¬ names.Nodup then .error .valueError
        else do
          let recs ← (List.zipWith (pArr m) fs vs).mapM (textMergeOne m names)
          let rec ← names.mapM (lastField recs.flatten)
          .ok [rec]) := by
      unfold textMerge
      split
      · rename_i a he
        exact absurd ⟨a, he⟩ h1
      · rfl
    rw [hun]
    simp only [hnames]
    rw [if_neg (by simpa using hd), key (fs.map Prod.fst) h hr fun f hf => List.mem_map.mpr ⟨f, hf, rfl⟩]
    simp only [bind, Except.bind]
    have hfl : (((fs.map Prod.fst).zip vs).map fun x => [x]).flatten = (fs.map Prod.fst).zip vs := by
      generalize (fs.map Prod.fst).zip vs = L
      induction L with
      | nil => rfl
      | cons a L ih => rw [List.map_cons, List.flatten_cons, ih]; rfl
    rw [hfl]
    have := mapM_lastField ((fs.map Prod.fst).zip vs) (by rw [hfst]; exact hd)
    rw [hfst] at this
    rw [this]

theorem textParamRecord_eq {c : Conv} {m : Nat} {l : Layout} {t : TPage} {pg : Page} (h : t.Holds c m l pg) :
    ((pFields l).map Prod.fst).zip (pVals l pg) = textParamRecord l pg := by
  unfold pFields pVals textParamRecord
  cases hc : l.cols.isEmpty with
  | true => simp
  | false =>
    simp only [Bool.false_eq_true, if_false, List.map_append, List.map_cons, List.map_nil]
    rw [List.zip_append]
    · rfl
    · rw [List.length_map, (AllDenote.length h.params).2]

theorem Reader.textRowCount_ok {r : Reader} {l : Layout} (hd : r.DescribesText l) (hl : l.TextOk) {c : Conv} {t : TPage} {pg : Page}
    (h : t.Holds c r.maxStr l pg) (p : TPos) :
    r.textRowCount (List.zipWith (pArr r.maxStr) (pFields l) (pVals l pg)) p = .ok (some (t.rows.length : Int)) := by
  unfold Reader.textRowCount
  cases hc : l.cols.isEmpty with
  | true =>
    have h0 : l.cols = [] := List.isEmpty_iff.mp hc
    have hr : r.cols = [] := by
      have := hd.cols
      rw [h0] at this
      exact List.map_eq_nil_iff.mp this
    rw [if_pos hr, h.noRows h0]
    rfl
  | false =>
    have hr : r.cols ≠ [] := by
      intro h0
      have := map_isEmpty hd.cols
      rw [h0, hc] at this
      cases this
    rw [if_neg hr, hd.counts]
    simp only [Bool.not_false, if_true]
    have hf : (List.zipWith (pArr r.maxStr) (pFields l) (pVals l pg)).find? (fun a => (a.dt.head?.map Prod.fst) = some rowCountsName) =
        some (pArr r.maxStr (rowCountsName, .num .long) (.num .long pg.rows.length)) := by
      unfold pFields pVals
      simp only [hc, Bool.false_eq_true, if_false]
      rw [List.zipWith_append (by rw [(AllDenote.length h.params).2]), List.find?_append]
      have hnone : (List.zipWith (pArr r.maxStr) l.params pg.params).find? (fun a => (a.dt.head?.map Prod.fst) = some rowCountsName) =
          none := by
        rw [List.find?_eq_none]
        intro a ha
        have hn : rowCountsName ∉ l.params.map Prod.fst := (List.nodup_cons.mp hl.ok.1).1
        rw [List.mem_iff_getElem] at ha
        obtain ⟨i, hi, rfl⟩ := ha
        rw [List.getElem_zipWith]
        intro he
        have he : some (l.params[i]'(by simp at hi; omega)).1 = some rowCountsName := of_decide_eq_true he
        rw [Option.some.injEq] at he
        exact hn (he ▸ List.mem_map.mpr ⟨_, List.getElem_mem _, rfl⟩)
      rw [hnone]
      rfl
    rw [hf]
    have hb : ofBits 4 pg.rows.length = pg.rows.length := lenVal' (by rw [h.length]; exact h.few)
    show Except.ok (some (ofBits 4 pg.rows.length)) = _
    rw [hb, h.length]
where
  lenVal' {n : Nat} (h : n < 2147483648) : ofBits 4 n = n := by
    unfold ofBits
    rw [if_pos (by norm_num; omega)]

theorem lines_eq (l : Layout) (t : TPage) (tail : Bytes) (h : l.cols = [] → t.rows = []) :
    (t.lines l).map (· ++ tail) = (pTexts l t).map (· ++ tail) ++ t.rows.map (rowLine tail) := by
  unfold TPage.lines pTexts
  cases hc : l.cols.isEmpty with
  | true =>
    rw [h (List.isEmpty_iff.mp hc)]
    simp
  | false =>
    simp [rowLine, Function.comp_def]

/-- What a page adds. -/
def textPagesOf (l : Layout) (pages : List Page) : Pages :=
  ⟨pages.map fun pg => [textParamRecord l pg], (pages.filter (hasData l)).map (rowRecords l)⟩

/-- Reading one page. In a buffered file the lines after it are skipped, as many as it has rows. -/
theorem Reader.textPage_ok {r : Reader} {l : Layout} (hd : r.DescribesText l) (hl : l.TextOk) {c : Conv} (hc : c.IntLaw)
    {t : TPage} {pg : Page} (h : t.Holds c r.maxStr l pg) (p : TPos) (hp : r.TPosOk p) (rest : List Bytes)
    (hleft : r.left p = (t.lines l).map (· ++ r.tail) ++ rest) (acc : Pages) (all : Bool) :
    ∃ p', r.textPage c all true p acc = .ok (acc.append (textPagesOf l [pg]), p') ∧ r.TPosOk p' ∧
      r.left p' = if r.buffer then rest.drop t.rows.length else rest := by
  rw [lines_eq l t r.tail h.noRows, List.append_assoc] at hleft
  obtain ⟨p1, e1, e2, e3⟩ := Reader.textParams_ok (r := r) (c := c) (t.rows.map (rowLine r.tail) ++ rest) (pFields l) (pTexts l t) (pVals l pg)
    (pFields_kept hl) h.pText h.pAll [] p hp hleft
  have hm := textMerge_ok h.pAll (pFields_names hl).1 (pFields_names hl).2
  have hlen := h.length
  unfold Reader.textPage
  rw [hd.paramKeys, e1]
  simp only [bind, Except.bind, List.nil_append, if_true, hm, textParamRecord_eq h, Reader.textRowCount_ok hd hl h]
  by_cases h0 : t.rows = []
  · have hp0 : pg.rows = [] := List.length_eq_zero_iff.mp (by rw [hlen, h0]; rfl)
    rw [if_pos (by rw [h0]; rfl)]
    refine ⟨p1, ?_, e2, ?_⟩
    · simp [Pages.append, textPagesOf, hasData, hp0]
    · rw [e3, h0]
      simp
  · have hcne : l.cols ≠ [] := fun he => h0 (h.noRows he)
    have hpos : 0 < t.rows.length := List.length_pos_of_ne_nil h0
    have hpne : pg.rows ≠ [] := by
      intro he
      rw [he] at hlen
      simp at hlen
      omega
    rw [if_neg (by simp; exact h0), if_pos (by simp)]
    have hg := genfromtxt_rows hc hcne hl.cols hl.ok.2.2.1 h0 h.rowText h.rows r.tail r.tail_cases rest
    have hsrc : (r.source p1).drop p1.position = t.rows.map (rowLine r.tail) ++ rest := e3
    unfold Reader.textCols
    rw [hd.colKeys hcne, hsrc, List.headD_cons, hg]
    simp only [bind, Except.bind]
    have hh : hasData l pg = true := by
      unfold hasData
      simp [hcne, hpne]
    have hpages : acc.append (textPagesOf l [pg]) = ⟨acc.params ++ [[textParamRecord l pg]],
        acc.cols ++ [pg.rows.map fun row => (l.cols.map Prod.fst).zip row]⟩ := by
      unfold Pages.append textPagesOf
      rw [List.filter_cons_of_pos hh]
      rfl
    rw [hpages]
    refine ⟨if r.buffer = true then ⟨p1.position + (((some (t.rows.length : Int)).getD 0).toNat +
      (pg.rows.map fun row => (l.cols.map Prod.fst).zip row).length), p1.rest⟩ else ⟨p1.position, rest⟩, rfl, ?_, ?_⟩
    · intro hb
      rw [hb]
      exact e2 hb
    · cases hb : r.buffer with
      | true =>
        have h1 : r.source p1 = bufferLines r.file := by unfold Reader.source; rw [hb]; rfl
        rw [h1] at hsrc
        unfold Reader.left Reader.source
        rw [hb]
        simp only [if_true]
        rw [← List.drop_drop, hsrc]
        simp only [Option.getD_some, Int.toNat_natCast, List.length_map, hlen]
        rw [List.drop_append, List.drop_of_length_le (by simp), List.length_map, List.nil_append]
        congr 1
        omega
      | false =>
        unfold Reader.left Reader.source
        rw [hb]
        simp only [Bool.false_eq_true, if_false]
        rw [e2 hb]
        rfl

theorem TPage.Holds.lines_ne {c : Conv} {m : Nat} {l : Layout} {t : TPage} {pg : Page} (h : t.Holds c m l pg)
    (hs : l.params ≠ [] ∨ l.cols ≠ []) : t.lines l ≠ [] := by
  unfold TPage.lines
  cases hc : l.cols.isEmpty with
  | false => simp
  | true =>
    have hp : l.params ≠ [] := by
      rcases hs with h1 | h1
      · exact h1
      · exact absurd (List.isEmpty_iff.mp hc) h1
    have := (AllDenote.length h.params).1
    intro h0
    simp only [if_true, List.append_nil] at h0
    rw [h0] at this
    exact hp (List.length_eq_zero_iff.mp this.symm)

theorem Reader.textEnd_left {r : Reader} {p : TPos} (hb : r.buffer = true) : r.textEnd p = (r.left p).isEmpty := by
  unfold Reader.textEnd Reader.left Reader.source
  rw [hb]
  simp only [if_true]
  by_cases h : (bufferLines r.file).length ≤ p.position
  · rw [List.drop_of_length_le h]
    simp [h]
  · have : (bufferLines r.file).drop p.position ≠ [] := by
      intro h0
      exact h (List.drop_eq_nil_iff.mp h0)
    simp [h, this]

theorem Reader.textEnd_nil {r : Reader} {p : TPos} (hp : r.TPosOk p) (h : r.left p = []) : r.textEnd p = true := by
  cases hb : r.buffer with
  | true => rw [Reader.textEnd_left hb, h]; rfl
  | false =>
    unfold Reader.left Reader.source at h
    rw [hb, hp hb] at h
    unfold Reader.textEnd
    rw [hb]
    have h : p.rest = [] := h
    rw [h]
    rfl

theorem Reader.textEnd_page {r : Reader} {p : TPos} (hp : r.TPosOk p) {l : Layout} {t : TPage} (hne : t.lines l ≠ [])
    (hf : r.buffer = false → t.FirstLine l) {rest : List Bytes} (h : r.left p = (t.lines l).map (· ++ r.tail) ++ rest) :
    r.textEnd p = false := by
  obtain ⟨s, ls, hls⟩ : ∃ s ls, t.lines l = s :: ls := by
    cases hh : t.lines l with
    | nil => exact absurd hh hne
    | cons s ls => exact ⟨s, ls, rfl⟩
  cases hb : r.buffer with
  | true =>
    rw [Reader.textEnd_left hb, h, hls]
    rfl
  | false =>
    obtain ⟨s', hs', b, hb', hsp⟩ := hf hb
    rw [hls] at hs'
    have : s' = s := by
      simpa using hs'.symm
    subst this
    have htail : r.tail = [10] := by unfold Reader.tail; rw [hb]; rfl
    unfold Reader.left Reader.source at h
    rw [hb, hp hb, hls, htail] at h
    have h : p.rest = (s' ++ [10]) :: (ls.map (· ++ [10]) ++ rest) := h
    have hstail : (s' ++ [10]).tail = s'.tail ++ [10] := by
      cases s' with
      | nil => cases hb'
      | cons a s' => rfl
    unfold Reader.textEnd
    rw [hb, h]
    simp only [Bool.false_eq_true, if_false, hstail]
    rw [if_neg (by simp), List.all_eq_false]
    exact ⟨b, by simp [hb'], by simp [hsp]⟩

theorem textPagesOf_append (l : Layout) (a : Pages) (pg : Page) (pgs : List Page) :
    (a.append (textPagesOf l [pg])).append (textPagesOf l pgs) = a.append (textPagesOf l (pg :: pgs)) := by
  unfold Pages.append textPagesOf
  simp only [List.map_cons, List.map_nil, List.append_assoc, List.singleton_append, Pages.mk.injEq, true_and,
    List.append_cancel_left_eq]
  rw [← List.map_append, ← List.filter_append]
  rfl

theorem Reader.textLoop_ok {r : Reader} {l : Layout} (hd : r.DescribesText l) (hl : l.TextOk) (hs : l.params ≠ [] ∨ l.cols ≠ [])
    {c : Conv} (hc : c.IntLaw) {ts : List TPage} {pgs : List Page} (h : List.Forall₂ (fun t pg => t.Holds c r.maxStr l pg) ts pgs) :
    (r.buffer = false → ∀ t ∈ ts, t.FirstLine l) → (r.buffer = true → ∀ t ∈ ts.dropLast, t.rows = []) →
    ∀ (fuel k : Nat) (p : TPos) (acc : Pages), ts.length < fuel → r.TPosOk p →
    r.left p = (ts.flatMap (TPage.lines l)).map (· ++ r.tail) →
    r.textLoop c none fuel k p acc = some (.ok (acc.append (textPagesOf l pgs))) := by
  induction h with
  | nil =>
    intro _ _ fuel k p acc hfuel hp hleft
    obtain ⟨fuel, rfl⟩ : ∃ n, fuel = n + 1 := ⟨fuel - 1, by simp at hfuel; omega⟩
    unfold Reader.textLoop
    rw [if_neg (by simp [pastPages]), if_pos (Reader.textEnd_nil hp hleft)]
    simp [Pages.append, textPagesOf]
  | cons h1 h2 ih =>
    rename_i t pg ts pgs
    intro hm hb fuel k p acc hfuel hp hleft
    obtain ⟨fuel, rfl⟩ : ∃ n, fuel = n + 1 := ⟨fuel - 1, by simp at hfuel; omega⟩
    rw [List.flatMap_cons, List.map_append] at hleft
    obtain ⟨p', e1, e2, e3⟩ := Reader.textPage_ok hd hl hc h1 p hp _ hleft acc true
    have hnext : r.left p' = (ts.flatMap (TPage.lines l)).map (· ++ r.tail) := by
      rw [e3]
      split
      · rename_i hbuf
        cases ts with
        | nil => simp
        | cons t' ts =>
          rw [hb hbuf t (by simp)]
          simp
      · rfl
    unfold Reader.textLoop
    rw [if_neg (by simp [pastPages]),
      if_neg (by rw [Reader.textEnd_page hp (h1.lines_ne hs) (fun hb' => hm hb' t (by simp)) hleft]; simp)]
    have e1' : r.textPage c (none : Option (List Nat)).isNone (wantedPage none k) p acc = _ := e1
    rw [e1']
    simp only
    rw [ih (fun hb' x hx => hm hb' x (by simp [hx])) ?_ fuel (k + 1) p' _ (by simp at hfuel; omega) e2 hnext, textPagesOf_append]
    intro hb' x hx
    apply hb hb' x
    cases ts with
    | nil => cases hx
    | cons y ts => simp only [List.dropLast_cons_cons, List.mem_cons]; exact Or.inr hx

/-! ## Opening -/

/-- Opening an ASCII file with a well-formed header. -/
theorem open_docText (ft : FloatText) {d : Doc} (h : d.Ok) (body : Bytes) {fuel : Nat}
    (hfuel : d.comments.length + d.namelists.length + 2 ≤ fuel) (buffer : Bool) (maxStr : Nat)
    {ps : List ParamField} {cs : List ColField} (hps : (d.attrsOf .param).mapM (paramOf ft) = .ok ps)
    (hcs : (d.attrsOf .col).mapM colOf = .ok cs)
    (hmode : (attrVal d.data "mode".toList).getD "binary".toList = "ascii".toList) (r : Reader)
    (hr : r = {
        file := utf8 d.text ++ body, buffer := buffer, maxStr := maxStr,
        headerEnd := (utf8 d.text).length, lineCount := d.namelists.length + 2,
        params := ps, cols := cs, ascii := true,
        noRowCounts := textTrue (attrVal d.data "no_row_counts".toList) }) (hk : r.paramKeys ≠ []) :
    openSdds ft fuel buffer maxStr (utf8 d.text ++ body) = some (.ok r) := by
  unfold openSdds
  rw [readHeader_doc h body hfuel]
  simp only
  rw [parse_docs ft d.namelists h.namelists d.data (fun a ha => (h.data a ha).1) _ ps cs hps hcs]
  have e : (utf8 d.text ++ body).length - body.length = (utf8 d.text).length := by simp
  simp only [bind, Except.bind, List.nil_append, decide_eq_true hmode, Bool.true_and, e, ← hr]
  rw [if_neg]
  intro h0
  exact hk (List.isEmpty_iff.mp h0)

/-- The lines of the header that are not comments. -/
def headLines (d : Doc) : List Bytes :=
  utf8 "SDDS1".toList :: (d.namelists.map fun n => utf8 (nlBody n.kind.word n.attrs n.pad)) ++ [utf8 (nlBody "&data".toList d.data 0)]

/-- All lines of the header. -/
def allLines (d : Doc) : List Bytes :=
  utf8 "SDDS1".toList :: (d.comments.map fun c => utf8 ('!' :: c)) ++
    (d.namelists.map fun n => utf8 (nlBody n.kind.word n.attrs n.pad)) ++ [utf8 (nlBody "&data".toList d.data 0)]

theorem utf8_newline (s : Str) : utf8 (s ++ ['\n']) = utf8 s ++ [10] := by
  rw [utf8_append]
  rfl

theorem asLines_map {α : Type} (f : α → Str) (xs : List α) :
    asLines (xs.map fun x => utf8 (f x)) = utf8 (xs.flatMap fun x => f x ++ ['\n']) := by
  induction xs with
  | nil => rfl
  | cons x xs ih =>
    rw [List.flatMap_cons, utf8_append, utf8_newline, ← ih]
    rfl

theorem text_asLines (d : Doc) : utf8 d.text = asLines (allLines d) := by
  unfold Doc.text allLines
  have e : asLines (utf8 "SDDS1".toList :: d.comments.map fun c => utf8 ('!' :: c)) =
      utf8 "SDDS1\n".toList ++ asLines (d.comments.map fun c => utf8 ('!' :: c)) := rfl
  rw [asLines_append, asLines_append, e, asLines_map, asLines_map]
  have e2 : d.namelists.flatMap NDoc.text = d.namelists.flatMap fun n => nlBody n.kind.word n.attrs n.pad ++ ['\n'] := by
    congr 1
    funext n
    exact nlText_eq _ _ _
  have e3 : asLines [utf8 (nlBody "&data".toList d.data 0)] = utf8 (nlText "&data".toList d.data 0) := by
    rw [nlText_eq, utf8_newline]
    simp [asLines]
  rw [e2, e3]
  simp only [utf8_append]

theorem utf8_no_byte {s : Str} (h : Ascii s) {ch : Char} (hc : ch.toNat < 128) (hn : ch ∉ s) : UInt8.ofNat ch.toNat ∉ utf8 s := by
  rw [utf8_ascii h]
  intro hm
  obtain ⟨d, hd, he⟩ := List.mem_map.mp hm
  have h1 := h d hd
  have := congrArg UInt8.toNat he
  rw [UInt8.toNat_ofNat', UInt8.toNat_ofNat', Nat.mod_eq_of_lt (by omega), Nat.mod_eq_of_lt (by omega)] at this
  have h2 : d = ch := by
    rw [← Char.ofNat_toNat' d, this, Char.ofNat_toNat']
  exact hn (h2 ▸ hd)

theorem utf8_head_byte (ch : Char) (s : Str) (hc : ch.toNat < 128) : (utf8 (ch :: s)).head? = some (UInt8.ofNat ch.toNat) := by
  unfold utf8
  rw [List.flatMap_cons, utf8EncodeChar_ascii ch hc]
  rfl

theorem nlBody_head (word : Str) (as : List Attr) (pad : Nat) (ch : Char) (w : Str) (hw : word = ch :: w) (hc : ch.toNat < 128) :
    (utf8 (nlBody word as pad)).head? = some (UInt8.ofNat ch.toNat) := by
  unfold nlBody
  rw [hw, List.cons_append]
  exact utf8_head_byte _ _ hc

theorem allLines_ok {d : Doc} (h : d.Ok) (hr : '\r' ∉ d.text) : ∀ x ∈ allLines d, (10 : UInt8) ∉ x ∧ (13 : UInt8) ∉ x := by
  have key : ∀ s : Str, Ascii s → '\n' ∉ s → '\r' ∉ s → (10 : UInt8) ∉ utf8 s ∧ (13 : UInt8) ∉ utf8 s :=
    fun s ha h1 h2 => ⟨utf8_no_byte ha (ch := '\n') (by decide) h1, utf8_no_byte ha (ch := '\r') (by decide) h2⟩
  intro x hx
  unfold allLines at hx
  unfold Doc.text at hr
  simp only [List.mem_append, not_or] at hr
  obtain ⟨⟨⟨hr1, hr2⟩, hr3⟩, hr4⟩ := hr
  rcases List.mem_append.mp hx with hx | hx
  · rcases List.mem_append.mp hx with hx | hx
    · rcases List.mem_cons.mp hx with rfl | hx
      · exact key _ (by unfold Ascii; decide) (by decide) (by decide)
      · obtain ⟨c, hc, rfl⟩ := List.mem_map.mp hx
        obtain ⟨c1, c2⟩ := h.comments c hc
        refine key _ ?_ ?_ ?_
        · intro y hy
          rcases List.mem_cons.mp hy with rfl | hy
          · decide
          · exact c1 y hy
        · intro hy
          rcases List.mem_cons.mp hy with hy | hy
          · exact absurd hy (by decide)
          · exact c2 hy
        · intro hy
          refine hr2 (List.mem_flatMap.mpr ⟨c, hc, ?_⟩)
          exact List.mem_append_left _ hy
    · obtain ⟨n, hn, rfl⟩ := List.mem_map.mp hx
      have hk : ∀ c ∈ n.kind.word, c.toNat < 128 ∧ c ≠ '\n' := by cases n.kind <;> decide
      obtain ⟨c1, c2⟩ := nlBody_chars hk (h.namelists n hn) n.pad
      refine key _ c1 c2 fun hy => hr3 (List.mem_flatMap.mpr ⟨n, hn, ?_⟩)
      unfold NDoc.text
      rw [nlText_eq]
      exact List.mem_append_left _ hy
  · rw [List.mem_singleton.mp hx]
    obtain ⟨c1, c2⟩ := nlBody_chars (word := "&data".toList) (by decide) (fun a ha => (h.data a ha).1) 0
    refine key _ c1 c2 fun hy => hr4 ?_
    rw [nlText_eq]
    exact List.mem_append_left _ hy

/-- A line that is not a comment. -/
def NotComment (x : Bytes) : Prop := (x.dropWhile isSpaceByte).head? ≠ some 33

theorem notComment_head {x : Bytes} {b : UInt8} (h : x.head? = some b) (hs : isSpaceByte b = false) (h33 : b ≠ 33) : NotComment x := by
  unfold NotComment
  cases x with
  | nil => cases h
  | cons a x =>
    have : a = b := by simpa using h
    subst this
    rw [List.dropWhile_cons_of_neg (by simp [hs])]
    simpa using h33

theorem notComment_mem {x : Bytes} (h : 33 ∉ x) : NotComment x := by
  unfold NotComment
  intro h0
  exact h ((List.dropWhile_sublist _).subset (List.mem_of_mem_head? h0))

theorem bufferLines_file {d : Doc} (h : d.Ok) (hr : '\r' ∉ d.text) {ls : List Bytes}
    (h1 : ∀ x ∈ ls, (10 : UInt8) ∉ x ∧ (13 : UInt8) ∉ x) (h2 : ∀ x ∈ ls, NotComment x) :
    bufferLines (utf8 d.text ++ asLines ls) = headLines d ++ ls := by
  unfold bufferLines
  rw [text_asLines, ← asLines_append, splitLines_asLines]
  · rw [List.filter_append]
    have hf : ∀ xs : List Bytes, (∀ x ∈ xs, NotComment x) →
        xs.filter (fun l => (l.dropWhile isSpaceByte).head? ≠ some 33) = xs := by
      intro xs hx
      rw [List.filter_eq_self]
      intro x hxm
      simpa [NotComment] using hx x hxm
    rw [hf ls h2]
    congr 1
    unfold allLines headLines
    rw [List.filter_append, List.filter_append, ← List.singleton_append, List.filter_append]
    have hc : (d.comments.map fun c => utf8 ('!' :: c)).filter (fun l => (l.dropWhile isSpaceByte).head? ≠ some 33) = [] := by
      rw [List.filter_eq_nil_iff]
      intro x hx
      obtain ⟨c, _, rfl⟩ := List.mem_map.mp hx
      have hh := utf8_head_byte '!' c (by decide)
      generalize utf8 ('!' :: c) = y at hh
      cases y with
      | nil => cases hh
      | cons b y =>
        have : b = 33 := by simpa using hh
        subst this
        rw [List.dropWhile_cons_of_neg (by decide)]
        simp
    rw [hc, hf [utf8 "SDDS1".toList], hf (d.namelists.map fun n => utf8 (nlBody n.kind.word n.attrs n.pad)),
      hf [utf8 (nlBody "&data".toList d.data 0)]]
    · simp
    · intro x hx
      rw [List.mem_singleton.mp hx]
      exact notComment_head (nlBody_head _ _ _ '&' "data".toList (by decide) (by decide)) (by decide) (by decide)
    · intro x hx
      obtain ⟨n, _, rfl⟩ := List.mem_map.mp hx
      cases hk : n.kind with
      | param => exact notComment_head (nlBody_head _ _ _ '&' "parameter".toList (by decide) (by decide)) (by decide) (by decide)
      | col => exact notComment_head (nlBody_head _ _ _ '&' "column".toList (by decide) (by decide)) (by decide) (by decide)
    · intro x hx
      rw [List.mem_singleton.mp hx]
      exact notComment_head (utf8_head_byte 'S' "DDS1".toList (by decide)) (by decide) (by decide)
  · intro x hx
    rcases List.mem_append.mp hx with hx | hx
    · exact allLines_ok h hr x hx
    · exact h1 x hx

theorem TPage.lines_ok {l : Layout} {t : TPage} (hp : ∀ s ∈ t.params, LineText s) (hr : ∀ ws ∈ t.rows, ∀ s ∈ ws, WordText s) :
    ∀ x ∈ t.lines l, ((10 : UInt8) ∉ x ∧ (13 : UInt8) ∉ x) ∧ (33 : UInt8) ∉ x := by
  have hrow : ∀ ws ∈ t.rows, ((10 : UInt8) ∉ [(32 : UInt8)].intercalate ws ∧ (13 : UInt8) ∉ [(32 : UInt8)].intercalate ws) ∧
      (33 : UInt8) ∉ [(32 : UInt8)].intercalate ws := by
    intro ws hws
    refine ⟨⟨fun hb => ?_, fun hb => ?_⟩, fun hb => ?_⟩ <;> rcases row_mem ws _ hb with hb | ⟨s, hs, hb⟩
    · exact absurd hb (by decide)
    · exact absurd ((hr ws hws s hs).noSpace _ hb) (by decide)
    · exact absurd hb (by decide)
    · exact absurd ((hr ws hws s hs).noSpace _ hb) (by decide)
    · exact absurd hb (by decide)
    · exact (hr ws hws s hs).noComment hb
  intro x hx
  unfold TPage.lines at hx
  rcases List.mem_append.mp hx with hx | hx
  · exact ⟨(hp x hx).oneLine, (hp x hx).noComment⟩
  · cases hc : l.cols.isEmpty with
    | true => rw [hc] at hx; cases hx
    | false =>
      rw [hc] at hx
      simp only [Bool.false_eq_true, if_false] at hx
      rcases List.mem_cons.mp hx with rfl | hx
      · exact ⟨(natStr_lineText _).oneLine, (natStr_lineText _).noComment⟩
      · obtain ⟨ws, hws, rfl⟩ := List.mem_map.mp hx
        exact hrow ws hws

theorem TPage.Holds.lines_ok {c : Conv} {m : Nat} {l : Layout} {t : TPage} {pg : Page} (h : t.Holds c m l pg) :
    ∀ x ∈ t.lines l, ((10 : UInt8) ∉ x ∧ (13 : UInt8) ∉ x) ∧ (33 : UInt8) ∉ x := TPage.lines_ok h.paramText h.rowText

theorem forall₂_left {α β : Type} {R : α → β → Prop} {as : List α} {bs : List β} (h : List.Forall₂ R as bs) :
    ∀ a ∈ as, ∃ b ∈ bs, R a b := by
  induction h with
  | nil => intro a ha; cases ha
  | cons h1 _ ih =>
    rename_i a b as bs _
    intro x hx
    rcases List.mem_cons.mp hx with rfl | hx
    · exact ⟨b, by simp, h1⟩
    · obtain ⟨y, hy, hr⟩ := ih x hx
      exact ⟨y, by simp [hy], hr⟩

theorem open_text {ft : FloatText} {d : Doc} {l : Layout} (h : d.AnnouncesText ft l) (body : Bytes) {fuel : Nat}
    (hfuel : d.comments.length + d.namelists.length + 2 ≤ fuel) (buffer : Bool) (maxStr : Nat) :
    ∃ r, openSdds ft fuel buffer maxStr (utf8 d.text ++ body) = some (.ok r) ∧ r.DescribesText l ∧
      r.file = utf8 d.text ++ body ∧ r.headerEnd = (utf8 d.text).length ∧ r.lineCount = d.namelists.length + 2 ∧
      r.buffer = buffer ∧ r.maxStr = maxStr := by
  obtain ⟨ps, hp1, hp2⟩ := params_of _ _ h.params h.fixed
  obtain ⟨cs, hc1, hc2⟩ := cols_of _ _ h.cols h.noLength
  let r : Reader := {
        file := utf8 d.text ++ body, buffer := buffer, maxStr := maxStr,
        headerEnd := (utf8 d.text).length, lineCount := d.namelists.length + 2,
        params := ps, cols := cs, ascii := true,
        noRowCounts := textTrue (attrVal d.data "no_row_counts".toList) }
  have hd : r.DescribesText l := ⟨rfl, by simp only [r, h.counts]; rfl, hp2, hc2⟩
  refine ⟨r, open_docText ft h.ok body hfuel buffer maxStr hp1 hc1 h.mode r rfl ?_, hd, rfl, rfl, rfl, rfl, rfl⟩
  rw [hd.paramKeys]
  intro h0
  rw [List.map_eq_nil_iff] at h0
  unfold pFields at h0
  rw [List.append_eq_nil_iff] at h0
  rcases h.some with hs | hs
  · exact hs h0.1
  · have : l.cols.isEmpty = false := by simpa using hs
    rw [this] at h0
    simp at h0

/-- The lines at the start of `read`. -/
theorem Reader.left_start {r : Reader} {d : Doc} (h : d.Ok) (hr : '\r' ∉ d.text) {ls : List Bytes}
    (h1 : ∀ x ∈ ls, ((10 : UInt8) ∉ x ∧ (13 : UInt8) ∉ x) ∧ (33 : UInt8) ∉ x) (hfile : r.file = utf8 d.text ++ asLines ls)
    (hend : r.headerEnd = (utf8 d.text).length) (hcount : r.lineCount = d.namelists.length + 2) :
    r.left ⟨if r.buffer then r.lineCount else 0, fileLines (r.file.drop r.headerEnd)⟩ = ls.map (· ++ r.tail) := by
  unfold Reader.left Reader.source Reader.tail
  cases hb : r.buffer with
  | true =>
    simp only [if_true]
    rw [hfile, bufferLines_file h hr (fun x hx => (h1 x hx).1) fun x hx => notComment_mem (h1 x hx).2, hcount]
    have : (headLines d).length = d.namelists.length + 2 := by simp [headLines]
    rw [← this, List.drop_left]
    simp
  | false =>
    simp only [Bool.false_eq_true, if_false, List.drop_zero]
    rw [hfile, hend, List.drop_left, fileLines_asLines _ fun x hx => (h1 x hx).1.1]

/-- Reading a whole ASCII file. -/
theorem Reader.readText_ok {r : Reader} {l : Layout} (hd : r.DescribesText l) (hl : l.TextOk) (hs : l.params ≠ [] ∨ l.cols ≠ [])
    {c : Conv} (hc : c.IntLaw) {d : Doc} (h : d.Ok) (hr : '\r' ∉ d.text) {ts : List TPage} {pgs : List Page}
    (hh : List.Forall₂ (fun t pg => t.Holds c r.maxStr l pg) ts pgs) (hm : r.buffer = false → ∀ t ∈ ts, t.FirstLine l)
    (hb : r.buffer = true → ∀ t ∈ ts.dropLast, t.rows = []) (hfile : r.file = textFile d l ts)
    (hend : r.headerEnd = (utf8 d.text).length) (hcount : r.lineCount = d.namelists.length + 2) {fuel : Nat}
    (hfuel : ts.length < fuel) :
    r.readText c fuel none = some ((concat (textPagesOf l pgs).cols).bind fun cs =>
      .ok ⟨pgs.map fun pg => [textParamRecord l pg], cs⟩) := by
  unfold Reader.readText
  rw [if_neg (by simp)]
  simp only
  rw [Reader.textLoop_ok hd hl hs hc hh hm hb fuel 0 _ _ hfuel]
  · have : concat (textPagesOf l pgs).params = .ok (pgs.map fun pg => [textParamRecord l pg]) := by
      refine concat_same (n := 1) ?_
      intro x hx
      obtain ⟨y, _, rfl⟩ := List.mem_map.mp hx
      rfl
    simp only [Pages.append, List.nil_append, this, bind, Except.bind]
  · intro hb'; simp [hb']
  · refine Reader.left_start h hr ?_ hfile hend hcount
    intro x hx
    obtain ⟨t, ht, hx⟩ := List.mem_flatMap.mp hx
    obtain ⟨pg, _, hpg⟩ := forall₂_left hh t ht
    exact hpg.lines_ok x hx

end Verif.Sdds
