import Verif.Sdds.PropsCut
import Verif.Sdds.PropsSelect

/-!
# Property C123: selected pages of a file that is cut off
-/

namespace Verif.Sdds

/-- The page after its parameters. -/
def Reader.pageRest (r : Reader) (reads : Bool) (pd : List Arr) (p1 : Pos) (acc1 : Pages) : Except PyErr (Pages × Pos) := do
  let rc ← r.rowCount pd p1
  if rc = 0 then .ok (acc1, p1)
  else if reads then do
    let (cd, p2) ← r.getCols rc p1
    let pg ← addPage r.maxStr cd
    .ok ({ acc1 with cols := acc1.cols ++ [pg] }, p2)
  else do
    let size ← itemSize (r.colKeys.headD [])
    .ok (acc1, { p1 with position := p1.position + size * rc })

theorem Reader.readPage_rest {r : Reader} {p p1 : Pos} {pd : List Arr} (h1 : r.getParams r.paramKeys [] p = .ok (pd, p1)) (all wanted : Bool) (acc : Pages) :
    r.readPage all wanted p acc =
      (if wanted then (addPage r.maxStr [pd]).bind fun pg => r.pageRest (all || wanted || r.varLen) pd p1 { acc with params := acc.params ++ [pg] }
      else r.pageRest (all || wanted || r.varLen) pd p1 acc) := by
  unfold Reader.readPage Reader.pageRest
  rw [h1]
  cases wanted <;> rfl

theorem Reader.pageRest_cut {r : Reader} (hb : r.buffer = true) (hrc : r.noRowCounts = false) {n : Nat} (hn : n ≤ r.file.length) {p1 p' : Pos}
    {reads : Bool} {acc1 acc' : Pages} {pd : List Arr} (hp : p1.position ≤ n) (h : r.pageRest reads pd p1 acc1 = .ok (acc', p')) :
    (r.cutTo n).pageRest reads pd p1 acc1 = if reads = true ∧ n < p'.position then .error .valueError else .ok (acc', p') := by
  have hm : (r.cutTo n).maxStr = r.maxStr := rfl
  have hck : (r.cutTo n).colKeys = r.colKeys := rfl
  have hr : (r.cutTo n).rowCount pd p1 = r.rowCount pd p1 := by
    unfold Reader.rowCount
    have h1 : (r.cutTo n).noRowCounts = false := hrc
    have h2 : (r.cutTo n).cols = r.cols := rfl
    rw [h1, h2, hrc]
    rfl
  unfold Reader.pageRest at h ⊢
  rw [hm, hck, hr]
  simp only [bind, Except.bind] at h ⊢
  cases h3 : r.rowCount pd p1 with
  | error e => rw [h3] at h; cases h
  | ok rc =>
    rw [h3] at h
    simp only at h ⊢
    by_cases h0 : rc = 0
    · rw [if_pos h0] at h
      simp only [Except.ok.injEq, Prod.mk.injEq] at h
      obtain ⟨rfl, rfl⟩ := h
      rw [if_pos h0, if_neg (by omega)]
    · rw [if_neg h0] at h ⊢
      by_cases hcol : reads = true
      · rw [if_pos hcol] at h ⊢
        simp only [hcol, true_and]
        cases h4 : r.getCols rc p1 with
        | error e => rw [h4] at h; cases h
        | ok q =>
          obtain ⟨cd, p2⟩ := q
          rw [h4] at h
          simp only at h
          obtain ⟨c1, c2⟩ := Reader.getCols_cut hb hn hp h4
          rw [c2]
          cases h5 : addPage r.maxStr cd with
          | error e => rw [h5] at h; cases h
          | ok pg2 =>
            rw [h5] at h
            simp only [Except.ok.injEq, Prod.mk.injEq] at h
            obtain ⟨rfl, rfl⟩ := h
            by_cases hp2 : p2.position ≤ n
            · rw [if_pos hp2, if_neg (by omega)]
              simp only [h5]
            · rw [if_neg hp2, if_pos (by omega)]
      · rw [if_neg hcol] at h ⊢
        rw [if_neg (by simp [hcol])]
        exact h

/-- A page of the cut file, wanted or not: the same, or an exception. A page that is passed over by its size is never missed. -/
theorem Reader.readPage_cutSel {r : Reader} (hb : r.buffer = true) (hrc : r.noRowCounts = false) {n : Nat} (hn : n ≤ r.file.length) {p p1 p' : Pos}
    {all wanted : Bool} {acc acc' : Pages} {pd : List Arr} (hp : p.position ≤ n) (h1 : r.getParams r.paramKeys [] p = .ok (pd, p1))
    (h : r.readPage all wanted p acc = .ok (acc', p')) :
    (r.cutTo n).readPage all wanted p acc =
      if n < p1.position ∨ ((all || wanted || r.varLen) = true ∧ n < p'.position) then .error .valueError else .ok (acc', p') := by
  obtain ⟨m1, m2⟩ := Reader.getParams_cut hb hn _ _ _ _ _ hp h1
  by_cases hp1 : p1.position ≤ n
  · rw [if_pos hp1] at m2
    have hn1 : ¬ n < p1.position := by omega
    have m2' : (r.cutTo n).getParams (r.cutTo n).paramKeys [] p = .ok (pd, p1) := m2
    have hm : (r.cutTo n).maxStr = r.maxStr := rfl
    have hv : (r.cutTo n).varLen = r.varLen := rfl
    rw [Reader.readPage_rest m2', hm, hv]
    rw [Reader.readPage_rest h1] at h
    simp only [hn1, false_or]
    cases wanted with
    | true =>
      rw [if_pos rfl] at h ⊢
      cases h2 : addPage r.maxStr [pd] with
      | error e => rw [h2] at h; cases h
      | ok pg =>
        rw [h2] at h
        exact Reader.pageRest_cut hb hrc hn hp1 h
    | false =>
      rw [if_neg (by simp)] at h ⊢
      exact Reader.pageRest_cut hb hrc hn hp1 h
  · rw [if_neg hp1] at m2
    rw [if_pos (Or.inl (by omega))]
    have m2' : (r.cutTo n).getParams (r.cutTo n).paramKeys [] p = .error .valueError := m2
    unfold Reader.readPage
    rw [m2']
    rfl

/-- What one page adds to the result. -/
def pageAdds (l : Layout) (wanted : Bool) (pg : Page) : Pages :=
  if wanted then pagesOf l [pg]
  else if SType.str ∈ (l.params ++ l.cols).map Prod.snd then ⟨[], (pagesOf l [pg]).cols⟩ else ⟨[], []⟩

theorem Reader.readPage_sel {r : Reader} {l : Layout} (hd : r.Describes l) (hl : l.Ok) {pg : Page} (hpg : PageOk r.maxStr l pg) (hb : r.buffer = true)
    {p : Pos} {rest : Bytes} (hf : r.file.drop (r.cur p) = encodePage pg ++ rest) (hc : r.cur p ≤ r.file.length) (wanted : Bool) (acc : Pages) :
    r.readPage false wanted p acc = .ok (acc.append (pageAdds l wanted pg), r.adv p (encodePage pg).length) := by
  have hp : r.PosOk p := by intro h; rw [hb] at h; cases h
  cases wanted with
  | true => exact Reader.readPage_keep hd hl hpg hp false hf hc acc
  | false =>
    by_cases hs : SType.str ∈ (l.params ++ l.cols).map Prod.snd
    · rw [Reader.readPage_side hd hl hpg hp hs hf hc]
      simp only [pageAdds, Bool.false_eq_true, if_false, if_pos hs]
    · rw [Reader.readPage_skip hd hl hpg hb hs hf hc]
      simp [pageAdds, if_neg hs, Pages.append]

theorem max_lt_iff {s : List Nat} : ∀ (a k : Nat), s.foldl max a < k ↔ a < k ∧ ∀ x ∈ s, x < k := by
  induction s with
  | nil => intro a k; simp
  | cons y s ih =>
    intro a k
    rw [List.foldl_cons, ih]
    simp only [List.mem_cons, forall_eq_or_imp]
    constructor
    · rintro ⟨h1, h2⟩; exact ⟨by omega, by omega, h2⟩
    · rintro ⟨h1, h2, h3⟩; exact ⟨by omega, h3⟩

theorem varLen_iff {r : Reader} {l : Layout} (hd : r.Describes l) :
    r.varLen = true ↔ SType.str ∈ (l.params ++ l.cols).map Prod.snd := by
  by_cases hs : SType.str ∈ (l.params ++ l.cols).map Prod.snd
  · rw [hd.varLen_true hs]; simp only [hs]
  · rw [hd.varLen_false hs]; simp only [Bool.false_eq_true, hs]

/-- The page loop on the cut file and on the file of the complete pages. -/
theorem Reader.pageLoop_cutSel {r r0 : Reader} {l : Layout} (hd : r.Describes l) (hd0 : r0.Describes l) (hl : l.Ok) (hb : r.buffer = true)
    (hb0 : r0.buffer = true) (hm : r0.maxStr = r.maxStr) (s : List Nat) {pg : Page} (hpg : PageOk r.maxStr l pg) {n k : Nat} (hn : n ≤ r.file.length)
    (hk : 0 < k) (hk' : k < (encodePage pg).length) :
    ∀ (before : List Page), (∀ q ∈ before, PageOk r.maxStr l q) → ∀ (fuel i : Nat) (p : Pos) (acc : Pages), before.length + 1 < fuel →
    r.file.drop p.position = before.flatMap encodePage ++ encodePage pg → p.position ≤ r.file.length →
    r0.file.drop p.position = before.flatMap encodePage → p.position ≤ r0.file.length →
    n = p.position + (before.flatMap encodePage).length + k →
    (r.cutTo n).pageLoop (some s) fuel i p acc =
      if i + before.length ≤ s.foldl max 0 ∧ (i + before.length ∈ s ∨ SType.str ∈ (l.params ++ l.cols).map Prod.snd ∨ k < (paramBytes pg).length)
      then some (.error .valueError) else r0.pageLoop (some s) fuel i p acc := by
  have hb' : (r.cutTo n).buffer = true := hb
  have hlen : (r.cutTo n).file.length = n := by simp [Reader.cutTo, hn]
  have hfe : ∀ p : Pos, (r.cutTo n).fileEnd p = decide (n ≤ p.position) := by
    intro p
    unfold Reader.fileEnd
    rw [if_pos hb', hlen]
  have hcur : ∀ p, r.cur p = p.position := by intro p; simp [Reader.cur, hb]
  have hcur0 : ∀ p, r0.cur p = p.position := by intro p; simp [Reader.cur, hb0]
  have hadv : ∀ p x, (r.adv p x).position = p.position + x := by intro p x; rw [← hcur, Reader.cur_adv, hcur]
  have hadv0 : ∀ p x, r0.adv p x = r.adv p x := by intro p x; simp [Reader.adv, hb, hb0]
  have hpos : ∀ p, r.PosOk p := by intro p h; rw [hb] at h; cases h
  intro before
  induction before with
  | nil =>
    intro _ fuel i p acc hf hdrop hp hdrop0 hp0 hn'
    obtain ⟨fuel, rfl⟩ : ∃ m, fuel = m + 2 := ⟨fuel - 2, by simp at hf; omega⟩
    simp only [List.flatMap_nil, List.nil_append, List.length_nil, Nat.add_zero] at hdrop hn' hdrop0 ⊢
    have h0 : r0.pageLoop (some s) (fuel + 2) i p acc = some (.ok acc) := by
      unfold Reader.pageLoop
      rw [Reader.fileEnd_done (by rw [hcur0]; exact hdrop0)]
      simp
    rw [h0]
    unfold Reader.pageLoop
    by_cases hpast : s.foldl max 0 < i
    · rw [if_pos (by simpa [pastPages] using hpast), if_neg (by omega)]
    · rw [if_neg (by simpa [pastPages] using hpast), hfe, decide_eq_false (by omega)]
      have hge : i ≤ s.foldl max 0 := by omega
      simp only [Bool.false_eq_true, if_false, hge, true_and]
      have hfull := Reader.readPage_sel hd hl hpg hb (p := p) (rest := []) (by rw [hcur, hdrop, List.append_nil]) (by rw [hcur]; exact hp)
        (wantedPage (some s) i) acc
      have hpar := Reader.pageParams_ok hd hl hpg (hpos p) (rest := colBytes pg) (by rw [hcur, hdrop, encodePage_eq]) (by rw [hcur]; exact hp)
      have hnone : (some s).isNone = false := rfl
      rw [hnone, Reader.readPage_cutSel hb hd.counts hn (by omega) hpar hfull]
      rw [hadv, hadv]
      have hw : wantedPage (some s) i = true ↔ i ∈ s := by simp [wantedPage]
      by_cases hc : i ∈ s ∨ SType.str ∈ (l.params ++ l.cols).map Prod.snd ∨ k < (paramBytes pg).length
      · rw [if_pos hc, if_pos]
        rcases hc with hc | hc | hc
        · exact Or.inr ⟨by rw [hw.mpr hc]; simp, by omega⟩
        · exact Or.inr ⟨by rw [(varLen_iff hd).mpr hc]; simp, by omega⟩
        · exact Or.inl (by omega)
      · rw [if_neg hc]
        push Not at hc
        obtain ⟨c1, c2, c3⟩ := hc
        have hwf : wantedPage (some s) i = false := by rw [Bool.eq_false_iff]; exact fun h => c1 (hw.mp h)
        have hvf : r.varLen = false := by rw [Bool.eq_false_iff]; exact fun h => c2 ((varLen_iff hd).mp h)
        rw [if_neg (by rw [hwf, hvf]; simp; omega)]
        have hadd : acc.append (pageAdds l (wantedPage (some s) i) pg) = acc := by
          simp only [pageAdds, hwf, Bool.false_eq_true, if_false, if_neg c2]
          simp [Pages.append]
        simp only [hadd]
        unfold Reader.pageLoop
        rw [hfe, decide_eq_true (by rw [hadv]; omega)]
        simp
  | cons q before ih =>
    intro hok fuel i p acc hf hdrop hp hdrop0 hp0 hn'
    obtain ⟨fuel, rfl⟩ : ∃ m, fuel = m + 1 := ⟨fuel - 1, by simp at hf; omega⟩
    rw [List.flatMap_cons, List.append_assoc] at hdrop
    rw [List.flatMap_cons] at hdrop0
    rw [List.flatMap_cons, List.length_append] at hn'
    have hq := hok q List.mem_cons_self
    unfold Reader.pageLoop
    by_cases hpast : s.foldl max 0 < i
    · rw [if_pos (by simpa [pastPages] using hpast), if_neg (by omega), if_pos (by simpa [pastPages] using hpast)]
    · have hpp : pastPages (some s) i = false := by simpa [pastPages] using hpast
      rw [hpp, hfe, decide_eq_false (by omega),
        Reader.fileEnd_page (r := r0) (pg := q) (rest := before.flatMap encodePage) (by rw [hcur0, hdrop0]) (fun h => by rw [hb0] at h; cases h)]
      simp only [Bool.false_eq_true, if_false]
      have hnone : (some s).isNone = false := rfl
      have hfull := Reader.readPage_sel hd hl hq hb (p := p) (rest := before.flatMap encodePage ++ encodePage pg) (by rw [hcur, hdrop])
        (by rw [hcur]; exact hp) (wantedPage (some s) i) acc
      have hfull0 := Reader.readPage_sel hd0 hl (by rw [hm]; exact hq) hb0 (p := p) (rest := before.flatMap encodePage) (by rw [hcur0, hdrop0])
        (by rw [hcur0]; exact hp0) (wantedPage (some s) i) acc
      have hpar := Reader.pageParams_ok hd hl hq (hpos p) (rest := colBytes q ++ (before.flatMap encodePage ++ encodePage pg))
        (by rw [hcur, hdrop, encodePage_eq, List.append_assoc]) (by rw [hcur]; exact hp)
      have hlq : (encodePage q).length = (paramBytes q).length + (colBytes q).length := by rw [encodePage_eq, List.length_append]
      rw [hnone, Reader.readPage_cutSel hb hd.counts hn (by omega) hpar hfull, hfull0, hadv, hadv, if_neg (by omega), hadv0]
      simp only
      have hle : p.position + (encodePage q).length ≤ r.file.length := by
        have := congrArg List.length hdrop
        rw [List.length_drop, List.length_append] at this
        omega
      have hle0 : p.position + (encodePage q).length ≤ r0.file.length := by
        have := congrArg List.length hdrop0
        rw [List.length_drop, List.length_append] at this
        omega
      rw [ih (fun x hx => hok x (List.mem_cons_of_mem _ hx)) fuel (i + 1) _ _ (by simp at hf; omega)
        (by rw [hadv, ← List.drop_drop, hdrop, List.drop_left]) (by rw [hadv]; exact hle)
        (by rw [hadv, ← List.drop_drop, hdrop0, List.drop_left]) (by rw [hadv]; exact hle0) (by rw [hadv]; omega)]
      rw [List.length_cons, show i + 1 + before.length = i + (before.length + 1) by omega]

/-- **C123, selected pages.** `read(pages=s)` on a buffered binary file that ends within the page after `before`: it raises if some selected number
is at least that of the broken page, and the broken page is selected, or the file has strings, or the parameters of the page are cut. Otherwise
it gives, without complaint, the same as for the file that ends after `before`. -/
theorem cut_selected_exact {ft : FloatText} {d : Doc} {l : Layout} (h : d.Announces ft l) (hl : l.Ok) {before : List Page} {pg : Page} {maxStr : Nat}
    (hok : ∀ q ∈ before, PageOk maxStr l q) (hpg : PageOk maxStr l pg) {k : Nat} (hk : 0 < k) (hk' : k < (encodePage pg).length) {s : List Nat} (hs : s ≠ [])
    {fuel : Nat} (hfuel : d.comments.length + d.namelists.length + before.length + 2 ≤ fuel) :
    ∃ r r0, openSdds ft fuel true maxStr (cutFile d before pg k) = some (.ok r) ∧ openSdds ft fuel true maxStr (fileBytes d before) = some (.ok r0) ∧
      (((∃ x ∈ s, before.length ≤ x) ∧ (before.length ∈ s ∨ SType.str ∈ (l.params ++ l.cols).map Prod.snd ∨
          k < (encodePage { pg with rows := [] }).length)) → r.read fuel (some s) = some (.error .valueError)) ∧
      (¬ ((∃ x ∈ s, before.length ≤ x) ∧ (before.length ∈ s ∨ SType.str ∈ (l.params ++ l.cols).map Prod.snd ∨
          k < (encodePage { pg with rows := [] }).length)) → r.read fuel (some s) = r0.read fuel (some s)) := by
  obtain ⟨r, h1, h2, h3, h4, h5, h6⟩ := open_body h (before.flatMap encodePage ++ (encodePage pg).take k) (fuel := fuel) (by omega) true maxStr
  obtain ⟨r0, g1, g2, g3, g4, g5, g6⟩ := open_body h (before.flatMap encodePage) (fuel := fuel) (by omega) true maxStr
  refine ⟨r, r0, h1, g1, ?_⟩
  subst h6
  let full : Reader := { r with file := utf8 d.text ++ (before.flatMap encodePage ++ encodePage pg) }
  have hd : full.Describes l := ⟨h2.binary, h2.counts, h2.params, h2.cols⟩
  have hcut : r = full.cutTo ((utf8 d.text).length + (before.flatMap encodePage).length + k) := by
    have : (utf8 d.text ++ (before.flatMap encodePage ++ encodePage pg)).take ((utf8 d.text).length + (before.flatMap encodePage).length + k) = r.file := by
      rw [h3, ← List.append_assoc, ← List.append_assoc, ← List.length_append, List.take_length_add_append]
    unfold Reader.cutTo
    rw [this]
  have hne : s.foldl max 0 < before.length ↔ ¬ ∃ x ∈ s, before.length ≤ x := by
    rw [max_lt_iff]
    push Not
    constructor
    · exact fun h => h.2
    · intro h
      refine ⟨?_, h⟩
      cases s with
      | nil => exact absurd rfl hs
      | cons x s =>
        have := h x List.mem_cons_self
        omega
  have hplen : (encodePage { pg with rows := [] }).length = (paramBytes pg).length := by
    rw [encodePage_eq]
    simp [paramBytes, colBytes, leBytes_length]
  rw [hplen]
  have hfuel2 : 2 ≤ fuel := by omega
  have hloop := Reader.pageLoop_cutSel (r0 := r0) hd g2 hl h5 g5 g6 s hpg (n := (utf8 d.text).length + (before.flatMap encodePage).length + k)
    (by simp only [full, List.length_append]; omega) hk hk' before hok fuel 0 ⟨r.headerEnd, r.headerEnd⟩ ⟨[], []⟩ (by omega)
    (by simp only [full, h4]; rw [List.drop_left]) (by simp only [full, h4, List.length_append]; omega)
    (by rw [g3, h4, List.drop_left]) (by rw [g3, h4, List.length_append]; exact Nat.le_add_right _ _) (by rw [h4])
  rw [← hcut, Nat.zero_add] at hloop
  have hread : ∀ x : Reader, x.buffer = true → x.headerEnd = r.headerEnd → x.read fuel (some s) =
      (match x.pageLoop (some s) fuel 0 ⟨r.headerEnd, r.headerEnd⟩ ⟨[], []⟩ with
      | none => none
      | some (.error e) => some (.error e)
      | some (.ok pg) => some do
        let ps ← concat pg.params
        let cs ← concat pg.cols
        .ok ⟨ps, cs⟩) := by
    intro x hx hx'
    unfold Reader.read
    rw [if_neg (by simpa using hs)]
    simp only [hx, hx', if_true]
    rfl
  have hmax : before.length ≤ s.foldl max 0 ↔ ∃ x ∈ s, before.length ≤ x := by
    rw [← not_lt, hne, not_not]
  rw [hread r h5 rfl, hread r0 g5 (by rw [g4, h4]), hloop]
  constructor
  · intro hc
    rw [if_pos ⟨hmax.mpr hc.1, hc.2⟩]
  · intro hc
    rw [if_neg fun h => hc ⟨hmax.mp h.1, h.2⟩]

/-! Examples: the file of C06 ends within its second page. Asking for page 1 raises; asking for page 2, which the file has lost, gives nothing at
all and no complaint; asking for page 0 is not affected. -/

example : ∃ r, openSdds exText 20 true 50 (cutFile exDoc [exPages[0]] exPages[1] 30) = some (.ok r) ∧ r.read 20 (some [0, 1]) = some (.error .valueError) := by
  obtain ⟨r, r0, h1, -, h2, -⟩ := cut_selected_exact (s := [0, 1]) (k := 30) exDoc_announces exLayout_ok
    (fun q hq => exPages_ok 50 q (by simp at hq; simp [hq])) (exPages_ok 50 exPages[1] (by simp)) (by decide) (by decide) (by decide) (fuel := 20)
    (before := [exPages[0]]) (by decide)
  exact ⟨r, h1, h2 ⟨⟨1, by decide, by decide⟩, Or.inl (by decide)⟩⟩

example : ∃ r r0, openSdds exText 20 true 50 (cutFile exDoc [exPages[0]] exPages[1] 30) = some (.ok r) ∧
    openSdds exText 20 true 50 (fileBytes exDoc [exPages[0]]) = some (.ok r0) ∧ r.read 20 (some [2]) = r0.read 20 (some [2]) ∧
    r.read 20 (some [0]) = r0.read 20 (some [0]) := by
  obtain ⟨r, r0, h1, h2, -, h3⟩ := cut_selected_exact (s := [2]) (k := 30) exDoc_announces exLayout_ok
    (fun q hq => exPages_ok 50 q (by simp at hq; simp [hq])) (exPages_ok 50 exPages[1] (by simp)) (by decide) (by decide) (by decide) (fuel := 20)
    (before := [exPages[0]]) (by decide)
  obtain ⟨r', r0', g1, g2, -, g3⟩ := cut_selected_exact (s := [0]) (k := 30) exDoc_announces exLayout_ok
    (fun q hq => exPages_ok 50 q (by simp at hq; simp [hq])) (exPages_ok 50 exPages[1] (by simp)) (by decide) (by decide) (by decide) (fuel := 20)
    (before := [exPages[0]]) (by decide)
  rw [h1] at g1
  rw [h2] at g2
  cases g1
  cases g2
  exact ⟨r, r0, h1, h2, h3 (by decide), g3 (by decide)⟩

end Verif.Sdds
