import Verif.Sdds.ReadState
import Verif.Sdds.PropsRead

/-!
# Property C121: reading a file more than once
-/

namespace Verif.Sdds

/-- Pages after other pages. -/
def Pages.join (a b : Pages) : Pages := ⟨a.params ++ b.params, a.cols ++ b.cols⟩

/-- No pages. -/
def noPages : Pages := ⟨[], []⟩

theorem join_assoc (a b c : Pages) : (a.join b).join c = a.join (b.join c) := by simp [Pages.join]

theorem join_none (a : Pages) : a.join noPages = a := by simp [Pages.join, noPages]

theorem none_join (a : Pages) : noPages.join a = a := by simp [Pages.join, noPages]

theorem readPage_acc (r : Reader) (all wanted : Bool) (p : Pos) (acc : Pages) :
    r.readPage all wanted p acc = (r.readPage all wanted p noPages).map fun q => (acc.join q.1, q.2) := by
  unfold Reader.readPage
  cases r.getParams r.paramKeys [] p with
  | error e => rfl
  | ok q =>
    obtain ⟨pd, p1⟩ := q
    simp only [bind, Except.bind]
    generalize itemSize (r.colKeys.headD []) = sz
    cases wanted <;> cases addPage r.maxStr [pd] <;> cases r.rowCount pd p1 with
    | error e => simp [Except.map]
    | ok rc =>
      simp only [if_true, Bool.false_eq_true, if_false]
      try split_ifs
      all_goals
        first
        | (simp [Except.map, Pages.join, noPages]; done)
        | (cases sz <;> simp [Except.map, Pages.join, noPages]; done)
        | (cases r.getCols rc p1 with
          | error e => simp [Except.map]
          | ok q =>
            simp only
            cases addPage r.maxStr q.1 <;> simp [Except.map, Pages.join, noPages])

theorem pageLeft_acc (r : Reader) (wanted : Bool) (p : Pos) (acc : Pages) :
    r.pageLeft wanted p acc = acc.join (r.pageLeft wanted p noPages) := by
  unfold Reader.pageLeft
  cases r.getParams r.paramKeys [] p with
  | error e => exact (join_none acc).symm
  | ok q =>
    cases wanted with
    | false => exact (join_none acc).symm
    | true =>
      simp only [if_true]
      cases addPage r.maxStr [q.1] with
      | error e => exact (join_none acc).symm
      | ok pg => simp [Pages.join, noPages]

theorem loopKept_acc (r : Reader) (sel : Option (List Nat)) : ∀ (fuel page : Nat) (p : Pos) (acc : Pages),
    r.loopKept sel fuel page p acc = (r.loopKept sel fuel page p noPages).map fun q => (acc.join q.1, q.2) := by
  intro fuel
  induction fuel with
  | zero => intros; rfl
  | succ fuel ih =>
    intro page p acc
    unfold Reader.loopKept
    split_ifs
    · simp [join_none]
    · simp [join_none]
    · rw [readPage_acc]
      cases r.readPage sel.isNone (wantedPage sel page) p noPages with
      | error e =>
        simp only [Except.map, Option.map_some]
        rw [pageLeft_acc]
      | ok q =>
        simp only [Except.map]
        rw [ih _ _ (acc.join q.1), ih _ _ q.1, Option.map_map]
        congr 1
        funext z
        simp [join_assoc]

theorem textPage_acc (r : Reader) (c : Conv) (all wanted : Bool) (p : TPos) (acc : Pages) :
    r.textPage c all wanted p acc = (r.textPage c all wanted p noPages).map fun q => (acc.join q.1, q.2) := by
  unfold Reader.textPage
  cases r.textParams c r.paramKeys [] p with
  | error e => rfl
  | ok q =>
    obtain ⟨pd, p1⟩ := q
    simp only [bind, Except.bind]
    generalize itemSize (r.colKeys.headD []) = sz
    cases wanted <;> cases textMerge r.maxStr r.paramKeys pd <;> cases r.textRowCount pd p1 with
    | error e => simp [Except.map]
    | ok rc =>
      simp only [if_true, Bool.false_eq_true, if_false]
      generalize r.textCols c rc p1 = tc
      try split_ifs
      all_goals
        first
        | (simp [Except.map, Pages.join, noPages]; done)
        | (cases tc <;> simp [Except.map, Pages.join, noPages]; done)
        | (cases sz with
          | error e => simp [Except.map]
          | ok size =>
            cases rc with
            | none => simp [Except.map]
            | some n =>
              simp only
              split_ifs <;> simp [Except.map, Pages.join, noPages])

theorem textLeft_acc (r : Reader) (c : Conv) (wanted : Bool) (p : TPos) (acc : Pages) :
    r.textLeft c wanted p acc = acc.join (r.textLeft c wanted p noPages) := by
  unfold Reader.textLeft
  cases r.textParams c r.paramKeys [] p with
  | error e => exact (join_none acc).symm
  | ok q =>
    cases wanted with
    | false => exact (join_none acc).symm
    | true =>
      simp only [if_true]
      cases textMerge r.maxStr r.paramKeys q.1 with
      | error e => exact (join_none acc).symm
      | ok pg => simp [Pages.join, noPages]

theorem textKept_acc (r : Reader) (c : Conv) (sel : Option (List Nat)) : ∀ (fuel page : Nat) (p : TPos) (acc : Pages),
    r.textKept c sel fuel page p acc = (r.textKept c sel fuel page p noPages).map fun q => (acc.join q.1, q.2) := by
  intro fuel
  induction fuel with
  | zero => intros; rfl
  | succ fuel ih =>
    intro page p acc
    unfold Reader.textKept
    split_ifs
    · simp [join_none]
    · simp [join_none]
    · rw [textPage_acc]
      cases r.textPage c sel.isNone (wantedPage sel page) p noPages with
      | error e =>
        simp only [Except.map, Option.map_some]
        rw [textLeft_acc]
      | ok q =>
        simp only [Except.map]
        rw [ih _ _ (acc.join q.1), ih _ _ q.1, Option.map_map]
        congr 1
        funext z
        simp [join_assoc]

theorem loopKept_pageLoop (r : Reader) (sel : Option (List Nat)) : ∀ (fuel page : Nat) (p : Pos) (acc : Pages),
    (r.loopKept sel fuel page p acc).map (fun q => q.2.map fun _ => q.1) = r.pageLoop sel fuel page p acc := by
  intro fuel
  induction fuel with
  | zero => intros; rfl
  | succ fuel ih =>
    intro page p acc
    unfold Reader.loopKept Reader.pageLoop
    split_ifs
    · rfl
    · rfl
    · cases r.readPage sel.isNone (wantedPage sel page) p acc with
      | error e => rfl
      | ok q => exact ih _ _ _

theorem textKept_textLoop (r : Reader) (c : Conv) (sel : Option (List Nat)) : ∀ (fuel page : Nat) (p : TPos) (acc : Pages),
    (r.textKept c sel fuel page p acc).map (fun q => q.2.map fun _ => q.1) = r.textLoop c sel fuel page p acc := by
  intro fuel
  induction fuel with
  | zero => intros; rfl
  | succ fuel ih =>
    intro page p acc
    unfold Reader.textKept Reader.textLoop
    split_ifs
    · rfl
    · rfl
    · cases r.textPage c sel.isNone (wantedPage sel page) p acc with
      | error e => rfl
      | ok q => exact ih _ _ _

/-- The first call on a new object. -/
theorem call_first (r : Reader) (c : Conv) (fuel : Nat) (sel : Option (List Nat)) :
    (r.call c fuel noPages sel).map Prod.snd = if r.ascii then r.readText c fuel sel else r.read fuel sel := by
  unfold Reader.call Reader.readText Reader.read
  by_cases hs : sel = some []
  · simp [hs]
  simp only [hs, if_false]
  by_cases ha : r.ascii = true
  · simp only [ha, if_true]
    have h := textKept_textLoop r c sel fuel 0 ⟨if r.buffer then r.lineCount else 0, fileLines (r.file.drop r.headerEnd)⟩ noPages
    unfold noPages at h ⊢
    rw [← h]
    cases r.textKept c sel fuel 0 ⟨if r.buffer then r.lineCount else 0, fileLines (r.file.drop r.headerEnd)⟩ ⟨[], []⟩ with
    | none => rfl
    | some q =>
      obtain ⟨pg, e | u⟩ := q
      · rfl
      · rfl
  · simp only [ha, if_false, Bool.false_eq_true]
    have h := loopKept_pageLoop r sel fuel 0 ⟨if r.buffer then r.headerEnd else 0, r.headerEnd⟩ noPages
    unfold noPages at h ⊢
    rw [← h]
    cases r.loopKept sel fuel 0 ⟨if r.buffer then r.headerEnd else 0, r.headerEnd⟩ ⟨[], []⟩ with
    | none => rfl
    | some q =>
      obtain ⟨pg, e | u⟩ := q
      · rfl
      · rfl

/-- A call on an object that kept pages, in terms of the same call on a new object. -/
theorem call_acc (r : Reader) (c : Conv) (fuel : Nat) (kept : Pages) (sel : Option (List Nat)) :
    (r.call c fuel noPages sel = none ∧ r.call c fuel kept sel = none) ∨
    (∃ new e, r.call c fuel noPages sel = some (new, .error e) ∧ r.call c fuel kept sel = some (kept.join new, .error e)) ∨
    ∃ new, r.call c fuel noPages sel = some (new, exposed new) ∧ r.call c fuel kept sel = some (kept.join new, exposed (kept.join new)) := by
  unfold Reader.call
  by_cases hs : sel = some []
  · simp only [hs, if_true]
    exact .inr (.inl ⟨noPages, _, rfl, by rw [join_none]⟩)
  simp only [hs, if_false]
  have hl : (if r.ascii then r.textKept c sel fuel 0 ⟨if r.buffer then r.lineCount else 0, fileLines (r.file.drop r.headerEnd)⟩ kept
      else r.loopKept sel fuel 0 ⟨if r.buffer then r.headerEnd else 0, r.headerEnd⟩ kept) =
      (if r.ascii then r.textKept c sel fuel 0 ⟨if r.buffer then r.lineCount else 0, fileLines (r.file.drop r.headerEnd)⟩ noPages
      else r.loopKept sel fuel 0 ⟨if r.buffer then r.headerEnd else 0, r.headerEnd⟩ noPages).map fun q => (kept.join q.1, q.2) := by
    split_ifs
    · exact textKept_acc _ _ _ _ _ _ _
    · exact textKept_acc _ _ _ _ _ _ _
    · exact loopKept_acc _ _ _ _ _ _
    · exact loopKept_acc _ _ _ _ _ _
  rw [hl]
  generalize (if r.ascii then r.textKept c sel fuel 0 ⟨if r.buffer then r.lineCount else 0, fileLines (r.file.drop r.headerEnd)⟩ noPages
      else r.loopKept sel fuel 0 ⟨if r.buffer then r.headerEnd else 0, r.headerEnd⟩ noPages) = L
  cases L with
  | none => exact .inl ⟨rfl, rfl⟩
  | some q =>
    obtain ⟨new, e | u⟩ := q
    · exact .inr (.inl ⟨new, e, rfl, rfl⟩)
    · exact .inr (.inr ⟨new, rfl, rfl⟩)

theorem concat_or (l : List (List Record)) : concat l = .ok l ∨ concat l = .error .valueError := by
  unfold concat
  cases l with
  | nil => exact .inl rfl
  | cons a l =>
    simp only
    split_ifs
    · exact .inl rfl
    · exact .inr rfl

/-- Pages can be stacked exactly if they have equally many rows. -/
theorem concat_iff (l : List (List Record)) : concat l = .ok l ↔ ∀ a ∈ l, ∀ b ∈ l, a.length = b.length := by
  unfold concat
  cases l with
  | nil => simp
  | cons a l =>
    simp only
    split_ifs with h
    · rw [List.all_eq_true] at h
      simp only [true_iff]
      have : ∀ b ∈ a :: l, b.length = a.length := by
        intro b hb
        rcases List.mem_cons.1 hb with rfl | hb
        · rfl
        · simpa using h b hb
      intro x hx y hy
      rw [this x hx, this y hy]
    · simp only [reduceCtorEq, false_iff]
      intro hall
      apply h
      rw [List.all_eq_true]
      intro b hb
      simpa using hall b (by simp [hb]) a (by simp)

theorem exposed_same (pg : Pages) : exposed pg = .ok pg ∨ exposed pg = .error .valueError := by
  unfold exposed
  rcases concat_or pg.params with h1 | h1 <;> rcases concat_or pg.cols with h2 | h2 <;> rw [h1, h2] <;> simp [bind, Except.bind]

theorem exposed_iff (pg : Pages) : exposed pg = .ok pg ↔
    (∀ a ∈ pg.params, ∀ b ∈ pg.params, a.length = b.length) ∧ ∀ a ∈ pg.cols, ∀ b ∈ pg.cols, a.length = b.length := by
  rw [← concat_iff, ← concat_iff]
  unfold exposed
  rcases concat_or pg.params with h1 | h1 <;> rcases concat_or pg.cols with h2 | h2 <;> rw [h1, h2] <;> simp [bind, Except.bind]

/-- **C121, what is true of it.** A call of `read` does not depend on earlier ones, except that the pages they kept stay in front: it ends with
the exception of a call on a new object, or it gives the pages kept before and then those of a call on a new object. -/
theorem read_again_partial (r : Reader) (c : Conv) (fuel : Nat) (kept : Pages) (sel : Option (List Nat)) (new : Pages)
    (h : (if r.ascii then r.readText c fuel sel else r.read fuel sel) = some (.ok new)) :
    ∃ res, r.call c fuel kept sel = some (kept.join new, res) ∧
      ((∀ a ∈ kept.params ++ new.params, ∀ b ∈ kept.params ++ new.params, a.length = b.length) →
        (∀ a ∈ kept.cols ++ new.cols, ∀ b ∈ kept.cols ++ new.cols, a.length = b.length) → res = .ok (kept.join new)) := by
  rw [← call_first] at h
  rcases call_acc r c fuel kept sel with ⟨h1, _⟩ | ⟨n, e, h1, _⟩ | ⟨n, h1, h2⟩
  · rw [h1] at h; cases h
  · rw [h1] at h; cases h
  · rw [h1] at h
    simp only [Option.map_some, Option.some.injEq] at h
    have hn : n = new := by
      rcases exposed_same n with h3 | h3 <;> rw [h3] at h
      · exact Except.ok.inj h
      · cases h
    subst hn
    exact ⟨_, h2, fun ha hb => (exposed_iff _).2 ⟨ha, hb⟩⟩

/-- **C121, false.** If a call of `read` on a new object gives at least one page, the same call again gives every page twice. -/
theorem read_twice_fails (r : Reader) (c : Conv) (fuel : Nat) (sel : Option (List Nat)) (new : Pages)
    (h : (if r.ascii then r.readText c fuel sel else r.read fuel sel) = some (.ok new)) (hne : new.params ≠ [] ∨ new.cols ≠ []) :
    r.calls c fuel noPages [sel] = some (new, .ok new) ∧ r.calls c fuel noPages [sel, sel] = some (new.join new, .ok (new.join new)) ∧ new.join new ≠ new := by
  have hfirst := h
  rw [← call_first] at h
  have key : r.call c fuel noPages sel = some (new, .ok new) ∧ exposed new = .ok new := by
    rcases call_acc r c fuel noPages sel with ⟨h1, _⟩ | ⟨n, e, h1, _⟩ | ⟨n, h1, _⟩
    · rw [h1] at h; cases h
    · rw [h1] at h; cases h
    · rw [h1] at h
      simp only [Option.map_some, Option.some.injEq] at h
      rcases exposed_same n with h3 | h3 <;> rw [h3] at h
      · have := Except.ok.inj h
        subst this
        exact ⟨by rw [h1, h3], h3⟩
      · cases h
  obtain ⟨e1, e2⟩ := key
  obtain ⟨u1, u2⟩ := (exposed_iff new).1 e2
  obtain ⟨res, h2, h3⟩ := read_again_partial r c fuel new sel new hfirst
  have hres : res = .ok (new.join new) := by
    refine h3 ?_ ?_
    · intro a ha b hb
      simp only [List.mem_append, or_self] at ha hb
      exact u1 a ha b hb
    · intro a ha b hb
      simp only [List.mem_append, or_self] at ha hb
      exact u2 a ha b hb
  refine ⟨e1, ?_, ?_⟩
  · unfold Reader.calls
    rw [e1]
    simp only
    unfold Reader.calls
    rw [h2, hres]
  · intro he
    have hp := congrArg (fun q => q.params.length) he
    have hc := congrArg (fun q => q.cols.length) he
    simp only [Pages.join, List.length_append] at hp hc
    rcases hne with hn | hn
    · exact hn (List.length_eq_zero_iff.1 (by omega))
    · exact hn (List.length_eq_zero_iff.1 (by omega))

/-- If the object kept pages with different numbers of rows, every later call fails. -/
theorem read_stays_failed (r : Reader) (c : Conv) (fuel : Nat) (kept : Pages) (a b : List Record) (ha : a ∈ kept.cols) (hb : b ∈ kept.cols)
    (hab : a.length ≠ b.length) : ∀ (sels : List (Option (List Nat))) (q : Pages × Except PyErr Pages), r.calls c fuel kept sels = some q → ∃ e, q.2 = .error e := by
  intro sels
  induction sels generalizing kept with
  | nil =>
    intro q hq
    simp only [Reader.calls, Option.some.injEq] at hq
    subst hq
    rcases exposed_same kept with h | h
    · exact absurd (((exposed_iff kept).1 h).2 a ha b hb) hab
    · exact ⟨_, h⟩
  | cons sel sels ih =>
    intro q hq
    have hin : ∀ new, a ∈ (kept.join new).cols ∧ b ∈ (kept.join new).cols := fun new =>
      ⟨List.mem_append_left _ ha, List.mem_append_left _ hb⟩
    have step : ∀ q', r.call c fuel kept sel = some q' → (∃ e, q'.2 = .error e) ∧ a ∈ q'.1.cols ∧ b ∈ q'.1.cols := by
      intro q' hq'
      rcases call_acc r c fuel kept sel with ⟨_, h1⟩ | ⟨n, e, _, h1⟩ | ⟨n, _, h1⟩
      · rw [h1] at hq'; cases hq'
      · rw [h1] at hq'; cases hq'
        exact ⟨⟨e, rfl⟩, hin n⟩
      · rw [h1] at hq'; cases hq'
        refine ⟨?_, hin n⟩
        rcases exposed_same (kept.join n) with h | h
        · exact absurd (((exposed_iff _).1 h).2 a (hin n).1 b (hin n).2) hab
        · exact ⟨_, h⟩
    cases sels with
    | nil => exact (step q hq).1
    | cons s ss =>
      rw [Reader.calls] at hq
      cases hc : r.call c fuel kept sel with
      | none => rw [hc] at hq; cases hq
      | some q' =>
        rw [hc] at hq
        obtain ⟨_, h1, h2⟩ := step q' hc
        exact ih q'.1 h1 h2 q hq
      intro h; cases h

/-- **C121, after a failure.** If two pages of a binary file have different numbers of rows (both not zero), `read()` raises, and after it every
sequence of calls ends with an exception, also calls for a single page which succeed on a new object. -/
theorem ragged_stays_failed {ft : FloatText} {d : Doc} {l : Layout} (h : d.Announces ft l) (hl : l.Ok)
    {pages : List Page} {maxStr : Nat} (hok : ∀ pg ∈ pages, PageOk maxStr l pg) (hc : l.cols ≠ [])
    (hrag : ∃ p ∈ pages, ∃ q ∈ pages, p.rows ≠ [] ∧ q.rows ≠ [] ∧ p.rows.length ≠ q.rows.length) {fuel : Nat}
    (hfuel : d.comments.length + d.namelists.length + pages.length + 2 ≤ fuel) :
    ∃ r, openSdds ft fuel true maxStr (fileBytes d pages) = some (.ok r) ∧
      ∀ (c : Conv) (sels : List (Option (List Nat))) (q : Pages × Except PyErr Pages), r.calls c fuel noPages (none :: sels) = some q → ∃ e, q.2 = .error e := by
  obtain ⟨r, h1, h2, h3, h4, h5, h6⟩ := open_file h pages (fuel := fuel) (by omega) true maxStr
  refine ⟨r, h1, ?_⟩
  subst h6
  intro c sels q hq
  obtain ⟨p, hp, p', hp', hp0, hp0', hne⟩ := hrag
  have hcur : r.cur ⟨if r.buffer then r.headerEnd else 0, r.headerEnd⟩ = (utf8 d.text).length := by
    unfold Reader.cur
    cases r.buffer <;> simp [h4]
  have hloop := loopKept_pageLoop r none fuel 0 ⟨if r.buffer then r.headerEnd else 0, r.headerEnd⟩ noPages
  rw [Reader.pageLoop_ok h2 hl none (.inl rfl) pages hok (by rw [h5]; simp) fuel 0 _ _ (by omega) (by intro hb; simp [hb])
    (by rw [hcur, h3, List.drop_left]) (by rw [hcur, h3, List.length_append]; omega), pick_none] at hloop
  have hcall : r.call c fuel noPages none = some (pagesOf l pages, exposed (pagesOf l pages)) := by
    unfold Reader.call
    simp only [h2.binary, reduceCtorEq, if_false, Bool.false_eq_true]
    cases hk : r.loopKept none fuel 0 ⟨if r.buffer then r.headerEnd else 0, r.headerEnd⟩ noPages with
    | none => rw [hk] at hloop; cases hloop
    | some z =>
      rw [hk] at hloop
      obtain ⟨pg, e | u⟩ := z
      · cases hloop
      · simp only [Option.map_some, Option.some.injEq, Except.map, Except.ok.injEq, Pages.append, noPages, List.nil_append] at hloop
        subst hloop
        rfl
  have ha : rowRecords l p ∈ (pagesOf l pages).cols := List.mem_map_of_mem (List.mem_filter.mpr ⟨hp, by simp [hasData, hc, hp0]⟩)
  have hb : rowRecords l p' ∈ (pagesOf l pages).cols := List.mem_map_of_mem (List.mem_filter.mpr ⟨hp', by simp [hasData, hc, hp0']⟩)
  have hab : (rowRecords l p).length ≠ (rowRecords l p').length := by simpa [rowRecords] using hne
  cases sels with
  | nil =>
    rw [Reader.calls, hcall] at hq
    cases hq
    rcases exposed_same (pagesOf l pages) with h' | h'
    · exact absurd (((exposed_iff _).1 h').2 _ ha _ hb) hab
    · exact ⟨_, h'⟩
  | cons s ss =>
    rw [Reader.calls, hcall] at hq
    · exact read_stays_failed r c fuel _ _ _ ha hb hab _ q hq
    · intro h'; cases h'

/-! Examples: the two files of C06. -/

example : ∃ r new, openSdds exText 20 true 50 (fileBytes exDoc exPages) = some (.ok r) ∧ new.cols.length = 2 ∧
    (∀ c, r.calls c 20 noPages [none, none] = some (new.join new, .ok (new.join new)) ∧ new.join new ≠ new) ∧
    ∀ c, ∃ res, r.call c 20 new none = some (new.join new, res) := by
  obtain ⟨r, h1, h2⟩ := read_all_pages_partial exDoc_announces exLayout_ok (exPages_ok 50) (by decide) (n := 2) (by decide) (by decide)
    (fuel := 20) (by decide) true (by simp)
  have hr : r.ascii = false := by
    obtain ⟨r', h3, h4, -⟩ := open_file exDoc_announces exPages (fuel := 20) (by decide) true 50
    rw [h1] at h3
    cases h3
    exact h4.binary
  refine ⟨r, _, h1, ?_, fun c => (read_twice_fails r c 20 none _ (by rw [hr]; exact h2) (.inr (by simp [exPages]))).2,
    fun c => (read_again_partial r c 20 _ none _ (by rw [hr]; exact h2)).imp fun _ h => h.1⟩
  simp [exPages]

example : ∃ r, openSdds exText 20 true 50 (fileBytes exDoc
      [⟨[.num .double 7], [[.num .double 1, .num .long 2]]⟩,
       ⟨[.num .double 8], [[.num .double 5, .num .long 6], [.num .double 7, .num .long 8]]⟩]) = some (.ok r) ∧
    ∀ (c : Conv) (q : Pages × Except PyErr Pages), r.calls c 20 noPages [none, some [0]] = some q → ∃ e, q.2 = .error e := by
  obtain ⟨r, h1, h2⟩ := ragged_stays_failed exDoc_announces exLayout_ok (maxStr := 50)
    (pages := [⟨[.num .double 7], [[.num .double 1, .num .long 2]]⟩,
       ⟨[.num .double 8], [[.num .double 5, .num .long 6], [.num .double 7, .num .long 8]]⟩])
    (by simp [PageOk, exLayout, Fits, FType.size]) (by decide)
    ⟨⟨[.num .double 7], [[.num .double 1, .num .long 2]]⟩, by simp,
     ⟨[.num .double 8], [[.num .double 5, .num .long 6], [.num .double 7, .num .long 8]]⟩, by simp,
     by simp, by simp, by simp⟩ (fuel := 20) (by decide)
  exact ⟨r, h1, fun c q => h2 c [some [0]] q⟩

end Verif.Sdds
