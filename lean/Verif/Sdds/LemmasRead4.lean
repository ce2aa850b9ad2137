import Verif.Sdds.LemmasRead3
import Verif.Sdds.SpecFile

/-!
# Lemmas on the binary reader: the page loop
-/

set_option linter.unusedSimpArgs false
set_option linter.unusedVariables false

namespace Verif.Sdds

/-- The selected pages of a list whose first page has number `k`. -/
def pick (sel : Option (List Nat)) : Nat → List Page → List Page
  | _, [] => []
  | k, pg :: pages => if wantedPage sel k then pg :: pick sel (k + 1) pages else pick sel (k + 1) pages

/-- A page that gives an entry in the columns. -/
def hasData (l : Layout) (pg : Page) : Bool := !l.cols.isEmpty && !pg.rows.isEmpty

/-- What the selected pages add. -/
def pagesOf (l : Layout) (pages : List Page) : Pages :=
  ⟨pages.map fun pg => [paramRecord l pg], (pages.filter (hasData l)).map (rowRecords l)⟩

def Pages.append (a b : Pages) : Pages := ⟨a.params ++ b.params, a.cols ++ b.cols⟩

theorem colBytes_noData {m : Nat} {l : Layout} {pg : Page} (hpg : PageOk m l pg) (h : hasData l pg = false) :
    colBytes pg = [] := by
  unfold hasData at h
  simp only [Bool.and_eq_false_imp, Bool.not_eq_eq_eq_not, Bool.not_true, Bool.not_false] at h
  unfold colBytes
  rw [List.flatMap_eq_nil_iff]
  intro row hrow
  by_cases hc : l.cols.isEmpty = true
  · have := hpg.2.1 row hrow
    rw [List.isEmpty_iff.mp hc] at this
    cases this
    rfl
  · have := h (by simpa using hc)
    rw [List.isEmpty_iff.mp this] at hrow
    simp at hrow

theorem Reader.pageRowCount_noData {r : Reader} {l : Layout} (hd : r.Describes l) {pg : Page}
    (hpg : PageOk r.maxStr l pg) (h : hasData l pg = false) (p : Pos) :
    r.rowCount (pageArrs l pg) p = .ok 0 := by
  by_cases hc : l.cols = []
  · have : r.cols = [] := by
      have := hd.cols
      rw [hc, List.map_nil] at this
      exact List.map_eq_nil_iff.mp this
    unfold Reader.rowCount
    rw [if_pos this]
  · rw [Reader.pageRowCount hd hpg hc]
    have : pg.rows = [] := by
      unfold hasData at h
      cases hl : l.cols with
      | nil => exact absurd hl hc
      | cons a b => rw [hl] at h; simpa using h
    rw [this]; rfl

theorem hasData_ne {l : Layout} {pg : Page} (h : hasData l pg = true) : l.cols ≠ [] ∧ pg.rows ≠ [] := by
  unfold hasData at h
  simpa using h

/-- A page that is kept. -/
theorem Reader.readPage_keep {r : Reader} {l : Layout} (hd : r.Describes l) (hl : l.Ok) {pg : Page}
    (hpg : PageOk r.maxStr l pg) {p : Pos} (hp : r.PosOk p) {rest : Bytes} (all : Bool)
    (hf : r.file.drop (r.cur p) = encodePage pg ++ rest) (hc : r.cur p ≤ r.file.length) (acc : Pages) :
    r.readPage all true p acc = .ok (acc.append (pagesOf l [pg]), r.adv p (encodePage pg).length) := by
  rw [encodePage_eq, List.append_assoc] at hf
  unfold Reader.readPage
  rw [Reader.pageParams_ok hd hl hpg hp hf hc]
  simp only [bind, Except.bind, if_true, Reader.pageParams_merge hl hpg]
  have hdrop : r.file.drop (r.cur (r.adv p (paramBytes pg).length)) = colBytes pg ++ rest := by
    rw [Reader.cur_adv, ← List.drop_drop, hf, List.drop_left]
  have hle : r.cur (r.adv p (paramBytes pg).length) ≤ r.file.length := by
    have := congrArg List.length hf
    rw [List.length_drop, List.length_append] at this
    rw [Reader.cur_adv]; omega
  cases hD : hasData l pg with
  | false =>
    rw [Reader.pageRowCount_noData hd hpg hD]
    simp only [if_true]
    rw [encodePage_eq, colBytes_noData hpg hD, List.append_nil]
    simp [Pages.append, pagesOf, hD]
  | true =>
    obtain ⟨h1, h2⟩ := hasData_ne hD
    rw [Reader.pageRowCount hd hpg h1]
    simp only
    rw [if_neg (by simpa using h2)]
    obtain ⟨cd, hcd, hadd⟩ := Reader.pageCols_ok hd hl hpg h1 h2 (Reader.adv_ok hp _) hdrop hle
    simp only [Bool.or_true, Bool.true_or, if_true, hcd, hadd, Reader.adv_adv]
    rw [encodePage_eq, List.length_append]
    simp [Pages.append, pagesOf, hD]

/-- A page that is skipped, in a buffered file without strings. -/
theorem Reader.readPage_skip {r : Reader} {l : Layout} (hd : r.Describes l) (hl : l.Ok) {pg : Page}
    (hpg : PageOk r.maxStr l pg) (hb : r.buffer = true) (hs : SType.str ∉ (l.params ++ l.cols).map Prod.snd)
    {p : Pos} {rest : Bytes}
    (hf : r.file.drop (r.cur p) = encodePage pg ++ rest) (hc : r.cur p ≤ r.file.length) (acc : Pages) :
    r.readPage false false p acc = .ok (acc, r.adv p (encodePage pg).length) := by
  rw [encodePage_eq, List.append_assoc] at hf
  have hp : r.PosOk p := by intro h; rw [hb] at h; cases h
  have hs2 : SType.str ∉ l.cols.map Prod.snd := by
    intro h; apply hs; rw [List.map_append]; exact List.mem_append.mpr (Or.inr h)
  unfold Reader.readPage
  rw [Reader.pageParams_ok hd hl hpg hp hf hc]
  simp only [bind, Except.bind, Bool.false_eq_true, if_false]
  cases hD : hasData l pg with
  | false =>
    rw [Reader.pageRowCount_noData hd hpg hD]
    simp only [if_true]
    rw [encodePage_eq, colBytes_noData hpg hD, List.append_nil]
  | true =>
    obtain ⟨h1, h2⟩ := hasData_ne hD
    rw [Reader.pageRowCount hd hpg h1]
    simp only
    rw [if_neg (by simpa using h2), hd.varLen_false hs]
    simp only [Bool.or_false, Bool.false_eq_true, if_false]
    rw [Reader.colKeys_num hd hpg h1 hs2 h2]
    simp only [List.headD_cons, itemSize_numDt hl hpg hs2 h2]
    rw [encodePage_eq, List.length_append, colBytes_length hpg hs2, ← Reader.adv_adv]
    simp [Reader.adv, hb]

theorem Reader.fileEnd_page {r : Reader} {p : Pos} {pg : Page} {rest : Bytes}
    (hf : r.file.drop (r.cur p) = encodePage pg ++ rest) (hm : r.buffer = false → MarkOk pg) :
    r.fileEnd p = false := by
  have hlen : (encodePage pg).length ≥ 4 := by
    rw [encodePage_eq, paramBytes]
    simp only [List.length_append, leBytes_length]
    omega
  unfold Reader.fileEnd
  unfold Reader.cur at hf
  cases hb : r.buffer with
  | true =>
    rw [hb] at hf
    simp only [if_true] at hf ⊢
    have := congrArg List.length hf
    rw [List.length_drop, List.length_append] at this
    rw [decide_eq_false_iff_not]
    omega
  | false =>
    rw [hb] at hf
    simp only [Bool.false_eq_true, if_false] at hf ⊢
    have e : encodePage pg ++ rest = UInt8.ofNat pg.rows.length :: UInt8.ofNat (pg.rows.length / 256) ::
        (leBytes 2 (pg.rows.length / 256 / 256) ++ (pg.params.flatMap encodeVal ++ (colBytes pg ++ rest))) := by
      rw [encodePage_eq, paramBytes]
      simp [leBytes]
    rw [hf, e]
    simp only
    have hm := hm hb
    unfold MarkOk at hm
    unfold readline
    split <;> simp [hm]

theorem Reader.fileEnd_done {r : Reader} {p : Pos} (hf : r.file.drop (r.cur p) = []) : r.fileEnd p = true := by
  unfold Reader.fileEnd
  unfold Reader.cur at hf
  cases hb : r.buffer with
  | true =>
    rw [hb] at hf
    simpa using hf
  | false =>
    rw [hb] at hf
    simp only [Bool.false_eq_true, if_false] at hf
    rw [hf]
    rfl

theorem foldl_max_le (s : List Nat) : ∀ a, a ≤ s.foldl max a ∧ ∀ x ∈ s, x ≤ s.foldl max a := by
  induction s with
  | nil => intro a; simp
  | cons y s ih =>
    intro a
    obtain ⟨h1, h2⟩ := ih (max a y)
    simp only [List.foldl_cons, List.mem_cons, forall_eq_or_imp]
    exact ⟨le_trans (le_max_left _ _) h1, le_trans (le_max_right _ _) h1, h2⟩

theorem pick_past {s : List Nat} {k : Nat} (h : s.foldl max 0 < k) (pages : List Page) :
    pick (some s) k pages = [] := by
  induction pages generalizing k with
  | nil => rfl
  | cons pg pages ih =>
    unfold pick
    have : wantedPage (some s) k = false := by
      unfold wantedPage
      simp only [List.contains_eq_mem, decide_eq_false_iff_not]
      intro hk
      have := (foldl_max_le s 0).2 k hk
      omega
    rw [this]
    simpa using ih (by omega)

theorem Pages.append_nil (l : Layout) (a : Pages) : a.append (pagesOf l []) = a := by
  simp [Pages.append, pagesOf]

theorem Reader.pageLoop_ok {r : Reader} {l : Layout} (hd : r.Describes l) (hl : l.Ok)
    (sel : Option (List Nat))
    (hsel : sel = none ∨ (r.buffer = true ∧ SType.str ∉ (l.params ++ l.cols).map Prod.snd))
    (pages : List Page) : (∀ pg ∈ pages, PageOk r.maxStr l pg) →
    (r.buffer = false → ∀ pg ∈ pages, MarkOk pg) →
    ∀ (fuel k : Nat) (p : Pos) (acc : Pages), pages.length < fuel → r.PosOk p →
    r.file.drop (r.cur p) = pages.flatMap encodePage → r.cur p ≤ r.file.length →
    r.pageLoop sel fuel k p acc = some (.ok (acc.append (pagesOf l (pick sel k pages)))) := by
  induction pages with
  | nil =>
    intro hok hm fuel k p acc hfuel hp hf hc
    obtain ⟨fuel, rfl⟩ : ∃ n, fuel = n + 1 := ⟨fuel - 1, by simp at hfuel; omega⟩
    unfold Reader.pageLoop
    rw [Reader.fileEnd_done (by simpa using hf)]
    simp only [if_true, ite_self, pick, Pages.append_nil]
  | cons pg pages ih =>
    intro hok hm fuel k p acc hfuel hp hf hc
    obtain ⟨fuel, rfl⟩ : ∃ n, fuel = n + 1 := ⟨fuel - 1, by simp at hfuel; omega⟩
    rw [List.flatMap_cons] at hf
    have hpg := hok pg (by simp)
    have hdrop : r.file.drop (r.cur (r.adv p (encodePage pg).length)) = pages.flatMap encodePage := by
      rw [Reader.cur_adv, ← List.drop_drop, hf, List.drop_left]
    have hle : r.cur (r.adv p (encodePage pg).length) ≤ r.file.length := by
      have := congrArg List.length hf
      rw [List.length_drop, List.length_append] at this
      rw [Reader.cur_adv]; omega
    have hrec := fun acc' => ih (fun x hx => hok x (by simp [hx])) (fun hb x hx => hm hb x (by simp [hx]))
      fuel (k + 1) (r.adv p (encodePage pg).length) acc' (by simp at hfuel; omega) (Reader.adv_ok hp _) hdrop hle
    unfold Reader.pageLoop
    by_cases hpast : pastPages sel k = true
    · rw [if_pos hpast]
      cases sel with
      | none => simp [pastPages] at hpast
      | some s =>
        simp only [pastPages, decide_eq_true_eq] at hpast
        rw [pick_past hpast, Pages.append_nil]
    · rw [if_neg hpast, Reader.fileEnd_page hf (fun hb => hm hb pg (by simp))]
      simp only [Bool.false_eq_true, if_false]
      unfold pick
      cases hwk : wantedPage sel k with
      | true =>
        rw [Reader.readPage_keep hd hl hpg hp _ hf hc]
        simp only [hrec, if_true]
        congr 2
        simp only [Pages.append, pagesOf, List.map_cons, List.map_nil, List.append_assoc, List.singleton_append,
          Pages.mk.injEq, true_and, List.append_cancel_left_eq]
        rw [← List.map_append, ← List.filter_append]
        rfl
      | false =>
        cases sel with
        | none => simp [wantedPage] at hwk
        | some s =>
          rcases hsel with h | ⟨hb, hs⟩
          · cases h
          · have : (some s).isNone = false := rfl
            rw [this, Reader.readPage_skip hd hl hpg hb hs hf hc]
            simp only [hrec, Bool.false_eq_true, if_false]

theorem concat_ok {pages : List (List Record)} {n : Nat} (h : ∀ pg ∈ pages, pg.length = n) :
    concat pages = .ok pages := by
  cases pages with
  | nil => rfl
  | cons pg pages =>
    simp only [concat]
    rw [if_pos]
    rw [List.all_eq_true]
    intro q hq
    simp [h pg (by simp), h q (by simp [hq])]

theorem concat_params (l : Layout) (pages : List Page) :
    concat (pagesOf l pages).params = .ok (pages.map fun pg => [paramRecord l pg]) := by
  refine concat_ok (n := 1) ?_
  intro pg hpg
  obtain ⟨x, _, rfl⟩ := List.mem_map.mp hpg
  rfl

theorem Reader.read_ok {r : Reader} {l : Layout} (hd : r.Describes l) (hl : l.Ok)
    (sel : Option (List Nat)) (hs0 : sel ≠ some [])
    (hsel : sel = none ∨ (r.buffer = true ∧ SType.str ∉ (l.params ++ l.cols).map Prod.snd))
    {header : Bytes} {pages : List Page} (hok : ∀ pg ∈ pages, PageOk r.maxStr l pg)
    (hm : r.buffer = false → ∀ pg ∈ pages, MarkOk pg)
    (hfile : r.file = header ++ pages.flatMap encodePage) (hend : r.headerEnd = header.length)
    {fuel : Nat} (hfuel : pages.length < fuel) :
    r.read fuel sel = some ((concat (pagesOf l (pick sel 0 pages)).cols).bind fun cs =>
      .ok ⟨(pick sel 0 pages).map fun pg => [paramRecord l pg], cs⟩) := by
  have hcur : r.cur ⟨if r.buffer then r.headerEnd else 0, r.headerEnd⟩ = header.length := by
    unfold Reader.cur
    cases r.buffer <;> simp [hend]
  unfold Reader.read
  rw [if_neg hs0]
  simp only
  rw [Reader.pageLoop_ok hd hl sel hsel pages hok hm fuel 0 _ _ hfuel ?_ ?_ ?_]
  · have := concat_params l (pick sel 0 pages)
    simp only [Pages.append, List.nil_append, this, bind, Except.bind]
  · intro hb; simp [hb]
  · rw [hcur, hfile, List.drop_left]
  · rw [hcur, hfile, List.length_append]; omega

end Verif.Sdds
