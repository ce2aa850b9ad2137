import Verif.Sdds.PropsRead

/-!
# Property C07: what a selection of pages gives when it does not give those pages

Files with string fields (any page that is passed over leaves its columns in the result), and
files read without buffer (passing over a page moves the offset and not the file).
-/

set_option linter.unusedSimpArgs false
set_option linter.unusedVariables false

namespace Verif.Sdds

/-- A page that is not wanted, in a file with strings: its columns are kept all the same. -/
theorem Reader.readPage_side {r : Reader} {l : Layout} (hd : r.Describes l) (hl : l.Ok) {pg : Page}
    (hpg : PageOk r.maxStr l pg) {p : Pos} (hp : r.PosOk p) {rest : Bytes}
    (hs : SType.str ∈ (l.params ++ l.cols).map Prod.snd)
    (hf : r.file.drop (r.cur p) = encodePage pg ++ rest) (hc : r.cur p ≤ r.file.length) (acc : Pages) :
    r.readPage false false p acc =
      .ok (acc.append ⟨[], (pagesOf l [pg]).cols⟩, r.adv p (encodePage pg).length) := by
  rw [encodePage_eq, List.append_assoc] at hf
  unfold Reader.readPage
  rw [Reader.pageParams_ok hd hl hpg hp hf hc]
  simp only [bind, Except.bind, Bool.false_eq_true, if_false]
  have hdrop : r.file.drop (r.cur (r.adv p (paramBytes pg).length)) = colBytes pg ++ rest := by
    rw [Reader.cur_adv, ← List.drop_drop, hf, List.drop_left]
  have hle : r.cur (r.adv p (paramBytes pg).length) ≤ r.file.length := by
    have := congrArg List.length hf
    rw [List.length_drop, List.length_append] at this
    rw [Reader.cur_adv]; omega
  cases hD : hasData l pg with
  | false =>
    rw [Reader.pageRowCount_noData hd hpg hD]
    simp only [if_true]
    rw [encodePage_eq, colBytes_noData hpg hD, List.append_nil]
    simp [Pages.append, pagesOf, hD]
  | true =>
    obtain ⟨h1, h2⟩ := hasData_ne hD
    rw [Reader.pageRowCount hd hpg h1]
    simp only
    rw [if_neg (by simpa using h2), hd.varLen_true hs]
    obtain ⟨cd, hcd, hadd⟩ := Reader.pageCols_ok hd hl hpg h1 h2 (Reader.adv_ok hp _) hdrop hle
    simp only [Bool.or_true, Bool.true_or, if_true, hcd, hadd, Reader.adv_adv]
    rw [encodePage_eq, List.length_append]
    simp [Pages.append, pagesOf, hD]

theorem Reader.pageLoop_strings {r : Reader} {l : Layout} (hd : r.Describes l) (hl : l.Ok)
    (s : List Nat) (hs : SType.str ∈ (l.params ++ l.cols).map Prod.snd)
    (pages : List Page) : (∀ pg ∈ pages, PageOk r.maxStr l pg) →
    (r.buffer = false → ∀ pg ∈ pages, MarkOk pg) →
    ∀ (fuel k : Nat) (p : Pos) (acc : Pages), pages.length < fuel → r.PosOk p →
    r.file.drop (r.cur p) = pages.flatMap encodePage → r.cur p ≤ r.file.length →
    r.pageLoop (some s) fuel k p acc = some (.ok (acc.append
      ⟨(pagesOf l (pick (some s) k pages)).params, (pagesOf l (pages.take (s.foldl max 0 + 1 - k))).cols⟩)) := by
  induction pages with
  | nil =>
    intro hok hm fuel k p acc hfuel hp hf hc
    obtain ⟨fuel, rfl⟩ : ∃ n, fuel = n + 1 := ⟨fuel - 1, by simp at hfuel; omega⟩
    unfold Reader.pageLoop
    rw [Reader.fileEnd_done (by simpa using hf)]
    simp [pick, Pages.append, pagesOf]
  | cons pg pages ih =>
    intro hok hm fuel k p acc hfuel hp hf hc
    obtain ⟨fuel, rfl⟩ : ∃ n, fuel = n + 1 := ⟨fuel - 1, by simp at hfuel; omega⟩
    rw [List.flatMap_cons] at hf
    have hpg := hok pg (by simp)
    have hdrop : r.file.drop (r.cur (r.adv p (encodePage pg).length)) = pages.flatMap encodePage := by
      rw [Reader.cur_adv, ← List.drop_drop, hf, List.drop_left]
    have hle : r.cur (r.adv p (encodePage pg).length) ≤ r.file.length := by
      have := congrArg List.length hf
      rw [List.length_drop, List.length_append] at this
      rw [Reader.cur_adv]; omega
    have hrec := fun acc' => ih (fun x hx => hok x (by simp [hx])) (fun hb x hx => hm hb x (by simp [hx]))
      fuel (k + 1) (r.adv p (encodePage pg).length) acc' (by simp at hfuel; omega) (Reader.adv_ok hp _) hdrop hle
    unfold Reader.pageLoop
    by_cases hpast : s.foldl max 0 < k
    · have h0 : s.foldl max 0 + 1 - k = 0 := by omega
      rw [if_pos (by simpa [pastPages] using hpast), pick_past hpast, h0]
      simp [Pages.append, pagesOf]
    · rw [if_neg (by simpa [pastPages] using hpast), Reader.fileEnd_page hf (fun hb => hm hb pg (by simp))]
      simp only [Bool.false_eq_true, if_false]
      have h0 : s.foldl max 0 + 1 - k = (s.foldl max 0 + 1 - (k + 1)) + 1 := by omega
      rw [h0, List.take_succ_cons]
      unfold pick
      cases hwk : wantedPage (some s) k with
      | true =>
        rw [Reader.readPage_keep hd hl hpg hp _ hf hc]
        simp only [hrec, if_true]
        congr 2
        simp only [Pages.append, pagesOf, List.map_cons, List.map_nil, List.append_assoc, List.singleton_append,
          Pages.mk.injEq, true_and, List.append_cancel_left_eq]
        rw [← List.map_append, ← List.filter_append]
        rfl
      | false =>
        have : (some s).isNone = false := rfl
        rw [this, Reader.readPage_side hd hl hpg hp hs hf hc]
        simp only [hrec, Bool.false_eq_true, if_false]
        congr 2
        simp only [Pages.append, pagesOf, List.map_cons, List.map_nil, List.append_assoc, List.singleton_append,
          List.append_nil, Pages.mk.injEq, true_and, List.append_cancel_left_eq]
        rw [← List.map_append, ← List.filter_append]
        rfl

/-- **C07, with strings.** In every file that has a string parameter or column, with or without
buffer, `read(pages=s)` gives the parameters of the pages in `s`, and the columns of *all* pages
from the first to the largest number in `s`. -/
theorem read_selected_strings_exact {ft : FloatText} {d : Doc} {l : Layout} (h : d.Announces ft l) (hl : l.Ok)
    (hstr : SType.str ∈ (l.params ++ l.cols).map Prod.snd)
    {pages : List Page} {maxStr : Nat} (hok : ∀ pg ∈ pages, PageOk maxStr l pg) (hc : l.cols ≠ []) {n : Nat}
    (hn : 0 < n) (hrows : ∀ pg ∈ pages, pg.rows.length = n) {fuel : Nat}
    (hfuel : d.comments.length + d.namelists.length + pages.length + 2 ≤ fuel) (buffer : Bool)
    (hm : buffer = false → ∀ pg ∈ pages, MarkOk pg) (s : List Nat) (hs : s ≠ []) :
    ∃ r P C, openSdds ft fuel buffer maxStr (fileBytes d pages) = some (.ok r) ∧
      P.length = pages.length ∧ C.length = pages.length ∧
      r.read fuel none = some (.ok ⟨P, C⟩) ∧
      r.read fuel (some s) = some (.ok ⟨atPages s P, C.take (s.foldl max 0 + 1)⟩) := by
  obtain ⟨r, h1, h2, h3, h4, h5, h6⟩ := open_file h pages (fuel := fuel) (by omega) buffer maxStr
  subst h5 h6
  have hne : ∀ pg ∈ pages, pg.rows ≠ [] := by
    intro pg hpg h0
    have := hrows pg hpg
    rw [h0] at this
    simp at this
    omega
  have hlen : ∀ p ∈ pages.map (rowRecords l), p.length = n := by
    intro p hp
    obtain ⟨pg, hpg, rfl⟩ := List.mem_map.mp hp
    unfold rowRecords
    rw [List.length_map, hrows pg hpg]
  refine ⟨r, pages.map fun pg => [paramRecord l pg], pages.map (rowRecords l), h1, by simp, by simp, ?_, ?_⟩
  · rw [Reader.read_ok h2 hl none (by simp) (Or.inl rfl) hok hm h3 h4 (by omega), pick_none]
    unfold pagesOf
    rw [filter_hasData hc hne, concat_same hlen]
    rfl
  · have hcur : r.cur ⟨if r.buffer then r.headerEnd else 0, r.headerEnd⟩ = r.headerEnd := by
      unfold Reader.cur
      cases r.buffer <;> simp
    unfold Reader.read
    rw [if_neg (by simpa using hs)]
    simp only
    rw [Reader.pageLoop_strings h2 hl s hstr pages hok hm fuel 0 _ _ (by omega) ?_ ?_ ?_]
    · have := concat_params l (pick (some s) 0 pages)
      simp only [Pages.append, List.nil_append, this, bind, Except.bind, Nat.sub_zero]
      rw [pick_atPages]
      unfold pagesOf
      rw [filter_hasData hc (fun pg hpg => hne pg (List.mem_of_mem_take hpg)), concat_same (n := n), ← List.map_take, ← atPages_map]
      intro p hp
      obtain ⟨pg, hpg, rfl⟩ := List.mem_map.mp hp
      exact hlen _ (List.mem_map_of_mem (List.mem_of_mem_take hpg))
    · intro hb; simp [hb]
    · rw [hcur, h4, h3, List.drop_left]
    · rw [hcur, h4, h3, List.length_append]; omega

/-- The columns returned are those of the selected pages exactly when no page before the last
selected one is left out. -/
theorem take_atPages_iff {α : Type} (s : List Nat) (C : List α) :
    C.take (s.foldl max 0 + 1) = atPages s C ↔ ∀ j ≤ s.foldl max 0, j < C.length → j ∈ s := by
  have htake : C.take (s.foldl max 0 + 1) =
      ((C.zipIdx.filter fun x => decide (x.2 ≤ s.foldl max 0)).map Prod.fst) := by
    generalize s.foldl max 0 = m
    have key : ∀ (C : List α) (k m : Nat), C.take (m + 1) =
        (((C.zipIdx k).filter fun x => decide (x.2 ≤ k + m)).map Prod.fst) := by
      intro C
      induction C with
      | nil => intro k m; simp
      | cons a C ih =>
        intro k m
        rw [List.take_succ_cons, List.zipIdx_cons, List.filter_cons_of_pos (by simp), List.map_cons]
        congr 1
        cases m with
        | zero =>
          simp only [List.take_zero, Nat.add_zero]
          symm
          rw [List.map_eq_nil_iff, List.filter_eq_nil_iff]
          intro x hx
          have := List.le_snd_of_mem_zipIdx hx
          simp only [decide_eq_true_eq]
          omega
        | succ m =>
          rw [ih (k + 1) m]
          congr 2
          funext x
          congr 1
          simp only [eq_iff_iff]
          omega
    have := key C 0 m
    simpa using this
  have hsub : (C.zipIdx.filter fun x => s.contains x.2).Sublist
      (C.zipIdx.filter fun x => decide (x.2 ≤ s.foldl max 0)) := by
    have e : (C.zipIdx.filter fun x => s.contains x.2) =
        (C.zipIdx.filter fun x => decide (x.2 ≤ s.foldl max 0)).filter fun x => s.contains x.2 := by
      rw [List.filter_filter]
      congr 1
      funext x
      by_cases hx : x.2 ∈ s
      · have := (foldl_max_le s 0).2 _ hx
        simp [hx, this]
      · simp [hx]
    rw [e]
    exact List.filter_sublist
  constructor
  · intro heq j hj hjl
    have hl : (C.zipIdx.filter fun x => s.contains x.2).length =
        (C.zipIdx.filter fun x => decide (x.2 ≤ s.foldl max 0)).length := by
      have := congrArg List.length heq
      rw [htake, atPages, List.length_map, List.length_map] at this
      exact this.symm
    have e := hsub.eq_of_length hl
    have hm : (C[j], j) ∈ (C.zipIdx.filter fun x => decide (x.2 ≤ s.foldl max 0)) := by
      rw [List.mem_filter]
      refine ⟨?_, by simpa using hj⟩
      rw [List.mk_mem_zipIdx_iff_getElem?]
      simp [hjl]
    rw [← e, List.mem_filter] at hm
    simpa using hm.2
  · intro hall
    rw [htake, atPages]
    congr 1
    apply List.filter_congr
    intro x hx
    have hlt := List.snd_lt_of_mem_zipIdx hx
    by_cases hxs : x.2 ∈ s
    · have := (foldl_max_le s 0).2 _ hxs
      simp [hxs, this]
    · have : ¬ x.2 ≤ s.foldl max 0 := fun hle => hxs (hall _ hle (by simpa using hlt))
      simp [hxs, this]

/-- **C07, with strings, when it holds.** In a file with a string field the selection gives the
selected pages exactly when it leaves out no page before its last one. -/
theorem read_selected_strings_iff {ft : FloatText} {d : Doc} {l : Layout} (h : d.Announces ft l) (hl : l.Ok)
    (hstr : SType.str ∈ (l.params ++ l.cols).map Prod.snd)
    {pages : List Page} {maxStr : Nat} (hok : ∀ pg ∈ pages, PageOk maxStr l pg) (hc : l.cols ≠ []) {n : Nat}
    (hn : 0 < n) (hrows : ∀ pg ∈ pages, pg.rows.length = n) {fuel : Nat}
    (hfuel : d.comments.length + d.namelists.length + pages.length + 2 ≤ fuel) (buffer : Bool)
    (hm : buffer = false → ∀ pg ∈ pages, MarkOk pg) (s : List Nat) (hs : s ≠ []) :
    ∃ r P C, openSdds ft fuel buffer maxStr (fileBytes d pages) = some (.ok r) ∧
      r.read fuel none = some (.ok ⟨P, C⟩) ∧
      (r.read fuel (some s) = some (.ok ⟨atPages s P, atPages s C⟩) ↔
        ∀ i ∈ s, ∀ j < i, j < pages.length → j ∈ s) := by
  obtain ⟨r, P, C, h1, hP, hC, h2, h3⟩ :=
    read_selected_strings_exact h hl hstr hok hc hn hrows hfuel buffer hm s hs
  refine ⟨r, P, C, h1, h2, ?_⟩
  rw [h3]
  simp only [Option.some.injEq, Except.ok.injEq, Pages.mk.injEq, true_and]
  rw [take_atPages_iff, hC]
  have hmem : s.foldl max 0 ∈ s ∨ s.foldl max 0 = 0 := by
    have : ∀ (s : List Nat) (a : Nat), s.foldl max a ∈ s ∨ s.foldl max a = a := by
      intro s
      induction s with
      | nil => intro a; right; rfl
      | cons x s ih =>
        intro a
        rw [List.foldl_cons]
        rcases ih (max a x) with h | h
        · exact Or.inl (List.mem_cons_of_mem _ h)
        · rw [h]
          rcases le_total a x with hax | hax
          · left; rw [max_eq_right hax]; simp
          · right; exact max_eq_left hax
    exact this s 0
  constructor
  · intro hall i hi j hj hjl
    exact hall j (le_trans hj.le ((foldl_max_le s 0).2 i hi)) hjl
  · intro hall j hj hjl
    rcases hmem with hmem | hmem
    · rcases Nat.lt_or_ge j (s.foldl max 0) with hlt | hge
      · exact hall _ hmem j hlt hjl
      · have : j = s.foldl max 0 := by omega
        rw [this]; exact hmem
    · obtain ⟨a, ha⟩ := List.exists_mem_of_ne_nil s hs
      have := (foldl_max_le s 0).2 a ha
      have : j = a := by omega
      rw [this]; exact ha

/-- Pages of a file with a string column. -/
def exSelPages : List Page :=
  [⟨[.str [97]], [[.str [81, 49], .num .double 1]]⟩, ⟨[.str [98]], [[.str [68], .num .double 2]]⟩]

theorem exSelPages_ok : ∀ pg ∈ exSelPages, PageOk 100 exLayoutS pg := by
  have h1 : GoodStr 100 [97] := ⟨by decide, by decide, by decide, by decide⟩
  have h2 : GoodStr 100 [81, 49] := ⟨by decide, by decide, by decide, by decide⟩
  have h3 : GoodStr 100 [68] := ⟨by decide, by decide, by decide, by decide⟩
  have h4 : GoodStr 100 [98] := ⟨by decide, by decide, by decide, by decide⟩
  simp [exSelPages, PageOk, exLayoutS, Fits, FType.size, h1, h2, h3, h4]

example : ∃ r P C, openSdds exText 20 false 100 (fileBytes exDocS exSelPages) = some (.ok r) ∧
    P.length = 2 ∧ C.length = 2 ∧
    r.read 20 none = some (.ok ⟨P, C⟩) ∧ r.read 20 (some [1]) = some (.ok ⟨atPages [1] P, C.take 2⟩) :=
  read_selected_strings_exact exDocS_announces exLayoutS_ok (by decide) exSelPages_ok (by decide) (n := 1) (by decide)
    (by decide) (by decide) false (by intro _; unfold MarkOk; decide) [1] (by decide)

example : ∃ r P C, openSdds exText 20 true 100 (fileBytes exDocS exSelPages) = some (.ok r) ∧
    r.read 20 none = some (.ok ⟨P, C⟩) ∧
    (r.read 20 (some [1]) = some (.ok ⟨atPages [1] P, atPages [1] C⟩) ↔
      ∀ i ∈ [1], ∀ j < i, j < exSelPages.length → j ∈ [1]) :=
  read_selected_strings_iff exDocS_announces exLayoutS_ok (by decide) exSelPages_ok (by decide) (n := 1) (by decide)
    (by decide) (by decide) true (by simp) [1] (by decide)

/-! ### Without buffer -/

theorem Reader.readArr_unbuffered {r : Reader} (hb : r.buffer = false) {dk : Dtype} {count size : Nat} {p p' : Pos}
    {a : Arr} (hs : itemSize dk = .ok size) (h : r.readArr dk count p = .ok (a, p')) :
    p'.position = p.position ∧ min r.file.length (p.ptr + p.position + size * count) ≤ p'.ptr ∧
      (r.file.length ≤ p.ptr + p.position → a.rows = []) := by
  unfold Reader.readArr at h
  rw [hb] at h
  simp only [Bool.false_eq_true, if_false, fromfile, hs, bind, Except.bind] at h
  by_cases h0 : size = 0
  · rw [if_pos h0] at h; cases h
  rw [if_neg h0] at h
  by_cases hav : (r.file.length - (p.ptr + p.position)) / size < count
  · rw [if_pos hav] at h
    simp only [Except.ok.injEq, Prod.mk.injEq] at h
    obtain ⟨rfl, rfl⟩ := h
    refine ⟨rfl, ?_, ?_⟩
    · simp only; omega
    · intro hle
      have : r.file.length - (p.ptr + p.position) = 0 := by omega
      simp only [this, Nat.zero_div]
      rfl
  · rw [if_neg hav] at h
    simp only [Except.ok.injEq, Prod.mk.injEq] at h
    obtain ⟨rfl, rfl⟩ := h
    refine ⟨rfl, ?_, ?_⟩
    · simp only [Nat.mul_comm count size]; omega
    · intro hle
      have : r.file.length - (p.ptr + p.position) = 0 := by omega
      rw [this, Nat.zero_div] at hav
      have : count = 0 := by omega
      subst this
      rfl

/-- Reading parameters of fixed width moves the file by at least the offset and their width, or
to the end of the file. -/
theorem Reader.getParams_unbuffered {r : Reader} (hb : r.buffer = false) (hv : r.varLen = false)
    (dks : List Dtype) : ∀ (sizes : List Nat) (acc : List Arr) (p p' : Pos) (out : List Arr),
    List.Forall₂ (fun dk n => itemSize dk = .ok n) dks sizes → r.getParams dks acc p = .ok (out, p') →
    p'.position = p.position ∧ (dks ≠ [] → min r.file.length (p.ptr + p.position + sizes.sum) ≤ p'.ptr) := by
  induction dks with
  | nil =>
    intro sizes acc p p' out hF h
    simp only [Reader.getParams, Except.ok.injEq, Prod.mk.injEq] at h
    exact ⟨by rw [h.2], by simp⟩
  | cons dk dks ih =>
    intro sizes acc p p' out hF h
    cases hF with
    | cons hs hF =>
      rename_i n sizes
      simp only [Reader.getParams, resolve, hv, Bool.not_false, if_true, bind, Except.bind] at h
      cases hra : r.readArr dk 1 p with
      | error e => rw [hra] at h; cases h
      | ok ap =>
        obtain ⟨a, p1⟩ := ap
        rw [hra] at h
        simp only at h
        obtain ⟨e1, e2, -⟩ := Reader.readArr_unbuffered hb hs hra
        obtain ⟨f1, f2⟩ := ih sizes _ p1 p' out hF h
        refine ⟨by rw [f1, e1], fun _ => ?_⟩
        rw [List.sum_cons]
        by_cases hd : dks = []
        · subst hd
          cases hF
          simp only [Reader.getParams, Except.ok.injEq, Prod.mk.injEq] at h
          rw [← h.2]
          simp only [List.sum_nil, Nat.add_zero, Nat.mul_one] at e2 ⊢
          exact e2
        · have := f2 hd
          rw [e1] at this
          simp only [Nat.mul_one] at e2
          omega

theorem paramKeys_sizes {m : Nat} {fs : List (Str × SType)} {vs : List Val}
    (h : List.Forall₂ (fun f v => Fits m f.2 v) fs vs) (hs : SType.str ∉ fs.map Prod.snd) :
    List.Forall₂ (fun dk n => itemSize dk = .ok n) (fs.flatMap sKeys) (vs.map fun v => (encodeVal v).length) := by
  induction h with
  | nil => exact List.Forall₂.nil
  | cons h _ ih =>
    rename_i f v fs vs _
    obtain ⟨n, t⟩ := f
    simp only [List.map_cons, List.mem_cons, not_or] at hs
    cases t with
    | str => exact absurd rfl hs.1
    | num t =>
      cases v with
      | str s => exact absurd h (by simp [Fits])
      | num t' x =>
        obtain ⟨rfl, _⟩ := h
        simp only [List.flatMap_cons, sKeys, List.singleton_append, List.map_cons]
        refine List.Forall₂.cons ?_ (ih hs.2)
        simp [itemSize, keySize, encodeVal, bind, Except.bind, pure, Except.pure]

/-- **C07, false without buffer.** A file of two pages of numbers, the first with at least as many
rows as the second: `read(pages=[1])` without buffer never returns a row of the file. Passing
over page 0 sets the offset that every later read adds once more. -/
theorem read_selected_unbuffered_exact {ft : FloatText} {d : Doc} {l : Layout} (h : d.Announces ft l) (hl : l.Ok)
    (hnum : SType.str ∉ (l.params ++ l.cols).map Prod.snd) {p0 p1 : Page} {maxStr : Nat}
    (h0 : PageOk maxStr l p0) (h1 : PageOk maxStr l p1) (hc : l.cols ≠ []) (hne : p1.rows ≠ [])
    (hle : p1.rows.length ≤ p0.rows.length) (hm : MarkOk p0) {fuel : Nat}
    (hfuel : d.comments.length + d.namelists.length + 4 ≤ fuel) :
    ∃ r, openSdds ft fuel false maxStr (fileBytes d [p0, p1]) = some (.ok r) ∧
      ∀ res, r.read fuel (some [1]) = some (.ok res) → ∀ c ∈ res.cols, c = [] := by
  obtain ⟨r, g1, g2, g3, g4, g5, g6⟩ := open_file h [p0, p1] (fuel := fuel) (by omega) false maxStr
  refine ⟨r, g1, ?_⟩
  subst g6
  intro res hres
  have hne0 : p0.rows ≠ [] := by
    intro hx
    rw [hx] at hle
    exact hne (List.length_eq_zero_iff.mp (by simpa using hle))
  have hs2 : SType.str ∉ l.cols.map Prod.snd := by
    intro h; apply hnum; rw [List.map_append]; exact List.mem_append.mpr (Or.inr h)
  have hs1 : SType.str ∉ l.params.map Prod.snd := by
    intro h; apply hnum; rw [List.map_append]; exact List.mem_append.mpr (Or.inl h)
  have hv := g2.varLen_false hnum
  have hkey := Reader.colKeys_num g2 h0 hc hs2 hne0
  have hitem := itemSize_numDt hl h0 hs2 hne0
  obtain ⟨fuel, rfl⟩ : ∃ n, fuel = n + 3 := ⟨fuel - 3, by omega⟩
  have hf : r.file.drop r.headerEnd = encodePage p0 ++ (encodePage p1 ++ []) := by
    rw [g3, g4, List.drop_left]; simp
  -- the first page
  have hrd : r.readPage false false ⟨0, r.headerEnd⟩ ⟨[], []⟩ =
      .ok (⟨[], []⟩, ⟨rowSize l.cols * p0.rows.length, r.headerEnd + (paramBytes p0).length⟩) := by
    have hf' := hf
    rw [encodePage_eq, List.append_assoc] at hf'
    have hp : r.PosOk ⟨0, r.headerEnd⟩ := fun _ => rfl
    have hcur : r.cur ⟨0, r.headerEnd⟩ = r.headerEnd := by simp [Reader.cur, g5]
    unfold Reader.readPage
    rw [Reader.pageParams_ok g2 hl h0 hp (by rw [hcur]; exact hf')
      (by rw [hcur, g4, g3, List.length_append]; omega)]
    simp only [bind, Except.bind, Bool.false_eq_true, if_false]
    rw [Reader.pageRowCount g2 h0 hc]
    simp only
    rw [if_neg (by simpa using hne0), hv]
    simp only [Bool.or_false, Bool.false_eq_true, if_false, hkey, List.headD_cons, hitem]
    simp [Reader.adv, g5]
  have hend0 : r.fileEnd ⟨0, r.headerEnd⟩ = false :=
    Reader.fileEnd_page (r := r) (p := ⟨0, r.headerEnd⟩) (by simpa [Reader.cur, g5] using hf) (fun _ => hm)
  unfold Reader.read at hres
  rw [if_neg (by simp)] at hres
  have hp0 : (⟨if r.buffer then r.headerEnd else 0, r.headerEnd⟩ : Pos) = ⟨0, r.headerEnd⟩ := by simp [g5]
  rw [hp0] at hres
  have hw0 : wantedPage (some [1]) 0 = false := rfl
  have hw1 : wantedPage (some [1]) 1 = true := rfl
  have hp1 : pastPages (some [1]) 0 = false := rfl
  have hp2 : pastPages (some [1]) 1 = false := rfl
  have hp3 : pastPages (some [1]) 2 = true := rfl
  simp only [Reader.pageLoop, hp1, hp2, hp3, hw0, hw1, hend0, Bool.false_eq_true, if_false, if_true,
    Option.isNone_some, hrd, Nat.zero_add, Nat.reduceAdd] at hres
  set q : Pos := ⟨rowSize l.cols * p0.rows.length, r.headerEnd + (paramBytes p0).length⟩ with hq
  cases hend : r.fileEnd q with
  | true =>
    rw [hend] at hres
    simp only [if_true, concat, bind, Except.bind, Option.some.injEq, Except.ok.injEq] at hres
    subst hres
    simp
  | false =>
    rw [hend] at hres
    simp only [Bool.false_eq_true, if_false] at hres
    -- the second page
    have hcols : ∀ acc p', r.readPage false true q ⟨[], []⟩ = .ok (acc, p') → ∀ c ∈ acc.cols, c = [] := by
      intro acc p' hr
      unfold Reader.readPage at hr
      simp only [bind, Except.bind, if_true, Bool.or_true, Bool.true_or] at hr
      cases hgp : r.getParams r.paramKeys [] q with
      | error e => rw [hgp] at hr; cases hr
      | ok x =>
        obtain ⟨pd, q1⟩ := x
        rw [hgp] at hr
        simp only at hr
        cases hadd : addPage r.maxStr [pd] with
        | error e => rw [hadd] at hr; cases hr
        | ok pg =>
          rw [hadd] at hr
          simp only at hr
          cases hrc : r.rowCount pd q1 with
          | error e => rw [hrc] at hr; cases hr
          | ok rc =>
            rw [hrc] at hr
            simp only at hr
            by_cases h00 : rc = 0
            · rw [if_pos h00] at hr
              simp only [Except.ok.injEq, Prod.mk.injEq] at hr
              rw [← hr.1]
              simp
            · rw [if_neg h00] at hr
              unfold Reader.getCols at hr
              rw [hkey] at hr
              simp only [bind, Except.bind] at hr
              cases hra : r.readArr (numDt l.cols) rc q1 with
              | error e => rw [hra] at hr; cases hr
              | ok y =>
                obtain ⟨a, q2⟩ := y
                rw [hra] at hr
                simp only [addPage, merge, List.mapM_cons, List.mapM_nil, bind, Except.bind, pure, Except.pure,
                  List.nil_append, List.flatten_cons, List.flatten_nil, List.append_nil, Except.ok.injEq,
                  Prod.mk.injEq] at hr
                rw [← hr.1]
                obtain ⟨-, -, hlast⟩ := Reader.readArr_unbuffered g5 hitem hra
                have hpk : r.paramKeys = [rowCountKey] :: l.params.flatMap sKeys := by
                  unfold Reader.paramKeys
                  rw [g2.binary]
                  simp only [Bool.not_false, if_true]
                  rw [paramKeys_fields r.params r.maxStr l.params g2.params]
                rw [hpk] at hgp
                have hsz : List.Forall₂ (fun dk n => itemSize dk = .ok n) ([rowCountKey] :: l.params.flatMap sKeys)
                    (4 :: p1.params.map fun v => (encodeVal v).length) :=
                  List.Forall₂.cons (by decide +kernel) (paramKeys_sizes h1.1 hs1)
                obtain ⟨e1, e2⟩ := Reader.getParams_unbuffered g5 hv _ _ _ _ _ _ hsz hgp
                have e2 := e2 (by simp)
                have hpb : (4 :: p1.params.map fun v => (encodeVal v).length).sum = (paramBytes p1).length := by
                  simp [paramBytes, List.length_flatMap]
                have hflen : r.file.length = r.headerEnd + ((paramBytes p0).length + rowSize l.cols * p0.rows.length) +
                    ((paramBytes p1).length + rowSize l.cols * p1.rows.length) := by
                  rw [g3, g4]
                  simp only [List.flatMap_cons, List.flatMap_nil, List.append_nil, List.length_append, encodePage_eq,
                    colBytes_length h0 hs2, colBytes_length h1 hs2]
                  omega
                have hmul : rowSize l.cols * p1.rows.length ≤ rowSize l.cols * p0.rows.length :=
                  Nat.mul_le_mul_left _ hle
                have := hlast (by
                  rw [e1]
                  rw [hpb] at e2
                  simp only [hq] at e2 ⊢
                  omega)
                simp [this]
    cases hr : r.readPage false true q ⟨[], []⟩ with
    | error e => rw [hr] at hres; simp at hres
    | ok x =>
      obtain ⟨acc, p'⟩ := x
      rw [hr] at hres
      simp only [bind, Except.bind] at hres
      have hcc := hcols acc p' hr
      cases hcp : concat acc.params with
      | error e => rw [hcp] at hres; simp at hres
      | ok ps =>
        rw [hcp] at hres
        simp only at hres
        cases hcs : concat acc.cols with
        | error e => rw [hcs] at hres; simp at hres
        | ok cs =>
          rw [hcs] at hres
          simp only [Option.some.injEq, Except.ok.injEq] at hres
          have hcse : cs = acc.cols := by
            unfold concat at hcs
            split at hcs
            · cases hcs; rename_i he; exact he.symm
            · rename_i he
              split_ifs at hcs
              simp only [Except.ok.injEq] at hcs
              rw [← hcs]
          rw [← hres, hcse]
          exact hcc

example : ∃ r, openSdds exText 20 false 50 (fileBytes exDoc exPages) = some (.ok r) ∧
    ∀ res, r.read 20 (some [1]) = some (.ok res) → ∀ c ∈ res.cols, c = [] :=
  read_selected_unbuffered_exact exDoc_announces exLayout_ok (by decide) (exPages_ok 50 exPages[0] (by simp [exPages]))
    (exPages_ok 50 exPages[1] (by simp [exPages])) (by decide) (by decide) (by decide)
    (by unfold MarkOk; decide) (by decide)

end Verif.Sdds
