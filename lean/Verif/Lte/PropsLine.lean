import Verif.Lte.LineText

/-!
# The parser works on the names of a line (C30)
-/

namespace Verif.Lte

open Verif.Lattice

variable {R : Type}

/-- The dictionary of the parser stands for the lines `L`. -/
def LinesOf (lines : Dict (Option Str) Str) (L : Str → Option (List Str)) : Prop :=
  ∀ n, (dget lines (some n) = none ∧ L n = none) ∨
    ∃ c text names, dget lines (some n) = some (c :: text) ∧ L n = some names ∧ TextOf names text

/-- State of the parser and state of the machine. -/
structure Rel (st : PState R) (m : MState R) : Prop where
  cur : TextOf m.cur st.bs ∨ (m.cur = [] ∧ Blank st.bs)
  stack : List.Forall₂ (fun t n => TextOf n t) st.stack m.stack
  sub : st.sub = m.sub
  heap : st.heap = m.heap

theorem strip_nil {s : Str} : strip s = [] ↔ Blank s := by
  constructor
  · intro h
    by_contra hb
    exact strip_ne_nil hb h
  · intro h
    unfold strip
    rw [dropWhile_all h]
    rfl

theorem lineNames_ne {its : List LItem} (hne : its ≠ []) (hok : ∀ i ∈ its, i.Ok) : lineNames its ≠ [] := by
  obtain ⟨i, its, rfl⟩ := List.exists_cons_of_ne_nil hne
  simp only [lineNames, List.flatMap_cons]
  intro h
  exact names_ne (hok i (by simp)) (List.append_eq_nil_iff.mp h).1

theorem simple_text_ne {s : Simple} (h : s.Ok) : ∃ c ∈ s.text, isSpace c = false := by
  cases s with
  | one t => exact h.ne
  | rep n t => exact ⟨'*', by simp [Simple.text], by decide⟩

theorem item_text_ne {i : LItem} (h : i.Ok) : ∃ c ∈ i.text, isSpace c = false := by
  cases i with
  | simple s => exact simple_text_ne h
  | group n ss => exact ⟨'*', by simp [LItem.text], by decide⟩

theorem item_head {i : LItem} (h : i.Ok) : ∀ c, i.text.head? = some c → c ≠ ')' := by
  have hn : ∀ (n : Nat) (s : Str) (c : Char), (natStr n ++ s).head? = some c → c ≠ ')' := by
    intro n s c hc
    rw [List.head?_append_of_ne_nil _ (natStr_ne_nil n)] at hc
    have := natStr_digits n c (List.mem_of_mem_head? hc)
    rintro rfl
    revert this
    decide
  intro c hc
  cases i with
  | simple s =>
    cases s with
    | one t => exact (h.plain c (List.mem_of_mem_head? hc)).2.1
    | rep n t => exact hn n _ c hc
  | group n ss => exact hn n _ c hc

theorem render_not_blank {its : List LItem} (hne : its ≠ []) (hok : ∀ i ∈ its, i.Ok) (close : Char) (tail : Str) :
    ¬ Blank (render close tail its) := by
  obtain ⟨i, its, rfl⟩ := List.exists_cons_of_ne_nil hne
  obtain ⟨c, hc, hs⟩ := item_text_ne (hok i (by simp))
  intro hb
  have := hb c (by rw [render_cons]; exact List.mem_append.mpr (.inl hc))
  rw [hs] at this
  exact absurd this (by simp)

theorem textOf_not_blank {names : List Str} {text : Str} (h : TextOf names text) : ¬ Blank text := by
  obtain ⟨its, close, tail, h1, h2, _, _, rfl, _⟩ := h
  exact render_not_blank h1 h2 close tail

theorem textOf_ne {names : List Str} {text : Str} (h : TextOf names text) : names ≠ [] := by
  obtain ⟨its, close, tail, h1, h2, _, _, _, rfl⟩ := h
  exact lineNames_ne h1 h2

theorem render_not_bracket {its : List LItem} (hne : its ≠ []) (hok : ∀ i ∈ its, i.Ok) (close : Char) (tail : Str) :
    rstrip (render close tail its) ≠ [')'] := by
  obtain ⟨i, its, rfl⟩ := List.exists_cons_of_ne_nil hne
  intro hr
  obtain ⟨u, hu, _⟩ := rstrip_split (render close tail (i :: its))
  rw [hr, render_cons] at hu
  obtain ⟨c, hc, _⟩ := item_text_ne (hok i (by simp))
  have htne : i.text ≠ [] := by intro h0; rw [h0] at hc; exact absurd hc (by simp)
  obtain ⟨d, ds, hd⟩ := List.exists_cons_of_ne_nil htne
  rw [hd, List.cons_append] at hu
  injection hu with hu _
  exact item_head (hok i (by simp)) d (by rw [hd]; rfl) hu

/-- Where the first name ends. -/
theorem first_end (t : Str) (its : List LItem) (close : Char) (tail : Str) (hn : NameText t)
    (hc : close = ')' ∨ close = ',') (ht : Blank tail) :
    findChar ',' (render close tail (.simple (.one t) :: its)) = some t.length ∨
      (findChar ',' (render close tail (.simple (.one t) :: its)) = none ∧
        findChar ')' (render close tail (.simple (.one t) :: its)) = some t.length) := by
  have hcomma : ',' ∉ t := fun hm => (hn.plain _ hm).1 rfl
  have hclose : ')' ∉ t := fun hm => (hn.plain _ hm).2.1 rfl
  rw [render_cons, LItem.text, Simple.text]
  by_cases hcm : (if its = [] then close else ',') = ','
  · rw [hcm]
    exact .inl (findChar_some hcomma _)
  · have hits0 : its = [] := by by_contra hne; rw [if_neg hne] at hcm; exact hcm rfl
    subst hits0
    rw [if_pos rfl] at hcm ⊢
    have hcl : close = ')' := hc.resolve_right hcm
    have hnone : ',' ∉ t ++ close :: render close tail [] := by
      intro hm
      rcases List.mem_append.mp hm with hm | hm
      · exact hcomma hm
      · rcases List.mem_cons.mp hm with hm | hm
        · exact hcm hm.symm
        · exact blank_free ht (by decide) hm
    refine .inr ⟨findChar_none hnone, ?_⟩
    rw [hcl]
    exact findChar_some hclose _

theorem rest_drop (t : Str) (its : List LItem) (close : Char) (tail : Str) :
    (render close tail (.simple (.one t) :: its)).drop (t.length + 1) = render close tail its ∧
      (render close tail (.simple (.one t) :: its)).take t.length = t := by
  rw [render_cons, LItem.text, Simple.text]
  constructor
  · rw [show t ++ (if its = [] then close else ',') :: render close tail its =
      (t ++ [if its = [] then close else ',']) ++ render close tail its by simp, List.drop_left' (by simp)]
  · rw [List.take_left' rfl]

/-- What is left stands for the names that are left. -/
theorem rest_text (its : List LItem) (close : Char) (tail : Str) (hok : ∀ i ∈ its, i.Ok)
    (hc : close = ')' ∨ close = ',') (ht : Blank tail) :
    (its = [] ∧ lineNames its = [] ∧ Blank (render close tail its)) ∨
      (its ≠ [] ∧ lineNames its ≠ [] ∧ TextOf (lineNames its) (render close tail its)) := by
  by_cases h : its = []
  · subst h
    exact .inl ⟨rfl, rfl, ht⟩
  · exact .inr ⟨h, lineNames_ne h hok, its, close, tail, h, hok, hc, ht, rfl, rfl⟩

/-- One round of the parser is one step of the machine. -/
theorem step_rel (N : Nums R) (defs : List Str) (lines : Dict (Option Str) Str) (L : Str → Option (List Str))
    (hL : LinesOf lines L) (st : PState R) (m : MState R) (hr : Rel st m) (hne : m.cur ≠ []) :
    match mstep N defs L m with
    | .error e => parseStep N defs lines st = .error e
    | .ok m' => ∃ st', parseStep N defs lines st = .ok st' ∧ Rel st' m' := by
  obtain ⟨bs, stack, sub, nextEnd, heap⟩ := st
  obtain ⟨cur, mstack, msub, mheap⟩ := m
  obtain ⟨hcur, hstack, rfl, rfl⟩ := hr
  simp only at hcur hstack hne ⊢
  rcases hcur with ⟨its, close, tail, h1, h2, hc, ht, rfl, rfl⟩ | ⟨h, _⟩
  swap
  · exact absurd h hne
  obtain ⟨i, its, rfl⟩ := List.exists_cons_of_ne_nil h1
  obtain ⟨t, its', close', he, hn, hok', hc', hnames⟩ :=
    expandHead_render i its close tail (h2 i (by simp)) (fun j hj => h2 j (by simp [hj])) hc ht
  have hcurr : lineNames (i :: its) = strip t :: lineNames its' := by
    rw [← hnames]; simp [lineNames]
  obtain ⟨hdrop, htake⟩ := rest_drop t its' close' tail
  have hend : nameEnd (render close' tail (.simple (.one t) :: its')) nextEnd = some t.length := by
    unfold nameEnd
    rcases first_end t its' close' tail hn hc' ht with h | ⟨h, h'⟩
    · rw [h]
    · rw [h, h']
  unfold mstep parseStep
  simp only [hcurr, he, hend, htake]
  rcases hL (strip t) with ⟨hd, hl⟩ | ⟨c, text, names, hd, hl, htext⟩
  · simp only [hd, hl]
    unfold addDefined
    cases hdef : findDef defs (dropQuotes (strip t)) with
    | none => rfl
    | some d =>
      simp only
      cases hp : findParameters N d with
      | error e => rfl
      | ok tp =>
        obtain ⟨type, ps⟩ := tp
        simp only
        rcases hadd : heap.addElement 0 (dropQuotes (strip t)) type ps sub with ⟨h', err⟩
        cases err with
        | some err => rfl
        | none =>
          simp only
          rcases rest_text its' close' tail hok' hc' ht with ⟨ha, hb, hbl⟩ | ⟨ha, hb, htx⟩
          · rw [if_pos hb]
            have hrest : strip (if rstrip (render close' tail its') = [')'] then [] else render close' tail its') = [] := by
              split_ifs
              · rfl
              · exact strip_nil.mpr hbl
            cases hstack with
            | nil =>
              simp only
              refine ⟨_, rfl, ?_⟩
              unfold afterElement
              simp only [hdrop]
              rw [if_pos hrest]
              exact ⟨.inr ⟨rfl, strip_nil.mp hrest⟩, .nil, rfl, rfl⟩
            | cons hs1 hs2 =>
              simp only
              refine ⟨_, rfl, ?_⟩
              unfold afterElement
              simp only [hdrop]
              rw [if_pos hrest]
              exact ⟨.inl hs1, hs2, rfl, rfl⟩
          · rw [if_neg hb]
            refine ⟨_, rfl, ?_⟩
            unfold afterElement
            simp only [hdrop]
            rw [if_neg (render_not_bracket ha hok' close' tail),
              if_neg (fun h => render_not_blank ha hok' close' tail (strip_nil.mp h))]
            exact ⟨.inl htx, hstack, rfl, rfl⟩
  · simp only [hd, hl]
    refine ⟨_, rfl, ?_⟩
    unfold enterLine
    refine ⟨.inl (by simpa using htext), ?_, rfl, rfl⟩
    simp only
    rcases rest_text its' close' tail hok' hc' ht with ⟨ha, hb, hbl⟩ | ⟨ha, hb, htx⟩
    · rw [if_pos hb]
      split_ifs with hs
      · exfalso
        refine hs ?_
        rcases first_end t its' close' tail hn hc' ht with h | ⟨h, h'⟩
        · simp only [h, hdrop]; exact strip_nil.mpr hbl
        · simp only [h, h', hdrop]; exact strip_nil.mpr hbl
      · exact hstack
    · rw [if_neg hb]
      split_ifs with hs
      · refine .cons ?_ hstack
        rcases first_end t its' close' tail hn hc' ht with h | ⟨h, h'⟩
        · simp only [h, hdrop]; exact htx
        · simp only [h, h', hdrop]; exact htx
      · exfalso
        refine hs (fun h0 => render_not_blank ha hok' close' tail (strip_nil.mp ?_))
        rcases first_end t its' close' tail hn hc' ht with h | ⟨h, h'⟩
        · simpa only [h, hdrop] using h0
        · simpa only [h, h', hdrop] using h0

/-- The parser on text and the machine on names agree, for every number of rounds, exceptions
included. -/
theorem loop_rel (N : Nums R) (defs : List Str) (lines : Dict (Option Str) Str) (L : Str → Option (List Str))
    (hL : LinesOf lines L) (fuel : Nat) (st : PState R) (m : MState R) (hr : Rel st m) :
    parseLoop N defs lines fuel st = mloop N defs L fuel m := by
  have hcase : (m.cur = [] ∧ strip st.bs = []) ∨ (m.cur ≠ [] ∧ strip st.bs ≠ []) := by
    rcases hr.cur with h | ⟨h, hb⟩
    · exact .inr ⟨textOf_ne h, fun h0 => textOf_not_blank h (strip_nil.mp h0)⟩
    · exact .inl ⟨h, strip_nil.mpr hb⟩
  induction fuel generalizing st m with
  | zero =>
    unfold parseLoop mloop
    rcases hcase with ⟨h1, h2⟩ | ⟨h1, h2⟩
    · rw [if_pos h1, if_pos h2, hr.heap]
    · rw [if_neg h1, if_neg h2]
  | succ fuel ih =>
    unfold parseLoop mloop
    rcases hcase with ⟨h1, h2⟩ | ⟨h1, h2⟩
    · rw [if_pos h1, if_pos h2, hr.heap]
    · rw [if_neg h1, if_neg h2]
      have hs := step_rel N defs lines L hL st m hr h1
      cases hm : mstep N defs L m with
      | error e => rw [hm] at hs; simp only at hs; rw [hs]
      | ok m' =>
        rw [hm] at hs
        simp only at hs
        obtain ⟨st', hs1, hs2⟩ := hs
        rw [hs1]
        simp only
        refine ih st' m' hs2 ?_
        rcases hs2.cur with h | ⟨h, hb⟩
        · exact .inr ⟨textOf_ne h, fun h0 => textOf_not_blank h (strip_nil.mp h0)⟩
        · exact .inl ⟨h, strip_nil.mpr hb⟩

/-! ## C30 -/

/-- Two ways to write the same names give the same beamline, or the same exception, after any
number of rounds: repeated names and groups are the same as spelled out lists. Missing: white
space in front of a factor (`repetition_blank_fails`) and groups that start with a repeated name
(`repetition_group_fails`). -/
theorem repetition_partial (N : Nums R) (f f' : Found) (L : Str → Option (List Str)) (hd : f'.defs = f.defs)
    (hL : LinesOf f.lines L) (hL' : LinesOf f'.lines L) (its its' : List LItem) (tail tail' : Str)
    (hne : its ≠ []) (hne' : its' ≠ []) (hok : ∀ i ∈ its, i.Ok) (hok' : ∀ i ∈ its', i.Ok)
    (ht : Blank tail) (ht' : Blank tail') (hf : f.text = '(' :: render ')' tail its)
    (hf' : f'.text = '(' :: render ')' tail' its') (hnames : lineNames its = lineNames its')
    (name : Str) (title : Option Str) (fuel : Nat) :
    parseLine N f name title fuel = parseLine N f' name title fuel := by
  have hdom : ∀ (g : Found), LinesOf g.lines L → (dget g.lines (some name)).isSome = (L name).isSome := by
    intro g hg
    rcases hg name with ⟨h1, h2⟩ | ⟨c, t, ns, h1, h2, _⟩ <;> rw [h1, h2] <;> rfl
  unfold parseLine
  rw [hdom f hL, hdom f' hL', hd]
  split_ifs
  · rw [loop_rel N f.defs f.lines L hL fuel _ ⟨lineNames its, [], false, Heap.init title⟩
        ⟨.inl ⟨its, ')', tail, hne, hok, .inl rfl, ht, by rw [hf]; rfl, rfl⟩, .nil, rfl, rfl⟩,
      loop_rel N f.defs f'.lines L hL' fuel _ ⟨lineNames its, [], false, Heap.init title⟩
        ⟨.inl ⟨its', ')', tail', hne', hok', .inl rfl, ht', by rw [hf']; rfl, hnames⟩, .nil, rfl, rfl⟩]
  · rfl

/-- Text that is neither a line nor a defined element ends the parser with TypeError. -/
theorem step_unknown (N : Nums R) (defs : List Str) (lines : Dict (Option Str) Str) (st : PState R)
    (w rest : Str) (hw : expandHead st.bs = .ok (w ++ ',' :: rest) ∨
      (expandHead st.bs = .ok (w ++ ')' :: rest) ∧ ',' ∉ w ++ ')' :: rest))
    (hplain : ',' ∉ w ∧ ')' ∉ w) (hl : dget lines (some (strip w)) = none)
    (hd : findDef defs (dropQuotes (strip w)) = none) : parseStep N defs lines st = .error .typeError := by
  unfold parseStep
  rcases hw with he | ⟨he, hc⟩
  · have hend : nameEnd (w ++ ',' :: rest) st.nextEnd = some w.length := by
      unfold nameEnd; rw [findChar_some hplain.1]
    simp only [he, hend, List.take_left' (rfl : w.length = w.length), hl, hd]
  · have hend : nameEnd (w ++ ')' :: rest) st.nextEnd = some w.length := by
      unfold nameEnd; rw [findChar_none hc, findChar_some hplain.2]
    simp only [he, hend, List.take_left' (rfl : w.length = w.length), hl, hd]

/-- White space in front of a factor: the text `n*name` is taken as a name, so the line cannot be
read (TypeError) whatever it contains, unless something of that name is defined. -/
theorem repetition_blank_fails (N : Nums R) (defs : List Str) (lines : Dict (Option Str) Str) (st : PState R)
    (n : Nat) (t rest : Str) (ht : ∀ c ∈ t, c ≠ ',' ∧ c ≠ ')')
    (hbs : st.bs = ' ' :: (natStr n ++ '*' :: t ++ ',' :: rest))
    (hl : dget lines (some (strip (natStr n ++ '*' :: t))) = none)
    (hd : findDef defs (dropQuotes (strip (natStr n ++ '*' :: t))) = none) (fuel : Nat) :
    parseLoop N defs lines (fuel + 1) st = some (.error .typeError) := by
  have hstrip : ∀ s : Str, strip (' ' :: s) = strip s := by
    intro s; unfold strip; rw [List.dropWhile_cons_of_pos (by decide)]
  have hfree : ∀ c : Char, c.isDigit = false → c ≠ '*' → (c ∉ t) → c ∉ ' ' :: (natStr n ++ '*' :: t) ∨ c = ' ' := by
    intro c h1 h2 h3
    by_cases hb : c = ' '
    · exact .inr hb
    · left
      simp only [List.mem_cons, List.mem_append, not_or]
      refine ⟨hb, fun hm => ?_, h2, h3⟩
      rw [natStr_digits n c hm] at h1
      exact absurd h1 (by simp)
  have hs : parseStep N defs lines st = .error .typeError := by
    refine step_unknown N defs lines st (' ' :: (natStr n ++ '*' :: t)) rest (.inl ?_) ⟨?_, ?_⟩ ?_ ?_
    · rw [hbs]
      exact expandHead_plain (by simp) (by intro c hc; injection hc with hc; rw [← hc]; decide)
    · exact (hfree ',' (by decide) (by decide) (fun hm => (ht _ hm).1 rfl)).resolve_right (by decide)
    · exact (hfree ')' (by decide) (by decide) (fun hm => (ht _ hm).2 rfl)).resolve_right (by decide)
    · rw [hstrip]; exact hl
    · rw [hstrip]; exact hd
  unfold parseLoop
  rw [if_neg, hs]
  intro h
  have := strip_nil.mp h '*' (by rw [hbs]; simp)
  revert this
  decide

/-- A group that starts with a repeated name: after the expansion of the group the text
`m*name` is taken as a name. -/
theorem repetition_group_fails (N : Nums R) (defs : List Str) (lines : Dict (Option Str) Str) (st : PState R)
    (n m : Nat) (t : Str) (ss : List Simple) (close : Char) (rest : Str) (hn : 0 < n) (ht : NameText t)
    (hss : ∀ s ∈ ss, s.Ok) (hm : 0 < m)
    (hbs : st.bs = natStr n ++ '*' :: '(' :: (commaJoin (.rep m t :: ss) ++ ')' :: close :: rest))
    (hl : dget lines (some (strip (natStr m ++ '*' :: t))) = none)
    (hd : findDef defs (dropQuotes (strip (natStr m ++ '*' :: t))) = none) (fuel : Nat) :
    parseLoop N defs lines (fuel + 1) st = some (.error .typeError) := by
  have hok : ∀ s ∈ Simple.rep m t :: ss, s.Ok := by
    intro s hs
    rcases List.mem_cons.mp hs with rfl | hs
    · exact ⟨hm, ht⟩
    · exact hss s hs
  have hfree : ∀ c : Char, c.isDigit = false → c ≠ '*' → (c ∉ t) → c ∉ natStr m ++ '*' :: t := by
    intro c h1 h2 h3
    simp only [List.mem_cons, List.mem_append, not_or]
    refine ⟨fun hm => ?_, h2, h3⟩
    rw [natStr_digits m c hm] at h1
    exact absurd h1 (by simp)
  obtain ⟨k, rfl⟩ : ∃ k, n = k + 1 := ⟨n - 1, by omega⟩
  have hexp : expandHead st.bs =
      .ok ((natStr m ++ '*' :: t) ++ ',' :: (commas ss ++ (commas (List.replicate k (.rep m t :: ss)).flatten ++ rest))) := by
    rw [hbs, expandHead_rep]
    unfold expandLine
    have hf := findChar_some (commaJoin_no_close _ hok) (close :: rest)
    have hdr : (commaJoin (.rep m t :: ss) ++ ')' :: close :: rest).drop ((commaJoin (.rep m t :: ss)).length + 2) = rest := by
      rw [show commaJoin (.rep m t :: ss) ++ ')' :: close :: rest = (commaJoin (.rep m t :: ss) ++ [')', close]) ++ rest by simp,
        List.drop_left' (by simp)]
    rw [List.drop_succ_cons, List.drop_zero]
    simp only [hf, hdr]
    rw [List.take_left' rfl, replicate_commas _ _ (by simp), List.replicate_succ, List.flatten_cons]
    simp [commas, Simple.text]
  have hs : parseStep N defs lines st = .error .typeError :=
    step_unknown N defs lines st (natStr m ++ '*' :: t) _ (.inl hexp)
      ⟨hfree ',' (by decide) (by decide) (fun hm => (ht.plain _ hm).1 rfl),
        hfree ')' (by decide) (by decide) (fun hm => (ht.plain _ hm).2.1 rfl)⟩ hl hd
  unfold parseLoop
  rw [if_neg, hs]
  intro h
  have := strip_nil.mp h '*' (by rw [hbs]; simp)
  revert this
  decide

/-- `(a, b,2*c,2*(d,3*e))` and the same names written one by one meet the hypotheses of
`repetition_partial`. -/
example : ∃ its its' : List LItem, '(' :: render ')' "\n".toList its = "(a, b,2*c,2*(d,3*e))\n".toList ∧
    '(' :: render ')' "\n".toList its' = "(a,b,c,c,d,e,e,e,d,e,e,e)\n".toList ∧
    lineNames its = lineNames its' ∧ (∀ i ∈ its, i.Ok) ∧ (∀ i ∈ its', i.Ok) := by
  have hn : ∀ c ∈ "abcde".toList, NameText [c] := by
    intro c hc
    have h : ∀ c ∈ "abcde".toList, isSpace c = false ∧ (c ≠ ',' ∧ c ≠ ')' ∧ c ≠ '(' ∧ c ≠ '*') ∧ c.isDigit = false := by decide
    obtain ⟨h1, h2, h3⟩ := h c hc
    refine ⟨⟨c, by simp, h1⟩, ?_, ?_⟩
    · intro x hx
      rw [List.mem_singleton.mp hx]
      tauto
    · intro x hx
      injection hx with hx
      rw [← hx]
      exact h3
  have hb : NameText " b".toList := ⟨⟨'b', by decide, by decide⟩, by decide, by decide⟩
  refine ⟨[.simple (.one ['a']), .simple (.one " b".toList), .simple (.rep 2 ['c']),
      .group 2 [.one ['d'], .rep 3 ['e']]],
    "abccdeeedeee".toList.map fun c => .simple (.one [c]), ?_, by decide, by decide, ?_, ?_⟩
  · simp only [render, LItem.text, Simple.text, commaJoin]
    have h2 : natStr 2 = ['2'] := by unfold natStr; decide
    have h3 : natStr 3 = ['3'] := by unfold natStr; decide
    rw [h2, h3]
    decide
  · intro i hi
    simp only [List.mem_cons, List.not_mem_nil, or_false] at hi
    rcases hi with rfl | rfl | rfl | rfl
    · exact hn 'a' (by decide)
    · exact hb
    · exact ⟨by decide, hn 'c' (by decide)⟩
    · refine ⟨by decide, ⟨_, _, rfl⟩, ?_⟩
      intro s hs
      simp only [List.mem_cons, List.not_mem_nil, or_false] at hs
      rcases hs with rfl | rfl
      · exact hn 'd' (by decide)
      · exact ⟨by decide, hn 'e' (by decide)⟩
  · intro i hi
    obtain ⟨c, hc, rfl⟩ := List.mem_map.mp hi
    have : ∀ c ∈ "abccdeeedeee".toList, c ∈ "abcde".toList := by decide
    exact hn c (this c hc)

end Verif.Lte
