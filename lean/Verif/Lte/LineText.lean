import Verif.Lte.PropsSanitize
import Verif.Py.TextLemmas

/-!
# Text of line definitions and what it stands for

Specification used by C30 and C31: the syntax of a line `(a, 2*b, 3*(c,d))`, the list of names
it stands for, a machine that works on lists of names, and the proof that the parser does on
the text what the machine does on the names.
-/

namespace Verif.Lte

open Verif.Lattice

variable {R : Type}

/-! ## Syntax -/

/-- A name or a repeated name. -/
inductive Simple
  | one (t : Str)
  | rep (n : Nat) (t : Str)

/-- An entry of a line: also a repeated group. -/
inductive LItem
  | simple (s : Simple)
  | group (n : Nat) (ss : List Simple)

/-- `name` or `n*name`. -/
def Simple.text : Simple → Str
  | .one t => t
  | .rep n t => natStr n ++ '*' :: t

/-- The names, without the white space around them. -/
def Simple.names : Simple → List Str
  | .one t => [strip t]
  | .rep n t => List.replicate n (strip t)

/-- Entries with commas between them. -/
def commaJoin : List Simple → Str
  | [] => []
  | [s] => s.text
  | s :: ss => s.text ++ ',' :: commaJoin ss

/-- `n*(a,b)`. -/
def LItem.text : LItem → Str
  | .simple s => s.text
  | .group n ss => natStr n ++ '*' :: '(' :: (commaJoin ss ++ [')'])

/-- What an entry stands for. -/
def LItem.names : LItem → List Str
  | .simple s => s.names
  | .group n ss => (List.replicate n (ss.flatMap Simple.names)).flatten

/-- The names of a line. -/
def lineNames (its : List LItem) : List Str := its.flatMap LItem.names

/-- Entries, a closing character, white space. -/
def render (close : Char) (tail : Str) : List LItem → Str
  | [] => tail
  | [i] => i.text ++ close :: tail
  | i :: its => i.text ++ ',' :: render close tail its

/-- A name with white space around it: not empty, no commas and brackets, no digit in front. -/
structure NameText (t : Str) : Prop where
  ne : ∃ c ∈ t, isSpace c = false
  plain : ∀ c ∈ t, c ≠ ',' ∧ c ≠ ')' ∧ c ≠ '('
  digit : ∀ c, t.head? = some c → c.isDigit = false

def Simple.Ok : Simple → Prop
  | .one t => NameText t
  | .rep n t => 0 < n ∧ NameText t

/-- Factors are positive; a group does not start with a repeated name. -/
def LItem.Ok : LItem → Prop
  | .simple s => s.Ok
  | .group n ss => 0 < n ∧ (∃ t ss', ss = .one t :: ss') ∧ ∀ s ∈ ss, s.Ok

/-- The text stands for the names: entries behind the opening bracket. -/
def TextOf (names : List Str) (text : Str) : Prop :=
  ∃ (its : List LItem) (close : Char) (tail : Str), its ≠ [] ∧ (∀ i ∈ its, i.Ok) ∧
    (close = ')' ∨ close = ',') ∧ Blank tail ∧ text = render close tail its ∧ names = lineNames its

/-! ## Machine on names -/

/-- State of the machine: names still to do, what is left of the lines around, the flag, the heap. -/
structure MState (R : Type) where
  cur : List Str
  stack : List (List Str)
  sub : Bool
  heap : Heap R

/-- Add the element with its definition. -/
def addDefined (N : Nums R) (defs : List Str) (h : Heap R) (name : Str) (sub : Bool) : Except PyErr (Heap R) :=
  match findDef defs name with
  | none => .error .typeError
  | some d => match findParameters N d with
    | .error err => .error err
    | .ok (type, ps) => match h.addElement 0 name type ps sub with
      | (_, some err) => .error err
      | (h', none) => .ok h'

/-- One name. `L` gives the names of a line. -/
def mstep (N : Nums R) (defs : List Str) (L : Str → Option (List Str)) (st : MState R) : Except PyErr (MState R) :=
  match st.cur with
  | [] => .ok st
  | n :: rest => match L n with
    | some its => .ok ⟨its, if rest = [] then st.stack else rest :: st.stack, true, st.heap.addBeamline 0 (some n)⟩
    | none => match addDefined N defs st.heap (dropQuotes n) st.sub with
      | .error e => .error e
      | .ok h =>
        if rest = [] then
          match st.stack with
          | [] => .ok ⟨[], [], st.sub, h⟩
          | t :: ts => .ok ⟨t, ts, false, h⟩
        else .ok ⟨rest, st.stack, st.sub, h⟩

/-- The loop. -/
def mloop (N : Nums R) (defs : List Str) (L : Str → Option (List Str)) :
    Nat → MState R → Option (Except PyErr (Heap R))
  | 0, st => if st.cur = [] then some (.ok st.heap) else none
  | fuel + 1, st =>
    if st.cur = [] then some (.ok st.heap)
    else match mstep N defs L st with
      | .ok st' => mloop N defs L fuel st'
      | .error e => some (.error e)

/-! ## Lemmas on text -/

theorem names_ne {i : LItem} (h : i.Ok) : i.names ≠ [] := by
  have hs : ∀ s : Simple, s.Ok → s.names ≠ [] := by
    intro s h
    cases s with
    | one t => simp [Simple.names]
    | rep n t => simp only [Simple.names]; intro hh; have := h.1; simp at hh; omega
  cases i with
  | simple s => exact hs s h
  | group n ss =>
    obtain ⟨hn, ⟨t, ss', rfl⟩, _⟩ := h
    obtain ⟨m, rfl⟩ : ∃ m, n = m + 1 := ⟨n - 1, by omega⟩
    simp [LItem.names, List.replicate_succ, Simple.names]

theorem natStr_split (n : Nat) (s : Str) :
    (natStr n ++ '*' :: s).takeWhile Char.isDigit = natStr n ∧
      (natStr n ++ '*' :: s).dropWhile Char.isDigit = '*' :: s := by
  have h := natStr_digits n
  generalize natStr n = d at h
  induction d with
  | nil => exact ⟨rfl, rfl⟩
  | cons c cs ih =>
    have hc := h c (by simp)
    obtain ⟨h1, h2⟩ := ih (fun x hx => h x (by simp [hx]))
    rw [List.cons_append, List.takeWhile_cons_of_pos hc, List.dropWhile_cons_of_pos hc, h1, h2]
    exact ⟨rfl, rfl⟩

theorem expandHead_rep (n : Nat) (s : Str) : expandHead (natStr n ++ '*' :: s) = expandLine ('*' :: s) n := by
  obtain ⟨h1, h2⟩ := natStr_split n s
  unfold expandHead
  simp only [h1, h2]
  rw [if_neg (by simp), if_neg (natStr_ne_nil n), digitsVal_natStr]

theorem expandHead_plain {s : Str} (hne : s ≠ []) (h : ∀ c, s.head? = some c → c.isDigit = false) :
    expandHead s = .ok s := by
  obtain ⟨c, cs, rfl⟩ := List.exists_cons_of_ne_nil hne
  have hc := h c rfl
  unfold expandHead
  simp [List.takeWhile, List.dropWhile, hc]

/-- A list of entries with a comma behind each. -/
def commas (ss : List Simple) : Str := ss.flatMap fun s => s.text ++ [',']

theorem commas_join {ss : List Simple} (h : ss ≠ []) : commaJoin ss ++ [','] = commas ss := by
  induction ss with
  | nil => exact absurd rfl h
  | cons s ss ih =>
    cases ss with
    | nil => simp [commaJoin, commas]
    | cons u us =>
      have := ih (by simp)
      rw [commaJoin]
      · simp only [commas, List.flatMap_cons] at this ⊢
        rw [← this]
        simp
      · simp

theorem render_cons (close : Char) (tail : Str) (i : LItem) (its : List LItem) :
    render close tail (i :: its) = i.text ++ (if its = [] then close else ',') :: render close tail its := by
  cases its with
  | nil => rfl
  | cons j its => rw [render]; · simp
                  · simp

theorem render_commas (close : Char) (tail : Str) (ss : List Simple) (its : List LItem) (h : ss ≠ []) :
    commas ss ++ render close tail its =
      render (if its = [] then ',' else close) tail (ss.map .simple ++ its) := by
  induction ss with
  | nil => exact absurd rfl h
  | cons s ss ih =>
    cases ss with
    | nil =>
      cases its with
      | nil => simp [commas, render, LItem.text]
      | cons i its =>
        rw [if_neg (by simp), List.map_cons, List.map_nil, List.singleton_append, render_cons close tail (.simple s),
          if_neg (by simp)]
        simp [commas, LItem.text]
    | cons u us =>
      have := ih (by simp)
      rw [List.map_cons, List.cons_append, render]
      · rw [← this]
        simp [commas, LItem.text]
      · simp

theorem replicate_commas (n : Nat) (ss : List Simple) (h : ss ≠ []) :
    (List.replicate n (commaJoin ss ++ [','])).flatten = commas (List.replicate n ss).flatten := by
  rw [commas_join h]
  induction n with
  | zero => rfl
  | succ n ih =>
    rw [List.replicate_succ, List.flatten_cons, ih, List.replicate_succ, List.flatten_cons]
    simp [commas]

theorem nameText_ne {t : Str} (h : NameText t) : t ≠ [] := by
  obtain ⟨c, hc, _⟩ := h.ne
  intro h0
  rw [h0] at hc
  exact absurd hc (by simp)

theorem blank_free {tail : Str} (h : Blank tail) {c : Char} (hc : isSpace c = false) : c ∉ tail := by
  intro hm
  rw [h c hm] at hc
  exact absurd hc (by simp)

theorem commaJoin_no_close (ss : List Simple) (h : ∀ s ∈ ss, s.Ok) : ')' ∉ commaJoin ss := by
  have hs : ∀ s : Simple, s.Ok → ')' ∉ s.text := by
    intro s hs
    cases s with
    | one t => exact fun hm => (hs.plain _ hm).2.1 rfl
    | rep n t =>
      intro hm
      rw [Simple.text, List.mem_append, List.mem_cons] at hm
      rcases hm with hm | hm | hm
      · have := natStr_digits n _ hm; revert this; decide
      · exact absurd hm (by decide)
      · exact (hs.2.plain _ hm).2.1 rfl
  induction ss with
  | nil => simp [commaJoin]
  | cons s ss ih =>
    cases ss with
    | nil => exact hs s (h s (by simp))
    | cons u us =>
      rw [commaJoin]
      · rw [List.mem_append, List.mem_cons, not_or, not_or]
        exact ⟨hs s (h s (by simp)), by decide, ih (fun x hx => h x (List.mem_cons_of_mem _ hx))⟩
      · simp

/-- Expansion of the first entry: the text stands for the same names and starts with a name. -/
theorem expandHead_render (i : LItem) (its : List LItem) (close : Char) (tail : Str)
    (hi : i.Ok) (hits : ∀ j ∈ its, j.Ok) (hc : close = ')' ∨ close = ',') (ht : Blank tail) :
    ∃ (t : Str) (its' : List LItem) (close' : Char),
      expandHead (render close tail (i :: its)) = .ok (render close' tail (.simple (.one t) :: its')) ∧
      NameText t ∧ (∀ j ∈ its', j.Ok) ∧ (close' = ')' ∨ close' = ',') ∧
      i.names ++ lineNames its = strip t :: lineNames its' := by
  have hgen : ∀ (n : Nat) (ss : List Simple) (t : Str) (ss' : List Simple), 0 < n → ss = .one t :: ss' →
      (∀ s ∈ ss, s.Ok) → ∃ (t : Str) (its' : List LItem) (close' : Char),
        commas (List.replicate n ss).flatten ++ render close tail its =
          render close' tail (.simple (.one t) :: its') ∧
        NameText t ∧ (∀ j ∈ its', j.Ok) ∧ (close' = ')' ∨ close' = ',') ∧
        (List.replicate n (ss.flatMap Simple.names)).flatten ++ lineNames its = strip t :: lineNames its' := by
    intro n ss t ss' hn hss hok
    obtain ⟨m, rfl⟩ : ∃ m, n = m + 1 := ⟨n - 1, by omega⟩
    have hflat : (List.replicate (m + 1) ss).flatten = .one t :: (ss' ++ (List.replicate m ss).flatten) := by
      rw [List.replicate_succ, List.flatten_cons]
      conv_lhs => rw [hss]
      rw [hss]; rfl
    refine ⟨t, (ss' ++ (List.replicate m ss).flatten).map .simple ++ its, if its = [] then ',' else close, ?_,
      hok (.one t) (by rw [hss]; simp), ?_, ?_, ?_⟩
    · rw [render_commas close tail _ its (by rw [hflat]; simp), hflat]
      rfl
    · intro j hj
      rcases List.mem_append.mp hj with hj | hj
      · obtain ⟨s, hs, rfl⟩ := List.mem_map.mp hj
        rcases List.mem_append.mp hs with hs | hs
        · exact hok s (by rw [hss]; simp [hs])
        · obtain ⟨l, hl, hsl⟩ := List.mem_flatten.mp hs
          rw [(List.mem_replicate.mp hl).2] at hsl
          exact hok s hsl
      · exact hits j hj
    · split_ifs
      · exact .inr rfl
      · exact hc
    · have hn1 : ∀ ss : List Simple, lineNames (ss.map .simple) = ss.flatMap Simple.names := by
        intro ss; simp [lineNames, List.flatMap_map]; rfl
      have hn2 : lineNames ((ss' ++ (List.replicate m ss).flatten).map .simple ++ its) =
          (ss' ++ (List.replicate m ss).flatten).flatMap Simple.names ++ lineNames its := by
        rw [← hn1]; simp [lineNames]
      rw [hn2]
      have hn3 : (List.replicate (m + 1) (ss.flatMap Simple.names)).flatten =
          (List.replicate (m + 1) ss).flatten.flatMap Simple.names := by
        generalize m + 1 = q
        induction q with
        | zero => rfl
        | succ q ih => rw [List.replicate_succ, List.flatten_cons, ih, List.replicate_succ, List.flatten_cons,
            List.flatMap_append]
      rw [hn3, hflat]
      rfl
  cases i with
  | simple s =>
    cases s with
    | one t =>
      refine ⟨t, its, close, ?_, hi, hits, hc, rfl⟩
      have hn : NameText t := hi
      have hne := nameText_ne hn
      have hr : render close tail (.simple (.one t) :: its) = t ++ (if its = [] then close else ',') :: render close tail its :=
        render_cons ..
      refine expandHead_plain (by rw [hr]; simp [hne]) ?_
      intro c hcc
      rw [hr, List.head?_append_of_ne_nil _ hne] at hcc
      exact hn.digit c hcc
    | rep n t =>
      obtain ⟨hn, hnt⟩ := hi
      obtain ⟨u, its', close', h1, h2⟩ := hgen n [.one t] t [] hn rfl (by intro s hs; rw [List.mem_singleton.mp hs]; exact hnt)
      refine ⟨u, its', close', ?_, h2.1, h2.2.1, h2.2.2.1, ?_⟩
      · rw [render_cons, LItem.text, Simple.text, List.append_assoc, List.cons_append, expandHead_rep, ← h1,
          ← replicate_commas n [.one t] (by simp)]
        obtain ⟨c, cs, rfl⟩ := List.exists_cons_of_ne_nil (nameText_ne hnt)
        have hcomma : ',' ∉ c :: cs := fun hm => (hnt.plain _ hm).1 rfl
        have hclose : ')' ∉ c :: cs := fun hm => (hnt.plain _ hm).2.1 rfl
        have hopen : c ≠ '(' := (hnt.plain c (by simp)).2.2
        have hdrop : ∀ (x : Char) (r : Str), ((c :: cs) ++ x :: r).drop ((c :: cs).length + 1) = r := by
          intro x r
          rw [show (c :: cs) ++ x :: r = ((c :: cs) ++ [x]) ++ r by simp, List.drop_left' (by simp)]
        have htake : ∀ (x : Char) (r : Str), ((c :: cs) ++ x :: r).take (c :: cs).length = c :: cs := by
          intro x r; rw [List.take_left' rfl]
        unfold expandLine
        rw [List.drop_succ_cons, List.drop_zero]
        have hfind : findChar ',' ((c :: cs) ++ (if its = [] then close else ',') :: render close tail its) =
              some (c :: cs).length ∨
            (findChar ',' ((c :: cs) ++ (if its = [] then close else ',') :: render close tail its) = none ∧
              findChar ')' ((c :: cs) ++ (if its = [] then close else ',') :: render close tail its) =
                some (c :: cs).length) := by
          by_cases hcm : (if its = [] then close else ',') = ','
          · rw [hcm]
            exact .inl (findChar_some hcomma _)
          · have hits0 : its = [] := by by_contra hne; rw [if_neg hne] at hcm; exact hcm rfl
            subst hits0
            rw [if_pos rfl] at hcm ⊢
            have hcl : close = ')' := hc.resolve_right hcm
            have hnone : ',' ∉ (c :: cs) ++ close :: tail := by
              intro hm
              rcases List.mem_append.mp hm with hm | hm
              · exact hcomma hm
              · rcases List.mem_cons.mp hm with hm | hm
                · exact hcm hm.symm
                · exact blank_free ht (by decide) hm
            refine .inr ⟨findChar_none hnone, ?_⟩
            rw [hcl]
            exact findChar_some hclose _
        split
        · rename_i heq
          exact absurd heq (by simp)
        · rename_i s1 heq
          rw [List.cons_append] at heq
          injection heq with heq _
          exact absurd heq hopen
        · rcases hfind with h | ⟨h, h'⟩
          · simp only [h, hdrop, htake]
            simp [commaJoin, Simple.text]
          · simp only [h, h', hdrop, htake]
            simp [commaJoin, Simple.text]
      · rw [← h2.2.2.2]
        simp [LItem.names, Simple.names]
  | group n ss =>
    obtain ⟨hn, ⟨t, ss', hss⟩, hok⟩ := hi
    obtain ⟨u, its', close', h1, h2⟩ := hgen n ss t ss' hn hss hok
    refine ⟨u, its', close', ?_, h2.1, h2.2.1, h2.2.2.1, h2.2.2.2⟩
    rw [render_cons, LItem.text, List.append_assoc, List.cons_append, expandHead_rep, ← h1,
      ← replicate_commas n ss (by rw [hss]; simp)]
    have hcl := commaJoin_no_close ss hok
    unfold expandLine
    have hf : findChar ')' (commaJoin ss ++ ')' :: (if its = [] then close else ',') :: render close tail its) =
        some (commaJoin ss).length := findChar_some hcl _
    have hd : (commaJoin ss ++ ')' :: (if its = [] then close else ',') :: render close tail its).drop
        ((commaJoin ss).length + 2) = render close tail its := by
      rw [show commaJoin ss ++ ')' :: (if its = [] then close else ',') :: render close tail its =
        (commaJoin ss ++ [')', if its = [] then close else ',']) ++ render close tail its by simp,
        List.drop_left' (by simp)]
    have ha : ('*' :: ('(' :: (commaJoin ss ++ [')']) ++ (if its = [] then close else ',') :: render close tail its)).drop 1 =
        '(' :: (commaJoin ss ++ ')' :: (if its = [] then close else ',') :: render close tail its) := by simp
    rw [ha]
    simp only [hf, hd]
    rw [List.take_left' rfl]

end Verif.Lte
