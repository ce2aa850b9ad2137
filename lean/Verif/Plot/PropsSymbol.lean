import Verif.Plot.Symbol
import Mathlib.Data.List.Basic
import Mathlib.Algebra.Order.Group.Nat
import Mathlib.Tactic.SplitIfs
import Mathlib.Tactic.Conv

/-!
# Properties C63, C100 and C101: formatting of SDDS symbols
-/

namespace Verif.Plot

/-- The depth of the braces of a text, `none` if a brace is closed that was not open. -/
def braces : List Char → Nat → Option Nat
  | [], d => some d
  | c :: s, d =>
    if c = '{' then braces s (d + 1)
    else if c = '}' then (if d = 0 then none else braces s (d - 1))
    else braces s d

/-- All braces are closed. -/
def Balanced (s : List Char) : Prop := braces s 0 = some 0

/-- The depth of the subscripts and superscripts of an SDDS symbol: `$a` and `$b` open one, `$n` closes one. -/
def scripts : List Char → Nat → Option Nat
  | '$' :: c :: s, d =>
    if c = 'a' ∨ c = 'b' then scripts s (d + 1)
    else if c = 'n' then (if d = 0 then none else scripts s (d - 1))
    else scripts s d
  | [_], d => some d
  | _ :: s, d => scripts s d
  | [], d => some d

/-- All subscripts and superscripts are closed. -/
def Closed (s : List Char) : Prop := scripts s 0 = some 0

theorem braces_append (s t : List Char) : ∀ d, braces (s ++ t) d = (braces s d).bind (braces t) := by
  induction s with
  | nil => intro d; rfl
  | cons c s ih =>
    intro d
    simp only [List.cons_append, braces]
    split_ifs <;> simp [ih]

theorem braces_none {s : List Char} (h : ∀ c ∈ s, c ≠ '{' ∧ c ≠ '}') : ∀ d, braces s d = some d := by
  induction s with
  | nil => intro d; rfl
  | cons c s ih =>
    intro d
    have hc := h c (by simp)
    simp only [braces, if_neg hc.1, if_neg hc.2]
    exact ih (fun x hx => h x (by simp [hx])) d

theorem lookup_mem {l : List (Char × List Char)} {c : Char} {n : List Char} (h : l.lookup c = some n) : (c, n) ∈ l := by
  induction l with
  | nil => cases h
  | cons x l ih =>
    obtain ⟨k, v⟩ := x
    simp only [List.lookup] at h
    split at h
    · rename_i hk
      have : c = k := by simpa using hk
      cases h
      simp [this]
    · exact List.mem_cons_of_mem _ (ih h)

/-- The names consist of letters. -/
theorem get_letters {p : Mapping} {c : Char} {n : List Char} (h : p.get c = some n) : n ≠ [] ∧ ∀ x ∈ n, x.isAlpha = true := by
  cases p with
  | off => cases h
  | greek =>
    have hm := lookup_mem h
    have : ∀ y ∈ greekNames, y.2 ≠ [] ∧ ∀ x ∈ y.2, x.isAlpha = true := by decide
    exact this _ hm
  | special =>
    have hm := lookup_mem h
    have : ∀ y ∈ specialNames, y.2 ≠ [] ∧ ∀ x ∈ y.2, x.isAlpha = true := by decide
    exact this _ hm

theorem alpha_ne {c x : Char} (h : c.isAlpha = true) (hx : x.isAlpha = false) : c ≠ x := by
  intro he
  rw [he, hx] at h
  cases h

/-- What the loop does with one command or letter. -/
theorem loop_step {c : Char} {s : List Char} {p : Mapping} {out r : List Char} (h : formatLoop (c :: s) false p out = .ok r) :
    (c = '$' ∧ s = [] ∧ r = out) ∨
    (∃ d s', c = '$' ∧ s = d :: s' ∧ ∃ t, modeText d = some t ∧ formatLoop s' false p (out ++ t) = .ok r) ∨
    (∃ d s', c = '$' ∧ s = d :: s' ∧ ∃ p', modeText d = none ∧ process d = some p' ∧ formatLoop s' false p' out = .ok r) ∨
    (c ≠ '$' ∧ p = .off ∧ formatLoop s false p (out ++ [c]) = .ok r) ∨
    (c ≠ '$' ∧ p ≠ .off ∧ ∃ n, p.get c = some n ∧ formatLoop s false p (out ++ '\\' :: n) = .ok r) := by
  unfold formatLoop at h
  by_cases hc : c = '$'
  · rw [if_pos hc] at h
    cases s with
    | nil =>
      simp only [formatLoop, Except.ok.injEq] at h
      exact .inl ⟨hc, rfl, h.symm⟩
    | cons d s' =>
      unfold formatLoop at h
      cases hm : modeText d with
      | some t =>
        rw [hm] at h
        exact .inr (.inl ⟨d, s', hc, rfl, t, hm, h⟩)
      | none =>
        rw [hm] at h
        cases hp : process d with
        | some p' =>
          rw [hp] at h
          exact .inr (.inr (.inl ⟨d, s', hc, rfl, p', hm, hp, h⟩))
        | none =>
          rw [hp] at h
          cases h
  · rw [if_neg hc] at h
    by_cases hp : p = .off
    · rw [if_pos hp] at h
      exact .inr (.inr (.inr (.inl ⟨hc, hp, h⟩)))
    · rw [if_neg hp] at h
      cases hg : p.get c with
      | some n =>
        rw [hg] at h
        exact .inr (.inr (.inr (.inr ⟨hc, hp, n, rfl, h⟩)))
      | none =>
        rw [hg] at h
        cases h

theorem modeText_cases {d : Char} {t : List Char} (h : modeText d = some t) :
    (d = 'a' ∧ t = ['^', '{']) ∨ (d = 'n' ∧ t = ['}']) ∨ (d = 'b' ∧ t = ['_', '{']) := by
  unfold modeText at h
  split at h
  · cases h; exact .inl ⟨rfl, rfl⟩
  · cases h; exact .inr (.inl ⟨rfl, rfl⟩)
  · cases h; exact .inr (.inr ⟨rfl, rfl⟩)
  · cases h

theorem process_cases {d : Char} {p : Mapping} (h : process d = some p) : d = 'g' ∨ d = 's' ∨ d = 'r' ∨ d = 'e' := by
  unfold process at h
  split at h
  · exact .inl rfl
  · exact .inr (.inl rfl)
  · exact .inr (.inr (.inl rfl))
  · exact .inr (.inr (.inr rfl))
  · cases h

theorem scripts_other {c : Char} {s : List Char} {d : Nat} (h : c ≠ '$') : scripts (c :: s) d = scripts s d := by
  cases s with
  | nil => simp [scripts]
  | cons x s =>
    conv => lhs; unfold scripts
    split
    · rename_i h1
      simp only [List.cons.injEq] at h1
      exact absurd h1.1 h
    · rename_i h1
      simp at h1
    · rename_i h1
      simp only [List.cons.injEq] at h1
      rw [h1.2]
    · rename_i h1
      simp at h1

theorem loop_braces : ∀ (k : Nat) (s : List Char), s.length ≤ k → (∀ c ∈ s, c ≠ '{' ∧ c ≠ '}') → ∀ (p : Mapping) (out r : List Char),
    formatLoop s false p out = .ok r → ∀ d e, braces out d = some e → braces r d = scripts s e := by
  intro k
  induction k with
  | zero =>
    intro s hk _ p out r h d e he
    have : s = [] := List.length_eq_zero_iff.1 (Nat.le_zero.1 hk)
    subst this
    simp only [formatLoop, Except.ok.injEq] at h
    rw [← h, he]
    rfl
  | succ k ih =>
    intro s hk hb p out r h d e he
    cases s with
    | nil =>
      simp only [formatLoop, Except.ok.injEq] at h
      rw [← h, he]
      rfl
    | cons c s =>
      simp only [List.length_cons] at hk
      have hb' : ∀ x ∈ s, x ≠ '{' ∧ x ≠ '}' := fun x hx => hb x (by simp [hx])
      rcases loop_step h with ⟨hc, hs, hr⟩ | ⟨x, s', hc, hs, t, hm, hl⟩ | ⟨x, s', hc, hs, p', hm, hp, hl⟩ | ⟨hc, hp, hl⟩ | ⟨hc, hp, n, hg, hl⟩
      · subst hc hs hr
        rw [he]
        rfl
      · subst hc hs
        simp only [List.length_cons] at hk
        have hb'' : ∀ x ∈ s', x ≠ '{' ∧ x ≠ '}' := fun x hx => hb' x (by simp [hx])
        rcases modeText_cases hm with ⟨rfl, rfl⟩ | ⟨rfl, rfl⟩ | ⟨rfl, rfl⟩
        · rw [ih s' (by omega) hb'' p _ r hl d (e + 1) (by rw [braces_append, he]; rfl)]
          rfl
        · by_cases h0 : e = 0
          · subst h0
            have hn : ∀ (u q : List Char) (p : Mapping) (out : List Char), braces out d = none → formatLoop u false p out = .ok q → braces q d = none := by
              intro u
              induction hu : u.length using Nat.strongRecOn generalizing u with
              | _ m ihm =>
                intro q p out ho hq
                cases u with
                | nil =>
                  simp only [formatLoop, Except.ok.injEq] at hq
                  rw [← hq, ho]
                | cons y u =>
                  simp only [List.length_cons] at hu
                  have ha : ∀ w, braces (out ++ w) d = none := fun w => by rw [braces_append, ho]; rfl
                  rcases loop_step hq with ⟨_, _, hr⟩ | ⟨x, v, _, hv, t, _, hl⟩ | ⟨x, v, _, hv, p', _, _, hl⟩ | ⟨_, _, hl⟩ | ⟨_, _, n, _, hl⟩
                  · rw [hr, ho]
                  · subst hv; exact ihm _ (by simp at hu; omega) v rfl q _ _ (ha _) hl
                  · subst hv; exact ihm _ (by simp at hu; omega) v rfl q _ _ ho hl
                  · exact ihm _ (by omega) u rfl q _ _ (ha _) hl
                  · exact ihm _ (by omega) u rfl q _ _ (ha _) hl
            rw [hn s' r p _ (by rw [braces_append, he]; rfl) hl]
            rfl
          · rw [ih s' (by omega) hb'' p _ r hl d (e - 1) (by rw [braces_append, he]; simp [braces, h0])]
            simp [scripts, h0]
        · rw [ih s' (by omega) hb'' p _ r hl d (e + 1) (by rw [braces_append, he]; rfl)]
          rfl
      · subst hc hs
        simp only [List.length_cons] at hk
        have hb'' : ∀ x ∈ s', x ≠ '{' ∧ x ≠ '}' := fun x hx => hb' x (by simp [hx])
        rw [ih s' (by omega) hb'' p' _ r hl d e he]
        rcases process_cases hp with rfl | rfl | rfl | rfl <;> rfl
      · have hcb := hb c (by simp)
        rw [ih s (by omega) hb' p _ r hl d e (by rw [braces_append, he]; simp [braces, hcb]), scripts_other hc]
      · have hl' := (get_letters hg).2
        have hbn : ∀ x ∈ '\\' :: n, x ≠ '{' ∧ x ≠ '}' := by
          intro x hx
          rcases List.mem_cons.1 hx with rfl | hx
          · decide
          · exact ⟨alpha_ne (hl' x hx) (by decide), alpha_ne (hl' x hx) (by decide)⟩
        rw [ih s (by omega) hb' p _ r hl d e (by rw [braces_append, he]; exact braces_none hbn e), scripts_other hc]

/-- **C63, balance.** For a symbol without braces of its own, the result has balanced braces exactly if all subscripts and
superscripts of the symbol are closed. -/
theorem balanced (s out : List Char) (m : Bool) (hb : ∀ c ∈ s, c ≠ '{' ∧ c ≠ '}') (h : formatSymbol s m = .ok out) :
    Balanced out ↔ Closed s := by
  unfold formatSymbol at h
  cases hl : formatLoop s false .off (if m then ['$'] else []) with
  | error e => rw [hl] at h; cases h
  | ok r =>
    rw [hl] at h
    simp only [Except.ok.injEq] at h
    have h1 := loop_braces s.length s (le_refl _) hb .off _ r hl 0 0 (by cases m <;> rfl)
    unfold Balanced Closed
    rw [← h, braces_append, h1]
    cases scripts s 0 with
    | none => simp
    | some e => cases m <;> simp [braces]

theorem loop_plain : ∀ (s out : List Char), '$' ∉ s → formatLoop s false .off out = .ok (out ++ s) := by
  intro s
  induction s with
  | nil => intro out _; simp [formatLoop]
  | cons c s ih =>
    intro out h
    simp only [List.mem_cons, not_or] at h
    unfold formatLoop
    rw [if_neg (fun he => h.1 he.symm), if_pos rfl, ih _ h.2]
    simp

/-- **C63, plain text.** Text without markup is put between dollar signs, or left as it is. -/
theorem plain_text (s : List Char) (h : '$' ∉ s) : formatSymbol s true = .ok ('$' :: s ++ ['$']) ∧ formatSymbol s false = .ok s := by
  unfold formatSymbol
  rw [loop_plain _ _ h, loop_plain _ _ h]
  exact ⟨rfl, by simp⟩

theorem loop_dollar : ∀ (k : Nat) (s : List Char), s.length ≤ k → ∀ (p : Mapping) (out r : List Char),
    formatLoop s false p out = .ok r → r.count '$' = out.count '$' := by
  intro k
  induction k with
  | zero =>
    intro s hk p out r h
    have : s = [] := List.length_eq_zero_iff.1 (Nat.le_zero.1 hk)
    subst this
    simp only [formatLoop, Except.ok.injEq] at h
    rw [h]
  | succ k ih =>
    intro s hk p out r h
    cases s with
    | nil =>
      simp only [formatLoop, Except.ok.injEq] at h
      rw [h]
    | cons c s =>
      simp only [List.length_cons] at hk
      rcases loop_step h with ⟨hc, hs, hr⟩ | ⟨x, s', hc, hs, t, hm, hl⟩ | ⟨x, s', hc, hs, p', hm, hp, hl⟩ | ⟨hc, hp, hl⟩ | ⟨hc, hp, n, hg, hl⟩
      · rw [hr]
      · subst hs
        simp only [List.length_cons] at hk
        rw [ih s' (by omega) p _ r hl, List.count_append]
        rcases modeText_cases hm with ⟨rfl, rfl⟩ | ⟨rfl, rfl⟩ | ⟨rfl, rfl⟩ <;> rfl
      · subst hs
        simp only [List.length_cons] at hk
        exact ih s' (by omega) p' _ r hl
      · have h0 : [c].count '$' = 0 := List.count_eq_zero.2 (by simpa using fun he : '$' = c => hc he.symm)
        rw [ih s (by omega) p _ r hl, List.count_append, h0]
        rfl
      · have hl' := (get_letters hg).2
        have h0 : ('\\' :: n).count '$' = 0 := by
          refine List.count_eq_zero.2 fun hx => ?_
          rcases List.mem_cons.1 hx with hx | hx
          · exact absurd hx (by decide)
          · exact alpha_ne (hl' _ hx) (by decide) rfl
        rw [ih s (by omega) p _ r hl, List.count_append, h0]
        rfl

theorem loop_prefix : ∀ (k : Nat) (s : List Char), s.length ≤ k → ∀ (p : Mapping) (out r : List Char),
    formatLoop s false p out = .ok r → ∃ t, r = out ++ t := by
  intro k
  induction k with
  | zero =>
    intro s hk p out r h
    have : s = [] := List.length_eq_zero_iff.1 (Nat.le_zero.1 hk)
    subst this
    simp only [formatLoop, Except.ok.injEq] at h
    exact ⟨[], by rw [h]; simp⟩
  | succ k ih =>
    intro s hk p out r h
    cases s with
    | nil =>
      simp only [formatLoop, Except.ok.injEq] at h
      exact ⟨[], by rw [h]; simp⟩
    | cons c s =>
      simp only [List.length_cons] at hk
      rcases loop_step h with ⟨hc, hs, hr⟩ | ⟨x, s', hc, hs, t, hm, hl⟩ | ⟨x, s', hc, hs, p', hm, hp, hl⟩ | ⟨hc, hp, hl⟩ | ⟨hc, hp, n, hg, hl⟩
      · exact ⟨[], by rw [hr]; simp⟩
      · subst hs
        simp only [List.length_cons] at hk
        obtain ⟨w, hw⟩ := ih s' (by omega) p _ r hl
        exact ⟨_, by rw [hw, List.append_assoc]⟩
      · subst hs
        simp only [List.length_cons] at hk
        exact ih s' (by omega) p' _ r hl
      · obtain ⟨w, hw⟩ := ih s (by omega) p _ r hl
        exact ⟨_, by rw [hw, List.append_assoc]⟩
      · obtain ⟨w, hw⟩ := ih s (by omega) p _ r hl
        exact ⟨_, by rw [hw, List.append_assoc]⟩

/-- **C100.** The result for matplotlib is exactly one formula: it begins and ends with a dollar sign and has no other ones. Without
matplotlib it has none. -/
theorem one_formula (s out : List Char) :
    (formatSymbol s true = .ok out → ∃ body, out = '$' :: body ++ ['$'] ∧ '$' ∉ body) ∧ (formatSymbol s false = .ok out → '$' ∉ out) := by
  refine ⟨fun h => ?_, fun h => ?_⟩
  · unfold formatSymbol at h
    rw [if_pos rfl] at h
    cases hl : formatLoop s false .off ['$'] with
    | error e => rw [hl] at h; cases h
    | ok r =>
      rw [hl] at h
      simp only [Except.ok.injEq] at h
      obtain ⟨t, ht⟩ := loop_prefix s.length s (le_refl _) _ _ _ hl
      have hc := loop_dollar s.length s (le_refl _) _ _ _ hl
      rw [ht, List.count_append] at hc
      refine ⟨t, by rw [← h, ht]; simp, List.count_eq_zero.1 (by omega)⟩
  · unfold formatSymbol at h
    rw [if_neg (by simp)] at h
    cases hl : formatLoop s false .off [] with
    | error e => rw [hl] at h; cases h
    | ok r =>
      rw [hl] at h
      simp only [Except.ok.injEq, List.append_nil] at h
      have hc := loop_dollar s.length s (le_refl _) _ _ _ hl
      subst h
      exact List.count_eq_zero.1 (by rw [hc]; simp)

/-! ## Control words -/

/-- The control words of a TeX text: a backslash and all letters after it. -/
def texWords : List Char → Option (List Char) → List (List Char)
  | [], none => []
  | [], some w => [w]
  | c :: s, none => if c = '\\' then texWords s (some []) else texWords s none
  | c :: s, some w =>
    if c.isAlpha then texWords s (some (w ++ [c]))
    else w :: if c = '\\' then texWords s (some []) else texWords s none

/-- The names of the Greek and special letters of an SDDS symbol. -/
def specialLetters : List Char → Mapping → List (List Char)
  | '$' :: c :: s, p =>
    if c = 'g' then specialLetters s .greek
    else if c = 's' then specialLetters s .special
    else if c = 'r' ∨ c = 'e' then specialLetters s .off
    else specialLetters s p
  | [c], p => if c = '$' then [] else (p.get c).toList
  | c :: s, p => (p.get c).toList ++ specialLetters s p
  | [], _ => []

/-- A roman letter follows a Greek or special letter, with nothing but changes of the alphabet between them. -/
def glued : List Char → Mapping → Bool → Bool
  | '$' :: c :: s, p, after =>
    if c = 'g' then glued s .greek after
    else if c = 's' then glued s .special after
    else if c = 'r' ∨ c = 'e' then glued s .off after
    else glued s p false
  | [c], p, after => p = .off && after && c.isAlpha
  | c :: s, p, after => if p = .off then (after && c.isAlpha) || glued s p false else glued s p true
  | [], _, _ => false

theorem specialLetters_other {c : Char} {s : List Char} {p : Mapping} (h : c ≠ '$') :
    specialLetters (c :: s) p = (p.get c).toList ++ specialLetters s p := by
  cases s with
  | nil => simp [specialLetters, h]
  | cons x s =>
    conv => lhs; unfold specialLetters
    split
    · rename_i h1
      simp only [List.cons.injEq] at h1
      exact absurd h1.1 h
    · rename_i h1
      simp at h1
    · rename_i h1
      simp only [List.cons.injEq] at h1
      rw [h1.1, h1.2]
    · rename_i h1
      simp at h1

theorem glued_other {c : Char} {s : List Char} {p : Mapping} {a : Bool} (h : c ≠ '$') :
    glued (c :: s) p a = if p = .off then (a && c.isAlpha) || glued s p false else glued s p true := by
  cases s with
  | nil =>
    by_cases hp : p = .off
    · simp [glued, hp]
    · simp [glued, hp]
  | cons x s =>
    conv => lhs; unfold glued
    split
    · rename_i h1
      simp only [List.cons.injEq] at h1
      exact absurd h1.1 h
    · rename_i h1
      simp at h1
    · rename_i h1
      simp only [List.cons.injEq] at h1
      rw [h1.1, h1.2]
    · rename_i h1
      simp at h1

/-- State of the reader of control words after a text. -/
def texState : List Char → Option (List Char) → List (List Char) × Option (List Char)
  | [], w => ([], w)
  | c :: s, none => if c = '\\' then texState s (some []) else texState s none
  | c :: s, some w =>
    if c.isAlpha then texState s (some (w ++ [c]))
    else let r := if c = '\\' then texState s (some []) else texState s none
      (w :: r.1, r.2)

theorem texWords_append (s t : List Char) : ∀ w, texWords (s ++ t) w = (texState s w).1 ++ texWords t (texState s w).2 := by
  induction s with
  | nil => intro w; rfl
  | cons c s ih =>
    intro w
    cases w with
    | none =>
      simp only [List.cons_append, texWords, texState]
      split_ifs <;> exact ih _
    | some w =>
      simp only [List.cons_append, texWords, texState]
      split_ifs
      · exact ih _
      · simp [ih]
      · simp [ih]

theorem texState_append (s t : List Char) : ∀ w, texState (s ++ t) w = ((texState s w).1 ++ (texState t (texState s w).2).1, (texState t (texState s w).2).2) := by
  induction s with
  | nil => intro w; rfl
  | cons c s ih =>
    intro w
    cases w with
    | none =>
      simp only [List.cons_append, texState]
      split_ifs <;> exact ih _
    | some w =>
      simp only [List.cons_append, texState]
      split_ifs
      · exact ih _
      · simp [ih]
      · simp [ih]

theorem texState_letters {n : List Char} (h : ∀ x ∈ n, x.isAlpha = true) : ∀ w, texState n (some w) = ([], some (w ++ n)) := by
  induction n with
  | nil => intro w; simp [texState]
  | cons c n ih =>
    intro w
    simp only [texState, h c (by simp), if_true]
    rw [ih (fun x hx => h x (by simp [hx]))]
    simp

/-- Words read so far, with the open one. -/
def wordsOf (r : List (List Char) × Option (List Char)) : List (List Char) := r.1 ++ r.2.toList

theorem wordsOf_texWords (s : List Char) : ∀ w, texWords s w = wordsOf (texState s w) := by
  intro w
  have := texWords_append s [] w
  rw [List.append_nil] at this
  rw [this, wordsOf]
  cases (texState s w).2 <;> rfl

theorem texState_name {n : List Char} (h : ∀ x ∈ n, x.isAlpha = true) (w : Option (List Char)) :
    texState ('\\' :: n) w = (w.toList, some n) := by
  cases w with
  | none =>
    simp only [texState, if_true]
    rw [texState_letters h]
    simp
  | some w =>
    simp only [texState]
    rw [if_neg (by decide), if_pos trivial, texState_letters h]
    simp

/-- One character that is neither a letter nor a backslash ends the word. -/
theorem texState_end {c : Char} (h1 : c.isAlpha = false) (h2 : c ≠ '\\') (w : Option (List Char)) : texState [c] w = (w.toList, none) := by
  cases w with
  | none => simp [texState, h2]
  | some w => simp [texState, h1, h2]

theorem loop_words : ∀ (k : Nat) (s : List Char), s.length ≤ k → '\\' ∉ s → ∀ (p : Mapping) (a : Bool) (out r : List Char),
    formatLoop s false p out = .ok r → glued s p a = false → (a = false → (texState out none).2 = none) →
    wordsOf (texState r none) = wordsOf (texState out none) ++ specialLetters s p := by
  intro k
  induction k with
  | zero =>
    intro s hk _ p a out r h _ _
    have : s = [] := List.length_eq_zero_iff.1 (Nat.le_zero.1 hk)
    subst this
    simp only [formatLoop, Except.ok.injEq] at h
    rw [h]
    simp [specialLetters]
  | succ k ih =>
    intro s hk hb p a out r h hg ha
    cases s with
    | nil =>
      simp only [formatLoop, Except.ok.injEq] at h
      rw [h]
      simp [specialLetters]
    | cons c s =>
      simp only [List.length_cons] at hk
      simp only [List.mem_cons, not_or] at hb
      rcases loop_step h with ⟨hc, hs, hr⟩ | ⟨x, s', hc, hs, t, hm, hl⟩ | ⟨x, s', hc, hs, p', hm, hp, hl⟩ | ⟨hc, hp, hl⟩ | ⟨hc, hp, n, hgt, hl⟩
      · subst hc hs hr
        simp [specialLetters]
      · subst hc hs
        simp only [List.length_cons] at hk
        have hb' := hb.2
        simp only [List.mem_cons, not_or] at hb'
        have hend : ∀ t : List Char, (t = ['^', '{'] ∨ t = ['}'] ∨ t = ['_', '{']) →
            (texState (out ++ t) none).2 = none ∧ wordsOf (texState (out ++ t) none) = wordsOf (texState out none) := by
          intro t ht
          rw [texState_append]
          unfold wordsOf
          generalize texState out none = q
          obtain ⟨q1, q2⟩ := q
          rcases ht with rfl | rfl | rfl <;> cases q2 <;> simp [texState]
        have h1 : glued s' p false = false := by
          rcases modeText_cases hm with ⟨rfl, _⟩ | ⟨rfl, _⟩ | ⟨rfl, _⟩ <;> simpa [glued] using hg
        have h2 : specialLetters ('$' :: x :: s') p = specialLetters s' p := by
          rcases modeText_cases hm with ⟨rfl, _⟩ | ⟨rfl, _⟩ | ⟨rfl, _⟩ <;> simp [specialLetters]
        have h3 := hend t (by rcases modeText_cases hm with ⟨_, h⟩ | ⟨_, h⟩ | ⟨_, h⟩ <;> simp [h])
        rw [ih s' (by omega) hb'.2 p false _ r hl h1 (fun _ => h3.1), h3.2, h2]
      · subst hc hs
        simp only [List.length_cons] at hk
        have hb' := hb.2
        simp only [List.mem_cons, not_or] at hb'
        rcases process_cases hp with rfl | rfl | rfl | rfl
        all_goals
          simp only [process, Option.some.injEq] at hp
          subst hp
          rw [ih s' (by omega) hb'.2 _ a _ r hl (by simpa [glued] using hg) ha]
          simp [specialLetters]
      · rw [glued_other hc, if_pos hp] at hg
        simp only [Bool.or_eq_false_iff] at hg
        have hq : (texState (out ++ [c]) none).2 = none ∧ wordsOf (texState (out ++ [c]) none) = wordsOf (texState out none) := by
          have hbs : c ≠ '\\' := fun he => hb.1 he.symm
          cases a with
          | false =>
            have := ha rfl
            rw [texState_append, this]
            simp [texState, hbs, wordsOf, this]
          | true =>
            have hca : c.isAlpha = false := by simpa using hg.1
            rw [texState_append, texState_end hca hbs]
            exact ⟨rfl, by simp [wordsOf]⟩
        rw [ih s (by omega) hb.2 p false _ r hl hg.2 (fun _ => hq.1), hq.2, specialLetters_other hc, hp]
        simp [Mapping.get]
      · rw [glued_other hc, if_neg hp] at hg
        have hq : wordsOf (texState (out ++ '\\' :: n) none) = wordsOf (texState out none) ++ [n] := by
          rw [texState_append, texState_name (get_letters hgt).2]
          simp [wordsOf]
        rw [ih s (by omega) hb.2 p true _ r hl hg (fun h => by cases h), hq, specialLetters_other hc, hgt]
        simp

/-- **C101.** The control words of the result are the names of the Greek and special letters of the symbol, in order, if no roman
letter follows a Greek or special letter directly. -/
theorem control_words_partial (s out : List Char) (m : Bool) (hb : '\\' ∉ s) (hg : glued s .off false = false) (h : formatSymbol s m = .ok out) :
    texWords out none = specialLetters s .off := by
  unfold formatSymbol at h
  cases hl : formatLoop s false .off (if m then ['$'] else []) with
  | error e => rw [hl] at h; cases h
  | ok r =>
    rw [hl] at h
    simp only [Except.ok.injEq] at h
    have h0 : texState (if m then ['$'] else []) none = ([], none) := by cases m <;> rfl
    have h1 := loop_words s.length s (le_refl _) hb .off false _ r hl hg (fun _ => by rw [h0])
    rw [h0] at h1
    simp only [wordsOf, List.nil_append, Option.toList_none] at h1
    rw [← h, texWords_append, ← h1]
    congr 1
    cases (texState r none).2 with
    | none => cases m <;> rfl
    | some w => cases m <;> rfl

/-- **C101 is false.** A roman letter after a Greek letter becomes part of the control word: `$ga$rx` gives `\alphax`. -/
theorem control_words_fails (g x : Char) (n : List Char) (hg : Mapping.greek.get g = some n) (hgd : g ≠ '$') (hx : x.isAlpha = true) :
    formatSymbol ['$', 'g', g, '$', 'r', x] true = .ok ('$' :: '\\' :: n ++ [x, '$']) ∧
    texWords ('$' :: '\\' :: n ++ [x, '$']) none = [n ++ [x]] ∧ specialLetters ['$', 'g', g, '$', 'r', x] .off = [n] := by
  have hxd : x ≠ '$' := alpha_ne hx (by decide)
  refine ⟨?_, ?_, ?_⟩
  · simp [formatSymbol, formatLoop, modeText, process, hg, hgd, hxd]
  · rw [show '$' :: '\\' :: n ++ [x, '$'] = ['$'] ++ (('\\' :: n) ++ ([x] ++ ['$'])) by simp, texWords_append, texWords_append, texWords_append]
    rw [show texState ['$'] none = ([], none) from rfl, texState_name (get_letters hg).2]
    simp [texState, hx, texWords]
  · rw [show specialLetters ['$', 'g', g, '$', 'r', x] .off = specialLetters [g, '$', 'r', x] .greek from rfl, specialLetters_other hgd, hg]
    simp [specialLetters, hxd, Mapping.get]

/-! ## Refusals -/

/-- **C63, refusal.** A letter without Greek counterpart (a space, a digit, a bracket) after `$g` raises TypeError. -/
theorem greek_fails (t s : List Char) (c : Char) (m : Bool) (ht : '$' ∉ t) (hc : c ≠ '$') (hn : Mapping.greek.get c = none) :
    formatSymbol (t ++ '$' :: 'g' :: c :: s) m = .error .typeError := by
  unfold formatSymbol
  have : ∀ (t out : List Char), '$' ∉ t → formatLoop (t ++ '$' :: 'g' :: c :: s) false .off out = .error .typeError := by
    intro t
    induction t with
    | nil =>
      intro out _
      simp [formatLoop, modeText, process, hc, hn]
    | cons x t ih =>
      intro out h
      simp only [List.mem_cons, not_or] at h
      simp only [List.cons_append]
      unfold formatLoop
      rw [if_neg (fun he => h.1 he.symm), if_pos rfl]
      exact ih _ h.2
  rw [this _ _ ht]

/-- **C63, refusal.** A command other than `$a $b $n $g $s $r $e` raises KeyError. -/
theorem command_refuses (t s : List Char) (c : Char) (m : Bool) (ht : '$' ∉ t) (hc : c ∉ ['a', 'b', 'n', 'g', 's', 'r', 'e']) :
    formatSymbol (t ++ '$' :: c :: s) m = .error .keyError := by
  unfold formatSymbol
  simp only [List.mem_cons, List.not_mem_nil, or_false, not_or] at hc
  obtain ⟨h1, h2, h3, h4, h5, h6, h7⟩ := hc
  have hm : modeText c = none := by
    unfold modeText
    split
    · exact absurd rfl h1
    · exact absurd rfl h3
    · exact absurd rfl h2
    · rfl
  have hp : process c = none := by
    unfold process
    split
    · exact absurd rfl h4
    · exact absurd rfl h5
    · exact absurd rfl h6
    · exact absurd rfl h7
    · rfl
  have : ∀ (t out : List Char), '$' ∉ t → formatLoop (t ++ '$' :: c :: s) false .off out = .error .keyError := by
    intro t
    induction t with
    | nil =>
      intro out _
      simp [formatLoop, hm, hp]
    | cons x t ih =>
      intro out h
      simp only [List.mem_cons, not_or] at h
      simp only [List.cons_append]
      unfold formatLoop
      rw [if_neg (fun he => h.1 he.symm), if_pos rfl]
      exact ih _ h.2
  rw [this _ _ ht]

example : formatSymbol ['$', 'g', 's', '$', 'r', '$', 'b', 'x', '$', 'n'] true =
    .ok ['$', '\\', 's', 'i', 'g', 'm', 'a', '_', '{', 'x', '}', '$'] ∧ Closed ['$', 'g', 's', '$', 'r', '$', 'b', 'x', '$', 'n'] ∧
    glued ['$', 'g', 's', '$', 'r', '$', 'b', 'x', '$', 'n'] .off false = false := ⟨by decide, by unfold Closed; decide, by decide⟩
example : Mapping.greek.get ' ' = none := by decide

/-! The theorems above at concrete values. -/

example : Balanced ['$', '\\', 's', 'i', 'g', 'm', 'a', '_', '{', 'x', '}', '$'] :=
  (balanced ['$', 'g', 's', '$', 'r', '$', 'b', 'x', '$', 'n'] _ true (by decide) (by decide)).2 (by unfold Closed; decide)

example : texWords ['$', '\\', 's', 'i', 'g', 'm', 'a', '_', '{', 'x', '}', '$'] none = [['s', 'i', 'g', 'm', 'a']] :=
  control_words_partial ['$', 'g', 's', '$', 'r', '$', 'b', 'x', '$', 'n'] _ true (by decide) (by decide) (by decide)

example : texWords ('$' :: '\\' :: ['s', 'i', 'g', 'm', 'a'] ++ ['x', '$']) none = [['s', 'i', 'g', 'm', 'a', 'x']] :=
  (control_words_fails 's' 'x' _ (by decide) (by decide) (by decide)).2.1

example : formatSymbol (['x'] ++ '$' :: 'g' :: ' ' :: ['a']) true = .error .typeError := greek_fails ['x'] ['a'] ' ' true (by decide) (by decide) (by decide)

example : formatSymbol ['x', '^', '2'] false = .ok ['x', '^', '2'] := (plain_text ['x', '^', '2'] (by decide)).2

end Verif.Plot
