import Verif.Plot.PropsSymbol

/-!
C63 for all strings: braces of the formatted symbol when the symbol has braces of its own (`format_symbol`, rsplot/util.py:153-173).
-/

namespace Verif.Plot

/-- Depth of subscripts, superscripts and braces of an SDDS symbol: `$a`, `$b` and `{` open one, `$n` and `}` close the last one. -/
def nested : List Char → Nat → Option Nat
  | [], d => some d
  | [c], d => if c = '{' then some (d + 1) else if c = '}' then (if d = 0 then none else some (d - 1)) else some d
  | c :: x :: s, d =>
    if c = '$' then
      (if x = 'a' ∨ x = 'b' then nested s (d + 1) else if x = 'n' then (if d = 0 then none else nested s (d - 1)) else nested s d)
    else if c = '{' then nested (x :: s) (d + 1)
    else if c = '}' then (if d = 0 then none else nested (x :: s) (d - 1))
    else nested (x :: s) d

theorem nested_other {c : Char} {s : List Char} {d : Nat} (h : c ≠ '$') :
    nested (c :: s) d = (braces [c] d).bind (nested s) := by
  cases s with
  | nil =>
    simp only [nested, braces]
    split_ifs <;> simp
  | cons x s =>
    simp only [nested, braces, if_neg h]
    split_ifs <;> simp

theorem loop_none (d : Nat) : ∀ (k : Nat) (u : List Char), u.length ≤ k → ∀ (q : List Char) (p : Mapping) (out : List Char),
    braces out d = none → formatLoop u false p out = .ok q → braces q d = none := by
  intro k u hk q p out ho hq
  obtain ⟨t, ht⟩ := loop_prefix k u hk p out q hq
  rw [ht, braces_append, ho]
  rfl

theorem loop_nested : ∀ (k : Nat) (s : List Char), s.length ≤ k → ∀ (p : Mapping) (out r : List Char),
    formatLoop s false p out = .ok r → ∀ d e, braces out d = some e → braces r d = nested s e := by
  intro k
  induction k with
  | zero =>
    intro s hk p out r h d e he
    have : s = [] := List.length_eq_zero_iff.1 (Nat.le_zero.1 hk)
    subst this
    simp only [formatLoop, Except.ok.injEq] at h
    rw [← h, he]
    rfl
  | succ k ih =>
    intro s hk p out r h d e he
    cases s with
    | nil =>
      simp only [formatLoop, Except.ok.injEq] at h
      rw [← h, he]
      rfl
    | cons c s =>
      simp only [List.length_cons] at hk
      rcases loop_step h with ⟨hc, hs, hr⟩ | ⟨x, s', hc, hs, t, hm, hl⟩ | ⟨x, s', hc, hs, p', hm, hp, hl⟩ | ⟨hc, hp, hl⟩ | ⟨hc, hp, n, hg, hl⟩
      · subst hc hs hr
        rw [he]
        rfl
      · subst hc hs
        simp only [List.length_cons] at hk
        rcases modeText_cases hm with ⟨rfl, rfl⟩ | ⟨rfl, rfl⟩ | ⟨rfl, rfl⟩
        · rw [ih s' (by omega) p _ r hl d (e + 1) (by rw [braces_append, he]; rfl)]
          rfl
        · by_cases h0 : e = 0
          · subst h0
            rw [loop_none d s'.length s' (le_refl _) r p _ (by rw [braces_append, he]; rfl) hl]
            rfl
          · rw [ih s' (by omega) p _ r hl d (e - 1) (by rw [braces_append, he]; simp [braces, h0])]
            simp [nested, h0]
        · rw [ih s' (by omega) p _ r hl d (e + 1) (by rw [braces_append, he]; rfl)]
          rfl
      · subst hc hs
        simp only [List.length_cons] at hk
        rw [ih s' (by omega) p' _ r hl d e he]
        rcases process_cases hp with rfl | rfl | rfl | rfl <;> rfl
      · rw [nested_other hc]
        cases hb : braces [c] e with
        | none =>
          rw [loop_none d s.length s (le_refl _) r p _ (by rw [braces_append, he]; exact hb) hl]
          rfl
        | some f =>
          rw [ih s (by omega) p _ r hl d f (by rw [braces_append, he]; exact hb)]
          rfl
      · have hl' := (get_letters hg).2
        have hbn : ∀ x ∈ '\\' :: n, x ≠ '{' ∧ x ≠ '}' := by
          intro x hx
          rcases List.mem_cons.1 hx with rfl | hx
          · decide
          · exact ⟨alpha_ne (hl' x hx) (by decide), alpha_ne (hl' x hx) (by decide)⟩
        have hcb : braces [c] e = some e := by
          have hc1 : c ≠ '{' := by
            rintro rfl
            cases p with
            | off => exact hp rfl
            | greek => cases hg
            | special => cases hg
          have hc2 : c ≠ '}' := by
            rintro rfl
            cases p with
            | off => exact hp rfl
            | greek => cases hg
            | special => cases hg
          simp [braces, hc1, hc2]
        rw [ih s (by omega) p _ r hl d e (by rw [braces_append, he]; exact braces_none hbn e), nested_other hc, hcb]
        rfl

/-- **C63, for all strings.** The result has balanced braces exactly if the subscripts, superscripts and braces of the symbol are
properly closed, counted together. -/
theorem balanced_iff (s out : List Char) (m : Bool) (h : formatSymbol s m = .ok out) : Balanced out ↔ nested s 0 = some 0 := by
  unfold formatSymbol at h
  cases hl : formatLoop s false .off (if m then ['$'] else []) with
  | error e => rw [hl] at h; cases h
  | ok r =>
    rw [hl] at h
    simp only [Except.ok.injEq] at h
    have h1 := loop_nested s.length s (le_refl _) .off _ r hl 0 0 (by cases m <;> rfl)
    unfold Balanced
    rw [← h, braces_append, h1]
    cases nested s 0 with
    | none => simp
    | some e => cases m <;> simp [braces]

/-- **C63 is false for symbols with braces.** A symbol without markup has all its scripts closed, but the result has balanced braces
only if the symbol has. -/
theorem own_braces_fails (s : List Char) (h : '$' ∉ s) : Closed s ∧ ∃ out, formatSymbol s true = .ok out ∧ (Balanced out ↔ Balanced s) := by
  constructor
  · unfold Closed
    have : ∀ (t : List Char) d, '$' ∉ t → scripts t d = some d := by
      intro t
      induction t with
      | nil => intro d _; rfl
      | cons c t ih =>
        intro d ht
        simp only [List.mem_cons, not_or] at ht
        rw [scripts_other (fun e => ht.1 e.symm)]
        exact ih d ht.2
    exact this s 0 h
  · refine ⟨_, (plain_text s h).1, ?_⟩
    unfold Balanced
    have e : '$' :: s ++ ['$'] = ['$'] ++ (s ++ ['$']) := rfl
    rw [e, braces_append]
    show braces (s ++ ['$']) 0 = some 0 ↔ _
    rw [braces_append]
    cases braces s 0 with
    | none => simp
    | some k => simp [braces]

/-- A lost brace. -/
example : formatSymbol ['x', '{'] true = .ok ['$', 'x', '{', '$'] ∧ Closed ['x', '{'] ∧ ¬ Balanced ['$', 'x', '{', '$'] :=
  ⟨by decide, by unfold Closed; decide, by unfold Balanced; decide⟩

example : nested ['{', 'x', '$', 'b', '1', '$', 'n', '}'] 0 = some 0 ∧
    formatSymbol ['{', 'x', '$', 'b', '1', '$', 'n', '}'] false = .ok ['{', 'x', '_', '{', '1', '}', '}'] := ⟨by decide, by decide⟩

end Verif.Plot
