import Verif.Plot.PropsSymbol

/-!
C101 exactly: the control words are the names of the letters if and only if no roman letter follows one directly.
-/

namespace Verif.Plot

/-- The letters of some words together. -/
def letters (l : List (List Char)) : Nat := (l.map List.length).sum

theorem letters_append (a b : List (List Char)) : letters (a ++ b) = letters a + letters b := by
  unfold letters
  rw [List.map_append, List.sum_append]

theorem letters_mono (t : List Char) : ∀ w : Option (List Char), letters w.toList ≤ letters (wordsOf (texState t w)) := by
  induction t with
  | nil => intro w; simp [texState, wordsOf]
  | cons c t ih =>
    intro w
    cases w with
    | none => simp [letters]
    | some w =>
      simp only [texState]
      by_cases hc : c.isAlpha = true
      · rw [if_pos hc]
        refine le_trans ?_ (ih _)
        simp [letters]
      · rw [if_neg hc]
        simp only [wordsOf, List.cons_append]
        simp [letters]

theorem letters_more (out t : List Char) : letters (wordsOf (texState out none)) ≤ letters (wordsOf (texState (out ++ t) none)) := by
  have h := letters_mono t (texState out none).2
  have e1 : ∀ r : List (List Char) × Option (List Char), letters (wordsOf r) = letters r.1 + letters r.2.toList := fun r => letters_append _ _
  rw [texState_append, e1, e1] at *
  simp only [letters_append]
  omega

theorem loop_letters : ∀ (k : Nat) (s : List Char), s.length ≤ k → ∀ (p : Mapping) (a : Bool) (out r : List Char),
    formatLoop s false p out = .ok r → (a = true → (texState out none).2 ≠ none) →
    letters (wordsOf (texState out none)) + letters (specialLetters s p) + (if glued s p a then 1 else 0) ≤ letters (wordsOf (texState r none)) := by
  intro k
  induction k with
  | zero =>
    intro s hk p a out r h _
    have : s = [] := List.length_eq_zero_iff.1 (Nat.le_zero.1 hk)
    subst this
    simp only [formatLoop, Except.ok.injEq] at h
    rw [h]
    simp [specialLetters, glued, letters]
  | succ k ih =>
    intro s hk p a out r h ha
    cases s with
    | nil =>
      simp only [formatLoop, Except.ok.injEq] at h
      rw [h]
      simp [specialLetters, glued, letters]
    | cons c s =>
      simp only [List.length_cons] at hk
      rcases loop_step h with ⟨hc, hs, hr⟩ | ⟨x, s', hc, hs, t, hm, hl⟩ | ⟨x, s', hc, hs, p', hm, hp, hl⟩ | ⟨hc, hp, hl⟩ | ⟨hc, hp, n, hgt, hl⟩
      · subst hc hs hr
        have : glued ['$'] p a = false := by
          have : ('$' : Char).isAlpha = false := by decide
          simp [glued, this]
        rw [this]
        simp [specialLetters, letters]
      · subst hc hs
        simp only [List.length_cons] at hk
        have h1 : glued ('$' :: x :: s') p a = glued s' p false := by
          rcases modeText_cases hm with ⟨rfl, _⟩ | ⟨rfl, _⟩ | ⟨rfl, _⟩ <;> simp [glued]
        have h2 : specialLetters ('$' :: x :: s') p = specialLetters s' p := by
          rcases modeText_cases hm with ⟨rfl, _⟩ | ⟨rfl, _⟩ | ⟨rfl, _⟩ <;> simp [specialLetters]
        have h3 := ih s' (by omega) p false _ r hl (fun h => by cases h)
        have h4 := letters_more out t
        rw [h1, h2]
        omega
      · subst hc hs
        simp only [List.length_cons] at hk
        rcases process_cases hp with rfl | rfl | rfl | rfl
        all_goals
          simp only [process, Option.some.injEq] at hp
          subst hp
          have h3 := ih s' (by omega) _ a _ r hl ha
          simpa [glued, specialLetters] using h3
      · have h3 := ih s (by omega) p false _ r hl (fun h => by cases h)
        have h4 := letters_more out [c]
        rw [glued_other hc, if_pos hp, specialLetters_other hc]
        have h5 : (p.get c).toList = [] := by rw [hp]; rfl
        rw [h5, List.nil_append]
        by_cases hg : (a && c.isAlpha) = true
        · rw [hg, Bool.true_or, if_pos rfl]
          simp only [Bool.and_eq_true] at hg
          have h6 : letters (wordsOf (texState (out ++ [c]) none)) = letters (wordsOf (texState out none)) + 1 := by
            have hq := ha hg.1
            rw [texState_append]
            cases hw : (texState out none).2 with
            | none => exact absurd hw hq
            | some w =>
              simp only [texState, hg.2, if_true, wordsOf, hw, List.append_nil, Option.toList_some, letters_append]
              simp [letters]
              omega
          omega
        · rw [Bool.not_eq_true] at hg
          rw [hg, Bool.false_or]
          omega
      · have hq : letters (wordsOf (texState (out ++ '\\' :: n) none)) = letters (wordsOf (texState out none)) + n.length ∧
            (texState (out ++ '\\' :: n) none).2 ≠ none := by
          rw [texState_append, texState_name (get_letters hgt).2]
          refine ⟨?_, by simp⟩
          simp only [wordsOf, letters_append, Option.toList_some]
          simp [letters]
        have h3 := ih s (by omega) p true _ r hl (fun _ => hq.2)
        rw [glued_other hc, if_neg hp, specialLetters_other hc, hgt, Option.toList_some, letters_append]
        have : letters [n] = n.length := by simp [letters]
        rw [this]
        omega

/-- **C101, exactly.** For symbols without backslash the control words of the result are the names of the Greek and special letters, in order, if and only if no roman
letter follows a Greek or special letter directly. -/
theorem control_words_iff (s out : List Char) (m : Bool) (hb : '\\' ∉ s) (h : formatSymbol s m = .ok out) :
    texWords out none = specialLetters s .off ↔ glued s .off false = false := by
  refine ⟨fun he => ?_, fun hg => control_words_partial s out m hb hg h⟩
  unfold formatSymbol at h
  cases hl : formatLoop s false .off (if m then ['$'] else []) with
  | error e => rw [hl] at h; cases h
  | ok r =>
    rw [hl] at h
    simp only [Except.ok.injEq] at h
    have h0 : texState (if m then ['$'] else []) none = ([], none) := by cases m <;> rfl
    have h1 := loop_letters s.length s (le_refl _) .off false _ r hl (fun h => by cases h)
    rw [h0] at h1
    have h2 := letters_more r (if m then ['$'] else [])
    rw [h, ← wordsOf_texWords out none, he] at h2
    by_contra hg
    rw [Bool.not_eq_false] at hg
    rw [hg, if_pos rfl] at h1
    omega

/-- Non-vacuity: `$ga$rb` is glued. -/
example : texWords "$\\alphab$".toList none ≠ specialLetters "$ga$rb".toList .off :=
  fun h => absurd ((control_words_iff "$ga$rb".toList "$\\alphab$".toList true (by decide) (by decide +kernel)).1 h) (by decide)

end Verif.Plot
