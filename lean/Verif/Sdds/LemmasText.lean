import Verif.Sdds.LemmasWrite

/-!
# Lemmas on header text of every kind: letters outside ASCII, backslashes, final commas
-/

set_option linter.unusedSimpArgs false
set_option linter.unusedVariables false

namespace Verif.Sdds

/-! ## UTF-8 read as latin-1 -/

/-- Text written as UTF-8 and read as latin-1. -/
def moji (v : Str) : Str := latin1 (utf8 v)

theorem utf8_high (c : Char) (h : 128 ≤ c.toNat) :
    (∀ b ∈ String.utf8EncodeChar c, 128 ≤ b.toNat) ∧ 2 ≤ (String.utf8EncodeChar c).length := by
  have h0 : ¬ c.val.toNat ≤ 127 := by
    have : c.val.toNat = c.toNat := rfl
    omega
  have key : ∀ n : Nat, n < 256 → 128 ≤ n → 128 ≤ (UInt8.ofNat n).toNat := by
    intro n h1 h2
    rw [UInt8.toNat_ofNat']
    omega
  unfold String.utf8EncodeChar
  simp only [h0, if_false]
  split_ifs with h1 h2
  · refine ⟨?_, by simp⟩
    intro b hb
    simp only [List.mem_cons, List.not_mem_nil, or_false] at hb
    rcases hb with rfl | rfl <;> exact key _ (by omega) (by omega)
  · refine ⟨?_, by simp⟩
    intro b hb
    simp only [List.mem_cons, List.not_mem_nil, or_false] at hb
    rcases hb with rfl | rfl | rfl <;> exact key _ (by omega) (by omega)
  · refine ⟨?_, by simp⟩
    intro b hb
    simp only [List.mem_cons, List.not_mem_nil, or_false] at hb
    rcases hb with rfl | rfl | rfl | rfl <;> exact key _ (by omega) (by omega)

theorem moji_append (a b : Str) : moji (a ++ b) = moji a ++ moji b := by
  unfold moji latin1
  rw [utf8_append, List.map_append]

theorem moji_nil : moji [] = [] := rfl

theorem moji_cons (c : Char) (s : Str) : moji (c :: s) = moji [c] ++ moji s := by
  rw [← moji_append]
  rfl

theorem moji_ascii {s : Str} (h : Ascii s) : moji s = s := latin1_utf8 h

theorem ofNat_byte (b : UInt8) : (Char.ofNat b.toNat).toNat = b.toNat := by
  have hb := b.toNat_lt
  have : (b.toNat).isValidChar := Or.inl (by omega)
  unfold Char.ofNat
  rw [dif_pos this]
  rfl

/-- The characters a letter turns into. -/
theorem moji_char (c : Char) : (c.toNat < 128 ∧ moji [c] = [c]) ∨
    (128 ≤ c.toNat ∧ (∀ d ∈ moji [c], 128 ≤ d.toNat) ∧ 2 ≤ (moji [c]).length) := by
  by_cases h : c.toNat < 128
  · exact Or.inl ⟨h, moji_ascii (by intro d hd; rw [List.mem_singleton.mp hd]; exact h)⟩
  · have h : 128 ≤ c.toNat := by omega
    obtain ⟨h1, h2⟩ := utf8_high c h
    refine Or.inr ⟨h, ?_, ?_⟩
    · intro d hd
      unfold moji latin1 utf8 at hd
      rw [List.flatMap_cons, List.flatMap_nil, List.append_nil] at hd
      obtain ⟨b, hb, rfl⟩ := List.mem_map.mp hd
      rw [ofNat_byte]
      exact h1 b hb
    · unfold moji latin1 utf8
      rw [List.flatMap_cons, List.flatMap_nil, List.append_nil, List.length_map]
      exact h2

/-- ASCII characters are where they were, and there are no new ones. -/
theorem mem_moji {d : Char} (hd : d.toNat < 128) (v : Str) : d ∈ moji v ↔ d ∈ v := by
  induction v with
  | nil => rfl
  | cons c v ih =>
    rw [moji_cons, List.mem_append, ih, List.mem_cons]
    rcases moji_char c with ⟨h, e⟩ | ⟨h, h1, -⟩
    · rw [e, List.mem_singleton]
    · constructor
      · rintro (h2 | h2)
        · have := h1 d h2; omega
        · exact Or.inr h2
      · rintro (rfl | h2)
        · omega
        · exact Or.inr h2

/-- Number of characters outside ASCII. -/
def highs (s : Str) : Nat := s.countP fun c => decide (128 ≤ c.toNat)

theorem highs_cons (c : Char) (s : Str) : highs (c :: s) = highs s + if 128 ≤ c.toNat then 1 else 0 := by
  unfold highs
  rw [List.countP_cons]
  simp

theorem highs_append (a b : Str) : highs (a ++ b) = highs a + highs b := List.countP_append

theorem highs_all {s : Str} (h : ∀ d ∈ s, 128 ≤ d.toNat) : highs s = s.length := by
  unfold highs
  rw [List.countP_eq_length]
  intro d hd
  exact decide_eq_true (h d hd)

theorem highs_moji (v : Str) : 2 * highs v ≤ highs (moji v) := by
  induction v with
  | nil => exact Nat.le_refl 0
  | cons c v ih =>
    rw [moji_cons, highs_append, highs_cons]
    rcases moji_char c with ⟨h, e⟩ | ⟨h, h1, h2⟩
    · rw [if_neg (by omega)]
      omega
    · rw [if_pos h, highs_all h1]
      omega

theorem highs_zero {v : Str} (h : highs v = 0) : Ascii v := by
  intro c hc
  unfold highs at h
  rw [List.countP_eq_zero] at h
  have := h c hc
  simp only [decide_eq_true_eq] at this
  omega

/-! ## Backslashes -/

/-- What remains of quoted text after backslashes have been taken as escapes; `none` when the
text ends in the middle of an escape. -/
def unesc : Str → Option Str
  | [] => some []
  | c :: s =>
    if c = '\\' then
      match s with
      | [] => none
      | d :: s => if d ≠ '\\' ∧ d ≠ '"' then (unesc s).map (['\\', d] ++ ·) else (unesc s).map (d :: ·)
    else (unesc s).map (c :: ·)

theorem unesc_plain {c : Char} (hc : c ≠ '\\') (s : Str) : unesc (c :: s) = (unesc s).map (c :: ·) := by
  conv_lhs => unfold unesc
  rw [if_neg hc]

theorem unesc_pair (s : Str) : unesc ('\\' :: '\\' :: s) = (unesc s).map ('\\' :: ·) := by
  conv_lhs => unfold unesc
  rw [if_pos rfl]
  simp

theorem unesc_other {d : Char} (h1 : d ≠ '\\') (h2 : d ≠ '"') (s : Str) :
    unesc ('\\' :: d :: s) = (unesc s).map (['\\', d] ++ ·) := by
  conv_lhs => unfold unesc
  rw [if_pos rfl]
  simp [h1, h2]

theorem unesc_end : unesc ['\\'] = none := by
  unfold unesc
  rw [if_pos rfl]

/-- Induction over text without double quotes. -/
theorem esc_induction {P : Str → Prop} (h0 : P []) (h1 : P ['\\']) (h2 : ∀ s, '"' ∉ s → P s → P ('\\' :: '\\' :: s))
    (h3 : ∀ d s, d ≠ '\\' → d ≠ '"' → '"' ∉ s → P s → P ('\\' :: d :: s))
    (h4 : ∀ c s, c ≠ '\\' → c ≠ '"' → '"' ∉ s → P s → P (c :: s)) : ∀ s, '"' ∉ s → P s := by
  intro s
  induction hn : s.length using Nat.strong_induction_on generalizing s with
  | _ n ih =>
    intro hq
    match s with
    | [] => exact h0
    | [c] =>
      by_cases hc : c = '\\'
      · rw [hc]; exact h1
      · exact h4 c [] hc (fun e => hq (by rw [e]; simp)) (by simp) h0
    | c :: d :: s =>
      simp only [List.mem_cons, not_or] at hq
      obtain ⟨q1, q2, q3⟩ := hq
      simp only [List.length_cons] at hn
      by_cases hc : c = '\\'
      · rw [hc]
        by_cases hd : d = '\\'
        · rw [hd]
          exact h2 s q3 (ih s.length (by omega) s rfl q3)
        · exact h3 d s hd (Ne.symm q2) q3 (ih s.length (by omega) s rfl q3)
      · refine h4 c (d :: s) hc (Ne.symm q1) ?_ (ih (d :: s).length (by simp; omega) (d :: s) rfl ?_)
        all_goals simp only [List.mem_cons, not_or]; exact ⟨q2, q3⟩

theorem lex_unesc (v : Str) (hq : '"' ∉ v) : ∀ u, unesc v = some u → ∀ (tok : Str) (q : Bool) (rest : Str),
    lex .quote tok q (v ++ '"' :: rest) = lex .word (tok ++ u) true rest := by
  refine esc_induction (P := fun v => ∀ u, unesc v = some u → ∀ (tok : Str) (q : Bool) (rest : Str),
    lex .quote tok q (v ++ '"' :: rest) = lex .word (tok ++ u) true rest) ?_ ?_ ?_ ?_ ?_ v hq
  · intro u hu tok q rest
    have : u = [] := (Option.some.inj hu).symm
    rw [this, List.nil_append, List.append_nil, lex, if_pos rfl]
  · intro u hu
    rw [unesc_end] at hu
    cases hu
  · intro s hs ih u hu tok q rest
    rw [unesc_pair] at hu
    cases he : unesc s with
    | none => rw [he] at hu; cases hu
    | some u' =>
      rw [he] at hu
      have : u = '\\' :: u' := (Option.some.inj hu).symm
      rw [this, List.cons_append, List.cons_append, lex, if_neg (by decide), if_pos rfl, lex, if_neg (by simp),
        ih u' he, List.append_assoc]
      rfl
  · intro d s h1 h2 hs ih u hu tok q rest
    rw [unesc_other h1 h2] at hu
    cases he : unesc s with
    | none => rw [he] at hu; cases hu
    | some u' =>
      rw [he] at hu
      have : u = ['\\', d] ++ u' := (Option.some.inj hu).symm
      rw [this, List.cons_append, List.cons_append, lex, if_neg (by decide), if_pos rfl, lex, if_pos ⟨h1, h2⟩,
        ih u' he, List.append_assoc]
  · intro c s h1 h2 hs ih u hu tok q rest
    rw [unesc_plain h1] at hu
    cases he : unesc s with
    | none => rw [he] at hu; cases hu
    | some u' =>
      rw [he] at hu
      have : u = c :: u' := (Option.some.inj hu).symm
      rw [this, List.cons_append, lex, if_neg h2, if_neg h1, ih u' he, List.append_assoc]
      rfl

/-- The text does not end in the middle of an escape: an even number of backslashes at the end. -/
def EvenEnd (v : Str) : Prop := (v.reverse.takeWhile (· == '\\')).length % 2 = 0

instance (v : Str) : Decidable (EvenEnd v) := by unfold EvenEnd; infer_instance

theorem takeWhile_app (p : Char → Bool) (l m : Str) :
    ((l ++ m).takeWhile p).length =
      if (l.takeWhile p).length = l.length then l.length + (m.takeWhile p).length else (l.takeWhile p).length := by
  rw [List.takeWhile_append]
  split_ifs with h
  · rw [List.length_append]
  · rfl

theorem takeWhile_full {p : Char → Bool} {l : Str} (h : (l.takeWhile p).length = l.length) : l.takeWhile p = l :=
  List.IsPrefix.eq_of_length (List.takeWhile_prefix p) h

theorem evenEnd_iff (v : Str) (hq : '"' ∉ v) : EvenEnd v ↔ unesc v ≠ none := by
  refine esc_induction (P := fun v => EvenEnd v ↔ unesc v ≠ none) ?_ ?_ ?_ ?_ ?_ v hq
  · exact ⟨fun _ => by simp [unesc], fun _ => rfl⟩
  · rw [unesc_end]
    exact ⟨fun h => absurd h (by decide), fun h => absurd rfl h⟩
  · intro s hs ih
    rw [unesc_pair]
    have e : (unesc s).map ('\\' :: ·) ≠ none ↔ unesc s ≠ none := by simp
    rw [e, ← ih]
    unfold EvenEnd
    rw [List.reverse_cons, List.reverse_cons, List.append_assoc, takeWhile_app]
    split_ifs with h
    · have h2 : (([ '\\' ] ++ ['\\'] : Str).takeWhile (· == '\\')).length = 2 := by decide
      rw [h2, h]
      omega
    · rfl
  · intro d s h1 h2 hs ih
    rw [unesc_other h1 h2]
    have e : (unesc s).map (['\\', d] ++ ·) ≠ none ↔ unesc s ≠ none := by simp
    rw [e, ← ih]
    unfold EvenEnd
    rw [List.reverse_cons, List.reverse_cons, List.append_assoc, takeWhile_app]
    split_ifs with h
    · have h3 : (([d] ++ ['\\'] : Str).takeWhile (· == '\\')) = [] := by
        rw [List.singleton_append, List.takeWhile_cons_of_neg (by simpa using h1)]
      rw [h3, h, List.length_nil, Nat.add_zero]
    · rfl
  · intro c s h1 h2 hs ih
    rw [unesc_plain h1]
    have e : (unesc s).map (c :: ·) ≠ none ↔ unesc s ≠ none := by simp
    rw [e, ← ih]
    unfold EvenEnd
    rw [List.reverse_cons, takeWhile_app]
    split_ifs with h
    · have h3 : (([c] : Str).takeWhile (· == '\\')) = [] := by
        rw [List.takeWhile_cons_of_neg (by simpa using h1)]
      rw [h3, h, List.length_nil, Nat.add_zero]
    · rfl

/-- What unescaping changes: pairs of backslashes. -/
theorem unesc_spec (v : Str) (hq : '"' ∉ v) : ∀ u, unesc v = some u →
    u.length ≤ v.length ∧ highs u = highs v ∧ (u = v ↔ ¬ ['\\', '\\'] <:+: v) := by
  refine esc_induction (P := fun v => ∀ u, unesc v = some u →
    u.length ≤ v.length ∧ highs u = highs v ∧ (u = v ↔ ¬ ['\\', '\\'] <:+: v)) ?_ ?_ ?_ ?_ ?_ v hq
  · intro u hu
    have : u = [] := (Option.some.inj hu).symm
    rw [this]
    exact ⟨Nat.le_refl _, rfl, by simp⟩
  · intro u hu
    rw [unesc_end] at hu
    cases hu
  · intro s hs ih u hu
    rw [unesc_pair] at hu
    cases he : unesc s with
    | none => rw [he] at hu; cases hu
    | some u' =>
      rw [he] at hu
      have : u = '\\' :: u' := (Option.some.inj hu).symm
      obtain ⟨i1, i2, -⟩ := ih u' he
      rw [this]
      refine ⟨by simp only [List.length_cons]; omega, ?_, ?_⟩
      · rw [highs_cons, highs_cons, highs_cons, i2]
        rfl
      · constructor
        · intro e
          have := congrArg List.length e
          simp only [List.length_cons] at this
          omega
        · intro hn
          exact absurd (List.IsPrefix.isInfix ⟨s, rfl⟩) hn
  · intro d s h1 h2 hs ih u hu
    rw [unesc_other h1 h2] at hu
    cases he : unesc s with
    | none => rw [he] at hu; cases hu
    | some u' =>
      rw [he] at hu
      have : u = '\\' :: d :: u' := (Option.some.inj hu).symm
      obtain ⟨i1, i2, i3⟩ := ih u' he
      rw [this]
      refine ⟨by simp only [List.length_cons]; omega, ?_, ?_⟩
      · rw [highs_cons, highs_cons, highs_cons, highs_cons, i2]
      · rw [List.infix_cons_iff, List.infix_cons_iff, List.cons.injEq, List.cons.injEq, i3]
        simp only [true_and, List.cons_prefix_cons, List.nil_prefix, and_true]
        have : ¬ '\\' = d := Ne.symm h1
        tauto
  · intro c s h1 h2 hs ih u hu
    rw [unesc_plain h1] at hu
    cases he : unesc s with
    | none => rw [he] at hu; cases hu
    | some u' =>
      rw [he] at hu
      have : u = c :: u' := (Option.some.inj hu).symm
      obtain ⟨i1, i2, i3⟩ := ih u' he
      rw [this]
      refine ⟨by simp only [List.length_cons]; omega, ?_, ?_⟩
      · rw [highs_cons, highs_cons, i2]
      · rw [List.infix_cons_iff, List.cons.injEq, i3]
        simp only [true_and, List.cons_prefix_cons, List.nil_prefix, and_true]
        have : ¬ '\\' = c := Ne.symm h1
        tauto

/-! ## Text that comes back -/

/-- Text between double quotes that ends at the closing one. -/
structure QuotedText (v : Str) : Prop where
  noQuote : '"' ∉ v
  even : EvenEnd v

/-- What the reader makes of it. -/
def heldText (v : Str) : Str := rstripChar ',' ((unesc (moji v)).getD [])

theorem moji_rev_takeWhile (v : Str) :
    ((moji v).reverse.takeWhile (· == '\\')).length = (v.reverse.takeWhile (· == '\\')).length := by
  induction v using List.reverseRecOn with
  | nil => rfl
  | append_singleton v c ih =>
    rw [moji_append, List.reverse_append, List.reverse_append, List.reverse_singleton, List.singleton_append]
    rcases moji_char c with ⟨h, e⟩ | ⟨h, h1, h2⟩
    · rw [e, List.reverse_singleton, List.singleton_append, List.takeWhile_cons, List.takeWhile_cons]
      split_ifs
      · rw [List.length_cons, List.length_cons, ih]
      · rfl
    · have hc : (c == '\\') = false := by
        rw [beq_eq_false_iff_ne]
        rintro rfl
        exact absurd h (by decide)
      rw [List.takeWhile_cons_of_neg (by rw [hc]; simp)]
      cases hm : (moji [c]).reverse with
      | nil =>
        have := congrArg List.length hm
        rw [List.length_reverse, List.length_nil] at this
        omega
      | cons d m =>
        have hd : 128 ≤ d.toNat := h1 d (List.mem_reverse.mp (by rw [hm]; exact List.mem_cons_self))
        have hdne : (d == '\\') = false := by
          rw [beq_eq_false_iff_ne]
          rintro rfl
          exact absurd hd (by decide)
        rw [List.cons_append, List.takeWhile_cons_of_neg (by rw [hdne]; simp)]

theorem QuotedText.held {v : Str} (h : QuotedText v) :
    '"' ∉ moji v ∧ ∃ u, unesc (moji v) = some u ∧ heldText v = rstripChar ',' u := by
  have h1 : '"' ∉ moji v := fun hm => h.noQuote ((mem_moji (by decide) v).mp hm)
  have h3 : EvenEnd (moji v) := by
    unfold EvenEnd
    rw [moji_rev_takeWhile]
    exact h.even
  refine ⟨h1, ?_⟩
  cases he : unesc (moji v) with
  | none => exact absurd he ((evenEnd_iff _ h1).mp h3)
  | some u =>
    refine ⟨u, rfl, ?_⟩
    unfold heldText
    rw [he]
    rfl

theorem rstripChar_decomp (c : Char) (s : Str) : ∃ n, s = rstripChar c s ++ List.replicate n c := by
  unfold rstripChar
  refine ⟨(s.reverse.takeWhile (· == c)).length, ?_⟩
  have h := List.takeWhile_append_dropWhile (p := (· == c)) (l := s.reverse)
  have h2 : s.reverse.takeWhile (· == c) = List.replicate (s.reverse.takeWhile (· == c)).length c := by
    rw [List.eq_replicate_iff]
    refine ⟨rfl, fun b hb => ?_⟩
    have := List.all_eq_true.mp (List.all_takeWhile (p := (· == c)) (l := s.reverse)) b hb
    simpa using this
  conv_lhs => rw [← List.reverse_reverse s, ← h, List.reverse_append, h2, List.reverse_replicate]

theorem rstripChar_last (c : Char) (s : Str) : (rstripChar c s).getLast? ≠ some c := by
  unfold rstripChar
  rw [List.getLast?_reverse]
  intro h
  cases hd : s.reverse.dropWhile (· == c) with
  | nil => rw [hd] at h; cases h
  | cons d m =>
    rw [hd] at h
    have : d = c := Option.some.inj h
    have h2 := List.head_dropWhile_not (· == c) (l := s.reverse) (by rw [hd]; simp)
    simp only [hd, List.head_cons] at h2
    rw [this] at h2
    simp at h2

/-- Exactly which text comes back as it was given. -/
theorem heldText_iff {v : Str} (h : QuotedText v) :
    heldText v = v ↔ Ascii v ∧ ¬ ['\\', '\\'] <:+: v ∧ v.getLast? ≠ some ',' := by
  obtain ⟨h1, u, hu, e⟩ := h.held
  obtain ⟨u1, u2, u3⟩ := unesc_spec _ h1 u hu
  rw [e]
  constructor
  · intro he
    obtain ⟨n, hn⟩ := rstripChar_decomp ',' u
    have hh : highs u = highs v := by
      conv_lhs => rw [hn, he, highs_append]
      have : highs (List.replicate n ',') = 0 := by
        unfold highs
        rw [List.countP_eq_zero]
        intro c hc
        rw [List.eq_of_mem_replicate hc]
        decide
      rw [this, Nat.add_zero]
    have ha : Ascii v := by
      apply highs_zero
      have := highs_moji v
      omega
    have hlast : v.getLast? ≠ some ',' := by rw [← he]; exact rstripChar_last _ _
    rw [moji_ascii ha] at u1 u3
    refine ⟨ha, ?_, hlast⟩
    rw [← u3]
    have hlen := congrArg List.length hn
    rw [he, List.length_append, List.length_replicate] at hlen
    have h0 : n = 0 := by omega
    rw [h0, he] at hn
    simpa using hn
  · rintro ⟨ha, hp, hl⟩
    rw [moji_ascii ha] at u3
    rw [u3.mpr hp]
    exact rstripChar_self _ _ fun x hx hc => hl (by rw [hx, hc])

/-! ## Entries -/

/-- Entries as before, or quoted text that ends at its closing quote. -/
structure Attr.Wide (a : Attr) : Prop where
  key : a.key ∈ knownKeys
  val : if a.quoted then QuotedText a.val else a.Ok

/-- The entry as it stands in the file that is read. -/
def Attr.moji (a : Attr) : Attr := { a with val := Sdds.moji a.val }

/-- The entry as the reader takes it. -/
def Attr.held (a : Attr) : Attr := { a with val := if a.quoted then heldText a.val else a.val }

/-- The entry before final commas are taken away. -/
def Attr.raw (a : Attr) : Attr := { a with val := if a.quoted then (unesc (Sdds.moji a.val)).getD [] else a.val }

theorem moji_text {a : Attr} (h : a.key ∈ knownKeys) : Sdds.moji a.text = a.moji.text := by
  obtain ⟨-, -, hk⟩ := knownKeys_plain a.key h
  have hkey : Ascii a.key := fun c hc => (hk c hc).2.2.2.2.2
  have one : ∀ c : Char, c.toNat < 128 → ∀ s, Sdds.moji (c :: s) = c :: Sdds.moji s := by
    intro c hc s
    rw [moji_cons, moji_ascii (by intro d hd; rw [List.mem_singleton.mp hd]; exact hc)]
    rfl
  unfold Attr.text Attr.moji
  cases hq : a.quoted with
  | false =>
    simp only [Bool.false_eq_true, if_false]
    rw [moji_append, moji_append, moji_ascii hkey, one '=' (by decide), one ',' (by decide), one ' ' (by decide), moji_nil]
  | true =>
    simp only [if_true]
    rw [moji_append, moji_append, moji_ascii hkey, one '=' (by decide), one '"' (by decide), moji_append,
      one ',' (by decide), one ' ' (by decide), one '"' (by decide), moji_nil]

theorem lex_wide {a : Attr} (h : a.Wide) (rest : Str) :
    lex .space [] false (a.moji.text ++ rest) = (lex .space [] false rest).map (a.raw.tok :: ·) := by
  have hv := h.val
  cases hq : a.quoted with
  | false =>
    rw [hq] at hv
    have hv : a.Ok := hv
    have e1 : a.moji = a := by
      unfold Attr.moji
      rw [moji_ascii hv.ascii]
    have e2 : a.raw = a := by
      unfold Attr.raw
      rw [hq]
      simp only [Bool.false_eq_true, if_false]
      rw [← hq]
    rw [e1, e2]
    exact lex_attr hv rest
  | true =>
    rw [hq] at hv
    have hv : QuotedText a.val := hv
    obtain ⟨h1, u, hu, -⟩ := hv.held
    obtain ⟨hne, heq, hk⟩ := knownKeys_plain a.key h.key
    have hkw : ∀ c ∈ a.key ++ ['='], PlainChar c := by
      intro c hc
      rcases List.mem_append.mp hc with hc | hc
      · obtain ⟨h1, h2, h3, _⟩ := hk c hc
        exact ⟨h1, h2, h3⟩
      · rw [List.mem_singleton.mp hc]; exact ⟨by decide, by decide, by decide⟩
    unfold Attr.text Attr.tok Attr.raw Attr.moji
    simp only [hq, if_true, hu, Option.getD_some]
    cases hkey : a.key with
    | nil => exact absurd hkey hne
    | cons d w =>
      have e : d :: w ++ '=' :: ('"' :: (Sdds.moji a.val ++ ['"'])) ++ [',', ' '] ++ rest =
          d :: ((w ++ ['=']) ++ '"' :: (Sdds.moji a.val ++ '"' :: (',' :: ' ' :: rest))) := by simp
      rw [hkey] at hkw
      rw [e, lex_start d w (hkw d (by simp)), lex_word _ fun c hc => hkw c (by
        simp only [List.cons_append, List.mem_cons]; exact Or.inr hc)]
      rw [lex, if_neg (by decide), if_pos rfl, lex_unesc _ h1 u hu]
      rw [lex, if_neg (by decide), if_neg (by decide), if_neg (by decide), lex_end _ _ (by simp) ' ' (by decide)]
      congr 1
      simp

theorem lex_wides (as : List Attr) (h : ∀ a ∈ as, a.Wide) (rest : Str) :
    lex .space [] false ((as.map Attr.moji).flatMap Attr.text ++ rest) =
      (lex .space [] false rest).map ((as.map Attr.raw).map Attr.tok ++ ·) := by
  induction as with
  | nil => simp [Except.map]; cases lex .space [] false rest <;> rfl
  | cons a as ih =>
    rw [List.map_cons, List.flatMap_cons, List.append_assoc, lex_wide (h a (by simp)), ih fun a ha => h a (by simp [ha])]
    cases lex .space [] false rest <;> rfl

theorem shlex_wide (word : Str) (hne : word ≠ []) (hw : ∀ c ∈ word, PlainChar c) (as : List Attr)
    (h : ∀ a ∈ as, a.Wide) (pad : Nat) :
    shlexSplit (nlText word (as.map Attr.moji) pad) =
      .ok (word :: ((as.map Attr.raw).map Attr.tok ++ ["&end".toList])) := by
  unfold shlexSplit nlText
  rw [lex_plain word hne hw ' ' (by decide), lex_wides as h, lex_blank,
    lex_plain "&end".toList (by decide) (by decide) '\n' (by decide)]
  rfl

theorem rstripChar_snoc (c : Char) (s : Str) : rstripChar c (s ++ [c]) = rstripChar c s := by
  unfold rstripChar
  rw [List.reverse_append, List.reverse_singleton, List.singleton_append, List.dropWhile_cons_of_pos (by simp)]

theorem getField_wide {n word : Str} (hn : n ∈ knownKeys) (hw : n.isPrefixOf word = false) (as : List Attr)
    (h : ∀ a ∈ as, a.Wide) :
    getField n (word :: ((as.map Attr.raw).map Attr.tok ++ ["&end".toList])) = attrVal (as.map Attr.held) n := by
  unfold getField attrVal
  have e : (word :: ((as.map Attr.raw).map Attr.tok ++ ["&end".toList])).filter (fun e => n.isPrefixOf e) =
      ((as.filter fun a => a.key = n).map Attr.raw).map Attr.tok := by
    rw [List.filter_cons_of_neg (by simp [hw]), List.filter_append,
      List.filter_cons_of_neg (by rw [(amp_not_prefix n hn).1]; decide), List.filter_nil, List.append_nil,
      List.map_map, List.filter_map, List.map_map]
    congr 1
    apply List.filter_congr
    intro a ha
    exact isPrefix_tok hn (a := a.raw) (h a ha).key
  have e2 : (as.map Attr.held).filter (fun a => a.key = n) = (as.filter fun a => a.key = n).map Attr.held := by
    rw [List.filter_map]
    rfl
  rw [e, e2, List.getLast?_map, List.getLast?_map, List.getLast?_map, Option.map_map, Option.map_map, Option.map_map]
  cases hl : (as.filter fun a => a.key = n).getLast? with
  | none => rfl
  | some a =>
    have ha : a ∈ as := List.mem_of_mem_filter (List.mem_of_getLast? hl)
    simp only [Option.map_some, Function.comp]
    rw [afterEq_tok (a := a.raw) (h a ha).key, rstripChar_snoc]
    congr 1
    have hv := (h a ha).val
    unfold Attr.raw Attr.held heldText
    cases hq : a.quoted with
    | false =>
      rw [hq] at hv
      have hv : a.Ok := hv
      simp only [Bool.false_eq_true, if_false]
      exact rstripChar_self _ _ hv.noComma
    | true => simp only [if_true]

theorem mkParam_wide (ft : FloatText) (as : List Attr) (h : ∀ a ∈ as, a.Wide) (pad : Nat) :
    mkParam ft (nlText "&parameter".toList (as.map Attr.moji) pad) = paramOf ft (as.map Attr.held) := by
  have hg : ∀ n ∈ knownKeys, getField n ("&parameter".toList :: ((as.map Attr.raw).map Attr.tok ++ ["&end".toList])) =
      attrVal (as.map Attr.held) n := fun n hn => getField_wide hn (amp_not_prefix n hn).2.1 as h
  unfold mkParam
  rw [shlex_wide _ (by decide) (by decide) as h pad]
  simp only [bind, Except.bind]
  rw [hg _ (by decide), hg _ (by decide), hg _ (by decide), hg _ (by decide), hg _ (by decide),
    hg _ (by decide), hg _ (by decide)]
  unfold paramOf
  simp only
  cases attrVal (as.map Attr.held) "fixed_value".toList with
  | none => rfl
  | some v =>
    simp only
    cases parseFixed ft ((attrVal (as.map Attr.held) "type".toList).getD []) v <;> rfl

theorem mkColumn_wide (as : List Attr) (h : ∀ a ∈ as, a.Wide) (pad : Nat) :
    mkColumn (nlText "&column".toList (as.map Attr.moji) pad) = colOf (as.map Attr.held) := by
  have hg : ∀ n ∈ knownKeys, getField n ("&column".toList :: ((as.map Attr.raw).map Attr.tok ++ ["&end".toList])) =
      attrVal (as.map Attr.held) n := fun n hn => getField_wide hn (amp_not_prefix n hn).2.2.1 as h
  unfold mkColumn
  rw [shlex_wide _ (by decide) (by decide) as h pad]
  simp only [bind, Except.bind]
  rw [hg _ (by decide), hg _ (by decide), hg _ (by decide), hg _ (by decide), hg _ (by decide),
    hg _ (by decide), hg _ (by decide)]
  rfl

/-! ## Lines -/

theorem utf8_noLine {s : Str} (hn : '\n' ∉ s) : ∀ b ∈ utf8 s, b ≠ 10 := by
  rintro b hb rfl
  have : '\n' ∈ moji s := by
    unfold moji latin1
    exact List.mem_map.mpr ⟨10, hb, rfl⟩
  exact hn ((mem_moji (by decide) s).mp this)

theorem readLine_moji (s : Str) (hn : '\n' ∉ s) {c : Char} {t : Str} (hc : moji s = c :: t) (hb : c ≠ '!')
    (fuel : Nat) (rest : Bytes) :
    readLine (fuel + 1) (utf8 (s ++ ['\n']) ++ rest) = some (moji s ++ ['\n'], rest) := by
  have e : utf8 (s ++ ['\n']) ++ rest = utf8 s ++ 10 :: rest := by
    rw [utf8_append, List.append_assoc]; rfl
  have e2 : latin1 (utf8 s ++ [10]) = moji s ++ ['\n'] := by
    unfold moji latin1
    rw [List.map_append]
    rfl
  rw [readLine, e, readline_append _ _ (utf8_noLine hn)]
  simp only [e2, hc]
  rw [if_neg]
  simp only [List.cons_append, List.cons.injEq, List.append_eq_nil_iff, reduceCtorEq, and_false,
      List.head?_cons, Option.some.injEq, false_or, not_false_eq_true]
  exact hb

/-- Entries of one line, with any other text. -/
structure Attr.Flat (a : Attr) : Prop where
  key : a.key ∈ knownKeys
  newline : '\n' ∉ a.val

theorem attr_text_newline {a : Attr} (h : a.Flat) : '\n' ∉ a.text := by
  obtain ⟨_, _, hk⟩ := knownKeys_plain a.key h.key
  intro hc
  have : '\n' ∈ a.key ∨ '\n' ∈ a.val := by
    unfold Attr.text at hc
    cases hq : a.quoted <;> simp only [hq, Bool.false_eq_true, if_false, if_true, List.mem_append, List.mem_cons,
      List.not_mem_nil, or_false, Char.reduceEq, false_or] at hc <;> tauto
  rcases this with h1 | h1
  · exact (hk _ h1).2.2.2.1 rfl
  · exact h.newline h1

theorem moji_attrs (as : List Attr) (h : ∀ a ∈ as, a.key ∈ knownKeys) :
    moji (as.flatMap Attr.text) = (as.map Attr.moji).flatMap Attr.text := by
  induction as with
  | nil => rfl
  | cons a as ih =>
    rw [List.flatMap_cons, moji_append, moji_text (h a (by simp)), ih fun b hb => h b (by simp [hb]), List.map_cons,
      List.flatMap_cons]

theorem moji_nlBody {word : Str} (hw : Ascii word) (as : List Attr) (h : ∀ a ∈ as, a.key ∈ knownKeys) (pad : Nat) :
    moji (nlBody word as pad) = nlBody word (as.map Attr.moji) pad := by
  have hrep : Ascii (List.replicate pad ' ') := by
    intro c hc
    rw [List.eq_of_mem_replicate hc]
    decide
  unfold nlBody
  rw [moji_append, moji_ascii hw, moji_cons, moji_ascii (s := [' ']) (by unfold Ascii; decide), moji_append,
    moji_attrs as h, moji_append, moji_ascii hrep, moji_ascii (s := "&end".toList) (by unfold Ascii; decide)]
  rfl

theorem readLine_flat {c : Char} {w : Str} (hc : c ≠ '!')
    (hw : ∀ d ∈ c :: w, d.toNat < 128 ∧ d ≠ '\n') {as : List Attr}
    (h : ∀ a ∈ as, a.Flat) (pad fuel : Nat) (rest : Bytes) :
    readLine (fuel + 1) (utf8 (nlText (c :: w) as pad) ++ rest) =
      some (nlText (c :: w) (as.map Attr.moji) pad, rest) := by
  have hm := moji_nlBody (word := c :: w) (fun d hd => (hw d hd).1) as (fun a ha => (h a ha).key) pad
  rw [nlText_eq, nlText_eq, ← hm]
  refine readLine_moji _ ?_ (c := c) (t := w ++ ' ' :: ((as.map Attr.moji).flatMap Attr.text ++
    (List.replicate pad ' ' ++ "&end".toList))) ?_ hc fuel rest
  · intro hn
    unfold nlBody at hn
    rcases List.mem_append.mp hn with hn | hn
    · exact (hw _ hn).2 rfl
    rw [List.mem_cons, List.mem_append, List.mem_append, List.mem_flatMap, List.mem_replicate] at hn
    rcases hn with hn | ⟨a, ha, hn⟩ | ⟨_, hn⟩ | hn
    · exact absurd hn (by decide)
    · exact attr_text_newline (h a ha) hn
    · exact absurd hn (by decide)
    · exact absurd hn (by decide)
  · rw [hm]
    rfl

/-! ## The whole header -/

/-- A namelist as it stands in the file that is read. -/
def NDoc.moji (n : NDoc) : NDoc := { n with attrs := n.attrs.map Attr.moji }

/-- Every definition of the header is one line. -/
structure Doc.Flat (d : Doc) : Prop where
  comments : ∀ c ∈ d.comments, Ascii c ∧ '\n' ∉ c
  namelists : ∀ n ∈ d.namelists, ∀ a ∈ n.attrs, a.Flat
  data : ∀ a ∈ d.data, a.Ok ∧ '&' ∉ a.val

theorem parse_wide (ft : FloatText) (ns : List NDoc) (hns : ∀ n ∈ ns, ∀ a ∈ n.attrs, a.Wide) (as : List Attr)
    (has : ∀ a ∈ as, a.Ok) : ∀ (p : Parsed) (ps : List ParamField) (cs : List ColField),
    ((ns.filter fun n => n.kind = .param).map fun n => n.attrs.map Attr.held).mapM (paramOf ft) = .ok ps →
    ((ns.filter fun n => n.kind = .col).map fun n => n.attrs.map Attr.held).mapM colOf = .ok cs →
    parseNamelists ft ((ns.map NDoc.moji).map NDoc.text ++ [nlText "&data".toList as 0]) p =
      .ok ⟨p.params ++ ps, p.cols ++ cs, p.data ++ [⟨(attrVal as "mode".toList).getD "binary".toList,
        textTrue (attrVal as "no_row_counts".toList)⟩]⟩ := by
  induction ns with
  | nil =>
    intro p ps cs hps hcs
    exact parse_docs ft [] (by simp) as has p ps cs hps hcs
  | cons nd ns ih =>
    intro p ps cs hps hcs
    obtain ⟨k, at', pad⟩ := nd
    have ha := hns ⟨k, at', pad⟩ (by simp)
    cases k with
    | param =>
      rw [List.filter_cons_of_pos (by simp), List.map_cons, List.mapM_cons] at hps
      rw [List.filter_cons_of_neg (by simp)] at hcs
      cases h1 : paramOf ft (at'.map Attr.held) with
      | error e => simp only at hps; rw [h1] at hps; cases hps
      | ok x =>
        simp only at hps; rw [h1] at hps
        cases h2 : ((ns.filter fun n => n.kind = .param).map fun n => n.attrs.map Attr.held).mapM (paramOf ft) with
        | error e => rw [h2] at hps; cases hps
        | ok xs =>
          rw [h2] at hps
          cases hps
          have e : NDoc.text (NDoc.moji ⟨.param, at', pad⟩) = nlText "&parameter".toList (at'.map Attr.moji) pad := rfl
          rw [List.map_cons, List.map_cons, List.cons_append, parseNamelists, e,
            firstWord_nl "&parameter".toList (by decide) (by decide)]
          simp only
          rw [if_pos trivial, mkParam_wide ft at' ha, h1]
          simp only [bind, Except.bind]
          rw [ih (fun n hn => hns n (by simp [hn])) _ xs cs h2 hcs]
          simp
    | col =>
      rw [List.filter_cons_of_neg (by simp)] at hps
      rw [List.filter_cons_of_pos (by simp), List.map_cons, List.mapM_cons] at hcs
      cases h1 : colOf (at'.map Attr.held) with
      | error e => simp only at hcs; rw [h1] at hcs; cases hcs
      | ok x =>
        simp only at hcs; rw [h1] at hcs
        cases h2 : ((ns.filter fun n => n.kind = .col).map fun n => n.attrs.map Attr.held).mapM colOf with
        | error e => rw [h2] at hcs; cases hcs
        | ok xs =>
          rw [h2] at hcs
          cases hcs
          have e : NDoc.text (NDoc.moji ⟨.col, at', pad⟩) = nlText "&column".toList (at'.map Attr.moji) pad := rfl
          rw [List.map_cons, List.map_cons, List.cons_append, parseNamelists, e,
            firstWord_nl "&column".toList (by decide) (by decide)]
          simp only
          rw [if_neg (by decide), if_pos trivial, mkColumn_wide at' ha, h1]
          simp only [bind, Except.bind]
          rw [ih (fun n hn => hns n (by simp [hn])) _ ps xs hps h2]
          simp

end Verif.Sdds
