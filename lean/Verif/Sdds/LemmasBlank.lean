import Verif.Sdds.LemmasQuote

/-!
# Lemmas on empty lines and comment lines inside of header texts
-/

namespace Verif.Sdds

/-- No line of the text but the first is empty or starts like a comment (the last one may be empty). -/
def NoBlank (v : Str) : Prop := ¬ ['\n', '\n'] <:+: v ∧ ¬ ['\n', '!'] <:+: v

theorem NoBlank.infix {u v : Str} (h : NoBlank v) (hi : u <:+: v) : NoBlank u :=
  ⟨fun h1 => h.1 (h1.trans hi), fun h1 => h.2 (h1.trans hi)⟩

theorem noBlank_nil : NoBlank [] := by
  constructor <;> decide

theorem infix_snoc {a b : Char} {s : Str} {c : Char} (h : [a, b] <:+: s ++ [c]) :
    [a, b] <:+: s ∨ (s.getLast? = some a ∧ c = b) := by
  obtain ⟨x, y, e⟩ := h
  rcases List.eq_nil_or_concat y with rfl | ⟨y', d, rfl⟩
  · rw [List.append_nil] at e
    have e' : (x ++ [a]) ++ [b] = s ++ [c] := by rw [← e]; simp
    obtain ⟨h1, h2⟩ := List.append_inj' e' rfl
    refine Or.inr ⟨?_, ?_⟩
    · rw [← h1]; simp
    · simpa using h2.symm
  · have e' : (x ++ [a, b] ++ y') ++ [d] = s ++ [c] := by rw [← e]; simp
    obtain ⟨h1, -⟩ := List.append_inj' e' rfl
    exact Or.inl ⟨x, y', h1⟩

theorem NoBlank.snoc {tok : Str} {c : Char} (h : NoBlank tok) (hc : tok.getLast? = some '\n' → c ≠ '\n' ∧ c ≠ '!') :
    NoBlank (tok ++ [c]) := by
  constructor
  · intro hi
    rcases infix_snoc hi with h1 | ⟨h1, h2⟩
    · exact h.1 h1
    · exact (hc h1).1 h2
  · intro hi
    rcases infix_snoc hi with h1 | ⟨h1, h2⟩
    · exact h.2 h1
    · exact (hc h1).2 h2

/-! ### Splitting -/

/-- A text that does not start with an empty line or a comment, nor with a double quote unless a comma follows. -/
def Start (s : Str) : Prop := s.head? ≠ some '\n' ∧ s.head? ≠ some '!' ∧ (s.head? = some '"' → s.tail.head? = some ',')

/-- Every line but the first is as in `Start`. -/
def Sep (s : Str) : Prop := ∀ a b, s = a ++ '\n' :: b → Start b

theorem Sep.tail {c : Char} {s : Str} (h : Sep (c :: s)) : Sep s := fun a b e => h (c :: a) b (by rw [e]; rfl)

/-- What is known about the text behind a token that ends with a line end. -/
def After (st : LexState) (tok s : Str) : Prop :=
  tok.getLast? = some '\n' → if st = .quote then Start s else s.head? = some ','

theorem lex_noBlank : ∀ (s : Str), '\\' ∉ s → Sep s → ∀ (st : LexState) (tok : Str) (q : Bool) (ts : List Str),
    st ≠ .escWord → st ≠ .escQuote → NoBlank tok → After st tok s → lex st tok q s = .ok ts → ∀ t ∈ ts, NoBlank t
  | [], _, _, st, tok, q, ts, h1, h2, ht, ha, h => by
    cases st with
    | space =>
      rw [lex] at h
      cases h
      simp
    | word =>
      rw [lex] at h
      by_cases hc : tok = [] ∧ q = false
      · rw [if_pos hc] at h; cases h; simp
      · rw [if_neg hc] at h
        simp only [Except.ok.injEq] at h
        subst h
        intro t hm
        rw [List.mem_singleton.1 hm]
        exact ht
    | quote => rw [lex] at h; cases h
    | escWord => exact absurd rfl h1
    | escQuote => exact absurd rfl h2
  | c :: s, hb, hsep, st, tok, q, ts, h1, h2, ht, ha, h => by
    simp only [List.mem_cons, not_or] at hb
    have hc : c ≠ '\\' := fun e => hb.1 e.symm
    have ih := lex_noBlank s hb.2 hsep.tail
    have nil : ∀ st, After st [] s := by
      intro st hl
      cases hl
    have notNl : ∀ {st}, c ≠ '\n' → After st (tok ++ [c]) s := by
      intro st hn hl
      rw [List.getLast?_append] at hl
      simp only [List.getLast?_singleton, Option.some_or, Option.some.injEq] at hl
      exact absurd hl hn
    cases st with
    | space =>
      rw [lex] at h
      by_cases h3 : lexSpace c = true
      · rw [if_pos h3] at h
        exact ih _ _ _ _ (by simp) (by simp) noBlank_nil (nil _) h
      rw [if_neg h3, if_neg hc] at h
      have hn : c ≠ '\n' := by
        rintro rfl
        exact h3 (by decide)
      by_cases h4 : c = '"'
      · rw [if_pos h4] at h
        exact ih _ _ _ _ (by simp) (by simp) noBlank_nil (nil _) h
      · rw [if_neg h4] at h
        refine ih _ _ _ _ (by simp) (by simp) ?_ ?_ h
        · exact noBlank_nil.snoc (tok := []) (by simp)
        · intro hl
          simp only [List.getLast?_singleton, Option.some.injEq] at hl
          exact absurd hl hn
    | word =>
      have ha' : tok.getLast? = some '\n' → c = ',' := by
        intro hl
        have := ha hl
        simpa using this
      rw [lex] at h
      by_cases h3 : lexSpace c = true
      · rw [if_pos h3] at h
        by_cases h5 : tok = [] ∧ q = false
        · rw [if_pos h5] at h
          exact ih _ _ _ _ (by simp) (by simp) noBlank_nil (nil _) h
        · rw [if_neg h5] at h
          cases hl : lex .space [] false s with
          | error e => rw [hl] at h; cases h
          | ok r =>
            rw [hl] at h
            simp only [Except.map, Except.ok.injEq] at h
            subst h
            intro t hm
            rcases List.mem_cons.1 hm with rfl | hm
            · exact ht
            · exact ih _ _ _ _ (by simp) (by simp) noBlank_nil (nil _) hl t hm
      rw [if_neg h3] at h
      have hn : c ≠ '\n' := by
        rintro rfl
        exact h3 (by decide)
      by_cases h4 : c = '"'
      · rw [if_pos h4] at h
        refine ih _ _ _ _ (by simp) (by simp) ht ?_ h
        intro hl
        rw [h4] at ha'
        exact absurd (ha' hl) (by decide)
      · rw [if_neg h4, if_neg hc] at h
        refine ih _ _ _ _ (by simp) (by simp) (ht.snoc ?_) (notNl hn) h
        intro hl
        rw [ha' hl]
        decide
    | quote =>
      have ha' : tok.getLast? = some '\n' → Start (c :: s) := by
        intro hl
        have := ha hl
        simpa using this
      rw [lex] at h
      by_cases h4 : c = '"'
      · rw [if_pos h4] at h
        refine ih _ _ _ _ (by simp) (by simp) ht ?_ h
        intro hl
        rw [if_neg (by decide)]
        exact (ha' hl).2.2 (by rw [h4]; rfl)
      · rw [if_neg h4, if_neg hc] at h
        refine ih _ _ _ _ (by simp) (by simp) (ht.snoc ?_) ?_ h
        · intro hl
          obtain ⟨a1, a2, -⟩ := ha' hl
          exact ⟨fun e => a1 (by rw [e]; rfl), fun e => a2 (by rw [e]; rfl)⟩
        · by_cases hn : c = '\n'
          · intro _
            rw [if_pos rfl]
            exact hsep [] s (by rw [hn]; rfl)
          · exact notNl hn
    | escWord => exact absurd rfl h1
    | escQuote => exact absurd rfl h2

theorem shlex_noBlank {s : Str} (h : '\\' ∉ s) (hs : Sep s) {ts : List Str} (ht : shlexSplit s = .ok ts) : ∀ t ∈ ts, NoBlank t :=
  lex_noBlank s h hs .space [] false ts (by simp) (by simp) noBlank_nil (by intro hl; cases hl) ht

/-! ### Values -/

theorem rstripChar_infix (c : Char) (s : Str) : rstripChar c s <:+: s := by
  obtain ⟨n, h⟩ := rstripChar_decomp c s
  exact ⟨[], List.replicate n c, by rw [List.nil_append]; exact h.symm⟩

theorem afterEq_infix (s : Str) : afterEq s <:+: s := by
  unfold afterEq
  split_ifs
  · exact ((List.drop_suffix _ _).trans (List.dropWhile_suffix _)).isInfix
  · exact List.infix_refl _

theorem getField_noBlank {n : Str} {ts : List Str} (h : ∀ t ∈ ts, NoBlank t) : NoBlank ((getField n ts).getD []) := by
  unfold getField
  cases hl : (ts.filter fun e => n.isPrefixOf e).getLast? with
  | none => exact noBlank_nil
  | some t =>
    have hm : t ∈ ts := List.mem_of_mem_filter (List.mem_of_getLast? hl)
    exact (h t hm).infix ((rstripChar_infix _ _).trans (afterEq_infix _))

/-- No text of a parameter has an empty line or a comment line. -/
def ParamField.NoBlank (p : ParamField) : Prop :=
  Sdds.NoBlank p.symbol ∧ Sdds.NoBlank p.units ∧ Sdds.NoBlank p.description ∧ Sdds.NoBlank p.formatString ∧
    ∀ s, p.fixed = some (.str s) → Sdds.NoBlank s

/-- No text of a column has an empty line or a comment line. -/
def ColField.NoBlank (c : ColField) : Prop :=
  Sdds.NoBlank c.symbol ∧ Sdds.NoBlank c.units ∧ Sdds.NoBlank c.description ∧ Sdds.NoBlank c.formatString

theorem mkParam_noBlank {ft : FloatText} {nl : Str} (h : '\\' ∉ nl) (hsep : Sep nl) {p : ParamField}
    (hp : mkParam ft nl = .ok p) : p.NoBlank := by
  unfold mkParam at hp
  cases hs : shlexSplit nl with
  | error e => rw [hs] at hp; cases hp
  | ok es =>
    rw [hs] at hp
    have k : ∀ n, NoBlank ((getField n es).getD []) := fun n => getField_noBlank (shlex_noBlank h hsep hs)
    simp only [bind, Except.bind] at hp
    cases hf : getField "fixed_value".toList es with
    | none =>
      rw [hf] at hp
      simp only at hp
      split_ifs at hp
      simp only [Except.ok.injEq] at hp
      subst hp
      exact ⟨k _, k _, k _, k _, by simp⟩
    | some v =>
      rw [hf] at hp
      simp only at hp
      have kv : NoBlank v := by
        have := k "fixed_value".toList
        rw [hf] at this
        exact this
      cases hx : parseFixed ft ((getField "type".toList es).getD []) v with
      | error e => rw [hx] at hp; cases hp
      | ok x =>
        rw [hx] at hp
        simp only [Except.ok.injEq] at hp
        subst hp
        refine ⟨k _, k _, k _, k _, ?_⟩
        intro s he
        simp only [Option.some.injEq] at he
        subst he
        unfold parseFixed at hx
        split_ifs at hx with h1 h2 h3
        · simp only [Except.ok.injEq, Fixed.str.injEq] at hx
          rw [← hx]; exact noBlank_nil
        · cases hi : parseInt v <;> rw [hi] at hx <;> cases hx
        · cases hi : ft.parse v <;> rw [hi] at hx <;> cases hx
        · simp only [Except.ok.injEq, Fixed.str.injEq] at hx
          rw [← hx]; exact kv

theorem mkColumn_noBlank {nl : Str} (h : '\\' ∉ nl) (hsep : Sep nl) {c : ColField} (hc : mkColumn nl = .ok c) :
    c.NoBlank := by
  unfold mkColumn at hc
  cases hs : shlexSplit nl with
  | error e => rw [hs] at hc; cases hc
  | ok es =>
    rw [hs] at hc
    have k : ∀ n, NoBlank ((getField n es).getD []) := fun n => getField_noBlank (shlex_noBlank h hsep hs)
    simp only [bind, Except.bind] at hc
    split_ifs at hc
    simp only [Except.ok.injEq] at hc
    subst hc
    exact ⟨k _, k _, k _, k _⟩

theorem parse_noBlank {ft : FloatText} : ∀ (nls : List Str), (∀ nl ∈ nls, '\\' ∉ nl ∧ Sep nl) → ∀ (p q : Parsed),
    (∀ x ∈ p.params, x.NoBlank) → (∀ x ∈ p.cols, x.NoBlank) → parseNamelists ft nls p = .ok q →
    (∀ x ∈ q.params, x.NoBlank) ∧ (∀ x ∈ q.cols, x.NoBlank)
  | [], _, p, q, hp, hc, h => by
    rw [parseNamelists] at h
    simp only [Except.ok.injEq] at h
    subst h
    exact ⟨hp, hc⟩
  | nl :: rest, hb, p, q, hp, hc, h => by
    have ih := parse_noBlank (ft := ft) rest fun x hx => hb x (by simp [hx])
    obtain ⟨h0, h0'⟩ := hb nl (by simp)
    rw [parseNamelists] at h
    by_cases w1 : firstWord nl = "&parameter".toList
    · rw [if_pos w1] at h
      cases hm : mkParam ft nl with
      | error e => rw [hm] at h; cases h
      | ok x =>
        rw [hm] at h
        refine ih { p with params := p.params ++ [x] } q ?_ hc h
        intro y hy
        rcases List.mem_append.1 hy with hy | hy
        · exact hp y hy
        · rw [List.mem_singleton.1 hy]; exact mkParam_noBlank h0 h0' hm
    rw [if_neg w1] at h
    by_cases w2 : firstWord nl = "&column".toList
    · rw [if_pos w2] at h
      cases hm : mkColumn nl with
      | error e => rw [hm] at h; cases h
      | ok x =>
        rw [hm] at h
        refine ih { p with cols := p.cols ++ [x] } q hp ?_ h
        intro y hy
        rcases List.mem_append.1 hy with hy | hy
        · exact hc y hy
        · rw [List.mem_singleton.1 hy]; exact mkColumn_noBlank h0 h0' hm
    rw [if_neg w2] at h
    by_cases w3 : firstWord nl = "&data".toList
    · rw [if_pos w3] at h
      cases hm : mkData nl with
      | error e => rw [hm] at h; cases h
      | ok x => rw [hm] at h; exact ih { p with data := p.data ++ [x] } q hp hc h
    rw [if_neg w3] at h
    by_cases w4 : firstWord nl = "&array".toList
    · rw [if_pos w4] at h
      cases hm : shlexSplit nl with
      | error e => rw [hm] at h; cases h
      | ok x => rw [hm] at h; cases h
    rw [if_neg w4] at h
    by_cases w5 : firstWord nl = "&associate".toList
    · rw [if_pos w5] at h
      cases hm : shlexSplit nl with
      | error e => rw [hm] at h; cases h
      | ok x => rw [hm] at h; exact ih _ q hp hc h
    · rw [if_neg w5] at h
      exact ih _ q hp hc h

/-! ### Lines -/

/-- In the bytes, a line that starts with a double quote goes on with a comma. -/
def QuoteComma (b : Bytes) : Prop := ∀ a s, b = a ++ 10 :: 34 :: s → s.head? = some 44

theorem QuoteComma.suffix {a b : Bytes} (h : QuoteComma (a ++ b)) : QuoteComma b := fun x s e => h (a ++ x) s (by rw [e]; simp)

theorem readline_ends : ∀ b : Bytes, (∃ x, 10 ∉ x ∧ (readline b).1 = x ++ [10]) ∨ (10 ∉ (readline b).1 ∧ (readline b).2 = [])
  | [] => Or.inr ⟨by simp [readline], rfl⟩
  | c :: b => by
    rw [readline]
    split_ifs with h
    · exact Or.inl ⟨[], by simp, by rw [h]; rfl⟩
    · rcases readline_ends b with ⟨x, hx, e⟩ | ⟨hx, e⟩
      · refine Or.inl ⟨c :: x, ?_, by simp only [e]; rfl⟩
        rw [List.mem_cons]
        exact fun hm => hm.elim (fun e => h e.symm) hx
      · refine Or.inr ⟨?_, e⟩
        rw [List.mem_cons]
        exact fun hm => hm.elim (fun e => h e.symm) hx

/-- A line that can follow another one. -/
structure LineOk (l : Str) : Prop where
  one : ∃ x, '\n' ∉ x ∧ (l = x ∨ l = x ++ ['\n'])
  start : ∀ t, Start (l ++ t)

theorem sep_lines (ls : List Str) (h : ∀ l ∈ ls, LineOk l) : Sep ls.flatten ∧ Start ls.flatten := by
  induction ls with
  | nil =>
    refine ⟨?_, by simp [Start]⟩
    intro a b e
    have := congrArg List.length e
    simp at this
  | cons l ls ih =>
    obtain ⟨i1, i2⟩ := ih fun x hx => h x (by simp [hx])
    obtain ⟨⟨x, hx, hl⟩, hs⟩ := h l (by simp)
    rw [List.flatten_cons]
    refine ⟨?_, hs _⟩
    intro a b e
    have skip : ∀ y : Str, '\n' ∉ y → ∀ {t a' : Str}, y ++ t = a' ++ '\n' :: b → ∃ a'', t = a'' ++ '\n' :: b := by
      intro y hy t a' e
      rcases List.append_eq_append_iff.mp e with ⟨z, -, h2⟩ | ⟨z, h1, h2⟩
      · exact ⟨z, h2⟩
      · cases z with
        | nil => exact ⟨[], by simpa using h2.symm⟩
        | cons d z =>
          rw [List.cons_append, List.cons.injEq] at h2
          exact absurd (by rw [h1, ← h2.1]; simp) hy
    rcases hl with rfl | rfl
    · obtain ⟨a', e'⟩ := skip l hx e
      exact i1 a' b e'
    · rw [List.append_assoc] at e
      obtain ⟨a', e'⟩ := skip x hx e
      cases a' with
      | nil =>
        simp only [List.singleton_append, List.nil_append, List.cons.injEq, true_and] at e'
        rw [← e']
        exact i2
      | cons d a' =>
        simp only [List.cons_append, List.cons.injEq] at e'
        exact i1 a' b e'.2

theorem latin1_mem_newline {b : Bytes} : '\n' ∈ latin1 b ↔ 10 ∈ b := by
  unfold latin1
  rw [List.mem_map]
  constructor
  · rintro ⟨x, hx, e⟩
    have := ofNat_byte x
    rw [e] at this
    have h10 : x = 10 := UInt8.toNat_inj.1 this.symm
    rwa [← h10]
  · exact fun h => ⟨10, h, rfl⟩

theorem byte_of_char {x : UInt8} {n : UInt8} {c : Char} (hc : c.toNat = n.toNat) (h : Char.ofNat x.toNat = c) : x = n := by
  have := ofNat_byte x
  rw [h, hc] at this
  exact UInt8.toNat_inj.1 this.symm

/-- Where lines start, and what they are. -/
theorem readLine_ok : ∀ (fuel : Nat) (b : Bytes) (line : Str) (rest : Bytes), readLine fuel b = some (line, rest) →
    ∃ pre, b = pre ++ rest ∧ (rest = [] ∨ ∃ x, pre = x ++ [10]) ∧
      ∀ y z, rest = y ++ z → QuoteComma (10 :: (pre ++ y)) → LineOk line
  | 0, b, line, rest, h => by cases h
  | fuel + 1, b, line, rest, h => by
    have hs := readline_split b
    have hends := readline_ends b
    rw [readLine] at h
    split_ifs at h with hc
    · obtain ⟨pre, h1, h2, h3⟩ := readLine_ok fuel _ _ _ h
      refine ⟨(readline b).1 ++ pre, by rw [List.append_assoc, ← h1]; exact hs, ?_, ?_⟩
      · rcases h2 with h2 | ⟨x, h2⟩
        · exact Or.inl h2
        · exact Or.inr ⟨(readline b).1 ++ x, by rw [h2]; simp⟩
      · intro y z hyz hq
        refine h3 y z hyz ?_
        rcases hends with ⟨x, -, hx⟩ | ⟨-, hx⟩
        · refine QuoteComma.suffix (a := 10 :: x) ?_
          rw [hx] at hq
          simpa using hq
        · rw [hx] at h1
          have hp : pre = [] := by
            have := congrArg List.length h1
            simp at this
            exact List.eq_nil_of_length_eq_zero (by omega)
          have hy : y = [] := by
            have := congrArg List.length h1
            rw [hyz] at this
            simp at this
            exact List.eq_nil_of_length_eq_zero (by omega)
          rw [hp, hy]
          intro a s e
          have := congrArg List.length e
          simp at this
          omega
    · simp only [Option.some.injEq, Prod.mk.injEq] at h
      obtain ⟨rfl, rfl⟩ := h
      simp only [not_or] at hc
      obtain ⟨c1, c2, c3⟩ := hc
      have hends' := hends
      generalize hg : (readline b).1 = l at *
      generalize hr : (readline b).2 = rest at *
      refine ⟨l, hs, ?_, ?_⟩
      · rcases hends with ⟨x, -, hx⟩ | ⟨-, hx⟩
        · exact Or.inr ⟨x, hx⟩
        · exact Or.inl hx
      intro y z hyz hq
      have hone : ∃ x, '\n' ∉ x ∧ (latin1 l = x ∨ latin1 l = x ++ ['\n']) := by
        rcases hends with ⟨x, hx, e⟩ | ⟨hx, -⟩
        · refine ⟨latin1 x, fun hm => hx (latin1_mem_newline.mp hm), Or.inr ?_⟩
          rw [e]
          unfold latin1
          rw [List.map_append]
          rfl
        · exact ⟨latin1 l, fun hm => hx (latin1_mem_newline.mp hm), Or.inl rfl⟩
      refine ⟨hone, fun t => ?_⟩
      cases hl : l with
      | nil => rw [hl] at c1; exact absurd rfl c1
      | cons d l' =>
        have e1 : latin1 (d :: l') ++ t = Char.ofNat d.toNat :: (latin1 l' ++ t) := rfl
        rw [e1]
        refine ⟨?_, ?_, ?_⟩
        · simp only [List.head?_cons, ne_eq, Option.some.injEq]
          intro he
          have hd : d = 10 := byte_of_char (by decide) he
          rcases hends with ⟨x, hx, e⟩ | ⟨hx, -⟩
          · cases x with
            | nil => rw [e] at c2; exact c2 rfl
            | cons d' x =>
              rw [hl, List.cons_append, List.cons.injEq] at e
              exact hx (by rw [← e.1, hd]; simp)
          · exact hx (by rw [hl, hd]; simp)
        · simp only [List.head?_cons, ne_eq, Option.some.injEq]
          intro he
          rw [hl] at c3
          exact c3 (by rw [← he]; rfl)
        · simp only [List.head?_cons, Option.some.injEq, List.tail_cons]
          intro he
          have hd : d = 34 := byte_of_char (by decide) he
          have hh := hq [] (l' ++ y) (by rw [hl, hd]; rfl)
          cases l' with
          | nil =>
            exfalso
            rcases hends with ⟨x, hx, e⟩ | ⟨-, hx⟩
            · rw [hl, hd] at e
              cases x with
              | nil => simp at e
              | cons d' x =>
                have := congrArg List.length e
                simp at this
            · have hy : y = [] := by
                rw [hx] at hyz
                exact (List.append_eq_nil_iff.mp hyz.symm).1
              rw [hy] at hh
              cases hh
          | cons k l'' =>
            simp only [List.cons_append, List.head?_cons, Option.some.injEq] at hh
            rw [hh]
            rfl

theorem quoteComma_nil : QuoteComma [10] := by
  intro a s e
  have := congrArg List.length e
  simp at this
  omega

/-- Passing the condition on to what follows a line. -/
theorem QuoteComma.rest {p1 p2 b' b'' y z : Bytes} (h1 : b' = [] ∨ ∃ x, p1 = x ++ [10]) (e : b' = p2 ++ b'') (hy : b'' = y ++ z)
    (h : QuoteComma (10 :: (p1 ++ p2 ++ y))) : QuoteComma (10 :: (p2 ++ y)) := by
  rcases h1 with h1 | ⟨x, h1⟩
  · rw [h1] at e
    have := congrArg List.length e
    rw [hy] at this
    simp only [List.length_nil, List.length_append] at this
    have hp : p2 = [] := List.eq_nil_of_length_eq_zero (by omega)
    have hy' : y = [] := List.eq_nil_of_length_eq_zero (by omega)
    rw [hp, hy']
    exact quoteComma_nil
  · refine QuoteComma.suffix (a := 10 :: x) ?_
    rw [h1] at h
    simpa using h

theorem ends_append {p1 p2 b' b'' : Bytes} (h1 : b' = [] ∨ ∃ x, p1 = x ++ [10]) (e : b' = p2 ++ b'')
    (h2 : p2 = [] ∨ b'' = [] ∨ ∃ x, p2 = x ++ [10]) : b'' = [] ∨ ∃ x, p1 ++ p2 = x ++ [10] := by
  rcases h2 with h2 | h2 | ⟨x, h2⟩
  · rw [h2] at e ⊢
    rw [List.nil_append] at e
    rw [← e, List.append_nil]
    exact h1
  · exact Or.inl h2
  · exact Or.inr ⟨p1 ++ x, by rw [h2]; simp⟩

theorem readNamelist_ok (fuel : Nat) : ∀ (n : Nat) (line : Str) (b : Bytes) (ls : List Str) (rest : Bytes),
    readNamelist fuel n line b = some (ls, rest) →
    ∃ pre, b = pre ++ rest ∧ (pre = [] ∨ rest = [] ∨ ∃ x, pre = x ++ [10]) ∧
      ∀ y z, rest = y ++ z → QuoteComma (10 :: (pre ++ y)) → ∀ l ∈ ls, LineOk l
  | 0, _, _, _, _, h => by cases h
  | n + 1, line, b, ls, rest, h => by
    rw [readNamelist] at h
    split_ifs at h
    · simp only [Option.some.injEq, Prod.mk.injEq] at h
      obtain ⟨rfl, rfl⟩ := h
      exact ⟨[], rfl, Or.inl rfl, by simp⟩
    · cases h1 : readLine fuel b with
      | none => rw [h1] at h; cases h
      | some r =>
        obtain ⟨l, b'⟩ := r
        rw [h1] at h
        simp only at h
        cases h2 : readNamelist fuel n l b' with
        | none => rw [h2] at h; cases h
        | some r =>
          obtain ⟨ls', b''⟩ := r
          rw [h2] at h
          simp only [Option.some.injEq, Prod.mk.injEq] at h
          obtain ⟨rfl, rfl⟩ := h
          obtain ⟨p1, e1, n1, m1⟩ := readLine_ok _ _ _ _ h1
          obtain ⟨p2, e2, n2, m2⟩ := readNamelist_ok fuel n _ _ _ _ h2
          refine ⟨p1 ++ p2, by rw [List.append_assoc, ← e2]; exact e1, Or.inr (ends_append n1 e2 n2), ?_⟩
          intro y z hyz hq x hx
          rcases List.mem_cons.1 hx with rfl | hx
          · exact m1 (p2 ++ y) z (by rw [List.append_assoc, ← hyz]; exact e2) (by rw [← List.append_assoc]; exact hq)
          · exact m2 y z hyz (hq.rest n1 e2 hyz) x hx

theorem headerLoop_ok (fuel : Nat) : ∀ (n count : Nat) (b : Bytes) (h : RawHeader), headerLoop fuel n count b = some (.ok h) →
    ∃ pre, b = pre ++ h.rest ∧ (QuoteComma (10 :: pre) → ∀ l ∈ h.namelists, Sep l)
  | 0, _, _, _, h => by cases h
  | n + 1, count, b, hd, h => by
    rw [headerLoop] at h
    cases h1 : readLine fuel b with
    | none => rw [h1] at h; cases h
    | some r =>
      obtain ⟨line, b'⟩ := r
      rw [h1] at h
      simp only at h
      obtain ⟨p1, e1, n1, m1⟩ := readLine_ok _ _ _ _ h1
      have one : ∀ {ls : List Str} {b'' p2 y z : Bytes}, b' = p2 ++ b'' → b'' = y ++ z →
          (∀ y z, b'' = y ++ z → QuoteComma (10 :: (p2 ++ y)) → ∀ l ∈ ls, LineOk l) →
          QuoteComma (10 :: (p1 ++ p2 ++ y)) → Sep (line ++ ls.flatten) := by
        intro ls b'' p2 y z e2 hyz m2 hq
        have hl : LineOk line := m1 (p2 ++ y) z (by rw [List.append_assoc, ← hyz]; exact e2)
          (by rw [← List.append_assoc]; exact hq)
        have hls := m2 y z hyz (hq.rest n1 e2 hyz)
        have := (sep_lines (line :: ls) (by
          intro l hm
          rcases List.mem_cons.1 hm with rfl | hm
          · exact hl
          · exact hls l hm)).1
        rwa [List.flatten_cons] at this
      by_cases w1 : (sddsNamelists.any fun nl => hasSub nl line) = true
      · rw [if_pos w1] at h
        cases h2 : readNamelist fuel fuel line b' with
        | none => rw [h2] at h; cases h
        | some r =>
          obtain ⟨ls, b''⟩ := r
          rw [h2] at h
          simp only at h
          obtain ⟨p2, e2, n2, m2⟩ := readNamelist_ok fuel _ _ _ _ _ h2
          cases h3 : headerLoop fuel n (count + 1 + ls.length) b'' with
          | none => rw [h3] at h; cases h
          | some x =>
            rw [h3] at h
            cases x with
            | error e => cases h
            | ok g =>
              simp only [Option.some.injEq, Except.ok.injEq] at h
              subst h
              obtain ⟨p3, e3, m3⟩ := headerLoop_ok fuel n _ _ _ h3
              refine ⟨(p1 ++ p2) ++ p3, by rw [List.append_assoc, ← e3, List.append_assoc, ← e2]; exact e1, ?_⟩
              intro hq l hl
              rcases List.mem_cons.1 hl with rfl | hl
              · exact one e2 e3 m2 hq
              · refine m3 ?_ l hl
                have hq' : QuoteComma (10 :: (p1 ++ p2 ++ p3 ++ [])) := by rw [List.append_nil]; exact hq
                have := hq'.rest (p1 := p1 ++ p2) (p2 := p3) (b' := b'') (b'' := g.rest) (y := []) (z := g.rest)
                  (ends_append n1 e2 n2) e3 rfl
                rw [List.append_nil] at this
                exact this
      rw [if_neg w1] at h
      by_cases w2 : "&data".toList.isPrefixOf line = true
      · rw [if_pos w2] at h
        cases h2 : readNamelist fuel fuel line b' with
        | none => rw [h2] at h; cases h
        | some r =>
          obtain ⟨ls, b''⟩ := r
          rw [h2] at h
          simp only [Option.some.injEq, Except.ok.injEq] at h
          subst h
          obtain ⟨p2, e2, n2, m2⟩ := readNamelist_ok fuel _ _ _ _ _ h2
          refine ⟨p1 ++ p2, by rw [List.append_assoc, ← e2]; exact e1, ?_⟩
          intro hq l hl
          rw [List.mem_singleton.1 hl]
          exact one (y := []) (z := b'') e2 rfl m2 (by rw [List.append_nil]; exact hq)
      · rw [if_neg w2] at h
        cases h

theorem readHeader_ok {fuel : Nat} {file : Bytes} {h : RawHeader} (hh : readHeader fuel file = some (.ok h)) :
    ∃ pre, file = pre ++ h.rest ∧ (QuoteComma pre → ∀ l ∈ h.namelists, Sep l) := by
  unfold readHeader at hh
  cases h1 : readLine fuel file with
  | none => rw [h1] at hh; cases hh
  | some r =>
    obtain ⟨line, b⟩ := r
    rw [h1] at hh
    simp only at hh
    obtain ⟨p1, e1, n1, -⟩ := readLine_ok _ _ _ _ h1
    split_ifs at hh
    swap
    · cases hh
    obtain ⟨p2, e2, m2⟩ := headerLoop_ok fuel _ _ _ _ hh
    refine ⟨p1 ++ p2, by rw [List.append_assoc, ← e2]; exact e1, fun hq => m2 ?_⟩
    rcases n1 with n1 | ⟨x, n1⟩
    · rw [n1] at e2
      have : p2 = [] := (List.append_eq_nil_iff.mp e2.symm).1
      rw [this]
      exact quoteComma_nil
    · refine QuoteComma.suffix (a := x) ?_
      rw [n1] at hq
      simpa using hq

end Verif.Sdds
