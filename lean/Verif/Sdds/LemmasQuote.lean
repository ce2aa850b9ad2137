import Verif.Sdds.PropsText

/-!
# Double quotes inside of header texts
-/

namespace Verif.Sdds

/-! ### Splitting a line without backslashes -/

/-- Without backslashes no token has a double quote. -/
theorem lex_noQuote : ∀ (s : Str), '\\' ∉ s → ∀ (st : LexState) (tok : Str) (q : Bool) (ts : List Str),
    st ≠ .escWord → st ≠ .escQuote → '"' ∉ tok → lex st tok q s = .ok ts → ∀ t ∈ ts, '"' ∉ t
  | [], _, st, tok, q, ts, h1, h2, ht, h => by
    cases st with
    | space =>
      rw [lex] at h
      cases h
      simp
    | word =>
      rw [lex] at h
      by_cases hc : tok = [] ∧ q = false
      · rw [if_pos hc] at h; cases h; simp
      · rw [if_neg hc] at h
        simp only [Except.ok.injEq] at h
        subst h
        intro t hm
        rw [List.mem_singleton.1 hm]
        exact ht
    | quote => rw [lex] at h; cases h
    | escWord => exact absurd rfl h1
    | escQuote => exact absurd rfl h2
  | c :: s, hb, st, tok, q, ts, h1, h2, ht, h => by
    simp only [List.mem_cons, not_or] at hb
    have hc : c ≠ '\\' := fun e => hb.1 e.symm
    have ih := lex_noQuote s hb.2
    have happ : c ≠ '"' → '"' ∉ tok ++ [c] := by
      intro h
      simp only [List.mem_append, List.mem_singleton, not_or]
      exact ⟨ht, fun e => h e.symm⟩
    cases st with
    | space =>
      rw [lex] at h
      by_cases h3 : lexSpace c = true
      · rw [if_pos h3] at h
        exact ih _ _ _ _ (by simp) (by simp) (by simp) h
      rw [if_neg h3, if_neg hc] at h
      by_cases h4 : c = '"'
      · rw [if_pos h4] at h
        exact ih _ _ _ _ (by simp) (by simp) (by simp) h
      · rw [if_neg h4] at h
        exact ih _ _ _ _ (by simp) (by simp) (by simpa using fun e => h4 e.symm) h
    | word =>
      rw [lex] at h
      by_cases h3 : lexSpace c = true
      · rw [if_pos h3] at h
        by_cases h5 : tok = [] ∧ q = false
        · rw [if_pos h5] at h
          exact ih _ _ _ _ (by simp) (by simp) (by simp) h
        · rw [if_neg h5] at h
          cases hl : lex .space [] false s with
          | error e => rw [hl] at h; cases h
          | ok r =>
            rw [hl] at h
            simp only [Except.map, Except.ok.injEq] at h
            subst h
            intro t hm
            rcases List.mem_cons.1 hm with rfl | hm
            · exact ht
            · exact ih _ _ _ _ (by simp) (by simp) (by simp) hl t hm
      rw [if_neg h3] at h
      by_cases h4 : c = '"'
      · rw [if_pos h4] at h
        exact ih _ _ _ _ (by simp) (by simp) ht h
      · rw [if_neg h4, if_neg hc] at h
        exact ih _ _ _ _ (by simp) (by simp) (happ h4) h
    | quote =>
      rw [lex] at h
      by_cases h4 : c = '"'
      · rw [if_pos h4] at h
        exact ih _ _ _ _ (by simp) (by simp) ht h
      · rw [if_neg h4, if_neg hc] at h
        exact ih _ _ _ _ (by simp) (by simp) (happ h4) h
    | escWord => exact absurd rfl h1
    | escQuote => exact absurd rfl h2

/-- Without backslashes the number of double quotes must be even (outside of quotes) or odd (inside). -/
theorem lex_parity : ∀ (s : Str), '\\' ∉ s → ∀ (st : LexState) (tok : Str) (q : Bool) (ts : List Str),
    st ≠ .escWord → st ≠ .escQuote → lex st tok q s = .ok ts → s.count '"' % 2 = if st = .quote then 1 else 0
  | [], _, st, tok, q, ts, h1, h2, h => by
    cases st with
    | space => rfl
    | word => rfl
    | quote => rw [lex] at h; cases h
    | escWord => exact absurd rfl h1
    | escQuote => exact absurd rfl h2
  | c :: s, hb, st, tok, q, ts, h1, h2, h => by
    simp only [List.mem_cons, not_or] at hb
    have hc : c ≠ '\\' := fun e => hb.1 e.symm
    have ih := lex_parity s hb.2
    have k1 : c ≠ '"' → (c :: s).count '"' = s.count '"' := fun h => List.count_cons_of_ne h
    have k2 : c = '"' → (c :: s).count '"' = s.count '"' + 1 := fun h => by rw [h, List.count_cons_self]
    have k3 : lexSpace c = true → c ≠ '"' := by
      rintro h rfl
      exact absurd h (by decide)
    cases st with
    | space =>
      rw [lex] at h
      by_cases h3 : lexSpace c = true
      · rw [if_pos h3] at h
        rw [k1 (k3 h3)]
        exact ih _ _ _ _ (by simp) (by simp) h
      rw [if_neg h3, if_neg hc] at h
      by_cases h4 : c = '"'
      · rw [if_pos h4] at h
        have := ih _ _ _ _ (by simp) (by simp) h
        rw [k2 h4]
        simp at this ⊢
        omega
      · rw [if_neg h4] at h
        rw [k1 h4]
        simpa using ih _ _ _ _ (by simp) (by simp) h
    | word =>
      rw [lex] at h
      by_cases h3 : lexSpace c = true
      · rw [if_pos h3] at h
        rw [k1 (k3 h3)]
        by_cases h5 : tok = [] ∧ q = false
        · rw [if_pos h5] at h
          simpa using ih _ _ _ _ (by simp) (by simp) h
        · rw [if_neg h5] at h
          cases hl : lex .space [] false s with
          | error e => rw [hl] at h; cases h
          | ok r => simpa using ih _ _ _ _ (by simp) (by simp) hl
      rw [if_neg h3] at h
      by_cases h4 : c = '"'
      · rw [if_pos h4] at h
        have := ih _ _ _ _ (by simp) (by simp) h
        rw [k2 h4]
        simp at this ⊢
        omega
      · rw [if_neg h4, if_neg hc] at h
        rw [k1 h4]
        exact ih _ _ _ _ (by simp) (by simp) h
    | quote =>
      rw [lex] at h
      by_cases h4 : c = '"'
      · rw [if_pos h4] at h
        have := ih _ _ _ _ (by simp) (by simp) h
        rw [k2 h4]
        simp at this ⊢
        omega
      · rw [if_neg h4, if_neg hc] at h
        rw [k1 h4]
        exact ih _ _ _ _ (by simp) (by simp) h
    | escWord => exact absurd rfl h1
    | escQuote => exact absurd rfl h2

theorem shlex_noQuote {s : Str} (h : '\\' ∉ s) {ts : List Str} (hs : shlexSplit s = .ok ts) : ∀ t ∈ ts, '"' ∉ t :=
  lex_noQuote s h .space [] false ts (by simp) (by simp) (by simp) hs

theorem shlex_even {s : Str} (h : '\\' ∉ s) {ts : List Str} (hs : shlexSplit s = .ok ts) : s.count '"' % 2 = 0 := by
  simpa using lex_parity s h .space [] false ts (by simp) (by simp) hs

theorem rstripChar_sub {c d : Char} {s : Str} (h : d ∈ rstripChar c s) : d ∈ s := by
  unfold rstripChar at h
  rw [List.mem_reverse] at h
  exact List.mem_reverse.1 ((List.dropWhile_sublist _).subset h)

theorem afterEq_sub {d : Char} {s : Str} (h : d ∈ afterEq s) : d ∈ s := by
  unfold afterEq at h
  split_ifs at h
  · exact (List.dropWhile_sublist _).subset ((List.drop_sublist _ _).subset h)
  · exact h

theorem getField_noQuote {n : Str} {ts : List Str} (h : ∀ t ∈ ts, '"' ∉ t) : '"' ∉ (getField n ts).getD [] := by
  unfold getField
  cases hl : (ts.filter fun e => n.isPrefixOf e).getLast? with
  | none => simp
  | some t =>
    have hm : t ∈ ts := List.mem_of_mem_filter (List.mem_of_getLast? hl)
    intro hq
    exact h t hm (afterEq_sub (rstripChar_sub hq))

/-- No text of a parameter has a double quote. -/
def ParamField.NoQuote (p : ParamField) : Prop :=
  '"' ∉ p.name ∧ '"' ∉ p.symbol ∧ '"' ∉ p.units ∧ '"' ∉ p.description ∧ '"' ∉ p.formatString ∧ '"' ∉ p.type ∧
    ∀ s, p.fixed = some (.str s) → '"' ∉ s

/-- No text of a column has a double quote. -/
def ColField.NoQuote (c : ColField) : Prop :=
  '"' ∉ c.name ∧ '"' ∉ c.symbol ∧ '"' ∉ c.units ∧ '"' ∉ c.description ∧ '"' ∉ c.formatString ∧ '"' ∉ c.type

theorem mkParam_noQuote {ft : FloatText} {nl : Str} (h : '\\' ∉ nl) {p : ParamField} (hp : mkParam ft nl = .ok p) : p.NoQuote := by
  unfold mkParam at hp
  cases hs : shlexSplit nl with
  | error e => rw [hs] at hp; cases hp
  | ok es =>
    rw [hs] at hp
    have k : ∀ n, '"' ∉ (getField n es).getD [] := fun n => getField_noQuote (shlex_noQuote h hs)
    simp only [bind, Except.bind] at hp
    cases hf : getField "fixed_value".toList es with
    | none =>
      rw [hf] at hp
      simp only at hp
      split_ifs at hp
      simp only [Except.ok.injEq] at hp
      subst hp
      exact ⟨k _, k _, k _, k _, k _, k _, by simp⟩
    | some v =>
      rw [hf] at hp
      simp only at hp
      have kv : '"' ∉ v := by
        have := k "fixed_value".toList
        rw [hf] at this
        exact this
      cases hx : parseFixed ft ((getField "type".toList es).getD []) v with
      | error e => rw [hx] at hp; cases hp
      | ok x =>
        rw [hx] at hp
        simp only [Except.ok.injEq] at hp
        subst hp
        refine ⟨k _, k _, k _, k _, k _, k _, ?_⟩
        intro s he
        simp only [Option.some.injEq] at he
        subst he
        unfold parseFixed at hx
        split_ifs at hx with h1 h2 h3
        · simp only [Except.ok.injEq, Fixed.str.injEq] at hx
          rw [← hx]; simp
        · cases hi : parseInt v <;> rw [hi] at hx <;> cases hx
        · cases hi : ft.parse v <;> rw [hi] at hx <;> cases hx
        · simp only [Except.ok.injEq, Fixed.str.injEq] at hx
          rw [← hx]; exact kv

theorem mkColumn_noQuote {nl : Str} (h : '\\' ∉ nl) {c : ColField} (hc : mkColumn nl = .ok c) : c.NoQuote := by
  unfold mkColumn at hc
  cases hs : shlexSplit nl with
  | error e => rw [hs] at hc; cases hc
  | ok es =>
    rw [hs] at hc
    have k : ∀ n, '"' ∉ (getField n es).getD [] := fun n => getField_noQuote (shlex_noQuote h hs)
    simp only [bind, Except.bind] at hc
    split_ifs at hc
    simp only [Except.ok.injEq] at hc
    subst hc
    exact ⟨k _, k _, k _, k _, k _, k _⟩

/-- What is known after parsing: parameters and columns have no quotes, and the lines have even numbers of them. -/
theorem parse_noQuote {ft : FloatText} : ∀ (nls : List Str), (∀ nl ∈ nls, '\\' ∉ nl) → ∀ (p q : Parsed),
    (∀ x ∈ p.params, x.NoQuote) → (∀ x ∈ p.cols, x.NoQuote) → parseNamelists ft nls p = .ok q →
    (∀ x ∈ q.params, x.NoQuote) ∧ (∀ x ∈ q.cols, x.NoQuote) ∧
      ∀ nl ∈ nls, firstWord nl = "&parameter".toList ∨ firstWord nl = "&column".toList → nl.count '"' % 2 = 0
  | [], _, p, q, hp, hc, h => by
    rw [parseNamelists] at h
    simp only [Except.ok.injEq] at h
    subst h
    exact ⟨hp, hc, by simp⟩
  | nl :: rest, hb, p, q, hp, hc, h => by
    have ih := parse_noQuote (ft := ft) rest fun x hx => hb x (by simp [hx])
    have h0 := hb nl (by simp)
    rw [parseNamelists] at h
    have fin : ∀ p', (∀ x ∈ p'.params, x.NoQuote) → (∀ x ∈ p'.cols, x.NoQuote) → parseNamelists ft rest p' = .ok q →
        (firstWord nl = "&parameter".toList ∨ firstWord nl = "&column".toList → nl.count '"' % 2 = 0) →
        (∀ x ∈ q.params, x.NoQuote) ∧ (∀ x ∈ q.cols, x.NoQuote) ∧
          ∀ l ∈ nl :: rest, firstWord l = "&parameter".toList ∨ firstWord l = "&column".toList → l.count '"' % 2 = 0 := by
      intro p' h1 h2 h3 h4
      obtain ⟨a, b, c⟩ := ih p' q h1 h2 h3
      refine ⟨a, b, ?_⟩
      intro l hl
      rcases List.mem_cons.1 hl with rfl | hl
      · exact h4
      · exact c l hl
    by_cases w1 : firstWord nl = "&parameter".toList
    · rw [if_pos w1] at h
      cases hm : mkParam ft nl with
      | error e => rw [hm] at h; cases h
      | ok x =>
        rw [hm] at h
        refine fin { p with params := p.params ++ [x] } ?_ hc h fun _ => ?_
        · intro y hy
          rcases List.mem_append.1 hy with hy | hy
          · exact hp y hy
          · rw [List.mem_singleton.1 hy]; exact mkParam_noQuote h0 hm
        · cases hs : shlexSplit nl with
          | error e => unfold mkParam at hm; rw [hs] at hm; cases hm
          | ok ts => exact shlex_even h0 hs
    rw [if_neg w1] at h
    by_cases w2 : firstWord nl = "&column".toList
    · rw [if_pos w2] at h
      cases hm : mkColumn nl with
      | error e => rw [hm] at h; cases h
      | ok x =>
        rw [hm] at h
        refine fin { p with cols := p.cols ++ [x] } hp ?_ h fun _ => ?_
        · intro y hy
          rcases List.mem_append.1 hy with hy | hy
          · exact hc y hy
          · rw [List.mem_singleton.1 hy]; exact mkColumn_noQuote h0 hm
        · cases hs : shlexSplit nl with
          | error e => unfold mkColumn at hm; rw [hs] at hm; cases hm
          | ok ts => exact shlex_even h0 hs
    rw [if_neg w2] at h
    have none : firstWord nl = "&parameter".toList ∨ firstWord nl = "&column".toList → nl.count '"' % 2 = 0 := by
      rintro (h | h)
      · exact absurd h w1
      · exact absurd h w2
    by_cases w3 : firstWord nl = "&data".toList
    · rw [if_pos w3] at h
      cases hm : mkData nl with
      | error e => rw [hm] at h; cases h
      | ok x => rw [hm] at h; exact fin { p with data := p.data ++ [x] } hp hc h none
    rw [if_neg w3] at h
    by_cases w4 : firstWord nl = "&array".toList
    · rw [if_pos w4] at h
      cases hm : shlexSplit nl with
      | error e => rw [hm] at h; cases h
      | ok x => rw [hm] at h; cases h
    rw [if_neg w4] at h
    by_cases w5 : firstWord nl = "&associate".toList
    · rw [if_pos w5] at h
      cases hm : shlexSplit nl with
      | error e => rw [hm] at h; cases h
      | ok x => rw [hm] at h; exact fin _ hp hc h none
    · rw [if_neg w5] at h
      exact fin _ hp hc h none

/-! ### The lines of any header -/

theorem readline_split : ∀ b : Bytes, b = (readline b).1 ++ (readline b).2
  | [] => rfl
  | x :: b => by
    rw [readline]
    split_ifs with h
    · rfl
    · simp only [List.cons_append, List.cons.injEq, true_and]
      exact readline_split b

/-- A line comes from the bytes that were read. -/
theorem readLine_from : ∀ (fuel : Nat) (b : Bytes) (line : Str) (rest : Bytes), readLine fuel b = some (line, rest) →
    ∃ pre, b = pre ++ rest ∧ ∀ c ∈ line, c ∈ latin1 pre
  | 0, b, line, rest, h => by cases h
  | fuel + 1, b, line, rest, h => by
    have hs := readline_split b
    rw [readLine] at h
    split_ifs at h
    · obtain ⟨pre, h1, h2⟩ := readLine_from fuel _ _ _ h
      refine ⟨(readline b).1 ++ pre, by rw [List.append_assoc, ← h1]; exact hs, fun c hc => ?_⟩
      unfold latin1
      rw [List.map_append]
      exact List.mem_append_right _ (h2 c hc)
    · simp only [Option.some.injEq, Prod.mk.injEq] at h
      obtain ⟨rfl, rfl⟩ := h
      exact ⟨_, hs, fun c hc => hc⟩

theorem readNamelist_from (fuel : Nat) : ∀ (n : Nat) (line : Str) (b : Bytes) (ls : List Str) (rest : Bytes),
    readNamelist fuel n line b = some (ls, rest) → ∃ pre, b = pre ++ rest ∧ ∀ l ∈ ls, ∀ c ∈ l, c ∈ latin1 pre
  | 0, _, _, _, _, h => by cases h
  | n + 1, line, b, ls, rest, h => by
    rw [readNamelist] at h
    split_ifs at h
    · simp only [Option.some.injEq, Prod.mk.injEq] at h
      obtain ⟨rfl, rfl⟩ := h
      exact ⟨[], rfl, by simp⟩
    · cases h1 : readLine fuel b with
      | none => rw [h1] at h; cases h
      | some r =>
        obtain ⟨l, b'⟩ := r
        rw [h1] at h
        simp only at h
        cases h2 : readNamelist fuel n l b' with
        | none => rw [h2] at h; cases h
        | some r =>
          obtain ⟨ls', b''⟩ := r
          rw [h2] at h
          simp only [Option.some.injEq, Prod.mk.injEq] at h
          obtain ⟨rfl, rfl⟩ := h
          obtain ⟨p1, e1, m1⟩ := readLine_from _ _ _ _ h1
          obtain ⟨p2, e2, m2⟩ := readNamelist_from fuel n _ _ _ _ h2
          refine ⟨p1 ++ p2, by rw [List.append_assoc, ← e2]; exact e1, ?_⟩
          intro x hx c hc
          unfold latin1
          rw [List.map_append]
          rcases List.mem_cons.1 hx with rfl | hx
          · exact List.mem_append_left _ (m1 c hc)
          · exact List.mem_append_right _ (m2 x hx c hc)

theorem headerLoop_from (fuel : Nat) : ∀ (n count : Nat) (b : Bytes) (h : RawHeader), headerLoop fuel n count b = some (.ok h) →
    ∃ pre, b = pre ++ h.rest ∧ ∀ l ∈ h.namelists, ∀ c ∈ l, c ∈ latin1 pre
  | 0, _, _, _, h => by cases h
  | n + 1, count, b, hd, h => by
    rw [headerLoop] at h
    cases h1 : readLine fuel b with
    | none => rw [h1] at h; cases h
    | some r =>
      obtain ⟨line, b'⟩ := r
      rw [h1] at h
      simp only at h
      obtain ⟨p1, e1, m1⟩ := readLine_from _ _ _ _ h1
      have join : ∀ {ls : List Str} {b'' p2 : Bytes}, b' = p2 ++ b'' → (∀ l ∈ ls, ∀ c ∈ l, c ∈ latin1 p2) →
          b = (p1 ++ p2) ++ b'' ∧ ∀ c ∈ line ++ ls.flatten, c ∈ latin1 (p1 ++ p2) := by
        intro ls b'' p2 e2 m2
        refine ⟨by rw [List.append_assoc, ← e2]; exact e1, ?_⟩
        intro c hc
        unfold latin1
        rw [List.map_append]
        rcases List.mem_append.1 hc with hc | hc
        · exact List.mem_append_left _ (m1 c hc)
        · obtain ⟨l, hl, hc⟩ := List.mem_flatten.1 hc
          exact List.mem_append_right _ (m2 l hl c hc)
      by_cases w1 : (sddsNamelists.any fun nl => hasSub nl line) = true
      · rw [if_pos w1] at h
        cases h2 : readNamelist fuel fuel line b' with
        | none => rw [h2] at h; cases h
        | some r =>
          obtain ⟨ls, b''⟩ := r
          rw [h2] at h
          simp only at h
          obtain ⟨p2, e2, m2⟩ := readNamelist_from fuel _ _ _ _ _ h2
          cases h3 : headerLoop fuel n (count + 1 + ls.length) b'' with
          | none => rw [h3] at h; cases h
          | some x =>
            rw [h3] at h
            cases x with
            | error e => cases h
            | ok g =>
              simp only [Option.some.injEq, Except.ok.injEq] at h
              subst h
              obtain ⟨p3, e3, m3⟩ := headerLoop_from fuel n _ _ _ h3
              obtain ⟨j1, j2⟩ := join e2 m2
              refine ⟨(p1 ++ p2) ++ p3, by rw [List.append_assoc, ← e3]; exact j1, ?_⟩
              intro l hl c hc
              unfold latin1
              rw [List.map_append]
              rcases List.mem_cons.1 hl with rfl | hl
              · exact List.mem_append_left _ (j2 c hc)
              · exact List.mem_append_right _ (m3 l hl c hc)
      rw [if_neg w1] at h
      by_cases w2 : "&data".toList.isPrefixOf line = true
      · rw [if_pos w2] at h
        cases h2 : readNamelist fuel fuel line b' with
        | none => rw [h2] at h; cases h
        | some r =>
          obtain ⟨ls, b''⟩ := r
          rw [h2] at h
          simp only [Option.some.injEq, Except.ok.injEq] at h
          subst h
          obtain ⟨p2, e2, m2⟩ := readNamelist_from fuel _ _ _ _ _ h2
          obtain ⟨j1, j2⟩ := join e2 m2
          refine ⟨p1 ++ p2, j1, ?_⟩
          intro l hl
          rw [List.mem_singleton.1 hl]
          exact j2
      · rw [if_neg w2] at h
        cases h

theorem readHeader_from {fuel : Nat} {file : Bytes} {h : RawHeader} (hh : readHeader fuel file = some (.ok h)) :
    ∃ pre, file = pre ++ h.rest ∧ ∀ l ∈ h.namelists, ∀ c ∈ l, c ∈ latin1 pre := by
  unfold readHeader at hh
  cases h1 : readLine fuel file with
  | none => rw [h1] at hh; cases hh
  | some r =>
    obtain ⟨line, b⟩ := r
    rw [h1] at hh
    simp only at hh
    obtain ⟨p1, e1, -⟩ := readLine_from _ _ _ _ h1
    split_ifs at hh
    swap
    · cases hh
    obtain ⟨p2, e2, m2⟩ := headerLoop_from fuel _ _ _ _ hh
    refine ⟨p1 ++ p2, by rw [List.append_assoc, ← e2]; exact e1, fun l hl c hc => ?_⟩
    unfold latin1
    rw [List.map_append]
    exact List.mem_append_right _ (m2 l hl c hc)

theorem openSdds_parts {ft : FloatText} {fuel : Nat} {buffer : Bool} {maxStr : Nat} {file : Bytes} {r : Reader}
    (h : openSdds ft fuel buffer maxStr file = some (.ok r)) :
    ∃ hd p, readHeader fuel file = some (.ok hd) ∧ parseNamelists ft hd.namelists ⟨[], [], []⟩ = .ok p ∧
      r.headerEnd = file.length - hd.rest.length ∧ r.params = p.params ∧ r.cols = p.cols := by
  unfold openSdds at h
  cases h1 : readHeader fuel file with
  | none => rw [h1] at h; cases h
  | some x =>
    rw [h1] at h
    cases x with
    | error e => cases h
    | ok hd =>
      simp only [Option.some.injEq] at h
      cases h2 : parseNamelists ft hd.namelists ⟨[], [], []⟩ with
      | error e => rw [h2] at h; cases h
      | ok p =>
        rw [h2] at h
        simp only [bind, Except.bind] at h
        cases hd' : p.data with
        | nil => rw [hd'] at h; cases h
        | cons d ds =>
          rw [hd'] at h
          simp only at h
          split_ifs at h
          simp only [Except.ok.injEq] at h
          subst h
          exact ⟨hd, p, rfl, h2, rfl, rfl, rfl⟩

/-- **C12, quotes inside of texts.** In any file that can be opened, a double quote in a text comes from a backslash: if the header (the
bytes before `headerEnd`) has none, no text of the reader has a double quote. -/
theorem quotes_need_backslash {ft : FloatText} {fuel : Nat} {buffer : Bool} {maxStr : Nat} {file : Bytes} {r : Reader}
    (h : openSdds ft fuel buffer maxStr file = some (.ok r)) (hb : 92 ∉ file.take r.headerEnd) :
    (∀ p ∈ r.params, p.NoQuote) ∧ ∀ c ∈ r.cols, c.NoQuote := by
  obtain ⟨hd, p, h1, h2, h3, h4, h5⟩ := openSdds_parts h
  obtain ⟨pre, e, m⟩ := readHeader_from h1
  have hpre : file.take r.headerEnd = pre := by
    rw [h3]
    conv_lhs => rw [e]
    rw [List.length_append, Nat.add_sub_cancel, List.take_left']
    rfl
  rw [hpre] at hb
  have hl : ∀ nl ∈ hd.namelists, '\\' ∉ nl := by
    intro nl hn hc
    obtain ⟨b, hb1, hb2⟩ := List.mem_map.1 (m nl hn _ hc)
    have : b.toNat = 92 := by
      have := ofNat_byte b
      rw [hb2] at this
      exact this.symm
    exact hb (by
      have : b = 92 := UInt8.toNat_inj.1 this
      rwa [← this])
  obtain ⟨a, b, -⟩ := parse_noQuote hd.namelists hl _ _ (by simp) (by simp) h2
  rw [h4, h5]
  exact ⟨a, b⟩

end Verif.Sdds
