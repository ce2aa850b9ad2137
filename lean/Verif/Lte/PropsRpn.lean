import Verif.Py.TextLemmas
import Verif.Lte.Rpn

/-! # Reverse Polish expressions (C29) -/

namespace Verif.Lte

variable {R : Type}

/-! ## Specification -/

/-- Arithmetic expressions; numbers and names are given by their text. -/
inductive Expr
  | num (t : Str)
  | pi
  | add (a b : Expr)
  | sub (a b : Expr)
  | mul (a b : Expr)
  | div (a b : Expr)
  | sqrt (a : Expr)

/-- The value, or the exception of the first operation that fails; text that is not a number
is a ValueError. -/
def Expr.value (N : Nums R) : Expr → Except PyErr R
  | .num t => match N.parse t with
    | some x => .ok x
    | none => .error .valueError
  | .pi => match N.parse piText with
    | some x => .ok x
    | none => .error .valueError
  | .add a b => do return N.add (← a.value N) (← b.value N)
  | .sub a b => do return N.sub (← a.value N) (← b.value N)
  | .mul a b => do return N.mul (← a.value N) (← b.value N)
  | .div a b => do
    let x ← a.value N
    let y ← b.value N
    N.div x y
  | .sqrt a => do return N.sqrt (← a.value N)

/-- Reverse Polish form as a list of words. -/
def Expr.rpn : Expr → List Str
  | .num t => [t]
  | .pi => ["pi".toList]
  | .add a b => a.rpn ++ b.rpn ++ ["+".toList]
  | .sub a b => a.rpn ++ b.rpn ++ ["-".toList]
  | .mul a b => a.rpn ++ b.rpn ++ ["*".toList]
  | .div a b => a.rpn ++ b.rpn ++ ["/".toList]
  | .sqrt a => a.rpn ++ ["sqrt".toList]

/-- The words of the calculator. -/
def opWords : List Str := ["-".toList, "+".toList, "*".toList, "/".toList, "mult".toList, "sqrt".toList]

/-- Text that can stand for a number: not empty, no white space, no `pi` and no quotes in it, and
not an operation. -/
structure NumText (t : Str) : Prop where
  ne : t ≠ []
  space : ∀ c ∈ t, isSpace c = false
  quote : '"' ∉ t ∧ '\'' ∉ t
  nopi : hasSub "pi".toList t = false
  noop : t ∉ opWords

/-- All numbers of the expression are written as such text. -/
def Expr.Plain : Expr → Prop
  | .num t => NumText t
  | .pi => True
  | .add a b => a.Plain ∧ b.Plain
  | .sub a b => a.Plain ∧ b.Plain
  | .mul a b => a.Plain ∧ b.Plain
  | .div a b => a.Plain ∧ b.Plain
  | .sqrt a => a.Plain

/-- Words with one or more blanks between them, and blanks in front. -/
inductive Spaced : List Str → Str → Prop
  | nil : Spaced [] []
  | last {w} : Spaced [w] w
  | front {ws s} : Spaced ws s → Spaced ws (' ' :: s)
  | cons {w ws s} : Spaced ws s → Spaced (w :: ws) (w ++ ' ' :: s)

/-! ## Lemmas -/

theorem splitChar_ne_nil (c : Char) (s : Str) : splitChar c s ≠ [] := by
  induction s with
  | nil => simp [splitChar]
  | cons d cs ih =>
    unfold splitChar
    split_ifs
    · simp
    · split <;> simp

theorem splitChar_none {c : Char} {s : Str} (h : c ∉ s) : splitChar c s = [s] := by
  induction s with
  | nil => rfl
  | cons d cs ih =>
    simp only [List.mem_cons, not_or] at h
    unfold splitChar
    rw [if_neg (fun hh => h.1 hh.symm), ih h.2]

theorem splitChar_append {c : Char} {w : Str} (h : c ∉ w) (s : Str) :
    splitChar c (w ++ c :: s) = w :: splitChar c s := by
  induction w with
  | nil => simp [splitChar]
  | cons d w ih =>
    simp only [List.mem_cons, not_or] at h
    rw [List.cons_append, splitChar, if_neg (fun hh => h.1 hh.symm), ih h.2]

theorem splitChar_filter (p : Char → Bool) (c : Char) (hc : p c = true) (s : Str) :
    splitChar c (s.filter p) = (splitChar c s).map (List.filter p) := by
  induction s with
  | nil => rfl
  | cons d cs ih =>
    by_cases hd : d = c
    · subst hd
      rw [List.filter_cons_of_pos hc]
      simp [splitChar, ih]
    · cases hs : splitChar c cs with
      | nil => exact absurd hs (splitChar_ne_nil c cs)
      | cons w ws =>
        rw [hs] at ih
        by_cases hp : p d = true
        · rw [List.filter_cons_of_pos hp]
          simp [splitChar, hd, hs, ih, List.filter_cons_of_pos hp]
        · rw [List.filter_cons_of_neg hp]
          simp [splitChar, hd, hs, ih, List.filter_cons_of_neg hp]

theorem dropQuotes_idem (s : Str) : dropQuotes (dropQuotes s) = dropQuotes s := by
  simp [dropQuotes, List.filter_filter]

theorem dropQuotes_self {s : Str} (h : '"' ∉ s ∧ '\'' ∉ s) : dropQuotes s = s := by
  unfold dropQuotes
  rw [List.filter_eq_self]
  intro c hc
  simp only [ne_eq, decide_eq_true_eq]
  exact ⟨fun hh => h.1 (hh ▸ hc), fun hh => h.2 (hh ▸ hc)⟩

/-- Quotes never matter. -/
theorem rpnLoop_quotes (N : Nums R) (ws : List Str) (stack : List R) :
    rpnLoop N (ws.map dropQuotes) stack = rpnLoop N ws stack := by
  induction ws generalizing stack with
  | nil => rfl
  | cons w ws ih =>
    simp only [List.map_cons, rpnLoop, cleanToken, dropQuotes_idem]
    cases rpnStep N stack (strip (replaceAll "pi".toList piText (dropQuotes w))) with
    | ok s => exact ih s
    | error e => rfl

theorem parseRpn_quotes (N : Nums R) (s : Str) : parseRpn N (dropQuotes s) = parseRpn N s := by
  unfold parseRpn
  rw [← rpnLoop_quotes N (splitChar ' ' s) []]
  unfold dropQuotes
  rw [splitChar_filter _ ' ' (by decide)]

theorem replaceFrom_none {old : Str} (new : Str) (s : Str) (h : hasSub old s = false) :
    replaceFrom old new 0 s = s := by
  induction s with
  | nil => rfl
  | cons c cs ih =>
    simp only [hasSub, Bool.or_eq_false_iff] at h
    unfold replaceFrom
    rw [if_neg (by rw [h.1]; simp), ih h.2]

theorem dropWhile_none {p : Char → Bool} {s : Str} (h : ∀ c ∈ s, p c = false) : s.dropWhile p = s := by
  cases s with
  | nil => rfl
  | cons c cs => simp [List.dropWhile, h c (by simp)]

theorem strip_none {s : Str} (h : ∀ c ∈ s, isSpace c = false) : strip s = s := by
  unfold strip
  rw [dropWhile_none h, dropWhile_none (by intro c hc; exact h c (List.mem_reverse.mp hc)), List.reverse_reverse]

theorem cleanToken_num {t : Str} (h : NumText t) : cleanToken t = t := by
  unfold cleanToken replaceAll
  rw [dropQuotes_self h.quote, replaceFrom_none _ _ h.nopi, strip_none h.space]

theorem cleanToken_pi : cleanToken "pi".toList = piText := by decide

theorem rpnStep_num (N : Nums R) (stack : List R) {t : Str} (h1 : t ≠ []) (h2 : t ∉ opWords) :
    rpnStep N stack t = match N.parse t with
      | some x => .ok (x :: stack)
      | none => .error .valueError := by
  simp only [opWords, List.mem_cons, List.not_mem_nil, or_false, not_or] at h2
  obtain ⟨a, b, c, d, e, f⟩ := h2
  unfold rpnStep
  rw [if_neg (by simp only [not_or]; exact ⟨a, b, c, d, e⟩), if_neg f, if_neg h1]
  cases N.parse t <;> rfl

theorem rpnLoop_expr (N : Nums R) (e : Expr) (he : e.Plain) (rest : List Str) (stack : List R) :
    rpnLoop N (e.rpn ++ rest) stack = (e.value N).bind fun x => rpnLoop N rest (x :: stack) := by
  induction e generalizing rest stack with
  | num t =>
    have he : NumText t := he
    simp only [Expr.rpn, List.singleton_append, rpnLoop, Expr.value]
    rw [cleanToken_num he, rpnStep_num N stack he.ne he.noop]
    cases N.parse t <;> rfl
  | pi =>
    simp only [Expr.rpn, List.singleton_append, rpnLoop, Expr.value]
    rw [cleanToken_pi, rpnStep_num N stack (by decide) (by decide)]
    cases N.parse piText <;> rfl
  | add a b iha ihb =>
    simp only [Expr.rpn, List.append_assoc, Expr.value]
    rw [iha he.1]
    cases a.value N with
    | error e => rfl
    | ok x =>
      simp only [Except.bind]
      rw [ihb he.2]
      cases b.value N with
      | error e => rfl
      | ok y => simp only [Except.bind, List.singleton_append, rpnLoop]; rfl
  | sub a b iha ihb =>
    simp only [Expr.rpn, List.append_assoc, Expr.value]
    rw [iha he.1]
    cases a.value N with
    | error e => rfl
    | ok x =>
      simp only [Except.bind]
      rw [ihb he.2]
      cases b.value N with
      | error e => rfl
      | ok y => simp only [Except.bind, List.singleton_append, rpnLoop]; rfl
  | mul a b iha ihb =>
    simp only [Expr.rpn, List.append_assoc, Expr.value]
    rw [iha he.1]
    cases a.value N with
    | error e => rfl
    | ok x =>
      simp only [Except.bind]
      rw [ihb he.2]
      cases b.value N with
      | error e => rfl
      | ok y => simp only [Except.bind, List.singleton_append, rpnLoop]; rfl
  | div a b iha ihb =>
    simp only [Expr.rpn, List.append_assoc, Expr.value]
    rw [iha he.1]
    cases a.value N with
    | error e => rfl
    | ok x =>
      simp only [Except.bind]
      rw [ihb he.2]
      cases b.value N with
      | error e => rfl
      | ok y =>
        simp only [Except.bind, List.singleton_append, rpnLoop]
        have h : cleanToken "/".toList = "/".toList := by decide
        rw [h]
        simp only [rpnStep]
        rw [if_pos (by decide), if_neg (by decide), if_neg (by decide), if_neg (by decide)]
        show _ = (N.div x y).bind _
        cases N.div x y <;> rfl
  | sqrt a iha =>
    simp only [Expr.rpn, List.append_assoc, Expr.value]
    rw [iha he]
    cases a.value N with
    | error e => rfl
    | ok x => simp only [Except.bind, List.singleton_append, rpnLoop]; rfl

theorem rpnLoop_blank (N : Nums R) (ws : List Str) (stack : List R) :
    rpnLoop N ([] :: ws) stack = rpnLoop N ws stack := by
  rw [rpnLoop]
  have : cleanToken [] = [] := by decide
  rw [this]
  rfl

theorem rpnLoop_spaced (N : Nums R) {ws : List Str} {s : Str} (h : Spaced ws s) (hw : ∀ w ∈ ws, ' ' ∉ w)
    (stack : List R) : rpnLoop N (splitChar ' ' s) stack = rpnLoop N ws stack := by
  induction h generalizing stack with
  | nil => exact rpnLoop_blank N [] stack
  | last => rw [splitChar_none (hw _ (by simp))]
  | front _ ih =>
    have : ∀ s : Str, splitChar ' ' (' ' :: s) = [] :: splitChar ' ' s := by intro s; simp [splitChar]
    rw [this, rpnLoop_blank, ih hw]
  | cons _ ih =>
    rw [splitChar_append (hw _ (by simp)), rpnLoop, rpnLoop]
    cases rpnStep N stack (cleanToken _) with
    | ok s => exact ih (fun w h => hw w (by simp [h])) s
    | error e => rfl

theorem rpn_words (e : Expr) (he : e.Plain) : ∀ w ∈ e.rpn, ' ' ∉ w := by
  induction e with
  | num t =>
    intro w hw
    simp only [Expr.rpn, List.mem_singleton] at hw
    subst hw
    intro h
    have := (he : NumText w).space ' ' h
    simp [isSpace] at this
  | pi =>
    intro w hw
    simp only [Expr.rpn, List.mem_singleton] at hw
    subst hw; decide
  | add a b iha ihb | sub a b iha ihb | mul a b iha ihb | div a b iha ihb =>
    intro w hw
    simp only [Expr.rpn, List.mem_append, List.mem_singleton] at hw
    rcases hw with (h | h) | h
    · exact iha he.1 w h
    · exact ihb he.2 w h
    · subst h; decide
  | sqrt a iha =>
    intro w hw
    simp only [Expr.rpn, List.mem_append, List.mem_singleton] at hw
    rcases hw with h | h
    · exact iha he w h
    · subst h; decide

/-! ## C29 -/

/-- For every expression and every way to write its reverse Polish form with blanks and with
quotes anywhere, `parse_rpn` gives the value of the expression, and raises exactly the exception
that its evaluation raises. -/
theorem rpn_value (N : Nums R) (e : Expr) (he : e.Plain) (text : Str)
    (ht : Spaced e.rpn (text.filter fun c => c ≠ '"' ∧ c ≠ '\'')) :
    parseRpn N text = e.value N := by
  rw [← parseRpn_quotes]
  unfold parseRpn
  rw [show dropQuotes text = text.filter (fun c => c ≠ '"' ∧ c ≠ '\'') from rfl,
    rpnLoop_spaced N ht (rpn_words e he)]
  have := rpnLoop_expr N e he [] []
  rw [List.append_nil] at this
  rw [this]
  cases e.value N <;> rfl

/-- Text whose first word is not a number and not an operation is rejected with ValueError. -/
theorem rpn_reject (N : Nums R) (t rest : Str) (ht : NumText t) (hn : N.parse t = none) :
    parseRpn N t = .error .valueError ∧ parseRpn N (t ++ ' ' :: rest) = .error .valueError := by
  have hsp : ' ' ∉ t := fun h => by have := ht.space ' ' h; simp [isSpace] at this
  have hstep : ∀ ws, rpnLoop N (t :: ws) [] = .error .valueError := by
    intro ws
    rw [rpnLoop, cleanToken_num ht, rpnStep_num N [] ht.ne ht.noop, hn]
  constructor
  · unfold parseRpn
    rw [splitChar_none hsp, hstep]
  · unfold parseRpn
    rw [splitChar_append hsp, hstep]

/-- Text that is not a number is also rejected behind a complete expression. -/
theorem rpn_reject_behind (N : Nums R) (e : Expr) (he : e.Plain) (x : R) (hx : e.value N = .ok x)
    (t : Str) (ht : NumText t) (hn : N.parse t = none) (text : Str) (hs : Spaced (e.rpn ++ [t]) text) :
    parseRpn N text = .error .valueError := by
  have hne : ∀ w ∈ e.rpn ++ [t], ' ' ∉ w := by
    intro w hw
    rcases List.mem_append.mp hw with h | h
    · exact rpn_words e he w h
    · rw [List.mem_singleton.mp h]
      exact fun h => by have := ht.space ' ' h; simp [isSpace] at this
  have hl : rpnLoop N [t] [x] = .error .valueError := by
    rw [rpnLoop, cleanToken_num ht, rpnStep_num N [x] ht.ne ht.noop, hn]
  unfold parseRpn
  rw [rpnLoop_spaced N hs hne, rpnLoop_expr N e he, hx]
  simp only [Except.bind, hl]

/-- `2 abc` meets the hypotheses of the last two theorems if `abc` is not a number. -/
example (N : Nums R) (x : R) (h : N.parse "2".toList = some x) :
    (Expr.num "2".toList).value N = .ok x ∧ NumText "abc".toList ∧
      Spaced ((Expr.num "2".toList).rpn ++ ["abc".toList]) "2 abc".toList :=
  ⟨by rw [Expr.value, h], ⟨by decide, by decide, by decide, by decide, by decide⟩,
    .cons (w := "2".toList) (.last (w := "abc".toList))⟩

/-- An operation without enough operands, and empty text, raise IndexError. -/
theorem rpn_underflow (N : Nums R) (op : Str) (hop : op ∈ opWords) (rest : Str) :
    parseRpn N [] = .error .indexError ∧ parseRpn N (op ++ ' ' :: rest) = .error .indexError := by
  constructor
  · rfl
  · have hsp : ' ' ∉ op := by
      revert op; decide
    unfold parseRpn
    rw [splitChar_append hsp, rpnLoop]
    have : rpnStep N [] (cleanToken op) = .error .indexError := by
      simp only [opWords, List.mem_cons, List.not_mem_nil, or_false] at hop
      rcases hop with h | h | h | h | h | h <;> subst h <;> rfl
    rw [this]

/-- `"2 3 + pi *"` meets the hypotheses, written with quotes and two blanks. -/
example : (Expr.mul (.add (.num "2".toList) (.num "3".toList)) .pi).Plain ∧
    Spaced (Expr.mul (.add (.num "2".toList) (.num "3".toList)) .pi).rpn
      ("\"2 3  + pi *\"".toList.filter fun c => c ≠ '"' ∧ c ≠ '\'') := by
  refine ⟨⟨⟨?_, ?_⟩, trivial⟩, ?_⟩
  · exact ⟨by decide, by decide, by decide, by decide, by decide⟩
  · exact ⟨by decide, by decide, by decide, by decide, by decide⟩
  · exact .cons (w := "2".toList) (.cons (w := "3".toList) (.front (.cons (w := "+".toList)
      (.cons (w := "pi".toList) (.last (w := "*".toList))))))

end Verif.Lte
