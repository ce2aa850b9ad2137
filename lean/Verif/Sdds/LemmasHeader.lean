import Verif.Sdds.SpecHeader

/-!
# Lemmas on the header reader
-/

set_option linter.unusedSimpArgs false
set_option linter.unusedVariables false

namespace Verif.Sdds

/-! ## Tokens -/

theorem lex_word (w : Str) (hw : ∀ c ∈ w, PlainChar c) : ∀ (tok : Str) (q : Bool) (rest : Str),
    lex .word tok q (w ++ rest) = lex .word (tok ++ w) q rest := by
  induction w with
  | nil => intro tok q rest; simp
  | cons c w ih =>
    intro tok q rest
    obtain ⟨h1, h2, h3⟩ := hw c (by simp)
    rw [List.cons_append, lex]
    rw [if_neg (by simp [h1]), if_neg h2, if_neg h3, ih fun c hc => hw c (by simp [hc])]
    simp

theorem lex_quote (v : Str) (h1 : '"' ∉ v) (h2 : '\\' ∉ v) : ∀ (tok : Str) (q : Bool) (rest : Str),
    lex .quote tok q (v ++ '"' :: rest) = lex .word (tok ++ v) true rest := by
  induction v with
  | nil => intro tok q rest; simp [lex]
  | cons c v ih =>
    intro tok q rest
    rw [List.cons_append, lex]
    have hc1 : c ≠ '"' := by rintro rfl; exact h1 (by simp)
    have hc2 : c ≠ '\\' := by rintro rfl; exact h2 (by simp)
    rw [if_neg hc1, if_neg hc2, ih (fun h => h1 (by simp [h])) (fun h => h2 (by simp [h]))]
    simp

theorem lex_end (tok : Str) (q : Bool) (hne : tok ≠ []) (c : Char) (hc : lexSpace c = true) (rest : Str) :
    lex .word tok q (c :: rest) = (lex .space [] false rest).map (tok :: ·) := by
  rw [lex, if_pos hc, if_neg (by simp [hne])]

theorem lex_start (c : Char) (w : Str) (hc : PlainChar c) (tok : Str) (q : Bool) (rest : Str) :
    lex .space tok q (c :: rest) = lex .word [c] false rest := by
  obtain ⟨h1, h2, h3⟩ := hc
  rw [lex, if_neg (by simp [h1]), if_neg h3, if_neg h2]

theorem lex_blank (n : Nat) (rest : Str) :
    lex .space [] false (List.replicate n ' ' ++ rest) = lex .space [] false rest := by
  induction n with
  | zero => simp
  | succ n ih =>
    rw [List.replicate_succ, List.cons_append, lex, if_pos (by decide), ih]

/-- A plain token followed by white space. -/
theorem lex_plain (w : Str) (hne : w ≠ []) (hw : ∀ c ∈ w, PlainChar c) (c : Char) (hc : lexSpace c = true)
    (rest : Str) :
    lex .space [] false (w ++ c :: rest) = (lex .space [] false rest).map (w :: ·) := by
  cases w with
  | nil => exact absurd rfl hne
  | cons d w =>
    rw [List.cons_append, lex_start d w (hw d (by simp)), lex_word w fun c hc => hw c (by simp [hc]),
      lex_end _ _ (by simp) c hc]
    rfl

theorem knownKeys_plain : ∀ k ∈ knownKeys, k ≠ [] ∧ '=' ∉ k ∧
    ∀ c ∈ k, lexSpace c = false ∧ c ≠ '"' ∧ c ≠ '\\' ∧ c ≠ '\n' ∧ c ≠ '&' ∧ c.toNat < 128 := by
  decide

theorem knownKeys_prefix : ∀ k ∈ knownKeys, ∀ n ∈ knownKeys, n.isPrefixOf k = true → n = k := by
  decide

/-- The token of an entry. -/
def Attr.tok (a : Attr) : Str := a.key ++ '=' :: (a.val ++ [','])

theorem lex_attr {a : Attr} (h : a.Ok) (rest : Str) :
    lex .space [] false (a.text ++ rest) = (lex .space [] false rest).map (a.tok :: ·) := by
  obtain ⟨hne, heq, hk⟩ := knownKeys_plain a.key h.key
  have hkw : ∀ c ∈ a.key ++ ['='], PlainChar c := by
    intro c hc
    rcases List.mem_append.mp hc with hc | hc
    · obtain ⟨h1, h2, h3, _⟩ := hk c hc
      exact ⟨h1, h2, h3⟩
    · rw [List.mem_singleton.mp hc]; exact ⟨by decide, by decide, by decide⟩
  unfold Attr.text Attr.tok
  cases hq : a.quoted with
  | false =>
    simp only [Bool.false_eq_true, if_false]
    have hv : ∀ c ∈ a.key ++ '=' :: (a.val ++ [',']), PlainChar c := by
      intro c hc
      have : c ∈ (a.key ++ ['=']) ∨ c ∈ a.val ∨ c = ',' := by
        simp only [List.mem_append, List.mem_cons, List.not_mem_nil, or_false] at hc ⊢
        tauto
      rcases this with hc | hc | rfl
      · exact hkw c hc
      · exact ⟨h.plain hq c hc, fun e => h.noQuote (e ▸ hc), fun e => h.noEsc (e ▸ hc)⟩
      · exact ⟨by decide, by decide, by decide⟩
    have := lex_plain (a.key ++ '=' :: (a.val ++ [','])) (by simp) hv ' ' (by decide) rest
    rw [← this]
    congr 1
    simp
  | true =>
    simp only [if_true]
    cases hkey : a.key with
    | nil => exact absurd hkey hne
    | cons d w =>
      have e : d :: w ++ '=' :: ('"' :: (a.val ++ ['"'])) ++ [',', ' '] ++ rest =
          d :: ((w ++ ['=']) ++ '"' :: (a.val ++ '"' :: (',' :: ' ' :: rest))) := by simp
      rw [hkey] at hkw
      rw [e, lex_start d w (hkw d (by simp)), lex_word _ fun c hc => hkw c (by
        simp only [List.cons_append, List.mem_cons]; exact Or.inr hc)]
      rw [lex, if_neg (by decide), if_pos rfl, lex_quote _ h.noQuote h.noEsc]
      rw [lex, if_neg (by decide), if_neg (by decide), if_neg (by decide), lex_end _ _ (by simp) ' ' (by decide)]
      congr 1
      simp

theorem lex_attrs (as : List Attr) (h : ∀ a ∈ as, a.Ok) (rest : Str) :
    lex .space [] false (as.flatMap Attr.text ++ rest) =
      (lex .space [] false rest).map (as.map Attr.tok ++ ·) := by
  induction as with
  | nil => simp [Except.map]; cases lex .space [] false rest <;> rfl
  | cons a as ih =>
    rw [List.flatMap_cons, List.append_assoc, lex_attr (h a (by simp)), ih fun a ha => h a (by simp [ha])]
    cases lex .space [] false rest <;> rfl

theorem shlex_nl (word : Str) (hne : word ≠ []) (hw : ∀ c ∈ word, PlainChar c) (as : List Attr)
    (h : ∀ a ∈ as, a.Ok) (pad : Nat) :
    shlexSplit (nlText word as pad) = .ok (word :: (as.map Attr.tok ++ ["&end".toList])) := by
  unfold shlexSplit nlText
  rw [lex_plain word hne hw ' ' (by decide), lex_attrs as h, lex_blank,
    lex_plain "&end".toList (by decide) (by decide) '\n' (by decide)]
  rfl

/-! ## Fields -/

theorem prefix_key {n k : Str} (hn : '=' ∉ n) {s : Str} :
    n.isPrefixOf (k ++ '=' :: s) = n.isPrefixOf k := by
  induction n generalizing k with
  | nil => simp
  | cons c n ih =>
    simp only [List.mem_cons, not_or] at hn
    cases k with
    | nil =>
      simp only [List.nil_append, List.isPrefixOf]
      have : (c == '=') = false := by
        simp only [beq_eq_false_iff_ne, ne_eq]
        exact fun e => hn.1 e.symm
      simp [this]
    | cons d k =>
      simp only [List.cons_append, List.isPrefixOf]
      rw [ih hn.2]

theorem isPrefix_tok {n : Str} (hn : n ∈ knownKeys) {a : Attr} (ha : a.key ∈ knownKeys) :
    n.isPrefixOf a.tok = decide (a.key = n) := by
  unfold Attr.tok
  rw [prefix_key (knownKeys_plain n hn).2.1]
  by_cases h : a.key = n
  · subst h
    simp
  · rw [decide_eq_false h]
    by_contra hc
    exact h (knownKeys_prefix a.key ha n hn (by simpa using hc)).symm

theorem afterEq_tok {a : Attr} (ha : a.key ∈ knownKeys) : afterEq a.tok = a.val ++ [','] := by
  have h := (knownKeys_plain a.key ha).2.1
  unfold afterEq Attr.tok
  rw [if_pos (by simp)]
  have : (a.key ++ '=' :: (a.val ++ [','])).dropWhile (· ≠ '=') = '=' :: (a.val ++ [',']) := by
    generalize a.key = k at h
    induction k with
    | nil => simp
    | cons c k ih =>
      simp only [List.mem_cons, not_or] at h
      rw [List.cons_append, List.dropWhile_cons_of_pos (by simpa using fun e => h.1 e.symm), ih h.2]
  rw [this]
  rfl

theorem amp_not_prefix : ∀ n ∈ knownKeys, n.isPrefixOf "&end".toList = false ∧
    n.isPrefixOf "&parameter".toList = false ∧ n.isPrefixOf "&column".toList = false ∧
    n.isPrefixOf "&data".toList = false := by decide

theorem getField_attrs {n word : Str} (hn : n ∈ knownKeys) (hw : n.isPrefixOf word = false) (as : List Attr)
    (h : ∀ a ∈ as, a.Ok) :
    getField n (word :: (as.map Attr.tok ++ ["&end".toList])) = attrVal as n := by
  unfold getField attrVal
  have e : (word :: (as.map Attr.tok ++ ["&end".toList])).filter (fun e => n.isPrefixOf e) =
      (as.filter fun a => a.key = n).map Attr.tok := by
    rw [List.filter_cons_of_neg (by simp [hw]), List.filter_append,
      List.filter_cons_of_neg (by rw [(amp_not_prefix n hn).1]; decide), List.filter_nil, List.append_nil,
      List.filter_map]
    congr 1
    apply List.filter_congr
    intro a ha
    exact isPrefix_tok hn (h a ha).key
  rw [e, List.getLast?_map, Option.map_map]
  cases hl : (as.filter fun a => a.key = n).getLast? with
  | none => rfl
  | some a =>
    have ha : a ∈ as := List.mem_of_mem_filter (List.mem_of_getLast? hl)
    simp only [Option.map_some, Function.comp]
    rw [afterEq_tok (h a ha).key, rstripChar_append_self _ _ (h a ha).noComma]

theorem mkParam_text (ft : FloatText) (as : List Attr) (h : ∀ a ∈ as, a.Ok) (pad : Nat) :
    mkParam ft (nlText "&parameter".toList as pad) = paramOf ft as := by
  have hg : ∀ n ∈ knownKeys, getField n ("&parameter".toList :: (as.map Attr.tok ++ ["&end".toList])) =
      attrVal as n := fun n hn => getField_attrs hn (amp_not_prefix n hn).2.1 as h
  unfold mkParam
  rw [shlex_nl _ (by decide) (by decide) as h pad]
  simp only [bind, Except.bind]
  rw [hg _ (by decide), hg _ (by decide), hg _ (by decide), hg _ (by decide), hg _ (by decide),
    hg _ (by decide), hg _ (by decide)]
  unfold paramOf
  simp only
  cases attrVal as "fixed_value".toList with
  | none => rfl
  | some v =>
    simp only
    cases parseFixed ft ((attrVal as "type".toList).getD []) v <;> rfl

theorem mkColumn_text (as : List Attr) (h : ∀ a ∈ as, a.Ok) (pad : Nat) :
    mkColumn (nlText "&column".toList as pad) = colOf as := by
  have hg : ∀ n ∈ knownKeys, getField n ("&column".toList :: (as.map Attr.tok ++ ["&end".toList])) =
      attrVal as n := fun n hn => getField_attrs hn (amp_not_prefix n hn).2.2.1 as h
  unfold mkColumn
  rw [shlex_nl _ (by decide) (by decide) as h pad]
  simp only [bind, Except.bind]
  rw [hg _ (by decide), hg _ (by decide), hg _ (by decide), hg _ (by decide), hg _ (by decide),
    hg _ (by decide), hg _ (by decide)]
  rfl

theorem mkData_text (as : List Attr) (h : ∀ a ∈ as, a.Ok) (pad : Nat) :
    mkData (nlText "&data".toList as pad) =
      .ok ⟨(attrVal as "mode".toList).getD "binary".toList,
        textTrue (attrVal as "no_row_counts".toList)⟩ := by
  have hg : ∀ n ∈ knownKeys, getField n ("&data".toList :: (as.map Attr.tok ++ ["&end".toList])) =
      attrVal as n := fun n hn => getField_attrs hn (amp_not_prefix n hn).2.2.2 as h
  unfold mkData
  rw [shlex_nl _ (by decide) (by decide) as h pad]
  simp only [bind, Except.bind]
  rw [hg _ (by decide), hg _ (by decide)]

/-! ## Lines -/

theorem readLine_line (s : Str) (hne : s ≠ []) (ha : Ascii s) (hn : '\n' ∉ s) (hb : s.head? ≠ some '!')
    (fuel : Nat) (rest : Bytes) :
    readLine (fuel + 1) (utf8 (s ++ ['\n']) ++ rest) = some (s ++ ['\n'], rest) := by
  have e : utf8 (s ++ ['\n']) ++ rest = utf8 s ++ 10 :: rest := by
    rw [utf8_append, List.append_assoc]; rfl
  have e2 : utf8 s ++ [10] = utf8 (s ++ ['\n']) := by rw [utf8_append]; rfl
  have ha2 : Ascii (s ++ ['\n']) := ha.append (by intro c hc; rw [List.mem_singleton.mp hc]; decide)
  rw [readLine, e, readline_append _ _ (utf8_no_newline ha hn)]
  simp only [e2, latin1_utf8 ha2]
  rw [if_neg]
  cases s with
  | nil => exact absurd rfl hne
  | cons c s =>
    simp only [List.cons_append, List.cons.injEq, List.append_eq_nil_iff, reduceCtorEq, and_false,
      List.head?_cons, Option.some.injEq, false_or, not_false_eq_true] at hb ⊢
    exact fun e => hb (by rw [e])

theorem readLine_comment (s : Str) (ha : Ascii s) (hn : '\n' ∉ s) (fuel : Nat) (rest : Bytes) :
    readLine (fuel + 1) (utf8 ('!' :: s ++ ['\n']) ++ rest) = readLine fuel rest := by
  have ha1 : Ascii ('!' :: s) := by
    intro c hc
    rcases List.mem_cons.mp hc with rfl | hc
    · decide
    · exact ha c hc
  have hn1 : '\n' ∉ '!' :: s := by
    simp only [List.mem_cons, not_or]; exact ⟨by decide, hn⟩
  have e : utf8 ('!' :: s ++ ['\n']) ++ rest = utf8 ('!' :: s) ++ 10 :: rest := by
    rw [utf8_append, List.append_assoc]; rfl
  have e2 : utf8 ('!' :: s) ++ [10] = utf8 ('!' :: s ++ ['\n']) := by rw [utf8_append]; rfl
  have ha2 : Ascii ('!' :: s ++ ['\n']) := ha1.append (by intro c hc; rw [List.mem_singleton.mp hc]; decide)
  rw [readLine, e, readline_append _ _ (utf8_no_newline ha1 hn1)]
  simp only [e2, latin1_utf8 ha2]
  rw [if_pos (by right; right; rfl)]

theorem readLine_comments (cs : List Str) (h : ∀ c ∈ cs, Ascii c ∧ '\n' ∉ c) (fuel : Nat) (rest : Bytes) :
    readLine (fuel + cs.length) (utf8 (cs.flatMap fun c => '!' :: c ++ ['\n']) ++ rest) = readLine fuel rest := by
  induction cs with
  | nil => rfl
  | cons c cs ih =>
    obtain ⟨h1, h2⟩ := h c (by simp)
    rw [List.flatMap_cons, utf8_append, List.append_assoc, List.length_cons, ← Nat.add_assoc,
      readLine_comment c h1 h2, ih fun c hc => h c (by simp [hc])]

/-- The line of a namelist without its newline. -/
def nlBody (word : Str) (attrs : List Attr) (pad : Nat) : Str :=
  word ++ ' ' :: (attrs.flatMap Attr.text ++ (List.replicate pad ' ' ++ "&end".toList))

theorem nlText_eq (word : Str) (as : List Attr) (pad : Nat) : nlText word as pad = nlBody word as pad ++ ['\n'] := by
  simp [nlText, nlBody]

theorem attr_text_chars {a : Attr} (h : a.Ok) : Ascii a.text ∧ '\n' ∉ a.text := by
  obtain ⟨_, _, hk⟩ := knownKeys_plain a.key h.key
  have : ∀ c ∈ a.text, c ∈ a.key ∨ c ∈ a.val ∨ c = '=' ∨ c = '"' ∨ c = ',' ∨ c = ' ' := by
    intro c hc
    unfold Attr.text at hc
    cases hq : a.quoted <;> simp only [hq, Bool.false_eq_true, if_false, if_true, List.mem_append, List.mem_cons,
      List.not_mem_nil, or_false] at hc <;> tauto
  constructor
  · intro c hc
    rcases this c hc with h1 | h1 | rfl | rfl | rfl | rfl
    · exact (hk c h1).2.2.2.2.2
    · exact h.ascii c h1
    all_goals decide
  · intro hc
    rcases this _ hc with h1 | h1 | h1 | h1 | h1 | h1
    · exact (hk _ h1).2.2.2.1 rfl
    · exact h.line h1
    all_goals exact absurd h1 (by decide)

theorem nlBody_chars {word : Str} (hw : ∀ c ∈ word, c.toNat < 128 ∧ c ≠ '\n') {as : List Attr}
    (h : ∀ a ∈ as, a.Ok) (pad : Nat) : Ascii (nlBody word as pad) ∧ '\n' ∉ nlBody word as pad := by
  have : ∀ c ∈ nlBody word as pad, c ∈ word ∨ c = ' ' ∨ (∃ a ∈ as, c ∈ a.text) ∨ c ∈ "&end".toList := by
    intro c hc
    unfold nlBody at hc
    rw [List.mem_append, List.mem_cons, List.mem_append, List.mem_append, List.mem_flatMap, List.mem_replicate] at hc
    rcases hc with hc | hc | hc | ⟨_, hc⟩ | hc
    · exact Or.inl hc
    · exact Or.inr (Or.inl hc)
    · exact Or.inr (Or.inr (Or.inl hc))
    · exact Or.inr (Or.inl hc)
    · exact Or.inr (Or.inr (Or.inr hc))
  have hend : ∀ c ∈ "&end".toList, c.toNat < 128 ∧ c ≠ '\n' := by decide
  constructor
  · intro c hc
    rcases this c hc with h1 | rfl | ⟨a, ha, h1⟩ | h1
    · exact (hw c h1).1
    · decide
    · exact (attr_text_chars (h a ha)).1 c h1
    · exact (hend c h1).1
  · intro hc
    rcases this _ hc with h1 | h1 | ⟨a, ha, h1⟩ | h1
    · exact (hw _ h1).2 rfl
    · exact absurd h1 (by decide)
    · exact (attr_text_chars (h a ha)).2 h1
    · exact (hend _ h1).2 rfl

theorem readLine_nl {word : Str} (hne : word ≠ []) (hb : word.head? ≠ some '!')
    (hw : ∀ c ∈ word, c.toNat < 128 ∧ c ≠ '\n') {as : List Attr}
    (h : ∀ a ∈ as, a.Ok) (pad fuel : Nat) (rest : Bytes) :
    readLine (fuel + 1) (utf8 (nlText word as pad) ++ rest) = some (nlText word as pad, rest) := by
  rw [nlText_eq]
  obtain ⟨h1, h2⟩ := nlBody_chars hw h pad
  refine readLine_line _ ?_ h1 h2 ?_ fuel rest
  · unfold nlBody; simp
  · cases word with
    | nil => exact absurd rfl hne
    | cons c w => simpa [nlBody] using hb

theorem nlText_hasEnd (word : Str) (as : List Attr) (pad : Nat) :
    hasSub "&end".toList (nlText word as pad) = true := by
  unfold nlText
  have : word ++ ' ' :: (as.flatMap Attr.text ++ (List.replicate pad ' ' ++ ("&end".toList ++ ['\n']))) =
      (word ++ ' ' :: (as.flatMap Attr.text ++ List.replicate pad ' ')) ++ "&end".toList ++ ['\n'] := by simp
  rw [this]
  exact hasSub_infix _ _ _

theorem hasSub_skip {c : Char} {u t s : Str} (h : c ∉ t) : hasSub (c :: u) (t ++ s) = hasSub (c :: u) s := by
  induction t with
  | nil => rfl
  | cons d t ih =>
    simp only [List.mem_cons, not_or] at h
    simp only [List.cons_append, hasSub]
    rw [ih h.2]
    have : (c == d) = false := by simpa using h.1
    simp [List.isPrefixOf, this]

theorem data_not_namelist {as : List Attr} (h : ∀ a ∈ as, a.Ok ∧ '&' ∉ a.val) :
    (sddsNamelists.any fun nl => hasSub nl (nlText "&data".toList as 0)) = false := by
  have hamp : '&' ∉ "data".toList ++ ' ' :: as.flatMap Attr.text := by
    intro hc
    rw [List.mem_append, List.mem_cons, List.mem_flatMap] at hc
    rcases hc with hc | hc | ⟨a, ha, hc⟩
    · exact absurd hc (by decide)
    · exact absurd hc (by decide)
    · obtain ⟨_, _, hk⟩ := knownKeys_plain a.key (h a ha).1.key
      unfold Attr.text at hc
      have : '&' ∈ a.key ∨ '&' ∈ a.val := by
        cases hq : a.quoted <;> simp only [hq, Bool.false_eq_true, if_false, if_true, List.mem_append, List.mem_cons,
          List.not_mem_nil, or_false, Char.reduceEq, false_or] at hc <;> tauto
      rcases this with hc | hc
      · exact (hk _ hc).2.2.2.2.1 rfl
      · exact (h a ha).2 hc
  have e : nlText "&data".toList as 0 = '&' :: (("data".toList ++ ' ' :: as.flatMap Attr.text) ++
      ("&end".toList ++ ['\n'])) := by simp [nlText]
  have key : ∀ u : Str, u.isPrefixOf ("data ".toList ++ (as.flatMap Attr.text ++ ("&end".toList ++ ['\n']))) = false →
      hasSub ('&' :: u) ("&end".toList ++ ['\n']) = false →
      hasSub ('&' :: u) (nlText "&data".toList as 0) = false := by
    intro u h1 h2
    rw [e, hasSub, hasSub_skip hamp, h2, Bool.or_false]
    have e3 : ("data".toList ++ ' ' :: as.flatMap Attr.text) ++ ("&end".toList ++ ['\n']) =
        "data ".toList ++ (as.flatMap Attr.text ++ ("&end".toList ++ ['\n'])) := by simp
    rw [e3]
    simp only [List.isPrefixOf, beq_self_eq_true, Bool.true_and]
    exact h1
  rw [List.any_eq_false]
  intro nl hnl
  simp only [sddsNamelists, List.mem_cons, List.not_mem_nil, or_false] at hnl
  rcases hnl with rfl | rfl | rfl | rfl | rfl | rfl
  all_goals
    rw [Bool.not_eq_true]
    exact key _ (by rfl) (by decide)

/-! ## The whole header -/

theorem headerLoop_docs (ns : List NDoc) (hns : ∀ n ∈ ns, ∀ a ∈ n.attrs, a.Ok) (as : List Attr)
    (has : ∀ a ∈ as, a.Ok ∧ '&' ∉ a.val) (body : Bytes) (fuel : Nat) :
    ∀ (n count : Nat), ns.length < n →
    headerLoop (fuel + 1) n count (utf8 (ns.flatMap NDoc.text ++ nlText "&data".toList as 0) ++ body) =
      some (.ok ⟨ns.map NDoc.text ++ [nlText "&data".toList as 0], count + ns.length + 1, body⟩) := by
  induction ns with
  | nil =>
    intro n count hn
    obtain ⟨n, rfl⟩ : ∃ m, n = m + 1 := ⟨n - 1, by simp at hn; omega⟩
    rw [List.flatMap_nil, List.nil_append, headerLoop,
      readLine_nl (by decide) (by decide) (by decide) (fun a ha => (has a ha).1)]
    simp only [data_not_namelist has, Bool.false_eq_true, if_false]
    rw [if_pos (by rfl)]
    simp only [readNamelist, nlText_hasEnd, if_true]
    simp
  | cons nd ns ih =>
    intro n count hn
    obtain ⟨n, rfl⟩ : ∃ m, n = m + 1 := ⟨n - 1, by simp at hn; omega⟩
    have hk : nd.kind.word ≠ [] ∧ nd.kind.word.head? ≠ some '!' ∧
        (∀ c ∈ nd.kind.word, c.toNat < 128 ∧ c ≠ '\n') ∧ nd.kind.word ∈ sddsNamelists := by
      cases nd.kind <;> decide
    obtain ⟨k1, k2, k3, k4⟩ := hk
    rw [List.flatMap_cons, List.append_assoc, utf8_append, List.append_assoc, headerLoop]
    have hl : readLine (fuel + 1) (utf8 nd.text ++
        (utf8 (ns.flatMap NDoc.text ++ nlText "&data".toList as 0) ++ body)) =
        some (nd.text, utf8 (ns.flatMap NDoc.text ++ nlText "&data".toList as 0) ++ body) :=
      readLine_nl k1 k2 k3 (hns nd (by simp)) nd.pad fuel _
    rw [hl]
    have hany : (sddsNamelists.any fun nl => hasSub nl nd.text) = true := by
      rw [List.any_eq_true]
      refine ⟨nd.kind.word, k4, ?_⟩
      unfold NDoc.text nlText
      exact hasSub_prefix _ _
    have he : hasSub "&end".toList nd.text = true := nlText_hasEnd _ _ _
    simp only [hany, if_true, readNamelist, he]
    rw [ih (fun n hn => hns n (by simp [hn])) n _ (by simp at hn; omega)]
    simp
    omega

theorem readHeader_doc {d : Doc} (h : d.Ok) (body : Bytes) {fuel : Nat}
    (hfuel : d.comments.length + d.namelists.length + 2 ≤ fuel) :
    readHeader fuel (utf8 d.text ++ body) =
      some (.ok ⟨d.namelists.map NDoc.text ++ [nlText "&data".toList d.data 0], d.namelists.length + 2, body⟩) := by
  obtain ⟨f, rfl⟩ : ∃ m, fuel = m + d.comments.length + 1 := ⟨fuel - d.comments.length - 1, by omega⟩
  have e : utf8 d.text ++ body = utf8 ("SDDS1".toList ++ ['\n']) ++
      (utf8 (d.comments.flatMap fun c => '!' :: c ++ ['\n']) ++
        (utf8 (d.namelists.flatMap NDoc.text ++ nlText "&data".toList d.data 0) ++ body)) := by
    unfold Doc.text
    simp only [utf8_append, List.append_assoc]
    rfl
  unfold readHeader
  rw [e, readLine_line "SDDS1".toList (by decide) (by unfold Ascii; decide) (by decide) (by decide)]
  simp only
  rw [if_pos (by decide)]
  -- the comments are skipped by the first read of the loop
  have hskip : ∀ n count, headerLoop (f + d.comments.length + 1) n count
      (utf8 (d.comments.flatMap fun c => '!' :: c ++ ['\n']) ++
        (utf8 (d.namelists.flatMap NDoc.text ++ nlText "&data".toList d.data 0) ++ body)) =
      headerLoop (f + d.comments.length + 1) n count
        (utf8 (d.namelists.flatMap NDoc.text ++ nlText "&data".toList d.data 0) ++ body) := by
    intro n count
    cases n with
    | zero => rfl
    | succ n =>
      have h1 : readLine (f + d.comments.length + 1) (utf8 (d.comments.flatMap fun c => '!' :: c ++ ['\n']) ++
        (utf8 (d.namelists.flatMap NDoc.text ++ nlText "&data".toList d.data 0) ++ body)) =
        readLine (f + 1) (utf8 (d.namelists.flatMap NDoc.text ++ nlText "&data".toList d.data 0) ++ body) := by
        rw [show f + d.comments.length + 1 = (f + 1) + d.comments.length by omega]
        exact readLine_comments _ h.comments _ _
      have h2 : readLine (f + d.comments.length + 1)
          (utf8 (d.namelists.flatMap NDoc.text ++ nlText "&data".toList d.data 0) ++ body) =
        readLine (f + 1) (utf8 (d.namelists.flatMap NDoc.text ++ nlText "&data".toList d.data 0) ++ body) := by
        cases hns : d.namelists with
        | nil =>
          rw [List.flatMap_nil, List.nil_append,
            readLine_nl (by decide) (by decide) (by decide) (fun a ha => (h.data a ha).1),
            readLine_nl (by decide) (by decide) (by decide) (fun a ha => (h.data a ha).1)]
        | cons nd ns =>
          have hk : nd.kind.word ≠ [] ∧ nd.kind.word.head? ≠ some '!' ∧
            (∀ c ∈ nd.kind.word, c.toNat < 128 ∧ c ≠ '\n') := by
            cases nd.kind <;> decide
          obtain ⟨k1, k2, k3⟩ := hk
          rw [List.flatMap_cons, List.append_assoc, utf8_append, List.append_assoc]
          have ha : ∀ a ∈ nd.attrs, a.Ok := h.namelists nd (by rw [hns]; simp)
          exact (readLine_nl k1 k2 k3 ha nd.pad _ _).trans (readLine_nl k1 k2 k3 ha nd.pad _ _).symm
      simp only [headerLoop, h1, h2]
  rw [hskip, headerLoop_docs _ h.namelists _ h.data body _ _ _ (by omega)]
  congr 3
  omega

theorem firstWord_nl (word : Str) (hne : word ≠ []) (hw : ∀ c ∈ word, isSpace c = false) (as : List Attr) (pad : Nat) :
    firstWord (nlText word as pad) = word := by
  unfold firstWord nlText lstrip
  cases word with
  | nil => exact absurd rfl hne
  | cons c w =>
    rw [List.cons_append, List.dropWhile_cons_of_neg (by simpa using hw c (by simp)), ← List.cons_append,
      List.takeWhile_append_of_pos (by simpa using hw)]
    rw [List.takeWhile_cons_of_neg (by decide), List.append_nil]

theorem parse_docs (ft : FloatText) (ns : List NDoc) (hns : ∀ n ∈ ns, ∀ a ∈ n.attrs, a.Ok) (as : List Attr)
    (has : ∀ a ∈ as, a.Ok) : ∀ (p : Parsed) (ps : List ParamField) (cs : List ColField),
    ((ns.filter fun n => n.kind = .param).map NDoc.attrs).mapM (paramOf ft) = .ok ps →
    ((ns.filter fun n => n.kind = .col).map NDoc.attrs).mapM colOf = .ok cs →
    parseNamelists ft (ns.map NDoc.text ++ [nlText "&data".toList as 0]) p =
      .ok ⟨p.params ++ ps, p.cols ++ cs, p.data ++ [⟨(attrVal as "mode".toList).getD "binary".toList,
        textTrue (attrVal as "no_row_counts".toList)⟩]⟩ := by
  induction ns with
  | nil =>
    intro p ps cs hps hcs
    simp only [List.filter_nil, List.map_nil, List.mapM_nil] at hps hcs
    cases hps; cases hcs
    simp only [List.map_nil, List.nil_append, parseNamelists, firstWord_nl "&data".toList (by decide) (by decide)]
    rw [if_neg (by decide), if_neg (by decide), if_pos trivial, mkData_text as has]
    simp [bind, Except.bind]
  | cons nd ns ih =>
    intro p ps cs hps hcs
    obtain ⟨k, at', pad⟩ := nd
    have ha := hns ⟨k, at', pad⟩ (by simp)
    cases k with
    | param =>
      rw [List.filter_cons_of_pos (by simp), List.map_cons, List.mapM_cons] at hps
      rw [List.filter_cons_of_neg (by simp)] at hcs
      cases h1 : paramOf ft at' with
      | error e => simp only at hps; rw [h1] at hps; cases hps
      | ok x =>
        simp only at hps; rw [h1] at hps
        cases h2 : ((ns.filter fun n => n.kind = .param).map NDoc.attrs).mapM (paramOf ft) with
        | error e => rw [h2] at hps; cases hps
        | ok xs =>
          rw [h2] at hps
          cases hps
          have e : NDoc.text ⟨.param, at', pad⟩ = nlText "&parameter".toList at' pad := rfl
          rw [List.map_cons, List.cons_append, parseNamelists, e, firstWord_nl "&parameter".toList (by decide) (by decide)]
          simp only
          rw [if_pos trivial, mkParam_text ft at' ha, h1]
          simp only [bind, Except.bind]
          rw [ih (fun n hn => hns n (by simp [hn])) _ xs cs h2 hcs]
          simp
    | col =>
      rw [List.filter_cons_of_neg (by simp)] at hps
      rw [List.filter_cons_of_pos (by simp), List.map_cons, List.mapM_cons] at hcs
      cases h1 : colOf at' with
      | error e => simp only at hcs; rw [h1] at hcs; cases hcs
      | ok x =>
        simp only at hcs; rw [h1] at hcs
        cases h2 : ((ns.filter fun n => n.kind = .col).map NDoc.attrs).mapM colOf with
        | error e => rw [h2] at hcs; cases hcs
        | ok xs =>
          rw [h2] at hcs
          cases hcs
          have e : NDoc.text ⟨.col, at', pad⟩ = nlText "&column".toList at' pad := rfl
          rw [List.map_cons, List.cons_append, parseNamelists, e, firstWord_nl "&column".toList (by decide) (by decide)]
          simp only
          rw [if_neg (by decide), if_pos trivial, mkColumn_text at' ha, h1]
          simp only [bind, Except.bind]
          rw [ih (fun n hn => hns n (by simp [hn])) _ ps xs hps h2]
          simp

/-- Opening a file with a well-formed header. -/
theorem open_doc (ft : FloatText) {d : Doc} (h : d.Ok) (body : Bytes) {fuel : Nat}
    (hfuel : d.comments.length + d.namelists.length + 2 ≤ fuel) (buffer : Bool) (maxStr : Nat)
    {ps : List ParamField} {cs : List ColField} (hps : (d.attrsOf .param).mapM (paramOf ft) = .ok ps)
    (hcs : (d.attrsOf .col).mapM colOf = .ok cs)
    (hbin : (attrVal d.data "mode".toList).getD "binary".toList ≠ "ascii".toList) :
    openSdds ft fuel buffer maxStr (utf8 d.text ++ body) =
      some (.ok {
        file := utf8 d.text ++ body, buffer := buffer, maxStr := maxStr,
        headerEnd := (utf8 d.text).length, lineCount := d.namelists.length + 2,
        params := ps, cols := cs, ascii := false,
        noRowCounts := textTrue (attrVal d.data "no_row_counts".toList) }) := by
  unfold openSdds
  rw [readHeader_doc h body hfuel]
  simp only
  rw [parse_docs ft d.namelists h.namelists d.data (fun a ha => (h.data a ha).1) _ ps cs hps hcs]
  simp only [bind, Except.bind, List.nil_append, decide_eq_false hbin, Bool.false_and, Bool.false_eq_true,
    if_false, List.length_append, Nat.add_sub_cancel]

end Verif.Sdds
