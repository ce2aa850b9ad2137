import Verif.Sdds.PropsHeader

/-!
# Property C119: declarations other than parameters and columns
-/

namespace Verif.Sdds

/-! ## Specification -/

/-- One line of a header: a declaration of a parameter or column, a `&description` or `&include` namelist with any text, an `&associate` or
an `&array` namelist. -/
inductive Item
  | decl (n : NDoc)
  | description (text : Str)
  | includes (text : Str)
  | associate (text : Str)
  | array (text : Str)
  deriving DecidableEq, Repr

/-- The line `&word text &end`. -/
def wordLine (word : String) (text : Str) : Str := word.toList ++ ' ' :: (text ++ (" &end".toList ++ ['\n']))

/-- Text of a line. -/
def Item.text : Item → Str
  | .decl n => n.text
  | .description t => wordLine "&description" t
  | .includes t => wordLine "&include" t
  | .associate t => wordLine "&associate" t
  | .array t => wordLine "&array" t

/-- The declaration in a line. -/
def Item.decl? : Item → Option NDoc
  | .decl n => some n
  | _ => none

/-- Whether a line declares an array. -/
def Item.isArray : Item → Bool
  | .array _ => true
  | _ => false

/-- ASCII text on one line. -/
def OneLine (t : Str) : Prop := Ascii t ∧ '\n' ∉ t

/-- Text in which every double quote is closed and nothing is escaped. -/
def Closed (t : Str) : Prop := t.count '"' % 2 = 0 ∧ '\\' ∉ t

/-- Lines that can be written down. -/
def Item.Ok : Item → Prop
  | .decl n => ∀ a ∈ n.attrs, a.Ok
  | .description t => OneLine t
  | .includes t => OneLine t
  | .associate t => OneLine t ∧ Closed t
  | .array t => OneLine t ∧ Closed t

/-- A header with the given lines in place of its namelists. -/
def withItems (d : Doc) (items : List Item) : Str :=
  "SDDS1\n".toList ++ d.comments.flatMap (fun c => '!' :: c ++ ['\n']) ++ items.flatMap Item.text ++ nlText "&data".toList d.data 0

/-! ## Lines -/

/-- Properties of a line that `_read_header` takes for a namelist. -/
structure HeadLine (t : Str) : Prop where
  body : ∃ s, t = s ++ ['\n'] ∧ s ≠ [] ∧ Ascii s ∧ '\n' ∉ s ∧ s.head? ≠ some '!'
  known : (sddsNamelists.any fun nl => hasSub nl t) = true
  ends : hasSub "&end".toList t = true

theorem HeadLine.read {t : Str} (h : HeadLine t) (fuel : Nat) (rest : Bytes) :
    readLine (fuel + 1) (utf8 t ++ rest) = some (t, rest) := by
  obtain ⟨s, rfl, h1, h2, h3, h4⟩ := h.body
  exact readLine_line s h1 h2 h3 h4 fuel rest

theorem wordLine_head {word : String} (hw : word.toList ∈ sddsNamelists) {t : Str} (ht : OneLine t) : HeadLine (wordLine word t) := by
  have hk : ∀ w ∈ sddsNamelists, w ≠ [] ∧ w.head? ≠ some '!' ∧ ∀ c ∈ w, c.toNat < 128 ∧ c ≠ '\n' := by decide
  obtain ⟨k1, k2, k3⟩ := hk _ hw
  have e : wordLine word t = (word.toList ++ ' ' :: (t ++ " &end".toList)) ++ ['\n'] := by simp [wordLine]
  refine ⟨⟨word.toList ++ ' ' :: (t ++ " &end".toList), e, by simp, ?_, ?_, ?_⟩, ?_, ?_⟩
  · intro c hc
    rw [List.mem_append, List.mem_cons, List.mem_append] at hc
    rcases hc with hc | rfl | hc | hc
    · exact (k3 c hc).1
    · decide
    · exact ht.1 c hc
    · revert c; decide
  · intro hc
    rw [List.mem_append, List.mem_cons, List.mem_append] at hc
    rcases hc with hc | hc | hc | hc
    · exact (k3 _ hc).2 rfl
    · revert hc; decide
    · exact ht.2 hc
    · revert hc; decide
  · cases hw' : word.toList with
    | nil => exact absurd hw' k1
    | cons c w => rw [hw'] at k2; simpa using k2
  · rw [List.any_eq_true]
    refine ⟨_, hw, ?_⟩
    unfold wordLine
    exact hasSub_prefix _ _
  · have : wordLine word t = (word.toList ++ ' ' :: (t ++ [' '])) ++ "&end".toList ++ ['\n'] := by simp [wordLine]
    rw [this]
    exact hasSub_infix _ _ _

theorem decl_head {n : NDoc} (h : ∀ a ∈ n.attrs, a.Ok) : HeadLine n.text := by
  have hk : n.kind.word ≠ [] ∧ n.kind.word.head? ≠ some '!' ∧
      (∀ c ∈ n.kind.word, c.toNat < 128 ∧ c ≠ '\n') ∧ n.kind.word ∈ sddsNamelists := by
    cases n.kind <;> decide
  obtain ⟨k1, k2, k3, k4⟩ := hk
  refine ⟨⟨nlBody n.kind.word n.attrs n.pad, nlText_eq _ _ _, ?_, (nlBody_chars k3 h _).1, (nlBody_chars k3 h _).2, ?_⟩, ?_, nlText_hasEnd _ _ _⟩
  · simp [nlBody]
  · unfold nlBody
    cases hw' : n.kind.word with
    | nil => exact absurd hw' k1
    | cons c w => rw [hw'] at k2; simpa using k2
  · rw [List.any_eq_true]
    refine ⟨_, k4, ?_⟩
    unfold NDoc.text nlText
    exact hasSub_prefix _ _

theorem Item.Ok.head {x : Item} (h : x.Ok) : HeadLine x.text := by
  cases x with
  | decl n => exact decl_head h
  | description t => exact wordLine_head (by decide) h
  | includes t => exact wordLine_head (by decide) h
  | associate t => exact wordLine_head (by decide) h.1
  | array t => exact wordLine_head (by decide) h.1

theorem headerLoop_lines (ts : List Str) (hts : ∀ t ∈ ts, HeadLine t) (as : List Attr)
    (has : ∀ a ∈ as, a.Ok ∧ '&' ∉ a.val) (body : Bytes) (fuel : Nat) :
    ∀ (n count : Nat), ts.length < n →
    headerLoop (fuel + 1) n count (utf8 (ts.flatten ++ nlText "&data".toList as 0) ++ body) =
      some (.ok ⟨ts ++ [nlText "&data".toList as 0], count + ts.length + 1, body⟩) := by
  induction ts with
  | nil =>
    intro n count hn
    exact headerLoop_docs [] (by simp) as has body fuel n count hn
  | cons t ts ih =>
    intro n count hn
    obtain ⟨n, rfl⟩ : ∃ m, n = m + 1 := ⟨n - 1, by simp at hn; omega⟩
    have ht := hts t (by simp)
    rw [List.flatten_cons, List.append_assoc, utf8_append, List.append_assoc, headerLoop, ht.read]
    simp only [ht.known, if_true, readNamelist, ht.ends]
    rw [ih (fun n hn => hts n (by simp [hn])) n _ (by simp at hn; omega)]
    simp
    omega

theorem readHeader_items {d : Doc} (h : d.Ok) {items : List Item} (hi : ∀ x ∈ items, x.Ok) (body : Bytes) {fuel : Nat}
    (hfuel : d.comments.length + items.length + 2 ≤ fuel) :
    readHeader fuel (utf8 (withItems d items) ++ body) =
      some (.ok ⟨items.map Item.text ++ [nlText "&data".toList d.data 0], items.length + 2, body⟩) := by
  obtain ⟨f, rfl⟩ : ∃ m, fuel = m + d.comments.length + 1 := ⟨fuel - d.comments.length - 1, by omega⟩
  have hts : ∀ t ∈ items.map Item.text, HeadLine t := by
    intro t ht
    obtain ⟨x, hx, rfl⟩ := List.mem_map.1 ht
    exact (hi x hx).head
  have e : utf8 (withItems d items) ++ body = utf8 ("SDDS1".toList ++ ['\n']) ++
      (utf8 (d.comments.flatMap fun c => '!' :: c ++ ['\n']) ++
        (utf8 ((items.map Item.text).flatten ++ nlText "&data".toList d.data 0) ++ body)) := by
    unfold withItems
    rw [List.flatMap_def (f := Item.text)]
    simp only [utf8_append, List.append_assoc]
    rfl
  unfold readHeader
  rw [e, readLine_line "SDDS1".toList (by decide) (by unfold Ascii; decide) (by decide) (by decide)]
  simp only
  rw [if_pos (by decide)]
  have hskip : ∀ n count, headerLoop (f + d.comments.length + 1) n count
      (utf8 (d.comments.flatMap fun c => '!' :: c ++ ['\n']) ++
        (utf8 ((items.map Item.text).flatten ++ nlText "&data".toList d.data 0) ++ body)) =
      headerLoop (f + d.comments.length + 1) n count
        (utf8 ((items.map Item.text).flatten ++ nlText "&data".toList d.data 0) ++ body) := by
    intro n count
    cases n with
    | zero => rfl
    | succ n =>
      have h1 : readLine (f + d.comments.length + 1) (utf8 (d.comments.flatMap fun c => '!' :: c ++ ['\n']) ++
        (utf8 ((items.map Item.text).flatten ++ nlText "&data".toList d.data 0) ++ body)) =
        readLine (f + 1) (utf8 ((items.map Item.text).flatten ++ nlText "&data".toList d.data 0) ++ body) := by
        rw [show f + d.comments.length + 1 = (f + 1) + d.comments.length by omega]
        exact readLine_comments _ h.comments _ _
      have h2 : readLine (f + d.comments.length + 1)
          (utf8 ((items.map Item.text).flatten ++ nlText "&data".toList d.data 0) ++ body) =
        readLine (f + 1) (utf8 ((items.map Item.text).flatten ++ nlText "&data".toList d.data 0) ++ body) := by
        cases hns : items.map Item.text with
        | nil =>
          rw [List.flatten_nil, List.nil_append,
            readLine_nl (by decide) (by decide) (by decide) (fun a ha => (h.data a ha).1),
            readLine_nl (by decide) (by decide) (by decide) (fun a ha => (h.data a ha).1)]
        | cons t ts =>
          have ht : HeadLine t := hts t (by rw [hns]; simp)
          rw [List.flatten_cons, List.append_assoc, utf8_append, List.append_assoc, ht.read, ht.read]
      simp only [headerLoop, h1, h2]
  rw [hskip, headerLoop_lines _ hts _ h.data body _ _ _ (by simp; omega)]
  simp
  omega

/-! ## Splitting into words -/

/-- Text whose quotes are closed is split without an exception. -/
theorem lex_closed (t : Str) (h : '\\' ∉ t) : ∀ (tok : Str) (q : Bool),
    (t.count '"' % 2 = 0 → (∃ ws, lex .space tok q t = .ok ws) ∧ ∃ ws, lex .word tok q t = .ok ws) ∧
    (t.count '"' % 2 = 1 → ∃ ws, lex .quote tok q t = .ok ws) := by
  induction t with
  | nil =>
    intro tok q
    refine ⟨fun _ => ⟨⟨_, by rw [lex]⟩, ?_⟩, fun h => by simp at h⟩
    rw [lex]
    split_ifs
    · exact ⟨_, rfl⟩
    · exact ⟨_, rfl⟩
  | cons c t ih =>
    intro tok q
    simp only [List.mem_cons, not_or] at h
    have ih' := ih h.2
    have hc : c ≠ '\\' := fun e => h.1 e.symm
    by_cases hq : c = '"'
    · subst hq
      rw [List.count_cons_self]
      refine ⟨fun hp => ⟨?_, ?_⟩, fun hp => ?_⟩
      · rw [lex, if_neg (by decide), if_neg (by decide), if_pos rfl]
        exact (ih' [] false).2 (by omega)
      · rw [lex, if_neg (by decide), if_pos rfl]
        exact (ih' tok q).2 (by omega)
      · rw [lex, if_pos rfl]
        exact ((ih' tok true).1 (by omega)).2
    · rw [List.count_cons_of_ne (by simpa using hq)]
      refine ⟨fun hp => ⟨?_, ?_⟩, fun hp => ?_⟩
      · rw [lex]
        split_ifs
        · exact ((ih' [] false).1 hp).1
        · exact ((ih' [c] false).1 hp).2
      · rw [lex]
        split_ifs
        · exact ((ih' [] false).1 hp).1
        · obtain ⟨ws, hws⟩ := ((ih' [] false).1 hp).1
          exact ⟨tok :: ws, by rw [hws]; rfl⟩
        · exact ((ih' (tok ++ [c]) q).1 hp).2
      · rw [lex, if_neg hq, if_neg hc]
        exact (ih' (tok ++ [c]) true).2 hp

theorem shlex_closed {word : String} (hw : word = "&associate" ∨ word = "&array") {t : Str} (ht : Closed t) :
    ∃ ws, shlexSplit (wordLine word t) = .ok ws := by
  unfold shlexSplit
  refine ((lex_closed _ ?_ [] false).1 ?_).1
  · unfold wordLine
    intro hc
    rw [List.mem_append, List.mem_cons, List.mem_append] at hc
    rcases hc with hc | hc | hc | hc
    · rcases hw with rfl | rfl <;> revert hc <;> decide
    · revert hc; decide
    · exact ht.2 hc
    · revert hc; decide
  · unfold wordLine
    rw [List.count_append, List.count_cons_of_ne (by decide), List.count_append]
    have h1 : word.toList.count '"' = 0 := by rcases hw with rfl | rfl <;> decide
    have h2 : (" &end".toList ++ ['\n']).count '"' = 0 := by decide
    rw [h1, h2]
    simpa using ht.1

theorem firstWord_line {word : String} (hne : word.toList ≠ []) (hw : ∀ c ∈ word.toList, isSpace c = false) (t : Str) :
    firstWord (wordLine word t) = word.toList := by
  unfold firstWord wordLine lstrip
  cases hword : word.toList with
  | nil => exact absurd hword hne
  | cons c w =>
    rw [hword] at hw
    rw [List.cons_append, List.dropWhile_cons_of_neg (by simpa using hw c (by simp)), ← List.cons_append,
      List.takeWhile_append_of_pos (by simpa using hw)]
    rw [List.takeWhile_cons_of_neg (by decide), List.append_nil]

theorem parse_items (ft : FloatText) (last : Str) (items : List Item) (hi : ∀ x ∈ items, x.Ok) (hna : ∀ x ∈ items, x.isArray = false) : ∀ p : Parsed,
    parseNamelists ft (items.map Item.text ++ [last]) p =
      parseNamelists ft ((items.filterMap Item.decl?).map NDoc.text ++ [last]) p := by
  induction items with
  | nil => intro p; rfl
  | cons x items ih =>
    intro p
    have ih' := ih (fun x hx => hi x (by simp [hx])) (fun x hx => hna x (by simp [hx]))
    have hx := hi x (by simp)
    rw [List.map_cons, List.cons_append]
    cases x with
    | decl n =>
      rw [List.filterMap_cons_some (f := Item.decl?) (a := .decl n) (b := n) rfl, List.map_cons, List.cons_append, parseNamelists, parseNamelists]
      simp only [Item.text, ih']
    | description t =>
      rw [List.filterMap_cons_none (f := Item.decl?) rfl, parseNamelists, Item.text, firstWord_line (by decide) (by decide)]
      rw [if_neg (by decide), if_neg (by decide), if_neg (by decide), if_neg (by decide), if_neg (by decide), ih']
    | includes t =>
      rw [List.filterMap_cons_none (f := Item.decl?) rfl, parseNamelists, Item.text, firstWord_line (by decide) (by decide)]
      rw [if_neg (by decide), if_neg (by decide), if_neg (by decide), if_neg (by decide), if_neg (by decide), ih']
    | associate t =>
      obtain ⟨ws, hws⟩ := shlex_closed (.inl rfl) hx.2
      rw [List.filterMap_cons_none (f := Item.decl?) rfl, parseNamelists, Item.text, firstWord_line (by decide) (by decide)]
      simp only
      rw [if_neg (by decide), if_neg (by decide), if_neg (by decide), if_neg (by decide), if_pos (by decide), hws]
      simp only [bind, Except.bind]
      rw [ih']
    | array t => exact absurd (hna (.array t) (by simp)) (by simp [Item.isArray])

theorem parse_array (ft : FloatText) (last : Str) (items : List Item) (hi : ∀ x ∈ items, x.Ok) (ha : ∃ x ∈ items, x.isArray = true) : ∀ p q : Parsed,
    parseNamelists ft ((items.filterMap Item.decl?).map NDoc.text ++ [last]) p = .ok q →
    parseNamelists ft (items.map Item.text ++ [last]) p = .error .attributeError := by
  induction items with
  | nil => simp at ha
  | cons x items ih =>
    intro p q hp
    have hx := hi x (by simp)
    rw [List.map_cons, List.cons_append]
    have tail : x.isArray = false → ∃ x ∈ items, x.isArray = true := by
      intro h0
      obtain ⟨y, hy, h1⟩ := ha
      rcases List.mem_cons.1 hy with rfl | hy
      · rw [h0] at h1; cases h1
      · exact ⟨y, hy, h1⟩
    have ih' := fun h0 => ih (fun x hx => hi x (by simp [hx])) (tail h0)
    cases x with
    | decl n =>
      have ih' := ih' rfl
      rw [List.filterMap_cons_some (f := Item.decl?) (a := .decl n) (b := n) rfl, List.map_cons, List.cons_append, parseNamelists] at hp
      rw [parseNamelists, Item.text]
      split_ifs at hp ⊢ with h1 h2 h3 h4 h5
      · cases h : mkParam ft n.text with
        | error e => rw [h] at hp; cases hp
        | ok x => rw [h] at hp; exact ih' _ q hp
      · cases h : mkColumn n.text with
        | error e => rw [h] at hp; cases hp
        | ok x => rw [h] at hp; exact ih' _ q hp
      · cases h : mkData n.text with
        | error e => rw [h] at hp; cases hp
        | ok x => rw [h] at hp; exact ih' _ q hp
      · cases h : shlexSplit n.text with
        | error e => rw [h] at hp; cases hp
        | ok x => rw [h] at hp; cases hp
      · cases h : shlexSplit n.text with
        | error e => rw [h] at hp; cases hp
        | ok x => rw [h] at hp; exact ih' _ q hp
      · exact ih' _ q hp
    | description t =>
      rw [List.filterMap_cons_none (f := Item.decl?) rfl] at hp
      rw [parseNamelists, Item.text, firstWord_line (by decide) (by decide)]
      rw [if_neg (by decide), if_neg (by decide), if_neg (by decide), if_neg (by decide), if_neg (by decide), ih' rfl _ _ hp]
    | includes t =>
      rw [List.filterMap_cons_none (f := Item.decl?) rfl] at hp
      rw [parseNamelists, Item.text, firstWord_line (by decide) (by decide)]
      rw [if_neg (by decide), if_neg (by decide), if_neg (by decide), if_neg (by decide), if_neg (by decide), ih' rfl _ _ hp]
    | associate t =>
      obtain ⟨ws, hws⟩ := shlex_closed (.inl rfl) hx.2
      rw [List.filterMap_cons_none (f := Item.decl?) rfl] at hp
      rw [parseNamelists, Item.text, firstWord_line (by decide) (by decide)]
      simp only
      rw [if_neg (by decide), if_neg (by decide), if_neg (by decide), if_neg (by decide), if_pos (by decide), hws]
      simp only [bind, Except.bind]
      rw [ih' rfl _ _ hp]
    | array t =>
      obtain ⟨ws, hws⟩ := shlex_closed (.inr rfl) hx.2
      rw [parseNamelists, Item.text, firstWord_line (by decide) (by decide)]
      simp only
      rw [if_neg (by decide), if_neg (by decide), if_neg (by decide), if_pos (by decide), hws]
      rfl

/-! ## Theorems -/

/-- **C119, what is true of it.** Put `&description`, `&include` and `&associate` lines anywhere between the namelists of a header. Then the
file is refused with the same exception as before, or it has the same parameters, columns and data mode and its data section starts after the
new header. The lines of an included file are not looked for. -/
theorem foreign_ignored_partial (ft : FloatText) {d : Doc} (h : d.Ok) {items : List Item} (hi : ∀ x ∈ items, x.Ok)
    (hna : ∀ x ∈ items, x.isArray = false) (hd : items.filterMap Item.decl? = d.namelists) (body : Bytes) {fuel : Nat}
    (hfuel : d.comments.length + items.length + 2 ≤ fuel) (buffer : Bool) (maxStr : Nat) :
    (∀ e, openSdds ft fuel buffer maxStr (utf8 d.text ++ body) = some (.error e) →
      openSdds ft fuel buffer maxStr (utf8 (withItems d items) ++ body) = some (.error e)) ∧
    ∀ r, openSdds ft fuel buffer maxStr (utf8 d.text ++ body) = some (.ok r) →
      ∃ r', openSdds ft fuel buffer maxStr (utf8 (withItems d items) ++ body) = some (.ok r') ∧ SameHeader r r' ∧
        r'.headerEnd = (utf8 (withItems d items)).length ∧ r'.file.drop r'.headerEnd = body := by
  have hlen : d.namelists.length ≤ items.length := by rw [← hd]; exact List.length_filterMap_le _ _
  unfold openSdds
  rw [readHeader_doc h body (by omega), readHeader_items h hi body hfuel]
  simp only [parse_items ft _ items hi hna, hd]
  cases parseNamelists ft (d.namelists.map NDoc.text ++ [nlText "&data".toList d.data 0]) ⟨[], [], []⟩ with
  | error e => exact ⟨fun e h => h, fun r h => by cases h⟩
  | ok p =>
    simp only [bind, Except.bind, List.length_append, Nat.add_sub_cancel]
    cases hpd : p.data with
    | nil => exact ⟨fun e h => h, fun r h => by cases h⟩
    | cons x xs =>
      simp only
      have hk : ∀ (r r' : Reader), r'.params = r.params → r'.cols = r.cols → r'.ascii = r.ascii → r'.noRowCounts = r.noRowCounts → r'.maxStr = r.maxStr →
          r'.paramKeys = r.paramKeys := by
        intro r r' e1 e2 e3 e4 e5
        unfold Reader.paramKeys
        rw [e1, e2, e3, e4, e5]
      constructor
      · intro e he
        split_ifs at he with hc
        · rw [if_pos]
          · exact he
          · refine Eq.trans (congrArg₂ (· && ·) rfl (congrArg List.isEmpty ?_)) hc
            exact hk _ _ rfl rfl rfl rfl rfl
        · cases he
      · intro r hr
        split_ifs at hr with hc
        · cases hr
        simp only [Option.some.injEq, Except.ok.injEq] at hr
        subst hr
        rw [if_neg]
        · exact ⟨_, rfl, ⟨rfl, rfl, rfl, rfl⟩, rfl, by simp⟩
        · intro hc'
          refine hc (Eq.trans (congrArg₂ (· && ·) rfl (congrArg List.isEmpty ?_)) hc')
          exact hk _ _ rfl rfl rfl rfl rfl

/-- **C119, false for arrays.** Take any file that can be opened and put lines anywhere between its namelists, one of them an `&array`
namelist. The constructor raises AttributeError. -/
theorem array_fails (ft : FloatText) {d : Doc} (h : d.Ok) {items : List Item} (hi : ∀ x ∈ items, x.Ok)
    (ha : ∃ x ∈ items, x.isArray = true) (hd : items.filterMap Item.decl? = d.namelists) (body : Bytes) {fuel : Nat}
    (hfuel : d.comments.length + items.length + 2 ≤ fuel) (buffer : Bool) (maxStr : Nat) (r : Reader)
    (hr : openSdds ft fuel buffer maxStr (utf8 d.text ++ body) = some (.ok r)) :
    openSdds ft fuel buffer maxStr (utf8 (withItems d items) ++ body) = some (.error .attributeError) := by
  have hlen : d.namelists.length ≤ items.length := by rw [← hd]; exact List.length_filterMap_le _ _
  unfold openSdds at hr ⊢
  rw [readHeader_doc h body (by omega)] at hr
  rw [readHeader_items h hi body hfuel]
  simp only at hr ⊢
  rw [← hd] at hr
  cases hp : parseNamelists ft ((items.filterMap Item.decl?).map NDoc.text ++ [nlText "&data".toList d.data 0]) ⟨[], [], []⟩ with
  | error e => rw [hp] at hr; cases hr
  | ok p =>
    rw [parse_array ft _ items hi ha _ p hp]
    rfl

/-- Lines put between the namelists of `exDoc`. -/
def exItems (extra : List Item) : List Item :=
  .description "text=\"made for\", contents=\"beam".toList :: extra ++ exDoc.namelists.map .decl ++ [.includes "filename=x.sdds".toList]

theorem exItems_decl (extra : List Item) (h : extra.filterMap Item.decl? = []) : (exItems extra).filterMap Item.decl? = exDoc.namelists := by
  unfold exItems
  simp only [List.filterMap_append, List.filterMap_cons, List.filterMap_nil, Item.decl?, h, List.filterMap_map, List.nil_append, List.append_nil]
  rfl

theorem exItems_ok (extra : List Item) (h : ∀ x ∈ extra, x.Ok) : ∀ x ∈ exItems extra, x.Ok := by
  intro x hx
  unfold exItems at hx
  simp only [List.cons_append, List.mem_cons, List.mem_append, List.mem_map, List.not_mem_nil, or_false] at hx
  rcases hx with rfl | (hx | ⟨n, hn, rfl⟩) | rfl
  · exact ⟨by unfold Ascii; decide +kernel, by decide +kernel⟩
  · exact h x hx
  · exact exDoc_announces.ok.namelists n hn
  · exact ⟨by unfold Ascii; decide +kernel, by decide +kernel⟩

example (body : Bytes) (r : Reader) (h : openSdds exText 20 true 50 (utf8 exDoc.text ++ body) = some (.ok r)) :
    ∃ r', openSdds exText 20 true 50 (utf8 (withItems exDoc (exItems [.associate "filename=\"a b\", sdds=1".toList])) ++ body) = some (.ok r') ∧ SameHeader r r' := by
  have hok : ∀ x ∈ [Item.associate "filename=\"a b\", sdds=1".toList], x.Ok := by
    intro x hx
    rw [List.mem_singleton.1 hx]
    exact ⟨⟨by unfold Ascii; decide +kernel, by decide +kernel⟩, by decide +kernel, by decide +kernel⟩
  obtain ⟨r', h1, h2, _⟩ := (foreign_ignored_partial exText exDoc_announces.ok (exItems_ok _ hok) (by decide +kernel) (exItems_decl _ rfl) body (by decide +kernel) true 50).2 r h
  exact ⟨r', h1, h2⟩

example (body : Bytes) (r : Reader) (h : openSdds exText 20 true 50 (utf8 exDoc.text ++ body) = some (.ok r)) :
    openSdds exText 20 true 50 (utf8 (withItems exDoc (exItems [.array "name=a, type=double, dimensions=2,".toList])) ++ body) = some (.error .attributeError) := by
  have hok : ∀ x ∈ [Item.array "name=a, type=double, dimensions=2,".toList], x.Ok := by
    intro x hx
    rw [List.mem_singleton.1 hx]
    exact ⟨⟨by unfold Ascii; decide +kernel, by decide +kernel⟩, by decide +kernel, by decide +kernel⟩
  exact array_fails exText exDoc_announces.ok (exItems_ok _ hok) (by decide +kernel) (exItems_decl _ rfl) body (by decide +kernel) true 50 r h

end Verif.Sdds
