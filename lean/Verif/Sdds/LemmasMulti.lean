import Verif.Sdds.LemmasText

/-!
# Lemmas on headers whose texts have line ends
-/

namespace Verif.Sdds

/-! ## Occurrences of a text in another -/

theorem hasSub_true_iff (p s : Str) : hasSub p s = true ↔ p <:+: s := by
  induction s with
  | nil => simp [hasSub]
  | cons c s ih => rw [hasSub, Bool.or_eq_true, ih, List.infix_cons_iff, List.isPrefixOf_iff_prefix]

theorem prefix_moji {p : Str} (hp : Ascii p) {v : Str} (h : p <+: moji v) : p <+: v := by
  induction v generalizing p with
  | nil => exact h
  | cons c v ih =>
    cases p with
    | nil => exact List.nil_prefix
    | cons d p =>
      rw [moji_cons] at h
      rcases moji_char c with ⟨-, e⟩ | ⟨-, h1, h2⟩
      · rw [e, List.singleton_append, List.cons_prefix_cons] at h
        rw [List.cons_prefix_cons]
        exact ⟨h.1, ih (fun x hx => hp x (List.mem_cons_of_mem _ hx)) h.2⟩
      · cases hm : moji [c] with
        | nil => rw [hm] at h2; simp at h2
        | cons e m =>
          rw [hm, List.cons_append, List.cons_prefix_cons] at h
          have a1 := h1 e (by rw [hm]; exact List.mem_cons_self)
          have a2 := hp d List.mem_cons_self
          rw [h.1] at a2
          omega

theorem infix_moji {p : Str} (hp : Ascii p) {v : Str} (h : p <:+: moji v) : p <:+: v := by
  cases p with
  | nil => exact List.nil_infix
  | cons d p =>
    induction v with
    | nil => exact h
    | cons c v ih =>
      rw [List.infix_cons_iff]
      rcases moji_char c with ⟨-, e⟩ | ⟨-, h1, h2⟩
      · have hc : moji (c :: v) = c :: moji v := by rw [moji_cons, e]; rfl
        have h' := h
        rw [hc, List.infix_cons_iff] at h
        rcases h with h | h
        · rw [← hc] at h
          exact Or.inl (prefix_moji hp h)
        · exact Or.inr (ih h)
      · refine Or.inr (ih ?_)
        rw [moji_cons] at h
        generalize moji [c] = m at h h1
        clear h2
        induction m with
        | nil => exact h
        | cons e m ihm =>
          rw [List.cons_append, List.infix_cons_iff, List.cons_prefix_cons] at h
          rcases h with h | h
          · have a1 := h1 e List.mem_cons_self
            have a2 := hp d List.mem_cons_self
            rw [h.1] at a2
            omega
          · exact ihm h fun x hx => h1 x (List.mem_cons_of_mem _ hx)

/-- A text that does not have the character between two others is in one of them. -/
theorem split_sep {s : Char} {p : Str} (hs : s ∉ p) {A B x y : Str} (h : A ++ s :: B = x ++ (p ++ y)) :
    (∃ y', A = x ++ (p ++ y') ∧ y = y' ++ s :: B) ∨ (∃ x', B = x' ++ (p ++ y) ∧ x = A ++ s :: x') := by
  rcases List.append_eq_append_iff.mp h with ⟨x', hx, hB⟩ | ⟨y', hA, hy⟩
  · cases x' with
    | nil =>
      cases p with
      | nil => exact Or.inl ⟨[], by simpa using hx.symm, by simpa using hB.symm⟩
      | cons d p =>
        rw [List.nil_append, List.cons_append, List.cons.injEq] at hB
        exact absurd (by rw [hB.1]; exact List.mem_cons_self) hs
    | cons d x' =>
      rw [List.cons_append, List.cons.injEq] at hB
      refine Or.inr ⟨x', hB.2, ?_⟩
      rw [hx, hB.1]
  · rcases List.append_eq_append_iff.mp hy with ⟨a, ha, hb⟩ | ⟨a, ha, hb⟩
    · exact Or.inl ⟨a, by rw [hA, ha], hb⟩
    · cases a with
      | nil => exact Or.inl ⟨[], by rw [hA, ha]; simp, by simpa using hb.symm⟩
      | cons d a =>
        rw [List.cons_append, List.cons.injEq] at hb
        exact absurd (by rw [ha, hb.1]; simp) hs

/-! ## Lines -/

/-- The file that has the lines. -/
def lineText (ls : List Str) : Str := ls.flatMap (· ++ ['\n'])

theorem exists_lines (T : Str) : ∃ l ls, T = l ++ ls.flatMap (fun x => '\n' :: x) ∧ (∀ x ∈ l :: ls, '\n' ∉ x) ∧
    ls.length = T.count '\n' := by
  induction T with
  | nil => exact ⟨[], [], rfl, by simp, rfl⟩
  | cons c T ih =>
    obtain ⟨l, ls, h1, h2, h3⟩ := ih
    by_cases hc : c = '\n'
    · refine ⟨[], l :: ls, ?_, ?_, ?_⟩
      · rw [hc, h1]; simp
      · intro x hx
        rcases List.mem_cons.mp hx with rfl | hx
        · simp
        · exact h2 x hx
      · rw [hc, List.count_cons_self, ← h3]; rfl
    · refine ⟨c :: l, ls, by rw [h1]; rfl, ?_, ?_⟩
      · intro x hx
        rcases List.mem_cons.mp hx with rfl | hx
        · rw [List.mem_cons]
          exact fun h => h.elim (fun e => hc e.symm) (h2 l List.mem_cons_self)
        · exact h2 x (List.mem_cons_of_mem _ hx)
      · rw [List.count_cons_of_ne hc, h3]

theorem lineText_eq (l : Str) (ls : List Str) :
    l ++ ls.flatMap (fun x => '\n' :: x) ++ ['\n'] = l ++ '\n' :: lineText ls := by
  induction ls generalizing l with
  | nil => simp [lineText]
  | cons x ls ih =>
    have := ih x
    simp only [List.flatMap_cons, lineText, List.append_assoc, List.cons_append, List.nil_append] at this ⊢
    rw [this]

/-- Text of a definition that is read to its end: no line of it is empty or starts like a comment,
and only the last line has the mark of the end. -/
structure BodyOk (T : Str) : Prop where
  blank : ¬ ['\n', '\n'] <:+: T
  comment : ¬ ['\n', '!'] <:+: T
  early : ∀ a b, T = a ++ ("&end".toList ++ b) → '\n' ∉ b

theorem BodyOk.tail {l T : Str} (h : BodyOk (l ++ '\n' :: T)) : BodyOk T := by
  have hs : T <:+: l ++ '\n' :: T := ⟨l ++ ['\n'], [], by simp⟩
  refine ⟨fun hi => h.blank (hi.trans hs), fun hi => h.comment (hi.trans hs), fun a b e => ?_⟩
  exact h.early (l ++ '\n' :: a) b (by rw [e]; simp)

theorem moji_head {c : Char} {s : Str} (hc : c ≠ '!') : ∃ d t, moji (c :: s) = d :: t ∧ d ≠ '!' := by
  rw [moji_cons]
  rcases moji_char c with ⟨-, e⟩ | ⟨-, h1, h2⟩
  · exact ⟨c, moji s, by rw [e]; rfl, hc⟩
  · cases hm : moji [c] with
    | nil => rw [hm] at h2; simp at h2
    | cons e m =>
      refine ⟨e, m ++ moji s, rfl, ?_⟩
      rintro rfl
      exact absurd (h1 '!' (by rw [hm]; exact List.mem_cons_self)) (by decide)

theorem readNamelist_lines (fuel : Nat) (rest : Bytes) (ls : List Str) : ∀ (l : Str) (n : Nat), ls.length < n →
    (∀ x ∈ l :: ls, '\n' ∉ x) → BodyOk (l ++ ls.flatMap fun x => '\n' :: x) →
    "&end".toList <:+ l ++ ls.flatMap (fun x => '\n' :: x) →
    readNamelist (fuel + 1) n (moji l ++ ['\n']) (utf8 (lineText ls) ++ rest) =
      some (ls.map fun x => moji x ++ ['\n'], rest) := by
  induction ls with
  | nil =>
    intro l n hn hl hb he
    obtain ⟨n, rfl⟩ : ∃ m, n = m + 1 := ⟨n - 1, by simp at hn; omega⟩
    rw [List.flatMap_nil, List.append_nil] at he
    obtain ⟨a, ha⟩ := he
    have hm : hasSub "&end".toList (moji l ++ ['\n']) = true := by
      rw [← ha, moji_append, moji_ascii (s := "&end".toList) (by unfold Ascii; decide)]
      exact hasSub_infix _ _ _
    rw [readNamelist, hm]
    rfl
  | cons x ls ih =>
    intro l n hn hl hb he
    obtain ⟨n, rfl⟩ : ∃ m, n = m + 1 := ⟨n - 1, by simp at hn; omega⟩
    rw [List.flatMap_cons, List.cons_append] at hb he
    have hm : hasSub "&end".toList (moji l ++ ['\n']) = false := by
      rw [← Bool.not_eq_true, hasSub_true_iff]
      rintro ⟨a, b, hab⟩
      rw [List.append_assoc] at hab
      rcases split_sep (s := '\n') (p := "&end".toList) (by decide) hab.symm with ⟨y, hy, -⟩ | ⟨y, hy, -⟩
      · obtain ⟨a', b', hab'⟩ := infix_moji (p := "&end".toList) (by unfold Ascii; decide) ⟨a, y, by rw [hy]; simp⟩
        refine hb.early a' (b' ++ '\n' :: (x ++ ls.flatMap fun x => '\n' :: x)) ?_ (by simp)
        rw [← hab']
        simp
      · have := congrArg List.length hy
        simp at this
    have hx : ∃ c t, x = c :: t ∧ c ≠ '!' := by
      cases x with
      | nil =>
        exfalso
        cases ls with
        | nil =>
          obtain ⟨a, ha⟩ := he
          have := congrArg List.getLast? ha
          rw [List.getLast?_append] at this
          simp at this
        | cons y ls =>
          refine hb.blank ⟨l, y ++ ls.flatMap (fun x => '\n' :: x), ?_⟩
          simp
      | cons c t =>
        refine ⟨c, t, rfl, ?_⟩
        rintro rfl
        exact hb.comment ⟨l, t ++ ls.flatMap (fun x => '\n' :: x), by simp⟩
    obtain ⟨c, t, hx, hc⟩ := hx
    obtain ⟨d, u, hd, hd'⟩ := moji_head (s := t) hc
    have he' : "&end".toList <:+ x ++ ls.flatMap (fun x => '\n' :: x) := by
      obtain ⟨a, ha⟩ := he
      rcases split_sep (s := '\n') (p := "&end".toList) (y := []) (by decide)
        (by rw [List.append_nil]; exact ha.symm) with ⟨y, -, hy⟩ | ⟨y, hy, -⟩
      · have := congrArg List.length hy
        simp at this
      · rw [List.append_nil] at hy
        exact ⟨y, hy.symm⟩
    have e : utf8 (lineText (x :: ls)) ++ rest = utf8 (x ++ ['\n']) ++ (utf8 (lineText ls) ++ rest) := by
      unfold lineText
      rw [List.flatMap_cons, utf8_append, List.append_assoc]
    rw [readNamelist, hm, e, readLine_moji x (hl x (by simp)) (hx ▸ hd) hd']
    simp only [Bool.false_eq_true, if_false]
    rw [ih x n (by simp at hn; omega) (fun y hy => hl y (List.mem_cons_of_mem _ hy)) hb.tail he']
    rfl

/-! ## Definitions -/

theorem attrs_split {p : Str} (h1 : '=' ∉ p) (h2 : '"' ∉ p) (h3 : ',' ∉ p) (h4 : ' ' ∉ p) (hne : p ≠ [])
    (hk : ∀ k ∈ knownKeys, ¬ p <:+: k) (as : List Attr) (h : ∀ a ∈ as, a.key ∈ knownKeys) :
    ∀ (tail x y : Str), as.flatMap Attr.text ++ tail = x ++ (p ++ y) →
    (∃ pre a post u w z, as = pre ++ a :: post ∧ a.val = u ++ (p ++ w) ∧ y = w ++ (z ++ (post.flatMap Attr.text ++ tail)) ∧
      z = (if a.quoted then ['"'] else []) ++ [',', ' ']) ∨
    (∃ x', tail = x' ++ (p ++ y)) := by
  have hnil : ∀ x y : Str, [] ≠ x ++ (p ++ y) := by
    intro x y he
    have := congrArg List.length he
    have hl := List.length_pos_of_ne_nil hne
    simp at this
    omega
  induction as with
  | nil => exact fun tail x y he => Or.inr ⟨x, he⟩
  | cons a as ih =>
    intro tail x y he
    have again : ∀ x', as.flatMap Attr.text ++ tail = x' ++ (p ++ y) → _ := fun x' =>
      ih (fun b hb => h b (List.mem_cons_of_mem _ hb)) tail x' y
    have back : (∃ pre b post u w z, as = pre ++ b :: post ∧ b.val = u ++ (p ++ w) ∧
        y = w ++ (z ++ (post.flatMap Attr.text ++ tail)) ∧ z = (if b.quoted then ['"'] else []) ++ [',', ' ']) ∨
        (∃ x', tail = x' ++ (p ++ y)) →
      (∃ pre b post u w z, a :: as = pre ++ b :: post ∧ b.val = u ++ (p ++ w) ∧
        y = w ++ (z ++ (post.flatMap Attr.text ++ tail)) ∧ z = (if b.quoted then ['"'] else []) ++ [',', ' ']) ∨
        (∃ x', tail = x' ++ (p ++ y)) := by
      rintro (⟨pre, b, post, u, w, z, e1, e2, e3, e4⟩ | h')
      · exact Or.inl ⟨a :: pre, b, post, u, w, z, by rw [e1]; rfl, e2, e3, e4⟩
      · exact Or.inr h'
    have he1 : a.key ++ '=' :: ((if a.quoted then '"' :: (a.val ++ ['"']) else a.val) ++
        ',' :: ' ' :: (as.flatMap Attr.text ++ tail)) = x ++ (p ++ y) := by
      rw [← he]
      simp [Attr.text]
    rcases split_sep h1 he1 with ⟨y', e, -⟩ | ⟨x1, e, -⟩
    · exact absurd ⟨x, y', by rw [e]; simp⟩ (hk _ (h a (by simp)))
    cases hq : a.quoted with
    | false =>
      rw [hq] at e
      simp only [Bool.false_eq_true, if_false] at e
      rcases split_sep h3 e with ⟨w, e2, ey⟩ | ⟨x2, e2, -⟩
      · exact Or.inl ⟨[], a, as, x1, w, [',', ' '], rfl, e2, by rw [ey]; rfl, by rw [hq]; rfl⟩
      · rcases split_sep (A := []) h4 e2 with ⟨w, e3, -⟩ | ⟨x3, e3, -⟩
        · exact absurd e3 (hnil _ _)
        · exact back (again x3 e3)
    | true =>
      rw [hq] at e
      simp only [if_true] at e
      have e' : [] ++ '"' :: (a.val ++ '"' :: ',' :: ' ' :: (as.flatMap Attr.text ++ tail)) = x1 ++ (p ++ y) := by
        rw [← e]; simp
      rcases split_sep h2 e' with ⟨w, e3, -⟩ | ⟨x2, e2, -⟩
      · exact absurd e3 (hnil _ _)
      rcases split_sep h2 e2 with ⟨w, e3, ey⟩ | ⟨x3, e3, -⟩
      · exact Or.inl ⟨[], a, as, x2, w, ['"', ',', ' '], rfl, e3, by rw [ey]; rfl, by rw [hq]; rfl⟩
      · rcases split_sep (A := []) h3 e3 with ⟨w, e4, -⟩ | ⟨x4, e4, -⟩
        · exact absurd e4 (hnil _ _)
        · rcases split_sep (A := []) h4 e4 with ⟨w, e5, -⟩ | ⟨x5, e5, -⟩
          · exact absurd e5 (hnil _ _)
          · exact back (again x5 e5)

/-- One of the texts has the mark of the end, and there is a line end behind it. -/
def EndsEarly : List Str → Prop
  | [] => False
  | v :: vs => (∃ a b, v = a ++ ("&end".toList ++ b) ∧ '\n' ∈ b) ∨ ("&end".toList <:+: v ∧ ∃ u ∈ vs, '\n' ∈ u) ∨
      EndsEarly vs

/-- The texts of a definition, in the order they are written, that the reader puts together again. -/
structure LinesOk (vs : List Str) : Prop where
  blank : ∀ v ∈ vs, ¬ ['\n', '\n'] <:+: v
  comment : ∀ v ∈ vs, ¬ ['\n', '!'] <:+: v
  early : ¬ EndsEarly vs

theorem endsEarly_append {pre post : List Str} {v : Str} (h : (∃ a b, v = a ++ ("&end".toList ++ b) ∧ '\n' ∈ b) ∨
    ("&end".toList <:+: v ∧ ∃ u ∈ post, '\n' ∈ u)) : EndsEarly (pre ++ v :: post) := by
  induction pre with
  | nil =>
    rcases h with h | h
    · exact Or.inl h
    · exact Or.inr (Or.inl h)
  | cons w pre ih => exact Or.inr (Or.inr ih)

theorem newline_attrs {as : List Attr} (hk : ∀ a ∈ as, a.key ∈ knownKeys) (h : '\n' ∈ as.flatMap Attr.text) :
    ∃ a ∈ as, '\n' ∈ a.val := by
  obtain ⟨a, ha, hc⟩ := List.mem_flatMap.mp h
  by_contra hn
  push Not at hn
  exact attr_text_newline ⟨hk a ha, hn a ha⟩ hc

theorem bodyOk_of_lines {word : Str} (hw : word ∈ ["&parameter".toList, "&column".toList, "&data".toList]) {as : List Attr}
    (hk : ∀ a ∈ as, a.key ∈ knownKeys) (h : LinesOk (as.map Attr.val)) (pad : Nat) : BodyOk (nlBody word as pad) := by
  have hword : ∀ w ∈ ["&parameter".toList, "&column".toList, "&data".toList], '\n' ∉ w ∧ ¬ "&end".toList <:+: w := by
    decide +kernel
  obtain ⟨w1, w2⟩ := hword word hw
  have two : ∀ d : Char, d ∈ ['\n', '!'] → (∀ a ∈ as, ¬ ['\n', d] <:+: a.val) → ¬ ['\n', d] <:+: nlBody word as pad := by
    rintro d hd hv ⟨x, y, e⟩
    have hd' : '=' ≠ d ∧ '"' ≠ d ∧ ',' ≠ d ∧ ' ' ≠ d := by
      clear e hv
      revert d
      decide
    obtain ⟨d1, d2, d3, d4⟩ := hd'
    have nm : ∀ c : Char, c ≠ '\n' → c ≠ d → c ∉ ['\n', d] := by
      intro c h1 h2 hm
      simp only [List.mem_cons, List.not_mem_nil, or_false] at hm
      tauto
    unfold nlBody at e
    rw [List.append_assoc] at e
    rcases split_sep (nm ' ' (by decide) d4) e.symm with ⟨y', e1, -⟩ | ⟨x', e1, -⟩
    · exact w1 (by rw [e1]; simp)
    · rcases attrs_split (nm '=' (by decide) d1) (nm '"' (by decide) d2) (nm ',' (by decide) d3) (nm ' ' (by decide) d4)
        (by simp) (fun k hk' hi => ((knownKeys_plain k hk').2.2 '\n' (hi.subset (by simp))).2.2.2.1 rfl) as hk _ _ _ e1 with
        ⟨pre, a, post, u, w, z, e2, e3, -⟩ | ⟨x2, e2⟩
      · exact hv a (by rw [e2]; simp) ⟨u, w, by rw [e3]; simp⟩
      · have : '\n' ∈ List.replicate pad ' ' ++ "&end".toList := by rw [e2]; simp
        rw [List.mem_append, List.mem_replicate] at this
        rcases this with ⟨-, h'⟩ | h'
        · exact absurd h' (by decide)
        · exact absurd h' (by decide)
  refine ⟨two '\n' (by decide) fun a ha => h.blank _ (List.mem_map_of_mem ha),
    two '!' (by decide) fun a ha => h.comment _ (List.mem_map_of_mem ha), ?_⟩
  intro x y e hy
  unfold nlBody at e
  have tailN : '\n' ∉ List.replicate pad ' ' ++ "&end".toList := by
    rw [List.mem_append, List.mem_replicate]
    rintro (⟨-, h'⟩ | h')
    · exact absurd h' (by decide)
    · exact absurd h' (by decide)
  rcases split_sep (s := ' ') (p := "&end".toList) (by decide) e with ⟨y', e1, -⟩ | ⟨x', e1, -⟩
  · exact w2 ⟨x, y', by rw [e1]; simp⟩
  · rcases attrs_split (p := "&end".toList) (by decide) (by decide) (by decide) (by decide)
      (by decide) (by decide +kernel) as hk _ _ _ e1 with ⟨pre, a, post, u, w, z, e2, e3, e4, e5⟩ | ⟨x2, e2⟩
    · refine h.early ?_
      rw [e2, List.map_append, List.map_cons]
      refine endsEarly_append ?_
      rw [e4, List.mem_append, List.mem_append, List.mem_append] at hy
      rcases hy with hy | hy | hy | hy
      · exact Or.inl ⟨u, w, e3, hy⟩
      · rw [e5] at hy
        cases hq : a.quoted <;> simp [hq] at hy
      · obtain ⟨b, hb, hb'⟩ := newline_attrs (fun b hb => hk b (by rw [e2]; simp [hb])) hy
        exact Or.inr ⟨⟨u, w, by rw [e3]; simp⟩, _, List.mem_map_of_mem hb, hb'⟩
      · exact absurd hy tailN
    · exact tailN (by rw [e2]; simp [hy])

/-! ## The whole header -/

/-- Number of line ends in the texts of definitions. -/
def lineEnds (ns : List NDoc) : Nat := (ns.flatMap fun n => n.attrs.flatMap Attr.val).count '\n'

theorem attrs_lineEnds (as : List Attr) (h : ∀ a ∈ as, a.key ∈ knownKeys) :
    (as.flatMap Attr.text).count '\n' = (as.flatMap Attr.val).count '\n' := by
  induction as with
  | nil => rfl
  | cons a as ih =>
    have hk : a.key.count '\n' = 0 := by
      rw [List.count_eq_zero]
      exact fun hm => ((knownKeys_plain _ (h a (by simp))).2.2 _ hm).2.2.2.1 rfl
    have ha : a.text.count '\n' = a.val.count '\n' := by
      unfold Attr.text
      cases hq : a.quoted <;> simp [List.count_append, hk]
    rw [List.flatMap_cons, List.flatMap_cons, List.count_append, List.count_append, ha,
      ih fun b hb => h b (by simp [hb])]

theorem nlBody_lineEnds {word : Str} (hw : '\n' ∉ word) (as : List Attr) (h : ∀ a ∈ as, a.key ∈ knownKeys) (pad : Nat) :
    (nlBody word as pad).count '\n' = (as.flatMap Attr.val).count '\n' := by
  have h3 : "&end".toList.count '\n' = 0 := by decide
  unfold nlBody
  rw [List.count_append, List.count_eq_zero.mpr hw, List.count_cons_of_ne (by decide), List.count_append,
    attrs_lineEnds as h, List.count_append, List.count_replicate, h3, if_neg (by decide)]
  omega

/-- The lines of a definition. -/
theorem nlBody_lines {word : Str} (hw : '\n' ∉ word) (as : List Attr) (h : ∀ a ∈ as, a.key ∈ knownKeys) (pad : Nat) :
    ∃ l ls, nlBody word as pad = (word ++ ' ' :: l) ++ ls.flatMap (fun x => '\n' :: x) ∧
      (∀ x ∈ (word ++ ' ' :: l) :: ls, '\n' ∉ x) ∧ ls.length = (as.flatMap Attr.val).count '\n' := by
  obtain ⟨l, ls, h1, h2, h3⟩ := exists_lines (as.flatMap Attr.text ++ (List.replicate pad ' ' ++ "&end".toList))
  refine ⟨l, ls, ?_, ?_, ?_⟩
  · unfold nlBody
    rw [h1]
    simp
  · intro x hx
    rcases List.mem_cons.mp hx with rfl | hx
    · rw [List.mem_append, List.mem_cons]
      rintro (hm | hm | hm)
      · exact hw hm
      · exact absurd hm (by decide)
      · exact h2 l (by simp) hm
    · exact h2 x (List.mem_cons_of_mem _ hx)
  · rw [h3, ← nlBody_lineEnds hw as h pad]
    unfold nlBody
    rw [List.count_append (l₁ := word), List.count_eq_zero.mpr hw, List.count_cons_of_ne (by decide), Nat.zero_add]

theorem nlBody_end (word : Str) (as : List Attr) (pad : Nat) : "&end".toList <:+ nlBody word as pad :=
  ⟨word ++ ' ' :: (as.flatMap Attr.text ++ List.replicate pad ' '), by unfold nlBody; simp⟩

theorem moji_lines (ls : List Str) : moji (lineText ls) = (ls.map fun x => moji x ++ ['\n']).flatten := by
  induction ls with
  | nil => rfl
  | cons x ls ih =>
    have e : lineText (x :: ls) = x ++ (['\n'] ++ lineText ls) := by simp [lineText]
    rw [e, moji_append, moji_append, ih, moji_ascii (s := ['\n']) (by unfold Ascii; decide), List.map_cons,
      List.flatten_cons, List.append_assoc]

/-- The reader takes the first line of a definition, then the others, and puts them together. -/
theorem read_definition {c : Char} {w : Str} (hc : c ≠ '!')
    (hw : ∀ d ∈ c :: w, d.toNat < 128 ∧ d ≠ '\n') {as : List Attr}
    (hk : ∀ a ∈ as, a.key ∈ knownKeys) {pad : Nat} (h : BodyOk (nlBody (c :: w) as pad)) (rest : Bytes) :
    ∃ line ls b, (∀ fuel, readLine (fuel + 1) (utf8 (nlText (c :: w) as pad) ++ rest) = some (line, b)) ∧
      (c :: w) <+: line ∧
      (∀ fuel n, (as.flatMap Attr.val).count '\n' < n → readNamelist (fuel + 1) n line b = some (ls, rest)) ∧
      line ++ ls.flatten = nlText (c :: w) (as.map Attr.moji) pad ∧ ls.length = (as.flatMap Attr.val).count '\n' := by
  have hm := moji_nlBody (word := c :: w) (fun d hd => (hw d hd).1) as hk pad
  have hwn : '\n' ∉ c :: w := fun hn => (hw _ hn).2 rfl
  obtain ⟨l, ls, h1, h2, h3⟩ := nlBody_lines hwn as hk pad
  have hmw : moji (c :: w ++ ' ' :: l) = c :: (w ++ ' ' :: moji l) := by
    rw [moji_append, moji_ascii (fun d hd => (hw d hd).1), moji_cons, moji_ascii (s := [' ']) (by unfold Ascii; decide)]
    simp
  have e : utf8 (nlText (c :: w) as pad) ++ rest =
      utf8 ((c :: w ++ ' ' :: l) ++ ['\n']) ++ (utf8 (lineText ls) ++ rest) := by
    rw [nlText_eq, h1, lineText_eq, ← List.append_assoc, ← utf8_append]
    simp
  refine ⟨moji (c :: w ++ ' ' :: l) ++ ['\n'], ls.map fun x => moji x ++ ['\n'], utf8 (lineText ls) ++ rest, ?_, ?_, ?_, ?_, ?_⟩
  · intro fuel
    rw [e]
    exact readLine_moji _ (h2 _ (by simp)) hmw hc fuel _
  · rw [hmw]
    exact ⟨' ' :: moji l ++ ['\n'], by simp⟩
  · intro fuel n hn
    have he := nlBody_end (c :: w) as pad
    rw [h1] at h he
    exact readNamelist_lines fuel rest ls _ n (by omega) h2 h he
  · rw [nlText_eq, ← hm, h1, ← moji_lines]
    have : (['\n'] : Str) = moji ['\n'] := (moji_ascii (by unfold Ascii; decide)).symm
    rw [this, ← moji_append, ← moji_append, ← moji_append, lineText_eq]
    simp
  · rw [List.length_map, h3]

/-- A definition that is read to its end. -/
structure NDoc.Lines (n : NDoc) : Prop where
  keys : ∀ a ∈ n.attrs, a.key ∈ knownKeys
  body : BodyOk (nlBody n.kind.word n.attrs n.pad)

theorem kind_word (k : NKind) : k.word ∈ sddsNamelists ∧ ∃ c w, k.word = c :: w ∧ c ≠ '!' ∧
    (∀ d ∈ c :: w, d.toNat < 128 ∧ d ≠ '\n') := by
  cases k
  · exact ⟨by decide, '&', "parameter".toList, rfl, by decide, by decide⟩
  · exact ⟨by decide, '&', "column".toList, rfl, by decide, by decide⟩

theorem headerLoop_multi (ns : List NDoc) (hns : ∀ n ∈ ns, n.Lines) (as : List Attr)
    (has : ∀ a ∈ as, a.Ok ∧ '&' ∉ a.val) (body : Bytes) (fuel : Nat) :
    ∀ (n count : Nat), ns.length < n → lineEnds ns ≤ fuel →
    headerLoop (fuel + 1) n count (utf8 (ns.flatMap NDoc.text ++ nlText "&data".toList as 0) ++ body) =
      some (.ok ⟨(ns.map NDoc.moji).map NDoc.text ++ [nlText "&data".toList as 0], count + ns.length + 1 + lineEnds ns,
        body⟩) := by
  induction ns with
  | nil =>
    intro n count hn _
    exact headerLoop_docs [] (by simp) as has body fuel n count hn
  | cons nd ns ih =>
    intro n count hn hf
    obtain ⟨n, rfl⟩ : ∃ m, n = m + 1 := ⟨n - 1, by simp at hn; omega⟩
    obtain ⟨k4, c, w, k1, k2, k3⟩ := kind_word nd.kind
    have hl := hns nd (by simp)
    have hb := hl.body
    rw [k1] at hb
    obtain ⟨line, ls, b, r1, r2, r3, r4, r5⟩ := read_definition k2 k3 hl.keys hb
      (utf8 (ns.flatMap NDoc.text ++ nlText "&data".toList as 0) ++ body)
    have hfe : lineEnds (nd :: ns) = (nd.attrs.flatMap Attr.val).count '\n' + lineEnds ns := by
      unfold lineEnds
      rw [List.flatMap_cons, List.count_append]
    rw [hfe] at hf
    have hany : (sddsNamelists.any fun nl => hasSub nl line) = true := by
      rw [List.any_eq_true]
      refine ⟨nd.kind.word, k4, ?_⟩
      obtain ⟨t, ht⟩ := r2
      rw [k1, ← ht]
      exact hasSub_prefix _ _
    have et : nlText (c :: w) (nd.attrs.map Attr.moji) nd.pad = nd.moji.text := by
      unfold NDoc.text
      rw [← k1]
      rfl
    have e0 : utf8 nd.text = utf8 (nlText (c :: w) nd.attrs nd.pad) := by
      unfold NDoc.text
      rw [k1]
    rw [List.flatMap_cons, List.append_assoc, utf8_append, List.append_assoc, headerLoop, e0, r1 fuel]
    simp only [hany, if_true]
    rw [r3 fuel (fuel + 1) (by omega)]
    simp only
    rw [ih (fun n hn => hns n (by simp [hn])) n _ (by simp at hn; omega) (by omega)]
    simp only [r4, et, r5, hfe, List.map_cons, List.length_cons, List.cons_append, Option.some.injEq, Except.ok.injEq,
      RawHeader.mk.injEq, true_and, and_true]
    omega

/-- Every definition of the header is read to its end. -/
structure Doc.Lines (d : Doc) : Prop where
  comments : ∀ c ∈ d.comments, Ascii c ∧ '\n' ∉ c
  namelists : ∀ n ∈ d.namelists, n.Lines
  data : ∀ a ∈ d.data, a.Ok ∧ '&' ∉ a.val

theorem readHeader_lines {d : Doc} (h : d.Lines) (body : Bytes) {fuel : Nat}
    (hfuel : d.comments.length + d.namelists.length + 2 + lineEnds d.namelists ≤ fuel) :
    readHeader fuel (utf8 d.text ++ body) =
      some (.ok ⟨(d.namelists.map NDoc.moji).map NDoc.text ++ [nlText "&data".toList d.data 0],
        d.namelists.length + 2 + lineEnds d.namelists, body⟩) := by
  obtain ⟨f, rfl⟩ : ∃ m, fuel = m + d.comments.length + 1 := ⟨fuel - d.comments.length - 1, by omega⟩
  have e : utf8 d.text ++ body = utf8 ("SDDS1".toList ++ ['\n']) ++
      (utf8 (d.comments.flatMap fun c => '!' :: c ++ ['\n']) ++
        (utf8 (d.namelists.flatMap NDoc.text ++ nlText "&data".toList d.data 0) ++ body)) := by
    unfold Doc.text
    simp only [utf8_append, List.append_assoc]
    rfl
  unfold readHeader
  rw [e, readLine_line "SDDS1".toList (by decide) (by unfold Ascii; decide) (by decide) (by decide)]
  simp only
  rw [if_pos (by decide)]
  have hskip : ∀ n count, headerLoop (f + d.comments.length + 1) n count
      (utf8 (d.comments.flatMap fun c => '!' :: c ++ ['\n']) ++
        (utf8 (d.namelists.flatMap NDoc.text ++ nlText "&data".toList d.data 0) ++ body)) =
      headerLoop (f + d.comments.length + 1) n count
        (utf8 (d.namelists.flatMap NDoc.text ++ nlText "&data".toList d.data 0) ++ body) := by
    intro n count
    cases n with
    | zero => rfl
    | succ n =>
      have h1 : readLine (f + d.comments.length + 1) (utf8 (d.comments.flatMap fun c => '!' :: c ++ ['\n']) ++
        (utf8 (d.namelists.flatMap NDoc.text ++ nlText "&data".toList d.data 0) ++ body)) =
        readLine (f + 1) (utf8 (d.namelists.flatMap NDoc.text ++ nlText "&data".toList d.data 0) ++ body) := by
        rw [show f + d.comments.length + 1 = (f + 1) + d.comments.length by omega]
        exact readLine_comments _ h.comments _ _
      have h2 : readLine (f + d.comments.length + 1)
          (utf8 (d.namelists.flatMap NDoc.text ++ nlText "&data".toList d.data 0) ++ body) =
        readLine (f + 1) (utf8 (d.namelists.flatMap NDoc.text ++ nlText "&data".toList d.data 0) ++ body) := by
        cases hns : d.namelists with
        | nil =>
          rw [List.flatMap_nil, List.nil_append,
            readLine_nl (by decide) (by decide) (by decide) (fun a ha => (h.data a ha).1),
            readLine_nl (by decide) (by decide) (by decide) (fun a ha => (h.data a ha).1)]
        | cons nd ns =>
          obtain ⟨-, c, w, k1, k2, k3⟩ := kind_word nd.kind
          have hl := h.namelists nd (by rw [hns]; simp)
          have hb := hl.body
          rw [k1] at hb
          obtain ⟨line, ls, b, r1, -⟩ := read_definition k2 k3 hl.keys hb
            (utf8 (ns.flatMap NDoc.text ++ nlText "&data".toList d.data 0) ++ body)
          rw [List.flatMap_cons, List.append_assoc, utf8_append, List.append_assoc]
          have e0 : utf8 nd.text = utf8 (nlText (c :: w) nd.attrs nd.pad) := by
            unfold NDoc.text
            rw [k1]
          rw [e0]
          exact (r1 _).trans (r1 _).symm
      simp only [headerLoop, h1, h2]
  rw [hskip, headerLoop_multi _ h.namelists _ h.data body _ _ _ (by omega) (by omega)]
  congr 3
  omega

theorem lineEnds_flat {ns : List NDoc} (h : ∀ n ∈ ns, ∀ a ∈ n.attrs, '\n' ∉ a.val) : lineEnds ns = 0 := by
  unfold lineEnds
  rw [List.count_eq_zero]
  intro hm
  obtain ⟨n, hn, hm⟩ := List.mem_flatMap.mp hm
  obtain ⟨a, ha, hm⟩ := List.mem_flatMap.mp hm
  exact h n hn a ha hm

theorem LinesOk.of_flat {vs : List Str} (h : ∀ v ∈ vs, '\n' ∉ v) : LinesOk vs := by
  refine ⟨fun v hv hi => h v hv (hi.subset (by simp)), fun v hv hi => h v hv (hi.subset (by simp)), ?_⟩
  induction vs with
  | nil => exact id
  | cons v vs ih =>
    rintro (⟨a, b, e, hb⟩ | ⟨-, u, hu, hn⟩ | he)
    · exact h v (by simp) (by rw [e]; simp [hb])
    · exact h u (by simp [hu]) hn
    · exact ih (fun v hv => h v (by simp [hv])) he

theorem LinesOk.of_noEnd {vs : List Str} (h1 : ∀ v ∈ vs, ¬ ['\n', '\n'] <:+: v) (h2 : ∀ v ∈ vs, ¬ ['\n', '!'] <:+: v)
    (h3 : ∀ v ∈ vs, ¬ "&end".toList <:+: v) : LinesOk vs := by
  refine ⟨h1, h2, ?_⟩
  clear h1 h2
  induction vs with
  | nil => exact id
  | cons v vs ih =>
    rintro (⟨a, b, e, -⟩ | ⟨hi, -⟩ | he)
    · exact h3 v (by simp) ⟨a, b, by rw [e, List.append_assoc]⟩
    · exact h3 v (by simp) hi
    · exact ih (fun v hv => h3 v (by simp [hv])) he

theorem NDoc.Lines.of_texts {n : NDoc} (hk : ∀ a ∈ n.attrs, a.key ∈ knownKeys) (h : LinesOk (n.attrs.map Attr.val)) :
    n.Lines := by
  refine ⟨hk, bodyOk_of_lines ?_ hk h _⟩
  cases n.kind <;> decide

/-- Everything in the header can be read. -/
structure Doc.Wide (d : Doc) : Prop where
  comments : ∀ c ∈ d.comments, Ascii c ∧ '\n' ∉ c
  namelists : ∀ n ∈ d.namelists, ∀ a ∈ n.attrs, a.Wide
  lines : ∀ n ∈ d.namelists, LinesOk (n.attrs.map Attr.val)
  data : ∀ a ∈ d.data, a.Ok ∧ '&' ∉ a.val

theorem Doc.Wide.read {d : Doc} (h : d.Wide) : d.Lines :=
  ⟨h.comments, fun n hn => .of_texts (fun a ha => (h.namelists n hn a ha).key) (h.lines n hn), h.data⟩

theorem Doc.Flat.read {d : Doc} (h : d.Flat) : d.Lines := by
  refine ⟨h.comments, fun n hn => .of_texts (fun a ha => (h.namelists n hn a ha).key) (.of_flat ?_), h.data⟩
  intro v hv
  obtain ⟨a, ha, rfl⟩ := List.mem_map.mp hv
  exact (h.namelists n hn a ha).newline

theorem readHeader_flat {d : Doc} (h : d.Flat) (body : Bytes) {fuel : Nat}
    (hfuel : d.comments.length + d.namelists.length + 2 ≤ fuel) :
    readHeader fuel (utf8 d.text ++ body) =
      some (.ok ⟨(d.namelists.map NDoc.moji).map NDoc.text ++ [nlText "&data".toList d.data 0],
        d.namelists.length + 2, body⟩) := by
  have e := lineEnds_flat fun n hn a ha => (h.namelists n hn a ha).newline
  have := readHeader_lines h.read body (fuel := fuel) (by omega)
  rw [e] at this
  exact this

/-- Opening a file whose header can be read. -/
theorem open_wide (ft : FloatText) {d : Doc} (h : d.Wide) (body : Bytes) {fuel : Nat}
    (hfuel : d.comments.length + d.namelists.length + 2 + lineEnds d.namelists ≤ fuel) (buffer : Bool) (maxStr : Nat)
    {ps : List ParamField} {cs : List ColField}
    (hps : ((d.attrsOf .param).map fun as => as.map Attr.held).mapM (paramOf ft) = .ok ps)
    (hcs : ((d.attrsOf .col).map fun as => as.map Attr.held).mapM colOf = .ok cs)
    (hbin : (attrVal d.data "mode".toList).getD "binary".toList ≠ "ascii".toList) :
    openSdds ft fuel buffer maxStr (utf8 d.text ++ body) =
      some (.ok {
        file := utf8 d.text ++ body, buffer := buffer, maxStr := maxStr,
        headerEnd := (utf8 d.text).length, lineCount := d.namelists.length + 2 + lineEnds d.namelists,
        params := ps, cols := cs, ascii := false,
        noRowCounts := textTrue (attrVal d.data "no_row_counts".toList) }) := by
  unfold Doc.attrsOf at hps hcs
  rw [List.map_map] at hps hcs
  unfold openSdds
  rw [readHeader_lines h.read body hfuel]
  simp only
  rw [parse_wide ft d.namelists h.namelists d.data (fun a ha => (h.data a ha).1) _ ps cs hps hcs]
  simp only [bind, Except.bind, List.nil_append, decide_eq_false hbin, Bool.false_and, Bool.false_eq_true,
    if_false, List.length_append, Nat.add_sub_cancel]

end Verif.Sdds
