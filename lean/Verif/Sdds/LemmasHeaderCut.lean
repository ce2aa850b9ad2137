import Verif.Sdds.LemmasFuel
import Verif.Sdds.LemmasEarly
import Verif.Sdds.LemmasAscii2

/-!
# Headers that are cut off: the last line has no newline
-/

namespace Verif.Sdds

/-! ## The last piece of a file -/

theorem readline_last {l : Bytes} (h : ∀ b ∈ l, b ≠ 10) : readline l = (l, []) := by
  induction l with
  | nil => rfl
  | cons b l ih =>
    rw [readline, if_neg (h b List.mem_cons_self), ih fun b hb => h b (List.mem_cons_of_mem _ hb)]

theorem readLine_nil (fuel : Nat) : readLine fuel [] = none := by
  have := readLine_blank (L := []) (by simp) rfl fuel
  exact this

/-- The last piece of a file, when it does not start with `!`. -/
theorem readLine_last {p : Str} (ha : Ascii p) (hn : '\n' ∉ p) (hne : p ≠ []) (hb : p.head? ≠ some '!') (fuel : Nat) :
    readLine (fuel + 1) (utf8 p) = some (p, []) := by
  rw [readLine, readline_last (utf8_no_newline ha hn)]
  simp only [latin1_utf8 ha]
  rw [if_neg]
  rintro (h | h | h)
  · exact hne h
  · exact hn (by rw [h]; simp)
  · exact hb h

/-- The last piece of a file, when it is a piece of a comment. -/
theorem readLine_lastComment {p : Str} (ha : Ascii p) (hn : '\n' ∉ p) (hb : p.head? = some '!') (fuel : Nat) :
    readLine fuel (utf8 p) = none := by
  cases fuel with
  | zero => rfl
  | succ fuel =>
    rw [readLine, readline_last (utf8_no_newline ha hn)]
    simp only [latin1_utf8 ha]
    rw [if_pos (Or.inr (Or.inr hb)), readLine_nil]

theorem headerLoop_nil (fuel n c : Nat) : headerLoop fuel n c [] = none := by
  cases n with
  | zero => rfl
  | succ n => rw [headerLoop, readLine_nil]

theorem readNamelist_nil (fuel n : Nat) (line : Str) :
    readNamelist fuel (n + 1) line [] = if hasSub "&end".toList line then some ([], []) else none := by
  rw [readNamelist, readLine_nil]

/-! ## Parts of texts -/

theorem isPrefixOf_mono {u p s : Str} (h : u.isPrefixOf p = true) : u.isPrefixOf (p ++ s) = true := by
  rw [List.isPrefixOf_iff_prefix] at h ⊢
  exact h.trans (List.prefix_append p s)

theorem hasSub_mono {u p s : Str} (h : hasSub u p = true) : hasSub u (p ++ s) = true := by
  induction p with
  | nil =>
    rw [hasSub, List.isEmpty_iff] at h
    subst h
    cases s <;> rfl
  | cons c p ih =>
    rw [hasSub, Bool.or_eq_true] at h
    rw [List.cons_append, hasSub, Bool.or_eq_true]
    rcases h with h | h
    · exact Or.inl (isPrefixOf_mono (s := s) h)
    · exact Or.inr (ih h)

/-- The complete namelists in front of the place where the file ends. -/
theorem headerLoop_steps (ns : List NDoc) (hns : ∀ n ∈ ns, ∀ a ∈ n.attrs, a.Ok) (X : Bytes) (fuel n : Nat) :
    ∀ count : Nat, headerLoop (fuel + 1) (n + ns.length) count (utf8 (ns.flatMap NDoc.text) ++ X) =
      (headerLoop (fuel + 1) n (count + ns.length) X).map fun e =>
        e.map fun h => { h with namelists := ns.map NDoc.text ++ h.namelists } := by
  induction ns with
  | nil =>
    intro count
    have e : utf8 (([] : List NDoc).flatMap NDoc.text) ++ X = X := rfl
    rw [e]
    simp only [List.length_nil, Nat.add_zero]
    rcases headerLoop (fuel + 1) n count X with _ | _ | h <;> rfl
  | cons nd ns ih =>
    intro count
    have hk : nd.kind.word ≠ [] ∧ nd.kind.word.head? ≠ some '!' ∧
        (∀ c ∈ nd.kind.word, c.toNat < 128 ∧ c ≠ '\n') ∧ nd.kind.word ∈ sddsNamelists := by
      cases nd.kind <;> decide
    obtain ⟨k1, k2, k3, k4⟩ := hk
    rw [List.flatMap_cons, utf8_append, List.append_assoc, List.length_cons, ← Nat.add_assoc, headerLoop]
    have hl : readLine (fuel + 1) (utf8 nd.text ++ (utf8 (ns.flatMap NDoc.text) ++ X)) =
        some (nd.text, utf8 (ns.flatMap NDoc.text) ++ X) := readLine_nl k1 k2 k3 (hns nd (by simp)) nd.pad fuel _
    rw [hl]
    have hany : (sddsNamelists.any fun nl => hasSub nl nd.text) = true := by
      rw [List.any_eq_true]
      refine ⟨nd.kind.word, k4, ?_⟩
      unfold NDoc.text nlText
      exact hasSub_prefix _ _
    have hend : hasSub "&end".toList nd.text = true := nlText_hasEnd _ _ _
    simp only [hany, if_true, readNamelist, hend, List.length_nil, Nat.add_zero, List.flatten_nil, List.append_nil]
    rw [ih (fun n hn => hns n (by simp [hn])) (count + 1), show count + 1 + ns.length = count + (ns.length + 1) by omega]
    rcases headerLoop (fuel + 1) n (count + (ns.length + 1)) X with _ | _ | h <;> rfl

/-! ## The reader at the end of the file -/

/-- The words that start the lines of a header. -/
def headWords : List Str := ["SDDS1".toList, "&parameter".toList, "&column".toList, "&data".toList]

/-- A piece of the first word of a line: not empty and not the whole word. -/
def WordPiece (p : Str) : Prop := p ≠ [] ∧ ∃ w ∈ headWords, p <+: w ∧ p ≠ w

theorem prefix_take {p w : Str} (h : p <+: w) : p = w.take p.length := by
  obtain ⟨t, rfl⟩ := h
  simp

theorem piece_facts {p : Str} (h : WordPiece p) :
    p.head? ≠ some '!' ∧ hasSub "SDDS1".toList p = false ∧ (sddsNamelists.any fun nl => hasSub nl p) = false ∧
      "&data".toList.isPrefixOf p = false := by
  obtain ⟨h1, w, hw, h2, h3⟩ := h
  have key : ∀ w ∈ headWords, ∀ k < w.length, 0 < k → (w.take k).head? ≠ some '!' ∧ hasSub "SDDS1".toList (w.take k) = false ∧
      (sddsNamelists.any fun nl => hasSub nl (w.take k)) = false ∧ "&data".toList.isPrefixOf (w.take k) = false := by
    decide +kernel
  rw [prefix_take h2]
  refine key w hw _ ?_ (List.length_pos_iff.mpr h1)
  rcases Nat.lt_or_ge p.length w.length with h | h
  · exact h
  · exact absurd (h2.eq_of_length_le h) h3

/-- The file ends within the first word of a line. -/
theorem headerLoop_piece {p : Str} (h : WordPiece p) (ha : Ascii p) (hn : '\n' ∉ p) (fuel n c : Nat) :
    headerLoop (fuel + 1) (n + 1) c (utf8 p) = some (.error .exception) := by
  obtain ⟨h1, h2, h3, h4⟩ := piece_facts h
  rw [headerLoop, readLine_last ha hn h.1 h1]
  simp only [h3, h4, Bool.false_eq_true, if_false]

/-- The file ends within a namelist, after its first word. -/
theorem headerLoop_within {p q : Str} {k : NKind} (h : p = k.word ++ q) (ha : Ascii p) (hn : '\n' ∉ p) (fuel n c : Nat) :
    headerLoop fuel n c (utf8 p) = none := by
  cases n with
  | zero => rfl
  | succ n =>
  cases fuel with
  | zero => rfl
  | succ fuel =>
    have hk : k.word ≠ [] ∧ k.word.head? ≠ some '!' ∧ k.word ∈ sddsNamelists := by cases k <;> decide
    obtain ⟨k1, k2, k3⟩ := hk
    have hne : p ≠ [] := by rw [h]; simp [k1]
    have hb : p.head? ≠ some '!' := by
      rw [h]
      cases hw : k.word with
      | nil => exact absurd hw k1
      | cons c w => rw [hw] at k2; simpa using k2
    rw [headerLoop, readLine_last ha hn hne hb]
    have hany : (sddsNamelists.any fun nl => hasSub nl p) = true := by
      rw [List.any_eq_true]
      exact ⟨_, k3, by rw [h]; exact hasSub_prefix _ _⟩
    simp only [hany, if_true, readNamelist_nil]
    by_cases he : hasSub "&end".toList p = true
    · simp only [if_pos he, headerLoop_nil]
    · simp only [if_neg he]

/-- Text of the `&data` line between `&` and `&end`. -/
theorem data_between {as : List Attr} (h : ∀ a ∈ as, a.Ok ∧ '&' ∉ a.val) : '&' ∉ "data".toList ++ ' ' :: as.flatMap Attr.text := by
  intro hc
  rw [List.mem_append, List.mem_cons, List.mem_flatMap] at hc
  rcases hc with hc | hc | ⟨a, ha, hc⟩
  · exact absurd hc (by decide)
  · exact absurd hc (by decide)
  · obtain ⟨_, _, hk⟩ := knownKeys_plain a.key (h a ha).1.key
    unfold Attr.text at hc
    have : '&' ∈ a.key ∨ '&' ∈ a.val := by
      cases hq : a.quoted <;> simp only [hq, Bool.false_eq_true, if_false, if_true, List.mem_append, List.mem_cons,
        List.not_mem_nil, or_false, Char.reduceEq, false_or] at hc <;> tauto
    rcases this with hc | hc
    · exact (hk _ hc).2.2.2.2.1 rfl
    · exact (h a ha).2 hc

theorem data_body (as : List Attr) :
    nlBody "&data".toList as 0 = '&' :: (("data".toList ++ ' ' :: as.flatMap Attr.text) ++ "&end".toList) := by
  simp [nlBody]

/-- A piece of the `&data` line has no `&end` unless it is all of it. -/
theorem data_piece_noEnd {as : List Attr} (h : ∀ a ∈ as, a.Ok ∧ '&' ∉ a.val) {p s : Str}
    (hp : p ++ s = nlBody "&data".toList as 0) (hs : s ≠ []) : hasSub "&end".toList p = false := by
  rw [data_body] at hp
  have hmid := data_between h
  cases p with
  | nil => rfl
  | cons c p =>
    rw [List.cons_append, List.cons.injEq] at hp
    obtain ⟨rfl, hp⟩ := hp
    have hp1 : hasSub "&end".toList p = false := by
      rcases List.append_eq_append_iff.mp hp with ⟨t, ht, _⟩ | ⟨t, rfl, ht⟩
      · refine hasSub_false _ _ '&' (by decide) ?_
        intro hc
        exact hmid (by rw [ht]; exact List.mem_append_left _ hc)
      · rw [show "&end".toList = '&' :: "end".toList from rfl, hasSub_skip hmid]
        have ht' : t = "&end".toList.take t.length := prefix_take ⟨s, ht.symm⟩
        have hlen : t.length < 4 := by
          have h1 := congrArg List.length ht
          have h2 := List.length_pos_iff.mpr hs
          have h3 : "&end".toList.length = 4 := rfl
          rw [List.length_append, h3] at h1
          omega
        rw [ht']
        have key : ∀ k < 4, hasSub ('&' :: "end".toList) ("&end".toList.take k) = false := by decide +kernel
        exact key _ hlen
    rw [hasSub, hp1, Bool.or_false]
    have : p = [] ∨ p.head? ≠ some 'e' := by
      cases p with
      | nil => exact Or.inl rfl
      | cons d p =>
        right
        have : d = 'd' := by
          have := congrArg List.head? hp
          simpa using this
        rw [this]
        simp
    rcases this with rfl | this
    · rfl
    · cases p with
      | nil => rfl
      | cons d p =>
        have hd : 'e' ≠ d := by
          intro e
          exact this (by rw [← e]; rfl)
        simp [List.isPrefixOf, hd]

theorem data_piece_notNamelist {as : List Attr} (h : ∀ a ∈ as, a.Ok ∧ '&' ∉ a.val) {p s : Str}
    (hp : p ++ s = nlBody "&data".toList as 0) : (sddsNamelists.any fun nl => hasSub nl p) = false := by
  rw [Bool.eq_false_iff]
  intro hc
  rw [List.any_eq_true] at hc
  obtain ⟨u, hu, hc⟩ := hc
  have h2 := data_not_namelist h
  rw [nlText_eq, ← hp, List.append_assoc] at h2
  rw [Bool.eq_false_iff] at h2
  apply h2
  rw [List.any_eq_true]
  exact ⟨u, hu, hasSub_mono hc⟩

/-- The file ends within the `&data` line, after its first word and before `&end` is complete. -/
theorem headerLoop_dataWithin {as : List Attr} (h : ∀ a ∈ as, a.Ok ∧ '&' ∉ a.val) {p q s : Str}
    (hp : p ++ s = nlBody "&data".toList as 0) (hs : s ≠ []) (hq : p = "&data".toList ++ q) (ha : Ascii p) (hn : '\n' ∉ p)
    (fuel n c : Nat) : headerLoop fuel n c (utf8 p) = none := by
  cases n with
  | zero => rfl
  | succ n =>
  cases fuel with
  | zero => rfl
  | succ fuel =>
    have hne : p ≠ [] := by rw [hq]; simp
    have hb : p.head? ≠ some '!' := by rw [hq]; simp
    have hpre : "&data".toList.isPrefixOf p = true := by
      rw [hq, List.isPrefixOf_iff_prefix]; exact List.prefix_append _ _
    rw [headerLoop, readLine_last ha hn hne hb]
    simp only [data_piece_notNamelist h hp, Bool.false_eq_true, if_false, hpre, if_true, readNamelist_nil,
      data_piece_noEnd h hp hs]

/-- Only the newline after the `&data` line is missing. -/
theorem headerLoop_dataLast {as : List Attr} (h : ∀ a ∈ as, a.Ok ∧ '&' ∉ a.val) (ha : Ascii (nlBody "&data".toList as 0))
    (hn : '\n' ∉ nlBody "&data".toList as 0) (fuel n c : Nat) :
    headerLoop (fuel + 1) (n + 1) c (utf8 (nlBody "&data".toList as 0)) =
      some (.ok ⟨[nlBody "&data".toList as 0], c + 1, []⟩) := by
  have hq : ∃ q, nlBody "&data".toList as 0 = "&data".toList ++ q := ⟨_, rfl⟩
  obtain ⟨q, hq⟩ := hq
  have hend : hasSub "&end".toList (nlBody "&data".toList as 0) = true := by
    rw [data_body, ← List.cons_append]
    exact hasSub_append_left _ _ _ (by decide)
  rw [headerLoop, readLine_last ha hn (by rw [hq]; simp) (by rw [hq]; simp)]
  have hpre : "&data".toList.isPrefixOf (nlBody "&data".toList as 0) = true := by
    rw [hq, List.isPrefixOf_iff_prefix]; exact List.prefix_append _ _
  simp only [data_piece_notNamelist h (List.append_nil _), Bool.false_eq_true, if_false, hpre, if_true, readNamelist_nil,
    hend, List.flatten_nil, List.append_nil, List.length_nil, Nat.add_zero]

/-! ## The lines of a header -/

/-- The lines without their newlines. -/
def Doc.bodies (d : Doc) : List Str :=
  "SDDS1".toList :: (d.comments.map ('!' :: ·) ++ (d.namelists.map (fun n => nlBody n.kind.word n.attrs n.pad) ++
    [nlBody "&data".toList d.data 0]))

/-- Text of complete lines. -/
def linesText (bs : List Str) : Str := bs.flatMap (· ++ ['\n'])

theorem linesText_append (a b : List Str) : linesText (a ++ b) = linesText a ++ linesText b := List.flatMap_append

theorem linesText_comments (cs : List Str) : linesText (cs.map ('!' :: ·)) = cs.flatMap fun c => '!' :: c ++ ['\n'] := by
  unfold linesText
  rw [List.flatMap_map]

theorem linesText_namelists (ns : List NDoc) :
    linesText (ns.map fun n => nlBody n.kind.word n.attrs n.pad) = ns.flatMap NDoc.text := by
  unfold linesText
  rw [List.flatMap_map]
  congr 1
  funext n
  exact (nlText_eq _ _ _).symm

theorem Doc.text_lines (d : Doc) : d.text = linesText d.bodies := by
  have e : linesText d.bodies = "SDDS1".toList ++ ['\n'] ++ linesText (d.comments.map ('!' :: ·) ++
      (d.namelists.map (fun n => nlBody n.kind.word n.attrs n.pad) ++ [nlBody "&data".toList d.data 0])) := rfl
  have e2 : linesText [nlBody "&data".toList d.data 0] = nlText "&data".toList d.data 0 := by
    rw [nlText_eq]; simp [linesText]
  rw [e, linesText_append, linesText_append, linesText_comments, linesText_namelists, e2]
  unfold Doc.text
  simp only [List.append_assoc]
  rfl

/-- Text that ends within a line. -/
theorem lines_split {bs : List Str} (hb : ∀ b ∈ bs, '\n' ∉ b) {a p q : Str} (h : linesText bs = a ++ (p ++ q))
    (ha : a = [] ∨ a.getLast? = some '\n') (hp : '\n' ∉ p) (hq : q ≠ []) :
    ∃ B1 b s B2, bs = B1 ++ b :: B2 ∧ a = linesText B1 ∧ b = p ++ s ∧ q = s ++ '\n' :: linesText B2 := by
  induction bs generalizing a with
  | nil =>
    have := (List.append_eq_nil_iff.mp (List.append_eq_nil_iff.mp h.symm).2).2
    exact absurd this hq
  | cons b bs ih =>
    have e : linesText (b :: bs) = b ++ '\n' :: linesText bs := by
      simp [linesText]
    rw [e] at h
    have hb1 := hb b List.mem_cons_self
    by_cases ha0 : a = []
    · subst ha0
      refine ⟨[], b, ?_⟩
      rcases List.append_eq_append_iff.mp (show b ++ '\n' :: linesText bs = p ++ q from h) with ⟨t, ht, hq'⟩ | ⟨t, ht, hq'⟩
      · cases t with
        | nil =>
          simp only [List.append_nil, List.nil_append] at ht hq'
          exact ⟨[], bs, rfl, rfl, by rw [ht, List.append_nil], hq'.symm⟩
        | cons c t =>
          exfalso
          rw [List.cons_append, List.cons.injEq] at hq'
          exact hp (by rw [ht, ← hq'.1]; simp)
      · exact ⟨t, bs, rfl, rfl, ht, hq'⟩
    · have hlast := ha.resolve_left ha0
      rcases List.append_eq_append_iff.mp h with ⟨t, ht, hq'⟩ | ⟨t, ht, _⟩
      · cases t with
        | nil =>
          exfalso
          rw [List.append_nil] at ht
          rw [ht] at hlast
          exact hb1 (List.mem_of_getLast? hlast)
        | cons c t =>
          rw [List.cons_append, List.cons.injEq] at hq'
          obtain ⟨rfl, hq'⟩ := hq'
          have ht' : t = [] ∨ t.getLast? = some '\n' := by
            cases t with
            | nil => exact Or.inl rfl
            | cons x t =>
              right
              rw [ht] at hlast
              simpa [List.getLast?_append, List.getLast?_cons_cons] using hlast
          obtain ⟨B1, b', s, B2, h1, h2, h3, h4⟩ := ih (fun b hb' => hb b (List.mem_cons_of_mem _ hb')) hq' ht'
          refine ⟨b :: B1, b', s, B2, by rw [h1]; rfl, ?_, h3, h4⟩
          rw [ht, h2]
          simp [linesText]
      · exfalso
        apply hb1
        rw [ht]
        exact List.mem_append_left _ (List.mem_of_getLast? hlast)

theorem bodies_chars {d : Doc} (h : d.Ok) : ∀ b ∈ d.bodies, Ascii b ∧ '\n' ∉ b := by
  intro b hb
  unfold Doc.bodies at hb
  rw [List.mem_cons, List.mem_append, List.mem_append, List.mem_map, List.mem_map, List.mem_singleton] at hb
  rcases hb with rfl | ⟨c, hc, rfl⟩ | ⟨n, hn, rfl⟩ | rfl
  · exact ⟨by unfold Ascii; decide, by decide⟩
  · obtain ⟨h1, h2⟩ := h.comments c hc
    refine ⟨?_, ?_⟩
    · intro x hx
      rcases List.mem_cons.mp hx with rfl | hx
      · decide
      · exact h1 x hx
    · rw [List.mem_cons, not_or]; exact ⟨by decide, h2⟩
  · exact nlBody_chars (by cases n.kind <;> decide) (h.namelists n hn) _
  · exact nlBody_chars (by decide) (fun a ha => (h.data a ha).1) _

end Verif.Sdds
