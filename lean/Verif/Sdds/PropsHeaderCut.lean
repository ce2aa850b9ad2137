import Verif.Sdds.LemmasHeaderCut
import Verif.Sdds.PropsCut

/-!
# Property C123: headers that are cut off
-/

namespace Verif.Sdds

/-- The comments at the start of a header are skipped. -/
theorem readHeader_skip {cs : List Str} (hcs : ∀ c ∈ cs, Ascii c ∧ '\n' ∉ c) {X : Bytes} {r : Option (Str × Bytes)}
    (hX : ∀ fuel, readLine (fuel + 1) X = r) (f : Nat) :
    readHeader (f + cs.length + 1) (utf8 (linesText ("SDDS1".toList :: cs.map ('!' :: ·))) ++ X) =
      headerLoop (f + cs.length + 1) (f + cs.length + 1) 1 X := by
  have e0 : linesText ("SDDS1".toList :: cs.map ('!' :: ·)) = "SDDS1".toList ++ ['\n'] ++ cs.flatMap fun c => '!' :: c ++ ['\n'] := by
    rw [← linesText_comments]; rfl
  have e : utf8 (linesText ("SDDS1".toList :: cs.map ('!' :: ·))) ++ X =
      utf8 ("SDDS1".toList ++ ['\n']) ++ (utf8 (cs.flatMap fun c => '!' :: c ++ ['\n']) ++ X) := by
    rw [e0, utf8_append, List.append_assoc]
  unfold readHeader
  rw [e, readLine_line "SDDS1".toList (by decide) (by unfold Ascii; decide) (by decide) (by decide)]
  simp only
  rw [if_pos (by decide)]
  have h1 : readLine (f + cs.length + 1) (utf8 (cs.flatMap fun c => '!' :: c ++ ['\n']) ++ X) = readLine (f + 1) X := by
    rw [show f + cs.length + 1 = (f + 1) + cs.length by omega]
    exact readLine_comments _ hcs _ _
  rw [headerLoop, headerLoop, h1, hX f, hX (f + cs.length)]

/-- Where a line of the header may be. -/
theorem bodies_split {d : Doc} {B1 B2 : List Str} {b : Str} (h : d.bodies = B1 ++ b :: B2) :
    (B1 = [] ∧ b = "SDDS1".toList) ∨
    (∃ cs c cs', d.comments = cs ++ c :: cs' ∧ B1 = "SDDS1".toList :: cs.map ('!' :: ·) ∧ b = '!' :: c) ∨
    (∃ ns n ns', d.namelists = ns ++ n :: ns' ∧ b = nlBody n.kind.word n.attrs n.pad ∧
      B1 = ("SDDS1".toList :: d.comments.map ('!' :: ·)) ++ ns.map fun n => nlBody n.kind.word n.attrs n.pad) ∨
    (B2 = [] ∧ b = nlBody "&data".toList d.data 0 ∧
      B1 = ("SDDS1".toList :: d.comments.map ('!' :: ·)) ++ d.namelists.map fun n => nlBody n.kind.word n.attrs n.pad) := by
  unfold Doc.bodies at h
  cases B1 with
  | nil =>
    rw [List.nil_append, List.cons.injEq] at h
    exact Or.inl ⟨rfl, h.1.symm⟩
  | cons b1 B1 =>
    rw [List.cons_append, List.cons.injEq] at h
    obtain ⟨rfl, h⟩ := h
    right
    have second : ∀ {C : List Str}, B1 = d.comments.map ('!' :: ·) ++ C →
        d.namelists.map (fun n => nlBody n.kind.word n.attrs n.pad) ++ [nlBody "&data".toList d.data 0] = C ++ b :: B2 →
        (∃ ns n ns', d.namelists = ns ++ n :: ns' ∧ b = nlBody n.kind.word n.attrs n.pad ∧
          "SDDS1".toList :: B1 = ("SDDS1".toList :: d.comments.map ('!' :: ·)) ++ ns.map fun n => nlBody n.kind.word n.attrs n.pad) ∨
        (B2 = [] ∧ b = nlBody "&data".toList d.data 0 ∧ "SDDS1".toList :: B1 =
          ("SDDS1".toList :: d.comments.map ('!' :: ·)) ++ d.namelists.map fun n => nlBody n.kind.word n.attrs n.pad) := by
      intro C hB1 hC
      rcases List.append_eq_append_iff.mp hC with ⟨t, rfl, ht⟩ | ⟨t, ht, ht'⟩
      · right
        cases t with
        | nil =>
          simp only [List.nil_append, List.cons.injEq] at ht
          exact ⟨ht.2.symm, ht.1.symm, by rw [hB1, List.append_nil]; rfl⟩
        | cons x t =>
          have := congrArg List.length ht
          simp at this
      · cases t with
        | nil =>
          right
          simp only [List.nil_append, List.append_nil, List.cons.injEq] at ht ht'
          exact ⟨ht'.2, ht'.1, by rw [hB1, ht]; rfl⟩
        | cons x t =>
          left
          rw [List.cons_append, List.cons.injEq] at ht'
          obtain ⟨rfl, -⟩ := ht'
          obtain ⟨ns, ns2, hn1, rfl, hn3⟩ := List.map_eq_append_iff.mp ht
          obtain ⟨n, ns', rfl, hn4, -⟩ := List.map_eq_cons_iff.mp hn3
          exact ⟨ns, n, ns', hn1, hn4.symm, by rw [hB1]; rfl⟩
    rcases List.append_eq_append_iff.mp h with ⟨t, ht1, ht2⟩ | ⟨t, ht1, ht2⟩
    · exact Or.inr (second ht1 ht2)
    · cases t with
      | nil =>
        rw [List.append_nil] at ht1
        exact Or.inr (second (C := []) (by rw [List.append_nil, ht1]) (by simpa using ht2.symm))
      | cons x t =>
        left
        rw [List.cons_append, List.cons.injEq] at ht2
        obtain ⟨rfl, -⟩ := ht2
        obtain ⟨cs, cs2, hc1, rfl, hc3⟩ := List.map_eq_append_iff.mp ht1
        obtain ⟨c, cs', rfl, hc4, -⟩ := List.map_eq_cons_iff.mp hc3
        exact ⟨cs, c, cs', hc1, rfl, hc4.symm⟩

/-- A piece of a line with first word `w`. -/
theorem piece_or {w t p s : Str} (hw : w ∈ headWords) (h : w ++ t = p ++ s) : p = [] ∨ WordPiece p ∨ ∃ q, p = w ++ q := by
  by_cases h0 : p = []
  · exact Or.inl h0
  right
  rcases List.append_eq_append_iff.mp h with ⟨x, hx, _⟩ | ⟨x, hx, _⟩
  · exact Or.inr ⟨x, hx⟩
  · cases x with
    | nil => exact Or.inr ⟨[], by rw [hx]; simp⟩
    | cons c x =>
      refine Or.inl ⟨h0, w, hw, ⟨_, hx.symm⟩, ?_⟩
      intro e
      have := congrArg List.length hx
      rw [e] at this
      simp at this

theorem no_bang {p s t : Str} (h : p ++ s = '&' :: t) : p.head? ≠ some '!' := by
  cases p with
  | nil => simp
  | cons x p =>
    rw [List.cons_append, List.cons.injEq] at h
    rw [h.1]
    simp

/-- The reader on complete namelists and a last piece. -/
theorem readHeader_pieces {d : Doc} (h : d.Ok) {ns : List NDoc} (hns : ∀ n ∈ ns, ∀ a ∈ n.attrs, a.Ok) {p : Str} (ha : Ascii p) (hn : '\n' ∉ p)
    (hb : p.head? ≠ some '!') (m : Nat) :
    readHeader (ns.length + m + d.comments.length + 1)
      (utf8 (linesText (("SDDS1".toList :: d.comments.map ('!' :: ·)) ++ ns.map fun n => nlBody n.kind.word n.attrs n.pad) ++ p)) =
      (headerLoop (ns.length + m + d.comments.length + 1) (m + d.comments.length + 1) (1 + ns.length) (utf8 p)).map fun e =>
        e.map fun h => { h with namelists := ns.map NDoc.text ++ h.namelists } := by
  have e : utf8 (linesText (("SDDS1".toList :: d.comments.map ('!' :: ·)) ++ ns.map fun n => nlBody n.kind.word n.attrs n.pad) ++ p) =
      utf8 (linesText ("SDDS1".toList :: d.comments.map ('!' :: ·))) ++ (utf8 (ns.flatMap NDoc.text) ++ utf8 p) := by
    rw [linesText_append, linesText_namelists, utf8_append, utf8_append, List.append_assoc]
  have hX : ∃ r, ∀ fuel, readLine (fuel + 1) (utf8 (ns.flatMap NDoc.text) ++ utf8 p) = r := by
    cases ns with
    | nil =>
      by_cases h0 : p = []
      · subst h0
        exact ⟨none, fun fuel => readLine_nil _⟩
      · exact ⟨_, fun fuel => readLine_last ha hn h0 hb fuel⟩
    | cons nd ns =>
      refine ⟨some (nd.text, utf8 (ns.flatMap NDoc.text) ++ utf8 p), fun fuel => ?_⟩
      rw [List.flatMap_cons, utf8_append, List.append_assoc]
      exact readLine_nl (by cases nd.kind <;> decide) (by cases nd.kind <;> decide) (by cases nd.kind <;> decide) (hns nd (by simp)) nd.pad fuel _
  obtain ⟨r, hX⟩ := hX
  rw [e, readHeader_skip h.comments hX]
  have := headerLoop_steps ns hns (utf8 p) (ns.length + m + d.comments.length) (m + d.comments.length + 1) 1
  rw [← this]
  congr 1
  omega

/-- The outcome for a header that is cut off within a line. -/
theorem header_cut_steps {d : Doc} (h : d.Ok) {a p q : Str} (ht : d.text = a ++ (p ++ q)) (ha : a = [] ∨ a.getLast? = some '\n')
    (hp : '\n' ∉ p) (hq : q ≠ []) (m : Nat) :
    (WordPiece p → readHeader (d.namelists.length + m + d.comments.length + 1) (utf8 (a ++ p)) = some (.error .exception)) ∧
    (¬ WordPiece p → q ≠ ['\n'] → readHeader (d.namelists.length + m + d.comments.length + 1) (utf8 (a ++ p)) = none) ∧
    (q = ['\n'] → readHeader (d.namelists.length + m + d.comments.length + 1) (utf8 (a ++ p)) =
      some (.ok ⟨d.namelists.map NDoc.text ++ [nlBody "&data".toList d.data 0], d.namelists.length + 2, []⟩)) := by
  rw [d.text_lines] at ht
  have hch := bodies_chars h
  obtain ⟨B1, b, s, B2, hB, rfl, hb, hq'⟩ := lines_split (fun b hb => (hch b hb).2) ht ha hp hq
  have hbc := hch b (by rw [hB]; simp)
  have hpa : Ascii p := fun c hc => hbc.1 c (by rw [hb]; exact List.mem_append_left _ hc)
  -- only the newline at the very end is missing
  have hlast : q = ['\n'] ↔ s = [] ∧ B2 = [] := by
    rw [hq']
    constructor
    · intro e
      cases s with
      | nil =>
        refine ⟨rfl, ?_⟩
        cases B2 with
        | nil => rfl
        | cons x B2 => simp [linesText] at e
      | cons c s => simp at e
    · rintro ⟨rfl, rfl⟩; rfl
  rcases bodies_split hB with ⟨rfl, rfl⟩ | ⟨cs, c, cs', hc, rfl, rfl⟩ | ⟨ns, n, ns', hn, rfl, rfl⟩ | ⟨rfl, rfl, rfl⟩
  · -- the first line
    have hB2 : B2 ≠ [] := by
      have := congrArg List.length hB
      rintro rfl
      simp [Doc.bodies] at this
    have e : linesText [] ++ p = p := rfl
    rw [e]
    refine ⟨fun hw => ?_, fun hw _ => ?_, fun hw => absurd (hlast.mp hw).2 hB2⟩
    · obtain ⟨f1, f2, _, _⟩ := piece_facts hw
      unfold readHeader
      rw [readLine_last hpa hp hw.1 f1]
      simp only [f2, Bool.false_eq_true, if_false]
    · rcases piece_or (w := "SDDS1".toList) (t := []) (p := p) (s := s) (by decide) ((List.append_nil _).trans hb) with rfl | h1 | ⟨x, hx⟩
      · unfold readHeader
        rw [show utf8 ([] : Str) = [] from rfl, readLine_nil]
      · exact absurd h1 hw
      · have : x = [] := by
          have := congrArg List.length hb
          rw [hx] at this
          simp only [List.length_append] at this
          exact List.eq_nil_of_length_eq_zero (by omega)
        subst this
        rw [List.append_nil] at hx
        subst hx
        unfold readHeader
        rw [readLine_last hpa hp (by decide) (by decide)]
        simp only [headerLoop_nil, ite_eq_left_iff]
        intro hc
        exact absurd (show hasSub "SDDS1".toList "SDDS1".toList = true by decide) hc
  · -- a comment
    have hB2 : B2 ≠ [] := by
      have := congrArg List.length hB
      rintro rfl
      simp [Doc.bodies, hc] at this
    have hstop : p = [] ∨ p.head? = some '!' := by
      cases p with
      | nil => exact Or.inl rfl
      | cons x p =>
        rw [List.cons_append, List.cons.injEq] at hb
        rw [← hb.1]
        exact Or.inr rfl
    have hnw : ¬ WordPiece p := by
      intro hw
      rcases hstop with h1 | h1
      · exact hw.1 h1
      · exact (piece_facts hw).1 h1
    refine ⟨fun hw => absurd hw hnw, fun _ _ => ?_, fun hw => absurd (hlast.mp hw).2 hB2⟩
    have hX : ∀ fuel, readLine (fuel + 1) (utf8 p) = none := by
      intro fuel
      rcases hstop with rfl | h1
      · exact readLine_nil _
      · exact readLine_lastComment hpa hp h1 _
    have hlen : cs.length ≤ d.comments.length := by rw [hc]; simp
    have hf : d.namelists.length + m + d.comments.length + 1 =
        (d.namelists.length + m + (d.comments.length - cs.length)) + cs.length + 1 := by omega
    rw [hf, utf8_append, readHeader_skip (fun c' hc' => h.comments c' (by rw [hc]; simp [hc'])) hX, headerLoop, hX]
  · -- a namelist
    have hB2 : B2 ≠ [] := by
      have := congrArg List.length hB
      rintro rfl
      simp [Doc.bodies, hn] at this
    have hns : ∀ n ∈ ns, ∀ a ∈ n.attrs, a.Ok := fun n' hn' => h.namelists n' (by rw [hn]; simp [hn'])
    have hnlen : d.namelists.length + m + d.comments.length + 1 = ns.length + (d.namelists.length - ns.length + m) + d.comments.length + 1 := by
      have : ns.length ≤ d.namelists.length := by rw [hn]; simp
      omega
    have hbang : p.head? ≠ some '!' := by
      have : ∃ t, nlBody n.kind.word n.attrs n.pad = '&' :: t := by cases n.kind <;> exact ⟨_, rfl⟩
      obtain ⟨t, hw⟩ := this
      exact no_bang (hb.symm.trans hw)
    rw [hnlen, readHeader_pieces h hns hpa hp hbang]
    refine ⟨fun hw => ?_, fun hw _ => ?_, fun hw => absurd (hlast.mp hw).2 hB2⟩
    · rw [headerLoop_piece hw hpa hp]
      rfl
    · rcases piece_or (w := n.kind.word) (by cases n.kind <;> decide) hb with rfl | h1 | ⟨x, hx⟩
      · rw [show utf8 ([] : Str) = [] from rfl, headerLoop_nil]; rfl
      · exact absurd h1 hw
      · rw [headerLoop_within hx hpa hp]; rfl
  · -- the data line
    have hbang : p.head? ≠ some '!' := no_bang (hb.symm.trans (data_body _))
    rw [readHeader_pieces h h.namelists hpa hp hbang]
    refine ⟨fun hw => ?_, fun hw hq1 => ?_, fun hw => ?_⟩
    · rw [headerLoop_piece hw hpa hp]
      rfl
    · have hs : s ≠ [] := fun e => hq1 (hlast.mpr ⟨e, rfl⟩)
      rcases piece_or (w := "&data".toList) (by decide) hb with rfl | h1 | ⟨x, hx⟩
      · rw [show utf8 ([] : Str) = [] from rfl, headerLoop_nil]; rfl
      · exact absurd h1 hw
      · rw [headerLoop_dataWithin h.data hb.symm hs hx hpa hp]; rfl
    · have hs := (hlast.mp hw).1
      subst hs
      rw [List.append_nil] at hb
      subst hb
      rw [headerLoop_dataLast h.data hpa hp]
      simp only [Option.map_some, Except.map, Option.some.injEq, Except.ok.injEq, RawHeader.mk.injEq, and_true, true_and]
      omega

/-- The namelist of the data line without its newline means the same. -/
theorem mkData_body (as : List Attr) (h : ∀ a ∈ as, a.Ok) (pad : Nat) :
    mkData (nlBody "&data".toList as pad) = mkData (nlText "&data".toList as pad) := by
  unfold mkData
  rw [shlex_nl _ (by decide) (by decide) as h pad]
  have : shlexSplit (nlBody "&data".toList as pad) = .ok ("&data".toList :: (as.map Attr.tok ++ ["&end".toList])) := by
    unfold shlexSplit nlBody
    rw [lex_plain "&data".toList (by decide) (by decide) ' ' (by decide), lex_attrs as h, lex_blank]
    have e : lex .space [] false "&end".toList = .ok ["&end".toList] := by decide
    rw [e]
    rfl
  rw [this]

theorem firstWord_body (word : Str) (hne : word ≠ []) (hw : ∀ c ∈ word, isSpace c = false) (as : List Attr) (pad : Nat) :
    firstWord (nlBody word as pad) = word := by
  unfold firstWord nlBody lstrip
  cases word with
  | nil => exact absurd rfl hne
  | cons c w =>
    rw [List.cons_append, List.dropWhile_cons_of_neg (by simpa using hw c (by simp)), ← List.cons_append,
      List.takeWhile_append_of_pos (by simpa using hw)]
    rw [List.takeWhile_cons_of_neg (by decide), List.append_nil]

/-- The last namelist of the header may lack its newline. -/
theorem parse_last (ft : FloatText) (as : List Attr) (h : ∀ a ∈ as, a.Ok) : ∀ (nls : List Str) (p : Parsed),
    parseNamelists ft (nls ++ [nlBody "&data".toList as 0]) p = parseNamelists ft (nls ++ [nlText "&data".toList as 0]) p := by
  intro nls
  induction nls with
  | nil =>
    intro p
    simp only [List.nil_append, parseNamelists, firstWord_nl "&data".toList (by decide) (by decide),
      firstWord_body "&data".toList (by decide) (by decide), mkData_body as h]
    rw [if_neg (by decide), if_neg (by decide), if_pos trivial, if_neg (by decide), if_neg (by decide), if_pos trivial]
  | cons nl nls ih =>
    intro p
    simp only [List.cons_append, parseNamelists, ih]

/-- **C123, headers.** What `readSDDS(file)` does with a file that ends within its header. Let the file be complete up to `a`, the end of a
line, and let `p` be the piece of the next line that is left.
* If `p` is a piece of the first word of the line, the constructor raises.
* If only the very last newline of the header is missing, the file opens and has no page.
* In all other cases the constructor never comes back. -/
theorem header_cut_exact {ft : FloatText} {d : Doc} {l : Layout} (h : d.Announces ft l) {a p q : Str} (ht : d.text = a ++ (p ++ q))
    (ha : a = [] ∨ a.getLast? = some '\n') (hp : '\n' ∉ p) (hq : q ≠ []) (buffer : Bool) (maxStr : Nat) :
    (WordPiece p → ∀ fuel, d.comments.length + d.namelists.length + 1 ≤ fuel →
      openSdds ft fuel buffer maxStr (utf8 (a ++ p)) = some (.error .exception)) ∧
    (q = ['\n'] → ∀ fuel, d.comments.length + d.namelists.length + 1 ≤ fuel →
      ∃ r, openSdds ft fuel buffer maxStr (utf8 (a ++ p)) = some (.ok r) ∧ r.Describes l ∧ r.read fuel none = some (.ok ⟨[], []⟩)) ∧
    (¬ WordPiece p → q ≠ ['\n'] → ∀ fuel, openSdds ft fuel buffer maxStr (utf8 (a ++ p)) = none) := by
  have hsteps : ∀ m, _ := fun m => header_cut_steps h.ok ht ha hp hq m
  refine ⟨fun hw fuel hf => ?_, fun hw fuel hf => ?_, fun h1 h2 fuel => ?_⟩
  · obtain ⟨m, rfl⟩ : ∃ m, fuel = d.namelists.length + m + d.comments.length + 1 := ⟨fuel - d.namelists.length - d.comments.length - 1, by omega⟩
    unfold openSdds
    rw [(hsteps m).1 hw]
  · obtain ⟨m, rfl⟩ : ∃ m, fuel = d.namelists.length + m + d.comments.length + 1 := ⟨fuel - d.namelists.length - d.comments.length - 1, by omega⟩
    obtain ⟨ps, hp1, hp2⟩ := params_of _ _ h.params h.fixed
    obtain ⟨cs, hc1, hc2⟩ := cols_of _ _ h.cols h.noLength
    have hopen : openSdds ft (d.namelists.length + m + d.comments.length + 1) buffer maxStr (utf8 (a ++ p)) = some (.ok {
        file := utf8 (a ++ p), buffer := buffer, maxStr := maxStr,
        headerEnd := (utf8 (a ++ p)).length, lineCount := d.namelists.length + 2,
        params := ps, cols := cs, ascii := false,
        noRowCounts := textTrue (attrVal d.data "no_row_counts".toList) }) := by
      unfold openSdds
      rw [(hsteps m).2.2 hw]
      simp only
      rw [parse_last ft _ (fun a ha => (h.ok.data a ha).1),
        parse_docs ft d.namelists h.ok.namelists d.data (fun a ha => (h.ok.data a ha).1) _ ps cs hp1 hc1]
      simp only [bind, Except.bind, List.nil_append, decide_eq_false h.mode, Bool.false_and, Bool.false_eq_true,
        if_false, List.length_nil, Nat.sub_zero]
    refine ⟨_, hopen, ⟨rfl, ?_, hp2, hc2⟩, ?_⟩
    · simp only [h.counts]
      rfl
    · unfold Reader.read
      rw [if_neg (by simp)]
      simp only
      unfold Reader.pageLoop
      rw [Reader.fileEnd_done (by cases buffer <;> simp [Reader.cur])]
      rfl
  · have hbig := (hsteps fuel).2.1 h1 h2
    cases ho : openSdds ft fuel buffer maxStr (utf8 (a ++ p)) with
    | none => rfl
    | some x =>
      have := open_mono (f' := d.namelists.length + fuel + d.comments.length + 1) (by omega) ho
      unfold openSdds at this
      rw [hbig] at this
      cases this

/-! Examples: a header that ends after `&par`, after `&parameter na`, and before its last newline. -/

theorem exDoc_split (n m : Nat) : exDoc.text = exDoc.text.take n ++ ((exDoc.text.drop n).take m ++ (exDoc.text.drop n).drop m) := by
  rw [List.take_append_drop, List.take_append_drop]

example : openSdds exText 20 true 50 (utf8 (exDoc.text.take 21 ++ "&par".toList)) = some (.error .exception) := by
  have e : (exDoc.text.drop 21).take 4 = "&par".toList := by decide +kernel
  have h := (header_cut_exact exDoc_announces (exDoc_split 21 4) (Or.inr (by decide +kernel)) (by decide +kernel) (by decide +kernel) true 50).1
    (by rw [e]; exact ⟨by decide, _, by decide, ⟨"ameter".toList, rfl⟩, by decide⟩) 20 (by decide)
  rw [e] at h
  exact h

example (fuel : Nat) : openSdds exText fuel true 50 (utf8 (exDoc.text.take 21 ++ "&parameter na".toList)) = none := by
  have e : (exDoc.text.drop 21).take 13 = "&parameter na".toList := by decide +kernel
  have h := (header_cut_exact exDoc_announces (exDoc_split 21 13) (Or.inr (by decide +kernel)) (by decide +kernel) (by decide +kernel) true 50).2.2
    (by rw [e]; exact fun h => absurd (piece_facts h).2.2.1 (by decide)) (by decide +kernel) fuel
  rw [e] at h
  exact h

example : ∃ r, openSdds exText 20 false 50 (utf8 (exDoc.text.take 202 ++ "&data mode=binary, &end".toList)) = some (.ok r) ∧
    r.read 20 none = some (.ok ⟨[], []⟩) := by
  have e : (exDoc.text.drop 202).take 23 = "&data mode=binary, &end".toList := by decide +kernel
  obtain ⟨r, h1, -, h2⟩ := (header_cut_exact exDoc_announces (exDoc_split 202 23) (Or.inr (by decide +kernel)) (by decide +kernel) (by decide +kernel)
    false 50).2.1 (by decide +kernel) 20 (by decide)
  rw [e] at h1
  exact ⟨r, h1, h2⟩

end Verif.Sdds
