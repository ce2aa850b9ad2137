import Verif.Sdds.LemmasBlank
import Verif.Sdds.PropsQuote

/-!
# Lemmas on definitions that the reader ends too early
-/

namespace Verif.Sdds

/-! ### Reading up to the first mark of the end -/

theorem readNamelist_early (fuel : Nat) (rest : Bytes) (ls : List Str) : ∀ (l : Str) (n : Nat), ls.length < n →
    (∀ x ∈ l :: ls, '\n' ∉ x) → NoBlank (l ++ ls.flatMap fun x => '\n' :: x) →
    (∃ a b, l ++ ls.flatMap (fun x => '\n' :: x) = a ++ ("&end".toList ++ b) ∧ '\n' ∈ b) →
    ∃ ls' rest' u w, readNamelist (fuel + 1) n (moji l ++ ['\n']) (utf8 (lineText ls) ++ rest) = some (ls', rest') ∧
      l ++ ls.flatMap (fun x => '\n' :: x) = u ++ '\n' :: w ∧ moji l ++ ['\n'] ++ ls'.flatten = moji u ++ ['\n'] := by
  induction ls with
  | nil =>
    rintro l n - hl - ⟨a, b, e, hb⟩
    rw [List.flatMap_nil, List.append_nil] at e
    exact absurd (by rw [e]; simp [hb]) (hl l (by simp))
  | cons x ls ih =>
    intro l n hn hl hnb hc
    obtain ⟨n, rfl⟩ : ∃ m, n = m + 1 := ⟨n - 1, by simp at hn; omega⟩
    have eT : l ++ (x :: ls).flatMap (fun x => '\n' :: x) = l ++ '\n' :: (x ++ ls.flatMap fun x => '\n' :: x) := by simp
    rw [eT] at hnb hc ⊢
    rw [readNamelist]
    by_cases hm : hasSub "&end".toList (moji l ++ ['\n']) = true
    · rw [if_pos hm]
      exact ⟨[], _, l, x ++ ls.flatMap fun x => '\n' :: x, rfl, rfl, by simp⟩
    · rw [if_neg hm]
      have hc' : ∃ a b, x ++ ls.flatMap (fun x => '\n' :: x) = a ++ ("&end".toList ++ b) ∧ '\n' ∈ b := by
        obtain ⟨a, b, e, hb⟩ := hc
        rcases split_sep (s := '\n') (p := "&end".toList) (by decide) e with ⟨y, hy, -⟩ | ⟨y, hy, -⟩
        · exfalso
          apply hm
          rw [hy, moji_append, moji_append, moji_ascii (s := "&end".toList) (by unfold Ascii; decide), List.append_assoc,
            List.append_assoc, ← List.append_assoc]
          exact hasSub_infix _ _ _
        · exact ⟨y, b, hy, hb⟩
      have hx : ∃ c t, x = c :: t ∧ c ≠ '!' := by
        cases x with
        | nil =>
          exfalso
          cases ls with
          | nil =>
            obtain ⟨a, b, e, -⟩ := hc'
            have := congrArg List.length e
            simp at this
          | cons y ls =>
            refine hnb.1 ⟨l, y ++ ls.flatMap (fun x => '\n' :: x), ?_⟩
            simp
        | cons c t =>
          refine ⟨c, t, rfl, ?_⟩
          rintro rfl
          exact hnb.2 ⟨l, t ++ ls.flatMap (fun x => '\n' :: x), by simp⟩
      obtain ⟨c, t, hx, hcb⟩ := hx
      obtain ⟨d, u, hd, hd'⟩ := moji_head (s := t) hcb
      have e : utf8 (lineText (x :: ls)) ++ rest = utf8 (x ++ ['\n']) ++ (utf8 (lineText ls) ++ rest) := by
        unfold lineText
        rw [List.flatMap_cons, utf8_append, List.append_assoc]
      obtain ⟨ls', rest', u', w', r1, r2, r3⟩ := ih x n (by simp at hn; omega) (fun y hy => hl y (List.mem_cons_of_mem _ hy))
        (hnb.infix ⟨l ++ ['\n'], [], by simp⟩) hc'
      refine ⟨(moji x ++ ['\n']) :: ls', rest', l ++ '\n' :: u', w', ?_, by rw [r2]; simp, ?_⟩
      · rw [e, readLine_moji x (hl x (by simp)) (hx ▸ hd) hd']
        simp only
        rw [r1]
      · rw [List.flatten_cons, r3, moji_append, moji_cons '\n', moji_ascii (s := ['\n']) (by unfold Ascii; decide)]
        simp

/-- The first lines of a definition are taken for all of it. -/
theorem read_early {c : Char} {w : Str} (hc : c ≠ '!')
    (hw : ∀ d ∈ c :: w, d.toNat < 128 ∧ d ≠ '\n') {as : List Attr}
    (hk : ∀ a ∈ as, a.key ∈ knownKeys) {pad : Nat} (hnb : NoBlank (nlBody (c :: w) as pad))
    (hcut : ∃ a b, nlBody (c :: w) as pad = a ++ ("&end".toList ++ b) ∧ '\n' ∈ b) (rest : Bytes) :
    ∃ line b, (∀ fuel, readLine (fuel + 1) (utf8 (nlText (c :: w) as pad) ++ rest) = some (line, b)) ∧
      (c :: w ++ [' ']) <+: line ∧
      (∀ fuel n, (as.flatMap Attr.val).count '\n' < n → ∃ ls b' u v, readNamelist (fuel + 1) n line b = some (ls, b') ∧
        nlBody (c :: w) as pad = u ++ '\n' :: v ∧ line ++ ls.flatten = moji u ++ ['\n']) := by
  have hwn : '\n' ∉ c :: w := fun hn => (hw _ hn).2 rfl
  obtain ⟨l, ls, h1, h2, h3⟩ := nlBody_lines hwn as hk pad
  have hmw : moji (c :: w ++ ' ' :: l) = c :: (w ++ ' ' :: moji l) := by
    rw [moji_append, moji_ascii (fun d hd => (hw d hd).1), moji_cons, moji_ascii (s := [' ']) (by unfold Ascii; decide)]
    simp
  have e : utf8 (nlText (c :: w) as pad) ++ rest =
      utf8 ((c :: w ++ ' ' :: l) ++ ['\n']) ++ (utf8 (lineText ls) ++ rest) := by
    rw [nlText_eq, h1, lineText_eq, ← List.append_assoc, ← utf8_append]
    simp
  refine ⟨moji (c :: w ++ ' ' :: l) ++ ['\n'], utf8 (lineText ls) ++ rest, ?_, ?_, ?_⟩
  · intro fuel
    rw [e]
    exact readLine_moji _ (h2 _ (by simp)) hmw hc fuel _
  · rw [hmw]
    exact ⟨moji l ++ ['\n'], by simp⟩
  · intro fuel n hn
    rw [h1] at hnb hcut ⊢
    exact readNamelist_early fuel rest ls _ n (by omega) h2 hnb hcut

/-! ### Counting quotes up to a line end -/

theorem odd_before {word : Str} (hw : '\n' ∉ word) (hwq : word.count '"' = 0) {as : List Attr} (h : ∀ a ∈ as, a.Wide)
    {pad : Nat} {u v : Str} (e : nlBody word as pad = u ++ '\n' :: v) : u.count '"' % 2 = 1 := by
  have hk : ∀ a ∈ as, a.key ∈ knownKeys := fun a ha => (h a ha).key
  have e0 : nlBody word as pad = word ++ ' ' :: (as.flatMap Attr.text ++ (List.replicate pad ' ' ++ "&end".toList)) := rfl
  rw [e0] at e
  rcases split_sep (s := ' ') (p := ['\n']) (y := v) (by decide) e with ⟨y, hy, -⟩ | ⟨x, hx, hu⟩
  · exact absurd (by rw [hy]; simp) hw
  rcases attrs_split (p := ['\n']) (by decide) (by decide) (by decide) (by decide) (by decide)
      (fun k hk' hi => ((knownKeys_plain k hk').2.2 '\n' (hi.subset (by simp))).2.2.2.1 rfl) as hk _ _ _ hx with
    ⟨pre, a, post, u1, w1, z, e1, e2, e3, e4⟩ | ⟨x', hx'⟩
  · have ha := h a (by rw [e1]; simp)
    have hq : a.quoted = true := by
      by_contra hq
      have hv := ha.val
      rw [if_neg hq] at hv
      exact hv.line (by rw [e2]; simp)
    have hv := ha.val
    rw [if_pos hq] at hv
    rw [hq] at e4
    have hx2 : x = pre.flatMap Attr.text ++ (a.key ++ '=' :: '"' :: u1) := by
      have hl : (pre.flatMap Attr.text ++ (a.key ++ '=' :: '"' :: u1)) ++ ('\n' :: v) = x ++ ('\n' :: v) := by
        have : x ++ ('\n' :: v) = x ++ (['\n'] ++ v) := rfl
        rw [this, ← hx, e1, e3, e4]
        simp [Attr.text, hq, e2]
      exact (List.append_cancel_right hl).symm
    have h1 := attrs_count pre fun b hb => hk b (by rw [e1]; simp [hb])
    have h2 : (pre.flatMap Attr.val).count '"' = 0 := by
      rw [List.count_eq_zero]
      intro hm
      obtain ⟨b, hb, hm⟩ := List.mem_flatMap.mp hm
      have hb' := (h b (by rw [e1]; simp [hb])).val
      cases hbq : b.quoted with
      | true => rw [if_pos hbq] at hb'; exact hb'.noQuote hm
      | false =>
        rw [if_neg (by rw [hbq]; simp)] at hb'
        exact hb'.noQuote hm
    have h3 : u1.count '"' = 0 := by
      rw [List.count_eq_zero]
      exact fun hm => hv.noQuote (by rw [e2]; simp [hm])
    have h4 := key_noQuote ha.key
    rw [hu, hx2]
    simp only [List.count_append, List.count_cons, hwq, h3, h4]
    simp
    omega
  · have : '\n' ∈ List.replicate pad ' ' ++ "&end".toList := by rw [hx']; simp
    rw [List.mem_append, List.mem_replicate] at this
    rcases this with ⟨-, h'⟩ | h'
    · exact absurd h' (by decide)
    · exact absurd h' (by decide)

/-! ### The whole header -/

theorem lineEnds_cons (nd : NDoc) (ns : List NDoc) :
    lineEnds (nd :: ns) = (nd.attrs.flatMap Attr.val).count '\n' + lineEnds ns := by
  unfold lineEnds
  rw [List.flatMap_cons, List.count_append]

/-- A definition that ends too early gives a namelist that stops inside of a text. -/
theorem headerLoop_early (nd : NDoc) (hk : ∀ a ∈ nd.attrs, a.key ∈ knownKeys)
    (hnb : NoBlank (nlBody nd.kind.word nd.attrs nd.pad))
    (hcut : ∃ a b, nlBody nd.kind.word nd.attrs nd.pad = a ++ ("&end".toList ++ b) ∧ '\n' ∈ b) (rest : Bytes)
    (fuel : Nat) (ns : List NDoc) (hns : ∀ n ∈ ns, n.Lines) :
    ∀ (n count : Nat) (h : RawHeader), lineEnds ns + (nd.attrs.flatMap Attr.val).count '\n' ≤ fuel →
    headerLoop (fuel + 1) n count (utf8 (ns.flatMap NDoc.text) ++ (utf8 nd.text ++ rest)) = some (.ok h) →
    ∃ R ∈ h.namelists, ∃ u v, nlBody nd.kind.word nd.attrs nd.pad = u ++ '\n' :: v ∧ R = moji u ++ ['\n'] ∧
      nd.kind.word ++ [' '] <+: R := by
  induction ns with
  | nil =>
    intro n count h hf hh
    cases n with
    | zero => cases hh
    | succ n =>
      obtain ⟨k4, c, w, k1, k2, k3⟩ := kind_word nd.kind
      have e0 : utf8 nd.text = utf8 (nlText (c :: w) nd.attrs nd.pad) := by
        unfold NDoc.text
        rw [k1]
      rw [k1] at hnb hcut ⊢
      obtain ⟨line, b, r1, r2, r3⟩ := read_early k2 k3 hk hnb hcut rest
      obtain ⟨ls, b', u, v, s1, s2, s3⟩ := r3 fuel (fuel + 1) (by omega)
      have hany : (sddsNamelists.any fun nl => hasSub nl line) = true := by
        rw [List.any_eq_true]
        refine ⟨nd.kind.word, k4, ?_⟩
        obtain ⟨t, ht⟩ := r2
        rw [k1, ← ht, List.append_assoc]
        exact hasSub_prefix _ _
      rw [List.flatMap_nil] at hh
      have enil : (utf8 [] : Bytes) = [] := rfl
      rw [enil, List.nil_append, headerLoop, e0, r1 fuel] at hh
      simp only [hany, if_true, s1] at hh
      cases h3 : headerLoop (fuel + 1) n (count + 1 + ls.length) b' with
      | none => rw [h3] at hh; cases hh
      | some x =>
        rw [h3] at hh
        cases x with
        | error e => cases hh
        | ok g =>
          simp only [Option.some.injEq, Except.ok.injEq] at hh
          subst hh
          exact ⟨_, List.mem_cons_self, u, v, s2, s3, r2.trans (List.prefix_append _ _)⟩
  | cons d ns ih =>
    intro n count h hf hh
    cases n with
    | zero => cases hh
    | succ n =>
      obtain ⟨k4, c, w, k1, k2, k3⟩ := kind_word d.kind
      have hl := hns d (by simp)
      have hb := hl.body
      rw [k1] at hb
      obtain ⟨line, ls, b, r1, r2, r3, r4, r5⟩ := read_definition k2 k3 hl.keys hb
        (utf8 (ns.flatMap NDoc.text) ++ (utf8 nd.text ++ rest))
      have e0 : utf8 d.text = utf8 (nlText (c :: w) d.attrs d.pad) := by
        unfold NDoc.text
        rw [k1]
      rw [lineEnds_cons] at hf
      have hany : (sddsNamelists.any fun nl => hasSub nl line) = true := by
        rw [List.any_eq_true]
        refine ⟨d.kind.word, k4, ?_⟩
        obtain ⟨t, ht⟩ := r2
        rw [k1, ← ht]
        exact hasSub_prefix _ _
      rw [List.flatMap_cons, utf8_append, List.append_assoc, headerLoop, e0, r1 fuel] at hh
      simp only [hany, if_true] at hh
      rw [r3 fuel (fuel + 1) (by omega)] at hh
      simp only at hh
      cases h3 : headerLoop (fuel + 1) n (count + 1 + ls.length) (utf8 (ns.flatMap NDoc.text) ++ (utf8 nd.text ++ rest)) with
      | none => rw [h3] at hh; cases hh
      | some x =>
        rw [h3] at hh
        cases x with
        | error e => cases hh
        | ok g =>
          simp only [Option.some.injEq, Except.ok.injEq] at hh
          subst hh
          obtain ⟨R, hR, u, v, i1, i2, i3⟩ := ih (fun x hx => hns x (by simp [hx])) n _ g (by omega) h3
          exact ⟨R, List.mem_cons_of_mem _ hR, u, v, i1, i2, i3⟩

/-- A header that starts with comments. -/
theorem readHeader_start {cs : List Str} (hcs : ∀ c ∈ cs, Ascii c ∧ '\n' ∉ c) {X : Bytes} {r : Str × Bytes}
    (hX : ∀ fuel, readLine (fuel + 1) X = some r) (f : Nat) :
    readHeader (f + cs.length + 1) (utf8 ("SDDS1\n".toList ++ cs.flatMap fun c => '!' :: c ++ ['\n']) ++ X) =
      headerLoop (f + cs.length + 1) (f + cs.length + 1) 1 X := by
  have e : utf8 ("SDDS1\n".toList ++ cs.flatMap fun c => '!' :: c ++ ['\n']) ++ X =
      utf8 ("SDDS1".toList ++ ['\n']) ++ (utf8 (cs.flatMap fun c => '!' :: c ++ ['\n']) ++ X) := by
    rw [utf8_append, List.append_assoc]
    rfl
  unfold readHeader
  rw [e, readLine_line "SDDS1".toList (by decide) (by unfold Ascii; decide) (by decide) (by decide)]
  simp only
  rw [if_pos (by decide)]
  have h1 : readLine (f + cs.length + 1) (utf8 (cs.flatMap fun c => '!' :: c ++ ['\n']) ++ X) =
      readLine (f + 1) X := by
    rw [show f + cs.length + 1 = (f + 1) + cs.length by omega]
    exact readLine_comments _ hcs _ _
  rw [headerLoop, headerLoop, h1, hX f, hX (f + cs.length)]

/-- What parses is split first. -/
theorem parse_split {ft : FloatText} : ∀ (nls : List Str) (p q : Parsed), parseNamelists ft nls p = .ok q →
    ∀ nl ∈ nls, firstWord nl = "&parameter".toList ∨ firstWord nl = "&column".toList → ∃ ts, shlexSplit nl = .ok ts
  | [], _, _, _ => by simp
  | nl :: rest, p, q, h => by
    have ih := parse_split (ft := ft) rest
    rw [parseNamelists] at h
    have fin : ∀ p', parseNamelists ft rest p' = .ok q →
        (firstWord nl = "&parameter".toList ∨ firstWord nl = "&column".toList → ∃ ts, shlexSplit nl = .ok ts) →
        ∀ l ∈ nl :: rest, firstWord l = "&parameter".toList ∨ firstWord l = "&column".toList → ∃ ts, shlexSplit l = .ok ts := by
      intro p' h3 h4 l hl
      rcases List.mem_cons.1 hl with rfl | hl
      · exact h4
      · exact ih p' q h3 l hl
    by_cases w1 : firstWord nl = "&parameter".toList
    · rw [if_pos w1] at h
      cases hm : mkParam ft nl with
      | error e => rw [hm] at h; cases h
      | ok x =>
        rw [hm] at h
        refine fin { p with params := p.params ++ [x] } h fun _ => ?_
        cases hs : shlexSplit nl with
        | error e => unfold mkParam at hm; rw [hs] at hm; cases hm
        | ok ts => exact ⟨ts, rfl⟩
    rw [if_neg w1] at h
    by_cases w2 : firstWord nl = "&column".toList
    · rw [if_pos w2] at h
      cases hm : mkColumn nl with
      | error e => rw [hm] at h; cases h
      | ok x =>
        rw [hm] at h
        refine fin { p with cols := p.cols ++ [x] } h fun _ => ?_
        cases hs : shlexSplit nl with
        | error e => unfold mkColumn at hm; rw [hs] at hm; cases hm
        | ok ts => exact ⟨ts, rfl⟩
    rw [if_neg w2] at h
    have none : firstWord nl = "&parameter".toList ∨ firstWord nl = "&column".toList → ∃ ts, shlexSplit nl = .ok ts := by
      rintro (h | h)
      · exact absurd h w1
      · exact absurd h w2
    by_cases w3 : firstWord nl = "&data".toList
    · rw [if_pos w3] at h
      cases hm : mkData nl with
      | error e => rw [hm] at h; cases h
      | ok x => rw [hm] at h; exact fin { p with data := p.data ++ [x] } h none
    rw [if_neg w3] at h
    by_cases w4 : firstWord nl = "&array".toList
    · rw [if_pos w4] at h
      cases hm : shlexSplit nl with
      | error e => rw [hm] at h; cases h
      | ok x => rw [hm] at h; cases h
    rw [if_neg w4] at h
    by_cases w5 : firstWord nl = "&associate".toList
    · rw [if_pos w5] at h
      cases hm : shlexSplit nl with
      | error e => rw [hm] at h; cases h
      | ok x => rw [hm] at h; exact fin _ h none
    · rw [if_neg w5] at h
      exact fin _ h none

theorem firstWord_start {word t : Str} (hne : word ≠ []) (hw : ∀ c ∈ word, isSpace c = false)
    (h : word ++ [' '] <+: t) : firstWord t = word := by
  obtain ⟨s, rfl⟩ := h
  unfold firstWord lstrip
  cases word with
  | nil => exact absurd rfl hne
  | cons c w =>
    rw [List.append_assoc, List.cons_append, List.dropWhile_cons_of_neg (by simpa using hw c (by simp)), ← List.cons_append,
      List.takeWhile_append_of_pos (by simpa using hw)]
    rw [List.singleton_append, List.takeWhile_cons_of_neg (by decide), List.append_nil]

/-- A header with a definition that ends too early is not accepted. -/
theorem open_early {ft : FloatText} {cs : List Str} (hcs : ∀ c ∈ cs, Ascii c ∧ '\n' ∉ c) {ns : List NDoc} (hns : ∀ n ∈ ns, n.Lines)
    {nd : NDoc} (hw : ∀ a ∈ nd.attrs, a.Wide) (hesc : ∀ a ∈ nd.attrs, '\\' ∉ a.val)
    (hnb : NoBlank (nlBody nd.kind.word nd.attrs nd.pad))
    (hcut : ∃ a b, nlBody nd.kind.word nd.attrs nd.pad = a ++ ("&end".toList ++ b) ∧ '\n' ∈ b) (rest : Bytes)
    {fuel : Nat} (hfuel : cs.length + 2 + lineEnds ns + (nd.attrs.flatMap Attr.val).count '\n' ≤ fuel)
    (buffer : Bool) (maxStr : Nat) (r : Reader) :
    openSdds ft fuel buffer maxStr (utf8 ("SDDS1\n".toList ++ cs.flatMap fun c => '!' :: c ++ ['\n']) ++
      (utf8 (ns.flatMap NDoc.text) ++ (utf8 nd.text ++ rest))) ≠ some (.ok r) := by
  intro ho
  obtain ⟨hd, p, h1, h2, -⟩ := openSdds_parts ho
  obtain ⟨f, rfl⟩ : ∃ m, fuel = m + cs.length + 1 := ⟨fuel - cs.length - 1, by omega⟩
  have hk : ∀ a ∈ nd.attrs, a.key ∈ knownKeys := fun a ha => (hw a ha).key
  have hX : ∃ rr, ∀ fuel, readLine (fuel + 1) (utf8 (ns.flatMap NDoc.text) ++ (utf8 nd.text ++ rest)) = some rr := by
    cases ns with
    | nil =>
      obtain ⟨-, c, w, k1, k2, k3⟩ := kind_word nd.kind
      rw [k1] at hnb hcut
      obtain ⟨line, b, r1, -⟩ := read_early k2 k3 hk hnb hcut rest
      refine ⟨(line, b), fun fuel => ?_⟩
      have e0 : utf8 nd.text = utf8 (nlText (c :: w) nd.attrs nd.pad) := by
        unfold NDoc.text
        rw [k1]
      have enil : (utf8 [] : Bytes) = [] := rfl
      rw [List.flatMap_nil, enil, List.nil_append, e0]
      exact r1 fuel
    | cons d ns =>
      obtain ⟨-, c, w, k1, k2, k3⟩ := kind_word d.kind
      have hl := hns d (by simp)
      have hb := hl.body
      rw [k1] at hb
      obtain ⟨line, ls, b, r1, -⟩ := read_definition k2 k3 hl.keys hb
        (utf8 (ns.flatMap NDoc.text) ++ (utf8 nd.text ++ rest))
      refine ⟨(line, b), fun fuel => ?_⟩
      have e0 : utf8 d.text = utf8 (nlText (c :: w) d.attrs d.pad) := by
        unfold NDoc.text
        rw [k1]
      rw [List.flatMap_cons, utf8_append, List.append_assoc, e0]
      exact r1 fuel
  obtain ⟨rr, hX⟩ := hX
  rw [readHeader_start hcs hX] at h1
  obtain ⟨R, hR, u, v, e1, e2, e3⟩ := headerLoop_early nd hk hnb hcut rest _ ns hns _ _ hd (by omega) h1
  have hword : ∀ k : NKind, k.word ≠ [] ∧ (∀ c ∈ k.word, isSpace c = false) ∧ '\n' ∉ k.word ∧ k.word.count '"' = 0 ∧
      '\\' ∉ k.word ∧ (k.word = "&parameter".toList ∨ k.word = "&column".toList) := by
    intro k
    cases k <;> decide
  obtain ⟨w1, w2, w3, w4, w5, w6⟩ := hword nd.kind
  have hf := firstWord_start w1 w2 e3
  obtain ⟨ts, hts⟩ := parse_split _ _ _ h2 R hR (by rw [hf]; exact w6)
  have hbs : '\\' ∉ R := by
    rw [e2, List.mem_append]
    rintro (hm | hm)
    · have hm' := (mem_moji (by decide) u).mp hm
      have : '\\' ∈ nlText nd.kind.word nd.attrs nd.pad := by
        rw [nlText_eq, e1]
        simp [hm']
      exact nlText_noEsc w5 (fun a ha => ⟨hk a ha, hesc a ha⟩) _ this
    · exact absurd hm (by decide)
  have hev := shlex_even hbs hts
  have hodd := odd_before w3 w4 hw e1
  rw [e2, List.count_append, count_moji (by decide)] at hev
  have : ['\n'].count '"' = 0 := by decide
  omega

end Verif.Sdds
