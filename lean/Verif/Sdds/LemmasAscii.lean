import Verif.Sdds.LemmasTrunc
import Verif.Sdds.LemmasFile

/-!
# Lemmas on ASCII SDDS files
-/

namespace Verif.Sdds

/-! ## Lines -/

theorem asLines_append (a b : List Bytes) : asLines (a ++ b) = asLines a ++ asLines b := by simp [asLines]

theorem fileLinesFrom_line (l cur rest : Bytes) (h : (10 : UInt8) ∉ l) :
    fileLinesFrom cur (l ++ 10 :: rest) = (cur ++ l ++ [10]) :: fileLinesFrom [] rest := by
  induction l generalizing cur with
  | nil => simp [fileLinesFrom]
  | cons b l ih =>
    have hb : b ≠ 10 := fun he => h (by simp [he])
    have hl : (10 : UInt8) ∉ l := fun he => h (by simp [he])
    rw [List.cons_append, fileLinesFrom, if_neg hb, ih _ hl]
    simp

theorem fileLines_asLines (ls : List Bytes) (h : ∀ l ∈ ls, (10 : UInt8) ∉ l) : fileLines (asLines ls) = ls.map fun l => l ++ [10] := by
  induction ls with
  | nil => rfl
  | cons l ls ih =>
    have e : asLines (l :: ls) = l ++ 10 :: asLines ls := by simp [asLines]
    rw [e]
    unfold fileLines
    rw [fileLinesFrom_line l [] _ (h l (by simp)), List.map_cons, List.nil_append]
    congr 1
    exact ih fun x hx => h x (by simp [hx])

theorem splitLinesFrom_line (l cur rest : Bytes) (cr : Bool) (h : (10 : UInt8) ∉ l ∧ (13 : UInt8) ∉ l) (hcr : cr = false) :
    splitLinesFrom cr cur (l ++ 10 :: rest) = (cur ++ l) :: splitLinesFrom false [] rest := by
  subst hcr
  induction l generalizing cur with
  | nil => simp [splitLinesFrom]
  | cons b l ih =>
    have hb : b ≠ 10 := fun he => h.1 (by simp [he])
    have hb' : b ≠ 13 := fun he => h.2 (by simp [he])
    rw [List.cons_append, splitLinesFrom, if_neg hb, if_neg hb', ih _ ⟨fun he => h.1 (by simp [he]), fun he => h.2 (by simp [he])⟩]
    simp

theorem splitLines_asLines (ls : List Bytes) (h : ∀ l ∈ ls, (10 : UInt8) ∉ l ∧ (13 : UInt8) ∉ l) : splitLines (asLines ls) = ls := by
  induction ls with
  | nil => rfl
  | cons l ls ih =>
    have e : asLines (l :: ls) = l ++ 10 :: asLines ls := by simp [asLines]
    rw [e]
    unfold splitLines
    rw [splitLinesFrom_line l [] _ false (h l (by simp)) rfl, List.nil_append]
    congr 1
    exact ih fun x hx => h x (by simp [hx])

/-! ## Fields of a line -/

theorem dropWhile_head {α : Type} (p : α → Bool) (l : List α) (h : ∀ x, l.head? = some x → p x = false) : l.dropWhile p = l := by
  cases l with
  | nil => rfl
  | cons a l => rw [List.dropWhile_cons_of_neg (by rw [h a rfl]; simp)]

theorem takeWhile_all {α : Type} (p : α → Bool) (l : List α) (h : ∀ x ∈ l, p x = true) : l.takeWhile p = l := by
  induction l with
  | nil => rfl
  | cons a l ih => rw [List.takeWhile_cons_of_pos (h a (by simp)), ih fun x hx => h x (by simp [hx])]

theorem stripLine_eq (s tail : Bytes) (ht : tail = [] ∨ tail = [10])
    (h1 : ∀ x, s.head? = some x → x ≠ 32 ∧ x ≠ 13 ∧ x ≠ 10) (h2 : ∀ x, s.getLast? = some x → x ≠ 32 ∧ x ≠ 13 ∧ x ≠ 10) (hne : s ≠ []) :
    stripLine (s ++ tail) = s := by
  have e1 : (s ++ tail).dropWhile (fun b : UInt8 => b == 32 || b == 13 || b == 10) = s ++ tail := by
    apply dropWhile_head
    intro x hx
    have := h1 x (by cases s with
      | nil => exact absurd rfl hne
      | cons a s => simpa using hx)
    simp [this]
  have e2 : (s ++ tail).reverse.dropWhile (fun b : UInt8 => b == 32 || b == 13 || b == 10) = s.reverse := by
    have e3 : s.reverse.dropWhile (fun b : UInt8 => b == 32 || b == 13 || b == 10) = s.reverse := by
      apply dropWhile_head
      intro x hx
      rw [List.head?_reverse] at hx
      have := h2 x hx
      simp [this]
    rcases ht with rfl | rfl
    · rw [List.append_nil, e3]
    · rw [List.reverse_append, List.reverse_singleton, List.singleton_append, List.dropWhile_cons_of_pos (by decide), e3]
  unfold stripLine
  simp only [e1, e2, List.reverse_reverse]

theorem takeWhile_noComment (s tail : Bytes) (ht : tail = [] ∨ tail = [10]) (h : (33 : UInt8) ∉ s) :
    (s ++ tail).takeWhile (· ≠ 33) = s ++ tail := by
  apply takeWhile_all
  intro x hx
  rw [decide_eq_true_eq]
  rintro rfl
  rcases List.mem_append.mp hx with hx | hx
  · exact h hx
  · rcases ht with rfl | rfl
    · cases hx
    · revert hx; decide

theorem fieldsOf_text {s : Bytes} (h : LineText s) (tail : Bytes) (ht : tail = [] ∨ tail = [10]) : fieldsOf false (s ++ tail) = [s] := by
  have hm : ∀ x ∈ s, x ≠ 13 ∧ x ≠ 10 := fun x hx => ⟨fun he => h.oneLine.2 (he ▸ hx), fun he => h.oneLine.1 (he ▸ hx)⟩
  unfold fieldsOf
  rw [takeWhile_noComment s tail ht h.noComment, stripLine_eq s tail ht]
  · simp only [if_neg h.ne, Bool.false_eq_true, if_false]
  · intro x hx
    exact ⟨fun he => h.start (he ▸ hx), hm x (List.mem_of_mem_head? hx)⟩
  · intro x hx
    exact ⟨fun he => h.stop (he ▸ hx), hm x (List.mem_of_mem_getLast? hx)⟩
  · exact h.ne

theorem wordsFrom_word (w : Bytes) (hw : ∀ b ∈ w, isStrSpace b = false) : ∀ cur rest, wordsFrom cur (w ++ rest) = wordsFrom (cur ++ w) rest := by
  induction w with
  | nil => simp
  | cons b w ih =>
    intro cur rest
    rw [List.cons_append, wordsFrom, if_neg (by rw [hw b (by simp)]; simp), ih (fun x hx => hw x (by simp [hx]))]
    simp

theorem wordsFrom_row : ∀ (ws : List Bytes), (∀ s ∈ ws, WordText s) → wordsFrom [] ([(32 : UInt8)].intercalate ws) = ws := by
  intro ws
  induction ws with
  | nil => intro _; rfl
  | cons w ws ih =>
    intro h
    have hw := h w (by simp)
    cases ws with
    | nil =>
      have e : [(32 : UInt8)].intercalate [w] = w ++ [] := by simp [List.intercalate]
      rw [e, wordsFrom_word w hw.noSpace, List.nil_append, wordsFrom, if_neg hw.ne]
    | cons v ws =>
      have e : [(32 : UInt8)].intercalate (w :: v :: ws) = w ++ (32 :: [(32 : UInt8)].intercalate (v :: ws)) := by
        simp [List.intercalate]
      rw [e, wordsFrom_word w hw.noSpace, List.nil_append, wordsFrom, if_pos (by decide), if_neg hw.ne,
        ih fun s hs => h s (by simp [hs])]

theorem row_mem (ws : List Bytes) : ∀ b ∈ [(32 : UInt8)].intercalate ws, b = 32 ∨ ∃ s ∈ ws, b ∈ s := by
  induction ws with
  | nil => intro b hb; cases hb
  | cons w ws ih =>
    intro b hb
    cases ws with
    | nil =>
      have e : [(32 : UInt8)].intercalate [w] = w := by simp [List.intercalate]
      rw [e] at hb
      exact Or.inr ⟨w, by simp, hb⟩
    | cons v ws =>
      have e : [(32 : UInt8)].intercalate (w :: v :: ws) = w ++ (32 :: [(32 : UInt8)].intercalate (v :: ws)) := by
        simp [List.intercalate]
      rw [e] at hb
      rcases List.mem_append.mp hb with hb | hb
      · exact Or.inr ⟨w, by simp, hb⟩
      · rcases List.mem_cons.mp hb with hb | hb
        · exact Or.inl hb
        · rcases ih b hb with hb | ⟨s, hs, hb⟩
          · exact Or.inl hb
          · exact Or.inr ⟨s, by simp [hs], hb⟩

theorem row_head (w : Bytes) (ws : List Bytes) (hw : w ≠ []) : ([(32 : UInt8)].intercalate (w :: ws)).head? = w.head? := by
  cases w with
  | nil => exact absurd rfl hw
  | cons b w => cases ws <;> simp [List.intercalate]

theorem row_last (ws : List Bytes) (hne : ws ≠ []) (h : ∀ s ∈ ws, s ≠ []) :
    ∃ s ∈ ws, ([(32 : UInt8)].intercalate ws).getLast? = s.getLast? := by
  induction ws with
  | nil => exact absurd rfl hne
  | cons w ws ih =>
    cases ws with
    | nil => exact ⟨w, by simp, by simp [List.intercalate]⟩
    | cons v ws =>
      have e : [(32 : UInt8)].intercalate (w :: v :: ws) = (w ++ [32]) ++ [(32 : UInt8)].intercalate (v :: ws) := by
        simp [List.intercalate]
      obtain ⟨s, hs, he⟩ := ih (by simp) fun s hs => h s (by simp [hs])
      refine ⟨s, by simp [hs], ?_⟩
      rw [e, List.getLast?_append, he]
      cases hl : s.getLast? with
      | none => exact absurd (List.getLast?_eq_none_iff.mp hl) (h s (by simp [hs]))
      | some x => rfl

theorem fieldsOf_row {ws : List Bytes} (hne : ws ≠ []) (h : ∀ s ∈ ws, WordText s) (tail : Bytes) (ht : tail = [] ∨ tail = [10]) :
    fieldsOf true ([(32 : UInt8)].intercalate ws ++ tail) = ws := by
  have hsp : ∀ s ∈ ws, ∀ b ∈ s, b ≠ 32 ∧ b ≠ 13 ∧ b ≠ 10 := by
    intro s hs b hb
    have := (h s hs).noSpace b hb
    refine ⟨?_, ?_, ?_⟩ <;> rintro rfl <;> revert this <;> decide
  have hc : (33 : UInt8) ∉ [(32 : UInt8)].intercalate ws := by
    intro hb
    rcases row_mem ws _ hb with hb | ⟨s, hs, hb⟩
    · revert hb; decide
    · exact (h s hs).noComment hb
  obtain ⟨w, ws', rfl⟩ : ∃ w ws', ws = w :: ws' := by
    cases ws with
    | nil => exact absurd rfl hne
    | cons w ws' => exact ⟨w, ws', rfl⟩
  have hrow : [(32 : UInt8)].intercalate (w :: ws') ≠ [] := by
    intro he
    have := row_head w ws' (h w (by simp)).ne
    rw [he] at this
    exact (h w (by simp)).ne (List.head?_eq_none_iff.mp this.symm)
  unfold fieldsOf
  rw [takeWhile_noComment _ tail ht hc, stripLine_eq _ tail ht]
  · simp only [if_neg hrow, if_true]
    exact wordsFrom_row _ h
  · intro x hx
    rw [row_head w ws' (h w (by simp)).ne] at hx
    exact hsp w (by simp) x (List.mem_of_mem_head? hx)
  · intro x hx
    obtain ⟨s, hs, he⟩ := row_last _ hne fun s hs => (h s hs).ne
    rw [he] at hx
    exact hsp s hs x (List.mem_of_mem_getLast? hx)
  · exact hrow

/-! ## Names -/

theorem strip_plain {n : Str} (h : ∀ ch ∈ n, isSpace ch = false) : strip n = n := by
  unfold strip
  rw [dropWhile_head isSpace n fun x hx => h x (List.mem_of_mem_head? hx), dropWhile_head isSpace n.reverse, List.reverse_reverse]
  intro x hx
  rw [List.head?_reverse] at hx
  exact h x (List.mem_of_mem_getLast? hx)

theorem validName_kept {n : Str} (h : KeptName n) : validName n = n := by
  unfold validName
  have e1 : (strip n).map (fun ch => if ch = ' ' then '_' else ch) = n := by
    rw [strip_plain fun ch hc => (h.plain ch hc).1]
    conv_rhs => rw [← List.map_id n]
    apply List.map_congr_left
    intro ch hc
    rw [if_neg, id]
    rintro rfl
    have := (h.plain _ hc).1
    revert this; decide
  have e2 : n.filter (fun ch => decide (ch ≠ '"')) = n := by
    rw [List.filter_eq_self]
    intro ch hc
    simpa using (h.plain ch hc).2
  simp only [e1, e2]
  rw [if_neg]
  intro hm
  unfold excludedNames at hm
  simp only [List.mem_cons, List.not_mem_nil, or_false] at hm
  rcases hm with hm | hm | hm
  · exact h.allowed.1 hm
  · exact h.allowed.2.1 hm
  · exact h.allowed.2.2 hm

theorem validNamesFrom_kept (ns : List Str) : ∀ seen, (∀ n ∈ ns, KeptName n ∧ n ∉ seen) → ns.Nodup → validNamesFrom seen ns = ns := by
  induction ns with
  | nil => intro _ _ _; rfl
  | cons n ns ih =>
    intro seen h hd
    rw [List.nodup_cons] at hd
    unfold validNamesFrom
    rw [validName_kept (h n (by simp)).1]
    have : seen.count n = 0 := List.count_eq_zero.mpr (h n (by simp)).2
    simp only [this, if_true]
    rw [ih (n :: seen) (fun m hm => ⟨(h m (by simp [hm])).1, ?_⟩) hd.2]
    intro hc
    rcases List.mem_cons.mp hc with rfl | hc
    · exact hd.1 hm
    · exact (h m (by simp [hm])).2 hc

theorem validNames_kept {ns : List Str} (h : ∀ n ∈ ns, KeptName n) (hd : ns.Nodup) : validNames ns = ns :=
  validNamesFrom_kept ns [] (fun n hn => ⟨h n hn, by simp⟩) hd

/-- Types that numpy knows. -/
def KType.Known : KType → Prop
  | .num _ => True
  | .strN _ => True
  | _ => False

theorem itemSize_ok {dk : Dtype} (h : ∀ k ∈ dk, k.2.Known) (hd : (dk.map Prod.fst).Nodup) : ∃ n, itemSize dk = .ok n := by
  have : ∃ s, dk.mapM (fun k => keySize k.2) = .ok s := by
    clear hd
    induction dk with
    | nil => exact ⟨[], rfl⟩
    | cons k dk ih =>
      obtain ⟨s, hs⟩ := ih fun x hx => h x (by simp [hx])
      have hk := h k (by simp)
      cases hk2 : k.2 with
      | num t => exact ⟨t.size :: s, mapM_ok_cons _ _ _ _ _ (by rw [hk2]; rfl) hs⟩
      | strN n => exact ⟨n :: s, mapM_ok_cons _ _ _ _ _ (by rw [hk2]; rfl) hs⟩
      | strRaw => rw [hk2] at hk; exact absurd hk id
      | char => rw [hk2] at hk; exact absurd hk id
  obtain ⟨s, hs⟩ := this
  refine ⟨s.sum, ?_⟩
  unfold itemSize
  rw [hs]
  simp only [bind, Except.bind]
  rw [if_pos hd]

theorem zip_fst_snd {α β : Type} (l : List (α × β)) : (l.map Prod.fst).zip (l.map Prod.snd) = l := by
  induction l with
  | nil => rfl
  | cons a l ih => rw [List.map_cons, List.map_cons, List.zip_cons_cons, ih]

theorem easyDtype_kept {dk : Dtype} (h : ∀ k ∈ dk, k.2.Known) (hn : ∀ k ∈ dk, KeptName k.1) (hd : (dk.map Prod.fst).Nodup) :
    easyDtype dk = .ok dk := by
  obtain ⟨n, hs⟩ := itemSize_ok h hd
  have hk : ∀ m ∈ dk.map Prod.fst, KeptName m := by
    intro m hm
    obtain ⟨k, hk, rfl⟩ := List.mem_map.mp hm
    exact hn k hk
  unfold easyDtype
  rw [hs]
  simp only [bind, Except.bind]
  rw [if_neg, validNames_kept hk hd, zip_fst_snd]
  intro hc
  rw [List.contains_iff_mem] at hc
  obtain ⟨k, hk', he⟩ := List.mem_map.mp hc
  rw [validName_kept (hn k hk')] at he
  exact (hn k hk').ne he

/-! ## Values -/

/-- The key of a field. -/
def tKey (m : Nat) (f : Str × SType) : Key :=
  (f.1, match f.2 with
    | .num t => .num t
    | .str => .strN m)

theorem tKey_known (m : Nat) (f : Str × SType) : (tKey m f).2.Known := by
  obtain ⟨n, t⟩ := f
  cases t <;> exact trivial

theorem intStr_chars (i : Int) : ∀ ch ∈ intStr i, ch.isDigit = true ∨ ch = '-' := by
  intro ch hc
  cases i with
  | ofNat n => exact Or.inl (natStr_digits n ch hc)
  | negSucc n =>
    rcases List.mem_cons.mp hc with rfl | hc
    · exact Or.inr rfl
    · exact Or.inl (natStr_digits _ ch hc)

theorem intStr_ascii (i : Int) : Ascii (intStr i) := by
  intro ch hc
  rcases intStr_chars i ch hc with h | rfl
  · have := Char.isDigit_iff_toNat.mp h
    have e : '9'.toNat = 57 := rfl
    omega
  · decide

theorem intStr_plain (i : Int) : ∀ ch ∈ intStr i, isSpace ch = false ∧ ch ≠ '_' := by
  intro ch hc
  rcases intStr_chars i ch hc with h | rfl
  · have h2 : ∀ d : Char, d.isDigit = false → ch ≠ d := fun d hd => digit_ne h hd
    constructor
    · unfold isSpace
      simp [h2 ' ' (by decide), h2 '\t' (by decide), h2 '\n' (by decide), h2 '\r' (by decide), h2 (Char.ofNat 11) (by decide),
        h2 (Char.ofNat 12) (by decide)]
    · exact h2 '_' (by decide)
  · decide

theorem pyInt_intStr (i : Int) : pyInt (intStr i) = .ok i := by
  unfold pyInt
  rw [if_neg fun h => (intStr_plain i _ h).2 rfl, strip_plain fun ch hc => (intStr_plain i ch hc).1, parseInt_intStr]

theorem textVal_strict {c : Conv} {m : Nat} {f : Str × SType} {s : Bytes} {v : Val} (h : Denotes c m f.2 s v) :
    textVal c true (tKey m f).2 s = .ok v := by
  obtain ⟨n, t⟩ := f
  cases t with
  | str =>
    cases v with
    | num t x => exact absurd h id
    | str u =>
      obtain ⟨rfl, h1, h2, h3⟩ := h
      show Except.ok (Val.str (stripNul (u.take m))) = _
      rw [List.take_of_length_le h1, stripNul_good h2]
  | num t =>
    cases t with
    | double =>
      cases v with
      | str u => exact absurd h id
      | num t' x =>
        cases t' <;> try exact absurd h id
        obtain ⟨y, h1, rfl⟩ := h
        simp [textVal, tKey, strictNum, h1, Except.map]
    | float =>
      cases v with
      | str u => exact absurd h id
      | num t' x =>
        cases t' <;> try exact absurd h id
        obtain ⟨y, h1, rfl⟩ := h
        simp [textVal, tKey, strictNum, h1, Except.map]
    | long =>
      cases v with
      | str u => exact absurd h id
      | num t' x =>
        cases t' <;> try exact absurd h id
        obtain ⟨i, rfl, h1, h2, rfl⟩ := h
        have hf : fitInt 4 i = .ok (toBits 4 i) := by
          unfold fitInt
          rw [if_pos]
          norm_num
          omega
        simp [textVal, tKey, strictNum, latin1_utf8 (intStr_ascii i), pyInt_intStr, Except.bind, hf, Except.map]
    | short =>
      cases v with
      | str u => exact absurd h id
      | num t' x =>
        cases t' <;> try exact absurd h id
        obtain ⟨i, rfl, h1, h2, rfl⟩ := h
        have hf : fitInt 2 i = .ok (toBits 2 i) := by
          unfold fitInt
          rw [if_pos]
          norm_num
          omega
        simp [textVal, tKey, strictNum, latin1_utf8 (intStr_ascii i), pyInt_intStr, Except.bind, hf, Except.map]

theorem textVal_loose {c : Conv} (hc : c.IntLaw) {m : Nat} {f : Str × SType} {s : Bytes} {v : Val} (h : Denotes c m f.2 s v) :
    textVal c false (tKey m f).2 s = .ok v := by
  obtain ⟨n, t⟩ := f
  cases t with
  | str =>
    cases v with
    | num t x => exact absurd h id
    | str u =>
      obtain ⟨rfl, h1, h2, h3⟩ := h
      show Except.ok (Val.str (stripNul (u.take m))) = _
      rw [List.take_of_length_le h1, stripNul_good h2]
  | num t =>
    cases t with
    | double =>
      cases v with
      | str u => exact absurd h id
      | num t' x =>
        cases t' <;> try exact absurd h id
        obtain ⟨y, h1, rfl⟩ := h
        simp [textVal, tKey, looseNum, looseFloat, h1, Except.map]
    | float =>
      cases v with
      | str u => exact absurd h id
      | num t' x =>
        cases t' <;> try exact absurd h id
        obtain ⟨y, h1, rfl⟩ := h
        simp [textVal, tKey, looseNum, looseFloat, h1, Except.map]
    | long =>
      cases v with
      | str u => exact absurd h id
      | num t' x =>
        cases t' <;> try exact absurd h id
        obtain ⟨i, rfl, h1, h2, rfl⟩ := h
        obtain ⟨y, hy1, hy2⟩ := hc i h1 h2
        have hf : fitInt 4 i = .ok (toBits 4 i) := by
          unfold fitInt
          rw [if_pos]
          norm_num
          omega
        simp [textVal, tKey, looseNum, looseInt, latin1_utf8 (intStr_ascii i), hy1, (truncF64_iff _ _).2 hy2, Except.bind, hf, Except.map]
    | short =>
      cases v with
      | str u => exact absurd h id
      | num t' x =>
        cases t' <;> try exact absurd h id
        obtain ⟨i, rfl, h1, h2, rfl⟩ := h
        obtain ⟨y, hy1, hy2⟩ := hc i (by omega) (by omega)
        have hf : fitInt 2 i = .ok (toBits 2 i) := by
          unfold fitInt
          rw [if_pos]
          norm_num
          omega
        simp [textVal, tKey, looseNum, looseInt, latin1_utf8 (intStr_ascii i), hy1, (truncF64_iff _ _).2 hy2, Except.bind, hf, Except.map]

theorem textVal_looseInt {c : Conv} {m : Nat} {f : Str × SType} {s : Bytes} {v : Val} (h : LooseInt c f.2 s v) :
    textVal c false (tKey m f).2 s = .ok v := by
  obtain ⟨n, t⟩ := f
  cases t with
  | str => cases v <;> exact absurd h id
  | num t =>
    cases t with
    | double => cases v <;> exact absurd h id
    | float => cases v <;> exact absurd h id
    | long =>
      cases v with
      | str u => exact absurd h id
      | num t' x =>
        cases t' <;> try exact absurd h id
        obtain ⟨y, i, hy1, hy2, h1, h2, rfl⟩ := h
        have hf : fitInt 4 i = .ok (toBits 4 i) := by
          unfold fitInt
          rw [if_pos]
          norm_num
          omega
        simp [textVal, tKey, looseNum, looseInt, hy1, (truncF64_iff _ _).2 hy2, Except.bind, hf, Except.map]
    | short =>
      cases v with
      | str u => exact absurd h id
      | num t' x =>
        cases t' <;> try exact absurd h id
        obtain ⟨y, i, hy1, hy2, h1, h2, rfl⟩ := h
        have hf : fitInt 2 i = .ok (toBits 2 i) := by
          unfold fitInt
          rw [if_pos]
          norm_num
          omega
        simp [textVal, tKey, looseNum, looseInt, hy1, (truncF64_iff _ _).2 hy2, Except.bind, hf, Except.map]

theorem castVal_denoted {c : Conv} {m : Nat} {t : SType} {s : Bytes} {v : Val} (h : Denotes c m t s v) : castVal m v = .ok v := by
  cases v with
  | num t x => rfl
  | str u =>
    cases t with
    | num t => cases t <;> exact absurd h id
    | str =>
      obtain ⟨rfl, h1, h2, h3⟩ := h
      unfold castVal
      simp only
      rw [if_pos, List.take_of_length_le h1, stripNul_good h2]
      rw [List.all_eq_true]
      intro b hb
      simpa using h3 b hb

/-! ## `genfromtxt` -/

theorem AllDenote.length {c : Conv} {m : Nat} : ∀ {fs : List (Str × SType)} {ss : List Bytes} {vs : List Val},
    AllDenote c m fs ss vs → ss.length = fs.length ∧ vs.length = fs.length
  | [], [], [], _ => ⟨rfl, rfl⟩
  | [], [], _ :: _, h => absurd h id
  | [], _ :: _, _, h => absurd h id
  | _ :: _, [], _, h => absurd h id
  | _ :: _, _ :: _, [], h => absurd h id
  | f :: fs, s :: ss, v :: vs, h => by
    have := AllDenote.length h.2
    simp [this.1, this.2]

theorem AllDenote.loose {c : Conv} {m : Nat} : ∀ {fs : List (Str × SType)} {ss : List Bytes} {vs : List Val},
    AllDenote c m fs ss vs → AllLoose c m fs ss vs
  | [], [], [], _ => trivial
  | [], [], _ :: _, h => absurd h id
  | [], _ :: _, _, h => absurd h id
  | _ :: _, [], _, h => absurd h id
  | _ :: _, _ :: _, [], h => absurd h id
  | _ :: _, _ :: _, _ :: _, h => ⟨Or.inl h.1, AllDenote.loose h.2⟩

theorem AllLoose.length {c : Conv} {m : Nat} : ∀ {fs : List (Str × SType)} {ss : List Bytes} {vs : List Val},
    AllLoose c m fs ss vs → ss.length = fs.length ∧ vs.length = fs.length
  | [], [], [], _ => ⟨rfl, rfl⟩
  | [], [], _ :: _, h => absurd h id
  | [], _ :: _, _, h => absurd h id
  | _ :: _, [], _, h => absurd h id
  | _ :: _, _ :: _, [], h => absurd h id
  | f :: fs, s :: ss, v :: vs, h => by
    have := AllLoose.length h.2
    simp [this.1, this.2]

theorem RowDenotes.loose {c : Conv} {m : Nat} {fs : List (Str × SType)} {ss : List Bytes} {vs : List Val} (h : RowDenotes c m fs ss vs) :
    AllLoose c m fs ss vs := h.elim AllDenote.loose And.right

theorem genfromtxt_param {c : Conv} {m : Nat} {f : Str × SType} (hf : KeptName f.1) {s : Bytes} {v : Val} (hs : LineText s)
    (h : Denotes c m f.2 s v) (tail : Bytes) (ht : tail = [] ∨ tail = [10]) (rest : List Bytes) :
    genfromtxt c false [tKey m f] (some 1) ((s ++ tail) :: rest) = .ok (⟨[tKey m f], [[(f.1, v)]]⟩, rest) := by
  have h1 : fieldsOf false (s ++ tail) = [s] := fieldsOf_text hs tail ht
  have h2 : firstCount false ((s ++ tail) :: rest) = 1 := by
    unfold firstCount
    rw [List.map_cons, h1, List.find?_cons_of_pos (by simp)]
    rfl
  have h3 : genRows false 1 (some 1) ((s ++ tail) :: rest) = ([[s]], false, rest) := by
    rw [genRows]
    simp only [h1]
    rfl
  unfold genfromtxt
  rw [if_neg (by decide), easyDtype_kept (dk := [tKey m f])]
  · simp only [bind, Except.bind, h2]
    rw [show Option.map Int.toNat (some 1) = some 1 from rfl, h3]
    have h4 : [[s]].mapM (textRec c [tKey m f]) = .ok [[(f.1, v)]] := by
      apply mapM_ok_cons _ _ _ _ _ _ rfl
      unfold textRec
      simp only [textVal_strict h, Except.map]
      rfl
    simp only [Bool.false_eq_true, if_false, h4]
  · intro k hk
    rw [List.mem_singleton.mp hk]
    exact tKey_known m f
  · intro k hk
    rw [List.mem_singleton.mp hk]
    exact hf
  · simp

theorem textRec_ok {c : Conv} (hc : c.IntLaw) {m : Nat} {fs : List (Str × SType)} {ss : List Bytes} {vs : List Val}
    (h : RowDenotes c m fs ss vs) (hne : fs ≠ []) : textRec c (fs.map (tKey m)) ss = .ok ((fs.map Prod.fst).zip vs) := by
  have key : ∀ {fs : List (Str × SType)} {ss : List Bytes} {vs : List Val}, AllLoose c m fs ss vs →
      ((fs.map (tKey m)).zip ss).mapM (fun p => (textVal c false p.1.2 p.2).map fun v => (p.1.1, v)) =
        .ok ((fs.map Prod.fst).zip vs) := by
    intro fs
    induction fs with
    | nil =>
      intro ss vs h
      cases ss <;> cases vs <;> first | rfl | exact absurd h id
    | cons f fs ih =>
      intro ss vs h
      cases ss with
      | nil => exact absurd h id
      | cons s ss =>
        cases vs with
        | nil => exact absurd h id
        | cons v vs =>
          refine mapM_ok_cons _ _ _ _ _ ?_ (ih h.2)
          have hv : textVal c false (tKey m f).2 s = .ok v := h.1.elim (textVal_loose hc) textVal_looseInt
          simp only [hv, Except.map]
          rfl
  obtain ⟨l1, l2⟩ := AllLoose.length h.loose
  cases fs with
  | nil => exact absurd rfl hne
  | cons f fs =>
    cases fs with
    | nil =>
      have h : AllDenote c m [f] ss vs := h.elim id fun hh => absurd hh.1 (by simp)
      cases ss with
      | nil => exact absurd h id
      | cons s ss =>
        cases vs with
        | nil => exact absurd h id
        | cons v vs =>
          cases ss with
          | cons a b => simp at l1
          | nil =>
            cases vs with
            | cons a b => simp at l2
            | nil =>
              unfold textRec
              simp only [List.map_cons, List.map_nil, textVal_strict h.1, Except.map]
              rfl
    | cons g fs =>
      rw [← key h.loose]
      unfold textRec
      simp only [List.map_cons]
      rw [if_neg]
      simp only [List.length_cons, List.length_map]
      simp only [List.length_cons] at l1
      omega

/-- A row as a line, with or without its newline. -/
def rowLine (tail : Bytes) (ws : List Bytes) : Bytes := [(32 : UInt8)].intercalate ws ++ tail

theorem genRows_rows (tail : Bytes) (ht : tail = [] ∨ tail = [10]) (nb : Nat) (hnb : 0 < nb) (rest : List Bytes) :
    ∀ rows : List (List Bytes), rows ≠ [] → (∀ ws ∈ rows, ws.length = nb ∧ ∀ s ∈ ws, WordText s) →
      genRows true nb (some rows.length) (rows.map (rowLine tail) ++ rest) = (rows, false, rest) := by
  intro rows
  induction rows with
  | nil => intro h; exact absurd rfl h
  | cons ws rows ih =>
    intro _ h
    obtain ⟨h1, h2⟩ := h ws (by simp)
    have hne : ws ≠ [] := by
      rintro rfl
      simp at h1
      omega
    have hf : fieldsOf true (rowLine tail ws) = ws := fieldsOf_row hne h2 tail ht
    rw [List.map_cons, List.cons_append, genRows]
    simp only [hf]
    rw [if_neg hne, if_neg (by simp [h1])]
    cases rows with
    | nil => rfl
    | cons v rows =>
      rw [if_neg (by simp), show Option.map (fun x => x - 1) (some (ws :: v :: rows).length) = some (v :: rows).length by simp,
        ih (by simp) fun x hx => h x (by simp [hx])]

theorem genfromtxt_rows {c : Conv} (hc : c.IntLaw) {m : Nat} {fs : List (Str × SType)} (hne : fs ≠ [])
    (hk : ∀ f ∈ fs, KeptName f.1) (hd : (fs.map Prod.fst).Nodup) {rows : List (List Bytes)} {vals : List (List Val)}
    (hrows : rows ≠ []) (hw : ∀ ws ∈ rows, ∀ s ∈ ws, WordText s) (h : List.Forall₂ (fun ws row => RowDenotes c m fs ws row) rows vals)
    (tail : Bytes) (ht : tail = [] ∨ tail = [10]) (rest : List Bytes) :
    genfromtxt c true (fs.map (tKey m)) (some (rows.length : Int)) (rows.map (rowLine tail) ++ rest) =
      .ok (⟨fs.map (tKey m), vals.map fun row => (fs.map Prod.fst).zip row⟩, rest) := by
  have hlen : ∀ ws ∈ rows, ws.length = fs.length := by
    intro ws hws
    clear hrows hw
    induction h with
    | nil => cases hws
    | cons h1 _ ih =>
      rcases List.mem_cons.mp hws with rfl | hws
      · exact (AllLoose.length h1.loose).1
      · exact ih hws
  have hpos : 0 < fs.length := List.length_pos_of_ne_nil hne
  have h2 : firstCount true (rows.map (rowLine tail) ++ rest) = fs.length := by
    cases rows with
    | nil => exact absurd rfl hrows
    | cons ws rows =>
      have hwl := hlen ws (by simp)
      have hwne : ws ≠ [] := by
        rintro rfl
        simp at hwl
        omega
      have hf : fieldsOf true (rowLine tail ws) = ws := fieldsOf_row hwne (hw ws (by simp)) tail ht
      unfold firstCount
      rw [List.map_cons, List.cons_append, List.map_cons, hf, List.find?_cons_of_pos (by simpa using hwne)]
      exact hwl
  have h3 : rows.mapM (textRec c (fs.map (tKey m))) = .ok (vals.map fun row => (fs.map Prod.fst).zip row) := by
    clear hrows hw hlen h2
    induction h with
    | nil => rfl
    | cons h1 _ ih => exact mapM_ok_cons _ _ _ _ _ (textRec_ok hc h1 hne) ih
  unfold genfromtxt
  have hp : 0 < rows.length := List.length_pos_of_ne_nil hrows
  rw [if_neg (by simp; omega), easyDtype_kept]
  · simp only [bind, Except.bind, h2]
    rw [show Option.map Int.toNat (some (rows.length : Int)) = some rows.length by simp,
      genRows_rows tail ht fs.length hpos rest rows hrows fun ws hws => ⟨hlen ws hws, hw ws hws⟩]
    simp only [Bool.false_eq_true, if_false, h3]
  · intro k hk'
    obtain ⟨f, _, rfl⟩ := List.mem_map.mp hk'
    exact tKey_known m f
  · intro k hk'
    obtain ⟨f, hf, rfl⟩ := List.mem_map.mp hk'
    exact hk f hf
  · rw [List.map_map]
    exact hd

end Verif.Sdds
