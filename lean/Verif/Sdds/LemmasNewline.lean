import Verif.Sdds.LemmasAscii2
import Mathlib.Data.List.TakeWhile

/-!
# The newline at the end of an ASCII file

Reading a file whose last line has a newline and reading the same file without it go through the same states.
-/

namespace Verif.Sdds

/-- The same lines, but the last one may have got a newline. -/
inductive NL : List Bytes → List Bytes → Prop
  | refl (ls : List Bytes) : NL ls ls
  | last (l : Bytes) : l ≠ [] → NL [l] [l ++ [10]]
  | cons (x : Bytes) {a b : List Bytes} : NL a b → NL (x :: a) (x :: b)

theorem NL.drop {a b : List Bytes} (h : NL a b) : ∀ n, NL (a.drop n) (b.drop n) := by
  induction h with
  | refl ls => intro n; exact .refl _
  | last l hl =>
    intro n
    cases n with
    | zero => exact .last l hl
    | succ n => simpa using NL.refl []
  | cons x h ih =>
    intro n
    cases n with
    | zero => exact .cons x h
    | succ n => simpa using ih n

theorem splitLinesFrom_newline : ∀ (b : Bytes) (cr : Bool) (cur : Bytes), b.getLast? ≠ some 10 → (b = [] → cur ≠ [] ∨ cr = true) →
    splitLinesFrom cr cur (b ++ [10]) = splitLinesFrom cr cur b := by
  intro b
  induction b with
  | nil =>
    intro cr cur _ h
    by_cases hc : cur = []
    · have : cr = true := (h rfl).resolve_left (fun h => h hc)
      simp [hc, this, splitLinesFrom]
    · simp [hc, splitLinesFrom]
  | cons x xs ih =>
    intro cr cur hl _
    have hl' : xs.getLast? ≠ some 10 := by
      cases xs with
      | nil => simp
      | cons y ys => simpa [List.getLast?_cons_cons] using hl
    have hx : xs = [] → x ≠ 10 := by
      rintro rfl rfl
      simp at hl
    rw [List.cons_append, splitLinesFrom, splitLinesFrom]
    by_cases h10 : x = 10
    · have hne : xs ≠ [] := fun h => hx h h10
      rw [if_pos h10, if_pos h10, ih false [] hl' fun h => absurd h hne]
    · rw [if_neg h10, if_neg h10]
      by_cases h13 : x = 13
      · rw [if_pos h13, if_pos h13, ih true [] hl' fun _ => .inr rfl]
      · rw [if_neg h13, if_neg h13, ih false _ hl' fun _ => .inl (by simp)]

theorem bufferLines_newline {b : Bytes} (hne : b ≠ []) (h : b.getLast? ≠ some 10) : bufferLines (b ++ [10]) = bufferLines b := by
  unfold bufferLines splitLines
  rw [splitLinesFrom_newline b false [] h fun h0 => absurd h0 hne]

theorem fileLinesFrom_newline : ∀ (b cur : Bytes), b.getLast? ≠ some 10 → (b = [] → cur ≠ []) →
    NL (fileLinesFrom cur b) (fileLinesFrom cur (b ++ [10])) := by
  intro b
  induction b with
  | nil =>
    intro cur _ h
    rw [List.nil_append, fileLinesFrom, fileLinesFrom, if_pos rfl, if_neg (h rfl), fileLinesFrom, if_pos rfl]
    exact .last cur (h rfl)
  | cons x xs ih =>
    intro cur hl _
    have hl' : xs.getLast? ≠ some 10 := by
      cases xs with
      | nil => simp
      | cons y ys => simpa [List.getLast?_cons_cons] using hl
    rw [List.cons_append, fileLinesFrom, fileLinesFrom]
    by_cases h10 : x = 10
    · rw [if_pos h10, if_pos h10]
      refine .cons _ (ih [] hl' ?_)
      rintro rfl
      simp [h10] at hl
    · rw [if_neg h10, if_neg h10]
      exact ih _ hl' fun _ => by simp

theorem stripLine_newline (l : Bytes) : stripLine (l ++ [10]) = stripLine l := by
  unfold stripLine
  simp only
  congr 1
  by_cases h : ∀ b ∈ l, (b == 32 || b == 13 || b == 10) = true
  · have h1 : (l ++ [10]).dropWhile (fun b : UInt8 => b == 32 || b == 13 || b == 10) = [] := by
      rw [List.dropWhile_eq_nil_iff]
      intro b hb
      rcases List.mem_append.mp hb with hb | hb
      · exact h b hb
      · rw [List.mem_singleton.mp hb]; decide
    have h2 : l.dropWhile (fun b : UInt8 => b == 32 || b == 13 || b == 10) = [] := List.dropWhile_eq_nil_iff.mpr h
    rw [h1, h2]
  · have h2 : l.dropWhile (fun b : UInt8 => b == 32 || b == 13 || b == 10) ≠ [] := fun h0 => h (List.dropWhile_eq_nil_iff.mp h0)
    rw [List.dropWhile_append]
    have : (l.dropWhile (fun b : UInt8 => b == 32 || b == 13 || b == 10)).isEmpty = false := by simpa using h2
    rw [this]
    simp only [Bool.false_eq_true, if_false, List.reverse_append, List.reverse_singleton, List.singleton_append]
    rw [List.dropWhile_cons_of_pos (by decide)]

theorem takeWhile_newline (l : Bytes) : (l ++ [10]).takeWhile (fun b => decide (b ≠ 33)) = l.takeWhile (fun b => decide (b ≠ 33)) ∨
    (l ++ [10]).takeWhile (fun b => decide (b ≠ 33)) = l.takeWhile (fun b => decide (b ≠ 33)) ++ [10] := by
  rw [List.takeWhile_append]
  split_ifs with h
  · right
    have : l.takeWhile (fun b => decide (b ≠ 33)) = l := (List.takeWhile_prefix _).eq_of_length h
    rw [this]
    rfl
  · exact .inl rfl

theorem fieldsOf_newline (white : Bool) (l : Bytes) : fieldsOf white (l ++ [10]) = fieldsOf white l := by
  unfold fieldsOf
  simp only
  rcases takeWhile_newline l with h | h <;> rw [h]
  rw [stripLine_newline]

theorem NL.fields {a b : List Bytes} (h : NL a b) (white : Bool) : b.map (fieldsOf white) = a.map (fieldsOf white) := by
  induction h with
  | refl => rfl
  | last l hl => rw [List.map_singleton, List.map_singleton, fieldsOf_newline]
  | cons x h ih => rw [List.map_cons, List.map_cons, ih]

theorem NL.firstCount {a b : List Bytes} (h : NL a b) (white : Bool) : firstCount white b = firstCount white a := by
  unfold Sdds.firstCount
  rw [h.fields]

theorem NL.genRows {a b : List Bytes} (h : NL a b) (white : Bool) (nb : Nat) : ∀ max : Option Nat,
    (genRows white nb max b).1 = (genRows white nb max a).1 ∧ (genRows white nb max b).2.1 = (genRows white nb max a).2.1 ∧
    NL (genRows white nb max a).2.2 (genRows white nb max b).2.2 := by
  induction h with
  | refl => intro max; exact ⟨rfl, rfl, .refl _⟩
  | last l hl =>
    intro max
    have e : Sdds.genRows white nb max [l ++ [10]] = Sdds.genRows white nb max [l] := by simp only [Sdds.genRows, fieldsOf_newline]
    rw [e]
    exact ⟨rfl, rfl, .refl _⟩
  | cons x h ih =>
    intro max
    rw [Sdds.genRows, Sdds.genRows]
    simp only
    split_ifs
    · exact ih max
    · exact ⟨(ih max).1, rfl, (ih max).2.2⟩
    · exact ⟨rfl, rfl, h⟩
    · obtain ⟨h1, h2, h3⟩ := ih (max.map (· - 1))
      exact ⟨by rw [h1], h2, h3⟩

/-- Both fail with the same exception, or both succeed with related results. -/
def Both {α β : Type} (R : α → β → Prop) : Except PyErr α → Except PyErr β → Prop
  | .error e, .error e' => e = e'
  | .ok a, .ok b => R a b
  | _, _ => False

theorem genfromtxt_newline (c : Conv) (white : Bool) (dk : Dtype) (max : Option Int) {a b : List Bytes} (h : NL a b) :
    Both (fun x y => y.1 = x.1 ∧ NL x.2 y.2) (genfromtxt c white dk max a) (genfromtxt c white dk max b) := by
  unfold genfromtxt
  split_ifs
  · rfl
  · cases easyDtype dk with
    | error e => rfl
    | ok dt =>
      simp only [bind, Except.bind, h.firstCount]
      obtain ⟨h1, h2, h3⟩ := h.genRows white (firstCount white a) (max.map Int.toNat)
      rw [h1, h2]
      split_ifs
      · rfl
      · cases (Sdds.genRows white (firstCount white a) (max.map Int.toNat) a).1.mapM (textRec c dt) with
        | error e => rfl
        | ok recs => exact ⟨rfl, h3⟩

/-- The reader of a file with other bytes but the same buffered lines. -/
structure SameReader (r r' : Reader) : Prop where
  eq : r' = { r with file := r'.file }
  buffered : bufferLines r'.file = bufferLines r.file

/-- Positions that differ by the newline. -/
def SamePos (p p' : TPos) : Prop := p'.position = p.position ∧ NL p.rest p'.rest

variable {r r' : Reader}

theorem SameReader.buffer (h : SameReader r r') : r'.buffer = r.buffer := by rw [h.eq]
theorem SameReader.keys (h : SameReader r r') : r'.paramKeys = r.paramKeys := by rw [h.eq]; rfl
theorem SameReader.colKeys (h : SameReader r r') : r'.colKeys = r.colKeys := by rw [h.eq]; rfl
theorem SameReader.cols (h : SameReader r r') : r'.cols = r.cols := by rw [h.eq]
theorem SameReader.maxStr (h : SameReader r r') : r'.maxStr = r.maxStr := by rw [h.eq]
theorem SameReader.counts (h : SameReader r r') : r'.noRowCounts = r.noRowCounts := by rw [h.eq]

theorem SameReader.source (h : SameReader r r') {p p' : TPos} (hp : SamePos p p') :
    NL ((r.source p).drop p.position) ((r'.source p').drop p'.position) := by
  unfold Reader.source
  rw [h.buffer, hp.1, h.buffered]
  split_ifs
  · exact .refl _
  · exact hp.2.drop _

theorem SameReader.params (h : SameReader r r') (c : Conv) : ∀ (dks : List Dtype) (acc : List Arr) {p p' : TPos}, SamePos p p' →
    Both (fun x y => y.1 = x.1 ∧ SamePos x.2 y.2) (r.textParams c dks acc p) (r'.textParams c dks acc p') := by
  intro dks
  induction dks with
  | nil => intro acc p p' hp; exact ⟨rfl, hp⟩
  | cons dk dks ih =>
    intro acc p p' hp
    rw [Reader.textParams, Reader.textParams]
    have := genfromtxt_newline c false dk (some 1) (h.source hp)
    revert this
    cases genfromtxt c false dk (some 1) ((r.source p).drop p.position) with
    | error e =>
      cases genfromtxt c false dk (some 1) ((r'.source p').drop p'.position) with
      | error e' => exact id
      | ok y => exact False.elim
    | ok x =>
      cases genfromtxt c false dk (some 1) ((r'.source p').drop p'.position) with
      | error e' => exact False.elim
      | ok y =>
        rintro ⟨h1, h2⟩
        simp only [bind, Except.bind]
        rw [h1]
        refine ih _ ?_
        rw [h.buffer]
        split_ifs
        · exact ⟨by simp [hp.1], hp.2⟩
        · exact ⟨hp.1, h2⟩

theorem SameReader.textCols (h : SameReader r r') (c : Conv) (rc : Option Int) {p p' : TPos} (hp : SamePos p p') :
    Both (fun x y => y.1 = x.1 ∧ SamePos x.2 y.2) (r.textCols c rc p) (r'.textCols c rc p') := by
  unfold Reader.textCols
  rw [h.colKeys]
  have := genfromtxt_newline c true (r.colKeys.headD []) rc (h.source hp)
  revert this
  cases genfromtxt c true (r.colKeys.headD []) rc ((r.source p).drop p.position) with
  | error e =>
    cases genfromtxt c true (r.colKeys.headD []) rc ((r'.source p').drop p'.position) with
    | error e' => exact id
    | ok y => exact False.elim
  | ok x =>
    cases genfromtxt c true (r.colKeys.headD []) rc ((r'.source p').drop p'.position) with
    | error e' => exact False.elim
    | ok y =>
      rintro ⟨h1, h2⟩
      simp only [bind, Except.bind]
      refine ⟨h1, ?_⟩
      rw [h.buffer, h1]
      split_ifs
      · exact ⟨by simp [hp.1], hp.2⟩
      · exact ⟨hp.1, h2⟩

theorem all_newline (l : Bytes) : (l ++ [10]).all isSpaceByte = l.all isSpaceByte := by
  rw [List.all_append]
  have : ([10] : Bytes).all isSpaceByte = true := by decide
  rw [this, Bool.and_true]

theorem NL.head {a b : List Bytes} (h : NL a b) : (b.headD []).all isSpaceByte = (a.headD []).all isSpaceByte := by
  cases h with
  | refl => rfl
  | last l hl => exact all_newline l
  | cons x h => rfl

theorem SameReader.textEnd (h : SameReader r r') {p p' : TPos} (hp : SamePos p p') : r'.textEnd p' = r.textEnd p := by
  unfold Reader.textEnd
  rw [h.buffer, h.buffered, hp.1]
  split_ifs
  · rfl
  · obtain ⟨_, hn⟩ := hp
    revert hn
    generalize p.rest = a
    generalize p'.rest = b
    intro hn
    cases hn with
    | refl => rfl
    | last l hl =>
      obtain ⟨x, xs, rfl⟩ := List.exists_cons_of_ne_nil hl
      show List.all (if xs ++ [10] = [] then [] else xs ++ [10]) isSpaceByte = List.all (if xs = [] then [] else xs) isSpaceByte
      have h1 : (if xs ++ [10] = [] then [] else xs ++ [10]) = xs ++ [10] := if_neg (by simp)
      have h2 : (if xs = [] then [] else xs) = xs := by split_ifs with hx <;> simp [hx]
      rw [h1, h2, all_newline]
    | cons x hn =>
      simp only
      split_ifs
      · exact hn.head
      · rfl

theorem NL.rows {a b : List Bytes} (h : NL a b) :
    (b.takeWhile fun l => !l.all isSpaceByte).length = (a.takeWhile fun l => !l.all isSpaceByte).length := by
  induction h with
  | refl => rfl
  | last l hl =>
    rw [List.takeWhile_cons, List.takeWhile_cons, all_newline]
    split_ifs <;> rfl
  | cons x h ih =>
    rw [List.takeWhile_cons, List.takeWhile_cons]
    split_ifs
    · rw [List.length_cons, List.length_cons, ih]
    · rfl

theorem SameReader.rowCount (h : SameReader r r') (pd : List Arr) {p p' : TPos} (hp : SamePos p p') :
    r'.textRowCount pd p' = r.textRowCount pd p := by
  unfold Reader.textRowCount Reader.textRows
  rw [h.buffer, h.buffered, h.cols, h.counts, hp.1, hp.2.rows]

/-- The part of `textPage` after the parameters. -/
def Reader.pageTail (r : Reader) (c : Conv) (b : Bool) (pd : List Arr) (p1 : TPos) (acc1 : Pages) : Except PyErr (Pages × TPos) :=
  (r.textRowCount pd p1).bind fun rc =>
    if rc = some 0 then .ok (acc1, p1)
    else if b then (r.textCols c rc p1).bind fun x => .ok ({ acc1 with cols := acc1.cols ++ [x.1.rows] }, x.2)
    else (itemSize (r.colKeys.headD [])).bind fun size =>
      match rc with
      | none => .error .typeError
      | some n => if n < 0 then .error .notModelled else .ok (acc1, { p1 with position := p1.position + size * n.toNat })

theorem Reader.textPage_tail (r : Reader) (c : Conv) (all wanted : Bool) (p : TPos) (acc : Pages) :
    r.textPage c all wanted p acc = (r.textParams c r.paramKeys [] p).bind fun x =>
      (if wanted then (textMerge r.maxStr r.paramKeys x.1).bind fun pg => .ok { acc with params := acc.params ++ [pg] } else .ok acc).bind
        (r.pageTail c (all || wanted) x.1 x.2) := by
  unfold Reader.textPage
  cases r.textParams c r.paramKeys [] p with
  | error e => rfl
  | ok x =>
    cases wanted with
    | false => rfl
    | true =>
      simp only [bind, Except.bind, if_true]
      cases textMerge r.maxStr r.paramKeys x.1 with
      | error e => rfl
      | ok pg => rfl

theorem Both.bind {α β γ δ : Type} {R : α → β → Prop} {S : γ → δ → Prop} {a : Except PyErr α} {b : Except PyErr β} (h : Both R a b)
    {f : α → Except PyErr γ} {g : β → Except PyErr δ} (hf : ∀ x y, R x y → Both S (f x) (g y)) : Both S (a.bind f) (b.bind g) := by
  cases a with
  | error e =>
    cases b with
    | error e' => exact h
    | ok y => exact h.elim
  | ok x =>
    cases b with
    | error e' => exact h.elim
    | ok y => exact hf x y h

theorem Both.refl {α : Type} (a : Except PyErr α) : Both (fun x y => y = x) a a := by cases a <;> rfl

theorem SameReader.page (h : SameReader r r') (c : Conv) (all wanted : Bool) {p p' : TPos} (hp : SamePos p p') (acc : Pages) :
    Both (fun x y => y.1 = x.1 ∧ SamePos x.2 y.2) (r.textPage c all wanted p acc) (r'.textPage c all wanted p' acc) := by
  rw [Reader.textPage_tail, Reader.textPage_tail, h.keys, h.maxStr]
  refine (h.params c r.paramKeys [] hp).bind ?_
  rintro ⟨pd, p1⟩ ⟨pd', p1'⟩ ⟨rfl, h2⟩
  refine (Both.refl _).bind ?_
  rintro _ acc1 rfl
  unfold Reader.pageTail
  rw [h.rowCount _ h2, h.colKeys]
  refine (Both.refl _).bind ?_
  rintro _ rc rfl
  split_ifs
  · exact ⟨rfl, h2⟩
  · refine (h.textCols c rc h2).bind ?_
    rintro x y ⟨g1, g2⟩
    exact ⟨by rw [g1], g2⟩
  · refine (Both.refl _).bind ?_
    rintro _ size rfl
    cases rc with
    | none => rfl
    | some n =>
      simp only
      split_ifs
      · rfl
      · exact ⟨rfl, by simpa using h2.1, h2.2⟩

theorem SameReader.loop (h : SameReader r r') (c : Conv) (sel : Option (List Nat)) : ∀ (fuel page : Nat) {p p' : TPos}, SamePos p p' →
    ∀ acc : Pages, r'.textLoop c sel fuel page p' acc = r.textLoop c sel fuel page p acc := by
  intro fuel
  induction fuel with
  | zero => intros; rfl
  | succ fuel ih =>
    intro page p p' hp acc
    rw [Reader.textLoop, Reader.textLoop, h.textEnd hp]
    split_ifs
    · rfl
    · rfl
    · have := h.page c sel.isNone (wantedPage sel page) hp acc
      revert this
      cases r.textPage c sel.isNone (wantedPage sel page) p acc with
      | error e =>
        cases r'.textPage c sel.isNone (wantedPage sel page) p' acc with
        | error e' => rintro rfl; rfl
        | ok y => exact False.elim
      | ok x =>
        cases r'.textPage c sel.isNone (wantedPage sel page) p' acc with
        | error e' => exact False.elim
        | ok y =>
          obtain ⟨a, q⟩ := x
          obtain ⟨a', q'⟩ := y
          rintro ⟨rfl, h2⟩
          exact ih (page + 1) h2 _

/-- Reading from related files. -/
theorem SameReader.read (h : SameReader r r') (hl : r'.lineCount = r.lineCount)
    (hf : NL (fileLines (r.file.drop r.headerEnd)) (fileLines (r'.file.drop r'.headerEnd))) (c : Conv) (fuel : Nat) (sel : Option (List Nat)) :
    r'.readText c fuel sel = r.readText c fuel sel := by
  unfold Reader.readText
  by_cases h0 : sel = some []
  · rw [if_pos h0, if_pos h0]
  · rw [if_neg h0, if_neg h0]
    simp only
    rw [h.loop c sel fuel 0 (p := ⟨if r.buffer then r.lineCount else 0, fileLines (r.file.drop r.headerEnd)⟩)
      (p' := ⟨if r'.buffer then r'.lineCount else 0, fileLines (r'.file.drop r'.headerEnd)⟩) ⟨by simp only [h.buffer, hl], hf⟩]

/-- The reader that `open` makes depends on the body only through the bytes. -/
theorem open_bodies {ft : FloatText} {d : Doc} {l : Layout} (h : d.AnnouncesText ft l) {fuel : Nat}
    (hfuel : d.comments.length + d.namelists.length + 2 ≤ fuel) (buffer : Bool) (maxStr : Nat) :
    ∃ ps cs, ∀ body, openSdds ft fuel buffer maxStr (utf8 d.text ++ body) = some (.ok {
        file := utf8 d.text ++ body, buffer := buffer, maxStr := maxStr,
        headerEnd := (utf8 d.text).length, lineCount := d.namelists.length + 2,
        params := ps, cols := cs, ascii := true,
        noRowCounts := textTrue (attrVal d.data "no_row_counts".toList) }) := by
  obtain ⟨ps, hp1, hp2⟩ := params_of _ _ h.params h.fixed
  obtain ⟨cs, hc1, hc2⟩ := cols_of _ _ h.cols h.noLength
  refine ⟨ps, cs, fun body => ?_⟩
  let r : Reader := {
        file := utf8 d.text ++ body, buffer := buffer, maxStr := maxStr,
        headerEnd := (utf8 d.text).length, lineCount := d.namelists.length + 2,
        params := ps, cols := cs, ascii := true,
        noRowCounts := textTrue (attrVal d.data "no_row_counts".toList) }
  have hd : r.DescribesText l := ⟨rfl, by simp only [r, h.counts]; rfl, hp2, hc2⟩
  refine open_docText ft h.ok body hfuel buffer maxStr hp1 hc1 h.mode r rfl ?_
  rw [hd.paramKeys]
  intro h0
  rw [List.map_eq_nil_iff] at h0
  unfold pFields at h0
  rw [List.append_eq_nil_iff] at h0
  rcases h.some with hs | hs
  · exact hs h0.1
  · have : l.cols.isEmpty = false := by simpa using hs
    rw [this] at h0
    simp at h0

end Verif.Sdds
