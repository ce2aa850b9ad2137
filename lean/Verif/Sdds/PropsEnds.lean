import Verif.Sdds.Ascii
import Verif.Sdds.PropsAscii

/-!
# C133 for ASCII files
-/

namespace Verif.Sdds

theorem genRows_rest (white : Bool) (nb : Nat) (lines : List Bytes) : ∀ max : Option Nat,
    (genRows white nb max lines).2.2.length ≤ lines.length ∧ (lines ≠ [] → (genRows white nb max lines).2.2.length < lines.length) := by
  induction lines with
  | nil => intro max; simp [genRows]
  | cons line ls ih =>
    intro max
    have key : ∀ m, (genRows white nb m ls).2.2.length < (line :: ls).length := fun m => by
      have := (ih m).1
      rw [List.length_cons]; omega
    have : (genRows white nb max (line :: ls)).2.2.length < (line :: ls).length := by
      simp only [genRows]
      by_cases h1 : fieldsOf white line = []
      · rw [if_pos h1]; exact key _
      · rw [if_neg h1]
        by_cases h2 : (fieldsOf white line).length ≠ nb
        · rw [if_pos h2]; exact key _
        · rw [if_neg h2]
          by_cases h3 : max = some 1
          · rw [if_pos h3]; simp
          · rw [if_neg h3]; exact key _
    exact ⟨this.le, fun _ => this⟩

theorem genfromtxt_rest {c : Conv} {white : Bool} {dk : Dtype} {max : Option Int} {lines : List Bytes} {x : Arr × List Bytes}
    (h : genfromtxt c white dk max lines = .ok x) : x.2.length ≤ lines.length ∧ (lines ≠ [] → x.2.length < lines.length) := by
  unfold genfromtxt at h
  by_cases h1 : max.getD 1 < 1
  · rw [if_pos h1] at h; cases h
  · rw [if_neg h1] at h
    simp only [bind, Except.bind] at h
    cases h2 : easyDtype dk with
    | error e => rw [h2] at h; cases h
    | ok dt =>
      simp only [h2] at h
      split at h
      · cases h
      · split at h
        · cases h
        · cases h
          exact genRows_rest _ _ _ _

theorem textParams_grows {r : Reader} {c : Conv} (dks : List Dtype) : ∀ (acc : List Arr) (p : TPos) (x : List Arr × TPos),
    r.textParams c dks acc p = .ok x →
    (r.buffer = true → x.2.position = p.position + dks.length) ∧
    (r.buffer = false → x.2.position = p.position ∧ x.2.rest.length ≤ p.rest.length ∧
      (dks ≠ [] → p.position = 0 → p.rest ≠ [] → x.2.rest.length < p.rest.length)) := by
  induction dks with
  | nil => intro acc p x h; cases h; exact ⟨fun _ => by simp, fun _ => ⟨rfl, le_refl _, fun h => absurd rfl h⟩⟩
  | cons dk dks ih =>
    intro acc p x h
    simp only [Reader.textParams, bind, Except.bind] at h
    cases h1 : genfromtxt c false dk (some 1) ((r.source p).drop p.position) with
    | error e => rw [h1] at h; cases h
    | ok y =>
      simp only [h1] at h
      obtain ⟨g1, g2⟩ := genfromtxt_rest h1
      obtain ⟨a, b⟩ := ih _ _ _ h
      constructor
      · intro hb
        have := a hb
        simp only [hb, if_true] at this
        rw [this, List.length_cons]; omega
      · intro hb
        obtain ⟨b1, b2, b3⟩ := b hb
        simp only [hb, Bool.false_eq_true, if_false] at b1 b2
        have hs : (r.source p).drop p.position = p.rest.drop p.position := by simp [Reader.source, hb]
        rw [hs] at g1 g2
        rw [List.length_drop] at g1 g2
        refine ⟨b1, by omega, ?_⟩
        intro _ h0 hne
        rw [h0] at g2
        have := g2 (by simpa using hne)
        omega

theorem textCols_grows {r : Reader} {c : Conv} {rc : Option Int} {p : TPos} {x : Arr × TPos} (h : r.textCols c rc p = .ok x) :
    p.position ≤ x.2.position ∧ (r.buffer = false → x.2.position = p.position ∧ x.2.rest.length ≤ p.rest.length) := by
  unfold Reader.textCols at h
  simp only [bind, Except.bind] at h
  cases h1 : genfromtxt c true (r.colKeys.headD []) rc ((r.source p).drop p.position) with
  | error e => rw [h1] at h; cases h
  | ok y =>
    simp only [h1] at h
    cases h
    obtain ⟨g1, -⟩ := genfromtxt_rest h1
    cases hb : r.buffer with
    | true => simp
    | false =>
      refine ⟨by simp, fun _ => ⟨by simp, ?_⟩⟩
      have hs : (r.source p).drop p.position = p.rest.drop p.position := by simp [Reader.source, hb]
      rw [hs, List.length_drop] at g1
      simp only [Bool.false_eq_true, if_false]
      omega

/-- One page of `read()` of an ASCII file. -/
theorem textPage_grows {r : Reader} {c : Conv} (hk : r.paramKeys ≠ []) {p : TPos} {acc : Pages} {x : Pages × TPos} (h : r.textPage c true true p acc = .ok x) :
    (r.buffer = true → p.position < x.2.position) ∧
    (r.buffer = false → p.position = 0 → p.rest ≠ [] → x.2.position = 0 ∧ x.2.rest.length < p.rest.length) := by
  unfold Reader.textPage at h
  cases h1 : r.textParams c r.paramKeys [] p with
  | error e => rw [h1] at h; cases h
  | ok y =>
    simp only [h1, bind, Except.bind, if_true] at h
    obtain ⟨a, b⟩ := textParams_grows _ _ _ _ h1
    have hlen : 0 < r.paramKeys.length := List.length_pos_of_ne_nil hk
    have ends : x.2 = y.2 ∨ ∃ rc z, r.textCols c rc y.2 = .ok z ∧ x.2 = z.2 := by
      cases h2 : textMerge r.maxStr r.paramKeys y.1 with
      | error e => rw [h2] at h; cases h
      | ok pg =>
        simp only [h2] at h
        cases h3 : r.textRowCount y.1 y.2 with
        | error e => rw [h3] at h; cases h
        | ok rc =>
          simp only [h3] at h
          by_cases h0 : rc = some 0
          · rw [if_pos h0] at h; cases h; exact .inl rfl
          · rw [if_neg h0] at h
            simp only [Bool.true_or, if_true] at h
            cases h4 : r.textCols c rc y.2 with
            | error e => rw [h4] at h; cases h
            | ok z => simp only [h4] at h; cases h; exact .inr ⟨rc, z, h4, rfl⟩
    rcases ends with hx | ⟨rc, z, hz, hx⟩
    · rw [hx]
      refine ⟨fun hb => by have := a hb; omega, fun hb h0 hne => ?_⟩
      obtain ⟨b1, b2, b3⟩ := b hb
      exact ⟨b1.trans h0, b3 hk h0 hne⟩
    · rw [hx]
      obtain ⟨z1, z2⟩ := textCols_grows hz
      refine ⟨fun hb => by have := a hb; omega, fun hb h0 hne => ?_⟩
      obtain ⟨b1, b2, b3⟩ := b hb
      obtain ⟨z3, z4⟩ := z2 hb
      exact ⟨z3.trans (b1.trans h0), by have := b3 hk h0 hne; omega⟩

theorem textLoop_ends {r : Reader} {c : Conv} (hk : r.paramKeys ≠ []) (fuel : Nat) : ∀ (page : Nat) (p : TPos) (acc : Pages),
    (r.buffer = true → (bufferLines r.file).length < p.position + fuel) → (r.buffer = false → p.position = 0 ∧ p.rest.length < fuel) → 0 < fuel →
    r.textLoop c none fuel page p acc ≠ none := by
  induction fuel with
  | zero => intro page p acc _ _ h; omega
  | succ fuel ih =>
    intro page p acc hb hu _
    simp only [Reader.textLoop, pastPages, wantedPage, Option.isNone_none, Bool.false_eq_true, if_false]
    by_cases h2 : r.textEnd p = true
    · simp [h2]
    · rw [if_neg h2]
      cases h3 : r.textPage c true true p acc with
      | error e => simp
      | ok x =>
        obtain ⟨g1, g2⟩ := textPage_grows hk h3
        cases hbuf : r.buffer with
        | true =>
          have := g1 hbuf
          have := hb hbuf
          have hne : ¬ (bufferLines r.file).length ≤ p.position := by
            intro hle; apply h2; unfold Reader.textEnd; simp [hbuf, hle]
          refine ih _ _ _ (fun _ => by omega) (fun hf => ?_) (by omega)
          rw [hbuf] at hf; cases hf
        | false =>
          obtain ⟨h0, hl⟩ := hu hbuf
          have hne : p.rest ≠ [] := by
            intro he; apply h2; unfold Reader.textEnd; simp [hbuf, he]
          obtain ⟨e1, e2⟩ := g2 hbuf h0 hne
          have hpos : 0 < p.rest.length := List.length_pos_of_ne_nil hne
          refine ih _ _ _ (fun hf => ?_) (fun _ => ⟨e1, by omega⟩) (by omega)
          rw [hbuf] at hf; cases hf

theorem splitLinesFrom_le (b : Bytes) : ∀ (cr : Bool) (cur : Bytes), (splitLinesFrom cr cur b).length ≤ b.length + 1 := by
  induction b with
  | nil => intro cr cur; simp only [splitLinesFrom]; split <;> simp
  | cons x b ih =>
    intro cr cur
    simp only [splitLinesFrom, List.length_cons]
    by_cases h1 : x = 10
    · rw [if_pos h1]
      by_cases h2 : cr = true ∧ cur = []
      · rw [if_pos h2]; have := ih false []; omega
      · rw [if_neg h2, List.length_cons]; have := ih false []; omega
    · rw [if_neg h1]
      by_cases h2 : x = 13
      · rw [if_pos h2, List.length_cons]; have := ih true []; omega
      · rw [if_neg h2]; have := ih false (cur ++ [x]); omega

theorem fileLinesFrom_le (b : Bytes) : ∀ cur : Bytes, (fileLinesFrom cur b).length ≤ b.length + 1 := by
  induction b with
  | nil => intro cur; simp only [fileLinesFrom]; split <;> simp
  | cons x b ih =>
    intro cur
    simp only [fileLinesFrom, List.length_cons]
    by_cases h1 : x = 10
    · rw [if_pos h1, List.length_cons]; have := ih []; omega
    · rw [if_neg h1]; have := ih (cur ++ [x]); omega

/-- **C133, ASCII files.** `read()` of an ASCII file ends for every file, with and without buffer. (`paramKeys` is not empty for every reader that
`__init__` returns.) -/
theorem ascii_ends_partial (r : Reader) (c : Conv) (hk : r.paramKeys ≠ []) : r.readText c (r.file.length + 2) none ≠ none := by
  unfold Reader.readText
  rw [if_neg (by simp)]
  have h := textLoop_ends (r := r) (c := c) hk (r.file.length + 2) 0
    ⟨if r.buffer then r.lineCount else 0, fileLines (r.file.drop r.headerEnd)⟩ ⟨[], []⟩ (by
      intro hb
      have h1 : (bufferLines r.file).length ≤ (splitLines r.file).length := List.length_filter_le _ _
      have h2 := splitLinesFrom_le r.file false []
      unfold splitLines at h1
      simp only
      omega) (by
      intro hb
      refine ⟨by simp [hb], ?_⟩
      have := fileLinesFrom_le (r.file.drop r.headerEnd) []
      unfold fileLines
      rw [List.length_drop] at this
      simp only
      omega) (by omega)
  simp only
  cases h1 : r.textLoop c none (r.file.length + 2) 0 ⟨if r.buffer then r.lineCount else 0, fileLines (r.file.drop r.headerEnd)⟩ ⟨[], []⟩ with
  | none => exact absurd h1 h
  | some x => cases x <;> simp

theorem open_keys {ft : FloatText} {fuel : Nat} {buffer : Bool} {maxStr : Nat} {file : Bytes} {r : Reader}
    (h : openSdds ft fuel buffer maxStr file = some (.ok r)) (ha : r.ascii = true) : r.paramKeys ≠ [] := by
  unfold openSdds at h
  split at h
  · cases h
  · cases h
  · simp only [Option.some.injEq, bind, Except.bind] at h
    split at h
    · cases h
    · split at h
      · cases h
      · split at h
        · cases h
        · rename_i hc
          cases h
          intro he
          apply hc
          rw [Bool.and_eq_true]
          exact ⟨ha, List.isEmpty_iff.mpr he⟩

/-- The same for every ASCII file that can be opened. -/
theorem ascii_open_ends {ft : FloatText} {fuel : Nat} {buffer : Bool} {maxStr : Nat} {file : Bytes} {r : Reader} (c : Conv)
    (h : openSdds ft fuel buffer maxStr file = some (.ok r)) (ha : r.ascii = true) : r.readText c (r.file.length + 2) none ≠ none :=
  ascii_ends_partial r c (open_keys h ha)

theorem textLoop_selected (r : Reader) (c : Conv) (s : List Nat) (fuel : Nat) : ∀ (page : Nat) (p : TPos) (acc : Pages),
    s.foldl max 0 + 2 ≤ page + fuel → 0 < fuel → r.textLoop c (some s) fuel page p acc ≠ none := by
  induction fuel with
  | zero => intro page p acc _ h; omega
  | succ fuel ih =>
    intro page p acc hf _
    simp only [Reader.textLoop]
    by_cases h1 : pastPages (some s) page = true
    · simp [h1]
    · have h1' : ¬ s.foldl max 0 < page := by simpa [pastPages] using h1
      rw [if_neg h1]
      by_cases h2 : r.textEnd p = true
      · simp [h2]
      · rw [if_neg h2]
        cases h3 : r.textPage c (some s).isNone (wantedPage (some s) page) p acc with
        | error e => simp
        | ok x => exact ih _ _ _ (by omega) (by omega)

/-- **C133, selected pages of ASCII files.** -/
theorem ascii_selected_ends (r : Reader) (c : Conv) (s : List Nat) : r.readText c (s.foldl max 0 + 2) (some s) ≠ none := by
  unfold Reader.readText
  by_cases hs : s = []
  · rw [hs]; simp
  · rw [if_neg (by simpa using hs)]
    have h := textLoop_selected r c s (s.foldl max 0 + 2) 0 ⟨if r.buffer then r.lineCount else 0, fileLines (r.file.drop r.headerEnd)⟩ ⟨[], []⟩ (by omega) (by omega)
    simp only
    cases h1 : r.textLoop c (some s) (s.foldl max 0 + 2) 0 ⟨if r.buffer then r.lineCount else 0, fileLines (r.file.drop r.headerEnd)⟩ ⟨[], []⟩ with
    | none => exact absurd h1 h
    | some x => cases x <;> simp

/-- An open ASCII file with the data lines `-1`, `7` and a blank line. -/
def exMinus (buffer : Bool) : Reader :=
  ⟨[45, 49, 10, 55, 10, 10], buffer, 100, 0, 0, [], [⟨"x".toList, [], [], [], [], "long".toList, none⟩], true, false⟩

example (buffer : Bool) : (exMinus buffer).readText exConv 8 none ≠ none ∧ (exMinus buffer).readText exConv 9 (some [7, 2]) ≠ none :=
  ⟨ascii_ends_partial (exMinus buffer) exConv (by cases buffer <;> decide +kernel), ascii_selected_ends (exMinus buffer) exConv [7, 2]⟩

/-- A whole ASCII file: `x` is a column of integers, and there are two rows. -/
def exWhole : Bytes := utf8 "SDDS1\n&column name=x, type=long, &end\n&data mode=ascii, &end\n2\n7\n8\n".toList

example : ∃ r, openSdds exText 20 true 50 exWhole = some (.ok r) ∧ r.readText exConv (r.file.length + 2) none ≠ none := by
  have h : (match openSdds exText 20 true 50 exWhole with | some (.ok r) => r.ascii | _ => false) = true := by decide +kernel
  split at h
  · rename_i r hr
    exact ⟨r, hr, ascii_open_ends exConv hr h⟩
  · cases h

end Verif.Sdds
