import Verif.Sdds.PropsHeader
import Verif.Sdds.LemmasQuote
import Verif.Sdds.LemmasLines
import Verif.Sdds.Ascii

/-! Exactly the files for which opening ends (C11). -/

namespace Verif.Sdds

/-! ## Specification -/

/-- The text of the lines of a file that are not blank and not comments; the last one may be without newline. -/
def headerLines (b : Bytes) : List Str := (Relevant (fileLines b)).map latin1

/-- A line that starts a namelist other than `&data`. -/
def StartsNamelist (l : Str) : Prop :=
  ∃ nl ∈ ["&associate", "&description", "&include", "&column", "&parameter", "&array"], hasSub nl.toList l = true

/-- Lines up to the first one with `&end`. -/
def EndsAtLast (ls : List Str) : Prop :=
  ∃ init last, ls = init ++ [last] ∧ hasSub "&end".toList last = true ∧ ∀ l ∈ init, hasSub "&end".toList l = false

/-- The lines behind the first one that let the reader stop: namelists that are ended, and then a `&data` namelist that is ended, or a line that
starts no namelist. -/
inductive HeaderStops : List Str → Prop
  | foreign {l : Str} {rest : List Str} : ¬ StartsNamelist l → ¬ "&data".toList <+: l → HeaderStops (l :: rest)
  | data {l : Str} {rest : List Str} : ¬ StartsNamelist l → "&data".toList <+: l → (∃ x ∈ l :: rest, hasSub "&end".toList x = true) →
      HeaderStops (l :: rest)
  | namelist {l : Str} {block rest : List Str} : StartsNamelist l → EndsAtLast (l :: block) → HeaderStops rest →
      HeaderStops (l :: (block ++ rest))

/-! ## Proofs -/

theorem fileLinesFrom_eq (b : Bytes) : ∀ cur : Bytes, fileLinesFrom cur b =
    if cur = [] ∧ b = [] then [] else (cur ++ (readline b).1) :: fileLinesFrom [] (readline b).2 := by
  induction b with
  | nil =>
    intro cur
    by_cases h : cur = [] <;> simp [fileLinesFrom, readline, h]
  | cons x b ih =>
    intro cur
    rw [if_neg (by simp), fileLinesFrom, readline]
    by_cases hx : x = 10
    · rw [if_pos hx, if_pos hx]
    · rw [if_neg hx, if_neg hx, ih, if_neg (by simp)]
      simp

theorem headerLines_eq (b : Bytes) : headerLines b =
    if (readline b).1 = [] then [] else if Ignorable (readline b).1 then headerLines (readline b).2
      else latin1 (readline b).1 :: headerLines (readline b).2 := by
  unfold headerLines fileLines
  rw [fileLinesFrom_eq]
  cases b with
  | nil => simp [readline, Relevant]
  | cons x b =>
    have hne : (readline (x :: b)).1 ≠ [] := by
      rw [readline]
      split <;> simp
    rw [if_neg (by simp), if_neg hne, List.nil_append]
    unfold Relevant
    rw [List.filter_cons]
    cases Ignorable (readline (x :: b)).1 <;> simp

theorem ignorable_text (l : Bytes) : (latin1 l = ['\n'] ∨ (latin1 l).head? = some '!') ↔ Ignorable l = true := by
  unfold Ignorable latin1
  cases l with
  | nil => simp
  | cons x l =>
    have h1 := ofNat_newline x
    have h2 := ofNat_bang x
    simp [h1, h2]

theorem readLine_sound : ∀ (fuel : Nat) {b : Bytes} {l : Str} {b' : Bytes}, readLine fuel b = some (l, b') →
    headerLines b = l :: headerLines b' := by
  intro fuel
  induction fuel with
  | zero => intro b l b' h; cases h
  | succ fuel ih =>
    intro b l b' h
    rw [readLine] at h
    rw [headerLines_eq]
    by_cases h0 : (readline b).1 = []
    · exfalso
      have hb : b = [] := by
        cases b with
        | nil => rfl
        | cons x b =>
          rw [readline] at h0
          split at h0 <;> simp at h0
      subst hb
      rw [if_pos (by simp [readline, latin1])] at h
      have := ih h
      rw [headerLines_eq] at this
      simp [readline] at this
    · rw [if_neg h0]
      have hl : latin1 (readline b).1 ≠ [] := by
        unfold latin1
        simpa using h0
      by_cases hi : Ignorable (readline b).1 = true
      · rw [if_pos (Or.inr ((ignorable_text _).mpr hi))] at h
        rw [if_pos hi]
        exact ih h
      · rw [if_neg (by
          rintro (h1 | h1)
          · exact hl h1
          · exact hi ((ignorable_text _).mp h1))] at h
        rw [if_neg hi]
        simp only [Option.some.injEq, Prod.mk.injEq] at h
        rw [h.1, h.2]

theorem readLine_complete (n : Nat) : ∀ {b : Bytes} {l : Str} {ls : List Str}, b.length ≤ n → headerLines b = l :: ls →
    ∃ fuel b', readLine fuel b = some (l, b') ∧ headerLines b' = ls := by
  induction n with
  | zero =>
    intro b l ls hb h
    have : b = [] := List.length_eq_zero_iff.mp (by omega)
    subst this
    rw [headerLines_eq] at h
    simp [readline] at h
  | succ n ih =>
    intro b l ls hb h
    rw [headerLines_eq] at h
    by_cases h0 : (readline b).1 = []
    · rw [if_pos h0] at h; cases h
    · rw [if_neg h0] at h
      have hsplit := congrArg List.length (readline_split b)
      rw [List.length_append] at hsplit
      have hpos := List.length_pos_iff.mpr h0
      have hl : latin1 (readline b).1 ≠ [] := by
        unfold latin1
        simpa using h0
      by_cases hi : Ignorable (readline b).1 = true
      · rw [if_pos hi] at h
        obtain ⟨fuel, b', h1, h2⟩ := ih (by omega) h
        refine ⟨fuel + 1, b', ?_, h2⟩
        rw [readLine]
        rw [if_pos (Or.inr ((ignorable_text _).mpr hi))]
        exact h1
      · rw [if_neg hi] at h
        simp only [List.cons.injEq] at h
        refine ⟨1, (readline b).2, ?_, h.2⟩
        rw [readLine]
        rw [if_neg (by
          rintro (h1 | h1)
          · exact hl h1
          · exact hi ((ignorable_text _).mp h1)), h.1]

theorem readNamelist_sound (fuel : Nat) : ∀ (n : Nat) {line : Str} {b : Bytes} {ls : List Str} {b' : Bytes},
    readNamelist fuel n line b = some (ls, b') → headerLines b = ls ++ headerLines b' ∧ EndsAtLast (line :: ls) := by
  intro n
  induction n with
  | zero => intro line b ls b' h; cases h
  | succ n ih =>
    intro line b ls b' h
    rw [readNamelist] at h
    by_cases he : hasSub "&end".toList line = true
    · rw [if_pos he] at h
      simp only [Option.some.injEq, Prod.mk.injEq] at h
      rw [← h.1, ← h.2]
      exact ⟨rfl, [], line, rfl, he, by simp⟩
    · rw [if_neg he] at h
      cases h1 : readLine fuel b with
      | none => rw [h1] at h; cases h
      | some x =>
        obtain ⟨l, b1⟩ := x
        rw [h1] at h
        simp only at h
        cases h2 : readNamelist fuel n l b1 with
        | none => rw [h2] at h; cases h
        | some y =>
          obtain ⟨ls', b2⟩ := y
          rw [h2] at h
          simp only [Option.some.injEq, Prod.mk.injEq] at h
          obtain ⟨h3, init, last, h4, h5, h6⟩ := ih h2
          rw [← h.1, ← h.2, readLine_sound fuel h1, h3]
          refine ⟨rfl, line :: init, last, by rw [h4]; rfl, h5, ?_⟩
          intro x hx
          rcases List.mem_cons.mp hx with rfl | hx
          · simpa using he
          · exact h6 x hx

theorem readNamelist_complete : ∀ (block : List Str) {line : Str} {b : Bytes} {rest : List Str}, headerLines b = block ++ rest →
    EndsAtLast (line :: block) → ∃ fuel n b', readNamelist fuel n line b = some (block, b') ∧ headerLines b' = rest := by
  intro block
  induction block with
  | nil =>
    intro line b rest h ⟨init, last, h1, h2, h3⟩
    have hi : init = [] := by
      cases init with
      | nil => rfl
      | cons a init => simp at h1
    subst hi
    simp only [List.nil_append, List.cons.injEq, and_true] at h1
    refine ⟨0, 1, b, ?_, by simpa using h⟩
    rw [readNamelist, h1, if_pos h2]
  | cons l block ih =>
    intro line b rest h ⟨init, last, h1, h2, h3⟩
    cases init with
    | nil => simp at h1
    | cons a init =>
      simp only [List.cons_append, List.cons.injEq] at h1
      have hne := h3 a List.mem_cons_self
      rw [← h1.1] at hne
      obtain ⟨f1, b1, r1, e1⟩ := readLine_complete _ le_rfl h
      obtain ⟨f2, n, b2, r2, e2⟩ := ih e1 ⟨init, last, h1.2, h2, fun x hx => h3 x (List.mem_cons_of_mem _ hx)⟩
      refine ⟨max f1 f2, n + 1, b2, ?_, e2⟩
      rw [readNamelist, if_neg (by rw [hne]; simp), readLine_mono (le_max_left _ _) r1]
      simp only
      rw [readNamelist_mono (le_max_right _ _) le_rfl r2]

theorem starts_iff (l : Str) : (sddsNamelists.any fun nl => hasSub nl l) = true ↔ StartsNamelist l := by
  unfold StartsNamelist sddsNamelists
  simp only [List.any_cons, List.any_nil, Bool.or_false, Bool.or_eq_true, List.mem_cons, List.not_mem_nil, or_false, exists_eq_or_imp,
    exists_eq_left]

theorem endsAtLast_of_mem : ∀ (ls : List Str), (∃ x ∈ ls, hasSub "&end".toList x = true) →
    ∃ block rest, ls = block ++ rest ∧ EndsAtLast block := by
  intro ls
  induction ls with
  | nil => simp
  | cons l ls ih =>
    intro h
    by_cases he : hasSub "&end".toList l = true
    · exact ⟨[l], ls, rfl, [], l, rfl, he, by simp⟩
    · obtain ⟨x, hx, hxe⟩ := h
      rcases List.mem_cons.mp hx with rfl | hx
      · exact absurd hxe he
      · obtain ⟨block, rest, h1, init, last, h2, h3, h4⟩ := ih ⟨x, hx, hxe⟩
        refine ⟨l :: block, rest, by rw [h1]; rfl, l :: init, last, by rw [h2]; rfl, h3, ?_⟩
        intro y hy
        rcases List.mem_cons.mp hy with rfl | hy
        · simpa using he
        · exact h4 y hy

theorem headerLoop_sound (fuel : Nat) : ∀ (n : Nat) {count : Nat} {b : Bytes} {x : Except PyErr RawHeader},
    headerLoop fuel n count b = some x → HeaderStops (headerLines b) := by
  intro n
  induction n with
  | zero => intro count b x h; cases h
  | succ n ih =>
    intro count b x h
    rw [headerLoop] at h
    cases h1 : readLine fuel b with
    | none => rw [h1] at h; cases h
    | some y =>
      obtain ⟨line, b1⟩ := y
      rw [h1] at h
      simp only at h
      rw [readLine_sound fuel h1]
      by_cases hs : (sddsNamelists.any fun nl => hasSub nl line) = true
      · rw [if_pos hs] at h
        cases h2 : readNamelist fuel fuel line b1 with
        | none => rw [h2] at h; cases h
        | some y =>
          obtain ⟨ls, b2⟩ := y
          rw [h2] at h
          simp only at h
          obtain ⟨e1, e2⟩ := readNamelist_sound fuel fuel h2
          rw [e1]
          refine .namelist ((starts_iff line).mp hs) e2 ?_
          cases h3 : headerLoop fuel n (count + 1 + ls.length) b2 with
          | none => rw [h3] at h; cases h
          | some z => exact ih h3
      · rw [if_neg hs] at h
        by_cases hd : "&data".toList.isPrefixOf line = true
        · rw [if_pos hd] at h
          cases h2 : readNamelist fuel fuel line b1 with
          | none => rw [h2] at h; cases h
          | some y =>
            obtain ⟨ls, b2⟩ := y
            obtain ⟨e1, init, last, e2, e3, -⟩ := readNamelist_sound fuel fuel h2
            refine .data (fun h => hs ((starts_iff line).mpr h)) (List.isPrefixOf_iff_prefix.mp hd) ⟨last, ?_, e3⟩
            rw [e1, ← List.cons_append, e2]
            simp
        · exact .foreign (fun h => hs ((starts_iff line).mpr h)) (fun h => hd (List.isPrefixOf_iff_prefix.mpr h))

theorem headerLoop_complete {ls : List Str} (h : HeaderStops ls) : ∀ {b : Bytes}, headerLines b = ls → ∀ count : Nat,
    ∃ fuel n x, headerLoop fuel n count b = some x := by
  induction h with
  | @foreign l rest h1 h2 =>
    intro b hb count
    obtain ⟨f1, b1, r1, e1⟩ := readLine_complete _ le_rfl hb
    refine ⟨f1, 1, .error .exception, ?_⟩
    rw [headerLoop, r1]
    simp only
    rw [if_neg (fun h => h1 ((starts_iff l).mp h)), if_neg (fun h => h2 (List.isPrefixOf_iff_prefix.mp h))]
  | @data l rest h1 h2 h3 =>
    intro b hb count
    obtain ⟨f1, b1, r1, e1⟩ := readLine_complete _ le_rfl hb
    obtain ⟨block, rest', e2, e3⟩ := endsAtLast_of_mem _ h3
    cases block with
    | nil =>
      obtain ⟨init, last, e4, -⟩ := e3
      simp at e4
    | cons a block =>
      simp only [List.cons_append, List.cons.injEq] at e2
      rw [← e2.1] at e3
      obtain ⟨f2, n, b2, r2, -⟩ := readNamelist_complete block (e1.trans e2.2) e3
      refine ⟨max f1 (max f2 n), 1, .ok ⟨[l ++ block.flatten], count + 1 + block.length, b2⟩, ?_⟩
      · rw [headerLoop, readLine_mono (le_max_left _ _) r1]
        simp only
        rw [if_neg (fun h => h1 ((starts_iff l).mp h)), if_pos (List.isPrefixOf_iff_prefix.mpr h2),
          readNamelist_mono (le_trans (le_max_left _ _) (le_max_right _ _)) (le_trans (le_max_right _ _) (le_max_right _ _)) r2]
  | @namelist l block rest h1 h2 h3 ih =>
    intro b hb count
    obtain ⟨f1, b1, r1, e1⟩ := readLine_complete _ le_rfl hb
    obtain ⟨f2, n, b2, r2, e2⟩ := readNamelist_complete block e1 h2
    obtain ⟨f3, m, x, r3⟩ := ih e2 (count + 1 + block.length)
    have k1 : f1 ≤ max (max f1 f2) (max n f3) := le_trans (le_max_left _ _) (le_max_left _ _)
    have k2 : f2 ≤ max (max f1 f2) (max n f3) := le_trans (le_max_right _ _) (le_max_left _ _)
    have k3 : n ≤ max (max f1 f2) (max n f3) := le_trans (le_max_left _ _) (le_max_right _ _)
    have k4 : f3 ≤ max (max f1 f2) (max n f3) := le_trans (le_max_right _ _) (le_max_right _ _)
    refine ⟨max (max f1 f2) (max n f3), m + 1, match x with
      | .error e => .error e
      | .ok h => .ok { h with namelists := (l ++ block.flatten) :: h.namelists }, ?_⟩
    · rw [headerLoop, readLine_mono k1 r1]
      simp only
      rw [if_pos ((starts_iff l).mpr h1), readNamelist_mono k2 k3 r2]
      simp only
      rw [headerLoop_mono k4 le_rfl r3]
      cases x <;> rfl

/-- **C11, exactly.** Opening a file ends, with a reader or an exception, exactly if it has a line that is not blank and not a comment, and either
the first such line is without `SDDS1` or the lines behind it let the reader stop. -/
theorem open_ends_iff (ft : FloatText) (buffer : Bool) (maxStr : Nat) (b : Bytes) :
    (∃ fuel x, openSdds ft fuel buffer maxStr b = some x) ↔
      ∃ first rest, headerLines b = first :: rest ∧ (hasSub "SDDS1".toList first = true → HeaderStops rest) := by
  constructor
  · rintro ⟨fuel, x, h⟩
    unfold openSdds readHeader at h
    cases h1 : readLine fuel b with
    | none => rw [h1] at h; cases h
    | some y =>
      obtain ⟨line, b1⟩ := y
      rw [h1] at h
      refine ⟨line, headerLines b1, readLine_sound fuel h1, fun hs => ?_⟩
      simp only at h
      rw [if_pos hs] at h
      cases h2 : headerLoop fuel fuel 1 b1 with
      | none => rw [h2] at h; cases h
      | some z => exact headerLoop_sound fuel fuel h2
  · rintro ⟨first, rest, h1, h2⟩
    obtain ⟨f1, b1, r1, e1⟩ := readLine_complete _ le_rfl h1
    have key : ∃ fuel y, readHeader fuel b = some y := by
      by_cases hs : hasSub "SDDS1".toList first = true
      · obtain ⟨f2, n, y, r2⟩ := headerLoop_complete (h2 hs) e1 1
        have k1 : f1 ≤ max f1 (max f2 n) := le_max_left _ _
        have k2 : f2 ≤ max f1 (max f2 n) := le_trans (le_max_left _ _) (le_max_right _ _)
        have k3 : n ≤ max f1 (max f2 n) := le_trans (le_max_right _ _) (le_max_right _ _)
        refine ⟨max f1 (max f2 n), y, ?_⟩
        unfold readHeader
        rw [readLine_mono k1 r1]
        simp only
        rw [if_pos hs, headerLoop_mono k2 k3 r2]
      · refine ⟨f1, .error .exception, ?_⟩
        unfold readHeader
        rw [r1]
        simp only
        rw [if_neg hs]
    obtain ⟨fuel, y, hy⟩ := key
    refine ⟨fuel, ?_⟩
    unfold openSdds
    rw [hy]
    cases y with
    | error e => exact ⟨_, rfl⟩
    | ok h => exact ⟨_, rfl⟩

/-- A header that ends within a namelist keeps the constructor busy for ever; the same text with `&end` lets it stop. -/
example : (¬ ∃ fuel x, openSdds exText fuel true 100 (utf8 "SDDS1\n&column name=x,\n".toList) = some x) ∧
    ∃ fuel x, openSdds exText fuel true 100 (utf8 "SDDS1\n&column name=x,\n &end\nhello".toList) = some x := by
  rw [open_ends_iff, open_ends_iff]
  have e1 : headerLines (utf8 "SDDS1\n&column name=x,\n".toList) = ["SDDS1\n".toList, "&column name=x,\n".toList] := by decide +kernel
  have e2 : headerLines (utf8 "SDDS1\n&column name=x,\n &end\nhello".toList) =
      ["SDDS1\n".toList, "&column name=x,\n".toList, " &end\n".toList, "hello".toList] := by decide +kernel
  rw [e1, e2]
  have hcol : StartsNamelist "&column name=x,\n".toList := ⟨"&column", by simp, by decide +kernel⟩
  constructor
  · rintro ⟨first, rest, h1, h2⟩
    simp only [List.cons.injEq] at h1
    have h3 := h2 (by rw [← h1.1]; decide +kernel)
    rw [← h1.2] at h3
    generalize hl : ["&column name=x,\n".toList] = ls at h3
    cases h3 with
    | foreign a b =>
      simp only [List.cons.injEq] at hl
      rw [← hl.1] at a
      exact a hcol
    | data a b =>
      simp only [List.cons.injEq] at hl
      rw [← hl.1] at a
      exact a hcol
    | @namelist l block rest' a b c =>
      simp only [List.cons.injEq] at hl
      obtain ⟨hl1, hl2⟩ := hl
      obtain ⟨hb, -⟩ := List.append_eq_nil_iff.mp hl2.symm
      obtain ⟨init, last, b1, b2, -⟩ := b
      rw [hb, ← hl1] at b1
      have : last = "&column name=x,\n".toList := by
        cases init with
        | nil => simpa using b1.symm
        | cons u v => simp at b1
      rw [this] at b2
      exact absurd b2 (by decide +kernel)
  · refine ⟨_, _, rfl, fun _ => ?_⟩
    refine HeaderStops.namelist (block := [" &end\n".toList]) hcol ⟨["&column name=x,\n".toList], " &end\n".toList, rfl, by decide +kernel, ?_⟩ ?_
    · intro l hl
      rw [List.mem_singleton.mp hl]
      decide +kernel
    · refine .foreign ?_ ?_
      · rw [← starts_iff]
        decide +kernel
      · decide +kernel

end Verif.Sdds
