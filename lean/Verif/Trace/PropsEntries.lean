import Verif.Lte.PropsSanitize
import Verif.Trace.Parser

/-!
# Comments (C68) and entries (C36) of TRACE 3-D files
-/

namespace Verif.Trace

open Verif.Lattice
open Verif.Lte (Blank isSpace_toLower lstrip_nil takeWhile_mem takeWhile_all toLower_cases blank_lower
  dropWhile_append_all mem_dropWhile)

variable {R : Type}

/-! ## C68: comments -/

/-- White space, then `;`. -/
def Comment (line : Str) : Prop := ∃ sp rest, line = sp ++ ';' :: rest ∧ Blank sp

/-- The text in front of the first `;`. -/
def code (line : Str) : Str := line.takeWhile (· ≠ ';')

theorem toLower_semi (c : Char) : c.toLower = ';' ↔ c = ';' := by
  rcases toLower_cases c with h | ⟨m, rfl⟩
  · rw [h]
  · revert m; decide

theorem lower_code (s : Str) : (lower s).takeWhile (· ≠ ';') = lower (code s) := by
  unfold lower code
  induction s with
  | nil => rfl
  | cons c s ih =>
    rw [List.map_cons]
    by_cases h : c = ';'
    · subst h
      simp [List.takeWhile_cons, show Char.toLower ';' = ';' by decide]
    · have h' : ¬ c.toLower = ';' := fun hc => h ((toLower_semi c).1 hc)
      rw [List.takeWhile_cons_of_pos (by simpa using h'), List.takeWhile_cons_of_pos (by simpa using h), ih]
      rfl

theorem code_idem (s : Str) : code (lower (code s)) = lower (code s) := by
  refine takeWhile_all ?_
  intro c hc
  unfold lower at hc
  obtain ⟨d, hd, rfl⟩ := List.mem_map.1 hc
  have := takeWhile_mem hd
  simp only [decide_not, Bool.not_eq_eq_eq_not, Bool.not_true, decide_eq_false_iff_not] at this ⊢
  rwa [toLower_semi]

/-- What is left of a line: nothing but white space exactly for blank and comment lines. -/
theorem blank_code {s : Str} : Blank (code s) ↔ Blank s ∨ Comment s := by
  constructor
  · intro h
    by_cases hs : ';' ∈ s
    · right
      obtain ⟨r, hr⟩ : ∃ r, s.dropWhile (· ≠ ';') = ';' :: r := by
        cases hd : s.dropWhile (· ≠ ';') with
        | nil =>
          have := mem_dropWhile (p := fun x => decide (x ≠ ';')) (by decide) hs
          rw [hd] at this
          exact absurd this (by simp)
        | cons c r =>
          have := List.head_dropWhile_not (p := fun x => decide (x ≠ ';')) (l := s) (by rw [hd]; simp)
          simp only [hd, List.head_cons] at this
          simp only [decide_not, Bool.not_eq_eq_eq_not, Bool.not_false, decide_eq_true_eq] at this
          exact ⟨r, by rw [this]⟩
      exact ⟨code s, r, by rw [← hr]; exact List.takeWhile_append_dropWhile.symm, h⟩
    · left
      have : code s = s := takeWhile_all (by
        intro c hc
        simp only [decide_not, Bool.not_eq_eq_eq_not, Bool.not_true, decide_eq_false_iff_not]
        rintro rfl
        exact hs hc)
      rwa [this] at h
  · rintro (h | ⟨sp, r, rfl, h⟩)
    · exact fun c hc => h c (List.takeWhile_subset _ hc)
    · intro c hc
      refine h c ?_
      have hsp : ∀ x ∈ sp, decide (x ≠ ';') = true := by
        intro x hx
        have := h x hx
        simp only [decide_not, Bool.not_eq_eq_eq_not, Bool.not_true, decide_eq_false_iff_not]
        rintro rfl
        revert this; decide
      have : code (sp ++ ';' :: r) = sp := by
        unfold code
        rw [List.takeWhile_append_of_pos hsp]
        simp
      rwa [this] at hc

theorem lstrip_semi {s : Str} : (∃ r, lstrip s = ';' :: r) ↔ Comment s := by
  constructor
  · rintro ⟨r, h⟩
    refine ⟨s.takeWhile isSpace, r, ?_, fun c hc => takeWhile_mem hc⟩
    rw [← h]
    exact (List.takeWhile_append_dropWhile).symm
  · rintro ⟨sp, r, rfl, hsp⟩
    refine ⟨r, ?_⟩
    unfold lstrip
    rw [dropWhile_append_all hsp]
    rfl

theorem comment_lower {s : Str} : Comment (lower s) ↔ Comment s := by
  have h := blank_code (s := lower s)
  have h1 : code (lower s) = lower (code s) := lower_code s
  rw [h1, blank_lower, blank_code, blank_lower] at h
  have hnot : ∀ {t : Str}, Comment t → ¬ Blank t := by
    rintro t ⟨sp, r, rfl, _⟩ hb
    exact absurd (hb ';' (by simp)) (by decide)
  constructor
  · intro hc
    rcases h.2 (.inr hc) with hb | hc'
    · exact absurd (blank_lower.2 hb) (hnot hc)
    · exact hc'
  · intro hc
    rcases h.1 (.inr hc) with hb | hc'
    · exact absurd hb (hnot hc)
    · exact hc'

theorem cleanLine_blank {line : Str} (h : Blank line) (rest : List Str) : cleanLine line rest = .ok rest := by
  unfold cleanLine
  rw [lstrip_nil.2 (blank_lower.2 h)]

theorem cleanLine_comment {line : Str} (h : Comment line) (rest : List Str) :
    cleanLine line rest = match rest with
      | [] => .error .indexError
      | s :: rest => .ok (code s :: rest) := by
  obtain ⟨r, hr⟩ := lstrip_semi.2 (comment_lower.2 h)
  unfold cleanLine
  rw [hr]
  cases rest <;> rfl

theorem cleanLine_text {line : Str} (h1 : ¬ Blank line) (h2 : ¬ Comment line) (rest : List Str) :
    cleanLine line rest = .ok (lower (code line) :: rest) := by
  unfold cleanLine
  split
  · rename_i h
    exact absurd (blank_lower.1 (lstrip_nil.1 h)) h1
  · rename_i r h
    exact absurd (comment_lower.1 (lstrip_semi.1 ⟨r, h⟩)) h2
  · rw [lower_code]

/-- A comment, and only blank lines behind it. -/
def EndsInComment (file : List Str) : Prop :=
  ∃ pre cm post, file = pre ++ cm :: post ∧ Comment cm ∧ ∀ s ∈ post, Blank s

open Classical in
/-- The lines without comments and upper case letters; blank lines are left out. -/
noncomputable def cleaned (file : List Str) : List Str :=
  (file.filter fun s => ¬ Blank (code s)).map fun s => lower (code s)

theorem cleaned_cons_blank {s : Str} (h : Blank (code s)) (file : List Str) : cleaned (s :: file) = cleaned file := by
  unfold cleaned
  rw [List.filter_cons_of_neg (by simpa using h)]

theorem cleaned_cons_text {s : Str} (h : ¬ Blank (code s)) (file : List Str) :
    cleaned (s :: file) = lower (code s) :: cleaned file := by
  unfold cleaned
  rw [List.filter_cons_of_pos (by simpa using h), List.map_cons]

theorem sanitize_ends {file : List Str} (h : EndsInComment file) : sanitize file = .error .indexError := by
  obtain ⟨pre, cm, post, rfl, hc, hp⟩ := h
  induction pre with
  | nil =>
    have hpost : sanitize post = .ok [] := by
      induction post with
      | nil => rfl
      | cons s post ih =>
        rw [sanitize, ih fun x hx => hp x (List.mem_cons_of_mem _ hx)]
        exact cleanLine_blank (hp s (by simp)) []
    rw [List.nil_append, sanitize, hpost]
    exact cleanLine_comment hc []
  | cons s pre ih => rw [List.cons_append, sanitize, ih]

theorem sanitize_cleaned {file : List Str} (h : ¬ EndsInComment file) : sanitize file = .ok (cleaned file) := by
  induction file with
  | nil => rfl
  | cons s file ih =>
    have hf : ¬ EndsInComment file := by
      rintro ⟨pre, cm, post, rfl, hc, hp⟩
      exact h ⟨s :: pre, cm, post, rfl, hc, hp⟩
    rw [sanitize, ih hf]
    simp only
    by_cases hb : Blank s
    · rw [cleanLine_blank hb, cleaned_cons_blank (blank_code.2 (.inl hb))]
    · by_cases hc : Comment s
      · rw [cleanLine_comment hc, cleaned_cons_blank (blank_code.2 (.inr hc))]
        cases hcl : cleaned file with
        | nil =>
          exfalso
          have hall : ∀ x ∈ file, Blank (code x) := by
            intro x hx
            by_contra hn
            have : lower (code x) ∈ cleaned file := by
              unfold cleaned
              exact List.mem_map_of_mem (List.mem_filter.2 ⟨hx, by simpa using hn⟩)
            rw [hcl] at this
            exact absurd this (by simp)
          by_cases hex : ∃ x ∈ file, Comment x
          · -- the last comment of the file is followed by blank lines only
            apply hf
            clear h ih hf hcl
            induction file with
            | nil => obtain ⟨x, hx, _⟩ := hex; exact absurd hx (by simp)
            | cons y file ih =>
              by_cases hex' : ∃ x ∈ file, Comment x
              · obtain ⟨pre, cm, post, rfl, h1, h2⟩ := ih (fun x hx => hall x (List.mem_cons_of_mem _ hx)) hex'
                exact ⟨y :: pre, cm, post, rfl, h1, h2⟩
              · have hb' : ∀ x ∈ file, Blank x := by
                  intro x hx
                  rcases blank_code.1 (hall x (List.mem_cons_of_mem _ hx)) with hx' | hx'
                  · exact hx'
                  · exact absurd ⟨x, hx, hx'⟩ hex'
                obtain ⟨x, hx, hxc⟩ := hex
                rcases List.mem_cons.1 hx with rfl | hx
                · exact ⟨[], x, file, rfl, hxc, hb'⟩
                · exact absurd ⟨x, hx, hxc⟩ hex'
          · refine h ⟨[], s, file, rfl, hc, ?_⟩
            intro x hx
            rcases blank_code.1 (hall x hx) with hx' | hx'
            · exact hx'
            · exact absurd ⟨x, hx, hx'⟩ hex
        | cons t rest =>
          simp only
          have ht : t ∈ cleaned file := by rw [hcl]; simp
          unfold cleaned at ht
          obtain ⟨u, _, rfl⟩ := List.mem_map.1 ht
          rw [code_idem]
      · rw [cleanLine_text hb hc, cleaned_cons_text]
        intro hn
        rcases blank_code.1 hn with h' | h'
        · exact hb h'
        · exact hc h'

open Classical in
/-- C68, for files whose last line with text is not a comment: exactly the text outside comments
remains, in its order and in lower case. Missing: other files, see `comments_end_fails`. -/
theorem comments_partial (file : List Str) (h : ¬ EndsInComment file) :
    sanitize file = .ok ((file.filter fun s => ¬ Blank (code s)).map fun s => lower (code s)) :=
  sanitize_cleaned h

/-- C68 fails for every file that ends with a comment: nothing can be read from it. -/
theorem comments_end_fails (F : FNums R) (handlers : Option (Nat → Bool)) (name : Str) (file : List Str)
    (h : EndsInComment file) : parseFile F handlers name file = .error .indexError := by
  unfold parseFile
  rw [sanitize_ends h]

/-! ## C36: entries -/

/-- An entry of the file: a line with `cmt` outside comments, upper or lower case. -/
def Entry (line : Str) : Bool := hasSub "cmt".toList (lower (code line))

theorem entry_not_blank {s : Str} (h : Entry s = true) : ¬ Blank (code s) := by
  intro hb
  unfold Entry at h
  have hb' : Blank (lower (code s)) := blank_lower.2 hb
  have : hasSub "cmt".toList (lower (code s)) = false :=
    hasSub_false _ _ 'c' (by decide) fun hc => absurd (hb' 'c' hc) (by decide)
  rw [this] at h
  exact absurd h (by simp)

theorem entries_cleaned (file : List Str) :
    ((cleaned file).filter (hasSub "cmt".toList)).length = (file.filter Entry).length := by
  induction file with
  | nil => rfl
  | cons s file ih =>
    by_cases hb : Blank (code s)
    · rw [cleaned_cons_blank hb, ih, List.filter_cons_of_neg fun he => entry_not_blank he hb]
    · rw [cleaned_cons_text hb]
      by_cases he : Entry s = true
      · rw [List.filter_cons_of_pos he, List.filter_cons_of_pos (by simpa [Entry] using he)]
        rw [List.length_cons, List.length_cons, ih]
      · rw [List.filter_cons_of_neg he, List.filter_cons_of_neg (by simpa [Entry] using he), ih]

theorem cmtLines_length (lines : List Str) :
    (cmtLines lines).length = (lines.filter (hasSub "cmt".toList)).length := by
  unfold cmtLines
  have : lines.filter (hasSub "cmt".toList) =
      ((List.range lines.length).filter fun i => hasSub "cmt".toList (lines.getD i [])).map fun i => lines.getD i [] := by
    have hfm := List.filter_map (f := fun i => lines.getD i []) (p := hasSub "cmt".toList) (l := List.range lines.length)
    refine Eq.trans ?_ hfm
    congr 1
    refine List.ext_getElem (by simp) ?_
    intro n h1 h2
    simp [List.getD_eq_getElem?_getD, h1]
  rw [this, List.length_map]

theorem standardize_line (F : FNums R) (is : List Item) (h h' : Heap R) (hs : standardize F is h = .ok h') :
    h'.line = h.line := by
  induction is generalizing h with
  | nil => injection hs with hs; rw [hs]
  | cons i is ih =>
    cases i with
    | line k => exact ih h hs
    | elem e =>
      rw [standardize] at hs
      split at hs
      · rename_i x hx
        exact ih (h.setElem e x) hs
      · exact absurd hs (by simp)

theorem addElement_seq (h : Heap R) (name type : Str) (ps : List (Str × PVal R))
    (hok : (h.addElement 0 name type ps false).2 = none) :
    (((h.addElement 0 name type ps false).1).line 0).seq.length = (h.line 0).seq.length + 1 := by
  cases hu : h.useElement 0 name type ps with
  | error err =>
    unfold Heap.addElement at hok
    rw [hu] at hok
    exact absurd hok (by simp)
  | ok r =>
    rw [addElement_eq hu]
    have : (r.1.line 0).seq = (h.line 0).seq := by
      unfold Heap.useElement at hu
      cases hd : dget (h.line 0).elements name with
      | some e =>
        rw [hd] at hu
        injection hu with hu
        rw [← hu]
      | none =>
        rw [hd] at hu
        simp only at hu
        cases hx : newElem name type ps with
        | error err => rw [hx] at hu; exact absurd hu (by simp [bind, Except.bind])
        | ok x =>
          rw [hx] at hu
          injection hu with hu
          rw [← hu]
          rfl
    show ((r.1.line 0).seq ++ [_]).length = _
    rw [this]
    simp

theorem parseElement_seq (F : FNums R) (handlers : Option (Nat → Bool)) (line : Str) (h h' : Heap R)
    (hp : parseElement F handlers line h = .ok h') :
    handlers ≠ none ∧ (h'.line 0).seq.length = (h.line 0).seq.length + 1 := by
  unfold parseElement at hp
  split at hp
  · exact absurd hp (by simp)
  split at hp
  · exact absurd hp (by simp)
  split at hp
  · exact absurd hp (by simp)
  refine ⟨by simp, ?_⟩
  split at hp
  · exact absurd hp (by simp)
  split at hp
  · exact absurd hp (by simp)
  split at hp
  · exact absurd hp (by simp)
  rename_i h1 hadd
  have hlen := addElement_seq h _ _ _ (by rw [hadd])
  rw [hadd] at hlen
  rw [standardize_line F _ _ _ hp]
  exact hlen

theorem parseLines_seq (F : FNums R) (handlers : Option (Nat → Bool)) (lines : List Str) (h h' : Heap R)
    (hp : parseLines F handlers lines h = .ok h') :
    (handlers = none → lines = []) ∧ (h'.line 0).seq.length = (h.line 0).seq.length + lines.length := by
  induction lines generalizing h with
  | nil => injection hp with hp; rw [hp]; exact ⟨fun _ => rfl, rfl⟩
  | cons line lines ih =>
    rw [parseLines] at hp
    split at hp
    · rename_i h1 h1eq
      obtain ⟨a, b⟩ := parseElement_seq F handlers line h h1 h1eq
      obtain ⟨c, d⟩ := ih h1 hp
      refine ⟨fun hn => absurd hn a, ?_⟩
      rw [d, b, List.length_cons]
      omega
    · exact absurd hp (by simp)

theorem cmtLines_spec (lines : List Str) : ∀ i ∈ cmtLines lines, i < lines.length ∧ hasSub "cmt".toList (lines.getD i []) = true := by
  intro i hi
  unfold cmtLines at hi
  simpa using hi

/-- A strictly increasing list of numbers from `a` to `b` has at most `b - a + 1` members. -/
theorem increasing_length (l : List Nat) (h : l.Pairwise (· < ·)) (i : Nat) (is : List Nat) (he : l = i :: is) :
    l.length ≤ l.getLast (by simp [he]) - i + 1 ∧ i ≤ l.getLast (by simp [he]) := by
  subst he
  induction is generalizing i with
  | nil => simp
  | cons j js ih =>
    rw [List.pairwise_cons] at h
    have hij := h.1 j (by simp)
    have := ih j h.2
    rw [List.getLast_cons (by simp)]
    simp only [List.length_cons] at this ⊢
    omega

/-- The entries of a successfully parsed file, and its elements: as many as lines from the first
entry to the one in front of the last. -/
theorem parseFile_count (F : FNums R) (handlers : Option (Nat → Bool)) (name : Str) (file : List Str) (h : Heap R)
    (hp : parseFile F handlers name file = .ok h) :
    ∃ i is, cmtLines (cleaned file) = i :: is ∧ (i :: is).length = (file.filter Entry).length ∧
      (h.line 0).seq.length = (i :: is).getLast (by simp) - i ∧ (handlers = none → (i :: is).getLast (by simp) = i) := by
  have hne : ¬ EndsInComment file := by
    intro he
    rw [comments_end_fails F handlers name file he] at hp
    exact absurd hp (by simp)
  unfold parseFile at hp
  rw [sanitize_cleaned hne] at hp
  simp only at hp
  split at hp
  · exact absurd hp (by simp)
  rename_i i is heq
  have hcount : (i :: is).length = (file.filter Entry).length := by
    rw [← heq, cmtLines_length, entries_cleaned]
  have hlast : (i :: is).getLast (by simp) < (cleaned file).length :=
    (cmtLines_spec _ _ (by rw [heq]; exact List.getLast_mem _)).1
  have hinc : (i :: is).Pairwise (· < ·) := by
    rw [← heq]
    exact List.Pairwise.filter _ List.pairwise_lt_range
  have hle := (increasing_length (i :: is) hinc i is rfl).2
  obtain ⟨h1, h2⟩ := parseLines_seq F handlers _ _ _ hp
  have hlen : (((cleaned file).take ((i :: is).getLast (by simp))).drop i).length = (i :: is).getLast (by simp) - i := by
    rw [List.length_drop, List.length_take, Nat.min_eq_left (by omega)]
  refine ⟨i, is, heq, hcount, ?_, ?_⟩
  · rw [h2, hlen]
    show 0 + _ = _
    omega
  · intro hn
    have := h1 hn
    rw [this] at hlen
    simp only [List.length_nil] at hlen
    omega

/-- C36 fails for every file that `Trace3d` reads without an exception: it has one entry and the
beamline is empty. -/
theorem entries_fails (F : FNums R) (name : Str) (file : List Str) (h : Heap R)
    (hp : parseFile F none name file = .ok h) : (file.filter Entry).length = 1 ∧ (h.line 0).seq = [] := by
  obtain ⟨i, is, heq, hc, hs, hn⟩ := parseFile_count F none name file h hp
  have hinc : (i :: is).Pairwise (· < ·) := by
    rw [← heq]
    exact List.Pairwise.filter _ List.pairwise_lt_range
  have h1 := (increasing_length (i :: is) hinc i is rfl).1
  have h2 := hn rfl
  refine ⟨?_, ?_⟩
  · rw [← hc]
    simp only [List.length_cons] at h1 ⊢
    omega
  · refine List.eq_nil_of_length_eq_zero ?_
    omega

/-- With the missing attribute added (an empty table of handlers), the last entry is still lost
from every file in which only entries follow the first entry. -/
theorem entries_last_fails (F : FNums R) (t : Nat → Bool) (name : Str) (file : List Str) (h : Heap R)
    (hp : parseFile F (some t) name file = .ok h)
    (hall : ∀ s ∈ file, ¬ Blank (code s) → Entry s = true) : (h.line 0).seq.length + 1 = (file.filter Entry).length := by
  obtain ⟨i, is, heq, hc, hs, _⟩ := parseFile_count F (some t) name file h hp
  have hfull : cmtLines (cleaned file) = List.range (cleaned file).length := by
    unfold cmtLines
    rw [List.filter_eq_self]
    intro k hk
    rw [List.mem_range] at hk
    have hm : (cleaned file).getD k [] ∈ cleaned file := by
      rw [List.getD_eq_getElem?_getD, List.getElem?_eq_getElem hk, Option.getD_some]
      exact List.getElem_mem hk
    generalize (cleaned file).getD k [] = x at hm
    unfold cleaned at hm
    obtain ⟨s, hs, rfl⟩ := List.mem_map.1 hm
    have := List.mem_filter.1 hs
    exact hall s this.1 (by simpa using this.2)
  have hr : i :: is = List.range (cleaned file).length := by rw [← heq, hfull]
  have hlen : (i :: is).length = (cleaned file).length := by rw [hr, List.length_range]
  have hpos : (cleaned file).length ≠ 0 := by rw [← hlen]; simp
  have hi : i = 0 := by
    have := congrArg (fun l => l[0]?) hr
    simp only [List.getElem?_cons_zero] at this
    rw [List.getElem?_range (by omega)] at this
    injection this
  have hl : (i :: is).getLast (by simp) = (cleaned file).length - 1 := by
    have : (i :: is).getLast? = (List.range (cleaned file).length).getLast? := by rw [hr]
    rw [List.getLast?_eq_some_getLast (by simp), List.getLast?_range, if_neg hpos] at this
    injection this
  rw [hs, hl, hi, ← hc, hlen]
  omega

/-! ## Examples -/

/-- Numbers for the examples. -/
def exNums : FNums Int := { float := fun s => s.length, mul := fun a b => a * b, abs := fun a => a.natAbs, conv := [("L".toList, 2)] }

/-- A file without comment at the end. -/
def exFile : List Str :=
  ["; a comment\n".toList, "CMT(001) nt(1)=1, a(1,1)= 100.0 ; drift\n".toList, "\n".toList,
   "cmt(002) nt(2)=1, a(1,2)= 20.5\n".toList]

example : sanitize exFile = .ok ["cmt(001) nt(1)=1, a(1,1)= 100.0 ".toList, "cmt(002) nt(2)=1, a(1,2)= 20.5\n".toList] := by
  decide +kernel

example : ¬ EndsInComment exFile := by
  intro h
  have := sanitize_ends h
  exact absurd this (by decide +kernel)

example : EndsInComment (exFile ++ ["; end\n".toList, "\n".toList]) :=
  ⟨exFile, "; end\n".toList, ["\n".toList], rfl, ⟨[], " end\n".toList, by decide, by unfold Blank; decide⟩, by unfold Blank; decide⟩

/-- Two entries, one element. -/
example : (parseFile exNums (some fun _ => false) "b".toList exFile).toOption.map
    (fun h => ((h.line 0).seq, (h.elem 0).name, (h.elem 0).params)) =
    some ([.elem 0], "001".toList, [("l".toList, .num 10)]) := by decide +kernel

example : exFile.filter Entry = [exFile[1], exFile[3]] := by decide +kernel

example : ∀ s ∈ exFile, ¬ Blank (code s) → Entry s = true := by unfold Blank; decide +kernel

/-- One entry: accepted by `Trace3d`. -/
example : ((parseFile exNums none "b".toList [exFile[1]]).toOption.map fun h => (h.line 0).seq) = some [] := by decide +kernel

end Verif.Trace
