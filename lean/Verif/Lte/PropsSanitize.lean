import Verif.Lte.PropsDef
import Verif.Lattice.PropsBeamline

/-!
# Comments in a lattice file (C32)
-/

namespace Verif.Lte

open Verif.Lattice

variable {R : Type}

/-! ## Specification -/

/-- A line of white space only. -/
def Blank (line : Str) : Prop := ∀ c ∈ line, isSpace c = true

/-- White space, then `!`. -/
def Comment (line : Str) : Prop := ∃ sp rest, line = sp ++ '!' :: rest ∧ Blank sp

/-- Same text up to white space at the end. -/
def SameText (a b : Str) : Prop := ∃ (t u v : Str), a = t ++ u ∧ b = t ++ v ∧ Blank u ∧ Blank v

/-! ## Lemmas -/

theorem toLower_cases (c : Char) : c.toLower = c ∨ ∃ m : Fin 26, c = Char.ofNat (65 + m) := by
  by_cases h : c.val ≥ 'A'.val ∧ c.val ≤ 'Z'.val
  · right
    have h1 : 65 ≤ c.toNat := h.1
    have h2 : c.toNat ≤ 90 := h.2
    refine ⟨⟨c.toNat - 65, by omega⟩, ?_⟩
    show c = Char.ofNat (65 + (c.toNat - 65))
    rw [show 65 + (c.toNat - 65) = c.toNat by omega, Char.ofNat_toNat]
  · left
    unfold Char.toLower
    rw [dif_neg h]

theorem isSpace_toLower (c : Char) : isSpace c.toLower = isSpace c := by
  rcases toLower_cases c with h | ⟨m, rfl⟩
  · rw [h]
  · revert m; decide

theorem toLower_bang (c : Char) : c.toLower = '!' ↔ c = '!' := by
  rcases toLower_cases c with h | ⟨m, rfl⟩
  · rw [h]
  · revert m; decide

theorem lstrip_nil {s : Str} : lstrip s = [] ↔ Blank s := by
  unfold lstrip
  constructor
  · intro h c hc
    by_contra hn
    have := mem_dropWhile (by simpa using hn) hc
    rw [h] at this
    exact absurd this (by simp)
  · exact dropWhile_all

theorem takeWhile_mem {p : Char → Bool} {s : Str} {c : Char} (h : c ∈ s.takeWhile p) : p c = true := by
  induction s with
  | nil => exact absurd h (by simp)
  | cons d ds ih =>
    by_cases hd : p d = true
    · rw [List.takeWhile_cons_of_pos hd] at h
      rcases List.mem_cons.mp h with rfl | h
      · exact hd
      · exact ih h
    · rw [List.takeWhile_cons_of_neg hd] at h
      exact absurd h (by simp)

theorem takeWhile_all {p : Char → Bool} {s : Str} (h : ∀ c ∈ s, p c = true) : s.takeWhile p = s := by
  induction s with
  | nil => rfl
  | cons d ds ih =>
    rw [List.takeWhile_cons_of_pos (h d (by simp)), ih (fun c hc => h c (by simp [hc]))]

theorem lstrip_comment {s : Str} : (∃ r, lstrip s = '!' :: r) ↔ Comment s := by
  constructor
  · rintro ⟨r, h⟩
    refine ⟨s.takeWhile isSpace, r, ?_, fun c hc => takeWhile_mem hc⟩
    rw [← h]
    exact (List.takeWhile_append_dropWhile).symm
  · rintro ⟨sp, r, rfl, hsp⟩
    refine ⟨r, ?_⟩
    unfold lstrip
    rw [dropWhile_append_all hsp]
    rfl

theorem blank_lower {s : Str} : Blank (lower s) ↔ Blank s := by
  unfold Blank lower
  simp [isSpace_toLower]

theorem comment_lower {s : Str} : Comment (lower s) ↔ Comment s := by
  constructor
  · rintro ⟨sp, r, h, hsp⟩
    unfold lower at h
    rw [List.map_eq_append_iff] at h
    obtain ⟨a, b, rfl, h1, h2⟩ := h
    rw [List.map_eq_cons_iff] at h2
    obtain ⟨c, b', rfl, h3, h4⟩ := h2
    refine ⟨a, b', by rw [(toLower_bang c).mp h3], ?_⟩
    rw [← h1] at hsp
    exact blank_lower.mp hsp
  · rintro ⟨sp, r, rfl, hsp⟩
    refine ⟨lower sp, lower r, ?_, blank_lower.mpr hsp⟩
    simp [lower]

/-- The three kinds of line. -/
theorem cleanLine_blank (N : Nums R) {line : Str} (h : Blank line) (c : Clean R) :
    cleanLine N line c = .ok c := by
  unfold cleanLine
  rw [lstrip_nil.mpr (blank_lower.mpr h)]

theorem cleanLine_comment (N : Nums R) {line : Str} (h : Comment line) (c : Clean R) :
    cleanLine N line c = match c.lines with
      | [] => .error .indexError
      | s :: rest => cleanRest N s rest c.vars := by
  obtain ⟨r, hr⟩ := lstrip_comment.mpr (comment_lower.mpr h)
  unfold cleanLine
  rw [hr]
  rfl

theorem cleanLine_text (N : Nums R) {line : Str} (h1 : ¬ Blank line) (h2 : ¬ Comment line) (c : Clean R) :
    cleanLine N line c = cleanRest N (lower line) c.lines c.vars := by
  unfold cleanLine
  split
  · rename_i h
    exact absurd (blank_lower.mp (lstrip_nil.mp h)) h1
  · rename_i h
    exact absurd (comment_lower.mp (lstrip_comment.mp ⟨_, h⟩)) h2
  · rfl

/-- What holds for every line after cleaning. -/
structure Done (s : Str) : Prop where
  bang : '!' ∉ s
  last : ∃ c, (rstrip s).getLast? = some c ∧ c ≠ '&'

theorem cutComment_none {s : Str} (h : '!' ∉ s) : cutComment s = s := by
  unfold cutComment
  refine takeWhile_all (fun c hc => ?_)
  simp only [decide_eq_true_eq, ne_eq]
  rintro rfl
  exact h hc

theorem cutComment_bang (s : Str) : '!' ∉ cutComment s := by
  intro h
  have := takeWhile_mem h
  simp at this

theorem rstrip_mem {c : Char} {s : Str} (h : c ∈ rstrip s) : c ∈ s := by
  unfold rstrip at h
  rw [List.mem_reverse] at h
  exact List.mem_reverse.mp ((List.dropWhile_sublist _).subset h)

theorem strip_mem {c : Char} {s : Str} (h : c ∈ strip s) : c ∈ s := by
  unfold strip at h
  rw [List.mem_reverse] at h
  exact (List.dropWhile_sublist _).subset (List.mem_reverse.mp ((List.dropWhile_sublist _).subset h))

/-- The last character of `rstrip s` is not white space. -/
theorem rstrip_last {s : Str} {c : Char} (h : (rstrip s).getLast? = some c) : isSpace c = false := by
  unfold rstrip at h
  rw [List.getLast?_reverse] at h
  by_contra hc
  have hh := List.head?_dropWhile_not isSpace s.reverse
  rw [h] at hh
  simp only at hh
  rw [hh] at hc
  exact hc rfl

theorem rstrip_eq_strip_tail (s : Str) (h : ¬ Blank s) : ∃ sp, rstrip s = sp ++ strip s := by
  have hd : s.dropWhile isSpace ≠ [] := fun hh => h (lstrip_nil.mp hh)
  refine ⟨s.takeWhile isSpace, ?_⟩
  have hs : s = s.takeWhile isSpace ++ s.dropWhile isSpace := (List.takeWhile_append_dropWhile).symm
  have hr : (s.dropWhile isSpace).reverse.dropWhile isSpace ≠ [] := by
    intro hh
    have hb : Blank (s.dropWhile isSpace).reverse := lstrip_nil.mp hh
    refine h ?_
    intro c hc
    by_contra hn
    have := hb c (List.mem_reverse.mpr (mem_dropWhile (by simpa using hn) hc))
    exact hn this
  unfold rstrip strip
  conv_lhs => rw [hs, List.reverse_append, dropWhile_append_some hr, List.reverse_append, List.reverse_reverse]

theorem done_not_blank {s : Str} (h : Done s) : ¬ Blank s := by
  intro hb
  obtain ⟨c, hc, _⟩ := h.last
  have hr : rstrip s = [] := by
    unfold rstrip
    rw [dropWhile_all (fun x hx => hb x (List.mem_reverse.mp hx))]
    rfl
  rw [hr] at hc
  exact absurd hc (by simp)

theorem strip_ne_nil {s : Str} (h : ¬ Blank s) : strip s ≠ [] := by
  intro hh
  refine h (fun c hc => ?_)
  by_contra hn
  have := mem_strip (by simpa using hn) hc
  rw [hh] at this
  exact absurd this (by simp)

theorem rstrip_append_strip (a : Str) {s : Str} (h : ¬ Blank s) :
    (rstrip (a ++ strip s)).getLast? = (rstrip s).getLast? := by
  obtain ⟨sp, hsp⟩ := rstrip_eq_strip_tail s h
  have hne := strip_ne_nil h
  have hl : (rstrip s).getLast? = (strip s).getLast? := by
    rw [hsp, List.getLast?_append_of_ne_nil _ hne]
  obtain ⟨c, hc⟩ : ∃ c, (strip s).getLast? = some c := by
    cases hx : (strip s).getLast? with
    | none => exact absurd (List.getLast?_eq_none_iff.mp hx) hne
    | some c => exact ⟨c, rfl⟩
  have hcs : isSpace c = false := rstrip_last (hl.trans hc)
  have hrev : (a ++ strip s).reverse.dropWhile isSpace = (a ++ strip s).reverse := by
    obtain ⟨t, ht⟩ := List.getLast?_eq_some_iff.mp hc
    rw [ht, List.reverse_append, List.reverse_append]
    simp [hcs]
  have : rstrip (a ++ strip s) = a ++ strip s := by
    unfold rstrip
    rw [hrev, List.reverse_reverse]
  rw [this, List.getLast?_append_of_ne_nil _ hne, hl]

theorem joinLine_done {s s' : Str} {rest rest' : List Str} (hs : '!' ∉ s) (hr : ∀ r ∈ rest, Done r)
    (h : joinLine s rest = .ok (s', rest')) : Done s' ∧ (∀ r ∈ rest', Done r) := by
  unfold joinLine at h
  split at h
  · exact absurd h (by simp)
  · rename_i hl
    cases rest with
    | nil => exact absurd h (by simp)
    | cons n rest =>
      simp only [Except.ok.injEq, Prod.mk.injEq] at h
      obtain ⟨rfl, rfl⟩ := h
      have hn := hr n (by simp)
      refine ⟨⟨?_, ?_⟩, fun r hr' => hr r (by simp [hr'])⟩
      · rw [List.mem_append, not_or]
        exact ⟨fun h => hs (rstrip_mem ((List.dropLast_sublist _).subset h)), fun h => hn.bang (strip_mem h)⟩
      · rw [rstrip_append_strip _ (done_not_blank hn)]
        exact hn.last
  · rename_i c hne hl
    simp only [Except.ok.injEq, Prod.mk.injEq] at h
    obtain ⟨rfl, rfl⟩ := h
    exact ⟨⟨hs, c, hl, fun hc => hne (by rw [← hc])⟩, hr⟩

theorem joinLine_plain {s : Str} {c : Char} (hc : (rstrip s).getLast? = some c) (hne : c ≠ '&')
    (rest : List Str) : joinLine s rest = .ok (s, rest) := by
  unfold joinLine
  split
  · rename_i hh; rw [hc] at hh; exact absurd hh (by simp)
  · rename_i hh; rw [hc] at hh; exact absurd (Option.some.inj hh) hne
  · rfl

theorem joinLine_again {s : Str} (h : Done s) (rest : List Str) : joinLine s rest = .ok (s, rest) :=
  h.last.elim fun _ hc => joinLine_plain hc.1 hc.2 rest

theorem dset_again {K V : Type} [DecidableEq K] (d : Dict K V) (k : K) (v : V) :
    dset (dset d k v) k v = dset d k v := by
  induction d with
  | nil => simp [dset]
  | cons p d ih =>
    by_cases h : p.1 = k
    · have h1 : dset (p :: d) k v = (k, v) :: d := by rw [dset, if_pos h]
      rw [h1, dset, if_pos rfl]
    · have h1 : dset (p :: d) k v = p :: dset d k v := by rw [dset, if_neg h]
      rw [h1, dset, if_neg h, ih]

theorem storeVar_again (N : Nums R) {s : Str} {vars vars' : Dict Str R}
    (h : storeVar N s vars = .ok vars') : storeVar N s vars' = .ok vars' := by
  unfold storeVar at h ⊢
  split at h
  · exact absurd h (by simp)
  · simp only at h
    split at h
    · exact absurd h (by simp)
    · rename_i hl
      split at h
      · rename_i hx
        simp only [Except.ok.injEq] at h
        subst h
        simp only [hl, hx, dset_again]
      · exact absurd h (by simp)
  · injection h with h
    subst h
    rfl

theorem cleanRest_done (N : Nums R) {s : Str} {rest : List Str} {vars : Dict Str R} {c : Clean R}
    (hr : ∀ r ∈ rest, Done r) (h : cleanRest N s rest vars = .ok c) :
    (∀ r ∈ c.lines, Done r) ∧ ∃ s' rest', c.lines = s' :: rest' ∧ cleanRest N s' rest' c.vars = .ok c := by
  unfold cleanRest at h
  split at h
  · exact absurd h (by simp)
  · rename_i s' rest' hj
    split at h
    · exact absurd h (by simp)
    · rename_i vars' hv
      simp only [Except.ok.injEq] at h
      subst h
      obtain ⟨hd, hr'⟩ := joinLine_done (cutComment_bang s) hr hj
      refine ⟨fun r hm => ?_, s', rest', rfl, ?_⟩
      · rcases List.mem_cons.mp hm with rfl | hm
        · exact hd
        · exact hr' r hm
      · simp only [cleanRest]
        rw [cutComment_none hd.bang, joinLine_again hd]
        simp only [storeVar_again N hv]

/-- After cleaning, cleaning the first line again changes nothing. -/
theorem sanitize_stable (N : Nums R) (file : List Str) (c : Clean R) (h : sanitize N file = .ok c) :
    (∀ r ∈ c.lines, Done r) ∧
      (c.lines = [] ∨ ∃ s rest, c.lines = s :: rest ∧ cleanRest N s rest c.vars = .ok c) := by
  induction file generalizing c with
  | nil =>
    simp only [sanitize, Except.ok.injEq] at h
    subst h
    exact ⟨by simp, .inl rfl⟩
  | cons line file ih =>
    simp only [sanitize] at h
    cases hf : sanitize N file with
    | error e => rw [hf] at h; exact absurd h (by simp)
    | ok c0 =>
      rw [hf] at h
      simp only at h
      obtain ⟨hd, hs⟩ := ih c0 hf
      by_cases hb : Blank line
      · rw [cleanLine_blank N hb] at h
        injection h with h
        subst h
        exact ⟨hd, hs⟩
      · by_cases hc : Comment line
        · rw [cleanLine_comment N hc] at h
          rcases hs with hs | ⟨s, rest, hs, hcr⟩
          · rw [hs] at h; exact absurd h (by simp)
          · rw [hs] at h
            simp only at h
            rw [hcr] at h
            injection h with h
            subst h
            exact ⟨hd, .inr ⟨s, rest, hs, hcr⟩⟩
        · rw [cleanLine_text N hb hc] at h
          obtain ⟨h1, s', rest', h2, h3⟩ := cleanRest_done N hd h
          exact ⟨h1, .inr ⟨s', rest', h2, h3⟩⟩

/-- Lines remain if the file has a line with content. -/
theorem sanitize_content (N : Nums R) (file : List Str) (c : Clean R) (h : sanitize N file = .ok c)
    (hx : ∃ line ∈ file, ¬ Blank line ∧ ¬ Comment line) : c.lines ≠ [] := by
  induction file generalizing c with
  | nil => obtain ⟨_, h, _⟩ := hx; exact absurd h (by simp)
  | cons line file ih =>
    simp only [sanitize] at h
    cases hf : sanitize N file with
    | error e => rw [hf] at h; exact absurd h (by simp)
    | ok c0 =>
      rw [hf] at h
      simp only at h
      have hst := sanitize_stable N file c0 hf
      by_cases hb : Blank line
      · rw [cleanLine_blank N hb] at h
        injection h with h
        subst h
        obtain ⟨l, hl, h1, h2⟩ := hx
        rcases List.mem_cons.mp hl with rfl | hl
        · exact absurd hb h1
        · exact ih c0 hf ⟨l, hl, h1, h2⟩
      · have key : ∃ s rest vars, cleanRest N s rest vars = .ok c ∧ ∀ r ∈ rest, Done r := by
          by_cases hc : Comment line
          · rw [cleanLine_comment N hc] at h
            rcases hst.2 with hs | ⟨s, rest, hs, hcr⟩
            · rw [hs] at h; exact absurd h (by simp)
            · rw [hs] at h
              exact ⟨s, rest, _, h, fun r hr => hst.1 r (by rw [hs]; simp [hr])⟩
          · rw [cleanLine_text N hb hc] at h
            exact ⟨_, _, _, h, hst.1⟩
        obtain ⟨s, rest, vars, h1, h2⟩ := key
        obtain ⟨_, s', rest', h3, _⟩ := cleanRest_done N h2 h1
        rw [h3]
        simp

theorem sanitize_congr (N : Nums R) (pre a b : List Str) (h : sanitize N a = sanitize N b) :
    sanitize N (pre ++ a) = sanitize N (pre ++ b) := by
  induction pre with
  | nil => exact h
  | cons l pre ih => simp only [List.cons_append, sanitize, ih]

theorem sanitize_error (N : Nums R) (pre a : List Str) {e : PyErr} (h : sanitize N a = .error e) :
    sanitize N (pre ++ a) = .error e := by
  induction pre with
  | nil => exact h
  | cons l pre ih => simp only [List.cons_append, sanitize, ih]

/-! ## C32 -/

/-- A comment line changes nothing if a line with content comes behind it. Missing: comments
behind the last line with content, see `comment_end_fails`. -/
theorem comment_line_partial (N : Nums R) (pre post : List Str) (cm : Str) (hcm : Comment cm)
    (hx : ∃ line ∈ post, ¬ Blank line ∧ ¬ Comment line) :
    sanitize N (pre ++ cm :: post) = sanitize N (pre ++ post) := by
  refine sanitize_congr N pre _ _ ?_
  rw [sanitize]
  cases hf : sanitize N post with
  | error e => rfl
  | ok c =>
    simp only
    rw [cleanLine_comment N hcm]
    rcases (sanitize_stable N post c hf).2 with h | ⟨s, rest, h, hcr⟩
    · exact absurd h (sanitize_content N post c hf hx)
    · rw [h]
      exact hcr

/-- The same for the whole parser. -/
theorem comment_file_partial (N : Nums R) (pre post : List Str) (cm : Str) (hcm : Comment cm)
    (hx : ∃ line ∈ post, ¬ Blank line ∧ ¬ Comment line) (name : Str) (fuel : Nat) :
    parseFile N (pre ++ cm :: post) name fuel = parseFile N (pre ++ post) name fuel := by
  unfold parseFile
  rw [comment_line_partial N pre post cm hcm hx]

/-- Blank lines change nothing. -/
theorem blank_line (N : Nums R) (pre post : List Str) (b : Str) (hb : Blank b) :
    sanitize N (pre ++ b :: post) = sanitize N (pre ++ post) := by
  refine sanitize_congr N pre _ _ ?_
  rw [sanitize]
  cases hf : sanitize N post with
  | error e => rfl
  | ok c => exact cleanLine_blank N hb c

/-- A comment with only blank lines and comments behind it raises IndexError, for every file. -/
theorem comment_end_fails (N : Nums R) (pre post : List Str) (cm : Str) (hcm : Comment cm)
    (hpost : ∀ line ∈ post, Blank line ∨ Comment line) :
    sanitize N (pre ++ cm :: post) = .error .indexError := by
  have key : ∀ post : List Str, (∀ line ∈ post, Blank line ∨ Comment line) →
      sanitize N post = .ok ⟨[], []⟩ ∨ sanitize N post = .error .indexError := by
    intro post
    induction post with
    | nil => intro _; exact .inl rfl
    | cons l post ih =>
      intro h
      rw [sanitize]
      rcases ih (fun x hx => h x (by simp [hx])) with hi | hi
      · rw [hi]
        rcases h l (by simp) with hb | hc
        · exact .inl (cleanLine_blank N hb _)
        · exact .inr (cleanLine_comment N hc _)
      · rw [hi]; exact .inr rfl
  refine sanitize_error N pre _ ?_
  rw [sanitize]
  rcases key post hpost with h | h
  · rw [h]; exact cleanLine_comment N hcm _
  · rw [h]

theorem not_comment {s : Str} (h1 : '!' ∉ s) : ¬ Comment s := by
  rintro ⟨sp, r, rfl, _⟩
  exact h1 (by simp)

theorem cutComment_append {s : Str} (h : '!' ∉ s) (t : Str) : cutComment (s ++ '!' :: t) = s := by
  induction s with
  | nil => simp [cutComment]
  | cons d ds ih =>
    simp only [List.mem_cons, not_or] at h
    have := ih h.2
    unfold cutComment at this ⊢
    rw [List.cons_append, List.takeWhile_cons_of_pos (by simpa using fun hh => h.1 hh.symm), this]

theorem lower_bang {s : Str} (h : '!' ∉ s) : '!' ∉ lower s := by
  intro hm
  obtain ⟨c, hc, he⟩ := List.mem_map.mp hm
  rw [(toLower_bang c).mp he] at hc
  exact h hc

theorem comment_of_append {s t : Str} (hs : ¬ Blank s) (hb : '!' ∉ s) : ¬ Comment (s ++ t) := by
  rintro ⟨sp, r, h, hsp⟩
  rcases List.append_eq_append_iff.mp h with ⟨a, h1, h2⟩ | ⟨a, h1, h2⟩
  · exact hs (fun c hc => hsp c (by rw [h1]; simp [hc]))
  · cases a with
    | nil =>
      rw [List.append_nil] at h1
      exact hs (by rw [h1]; exact hsp)
    | cons x xs =>
      rw [List.cons_append] at h2
      injection h2 with h2 _
      exact hb (by rw [h1, h2]; simp)

theorem blank_of_append {s t : Str} (hs : ¬ Blank s) : ¬ Blank (s ++ t) :=
  fun h => hs (fun c hc => h c (List.mem_append.mpr (.inl hc)))

/-- A comment at the end of a line: the file is read as if the line stopped in front of it. The
newline goes with the comment. -/
theorem comment_tail_exact (N : Nums R) (pre post : List Str) (s t : Str) (hs : ¬ Blank s) (hb : '!' ∉ s) :
    sanitize N (pre ++ (s ++ '!' :: t) :: post) = sanitize N (pre ++ s :: post) := by
  refine sanitize_congr N pre _ _ ?_
  rw [sanitize, sanitize]
  cases sanitize N post with
  | error e => rfl
  | ok c =>
    simp only
    rw [cleanLine_text N hs (not_comment hb), cleanLine_text N (blank_of_append hs) (comment_of_append hs hb)]
    have h1 : lower (s ++ '!' :: t) = lower s ++ '!' :: lower t := by simp [lower]
    unfold cleanRest
    rw [h1, cutComment_append (lower_bang hb), cutComment_none (lower_bang hb)]

/-! ### Same text up to white space at the end -/

theorem rstrip_append_blank {t u : Str} (h : Blank u) : rstrip (t ++ u) = rstrip t := by
  unfold rstrip
  rw [List.reverse_append, dropWhile_append_all (fun c hc => h c (List.mem_reverse.mp hc))]

theorem rstrip_split (a : Str) : ∃ u, a = rstrip a ++ u ∧ Blank u := by
  refine ⟨(a.reverse.takeWhile isSpace).reverse, ?_, ?_⟩
  · unfold rstrip
    rw [← List.reverse_append, List.takeWhile_append_dropWhile, List.reverse_reverse]
  · intro c hc
    exact takeWhile_mem (List.mem_reverse.mp hc)

theorem sameText_iff {a b : Str} : SameText a b ↔ rstrip a = rstrip b := by
  constructor
  · rintro ⟨t, u, v, rfl, rfl, hu, hv⟩
    rw [rstrip_append_blank hu, rstrip_append_blank hv]
  · intro h
    obtain ⟨u, hu, hub⟩ := rstrip_split a
    obtain ⟨v, hv, hvb⟩ := rstrip_split b
    exact ⟨rstrip a, u, v, hu, by rw [h]; exact hv, hub, hvb⟩

theorem sameText_strip {a b : Str} (h : SameText a b) : strip a = strip b := by
  obtain ⟨t, u, v, rfl, rfl, hu, hv⟩ := h
  rw [strip_append_space hu, strip_append_space hv]

theorem blank_no_bang {u : Str} (h : Blank u) : '!' ∉ u := by
  intro hh
  have := h _ hh
  revert this
  decide

theorem sameText_cut {a b : Str} (h : SameText a b) : SameText (cutComment a) (cutComment b) := by
  obtain ⟨t, u, v, rfl, rfl, hu, hv⟩ := h
  by_cases ht : '!' ∈ t
  · obtain ⟨x, y, hx, rfl⟩ : ∃ x y, '!' ∉ x ∧ t = x ++ '!' :: y := by
      clear hu hv
      induction t with
      | nil => exact absurd ht (by simp)
      | cons d ds ih =>
        by_cases hd : d = '!'
        · exact ⟨[], ds, by simp, by rw [hd]; rfl⟩
        · obtain ⟨x, y, h1, h2⟩ := ih (by
            rcases List.mem_cons.mp ht with h | h
            · exact absurd h.symm hd
            · exact h)
          exact ⟨d :: x, y, by simp [h1, Ne.symm hd], by rw [h2]; rfl⟩
    rw [List.append_assoc, List.append_assoc, List.cons_append, List.cons_append,
      cutComment_append hx, cutComment_append hx]
    exact ⟨x, [], [], by simp, by simp, by simp [Blank], by simp [Blank]⟩
  · have h1 : '!' ∉ t ++ u := by rw [List.mem_append, not_or]; exact ⟨ht, blank_no_bang hu⟩
    have h2 : '!' ∉ t ++ v := by rw [List.mem_append, not_or]; exact ⟨ht, blank_no_bang hv⟩
    rw [cutComment_none h1, cutComment_none h2]
    exact ⟨t, u, v, rfl, rfl, hu, hv⟩

theorem splitWsFrom_blank (w : Str) {u : Str} (h : Blank u) :
    splitWsFrom w u = if w = [] then [] else [w.reverse] := by
  induction u generalizing w with
  | nil => rfl
  | cons c cs ih =>
    have hcs : Blank cs := fun x hx => h x (by simp [hx])
    rw [splitWsFrom, if_pos (h c (by simp)), ih _ hcs]
    by_cases hw : w = [] <;> simp [hw]

theorem splitWsFrom_append (w t : Str) {u : Str} (h : Blank u) :
    splitWsFrom w (t ++ u) = splitWsFrom w t := by
  induction t generalizing w with
  | nil => rw [List.nil_append, splitWsFrom_blank w h, splitWsFrom]
  | cons c cs ih =>
    rw [List.cons_append, splitWsFrom, splitWsFrom, ih, ih]

theorem sameText_words {a b : Str} (h : SameText a b) : splitWs a = splitWs b := by
  obtain ⟨t, u, v, rfl, rfl, hu, hv⟩ := h
  unfold splitWs
  rw [splitWsFrom_append _ _ hu, splitWsFrom_append _ _ hv]

theorem sameText_head {a b : Str} (h : SameText a b) : (lstrip a).head? = (lstrip b).head? := by
  obtain ⟨t, u, v, rfl, rfl, hu, hv⟩ := h
  by_cases ht : t.dropWhile isSpace = []
  · have hb : Blank t := lstrip_nil.mp ht
    unfold lstrip
    rw [dropWhile_append_all hb, dropWhile_append_all hb, dropWhile_all hu, dropWhile_all hv]
  · unfold lstrip
    rw [dropWhile_append_some ht, dropWhile_append_some ht]
    cases hx : t.dropWhile isSpace with
    | nil => exact absurd hx ht
    | cons c cs => rfl

theorem storeVar_same (N : Nums R) {a b : Str} (h : SameText a b) (vars : Dict Str R) :
    storeVar N a vars = storeVar N b vars := by
  have hh := sameText_head h
  unfold storeVar
  rw [sameText_words h]
  cases ha : lstrip a with
  | nil =>
    rw [ha] at hh
    cases hb : lstrip b with
    | nil => rfl
    | cons c cs => rw [hb] at hh; simp at hh
  | cons c cs =>
    rw [ha] at hh
    cases hb : lstrip b with
    | nil => rw [hb] at hh; simp at hh
    | cons d ds =>
      rw [hb] at hh
      simp only [List.head?_cons, Option.some.injEq] at hh
      subst hh
      by_cases hc : c = '%'
      · subst hc; rfl
      · split
        · rename_i h1; simp at h1
        · rename_i h1; injection h1 with h1 _; exact absurd h1 hc
        · split
          · rename_i h1; simp at h1
          · rename_i h1; injection h1 with h1 _; exact absurd h1 hc
          · rfl

/-- The same exception, or the same variables and lines that differ in white space at the end. -/
inductive SameClean : Except PyErr (Clean R) → Except PyErr (Clean R) → Prop
  | error (e : PyErr) : SameClean (.error e) (.error e)
  | ok (a b : List Str) (vars : Dict Str R) : List.Forall₂ SameText a b →
      SameClean (.ok ⟨a, vars⟩) (.ok ⟨b, vars⟩)

theorem cleanRest_same (N : Nums R) {s s' : Str} {rest rest' : List Str} (vars : Dict Str R)
    (hs : SameText s s') (hr : List.Forall₂ SameText rest rest') :
    SameClean (cleanRest N s rest vars) (cleanRest N s' rest' vars) := by
  have hc := sameText_cut hs
  have hrs : rstrip (cutComment s) = rstrip (cutComment s') := sameText_iff.mp hc
  have fin : ∀ {x x' : Str} {r r' : List Str}, SameText x x' → List.Forall₂ SameText r r' →
      SameClean (match storeVar N x vars with
        | .error e => .error e
        | .ok vars' => .ok ⟨x :: r, vars'⟩)
      (match storeVar N x' vars with
        | .error e => .error e
        | .ok vars' => .ok ⟨x' :: r', vars'⟩) := by
    intro x x' r r' hx hrr
    rw [storeVar_same N hx]
    cases storeVar N x' vars with
    | error e => exact .error e
    | ok v => exact .ok _ _ v (.cons hx hrr)
  unfold cleanRest
  cases hl : (rstrip (cutComment s')).getLast? with
  | none =>
    have h1 : joinLine (cutComment s) rest = .error .indexError := by unfold joinLine; rw [hrs, hl]
    have h2 : joinLine (cutComment s') rest' = .error .indexError := by unfold joinLine; rw [hl]
    rw [h1, h2]
    exact .error _
  | some c =>
    by_cases hca : c = '&'
    · subst hca
      cases hr with
      | nil =>
        have h1 : joinLine (cutComment s) [] = .error .indexError := by unfold joinLine; rw [hrs, hl]; rfl
        have h2 : joinLine (cutComment s') [] = .error .indexError := by unfold joinLine; rw [hl]; rfl
        rw [h1, h2]
        exact .error _
      | @cons n n' r r' h1 h2 =>
        have e1 : joinLine (cutComment s) (n :: r) =
            .ok ((rstrip (cutComment s')).dropLast ++ strip n', r) := by
          rw [← sameText_strip h1]; unfold joinLine; rw [hrs, hl]; rfl
        have e2 : joinLine (cutComment s') (n' :: r') =
            .ok ((rstrip (cutComment s')).dropLast ++ strip n', r') := by
          unfold joinLine; rw [hl]; rfl
        rw [e1, e2]
        exact fin (sameText_iff.mpr rfl) h2
    · rw [joinLine_plain (hrs ▸ hl) hca, joinLine_plain hl hca]
      exact fin hc hr

theorem cleanLine_same (N : Nums R) (line : Str) {a b : List Str} (vars : Dict Str R)
    (h : List.Forall₂ SameText a b) : SameClean (cleanLine N line ⟨a, vars⟩) (cleanLine N line ⟨b, vars⟩) := by
  by_cases hb : Blank line
  · rw [cleanLine_blank N hb, cleanLine_blank N hb]
    exact .ok _ _ _ h
  · by_cases hc : Comment line
    · rw [cleanLine_comment N hc, cleanLine_comment N hc]
      cases h with
      | nil => exact .error _
      | cons h1 h2 => exact cleanRest_same N vars h1 h2
    · rw [cleanLine_text N hb hc, cleanLine_text N hb hc]
      exact cleanRest_same N vars (sameText_iff.mpr rfl) h

theorem sanitize_same (N : Nums R) (pre a b : List Str) (h : SameClean (sanitize N a) (sanitize N b)) :
    SameClean (sanitize N (pre ++ a)) (sanitize N (pre ++ b)) := by
  induction pre with
  | nil => exact h
  | cons l pre ih =>
    simp only [List.cons_append, sanitize]
    generalize sanitize N (pre ++ a) = x at ih ⊢
    generalize sanitize N (pre ++ b) = y at ih ⊢
    cases ih with
    | error e => exact .error e
    | ok x y vars hxy => exact cleanLine_same N l vars hxy

/-- A comment at the end of a line: with and without it the same variables are stored and the
same lines are kept, up to white space at the end of the lines. Missing: that white space
matters later, see `comment_tail_fails`. -/
theorem comment_tail_partial (N : Nums R) (pre post : List Str) (s t u : Str) (hs : ¬ Blank s)
    (hb : '!' ∉ s) (hu : Blank u) :
    SameClean (sanitize N (pre ++ (s ++ '!' :: t) :: post)) (sanitize N (pre ++ (s ++ u) :: post)) := by
  rw [comment_tail_exact N pre post s t hs hb]
  refine sanitize_same N pre _ _ ?_
  rw [sanitize, sanitize]
  cases sanitize N post with
  | error e => exact .error e
  | ok c =>
    simp only
    rw [cleanLine_text N hs (not_comment hb), cleanLine_text N (blank_of_append hs) (comment_of_append hs hb)]
    refine cleanRest_same N c.vars ⟨lower s, [], lower u, by simp, by simp [lower], by simp [Blank], blank_lower.mpr hu⟩ ?_
    exact List.forall₂_same.mpr (fun x _ => sameText_iff.mpr rfl)

/-- An element definition without parameters and with a comment right behind the type loses the
last letter of its type, for all such definitions; with a newline in place of the comment the type
is right. -/
theorem comment_tail_fails (N : Nums R) (name ty t : Str) (a c : Char)
    (ha : isSpace a = false ∧ a ≠ '%') (hc : isSpace c = false ∧ c ≠ '&')
    (hlow : lower (a :: name ++ ':' :: (ty ++ [c])) = a :: name ++ ':' :: (ty ++ [c]))
    (hbang : '!' ∉ a :: name ++ ':' :: (ty ++ [c]))
    (hname : ',' ∉ a :: name ∧ '=' ∉ a :: name) (hty : ∀ d ∈ ty ++ [c], d ≠ ',' ∧ d ≠ '=' ∧ d ≠ ':') :
    sanitize N [a :: name ++ ':' :: (ty ++ [c]) ++ '!' :: t] = .ok ⟨[a :: name ++ ':' :: (ty ++ [c])], []⟩ ∧
      findParameters N (a :: name ++ ':' :: (ty ++ [c])) = .ok (strip ty, []) ∧
      sanitize N [a :: name ++ ':' :: (ty ++ [c]) ++ ['\n']] =
        .ok ⟨[a :: name ++ ':' :: (ty ++ [c]) ++ ['\n']], []⟩ ∧
      findParameters N (a :: name ++ ':' :: (ty ++ [c]) ++ ['\n']) = .ok (strip (ty ++ [c]), []) ∧
      strip ty ≠ strip (ty ++ [c]) := by
  have hnb : ¬ Blank (a :: name ++ ':' :: (ty ++ [c])) := by
    intro h
    have := h a (by simp)
    rw [ha.1] at this
    exact absurd this (by simp)
  have hone : ∀ u : Str, Blank u → lower u = u →
      sanitize N [a :: name ++ ':' :: (ty ++ [c]) ++ u] = .ok ⟨[a :: name ++ ':' :: (ty ++ [c]) ++ u], []⟩ := by
    intro u hu hlu
    have hl : lower (a :: name ++ ':' :: (ty ++ [c]) ++ u) = a :: name ++ ':' :: (ty ++ [c]) ++ u := by
      rw [show lower (a :: name ++ ':' :: (ty ++ [c]) ++ u) =
        lower (a :: name ++ ':' :: (ty ++ [c])) ++ lower u from List.map_append .., hlow, hlu]
    have hnbang : '!' ∉ a :: name ++ ':' :: (ty ++ [c]) ++ u := by
      rw [List.mem_append, not_or]; exact ⟨hbang, blank_no_bang hu⟩
    have hlast : Done (a :: name ++ ':' :: (ty ++ [c]) ++ u) := by
      refine ⟨hnbang, c, ?_, hc.2⟩
      rw [rstrip_append_blank hu]
      have hx : a :: name ++ ':' :: (ty ++ [c]) = (a :: name ++ ':' :: ty) ++ [c] := by simp
      unfold rstrip
      rw [hx, List.reverse_append, List.reverse_singleton, List.singleton_append,
        List.dropWhile_cons_of_neg (by simp [hc.1]), List.reverse_cons, List.getLast?_concat]
    have hstore : storeVar N (a :: name ++ ':' :: (ty ++ [c]) ++ u) [] = .ok [] := by
      unfold storeVar
      have : lstrip (a :: name ++ ':' :: (ty ++ [c]) ++ u) = a :: name ++ ':' :: (ty ++ [c]) ++ u := by
        unfold lstrip
        rw [List.cons_append, List.cons_append, List.dropWhile_cons_of_neg (by simp [ha.1])]
      rw [this]
      split
      · rename_i h1; simp at h1
      · rename_i h1; injection h1 with h1 _; exact absurd h1 ha.2
      · rfl
    simp only [sanitize]
    rw [cleanLine_text N (blank_of_append hnb) (comment_of_append hnb hbang), hl]
    unfold cleanRest
    rw [cutComment_none hnbang, joinLine_again hlast]
    simp only [hstore]
  have hfail := definition_bare_fails N (a :: name) ty c hc.1 hname hty
  refine ⟨?_, hfail.1, hone ['\n'] (by intro x hx; rw [List.mem_singleton.mp hx]; decide) (by decide), ?_, hfail.2⟩
  · have := comment_tail_exact N [] [] (a :: name ++ ':' :: (ty ++ [c])) t hnb hbang
    rw [List.nil_append, List.nil_append] at this
    rw [this]
    have h0 := hone [] (by simp [Blank]) rfl
    rwa [List.append_nil] at h0
  · have hx : a :: name ++ ':' :: (ty ++ [c]) ++ ['\n'] = (a :: name) ++ ':' :: ((ty ++ [c]) ++ ['\n']) := by simp
    rw [hx, definition_bare_exact N (a :: name) (ty ++ [c]) '\n' hname]
    intro d hd
    rcases List.mem_append.mp hd with hd | hd
    · exact hty d hd
    · rw [List.mem_singleton.mp hd]; decide

/-- Lines that meet the hypotheses: a comment, a line with content, a blank line, a definition
with a comment behind it. -/
example : Comment "  ! text\n".toList ∧ ¬ Blank "d: drift\n".toList ∧ ¬ Comment "d: drift\n".toList ∧
    Blank " \n".toList :=
  ⟨⟨"  ".toList, " text\n".toList, rfl, by unfold Blank; decide⟩,
    by unfold Blank; decide, not_comment (by decide), by unfold Blank; decide⟩

/-- `d1: drift!free space` meets the hypotheses of `comment_tail_fails`. -/
example : ("d1: drift".toList = 'd' :: "1".toList ++ ':' :: (" drif".toList ++ ['t'])) ∧
    lower "d1: drift".toList = "d1: drift".toList ∧ '!' ∉ "d1: drift".toList ∧
    (',' ∉ "d1".toList ∧ '=' ∉ "d1".toList) ∧
    ∀ d ∈ " drif".toList ++ ['t'], d ≠ ',' ∧ d ≠ '=' ∧ d ≠ ':' := by
  refine ⟨by decide, by decide, by decide, by decide, by decide⟩

theorem ex_comment : Comment "  ! text\n".toList := ⟨"  ".toList, " text\n".toList, rfl, by unfold Blank; decide⟩

theorem ex_text : ¬ Blank "d: drift\n".toList ∧ ¬ Comment "d: drift\n".toList := ⟨by unfold Blank; decide, not_comment (by decide)⟩

example (N : Nums R) : sanitize N ["q: quad\n".toList, " \n".toList, "d: drift\n".toList] = sanitize N ["q: quad\n".toList, "d: drift\n".toList] :=
  blank_line N ["q: quad\n".toList] ["d: drift\n".toList] " \n".toList (by unfold Blank; decide)

example (N : Nums R) : sanitize N ["d: drift\n".toList, "  ! text\n".toList, " \n".toList] = .error .indexError :=
  comment_end_fails N ["d: drift\n".toList] [" \n".toList] "  ! text\n".toList ex_comment (by
    intro line hl
    rw [List.mem_singleton.mp hl]
    exact Or.inl (by unfold Blank; decide))

example (N : Nums R) : parseFile N ["  ! text\n".toList, "d: drift\n".toList] "top".toList 9 = parseFile N ["d: drift\n".toList] "top".toList 9 :=
  comment_file_partial N [] ["d: drift\n".toList] "  ! text\n".toList ex_comment ⟨_, List.mem_singleton.mpr rfl, ex_text⟩ _ _

example (N : Nums R) : sanitize N ["  ! text\n".toList, "d: drift\n".toList] = sanitize N ["d: drift\n".toList] :=
  comment_line_partial N [] ["d: drift\n".toList] "  ! text\n".toList ex_comment ⟨_, List.mem_singleton.mpr rfl, ex_text⟩

example (N : Nums R) : sanitize N ["d: drift ! text\n".toList] = sanitize N ["d: drift ".toList] :=
  comment_tail_exact N [] [] "d: drift ".toList " text\n".toList (by unfold Blank; decide) (by decide)

example (N : Nums R) : SameClean (sanitize N ["d: drift ! text\n".toList]) (sanitize N ["d: drift \n".toList]) :=
  comment_tail_partial N [] [] "d: drift ".toList " text\n".toList "\n".toList (by unfold Blank; decide) (by decide)
    (by unfold Blank; decide)

end Verif.Lte
