import Verif.Lte.PropsSequence

/-!
# Whole lattice files (C31)

From the lines of a file to the elements of the beamline, for files without variables and
continuation lines.
-/

namespace Verif.Lte

open Verif.Lattice

variable {R : Type}

/-- A line of a lattice file: an element definition, or `header:line=(...)`. -/
inductive FLine
  | elem (raw : Str)
  | line (header blanks : Str) (its : List LItem) (tail : Str)

/-- The text. -/
def FLine.text : FLine → Str
  | .elem raw => raw
  | .line header blanks its tail => header ++ ':' :: (blanks ++ "line=(".toList ++ render ')' tail its)

/-- Text the cleaning step leaves alone, apart from upper case letters: something else than white
space, no comment, no continuation, no variable. -/
structure PlainLine (s : Str) : Prop where
  ne : ¬ Blank s
  bang : '!' ∉ s
  cont : (rstrip s).getLast? ≠ some '&'
  var : (lstrip s).head? ≠ some '%'

/-- Conditions on a line. The name is the header without double quotes around it. -/
def FLine.Ok : FLine → Prop
  | .elem raw => PlainLine raw ∧ hasSub "line=(".toList raw = false
  | .line header blanks its tail => PlainLine (FLine.text (.line header blanks its tail)) ∧
      (∀ c ∈ header, c ≠ ':' ∧ c ≠ '=') ∧ Blank blanks ∧ its ≠ [] ∧ (∀ i ∈ its, i.Ok) ∧ Blank tail

/-- Names of the line `n`: the first one of that name counts. -/
def lineOf : List FLine → Str → Option (List Str)
  | [], _ => none
  | .elem _ :: fls, n => lineOf fls n
  | .line header _ its _ :: fls, n => if stripChar '"' header = n then some (lineNames its) else lineOf fls n

/-- The element definitions. -/
def defsOf : List FLine → List Str
  | [] => []
  | .elem raw :: fls => raw :: defsOf fls
  | .line .. :: fls => defsOf fls

theorem sanitize_plain (N : Nums R) (file : List Str) (h : ∀ l ∈ file, PlainLine (lower l)) :
    sanitize N file = .ok ⟨file.map lower, []⟩ := by
  induction file with
  | nil => rfl
  | cons l file ih =>
    have hp := h l (by simp)
    rw [sanitize, ih fun x hx => h x (List.mem_cons_of_mem _ hx)]
    simp only
    have hb : ¬ Blank l := fun hb => hp.ne (blank_lower.mpr hb)
    have hc : ¬ Comment l := by
      intro hc
      obtain ⟨t, ht⟩ := lstrip_comment.mpr (comment_lower.mpr hc)
      refine hp.bang ?_
      have : '!' ∈ lstrip (lower l) := by rw [ht]; simp
      exact (List.dropWhile_sublist _).subset this
    rw [cleanLine_text N hb hc]
    unfold cleanRest
    rw [cutComment_none hp.bang]
    obtain ⟨c, hl⟩ : ∃ c, (rstrip (lower l)).getLast? = some c := by
      cases hg : (rstrip (lower l)).getLast? with
      | some c => exact ⟨c, rfl⟩
      | none =>
        rw [List.getLast?_eq_none_iff] at hg
        obtain ⟨u, hu, hub⟩ := rstrip_split (lower l)
        rw [hg, List.nil_append] at hu
        exact absurd (by rw [hu]; exact hub) hp.ne
    rw [joinLine_plain hl (by rintro rfl; exact hp.cont hl)]
    simp only
    have hv : storeVar N (lower l) [] = .ok [] := by
      unfold storeVar
      have := hp.var
      split
      · rename_i hs
        exact absurd (lstrip_nil.mp hs) hp.ne
      · rename_i hs
        rw [hs] at this
        exact absurd rfl this
      · rfl
    rw [hv]
    rfl

theorem line_text_sub (header blanks : Str) (its : List LItem) (tail : Str) :
    hasSub "line=(".toList (FLine.text (.line header blanks its tail)) = true := by
  rw [show FLine.text (.line header blanks its tail) =
    (header ++ ':' :: blanks) ++ ("line=(".toList ++ render ')' tail its) by rw [FLine.text]; simp only [List.append_assoc, List.cons_append]]
  exact hasSub_append_left _ _ _ (hasSub_prefix _ _)

theorem line_text_name {header blanks : Str} (its : List LItem) (tail : Str) (h : ':' ∉ header) :
    readName (FLine.text (.line header blanks its tail)) = some (stripChar '"' header) := by
  unfold readName FLine.text
  rw [findChar_some h]
  simp only [List.take_left' rfl]

theorem line_text_rest {header blanks : Str} (its : List LItem) (tail : Str) (h : '=' ∉ header) (hb : Blank blanks) :
    afterEq (FLine.text (.line header blanks its tail)) = '(' :: render ')' tail its := by
  have hx : FLine.text (.line header blanks its tail) =
      (header ++ ':' :: (blanks ++ "line".toList)) ++ '=' :: '(' :: render ')' tail its := by
    unfold FLine.text
    rw [show "line=(".toList = "line".toList ++ ['=', '('] by decide]
    simp
  have hn : '=' ∉ header ++ ':' :: (blanks ++ "line".toList) := by
    simp only [List.mem_append, List.mem_cons, not_or]
    exact ⟨h, by decide, blank_free hb (by decide), by decide⟩
  unfold afterEq
  rw [hx, findChar_some hn]
  simp only
  rw [show (header ++ ':' :: (blanks ++ "line".toList)) ++ '=' :: '(' :: render ')' tail its =
    ((header ++ ':' :: (blanks ++ "line".toList)) ++ ['=']) ++ '(' :: render ')' tail its by simp,
    List.drop_left' (by rw [List.length_append]; rfl)]

/-- What `find_beamlines` makes of the lines. -/
theorem findLoop_spec (name : Str) (fls : List FLine) (hok : ∀ l ∈ fls, l.Ok) :
    (findLoop name (fls.map FLine.text)).defs = defsOf fls ∧
    LinesOf (findLoop name (fls.map FLine.text)).lines (lineOf fls) ∧
    (lineOf fls name = none ∨ ∃ text names, lineOf fls name = some names ∧
      (findLoop name (fls.map FLine.text)).text = '(' :: text ∧ TextOf names text) := by
  induction fls with
  | nil => exact ⟨rfl, fun n => .inl ⟨rfl, rfl⟩, .inl rfl⟩
  | cons l fls ih =>
    obtain ⟨h1, h2, h3⟩ := ih fun x hx => hok x (List.mem_cons_of_mem _ hx)
    have hl := hok l (by simp)
    cases l with
    | elem raw =>
      have hs : hasSub "line=(".toList (FLine.text (.elem raw)) = false := hl.2
      rw [List.map_cons, findLoop]
      simp only [hs, Bool.false_eq_true, if_false]
      exact ⟨by rw [h1]; rfl, h2, h3⟩
    | line header blanks its tail =>
      obtain ⟨_, hh, hb, hne, hits, ht⟩ := hl
      rw [List.map_cons, findLoop]
      have hc : ':' ∉ header := fun hm => (hh _ hm).1 rfl
      have he : '=' ∉ header := fun hm => (hh _ hm).2 rfl
      simp only [line_text_sub, if_true, line_text_name its tail hc, line_text_rest its tail he hb]
      have htx : TextOf (lineNames its) (render ')' tail its) := ⟨its, ')', tail, hne, hits, .inl rfl, ht, rfl, rfl⟩
      refine ⟨by rw [h1]; rfl, ?_, ?_⟩
      · intro n
        by_cases hn : stripChar '"' header = n
        · refine .inr ⟨'(', _, _, ?_, ?_, htx⟩
          · rw [dget_dset, hn]; simp
          · unfold lineOf; rw [if_pos hn]
        · have hn' : ¬ (some n = some (stripChar '"' header)) := by
            intro h; injection h with h; exact hn h.symm
          have hlo : lineOf (.line header blanks its tail :: fls) n = lineOf fls n := by
            conv_lhs => unfold lineOf
            rw [if_neg hn]
          rw [dget_dset, if_neg hn', hlo]
          exact h2 n
      · by_cases hn : stripChar '"' header = name
        · refine .inr ⟨_, lineNames its, ?_, ?_, htx⟩
          · unfold lineOf; rw [if_pos hn]
          · rw [if_pos (by rw [hn])]
        · have hlo : lineOf (.line header blanks its tail :: fls) name = lineOf fls name := by
            conv_lhs => unfold lineOf
            rw [if_neg hn]
          rw [hlo, if_neg (by intro h; injection h with h; exact hn h)]
          exact h3

theorem plain_text {l : FLine} (h : l.Ok) : PlainLine l.text := by
  cases l with
  | elem raw => exact h.1
  | line header blanks its tail => exact h.1

/-- C31 from the file to the elements: names are those of the expansion of the line asked for, and
types and parameters those of the definitions. Upper and lower case do not matter. Missing: lines
used more than once (`sequence_repeat_fails`), and comments, variables and continuation lines, for
which see C32 and C33. -/
theorem file_sequence_partial (N : Nums R) (fls : List FLine) (hok : ∀ l ∈ fls, l.Ok) (file : List Str)
    (hfile : file.map lower = fls.map FLine.text) (name : Str) (hname : name ≠ []) (D : Str → Str × Str × Params R)
    (names es us : List Str) (hline : lineOf fls (lower name) = some names)
    (he : Expands (lineOf fls) names es us) (hus : us.Nodup)
    (hdef : ∀ n ∈ es, DefinedAs N (defsOf fls) n (D n)) (fuel : Nat) (hfuel : es.length + us.length ≤ fuel) :
    ∃ h ids, parseFile N file name fuel = some (.ok h) ∧
      Unfolds h (h.line 0).seq ids ∧ ids.map (edata h) = es.map D := by
  have hln : lower name ≠ [] := by
    intro h
    exact hname (List.map_eq_nil_iff.mp h)
  have hplain : ∀ l ∈ file, PlainLine (lower l) := by
    intro l hl
    have : lower l ∈ fls.map FLine.text := by rw [← hfile]; exact List.mem_map_of_mem hl
    obtain ⟨x, hx, hxl⟩ := List.mem_map.mp this
    rw [← hxl]
    exact plain_text (hok x hx)
  have hrep : replaceVars N (⟨fls.map FLine.text, []⟩ : Clean R) = fls.map FLine.text := by
    unfold replaceVars
    simp only [List.foldl_nil]
    exact List.map_id _
  obtain ⟨h1, h2, h3⟩ := findLoop_spec (lower name) fls hok
  obtain ⟨text, names', hn', htext, htx⟩ := h3.resolve_left (by rw [hline]; simp)
  rw [hline] at hn'
  injection hn' with hn'
  subst hn'
  obtain ⟨h, ids, a, b, c⟩ := sequence_partial N (findLoop (lower name) (fls.map FLine.text)) (lineOf fls) h2 D
    (lower name) '(' text names es us (some name) hline htext htx he hus (by rw [h1]; exact hdef) fuel hfuel
  refine ⟨h, ids, ?_, b, c⟩
  unfold parseFile
  rw [sanitize_plain N file hplain, hfile]
  simp only
  rw [hrep]
  unfold findBeamlines
  rw [if_neg hln]
  exact a

/-- The lines of the example file. -/
def exFile : List FLine :=
  [.elem "q: quad\n".toList, .elem "d: drift\n".toList,
    .line "cell".toList " ".toList [.simple (.one "d".toList), .simple (.one "q".toList)] "\n".toList,
    .line "\"top\"".toList [] [.simple (.one "q".toList), .simple (.one "cell".toList), .simple (.one "q".toList)] "\n".toList]

theorem ex_plain {s : Str} (h1 : ∃ c ∈ s, isSpace c = false) (h2 : '!' ∉ s) (h3 : (rstrip s).getLast? ≠ some '&')
    (h4 : (lstrip s).head? ≠ some '%') : PlainLine s := by
  refine ⟨?_, h2, h3, h4⟩
  intro hb
  obtain ⟨c, hc, hs⟩ := h1
  rw [hb c hc] at hs
  exact absurd hs (by simp)

/-- A file with a quoted line name and upper case letters: the elements are q, d, q, q. -/
example (N : Nums R) : ∃ h ids, parseFile N
      ["Q: QUAD\n".toList, "D: drift\n".toList, "CELL: line=(d,q)\n".toList, "\"Top\":LINE=(q,Cell,q)\n".toList]
      "TOP".toList 5 = some (.ok h) ∧ Unfolds h (h.line 0).seq ids ∧
    ids.map (fun e => (h.elem e).name) = ["q".toList, "d".toList, "q".toList, "q".toList] := by
  have hn : ∀ t ∈ ["q".toList, "d".toList, "cell".toList], NameText t := by
    intro t ht
    have h : ∀ t ∈ ["q".toList, "d".toList, "cell".toList],
        (∀ c ∈ t, isSpace c = false ∧ c ≠ ',' ∧ c ≠ ')' ∧ c ≠ '(' ∧ c.isDigit = false) ∧ t ≠ [] := by decide
    exact ex_nameText t (h t ht).1 (h t ht).2
  have hok : ∀ l ∈ exFile, l.Ok := by
    intro l hl
    simp only [exFile, List.mem_cons, List.not_mem_nil, or_false] at hl
    rcases hl with rfl | rfl | rfl | rfl
    · exact ⟨ex_plain ⟨'q', by decide, by decide⟩ (by decide) (by decide) (by decide), by decide⟩
    · exact ⟨ex_plain ⟨'d', by decide, by decide⟩ (by decide) (by decide) (by decide), by decide⟩
    · refine ⟨ex_plain ⟨'c', by decide, by decide⟩ (by decide) (by decide) (by decide), by decide, by simp [Blank]; decide,
        by simp, ?_, by simp [Blank]; decide⟩
      intro i hi
      simp only [List.mem_cons, List.not_mem_nil, or_false] at hi
      rcases hi with rfl | rfl
      exacts [hn _ (by decide), hn _ (by decide)]
    · refine ⟨ex_plain ⟨'t', by decide, by decide⟩ (by decide) (by decide) (by decide), by decide, by simp [Blank],
        by simp, ?_, by simp [Blank]; decide⟩
      intro i hi
      simp only [List.mem_cons, List.not_mem_nil, or_false] at hi
      rcases hi with rfl | rfl | rfl
      exacts [hn _ (by decide), hn _ (by decide), hn _ (by decide)]
  have he : Expands (lineOf exFile) ["q".toList, "cell".toList, "q".toList]
      ["q".toList, "d".toList, "q".toList, "q".toList] ["cell".toList] :=
    .elem (by decide) (.line (its := ["d".toList, "q".toList]) (as := ["d".toList, "q".toList]) (us := []) (vs := [])
      (by decide) (.elem (n := "d".toList) (by decide) (.elem (n := "q".toList) (by decide) .nil))
      (.elem (n := "q".toList) (by decide) .nil))
  obtain ⟨h, ids, a, b, d⟩ := file_sequence_partial N exFile hok
    ["Q: QUAD\n".toList, "D: drift\n".toList, "CELL: line=(d,q)\n".toList, "\"Top\":LINE=(q,Cell,q)\n".toList]
    (by decide) "TOP".toList (by decide)
    (fun n => (n, if n = "q".toList then "quad".toList else "drift".toList, [])) _ _ _ (by decide) he (by decide)
    (fun n hn => ex_defs N n (by
      have : ∀ n ∈ ["q".toList, "d".toList, "q".toList, "q".toList], n ∈ ["q".toList, "d".toList] := by decide
      exact this n hn)) 5 (by decide)
  refine ⟨h, ids, a, b, ?_⟩
  have := congrArg (List.map Prod.fst) d
  simpa [edata, Function.comp_def] using this

end Verif.Lte
