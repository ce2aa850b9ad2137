import Verif.Sdds.SpecWrite
import Verif.Sdds.LemmasHeader
import Verif.Sdds.LemmasRead4

/-!
# Lemmas on the writer: the header it writes is a well-formed header
-/

set_option linter.unusedSimpArgs false
set_option linter.unusedVariables false

namespace Verif.Sdds

/-- An entry that is left out when empty. -/
def optAttr (k : Str) (q : Bool) (v : Str) : List Attr := if v = [] then [] else [⟨k, v, q⟩]

def fixedAttr (ft : FloatText) : Option PyVal → List Attr
  | none => []
  | some v => if v.truthy then match v with
      | .int i => [⟨"fixed_value".toList, intStr i, false⟩]
      | .float x => [⟨"fixed_value".toList, ft.fmt x, false⟩]
      | .str s => [⟨"fixed_value".toList, s, true⟩]
    else []

def paramAttrs (ft : FloatText) (p : WParam) : List Attr :=
  optAttr "name".toList false p.name ++ optAttr "type".toList false p.type ++
  optAttr "units".toList true p.units ++ optAttr "symbol".toList true p.symbol ++
  optAttr "format_string".toList true p.formatStr ++ optAttr "description".toList true p.description ++
  fixedAttr ft p.fixed

def colAttrs (c : WCol) : List Attr :=
  optAttr "name".toList false c.name ++ optAttr "type".toList false c.type ++
  optAttr "units".toList true c.units ++ optAttr "symbol".toList true c.symbol ++
  optAttr "format_string".toList true c.formatStr ++ optAttr "description".toList true c.description

def docOf (ft : FloatText) (w : Writer) : Doc :=
  ⟨["# little-endian".toList],
   w.params.map (fun p => ⟨.param, paramAttrs ft p, 0⟩) ++ w.cols.map (fun c => ⟨.col, colAttrs c, 1⟩),
   [⟨"mode".toList, "binary".toList, false⟩]⟩

theorem attr_eq (k : Str) (k' : String) (hk : k'.toList = k ++ ['=']) (q : Bool) (v : Str) :
    attr k' q v = (optAttr k q v).flatMap Attr.text := by
  unfold attr optAttr
  by_cases h : v = []
  · simp [h]
  · rw [if_neg h, if_neg h, hk]
    cases q <;> simp [Attr.text]

theorem PyVal.text_ne {ft : FloatText} {v : PyVal} (h : v.truthy = true) (hf : ∀ x, v = .float x → ft.fmt x ≠ []) :
    fixedText ft (some v) ≠ [] := by
  unfold fixedText
  simp only [h, if_true]
  cases v with
  | int i => cases i <;> simp [intStr, natStr_ne_nil]
  | float x => exact hf x rfl
  | str s => simp

theorem fixed_eq {ft : FloatText} {o : Option PyVal}
    (hf : ∀ x, o = some (.float x) → (PyVal.float x).truthy = true → ft.fmt x ≠ []) :
    attr "fixed_value=" false (fixedText ft o) = (fixedAttr ft o).flatMap Attr.text := by
  cases o with
  | none => rfl
  | some v =>
    by_cases h : v.truthy = true
    · have hne := PyVal.text_ne (ft := ft) h (fun x hx => hf x (by rw [hx]) (hx ▸ h))
      unfold attr
      rw [if_neg hne]
      unfold fixedText fixedAttr
      simp only [h, if_true]
      cases v <;> simp [Attr.text]
    · have h : v.truthy = false := by simpa using h
      simp [fixedText, fixedAttr, h, attr]

theorem paramLine_eq {ft : FloatText} {p : WParam}
    (hf : ∀ x, p.fixed = some (.float x) → (PyVal.float x).truthy = true → ft.fmt x ≠ []) :
    paramLine ft p = nlText "&parameter".toList (paramAttrs ft p) 0 := by
  unfold paramLine paramAttrs
  rw [fixed_eq hf, attr_eq "name".toList "name=" (by decide), attr_eq "type".toList "type=" (by decide),
    attr_eq "units".toList "units=" (by decide), attr_eq "symbol".toList "symbol=" (by decide),
    attr_eq "format_string".toList "format_string=" (by decide),
    attr_eq "description".toList "description=" (by decide)]
  simp [nlText]

theorem colLine_eq {c : WCol} (h : c.fieldLen = 0) :
    colLine c = nlText "&column".toList (colAttrs c) 1 := by
  unfold colLine colAttrs
  rw [attr_eq "name".toList "name=" (by decide), attr_eq "type".toList "type=" (by decide),
    attr_eq "units".toList "units=" (by decide), attr_eq "symbol".toList "symbol=" (by decide),
    attr_eq "format_string".toList "format_string=" (by decide),
    attr_eq "description".toList "description=" (by decide)]
  simp [nlText, h, attr]

theorem headBang : ["# little-endian".toList].flatMap (fun c => '!' :: c ++ ['\n']) = "!# little-endian\n".toList := by
  decide

theorem dataLine : nlText "&data".toList [⟨"mode".toList, "binary".toList, false⟩] 0 =
    "&data mode=".toList ++ "binary".toList ++ ", &end\n".toList := by decide

theorem assemble {a b b' c c' d1 d2 d3 d e e' : Str} (hb : b = b') (hc : c ++ e = c' ++ e') (hd : d = d1 ++ d2 ++ d3) :
    a ++ b' ++ c' ++ e' ++ d1 ++ d2 ++ d3 = a ++ b ++ (c ++ e) ++ d := by
  rw [hb, hc, hd]; simp

theorem paramLines_eq {ft : FloatText} {w : Writer} (h : HeaderOk ft w) :
    w.params.map (paramLine ft) = w.params.map fun p => nlText "&parameter".toList (paramAttrs ft p) 0 := by
  apply List.map_congr_left
  intro p hp
  refine paramLine_eq ?_
  intro x hx ht
  exact CleanWord.ne (FloatText.Good.word (And.right (h.fixed p hp (.float x) hx ht)))

theorem colLines_eq {ft : FloatText} {w : Writer} (h : HeaderOk ft w) :
    w.cols.map colLine = w.cols.map fun c => nlText "&column".toList (colAttrs c) 1 := by
  apply List.map_congr_left
  intro c hc
  exact colLine_eq (h.cols c hc).fieldLen

theorem headerText_eq {ft : FloatText} {w : Writer} (h : HeaderOk ft w) :
    headerText ft w "binary".toList = (docOf ft w).text := by
  unfold headerText Doc.text docOf
  rw [paramLines_eq h, colLines_eq h, List.flatMap_append, List.flatMap_map, List.flatMap_map]
  exact assemble headBang rfl dataLine

theorem CleanText.attr {s : Str} (h : CleanText s) {k : Str} (hk : k ∈ knownKeys) : Attr.Ok ⟨k, s, true⟩ :=
  ⟨hk, h.ascii, h.line, h.noQuote, h.noEsc, h.noComma, by simp⟩

theorem CleanWord.attr {s : Str} (h : CleanWord s) {k : Str} (hk : k ∈ knownKeys) (q : Bool) : Attr.Ok ⟨k, s, q⟩ :=
  ⟨hk, h.ascii, h.line, h.noQuote, h.noEsc, h.noComma, fun _ => h.noSpace⟩

theorem cleanWord_digits {s : Str} (hne : s ≠ []) (h : ∀ c ∈ s, c.isDigit = true ∨ c = '-') : CleanWord s := by
  have key : ∀ c ∈ s, c.toNat < 128 ∧ c ≠ '\n' ∧ c ≠ '"' ∧ c ≠ '\\' ∧ c ≠ ',' ∧ lexSpace c = false := by
    intro c hc
    rcases h c hc with h | rfl
    · have h1 : c.toNat < 128 := by
        unfold Char.isDigit at h
        simp only [ge_iff_le, Bool.and_eq_true, decide_eq_true_eq] at h
        have := h.2
        have : c.val.toNat ≤ 57 := by exact_mod_cast this
        exact lt_of_le_of_lt this (by decide)
      refine ⟨h1, digit_ne h rfl, digit_ne h rfl, digit_ne h rfl, digit_ne h rfl, ?_⟩
      simp only [lexSpace, beq_eq_false_iff_ne.mpr (digit_ne h (rfl : ' '.isDigit = false)),
        beq_eq_false_iff_ne.mpr (digit_ne h (rfl : '\t'.isDigit = false)),
        beq_eq_false_iff_ne.mpr (digit_ne h (rfl : '\r'.isDigit = false)),
        beq_eq_false_iff_ne.mpr (digit_ne h (rfl : '\n'.isDigit = false)), Bool.or_false]
    · decide
  exact {
    ascii := fun c hc => (key c hc).1
    line := fun hc => (key _ hc).2.1 rfl
    noQuote := fun hc => (key _ hc).2.2.1 rfl
    noEsc := fun hc => (key _ hc).2.2.2.1 rfl
    noComma := fun x hx => (key x (List.mem_of_getLast? hx)).2.2.2.2.1
    ne := hne
    noSpace := fun c hc => (key c hc).2.2.2.2.2 }

theorem cleanWord_intStr (i : Int) : CleanWord (intStr i) := by
  cases i with
  | ofNat n =>
    exact cleanWord_digits (natStr_ne_nil n) fun c hc => Or.inl (natStr_digits n c hc)
  | negSucc n =>
    refine cleanWord_digits (by simp [intStr]) fun c hc => ?_
    simp only [intStr, List.mem_cons] at hc
    rcases hc with rfl | hc
    · exact Or.inr rfl
    · exact Or.inl (natStr_digits _ c hc)

theorem writeTypes_clean : ∀ t ∈ writeTypes, t ≠ [] ∧
    (∀ c ∈ t, c.toNat < 128 ∧ c ≠ '\n' ∧ c ≠ '"' ∧ c ≠ '\\' ∧ c ≠ ',' ∧ lexSpace c = false) ∧ t ∈ dataTypes := by
  decide

theorem cleanWord_type {t : Str} (h : t ∈ writeTypes) : CleanWord t := by
  obtain ⟨hne, key, _⟩ := writeTypes_clean t h
  exact {
    ascii := fun c hc => (key c hc).1
    line := fun hc => (key _ hc).2.1 rfl
    noQuote := fun hc => (key _ hc).2.2.1 rfl
    noEsc := fun hc => (key _ hc).2.2.2.1 rfl
    noComma := fun x hx => (key x (List.mem_of_getLast? hx)).2.2.2.2.1
    ne := hne
    noSpace := fun c hc => (key c hc).2.2.2.2.2 }

theorem mem_optAttr {k v : Str} {q : Bool} {a : Attr} (h : a ∈ optAttr k q v) : a = ⟨k, v, q⟩ := by
  unfold optAttr at h
  split at h
  · cases h
  · exact List.mem_singleton.mp h

theorem fixedAttr_ok {ft : FloatText} {p : WParam}
    (h : ∀ v, p.fixed = some v → v.truthy = true → FixedOk ft p.type v) :
    ∀ a ∈ fixedAttr ft p.fixed, a.Ok := by
  intro a ha
  cases hp : p.fixed with
  | none => rw [hp] at ha; cases ha
  | some v =>
    rw [hp] at ha
    by_cases ht : v.truthy = true
    · have hok := h v hp ht
      simp only [fixedAttr, ht, if_true] at ha
      cases v with
      | int i => rw [List.mem_singleton.mp ha]; exact (cleanWord_intStr i).attr (by decide) _
      | float x => rw [List.mem_singleton.mp ha]; exact hok.2.word.attr (by decide) _
      | str s => rw [List.mem_singleton.mp ha]; exact hok.2.attr (by decide)
    · have ht : v.truthy = false := by simpa using ht
      simp only [fixedAttr, ht, Bool.false_eq_true, if_false] at ha
      cases ha

theorem docOf_ok {ft : FloatText} {w : Writer} (h : HeaderOk ft w) : (docOf ft w).Ok := by
  refine ⟨?_, ?_, ?_⟩
  · intro c hc
    rw [List.mem_singleton.mp hc]
    exact ⟨by unfold Ascii; decide, by decide⟩
  · intro n hn a ha
    rcases List.mem_append.mp hn with hn | hn
    · obtain ⟨p, hp, rfl⟩ := List.mem_map.mp hn
      have hc := h.params p hp
      simp only [paramAttrs, List.mem_append] at ha
      rcases ha with (((((ha | ha) | ha) | ha) | ha) | ha) | ha
      · rw [mem_optAttr ha]; exact hc.name.attr (by decide) _
      · rw [mem_optAttr ha]; exact (cleanWord_type hc.type).attr (by decide) _
      · rw [mem_optAttr ha]; exact hc.units.attr (by decide)
      · rw [mem_optAttr ha]; exact hc.symbol.attr (by decide)
      · rw [mem_optAttr ha]; exact hc.formatStr.attr (by decide)
      · rw [mem_optAttr ha]; exact hc.description.attr (by decide)
      · exact fixedAttr_ok (h.fixed p hp) a ha
    · obtain ⟨c, hp, rfl⟩ := List.mem_map.mp hn
      have hc := h.cols c hp
      simp only [colAttrs, List.mem_append] at ha
      rcases ha with ((((ha | ha) | ha) | ha) | ha) | ha
      · rw [mem_optAttr ha]; exact hc.name.attr (by decide) _
      · rw [mem_optAttr ha]; exact (cleanWord_type hc.type).attr (by decide) _
      · rw [mem_optAttr ha]; exact hc.units.attr (by decide)
      · rw [mem_optAttr ha]; exact hc.symbol.attr (by decide)
      · rw [mem_optAttr ha]; exact hc.formatStr.attr (by decide)
      · rw [mem_optAttr ha]; exact hc.description.attr (by decide)
  · intro a ha
    rw [List.mem_singleton.mp ha]
    refine ⟨⟨by decide, by unfold Ascii; decide, by decide, by decide, by decide, ?_, fun _ => by decide⟩, by decide⟩
    intro x hx
    have : x = 'y' := by
      have : ("binary".toList).getLast? = some 'y' := by decide
      rw [this] at hx
      exact (Option.some.inj hx).symm
    rw [this]; decide

theorem attrVal_append (a b : List Attr) (k : Str) : attrVal (a ++ b) k = (attrVal b k).or (attrVal a k) := by
  unfold attrVal
  rw [List.filter_append, List.getLast?_append]
  cases (b.filter fun a => a.key = k).getLast? <;> rfl

theorem attrVal_optAttr (k key : Str) (q : Bool) (v : Str) :
    attrVal (optAttr k q v) key = if k = key ∧ v ≠ [] then some v else none := by
  unfold optAttr attrVal
  by_cases hv : v = []
  · simp [hv]
  · by_cases hk : k = key
    · simp [hv, hk]
    · simp [hv, hk]

theorem attrVal_single_ne (a : Attr) (key : Str) (h : a.key ≠ key) : attrVal [a] key = none := by
  unfold attrVal
  rw [List.filter_cons_of_neg (by simpa using h)]
  rfl

theorem attrVal_single (a : Attr) : attrVal [a] a.key = some a.val := by
  unfold attrVal
  rw [List.filter_cons_of_pos (by simp)]
  rfl

theorem attrVal_fixedAttr (ft : FloatText) (o : Option PyVal) (key : Str) (h : "fixed_value".toList ≠ key) :
    attrVal (fixedAttr ft o) key = none := by
  cases o with
  | none => rfl
  | some v =>
    by_cases ht : v.truthy = true
    · cases v with
      | int i => simp only [fixedAttr, ht, if_true]; exact attrVal_single_ne _ _ h
      | float i => simp only [fixedAttr, ht, if_true]; exact attrVal_single_ne _ _ h
      | str i => simp only [fixedAttr, ht, if_true]; exact attrVal_single_ne _ _ h
    · have ht : v.truthy = false := by simpa using ht
      simp only [fixedAttr, ht, Bool.false_eq_true, if_false]
      rfl

theorem getD_opt (v : Str) : (if True ∧ v ≠ [] then some v else none : Option Str).getD [] = v := by
  by_cases h : v = [] <;> simp [h]

theorem attrVal_opt_ne {k key : Str} (h : k ≠ key) (q : Bool) (v : Str) : attrVal (optAttr k q v) key = none := by
  rw [attrVal_optAttr, if_neg (fun hh => h hh.1)]

theorem attrVal_opt_eq (k : Str) (q : Bool) (v : Str) : (attrVal (optAttr k q v) k).getD [] = v := by
  rw [attrVal_optAttr]
  by_cases h : v = [] <;> simp [h]

/-- Six optional entries with different keys. -/
theorem six {k1 k2 k3 k4 k5 k6 : Str} (h : [k1, k2, k3, k4, k5, k6].Nodup) (v1 v2 v3 v4 v5 v6 : Str) :
    let as := optAttr k1 false v1 ++ optAttr k2 false v2 ++ optAttr k3 true v3 ++ optAttr k4 true v4 ++
      optAttr k5 true v5 ++ optAttr k6 true v6
    (attrVal as k1).getD [] = v1 ∧ (attrVal as k2).getD [] = v2 ∧ (attrVal as k3).getD [] = v3 ∧
    (attrVal as k4).getD [] = v4 ∧ (attrVal as k5).getD [] = v5 ∧ (attrVal as k6).getD [] = v6 ∧
    ∀ key, key ∉ [k1, k2, k3, k4, k5, k6] → attrVal as key = none := by
  simp only [List.nodup_cons, List.mem_cons, not_or, List.not_mem_nil, not_false_eq_true, and_true,
    List.nodup_nil] at h
  obtain ⟨⟨h12, h13, h14, h15, h16⟩, ⟨h23, h24, h25, h26⟩, ⟨h34, h35, h36⟩, ⟨h45, h46⟩, h56⟩ := h
  simp only [attrVal_append]
  refine ⟨?_, ?_, ?_, ?_, ?_, ?_, ?_⟩
  · rw [attrVal_opt_ne (Ne.symm h12), attrVal_opt_ne (Ne.symm h13), attrVal_opt_ne (Ne.symm h14),
      attrVal_opt_ne (Ne.symm h15), attrVal_opt_ne (Ne.symm h16)]
    simp only [Option.none_or]; exact attrVal_opt_eq _ _ _
  · rw [attrVal_opt_ne h12, attrVal_opt_ne (Ne.symm h23), attrVal_opt_ne (Ne.symm h24),
      attrVal_opt_ne (Ne.symm h25), attrVal_opt_ne (Ne.symm h26)]
    simp only [Option.none_or, Option.or_none]; exact attrVal_opt_eq _ _ _
  · rw [attrVal_opt_ne h13, attrVal_opt_ne h23, attrVal_opt_ne (Ne.symm h34),
      attrVal_opt_ne (Ne.symm h35), attrVal_opt_ne (Ne.symm h36)]
    simp only [Option.none_or, Option.or_none]; exact attrVal_opt_eq _ _ _
  · rw [attrVal_opt_ne h14, attrVal_opt_ne h24, attrVal_opt_ne h34,
      attrVal_opt_ne (Ne.symm h45), attrVal_opt_ne (Ne.symm h46)]
    simp only [Option.none_or, Option.or_none]; exact attrVal_opt_eq _ _ _
  · rw [attrVal_opt_ne h15, attrVal_opt_ne h25, attrVal_opt_ne h35, attrVal_opt_ne h45,
      attrVal_opt_ne (Ne.symm h56)]
    simp only [Option.none_or, Option.or_none]; exact attrVal_opt_eq _ _ _
  · rw [attrVal_opt_ne h16, attrVal_opt_ne h26, attrVal_opt_ne h36, attrVal_opt_ne h46, attrVal_opt_ne h56]
    simp only [Option.none_or, Option.or_none]; exact attrVal_opt_eq _ _ _
  · intro key hk
    simp only [List.mem_cons, not_or, List.not_mem_nil, not_false_eq_true, and_true] at hk
    obtain ⟨h1, h2, h3, h4, h5, h6⟩ := hk
    rw [attrVal_opt_ne (Ne.symm h1), attrVal_opt_ne (Ne.symm h2), attrVal_opt_ne (Ne.symm h3),
      attrVal_opt_ne (Ne.symm h4), attrVal_opt_ne (Ne.symm h5), attrVal_opt_ne (Ne.symm h6)]
    rfl

theorem sixKeys : ["name".toList, "type".toList, "units".toList, "symbol".toList, "format_string".toList,
    "description".toList].Nodup := by decide

theorem colOf_attrs {c : WCol} (h : c.Clean) : colOf (colAttrs c) = .ok (readCol c) := by
  obtain ⟨h1, h2, h3, h4, h5, h6, h7⟩ :=
    six sixKeys c.name c.type c.units c.symbol c.formatStr c.description
  have hfl := h7 "field_length".toList (by decide)
  unfold colOf colAttrs
  simp only [h1, h2, h3, h4, h5, h6, hfl]
  rw [if_neg (by simpa using (writeTypes_clean _ h.type).2.2), if_neg (by simp)]
  rfl

/-- Text of a fixed value without quotes. -/
def plainText (ft : FloatText) : PyVal → Str
  | .int i => intStr i
  | .float x => ft.fmt x
  | .str s => s

theorem fixedAttr_val (ft : FloatText) (o : Option PyVal) :
    attrVal (fixedAttr ft o) "fixed_value".toList = o.bind fun v =>
      if v.truthy then some (plainText ft v) else none := by
  cases o with
  | none => rfl
  | some v =>
    by_cases ht : v.truthy = true
    · cases v with
      | int i => simp only [fixedAttr, ht, if_true, Option.bind_some]; exact attrVal_single _
      | float i => simp only [fixedAttr, ht, if_true, Option.bind_some]; exact attrVal_single _
      | str i => simp only [fixedAttr, ht, if_true, Option.bind_some]; exact attrVal_single _
    · have ht : v.truthy = false := by simpa using ht
      simp only [fixedAttr, ht, Bool.false_eq_true, if_false, Option.bind_some]
      rfl

theorem parseFixed_ok {ft : FloatText} {type : Str} {v : PyVal} (ht : v.truthy = true) (h : FixedOk ft type v) :
    parseFixed ft type (plainText ft v) =
      .ok (fixedVal v) := by
  cases v with
  | int i =>
    change parseFixed ft type (intStr i) = _
    unfold parseFixed
    rw [if_neg (cleanWord_intStr i).ne, if_pos (h.symm), parseInt_intStr]
    rfl
  | float x =>
    obtain ⟨h1, h2⟩ := h
    change parseFixed ft type (ft.fmt x) = _
    unfold parseFixed
    rw [if_neg h2.word.ne, if_neg (by rw [h1]; decide), if_pos h1, h2.back]
    rfl
  | str s =>
    obtain ⟨h1, h2⟩ := h
    change parseFixed ft type (s) = _
    unfold parseFixed
    have : s ≠ [] := by
      rintro rfl
      simp [PyVal.truthy] at ht
    rw [if_neg this, if_neg (by rw [h1]; decide), if_neg (by rw [h1]; decide)]
    rfl

theorem paramOf_attrs {ft : FloatText} {p : WParam} (h : p.Clean)
    (hf : ∀ v, p.fixed = some v → v.truthy = true → FixedOk ft p.type v) :
    paramOf ft (paramAttrs ft p) = .ok (readParam p) := by
  obtain ⟨h1, h2, h3, h4, h5, h6, h7⟩ :=
    six sixKeys p.name p.type p.units p.symbol p.formatStr p.description
  have hne : ∀ key, "fixed_value".toList ≠ key → attrVal (fixedAttr ft p.fixed) key = none :=
    fun key hk => attrVal_fixedAttr ft _ key hk
  have hfv := h7 "fixed_value".toList (by decide)
  unfold paramOf paramAttrs
  rw [attrVal_append, hfv, Option.or_none, fixedAttr_val]
  simp only [attrVal_append] at h1 h2 h3 h4 h5 h6 ⊢
  simp only [hne "name".toList (by decide), hne "type".toList (by decide), hne "units".toList (by decide),
    hne "symbol".toList (by decide), hne "format_string".toList (by decide), hne "description".toList (by decide),
    Option.none_or, h1, h2, h3, h4, h5, h6]
  have htype : p.type ∈ dataTypes := (writeTypes_clean _ h.type).2.2
  unfold readParam
  cases hp : p.fixed with
  | none =>
    simp only [Option.bind_none]
    rw [if_pos htype]
  | some v =>
    by_cases ht : v.truthy = true
    · simp only [Option.bind_some, ht, if_true]
      rw [parseFixed_ok ht (hf v hp ht)]
      rfl
    · have ht : v.truthy = false := by simpa using ht
      simp only [Option.bind_some, ht, Bool.false_eq_true, if_false]
      rw [if_pos htype]

theorem mapM_map_ok {α β γ : Type} (f : β → Except PyErr γ) (g : α → β) (k : α → γ) (l : List α)
    (h : ∀ a ∈ l, f (g a) = .ok (k a)) : (l.map g).mapM f = .ok (l.map k) := by
  rw [List.mapM_map]
  exact mapM_ok_map _ k l h

/-- Opening a file that starts with the header of a writer. -/
theorem open_header {ft : FloatText} {w : Writer} (h : HeaderOk ft w) (body : Bytes) {fuel : Nat}
    (hfuel : w.params.length + w.cols.length + 3 ≤ fuel) (buffer : Bool) (maxStr : Nat) :
    openSdds ft fuel buffer maxStr (utf8 (headerText ft w "binary".toList) ++ body) =
      some (.ok {
        file := utf8 (headerText ft w "binary".toList) ++ body, buffer := buffer, maxStr := maxStr,
        headerEnd := (utf8 (headerText ft w "binary".toList)).length,
        lineCount := w.params.length + w.cols.length + 2,
        params := w.params.map readParam, cols := w.cols.map readCol, ascii := false,
        noRowCounts := false }) := by
  rw [headerText_eq h]
  have hp : ((docOf ft w).attrsOf .param).mapM (paramOf ft) = .ok (w.params.map readParam) := by
    have : (docOf ft w).attrsOf .param = w.params.map (paramAttrs ft) := by
      unfold Doc.attrsOf docOf
      simp only [List.filter_append, List.map_append]
      rw [List.filter_eq_self.mpr (by simp), List.filter_eq_nil_iff.mpr (by simp)]
      simp
    rw [this]
    exact mapM_map_ok _ _ _ _ fun p hp => paramOf_attrs (h.params p hp) (h.fixed p hp)
  have hc : ((docOf ft w).attrsOf .col).mapM colOf = .ok (w.cols.map readCol) := by
    have : (docOf ft w).attrsOf .col = w.cols.map colAttrs := by
      unfold Doc.attrsOf docOf
      simp only [List.filter_append, List.map_append]
      rw [List.filter_eq_nil_iff.mpr (by simp), List.filter_eq_self.mpr (by simp)]
      simp
    rw [this]
    exact mapM_map_ok _ _ _ _ fun c hc => colOf_attrs (h.cols c hc)
  rw [open_doc ft (docOf_ok h) body (fuel := fuel) (by simp [docOf]; omega) buffer maxStr hp hc
    (show (attrVal [⟨"mode".toList, "binary".toList, false⟩] "mode".toList).getD "binary".toList ≠ "ascii".toList by
      decide)]
  congr 3
  simp [docOf]

end Verif.Sdds
