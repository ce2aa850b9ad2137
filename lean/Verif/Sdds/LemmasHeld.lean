import Verif.Sdds.LemmasMulti

/-!
# Lemmas on the writer: headers with text of other kinds
-/

namespace Verif.Sdds

/-! ## Conditions -/

/-- Fixed values as in `FixedOk`, with any text that ends at its closing quote. -/
def FixedWide (ft : FloatText) (type : Str) : PyVal → Prop
  | .float x => type = "double".toList ∧ ft.Good x
  | .int _ => type = "long".toList ∨ type = "short".toList
  | .str s => type = "string".toList ∧ QuotedText s

/-- The texts of a parameter in the order they are written. -/
def WParam.entries (p : WParam) : List Str :=
  [p.name, p.type, p.units, p.symbol, p.formatStr, p.description] ++ match p.fixed with
    | some (.str s) => [s]
    | _ => []

/-- The texts of a column in the order they are written. -/
def WCol.entries (c : WCol) : List Str := [c.name, c.type, c.units, c.symbol, c.formatStr, c.description]

/-- Number of line ends in the texts of a writer. -/
def Writer.lineEnds (w : Writer) : Nat :=
  (w.params.flatMap fun p => p.entries.flatten).count '\n' + (w.cols.flatMap fun c => c.entries.flatten).count '\n'

/-- As `WParam.Clean`, with any text that ends at its closing quote. -/
structure WParam.Wide (p : WParam) : Prop where
  name : CleanWord p.name
  type : p.type ∈ writeTypes
  units : QuotedText p.units
  symbol : QuotedText p.symbol
  formatStr : QuotedText p.formatStr
  description : QuotedText p.description

/-- As `WCol.Clean`, with any text that ends at its closing quote. -/
structure WCol.Wide (c : WCol) : Prop where
  name : CleanWord c.name
  type : c.type ∈ writeTypes
  units : QuotedText c.units
  symbol : QuotedText c.symbol
  formatStr : QuotedText c.formatStr
  description : QuotedText c.description
  fieldLen : c.fieldLen = 0

/-- As `HeaderOk`, with any text that ends at its closing quote. -/
structure HeaderQuoted (ft : FloatText) (w : Writer) : Prop where
  params : ∀ p ∈ w.params, p.Wide
  cols : ∀ c ∈ w.cols, c.Wide
  fixed : ∀ p ∈ w.params, ∀ v, p.fixed = some v → v.truthy = true → FixedWide ft p.type v

/-- The same, and every definition is read to its end. -/
structure HeaderWide (ft : FloatText) (w : Writer) : Prop extends HeaderQuoted ft w where
  paramLines : ∀ p ∈ w.params, LinesOk p.entries
  colLines : ∀ c ∈ w.cols, LinesOk c.entries

/-! ## What is read -/

/-- A fixed value as the reader takes it. -/
def heldFixed : PyVal → Fixed
  | .float x => .float x
  | .int i => .int i
  | .str s => .str (heldText s)

def heldParam (p : WParam) : ParamField :=
  ⟨p.name, heldText p.symbol, heldText p.units, heldText p.description, heldText p.formatStr, p.type,
    match p.fixed with
    | some v => if v.truthy then some (heldFixed v) else none
    | none => none⟩

def heldCol (c : WCol) : ColField :=
  ⟨c.name, heldText c.symbol, heldText c.units, heldText c.description, heldText c.formatStr, c.type, none⟩

theorem QuotedText.wide {s : Str} (h : QuotedText s) {k : Str} (hk : k ∈ knownKeys) : Attr.Wide ⟨k, s, true⟩ :=
  ⟨hk, h⟩

theorem Attr.Ok.wide {k s : Str} (h : Attr.Ok ⟨k, s, false⟩) : Attr.Wide ⟨k, s, false⟩ := ⟨h.key, h⟩

theorem heldText_nil : heldText [] = [] := by decide +kernel

/-! ## Entries -/

theorem attrVal_held_ne {k key : Str} (h : k ≠ key) (q : Bool) (v : Str) :
    attrVal ((optAttr k q v).map Attr.held) key = none := by
  unfold optAttr
  split_ifs
  · rfl
  · exact attrVal_single_ne _ _ h

theorem attrVal_held_plain (k : Str) (v : Str) : (attrVal ((optAttr k false v).map Attr.held) k).getD [] = v := by
  unfold optAttr
  split_ifs with h
  · rw [h]; rfl
  · exact congrArg (·.getD []) (attrVal_single (Attr.held ⟨k, v, false⟩))

theorem attrVal_held_quoted (k : Str) (v : Str) :
    (attrVal ((optAttr k true v).map Attr.held) k).getD [] = heldText v := by
  unfold optAttr
  split_ifs with h
  · rw [h, heldText_nil]; rfl
  · exact congrArg (·.getD []) (attrVal_single (Attr.held ⟨k, v, true⟩))

/-- Six lists of entries with different keys. -/
theorem sixLists {k1 k2 k3 k4 k5 k6 : Str} (h : [k1, k2, k3, k4, k5, k6].Nodup) (l1 l2 l3 l4 l5 l6 : List Attr)
    (g1 : ∀ key, k1 ≠ key → attrVal l1 key = none) (g2 : ∀ key, k2 ≠ key → attrVal l2 key = none)
    (g3 : ∀ key, k3 ≠ key → attrVal l3 key = none) (g4 : ∀ key, k4 ≠ key → attrVal l4 key = none)
    (g5 : ∀ key, k5 ≠ key → attrVal l5 key = none) (g6 : ∀ key, k6 ≠ key → attrVal l6 key = none) :
    let as := l1 ++ l2 ++ l3 ++ l4 ++ l5 ++ l6
    attrVal as k1 = attrVal l1 k1 ∧ attrVal as k2 = attrVal l2 k2 ∧ attrVal as k3 = attrVal l3 k3 ∧
    attrVal as k4 = attrVal l4 k4 ∧ attrVal as k5 = attrVal l5 k5 ∧ attrVal as k6 = attrVal l6 k6 ∧
    ∀ key, key ∉ [k1, k2, k3, k4, k5, k6] → attrVal as key = none := by
  simp only [List.nodup_cons, List.mem_cons, not_or, List.not_mem_nil, not_false_eq_true, and_true,
    List.nodup_nil] at h
  obtain ⟨⟨h12, h13, h14, h15, h16⟩, ⟨h23, h24, h25, h26⟩, ⟨h34, h35, h36⟩, ⟨h45, h46⟩, h56⟩ := h
  simp only [attrVal_append]
  refine ⟨?_, ?_, ?_, ?_, ?_, ?_, ?_⟩
  · rw [g2 _ (Ne.symm h12), g3 _ (Ne.symm h13), g4 _ (Ne.symm h14), g5 _ (Ne.symm h15), g6 _ (Ne.symm h16)]
    simp only [Option.none_or, Option.or_none]
  · rw [g1 _ h12, g3 _ (Ne.symm h23), g4 _ (Ne.symm h24), g5 _ (Ne.symm h25), g6 _ (Ne.symm h26)]
    simp only [Option.none_or, Option.or_none]
  · rw [g1 _ h13, g2 _ h23, g4 _ (Ne.symm h34), g5 _ (Ne.symm h35), g6 _ (Ne.symm h36)]
    simp only [Option.none_or, Option.or_none]
  · rw [g1 _ h14, g2 _ h24, g3 _ h34, g5 _ (Ne.symm h45), g6 _ (Ne.symm h46)]
    simp only [Option.none_or, Option.or_none]
  · rw [g1 _ h15, g2 _ h25, g3 _ h35, g4 _ h45, g6 _ (Ne.symm h56)]
    simp only [Option.none_or, Option.or_none]
  · rw [g1 _ h16, g2 _ h26, g3 _ h36, g4 _ h46, g5 _ h56]
    simp only [Option.none_or, Option.or_none]
  · intro key hk
    simp only [List.mem_cons, not_or, List.not_mem_nil, not_false_eq_true, and_true] at hk
    obtain ⟨h1, h2, h3, h4, h5, h6⟩ := hk
    rw [g1 _ (Ne.symm h1), g2 _ (Ne.symm h2), g3 _ (Ne.symm h3), g4 _ (Ne.symm h4), g5 _ (Ne.symm h5),
      g6 _ (Ne.symm h6)]
    rfl

/-- The six optional entries of parameters and columns. -/
theorem sixHeld (v1 v2 v3 v4 v5 v6 : Str) :
    let as := (optAttr "name".toList false v1 ++ optAttr "type".toList false v2 ++ optAttr "units".toList true v3 ++
      optAttr "symbol".toList true v4 ++ optAttr "format_string".toList true v5 ++
      optAttr "description".toList true v6).map Attr.held
    (attrVal as "name".toList).getD [] = v1 ∧ (attrVal as "type".toList).getD [] = v2 ∧
    (attrVal as "units".toList).getD [] = heldText v3 ∧ (attrVal as "symbol".toList).getD [] = heldText v4 ∧
    (attrVal as "format_string".toList).getD [] = heldText v5 ∧
    (attrVal as "description".toList).getD [] = heldText v6 ∧
    ∀ key, key ∉ ["name".toList, "type".toList, "units".toList, "symbol".toList, "format_string".toList,
      "description".toList] → attrVal as key = none := by
  simp only [List.map_append]
  obtain ⟨h1, h2, h3, h4, h5, h6, h7⟩ := sixLists sixKeys ((optAttr "name".toList false v1).map Attr.held)
    ((optAttr "type".toList false v2).map Attr.held) ((optAttr "units".toList true v3).map Attr.held)
    ((optAttr "symbol".toList true v4).map Attr.held) ((optAttr "format_string".toList true v5).map Attr.held)
    ((optAttr "description".toList true v6).map Attr.held) (fun _ h => attrVal_held_ne h _ _)
    (fun _ h => attrVal_held_ne h _ _) (fun _ h => attrVal_held_ne h _ _) (fun _ h => attrVal_held_ne h _ _)
    (fun _ h => attrVal_held_ne h _ _) (fun _ h => attrVal_held_ne h _ _)
  refine ⟨?_, ?_, ?_, ?_, ?_, ?_, h7⟩
  · rw [h1]; exact attrVal_held_plain _ _
  · rw [h2]; exact attrVal_held_plain _ _
  · rw [h3]; exact attrVal_held_quoted _ _
  · rw [h4]; exact attrVal_held_quoted _ _
  · rw [h5]; exact attrVal_held_quoted _ _
  · rw [h6]; exact attrVal_held_quoted _ _

theorem colOf_held {c : WCol} (h : c.Wide) : colOf ((colAttrs c).map Attr.held) = .ok (heldCol c) := by
  obtain ⟨h1, h2, h3, h4, h5, h6, h7⟩ := sixHeld c.name c.type c.units c.symbol c.formatStr c.description
  have hfl := h7 "field_length".toList (by decide)
  unfold colOf colAttrs
  simp only [h1, h2, h3, h4, h5, h6, hfl]
  rw [if_neg (by simpa using (writeTypes_clean _ h.type).2.2), if_neg (by simp)]
  rfl

theorem attrVal_heldFixed (ft : FloatText) (o : Option PyVal) (key : Str) (h : "fixed_value".toList ≠ key) :
    attrVal ((fixedAttr ft o).map Attr.held) key = none := by
  cases o with
  | none => rfl
  | some v =>
    by_cases ht : v.truthy = true
    · cases v <;> simp only [fixedAttr, ht, if_true] <;> exact attrVal_single_ne _ _ h
    · have ht : v.truthy = false := by simpa using ht
      simp only [fixedAttr, ht, Bool.false_eq_true, if_false]
      rfl

/-- Text of a fixed value as the reader takes it. -/
def heldPlain (ft : FloatText) : PyVal → Str
  | .int i => intStr i
  | .float x => ft.fmt x
  | .str s => heldText s

theorem fixedAttr_held (ft : FloatText) (o : Option PyVal) :
    attrVal ((fixedAttr ft o).map Attr.held) "fixed_value".toList = o.bind fun v =>
      if v.truthy then some (heldPlain ft v) else none := by
  cases o with
  | none => rfl
  | some v =>
    by_cases ht : v.truthy = true
    · cases v with
      | int i =>
        simp only [fixedAttr, ht, if_true, Option.bind_some]
        exact attrVal_single (Attr.held ⟨"fixed_value".toList, intStr i, false⟩)
      | float x =>
        simp only [fixedAttr, ht, if_true, Option.bind_some]
        exact attrVal_single (Attr.held ⟨"fixed_value".toList, ft.fmt x, false⟩)
      | str s =>
        simp only [fixedAttr, ht, if_true, Option.bind_some]
        exact attrVal_single (Attr.held ⟨"fixed_value".toList, s, true⟩)
    · have ht : v.truthy = false := by simpa using ht
      simp only [fixedAttr, ht, Bool.false_eq_true, if_false, Option.bind_some]
      rfl

theorem parseFixed_held {ft : FloatText} {type : Str} {v : PyVal} (h : FixedWide ft type v) :
    parseFixed ft type (heldPlain ft v) = .ok (heldFixed v) := by
  cases v with
  | int i =>
    change parseFixed ft type (intStr i) = _
    unfold parseFixed
    rw [if_neg (cleanWord_intStr i).ne, if_pos (h.symm), parseInt_intStr]
    rfl
  | float x =>
    obtain ⟨h1, h2⟩ := h
    change parseFixed ft type (ft.fmt x) = _
    unfold parseFixed
    rw [if_neg h2.word.ne, if_neg (by rw [h1]; decide), if_pos h1, h2.back]
    rfl
  | str s =>
    obtain ⟨h1, h2⟩ := h
    change parseFixed ft type (heldText s) = .ok (.str (heldText s))
    unfold parseFixed
    by_cases he : heldText s = []
    · rw [if_pos he, he]
    · rw [if_neg he, if_neg (by rw [h1]; decide), if_neg (by rw [h1]; decide)]

theorem paramOf_held {ft : FloatText} {p : WParam} (h : p.Wide)
    (hf : ∀ v, p.fixed = some v → v.truthy = true → FixedWide ft p.type v) :
    paramOf ft ((paramAttrs ft p).map Attr.held) = .ok (heldParam p) := by
  obtain ⟨h1, h2, h3, h4, h5, h6, h7⟩ := sixHeld p.name p.type p.units p.symbol p.formatStr p.description
  have hne : ∀ key, "fixed_value".toList ≠ key → attrVal ((fixedAttr ft p.fixed).map Attr.held) key = none :=
    fun key hk => attrVal_heldFixed ft _ key hk
  have hfv := h7 "fixed_value".toList (by decide)
  unfold paramOf paramAttrs
  rw [List.map_append, attrVal_append, hfv, Option.or_none, fixedAttr_held]
  simp only [attrVal_append]
  simp only [hne "name".toList (by decide), hne "type".toList (by decide), hne "units".toList (by decide),
    hne "symbol".toList (by decide), hne "format_string".toList (by decide), hne "description".toList (by decide),
    Option.none_or, h1, h2, h3, h4, h5, h6]
  have htype : p.type ∈ dataTypes := (writeTypes_clean _ h.type).2.2
  unfold heldParam
  cases hp : p.fixed with
  | none =>
    simp only [Option.bind_none]
    rw [if_pos htype]
  | some v =>
    by_cases ht : v.truthy = true
    · simp only [Option.bind_some, ht, if_true]
      rw [parseFixed_held (hf v hp ht)]
      rfl
    · have ht : v.truthy = false := by simpa using ht
      simp only [Option.bind_some, ht, Bool.false_eq_true, if_false]
      rw [if_pos htype]

/-! ## The file -/

theorem headerText_wide {ft : FloatText} {w : Writer} (h : HeaderQuoted ft w) :
    headerText ft w "binary".toList = (docOf ft w).text := by
  have hp : w.params.map (paramLine ft) = w.params.map fun p => nlText "&parameter".toList (paramAttrs ft p) 0 := by
    apply List.map_congr_left
    intro p hp
    refine paramLine_eq ?_
    intro x hx ht
    exact CleanWord.ne (FloatText.Good.word (And.right (h.fixed p hp (.float x) hx ht)))
  have hc : w.cols.map colLine = w.cols.map fun c => nlText "&column".toList (colAttrs c) 1 := by
    apply List.map_congr_left
    intro c hc
    exact colLine_eq (h.cols c hc).fieldLen
  unfold headerText Doc.text docOf
  rw [hp, hc, List.flatMap_append, List.flatMap_map, List.flatMap_map]
  exact assemble headBang rfl dataLine

theorem fixedAttr_wide {ft : FloatText} {p : WParam}
    (h : ∀ v, p.fixed = some v → v.truthy = true → FixedWide ft p.type v) :
    ∀ a ∈ fixedAttr ft p.fixed, a.Wide := by
  intro a ha
  cases hp : p.fixed with
  | none => rw [hp] at ha; cases ha
  | some v =>
    rw [hp] at ha
    by_cases ht : v.truthy = true
    · have hok := h v hp ht
      simp only [fixedAttr, ht, if_true] at ha
      cases v with
      | int i => rw [List.mem_singleton.mp ha]; exact ((cleanWord_intStr i).attr (by decide) _).wide
      | float x => rw [List.mem_singleton.mp ha]; exact (hok.2.word.attr (by decide) _).wide
      | str s => rw [List.mem_singleton.mp ha]; exact hok.2.wide (by decide)
    · have ht : v.truthy = false := by simpa using ht
      simp only [fixedAttr, ht, Bool.false_eq_true, if_false] at ha
      cases ha

theorem endsEarly_filter (vs : List Str) : EndsEarly (vs.filter fun v => v ≠ []) ↔ EndsEarly vs := by
  induction vs with
  | nil => rfl
  | cons v vs ih =>
    have hm : (∃ u ∈ vs.filter (fun v => v ≠ []), '\n' ∈ u) ↔ ∃ u ∈ vs, '\n' ∈ u := by
      constructor
      · rintro ⟨u, hu, h⟩
        exact ⟨u, List.mem_of_mem_filter hu, h⟩
      · rintro ⟨u, hu, h⟩
        refine ⟨u, List.mem_filter.mpr ⟨hu, ?_⟩, h⟩
        rw [decide_eq_true_eq]
        rintro rfl
        cases h
    by_cases hv : v = []
    · rw [List.filter_cons_of_neg (by simp [hv]), ih, hv]
      constructor
      · exact fun h => Or.inr (Or.inr h)
      · rintro (⟨a, b, e, -⟩ | ⟨h, -⟩ | h)
        · have := congrArg List.length e
          simp at this
        · have := h.length_le
          simp at this
        · exact h
    · rw [List.filter_cons_of_pos (by simp [hv])]
      unfold EndsEarly
      rw [hm, ih]

theorem endsEarly_last (vs : List Str) {u : Str} (hu : '\n' ∉ u) : EndsEarly (vs ++ [u]) ↔ EndsEarly vs := by
  induction vs with
  | nil =>
    refine ⟨?_, False.elim⟩
    rintro (⟨a, b, e, hb⟩ | ⟨-, x, hx, -⟩ | h)
    · exact hu (by rw [e]; simp [hb])
    · cases hx
    · exact h
  | cons v vs ih =>
    rw [List.cons_append]
    unfold EndsEarly
    rw [ih]
    have hm : (∃ x ∈ vs ++ [u], '\n' ∈ x) ↔ ∃ x ∈ vs, '\n' ∈ x := by
      constructor
      · rintro ⟨x, hx, h⟩
        rcases List.mem_append.mp hx with hx | hx
        · exact ⟨x, hx, h⟩
        · rw [List.mem_singleton.mp hx] at h
          exact absurd h hu
      · rintro ⟨x, hx, h⟩
        exact ⟨x, List.mem_append_left _ hx, h⟩
    rw [hm]

theorem LinesOk.filter {vs : List Str} : LinesOk (vs.filter fun v => v ≠ []) ↔ LinesOk vs := by
  have hm : ∀ p : Str, p ≠ [] → ((∀ v ∈ vs.filter (fun v => v ≠ []), ¬ p <:+: v) ↔ ∀ v ∈ vs, ¬ p <:+: v) := by
    intro p hp
    constructor
    · intro h v hv hi
      refine h v (List.mem_filter.mpr ⟨hv, ?_⟩) hi
      rw [decide_eq_true_eq]
      rintro rfl
      exact hp (List.eq_nil_of_infix_nil hi)
    · exact fun h v hv => h v (List.mem_of_mem_filter hv)
  constructor
  · exact fun h => ⟨(hm _ (by simp)).mp h.blank, (hm _ (by simp)).mp h.comment, fun he => h.early ((endsEarly_filter _).mpr he)⟩
  · exact fun h => ⟨(hm _ (by simp)).mpr h.blank, (hm _ (by simp)).mpr h.comment, fun he => h.early ((endsEarly_filter _).mp he)⟩

theorem LinesOk.last {vs : List Str} {u : Str} (hu : '\n' ∉ u) : LinesOk (vs ++ [u]) ↔ LinesOk vs := by
  have hm : ∀ p : Str, '\n' ∈ p → ((∀ v ∈ vs ++ [u], ¬ p <:+: v) ↔ ∀ v ∈ vs, ¬ p <:+: v) := by
    intro p hp
    constructor
    · exact fun h v hv => h v (List.mem_append_left _ hv)
    · intro h v hv hi
      rcases List.mem_append.mp hv with hv | hv
      · exact h v hv hi
      · rw [List.mem_singleton.mp hv] at hi
        exact hu (hi.subset hp)
  constructor
  · exact fun h => ⟨(hm _ (by simp)).mp h.blank, (hm _ (by simp)).mp h.comment, fun he => h.early ((endsEarly_last _ hu).mpr he)⟩
  · exact fun h => ⟨(hm _ (by simp)).mpr h.blank, (hm _ (by simp)).mpr h.comment, fun he => h.early ((endsEarly_last _ hu).mp he)⟩

theorem optAttr_map (k : Str) (q : Bool) (v : Str) : (optAttr k q v).map Attr.val = [v].filter fun v => v ≠ [] := by
  unfold optAttr
  by_cases h : v = []
  · rw [if_pos h, List.filter_cons_of_neg (by simp [h])]; rfl
  · rw [if_neg h, List.filter_cons_of_pos (by simp [h])]; rfl

theorem colAttrs_map (c : WCol) : (colAttrs c).map Attr.val = c.entries.filter fun v => v ≠ [] := by
  unfold colAttrs WCol.entries
  simp only [List.map_append, optAttr_map, ← List.filter_append, List.cons_append, List.nil_append]

/-- The texts of a parameter, and a number behind them. -/
theorem paramAttrs_map {ft : FloatText} {p : WParam}
    (h : ∀ x, p.fixed = some (.float x) → (PyVal.float x).truthy = true → '\n' ∉ ft.fmt x) :
    ∃ u : List Str, (paramAttrs ft p).map Attr.val = (p.entries.filter fun v => v ≠ []) ++ u ∧
      (u = [] ∨ ∃ x, u = [x] ∧ '\n' ∉ x) := by
  have e0 : ∀ l : List Str, ([p.name, p.type, p.units, p.symbol, p.formatStr, p.description] ++ l).filter (fun v => v ≠ []) =
      (optAttr "name".toList false p.name ++ optAttr "type".toList false p.type ++
        optAttr "units".toList true p.units ++ optAttr "symbol".toList true p.symbol ++
        optAttr "format_string".toList true p.formatStr ++ optAttr "description".toList true p.description).map Attr.val ++
      l.filter fun v => v ≠ [] := by
    intro l
    simp only [List.map_append, optAttr_map, ← List.filter_append, List.cons_append, List.nil_append]
  unfold paramAttrs WParam.entries
  rw [List.map_append, e0]
  cases hp : p.fixed with
  | none => exact ⟨[], by simp [fixedAttr], Or.inl rfl⟩
  | some v =>
    by_cases ht : v.truthy = true
    · simp only [fixedAttr, ht, if_true]
      cases v with
      | int i => exact ⟨[intStr i], by simp, Or.inr ⟨_, rfl, (cleanWord_intStr i).line⟩⟩
      | float x => exact ⟨[ft.fmt x], by simp, Or.inr ⟨_, rfl, h x hp ht⟩⟩
      | str s =>
        refine ⟨[], ?_, Or.inl rfl⟩
        have hs : s ≠ [] := by rintro rfl; cases ht
        simp only [List.map_cons, List.map_nil, List.append_nil]
        rw [List.filter_cons_of_pos (by simp [hs])]
        rfl
    · have ht : v.truthy = false := by simpa using ht
      simp only [fixedAttr, ht, Bool.false_eq_true, if_false]
      refine ⟨[], ?_, Or.inl rfl⟩
      cases v with
      | int i => simp
      | float x => simp
      | str s =>
        have hs : s = [] := by
          cases s with
          | nil => rfl
          | cons c s => cases ht
        simp [hs]

theorem paramAttrs_lines {ft : FloatText} {p : WParam}
    (h : ∀ x, p.fixed = some (.float x) → (PyVal.float x).truthy = true → '\n' ∉ ft.fmt x) :
    LinesOk ((paramAttrs ft p).map Attr.val) ↔ LinesOk p.entries := by
  obtain ⟨u, e, hu⟩ := paramAttrs_map h
  rw [e]
  rcases hu with rfl | ⟨x, rfl, hx⟩
  · rw [List.append_nil]
    exact LinesOk.filter
  · rw [LinesOk.last hx]
    exact LinesOk.filter

theorem flatten_filter (vs : List Str) : (vs.filter fun v => v ≠ []).flatten = vs.flatten := by
  induction vs with
  | nil => rfl
  | cons v vs ih =>
    by_cases hv : v = []
    · rw [List.filter_cons_of_neg (by simp [hv]), ih, hv]; rfl
    · rw [List.filter_cons_of_pos (by simp [hv]), List.flatten_cons, List.flatten_cons, ih]

theorem docOf_lineEnds {ft : FloatText} {w : Writer}
    (h : ∀ p ∈ w.params, ∀ x, p.fixed = some (.float x) → (PyVal.float x).truthy = true → '\n' ∉ ft.fmt x) :
    Sdds.lineEnds (docOf ft w).namelists = w.lineEnds := by
  unfold Sdds.lineEnds Writer.lineEnds docOf
  rw [List.flatMap_append, List.count_append, List.flatMap_map, List.flatMap_map]
  congr 1
  · generalize w.params = ps at h
    induction ps with
    | nil => rfl
    | cons p ps ih =>
      rw [List.flatMap_cons, List.flatMap_cons, List.count_append, List.count_append,
        ih fun q hq => h q (List.mem_cons_of_mem _ hq)]
      congr 1
      obtain ⟨u, e, hu⟩ := paramAttrs_map (h p List.mem_cons_self)
      change ((paramAttrs ft p).flatMap Attr.val).count '\n' = _
      rw [List.flatMap_def, e, List.flatten_append, flatten_filter, List.count_append]
      rcases hu with rfl | ⟨x, rfl, hx⟩
      · simp
      · simp [List.count_eq_zero.mpr hx]
  · congr 1
    refine List.flatMap_congr fun c _ => ?_
    change (colAttrs c).flatMap Attr.val = _
    rw [List.flatMap_def, colAttrs_map, flatten_filter]

theorem HeaderQuoted.number {ft : FloatText} {w : Writer} (h : HeaderQuoted ft w) :
    ∀ p ∈ w.params, ∀ x, p.fixed = some (.float x) → (PyVal.float x).truthy = true → '\n' ∉ ft.fmt x :=
  fun p hp x hx ht => (FloatText.Good.word (And.right (h.fixed p hp (.float x) hx ht))).line

theorem docOf_attrs {ft : FloatText} {w : Writer} (h : HeaderQuoted ft w) :
    ∀ n ∈ (docOf ft w).namelists, ∀ a ∈ n.attrs, a.Wide := by
  intro n hn a ha
  rcases List.mem_append.mp hn with hn | hn
  · obtain ⟨p, hp, rfl⟩ := List.mem_map.mp hn
    have hc := h.params p hp
    simp only [paramAttrs, List.mem_append] at ha
    rcases ha with (((((ha | ha) | ha) | ha) | ha) | ha) | ha
    · rw [mem_optAttr ha]; exact (hc.name.attr (by decide) _).wide
    · rw [mem_optAttr ha]; exact ((cleanWord_type hc.type).attr (by decide) _).wide
    · rw [mem_optAttr ha]; exact hc.units.wide (by decide)
    · rw [mem_optAttr ha]; exact hc.symbol.wide (by decide)
    · rw [mem_optAttr ha]; exact hc.formatStr.wide (by decide)
    · rw [mem_optAttr ha]; exact hc.description.wide (by decide)
    · exact fixedAttr_wide (h.fixed p hp) a ha
  · obtain ⟨c, hp, rfl⟩ := List.mem_map.mp hn
    have hc := h.cols c hp
    simp only [colAttrs, List.mem_append] at ha
    rcases ha with ((((ha | ha) | ha) | ha) | ha) | ha
    · rw [mem_optAttr ha]; exact (hc.name.attr (by decide) _).wide
    · rw [mem_optAttr ha]; exact ((cleanWord_type hc.type).attr (by decide) _).wide
    · rw [mem_optAttr ha]; exact hc.units.wide (by decide)
    · rw [mem_optAttr ha]; exact hc.symbol.wide (by decide)
    · rw [mem_optAttr ha]; exact hc.formatStr.wide (by decide)
    · rw [mem_optAttr ha]; exact hc.description.wide (by decide)

theorem docOf_wide {ft : FloatText} {w : Writer} (h : HeaderWide ft w) : (docOf ft w).Wide := by
  refine ⟨?_, docOf_attrs h.toHeaderQuoted, ?_, ?_⟩
  · intro c hc
    rw [List.mem_singleton.mp hc]
    exact ⟨by unfold Ascii; decide, by decide⟩
  · intro n hn
    rcases List.mem_append.mp hn with hn | hn
    · obtain ⟨p, hp, rfl⟩ := List.mem_map.mp hn
      exact (paramAttrs_lines (h.number p hp)).mpr (h.paramLines p hp)
    · obtain ⟨c, hc, rfl⟩ := List.mem_map.mp hn
      change LinesOk ((colAttrs c).map Attr.val)
      rw [colAttrs_map, LinesOk.filter]
      exact h.colLines c hc
  · exact (docOf_ok (w := {}) ⟨by simp, by simp, by simp⟩ : (docOf ft {}).Ok).data

/-- Opening a file that starts with the header of a writer. -/
theorem open_held {ft : FloatText} {w : Writer} (h : HeaderWide ft w) (body : Bytes) {fuel : Nat}
    (hfuel : w.params.length + w.cols.length + 3 + w.lineEnds ≤ fuel) (buffer : Bool) (maxStr : Nat) :
    openSdds ft fuel buffer maxStr (utf8 (headerText ft w "binary".toList) ++ body) =
      some (.ok {
        file := utf8 (headerText ft w "binary".toList) ++ body, buffer := buffer, maxStr := maxStr,
        headerEnd := (utf8 (headerText ft w "binary".toList)).length,
        lineCount := w.params.length + w.cols.length + 2 + w.lineEnds,
        params := w.params.map heldParam, cols := w.cols.map heldCol, ascii := false,
        noRowCounts := false }) := by
  rw [headerText_wide h.toHeaderQuoted]
  have hp : (((docOf ft w).attrsOf .param).map fun as => as.map Attr.held).mapM (paramOf ft) =
      .ok (w.params.map heldParam) := by
    have : (docOf ft w).attrsOf .param = w.params.map (paramAttrs ft) := by
      unfold Doc.attrsOf docOf
      simp only [List.filter_append, List.map_append]
      rw [List.filter_eq_self.mpr (by simp), List.filter_eq_nil_iff.mpr (by simp)]
      simp
    rw [this, List.map_map]
    exact mapM_map_ok _ _ _ _ fun p hp => paramOf_held (h.params p hp) (h.fixed p hp)
  have hc : (((docOf ft w).attrsOf .col).map fun as => as.map Attr.held).mapM colOf =
      .ok (w.cols.map heldCol) := by
    have : (docOf ft w).attrsOf .col = w.cols.map colAttrs := by
      unfold Doc.attrsOf docOf
      simp only [List.filter_append, List.map_append]
      rw [List.filter_eq_nil_iff.mpr (by simp), List.filter_eq_self.mpr (by simp)]
      simp
    rw [this, List.map_map]
    exact mapM_map_ok _ _ _ _ fun c hc => colOf_held (h.cols c hc)
  have hl := docOf_lineEnds h.number
  rw [open_wide ft (docOf_wide h) body (fuel := fuel) (by rw [hl]; simp [docOf]; omega) buffer maxStr hp hc
    (show (attrVal [⟨"mode".toList, "binary".toList, false⟩] "mode".toList).getD "binary".toList ≠ "ascii".toList by
      decide)]
  rw [hl]
  congr 3
  simp [docOf]

end Verif.Sdds
