import Verif.Sdds.PropsOpen

/-!
# C146: the descriptions of parameters and columns

The accessors `parameter_units`, `column_type` and so on (SDDS.py:467-498) look a name up in the dictionary made by `utils.list_to_dict`
(utils.py:57-63): a name that was declared twice has its last declaration, and a name that was not declared raises KeyError.
-/

namespace Verif.Sdds

/-- The last namelist of this kind with this name has these entries. -/
def Doc.LastDeclared (d : Doc) (k : NKind) (name : Str) (as : List Attr) : Prop :=
  ∃ before after, d.attrsOf k = before ++ as :: after ∧ textOf as "name" = name ∧ ∀ bs ∈ after, textOf bs "name" ≠ name

/-- What an opened reader holds of a header. -/
theorem open_holds {ft : FloatText} {d : Doc} (h : d.Ok) {body : Bytes} {fuel : Nat} (hfuel : d.comments.length + d.namelists.length + 2 ≤ fuel)
    {buffer : Bool} {maxStr : Nat} {r : Reader} (hr : openSdds ft fuel buffer maxStr (utf8 d.text ++ body) = some (.ok r)) :
    (d.attrsOf .param).mapM (paramOf ft) = .ok r.params ∧ (d.attrsOf .col).mapM colOf = .ok r.cols := by
  obtain ⟨h1, h2, -⟩ := (open_iff ft h body hfuel buffer maxStr).1 ⟨r, hr⟩
  obtain ⟨ps, hps⟩ := (mapM_ok_iff _ _).2 fun as has => (paramOf_iff ft as).2 (h1 as has)
  obtain ⟨cs, hcs⟩ := (mapM_ok_iff _ _).2 fun as has => (colOf_iff as).2 (h2 as has)
  rw [hps, hcs]
  unfold openSdds at hr
  rw [readHeader_doc h body hfuel] at hr
  simp only at hr
  rw [parse_docs ft d.namelists h.namelists d.data (fun a ha => (h.data a ha).1) _ ps cs hps hcs] at hr
  simp only [bind, Except.bind, List.nil_append, Option.some.injEq] at hr
  generalize hrd : Reader.mk _ _ _ _ _ _ _ _ _ = rd at hr
  split_ifs at hr
  cases hr
  rw [← hrd]
  exact ⟨rfl, rfl⟩

theorem mapM_append_ok {α β : Type} {f : α → Except PyErr β} {l l' : List α} {ys : List β} (h : (l ++ l').mapM f = .ok ys) :
    ∃ zs zs', l.mapM f = .ok zs ∧ l'.mapM f = .ok zs' ∧ ys = zs ++ zs' := by
  rw [List.mapM_append] at h
  cases h1 : l.mapM f with
  | error e => rw [h1] at h; cases h
  | ok zs =>
    rw [h1] at h
    cases h2 : l'.mapM f with
    | error e => rw [h2] at h; cases h
    | ok zs' =>
      rw [h2] at h
      cases h
      exact ⟨zs, zs', rfl, rfl, rfl⟩

/-- The last element with a key is found by filtering. -/
theorem filter_last {α β : Type} {f : α → Except PyErr β} {name : α → Str} {name' : β → Str} (hf : ∀ a y, f a = .ok y → name' y = name a)
    {l : List α} {ys : List β} (h : l.mapM f = .ok ys) (n : Str) :
    ((∀ a ∈ l, name a ≠ n) → (ys.filter fun y => name' y = n).getLast? = none) ∧
    ∀ before a after, l = before ++ a :: after → name a = n → (∀ b ∈ after, name b ≠ n) →
      ∃ y, f a = .ok y ∧ (ys.filter fun y => name' y = n).getLast? = some y := by
  constructor
  · intro hn
    rw [List.getLast?_eq_none_iff, List.filter_eq_nil_iff]
    intro y hy
    obtain ⟨a, ha, hay⟩ := (mapM_member h).1 y hy
    rw [decide_eq_true_eq, hf a y hay]
    exact hn a ha
  · rintro before a after rfl ha hafter
    obtain ⟨zs, zs', h1, h2, rfl⟩ := mapM_append_ok h
    rw [List.mapM_cons] at h2
    cases hy : f a with
    | error e => rw [hy] at h2; cases h2
    | ok y =>
      rw [hy] at h2
      cases hl : after.mapM f with
      | error e => rw [hl] at h2; cases h2
      | ok ws =>
        rw [hl] at h2
        cases h2
        refine ⟨y, rfl, ?_⟩
        have hws : ws.filter (fun y => name' y = n) = [] := by
          rw [List.filter_eq_nil_iff]
          intro w hw
          obtain ⟨b, hb, hbw⟩ := (mapM_member hl).1 w hw
          rw [decide_eq_true_eq, hf b w hbw]
          exact hafter b hb
        rw [List.filter_append, List.filter_cons_of_pos (by rw [decide_eq_true_eq, hf a y hy]; exact ha), hws]
        simp

theorem paramOf_fields {ft : FloatText} {as : List Attr} {x : ParamField} (h : paramOf ft as = .ok x) :
    x.name = textOf as "name" ∧ x.symbol = textOf as "symbol" ∧ x.units = textOf as "units" ∧ x.description = textOf as "description" ∧
      x.formatString = textOf as "format_string" ∧ x.type = textOf as "type" := by
  unfold paramOf at h
  simp only at h
  cases hv : attrVal as "fixed_value".toList with
  | none =>
    rw [hv] at h
    simp only at h
    split_ifs at h
    cases h
    exact ⟨rfl, rfl, rfl, rfl, rfl, rfl⟩
  | some v =>
    rw [hv] at h
    simp only at h
    cases hp : parseFixed ft ((attrVal as "type".toList).getD []) v with
    | error e => rw [hp] at h; cases h
    | ok fx =>
      rw [hp] at h
      cases h
      exact ⟨rfl, rfl, rfl, rfl, rfl, rfl⟩

theorem colOf_fields {as : List Attr} {x : ColField} (h : colOf as = .ok x) :
    x.name = textOf as "name" ∧ x.symbol = textOf as "symbol" ∧ x.units = textOf as "units" ∧ x.description = textOf as "description" ∧
      x.formatString = textOf as "format_string" ∧ x.type = textOf as "type" := by
  unfold colOf at h
  simp only at h
  split_ifs at h
  cases h
  exact ⟨rfl, rfl, rfl, rfl, rfl, rfl⟩

/-- **C146, parameters.** Whatever the header, the accessors of parameters return the texts of the last declaration of a name, and raise KeyError for a name that is
not declared. -/
theorem param_lookup {ft : FloatText} {d : Doc} (h : d.Ok) {body : Bytes} {fuel : Nat} (hfuel : d.comments.length + d.namelists.length + 2 ≤ fuel)
    {buffer : Bool} {maxStr : Nat} {r : Reader} (hr : openSdds ft fuel buffer maxStr (utf8 d.text ++ body) = some (.ok r)) (name : Str) :
    (r.param name = .error .keyError ↔ ∀ as ∈ d.attrsOf .param, textOf as "name" ≠ name) ∧
    ∀ as, d.LastDeclared .param name as → ∃ f, r.param name = .ok f ∧ f.symbol = textOf as "symbol" ∧ f.units = textOf as "units" ∧
      f.description = textOf as "description" ∧ f.formatString = textOf as "format_string" ∧ f.type = textOf as "type" ∧
      (f.fixed = none ↔ attrVal as "fixed_value".toList = none) := by
  obtain ⟨h1, -⟩ := open_holds h hfuel hr
  obtain ⟨h2, h3⟩ := filter_last (name := fun as => textOf as "name") (name' := ParamField.name) (fun a y e => (paramOf_fields e).1) h1 name
  unfold Reader.param lastParam
  refine ⟨⟨?_, fun hn => by rw [h2 hn]⟩, ?_⟩
  · intro he as has hn
    obtain ⟨y, hy, e⟩ := (mapM_member h1).2.1 as has
    have hmem : y ∈ r.params.filter fun p => p.name = name := by
      rw [List.mem_filter, decide_eq_true_eq, (paramOf_fields e).1]
      exact ⟨hy, hn⟩
    cases hl : (r.params.filter fun p => p.name = name).getLast? with
    | none =>
      rw [List.getLast?_eq_none_iff] at hl
      rw [hl] at hmem
      cases hmem
    | some z => rw [hl] at he; cases he
  · rintro as ⟨before, after, e1, e2, e3⟩
    obtain ⟨y, hy, e⟩ := h3 before as after e1 e2 e3
    obtain ⟨-, g1, g2, g3, g4, g5⟩ := paramOf_fields hy
    exact ⟨y, by rw [e], g1, g2, g3, g4, g5, paramOf_fixed hy⟩

/-- **C146, columns.** -/
theorem column_lookup {ft : FloatText} {d : Doc} (h : d.Ok) {body : Bytes} {fuel : Nat} (hfuel : d.comments.length + d.namelists.length + 2 ≤ fuel)
    {buffer : Bool} {maxStr : Nat} {r : Reader} (hr : openSdds ft fuel buffer maxStr (utf8 d.text ++ body) = some (.ok r)) (name : Str) :
    (r.col name = .error .keyError ↔ ∀ as ∈ d.attrsOf .col, textOf as "name" ≠ name) ∧
    ∀ as, d.LastDeclared .col name as → ∃ f, r.col name = .ok f ∧ f.symbol = textOf as "symbol" ∧ f.units = textOf as "units" ∧
      f.description = textOf as "description" ∧ f.formatString = textOf as "format_string" ∧ f.type = textOf as "type" := by
  obtain ⟨-, h1⟩ := open_holds h hfuel hr
  obtain ⟨h2, h3⟩ := filter_last (name := fun as => textOf as "name") (name' := ColField.name) (fun a y e => (colOf_fields e).1) h1 name
  unfold Reader.col lastCol
  refine ⟨⟨?_, fun hn => by rw [h2 hn]⟩, ?_⟩
  · intro he as has hn
    obtain ⟨y, hy, e⟩ := (mapM_member h1).2.1 as has
    have hmem : y ∈ r.cols.filter fun p => p.name = name := by
      rw [List.mem_filter, decide_eq_true_eq, (colOf_fields e).1]
      exact ⟨hy, hn⟩
    cases hl : (r.cols.filter fun p => p.name = name).getLast? with
    | none =>
      rw [List.getLast?_eq_none_iff] at hl
      rw [hl] at hmem
      cases hmem
    | some z => rw [hl] at he; cases he
  · rintro as ⟨before, after, e1, e2, e3⟩
    obtain ⟨y, hy, e⟩ := h3 before as after e1 e2 e3
    obtain ⟨-, g1, g2, g3, g4, g5⟩ := colOf_fields hy
    exact ⟨y, by rw [e], g1, g2, g3, g4, g5⟩

/-- Two columns of the same name. -/
def exTwice : Doc where
  comments := []
  namelists := [⟨.col, [exAttr "name" "x", exAttr "type" "double", exAttr "units" "mm"], 0⟩,
    ⟨.col, [exAttr "name" "x", exAttr "type" "long"], 0⟩]
  data := [exAttr "mode" "binary"]

theorem exTwice_ok : exTwice.Ok := by decide +kernel

example : ∃ r, openSdds exText 10 true 50 (utf8 exTwice.text ++ []) = some (.ok r) ∧ r.col "y".toList = .error .keyError ∧
    ∃ f, r.col "x".toList = .ok f ∧ f.units = [] ∧ f.type = "long".toList := by
  obtain ⟨r, hr⟩ := (open_iff exText exTwice_ok [] (fuel := 10) (by decide) true 50).2 (by
    refine ⟨by rw [show exTwice.attrsOf .param = [] by decide +kernel]; simp, ?_, fun h => absurd h (by decide +kernel)⟩
    intro as has
    have : as = [exAttr "name" "x", exAttr "type" "double", exAttr "units" "mm"] ∨ as = [exAttr "name" "x", exAttr "type" "long"] := by
      simpa [exTwice, Doc.attrsOf] using has
    rcases this with rfl | rfl
    · exact ⟨⟨"double", by decide, by decide +kernel⟩, fun h => absurd h (by decide +kernel)⟩
    · exact ⟨⟨"long", by decide, by decide +kernel⟩, fun h => absurd h (by decide +kernel)⟩)
  refine ⟨r, hr, (column_lookup exTwice_ok (by decide) hr _).1.2 (by decide +kernel), ?_⟩
  obtain ⟨f, h1, -, h2, -, -, h3⟩ := (column_lookup exTwice_ok (by decide) hr "x".toList).2 [exAttr "name" "x", exAttr "type" "long"]
    ⟨[[exAttr "name" "x", exAttr "type" "double", exAttr "units" "mm"]], [], by decide +kernel, by decide +kernel, by simp⟩
  exact ⟨f, h1, h2.trans (by decide +kernel), h3.trans (by decide +kernel)⟩

end Verif.Sdds
