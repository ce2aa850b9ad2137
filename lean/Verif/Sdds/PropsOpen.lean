import Verif.Sdds.PropsForeign

/-!
# Property C120: which headers are accepted
-/

namespace Verif.Sdds

/-! ## Specification -/

/-- The types the reader knows. -/
def sixTypes : List String := ["double", "float", "long", "short", "string", "char"]

/-- The text given for a key, or nothing. -/
def textOf (as : List Attr) (key : String) : Str := (attrVal as key.toList).getD []

/-- The fixed value of a parameter can be converted to its type. Types other than `short`, `long` and `double` need no conversion, and
need not be known. -/
def FixedReads (ft : FloatText) (type v : Str) : Prop :=
  v = [] ∨ ((type = "short".toList ∨ type = "long".toList → ∃ i, parseInt v = .ok i) ∧ (type = "double".toList → ∃ x, ft.parse v = .ok x))

/-- A parameter that is accepted: with a fixed value that can be converted, or of a known type. -/
def ParamAccepted (ft : FloatText) (as : List Attr) : Prop :=
  (∃ v, attrVal as "fixed_value".toList = some v ∧ FixedReads ft (textOf as "type") v) ∨
  attrVal as "fixed_value".toList = none ∧ ∃ t ∈ sixTypes, textOf as "type" = t.toList

/-- A column that is accepted: of a known type, and without a field length if it holds strings. -/
def ColAccepted (as : List Attr) : Prop :=
  (∃ t ∈ sixTypes, textOf as "type" = t.toList) ∧ (textOf as "type" = "string".toList → attrVal as "field_length".toList = none)

/-- There is something to read from an ASCII page: a parameter without fixed value, or a row count. -/
def HasEntries (d : Doc) : Prop :=
  (∃ as ∈ d.attrsOf .param, attrVal as "fixed_value".toList = none) ∨
  (d.attrsOf .col ≠ [] ∧ textOf d.data "no_row_counts" = [])

/-! ## Proofs -/

theorem sixTypes_iff (t : Str) : (∃ s ∈ sixTypes, t = s.toList) ↔ t ∈ dataTypes := by
  have h1 : ∀ s ∈ sixTypes, s.toList ∈ dataTypes := by decide
  have h2 : ∀ t ∈ dataTypes, ∃ s ∈ sixTypes, t = s.toList := by decide
  exact ⟨fun ⟨s, hs, e⟩ => e ▸ h1 s hs, h2 t⟩

theorem paramOf_iff (ft : FloatText) (as : List Attr) : (∃ x, paramOf ft as = .ok x) ↔ ParamAccepted ft as := by
  unfold ParamAccepted paramOf
  simp only
  cases hv : attrVal as "fixed_value".toList with
  | none =>
    simp only [reduceCtorEq, false_and, exists_false, false_or, true_and]
    rw [sixTypes_iff]
    change _ ↔ (attrVal as "type".toList).getD [] ∈ dataTypes
    split_ifs with h
    · exact ⟨fun _ => h, fun _ => ⟨_, rfl⟩⟩
    · exact ⟨fun ⟨_, h'⟩ => (by cases h'), fun h' => absurd h' h⟩
  | some v =>
    simp only [Option.some.injEq, exists_eq_left', reduceCtorEq, false_and, or_false]
    have e : textOf as "type" = (attrVal as "type".toList).getD [] := rfl
    rw [e]
    generalize (attrVal as "type".toList).getD [] = ty
    have key : (∃ x, parseFixed ft ty v = .ok x) ↔ FixedReads ft ty v := by
      unfold parseFixed FixedReads
      by_cases h0 : v = []
      · simp [h0]
      rw [if_neg h0]
      by_cases h1 : ty = "short".toList ∨ ty = "long".toList
      · rw [if_pos h1]
        have h2 : ty ≠ "double".toList := by rcases h1 with rfl | rfl <;> decide
        constructor
        · rintro ⟨x, hx⟩
          refine .inr ⟨fun _ => ?_, fun h => absurd h h2⟩
          cases hi : parseInt v with
          | error e => rw [hi] at hx; cases hx
          | ok i => exact ⟨i, rfl⟩
        · rintro (h | ⟨h, _⟩)
          · exact absurd h h0
          · obtain ⟨i, hi⟩ := h h1
            exact ⟨.int i, by rw [hi]; rfl⟩
      rw [if_neg h1]
      by_cases h2 : ty = "double".toList
      · rw [if_pos h2]
        constructor
        · rintro ⟨x, hx⟩
          refine .inr ⟨fun h => absurd h h1, fun _ => ?_⟩
          cases hi : ft.parse v with
          | error e => rw [hi] at hx; cases hx
          | ok i => exact ⟨i, rfl⟩
        · rintro (h | ⟨_, h⟩)
          · exact absurd h h0
          · obtain ⟨i, hi⟩ := h h2
            exact ⟨.float i, by rw [hi]; rfl⟩
      · rw [if_neg h2]
        exact ⟨fun _ => .inr ⟨fun h => absurd h h1, fun h => absurd h h2⟩, fun _ => ⟨_, rfl⟩⟩
    rw [← key]
    cases parseFixed ft ty v with
    | error e => exact ⟨fun ⟨x, h⟩ => (by cases h), fun ⟨x, h⟩ => by cases h⟩
    | ok x => exact ⟨fun _ => ⟨x, rfl⟩, fun _ => ⟨_, rfl⟩⟩

theorem colOf_iff (as : List Attr) : (∃ x, colOf as = .ok x) ↔ ColAccepted as := by
  unfold ColAccepted colOf
  simp only
  rw [sixTypes_iff]
  change _ ↔ (attrVal as "type".toList).getD [] ∈ dataTypes ∧ ((attrVal as "type".toList).getD [] = _ → _)
  by_cases h1 : (attrVal as "type".toList).getD [] ∈ dataTypes
  · rw [if_neg (not_not.2 h1)]
    split_ifs with h2
    · exact ⟨fun ⟨_, h⟩ => (by cases h), fun h => absurd (h.2 h2.1) h2.2⟩
    · refine ⟨fun _ => ⟨h1, fun ht => ?_⟩, fun _ => ⟨_, rfl⟩⟩
      by_contra hc
      exact h2 ⟨ht, hc⟩
  · rw [if_pos h1]
    exact ⟨fun ⟨_, h⟩ => (by cases h), fun h => absurd h.1 h1⟩

theorem mapM_ok_iff {α β : Type} (f : α → Except PyErr β) (l : List α) : (∃ ys, l.mapM f = .ok ys) ↔ ∀ a ∈ l, ∃ y, f a = .ok y := by
  induction l with
  | nil => exact ⟨fun _ => by simp, fun _ => ⟨[], rfl⟩⟩
  | cons a l ih =>
    rw [List.mapM_cons]
    cases ha : f a with
    | error e =>
      refine ⟨fun ⟨_, h⟩ => (by cases h), fun h => ?_⟩
      obtain ⟨y, hy⟩ := h a (by simp)
      rw [ha] at hy; cases hy
    | ok y =>
      cases hl : l.mapM f with
      | error e =>
        refine ⟨fun ⟨_, h⟩ => (by cases h), fun h => ?_⟩
        obtain ⟨ys, hys⟩ := ih.2 fun b hb => h b (by simp [hb])
        rw [hl] at hys; cases hys
      | ok ys =>
        refine ⟨fun _ b hb => ?_, fun _ => ⟨_, rfl⟩⟩
        rcases List.mem_cons.1 hb with rfl | hb
        · exact ⟨y, ha⟩
        · exact ih.1 ⟨ys, hl⟩ b hb

theorem parse_ok (ft : FloatText) (ns : List NDoc) (hns : ∀ n ∈ ns, ∀ a ∈ n.attrs, a.Ok) (last : Str) : ∀ (p q : Parsed),
    parseNamelists ft (ns.map NDoc.text ++ [last]) p = .ok q →
    (∀ n ∈ ns, n.kind = .param → ∃ x, paramOf ft n.attrs = .ok x) ∧ ∀ n ∈ ns, n.kind = .col → ∃ x, colOf n.attrs = .ok x := by
  induction ns with
  | nil => intro p q _; simp
  | cons nd ns ih =>
    intro p q hq
    obtain ⟨k, at', pad⟩ := nd
    have ha := hns ⟨k, at', pad⟩ (by simp)
    have ih' := ih fun n hn => hns n (by simp [hn])
    rw [List.map_cons, List.cons_append] at hq
    cases k with
    | param =>
      have e : NDoc.text ⟨.param, at', pad⟩ = nlText "&parameter".toList at' pad := rfl
      rw [parseNamelists, e, firstWord_nl "&parameter".toList (by decide) (by decide)] at hq
      simp only at hq
      rw [if_pos trivial, mkParam_text ft at' ha] at hq
      cases h1 : paramOf ft at' with
      | error e => rw [h1] at hq; cases hq
      | ok x =>
        rw [h1] at hq
        obtain ⟨i1, i2⟩ := ih' _ q hq
        constructor
        · intro n hn hk
          rcases List.mem_cons.1 hn with rfl | hn
          · exact ⟨x, h1⟩
          · exact i1 n hn hk
        · intro n hn hk
          rcases List.mem_cons.1 hn with rfl | hn
          · cases hk
          · exact i2 n hn hk
    | col =>
      have e : NDoc.text ⟨.col, at', pad⟩ = nlText "&column".toList at' pad := rfl
      rw [parseNamelists, e, firstWord_nl "&column".toList (by decide) (by decide)] at hq
      simp only at hq
      rw [if_neg (by decide), if_pos trivial, mkColumn_text at' ha] at hq
      cases h1 : colOf at' with
      | error e => rw [h1] at hq; cases hq
      | ok x =>
        rw [h1] at hq
        obtain ⟨i1, i2⟩ := ih' _ q hq
        constructor
        · intro n hn hk
          rcases List.mem_cons.1 hn with rfl | hn
          · cases hk
          · exact i1 n hn hk
        · intro n hn hk
          rcases List.mem_cons.1 hn with rfl | hn
          · exact ⟨x, h1⟩
          · exact i2 n hn hk

theorem paramOf_fixed {ft : FloatText} {as : List Attr} {x : ParamField} (h : paramOf ft as = .ok x) :
    x.fixed = none ↔ attrVal as "fixed_value".toList = none := by
  unfold paramOf at h
  simp only at h
  cases hv : attrVal as "fixed_value".toList with
  | none =>
    rw [hv] at h
    simp only at h
    split_ifs at h
    cases h
    simp
  | some v =>
    rw [hv] at h
    simp only at h
    cases hf : parseFixed ft ((attrVal as "type".toList).getD []) v with
    | error e => rw [hf] at h; cases h
    | ok fx => rw [hf] at h; cases h; simp

theorem keysOf_nil (ascii : Bool) (m : Nat) (p : ParamField) : paramKeysOf ascii m p = [] ↔ p.fixed ≠ none := by
  unfold paramKeysOf
  by_cases h : p.fixed = none
  · rw [if_pos h]
    split_ifs <;> simp [h]
  · simp [h]

theorem mapM_member {α β : Type} {f : α → Except PyErr β} {l : List α} {ys : List β} (h : l.mapM f = .ok ys) :
    (∀ y ∈ ys, ∃ a ∈ l, f a = .ok y) ∧ (∀ a ∈ l, ∃ y ∈ ys, f a = .ok y) ∧ (ys = [] ↔ l = []) := by
  induction l generalizing ys with
  | nil => cases h; simp
  | cons a l ih =>
    rw [List.mapM_cons] at h
    cases ha : f a with
    | error e => rw [ha] at h; cases h
    | ok y =>
      rw [ha] at h
      cases hl : l.mapM f with
      | error e => rw [hl] at h; cases h
      | ok zs =>
        rw [hl] at h
        cases h
        obtain ⟨i1, i2, _⟩ := ih hl
        refine ⟨fun z hz => ?_, fun b hb => ?_, by simp⟩
        · rcases List.mem_cons.1 hz with rfl | hz
          · exact ⟨a, by simp, ha⟩
          · obtain ⟨b, hb, e⟩ := i1 z hz
            exact ⟨b, by simp [hb], e⟩
        · rcases List.mem_cons.1 hb with rfl | hb
          · exact ⟨y, by simp, ha⟩
          · obtain ⟨z, hz, e⟩ := i2 b hb
            exact ⟨z, by simp [hz], e⟩

/-- **C120.** The header of a file is accepted exactly if all parameters and columns are, and, in ASCII mode, if there is something to read
on a page. -/
theorem open_iff (ft : FloatText) {d : Doc} (h : d.Ok) (body : Bytes) {fuel : Nat}
    (hfuel : d.comments.length + d.namelists.length + 2 ≤ fuel) (buffer : Bool) (maxStr : Nat) :
    (∃ r, openSdds ft fuel buffer maxStr (utf8 d.text ++ body) = some (.ok r)) ↔
      (∀ as ∈ d.attrsOf .param, ParamAccepted ft as) ∧ (∀ as ∈ d.attrsOf .col, ColAccepted as) ∧
      (attrVal d.data "mode".toList = some "ascii".toList → HasEntries d) := by
  have hmem : ∀ k as, as ∈ d.attrsOf k ↔ ∃ n ∈ d.namelists, n.kind = k ∧ n.attrs = as := by
    intro k as
    unfold Doc.attrsOf
    simp only [List.mem_map, List.mem_filter, decide_eq_true_eq]
    constructor
    · rintro ⟨n, ⟨h1, h2⟩, h3⟩; exact ⟨n, h1, h2, h3⟩
    · rintro ⟨n, h1, h2, h3⟩; exact ⟨n, ⟨h1, h2⟩, h3⟩
  -- the last test of the constructor
  have hlast : ∀ ps cs, (d.attrsOf .param).mapM (paramOf ft) = .ok ps → (d.attrsOf .col).mapM colOf = .ok cs →
      ((∃ r, openSdds ft fuel buffer maxStr (utf8 d.text ++ body) = some (.ok r)) ↔ (attrVal d.data "mode".toList = some "ascii".toList → HasEntries d)) := by
    intro ps cs hps hcs
    unfold openSdds
    rw [readHeader_doc h body hfuel]
    simp only
    rw [parse_docs ft d.namelists h.namelists d.data (fun a ha => (h.data a ha).1) _ ps cs hps hcs]
    simp only [bind, Except.bind, List.nil_append]
    have hm : (attrVal d.data "mode".toList).getD "binary".toList = "ascii".toList ↔ attrVal d.data "mode".toList = some "ascii".toList := by
      cases attrVal d.data "mode".toList with
      | none => simp only [Option.getD_none, reduceCtorEq, iff_false]; decide
      | some v => simp
    by_cases ha : attrVal d.data "mode".toList = some "ascii".toList
    · have hg := hm.2 ha
      rw [hg]
      simp only [ha, decide_true, Bool.true_and, forall_const]
      obtain ⟨m1, m2, m3⟩ := mapM_member hps
      obtain ⟨n1, n2, n3⟩ := mapM_member hcs
      have hkey : ∀ r : Reader, r.ascii = true → r.params = ps → r.cols = cs → r.noRowCounts = textTrue (attrVal d.data "no_row_counts".toList) →
          (r.paramKeys.isEmpty = false ↔ HasEntries d) := by
        intro r e1 e2 e3 e4
        unfold Reader.paramKeys HasEntries
        rw [e1, e2, e3, e4]
        simp only [Bool.not_true, Bool.false_eq_true, if_false]
        have hnr : textTrue (attrVal d.data "no_row_counts".toList) = false ↔ textOf d.data "no_row_counts" = [] := by
          unfold textOf textTrue
          cases attrVal d.data "no_row_counts".toList with
          | none => simp
          | some v => simp
        have hfl : ps.flatMap (paramKeysOf true r.maxStr) = [] ↔ ¬ ∃ as ∈ d.attrsOf .param, attrVal as "fixed_value".toList = none := by
          rw [List.flatMap_eq_nil_iff]
          constructor
          · rintro hall ⟨as, has, hv⟩
            obtain ⟨x, hx, e⟩ := m2 as has
            exact (keysOf_nil _ _ _).1 (hall x hx) ((paramOf_fixed e).2 hv)
          · intro hno x hx
            obtain ⟨as, has, e⟩ := m1 x hx
            exact (keysOf_nil _ _ _).2 fun hf => hno ⟨as, has, (paramOf_fixed e).1 hf⟩
        by_cases hc : (!textTrue (attrVal d.data "no_row_counts".toList) && !cs.isEmpty) = true
        · rw [if_pos hc]
          rw [Bool.and_eq_true, Bool.not_eq_true', Bool.not_eq_true', List.isEmpty_eq_false_iff] at hc
          refine ⟨fun _ => .inr ⟨fun h0 => hc.2 (n3.2 h0), hnr.1 hc.1⟩, fun _ => by simp⟩
        · rw [if_neg hc, List.isEmpty_eq_false_iff, ne_eq, hfl, not_not]
          refine ⟨.inl, ?_⟩
          rintro (h1 | ⟨h1, h2⟩)
          · exact h1
          · exfalso
            apply hc
            rw [Bool.and_eq_true, Bool.not_eq_true', Bool.not_eq_true', List.isEmpty_eq_false_iff]
            exact ⟨hnr.2 h2, fun h0 => h1 (n3.1 h0)⟩
      generalize hrd : Reader.mk _ _ _ _ _ _ _ _ _ = rd
      rw [← hkey rd (by rw [← hrd]) (by rw [← hrd]) (by rw [← hrd]) (by rw [← hrd])]
      split_ifs with hc
      · constructor
        · rintro ⟨r, hr⟩; cases hr
        · intro hk; rw [hc] at hk; cases hk
      · exact ⟨fun _ => by simpa using hc, fun _ => ⟨_, rfl⟩⟩
    · have hg := mt hm.1 ha
      simp only [decide_eq_false hg, Bool.false_and, Bool.false_eq_true, if_false, ha, false_implies, iff_true]
      exact ⟨_, rfl⟩
  constructor
  · rintro ⟨r, hr⟩
    have hp : (∀ n ∈ d.namelists, n.kind = .param → ∃ x, paramOf ft n.attrs = .ok x) ∧ ∀ n ∈ d.namelists, n.kind = .col → ∃ x, colOf n.attrs = .ok x := by
      unfold openSdds at hr
      rw [readHeader_doc h body hfuel] at hr
      simp only at hr
      cases hq : parseNamelists ft (d.namelists.map NDoc.text ++ [nlText "&data".toList d.data 0]) ⟨[], [], []⟩ with
      | error e => rw [hq] at hr; cases hr
      | ok q => exact parse_ok ft d.namelists h.namelists _ _ q hq
    have hp1 : ∀ as ∈ d.attrsOf .param, ∃ x, paramOf ft as = .ok x := by
      intro as has
      obtain ⟨n, h1, h2, rfl⟩ := (hmem _ _).1 has
      exact hp.1 n h1 h2
    have hp2 : ∀ as ∈ d.attrsOf .col, ∃ x, colOf as = .ok x := by
      intro as has
      obtain ⟨n, h1, h2, rfl⟩ := (hmem _ _).1 has
      exact hp.2 n h1 h2
    obtain ⟨ps, hps⟩ := (mapM_ok_iff _ _).2 hp1
    obtain ⟨cs, hcs⟩ := (mapM_ok_iff _ _).2 hp2
    exact ⟨fun as has => (paramOf_iff ft as).1 (hp1 as has), fun as has => (colOf_iff as).1 (hp2 as has), (hlast ps cs hps hcs).1 ⟨r, hr⟩⟩
  · rintro ⟨h1, h2, h3⟩
    obtain ⟨ps, hps⟩ := (mapM_ok_iff _ _).2 fun as has => (paramOf_iff ft as).2 (h1 as has)
    obtain ⟨cs, hcs⟩ := (mapM_ok_iff _ _).2 fun as has => (colOf_iff as).2 (h2 as has)
    exact (hlast ps cs hps hcs).2 h3

/-- **C120, string columns.** A string column with a field length is never accepted. -/
theorem field_length_fails (ft : FloatText) {d : Doc} (h : d.Ok) (body : Bytes) {fuel : Nat}
    (hfuel : d.comments.length + d.namelists.length + 2 ≤ fuel) (buffer : Bool) (maxStr : Nat) (as : List Attr) (has : as ∈ d.attrsOf .col)
    (ht : textOf as "type" = "string".toList) (hl : attrVal as "field_length".toList ≠ none) :
    ¬ ∃ r, openSdds ft fuel buffer maxStr (utf8 d.text ++ body) = some (.ok r) := by
  rw [open_iff ft h body hfuel]
  rintro ⟨_, h2, _⟩
  exact hl ((h2 as has).2 ht)

/-- **C120, types.** A column of a type that SDDS has and the reader does not know (`long64`, `ulong`, `ushort`, `longdouble`, ...) is never
accepted. -/
theorem column_type_fails (ft : FloatText) {d : Doc} (h : d.Ok) (body : Bytes) {fuel : Nat}
    (hfuel : d.comments.length + d.namelists.length + 2 ≤ fuel) (buffer : Bool) (maxStr : Nat) (as : List Attr) (has : as ∈ d.attrsOf .col)
    (ht : ∀ t ∈ sixTypes, textOf as "type" ≠ t.toList) :
    ¬ ∃ r, openSdds ft fuel buffer maxStr (utf8 d.text ++ body) = some (.ok r) := by
  rw [open_iff ft h body hfuel]
  rintro ⟨_, h2, _⟩
  obtain ⟨t, h1, h2⟩ := (h2 as has).1
  exact ht t h1 h2

/-- A header with a string column. -/
def exOpen (extra : List Attr) (mode : String) : Doc where
  comments := []
  namelists := [⟨.param, [exAttr "name" "n", exAttr "type" "ulong", exAttr "fixed_value" "5"], 0⟩, ⟨.col, exAttr "name" "s" :: exAttr "type" "string" :: extra, 0⟩]
  data := [exAttr "mode" mode]

theorem exOpen_ok (extra : List Attr) (mode : String) (h : ∀ a ∈ extra, a.Ok) (hm : (exAttr "mode" mode).Ok ∧ '&' ∉ mode.toList) : (exOpen extra mode).Ok where
  comments := by simp [exOpen]
  namelists := by
    intro n hn
    simp only [exOpen, List.mem_cons, List.not_mem_nil, or_false] at hn
    rcases hn with rfl | rfl
    · decide +kernel
    · intro a ha
      simp only [List.mem_cons] at ha
      rcases ha with rfl | rfl | ha
      · decide +kernel
      · decide +kernel
      · exact h a ha
  data := by
    intro a ha
    rw [List.mem_singleton.1 ha]
    exact hm

example : ∃ r, openSdds exText 10 true 50 (utf8 (exOpen [] "ascii").text ++ []) = some (.ok r) := by
  rw [open_iff exText (exOpen_ok [] "ascii" (by simp) (by decide +kernel)) [] (by decide)]
  refine ⟨?_, ?_, ?_⟩
  · intro as has
    have : as = [exAttr "name" "n", exAttr "type" "ulong", exAttr "fixed_value" "5"] := by simpa [exOpen, Doc.attrsOf] using has
    subst this
    exact .inl ⟨"5".toList, by decide +kernel, .inr ⟨fun h => absurd h (by decide +kernel), fun h => absurd h (by decide +kernel)⟩⟩
  · intro as has
    have : as = [exAttr "name" "s", exAttr "type" "string"] := by simpa [exOpen, Doc.attrsOf] using has
    subst this
    exact ⟨⟨"string", by decide, by decide +kernel⟩, fun _ => by decide +kernel⟩
  · intro _
    exact .inr ⟨by decide +kernel, by decide +kernel⟩

example : ¬ ∃ r, openSdds exText 10 true 50 (utf8 (exOpen [exAttr "field_length" "8"] "binary").text ++ []) = some (.ok r) :=
  field_length_fails exText (exOpen_ok _ "binary" (by decide +kernel) (by decide +kernel)) [] (by decide) true 50
    [exAttr "name" "s", exAttr "type" "string", exAttr "field_length" "8"] (by decide +kernel) (by decide +kernel) (by decide +kernel)

example : ¬ ∃ r, openSdds exText 10 true 50 (utf8 (exOpen [exAttr "type" "long64"] "binary").text ++ []) = some (.ok r) :=
  column_type_fails exText (exOpen_ok _ "binary" (by decide +kernel) (by decide +kernel)) [] (by decide) true 50
    [exAttr "name" "s", exAttr "type" "string", exAttr "type" "long64"] (by decide +kernel) (by decide +kernel)

end Verif.Sdds
