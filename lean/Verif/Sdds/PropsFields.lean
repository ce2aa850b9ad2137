import Verif.Sdds.LemmasFields

/-!
# C127: data arrays and accessors of `readSDDS`
-/

namespace Verif.Sdds

/-- The entry `kv` of a record is the value of a field with this name and SDDS type: a number of the width of the type, or an ASCII text of at most
`m` characters. -/
def FieldOk (m : Nat) (f : Str × Str) (kv : Str × Val) : Prop :=
  kv.1 = f.1 ∧
    (f.2 = "double".toList ∧ (∃ x < 2 ^ 64, kv.2 = .num .double x) ∨
     f.2 = "float".toList ∧ (∃ x < 2 ^ 32, kv.2 = .num .float x) ∨
     f.2 = "long".toList ∧ (∃ x < 2 ^ 32, kv.2 = .num .long x) ∨
     f.2 = "short".toList ∧ (∃ x < 2 ^ 16, kv.2 = .num .short x) ∨
     f.2 = "string".toList ∧ ∃ s : Bytes, s.length ≤ m ∧ (∀ b ∈ s, b < 128) ∧ kv.2 = .str s)

/-- The fields that a page of parameters should have: the row count and the parameters without fixed value. -/
def Reader.paramFields (r : Reader) : List (Str × Str) :=
  ("row_counts".toList, "long".toList) :: (r.params.filter fun p => p.fixed = none).map fun p => (p.name, p.type)

/-- The fields that a row of columns should have. -/
def Reader.colFields (r : Reader) : List (Str × Str) := r.cols.map fun c => (c.name, c.type)

def fieldKey (f : Str × Str) : Key := (f.1, typeKey f.2)

theorem typeKey_string : typeKey "string".toList = .strRaw := by decide +kernel

theorem typeKey_cases (t : Str) : (t = "double".toList ∧ typeKey t = .num .double) ∨ (t = "float".toList ∧ typeKey t = .num .float) ∨
    (t = "long".toList ∧ typeKey t = .num .long) ∨ (t = "short".toList ∧ typeKey t = .num .short) ∨
    (t = "string".toList ∧ typeKey t = .strRaw) ∨ typeKey t = .char := by
  by_cases h1 : t = "double".toList
  · exact .inl ⟨h1, by rw [h1]; decide +kernel⟩
  by_cases h2 : t = "float".toList
  · exact .inr (.inl ⟨h2, by rw [h2]; decide +kernel⟩)
  by_cases h3 : t = "long".toList
  · exact .inr (.inr (.inl ⟨h3, by rw [h3]; decide +kernel⟩))
  by_cases h4 : t = "short".toList
  · exact .inr (.inr (.inr (.inl ⟨h4, by rw [h4]; decide +kernel⟩)))
  by_cases h5 : t = "string".toList
  · exact .inr (.inr (.inr (.inr (.inl ⟨h5, by rw [h5]; decide +kernel⟩))))
  · refine .inr (.inr (.inr (.inr (.inr ?_))))
    unfold typeKey
    rw [if_neg h1, if_neg h4, if_neg h3, if_neg h2, if_neg h5]

theorem fieldOk_merged {m : Nat} {f : Str × Str} {kv : Str × Val} (h : MergedVal m (fieldKey f) kv) : FieldOk m f kv := by
  obtain ⟨h1, h2⟩ := h
  refine ⟨h1, ?_⟩
  have e : (fieldKey f).2 = typeKey f.2 := rfl
  rw [e] at h2
  rcases typeKey_cases f.2 with ⟨ht, hk⟩ | ⟨ht, hk⟩ | ⟨ht, hk⟩ | ⟨ht, hk⟩ | ⟨ht, hk⟩ | hk <;> rw [hk] at h2
  · exact .inl ⟨ht, h2⟩
  · exact .inr (.inl ⟨ht, h2⟩)
  · exact .inr (.inr (.inl ⟨ht, h2⟩))
  · exact .inr (.inr (.inr (.inl ⟨ht, h2⟩)))
  · exact .inr (.inr (.inr (.inr ⟨ht, h2⟩)))
  · exact h2.elim

theorem fieldOk_read {m : Nat} {f : Str × Str} {kv : Str × Val} (hs : f.2 ≠ "string".toList) (h : KeyVal (fieldKey f) kv) : FieldOk m f kv := by
  apply fieldOk_merged
  obtain ⟨h1, h2⟩ := h
  refine ⟨h1, ?_⟩
  have e : (fieldKey f).2 = typeKey f.2 := rfl
  rw [e] at h2 ⊢
  rcases typeKey_cases f.2 with ⟨ht, hk⟩ | ⟨ht, hk⟩ | ⟨ht, hk⟩ | ⟨ht, hk⟩ | ⟨ht, hk⟩ | hk
  any_goals (rw [hk] at h2 ⊢; exact h2)
  exact absurd ht hs

theorem colGroups_flatten (cs : List ColField) (cur : Dtype) :
    ((colGroups cs cur).flatten.filter fun k => k.1 ≠ recLenName) =
      ((cur ++ (cs.map fun c => fieldKey (c.name, c.type))).filter fun k => k.1 ≠ recLenName) := by
  induction cs generalizing cur with
  | nil => simp [colGroups]
  | cons c cs ih =>
    rw [colGroups]
    split
    · rename_i h
      rw [List.flatten_cons, List.filter_append, ih, List.map_cons]
      have e : fieldKey (c.name, c.type) = (c.name, .strRaw) := by
        unfold fieldKey
        simp only [h, typeKey_string]
      rw [e, List.filter_append, List.filter_append, List.filter_append]
      have e2 : List.filter (fun k => decide (k.1 ≠ recLenName)) [recLenKey] = [] := by decide +kernel
      rw [e2, List.append_nil, ← List.filter_append]
      rfl
    · rw [ih, List.append_assoc]
      rfl

theorem colGroups_one {cs : List ColField} {cur : Dtype} (h : ∀ c ∈ cs, c.type ≠ "string".toList) :
    colGroups cs cur = [cur ++ cs.map fun c => fieldKey (c.name, c.type)] := by
  induction cs generalizing cur with
  | nil => simp [colGroups]
  | cons c cs ih =>
    rw [colGroups, if_neg (h c (by simp)), ih (fun c hc => h c (by simp [hc])), List.append_assoc]
    rfl

theorem colGroups_pos (cs : List ColField) (cur : Dtype) : 1 ≤ (colGroups cs cur).length := by
  induction cs generalizing cur with
  | nil => simp [colGroups]
  | cons c cs ih =>
    rw [colGroups]
    split
    · simp
    · exact ih _

theorem colGroups_more {cs : List ColField} {cur : Dtype} (h : ∃ c ∈ cs, c.type = "string".toList) : 2 ≤ (colGroups cs cur).length := by
  induction cs generalizing cur with
  | nil => obtain ⟨c, hc, -⟩ := h; cases hc
  | cons c cs ih =>
    rw [colGroups]
    split
    · have := colGroups_pos cs [(c.name, .strRaw)]
      rw [List.length_cons]; omega
    · rename_i hs
      obtain ⟨d, hd, ht⟩ := h
      rcases List.mem_cons.mp hd with rfl | hd
      · exact absurd ht hs
      · exact ih ⟨d, hd, ht⟩

theorem paramKeys_flatten (ps : List ParamField) (m : Nat) :
    ((ps.flatMap (paramKeysOf false m)).flatten.filter fun k => k.1 ≠ recLenName) =
      (((ps.filter fun p => p.fixed = none).map fun p => fieldKey (p.name, p.type)).filter fun k => k.1 ≠ recLenName) := by
  induction ps with
  | nil => rfl
  | cons p ps ih =>
    rw [List.flatMap_cons, List.flatten_append, List.filter_append, ih]
    unfold paramKeysOf
    by_cases hf : p.fixed = none
    · rw [if_pos hf, List.filter_cons_of_pos (by simpa using hf), List.map_cons]
      by_cases ht : p.type = "string".toList
      · rw [if_pos ht]
        have e : fieldKey (p.name, p.type) = (p.name, .strRaw) := by
          unfold fieldKey
          simp only [ht, typeKey_string]
        rw [e]
        simp only [Bool.false_eq_true, if_false]
        rw [List.flatten_cons, List.filter_append]
        have e2 : List.filter (fun k => decide (k.1 ≠ recLenName)) [recLenKey] = [] := by decide +kernel
        rw [e2, List.nil_append, List.flatten_cons, List.flatten_nil, List.append_nil]
        rw [← List.filter_append]
        rfl
      · rw [if_neg ht, List.flatten_cons, List.flatten_nil, List.append_nil, ← List.filter_append]
        rfl
    · rw [if_neg hf, List.filter_cons_of_neg (by simpa using hf)]
      rfl

/-- What is proved of the records of one page of parameters. -/
def Reader.ParamPage (r : Reader) (page : List Record) : Prop :=
  (∀ rec ∈ page, List.Forall₂ (MergedVal r.maxStr) ((r.paramFields.map fieldKey).filter fun k => k.1 ≠ recLenName) rec) ∧
    page.length ≤ 1 ∧ (r.buffer = true → page.length = 1)

theorem addPage_params {r : Reader} (ha : r.ascii = false) {p : Pos} {x : List Arr × Pos} {page : List Record} (h : r.getParams r.paramKeys [] p = .ok x)
    (hp : addPage r.maxStr [x.1] = .ok page) : r.ParamPage page := by
  obtain ⟨new, e, hn⟩ := getParams_fields _ _ _ _ h
  rw [List.nil_append] at e
  rw [e] at hp
  unfold addPage at hp
  rw [List.mapM_cons, List.mapM_nil] at hp
  simp only [bind, Except.bind, pure, Except.pure] at hp
  have hk : r.paramKeys = [rowCountKey] :: r.params.flatMap (paramKeysOf false r.maxStr) := by
    unfold Reader.paramKeys
    simp [ha]
  have hflat : (r.paramKeys.flatten.filter fun k => k.1 ≠ recLenName) = ((r.paramFields.map fieldKey).filter fun k => k.1 ≠ recLenName) := by
    rw [hk, List.flatten_cons, List.filter_append, paramKeys_flatten]
    unfold Reader.paramFields
    rw [List.map_cons, List.map_map, ← List.filter_append, ]
    rfl
  cases hm : merge r.maxStr new with
  | error e => rw [hm] at hp; cases hp
  | ok out =>
    rw [hm] at hp
    simp only [List.flatten_cons, List.flatten_nil, List.append_nil, Except.ok.injEq] at hp
    subst hp
    by_cases h1 : r.paramKeys.length = 1
    · rw [hk] at hn h1
      have h0 : r.params.flatMap (paramKeysOf false r.maxStr) = [] := by
        rw [List.length_cons] at h1
        exact List.length_eq_zero_iff.mp (by omega)
      rw [h0] at hn
      cases hn with
      | @cons _ a _ _ h hs =>
        cases hs
        cases hm
        refine ⟨?_, h.2.2.1, h.2.2.2⟩
        intro rec hrec
        rw [← hflat, hk, h0]
        have := h.2.1 rec hrec
        have e3 : (List.filter (fun k => decide (k.1 ≠ recLenName)) ([[rowCountKey]] : List Dtype).flatten) = [rowCountKey] := by decide +kernel
        rw [e3]
        cases this with
        | cons hv hr => cases hr; exact .cons hv .nil
    · obtain ⟨rec, e2, hf⟩ := merge_fields h1 hn hm
      subst e2
      refine ⟨?_, by simp, by simp⟩
      intro rec' hrec
      rw [List.mem_singleton.mp hrec, ← hflat]
      exact hf

/-- What is proved of the records of one page of columns. -/
def Reader.ColPage (r : Reader) (page : List Record) : Prop :=
  ((∀ c ∈ r.cols, c.type ≠ "string".toList) → ∀ rec ∈ page, List.Forall₂ KeyVal (r.colFields.map fieldKey) rec) ∧
  ((∃ c ∈ r.cols, c.type = "string".toList) →
    ∀ rec ∈ page, List.Forall₂ (MergedVal r.maxStr) ((r.colFields.map fieldKey).filter fun k => k.1 ≠ recLenName) rec)

theorem mergeAll_pages {b : Bool} {m : Nat} {keys : List Dtype} (hk : keys.length ≠ 1) : ∀ (rows : List (List Arr)) (outs : List (List Record)),
    (∀ row ∈ rows, List.Forall₂ (GroupArr b 1) keys row) → rows.mapM (merge m) = .ok outs →
    ∀ rec ∈ outs.flatten, List.Forall₂ (MergedVal m) (keys.flatten.filter fun k => k.1 ≠ recLenName) rec := by
  intro rows
  induction rows with
  | nil => intro outs _ h; cases h; simp
  | cons row rows ih =>
    intro outs hr h
    rw [List.mapM_cons] at h
    simp only [bind, Except.bind, pure, Except.pure] at h
    cases h1 : merge m row with
    | error e => rw [h1] at h; cases h
    | ok out =>
      rw [h1] at h
      simp only at h
      split at h
      · cases h
      · rename_i outs' h2
        cases h
        intro rec hrec
        rw [List.flatten_cons, List.mem_append] at hrec
        rcases hrec with hrec | hrec
        · obtain ⟨rec', e, hf⟩ := merge_fields hk (hr row (by simp)) h1
          rw [e, List.mem_singleton] at hrec
          rw [hrec]
          exact hf
        · exact ih _ (fun row h => hr row (by simp [h])) h2 rec hrec

theorem addPage_cols {r : Reader} (ha : r.ascii = false) (hc : r.cols ≠ []) {n : Nat} {p : Pos} {x : List (List Arr) × Pos} {page : List Record}
    (h : r.getCols n p = .ok x) (hp : addPage r.maxStr x.1 = .ok page) : r.ColPage page := by
  have hk : r.colKeys = colGroups r.cols [] := by
    unfold Reader.colKeys
    simp [ha, hc]
  have hmap : (r.cols.map fun c => fieldKey (c.name, c.type)) = r.colFields.map fieldKey := by
    unfold Reader.colFields
    rw [List.map_map]
    rfl
  unfold Reader.getCols at h
  rw [hk] at h
  by_cases hs : ∃ c ∈ r.cols, c.type = "string".toList
  · refine ⟨fun hn => absurd hs (by push Not; exact hn), fun _ => ?_⟩
    have hl := colGroups_more (cur := []) hs
    have hflat := colGroups_flatten r.cols []
    rw [List.nil_append, hmap] at hflat
    rw [← hflat]
    unfold addPage at hp
    simp only [bind, Except.bind] at hp
    split at h
    · rename_i dk e
      rw [e] at hl
      simp at hl
    · cases hm : x.1.mapM (merge r.maxStr) with
      | error e => rw [hm] at hp; cases hp
      | ok outs =>
        rw [hm] at hp
        cases hp
        exact mergeAll_pages (by omega) _ _ (getRows_fields _ _ _ h).2 hm
  · refine ⟨fun _ => ?_, fun h => absurd h hs⟩
    push Not at hs
    rw [colGroups_one hs, List.nil_append, hmap] at h
    simp only [bind, Except.bind] at h
    cases h1 : r.readArr (r.colFields.map fieldKey) n p with
    | error e => rw [h1] at h; cases h
    | ok ap =>
      rw [h1] at h
      cases h
      unfold addPage at hp
      rw [List.mapM_cons, List.mapM_nil] at hp
      simp only [bind, Except.bind, pure, Except.pure, merge, List.flatten_cons, List.flatten_nil, List.append_nil, Except.ok.injEq] at hp
      subst hp
      exact (readArr_fields h1).2.1

/-- All pages kept are as proved. -/
def Reader.Kept (r : Reader) (pg : Pages) : Prop := (∀ page ∈ pg.params, r.ParamPage page) ∧ ∀ page ∈ pg.cols, r.ColPage page

theorem rowCount_cols {r : Reader} {pd : List Arr} {p : Pos} {n : Nat} (h : r.rowCount pd p = .ok n) (hn : n ≠ 0) : r.cols ≠ [] := by
  intro hc
  unfold Reader.rowCount at h
  rw [if_pos hc] at h
  cases h
  exact hn rfl

theorem readPage_kept {r : Reader} (ha : r.ascii = false) {all wanted : Bool} {p : Pos} {acc : Pages} {x : Pages × Pos} (hk : r.Kept acc)
    (h : r.readPage all wanted p acc = .ok x) : r.Kept x.1 := by
  unfold Reader.readPage at h
  cases h1 : r.getParams r.paramKeys [] p with
  | error e => rw [h1] at h; cases h
  | ok pdp =>
    rw [h1] at h
    have tail : ∀ acc1 : Pages, r.Kept acc1 → (do
        let rc ← r.rowCount pdp.1 pdp.2
        if rc = 0 then .ok (acc1, pdp.2)
        else if all || wanted || r.varLen then do
          let (cd, p2) ← r.getCols rc pdp.2
          let pg ← addPage r.maxStr cd
          .ok ({ acc1 with cols := acc1.cols ++ [pg] }, p2)
        else do
          let size ← itemSize (r.colKeys.headD [])
          .ok (acc1, { pdp.2 with position := pdp.2.position + size * rc }) : Except PyErr (Pages × Pos)) = .ok x → r.Kept x.1 := by
      intro acc1 hk1 h
      simp only [bind, Except.bind] at h
      cases hr : r.rowCount pdp.1 pdp.2 with
      | error e => rw [hr] at h; cases h
      | ok rc =>
        rw [hr] at h
        simp only at h
        by_cases h0 : rc = 0
        · rw [if_pos h0] at h
          cases h
          exact hk1
        · rw [if_neg h0] at h
          by_cases hw : (all || wanted || r.varLen) = true
          · rw [if_pos hw] at h
            cases hg : r.getCols rc pdp.2 with
            | error e => rw [hg] at h; cases h
            | ok cdp =>
              rw [hg] at h
              simp only at h
              cases hp : addPage r.maxStr cdp.1 with
              | error e => rw [hp] at h; cases h
              | ok pg =>
                rw [hp] at h
                cases h
                refine ⟨hk1.1, ?_⟩
                intro page hpage
                rcases List.mem_append.mp hpage with hpage | hpage
                · exact hk1.2 page hpage
                · rw [List.mem_singleton] at hpage
                  rw [hpage]
                  exact addPage_cols ha (rowCount_cols hr h0) hg hp
          · rw [if_neg hw] at h
            cases hi : itemSize (r.colKeys.headD []) with
            | error e => rw [hi] at h; cases h
            | ok s => rw [hi] at h; cases h; exact hk1
    cases wanted with
    | false => exact tail acc hk h
    | true =>
      cases hp : addPage r.maxStr [pdp.1] with
      | error e =>
        simp only [bind, Except.bind, if_true, hp] at h
        cases h
      | ok pg =>
        refine tail { acc with params := acc.params ++ [pg] } ⟨?_, hk.2⟩ ?_
        · intro page hpage
          rcases List.mem_append.mp hpage with hpage | hpage
          · exact hk.1 page hpage
          · rw [List.mem_singleton] at hpage
            rw [hpage]
            exact addPage_params ha h1 hp
        · simp only [bind, Except.bind, if_true, hp] at h ⊢
          exact h

theorem pageLeft_kept {r : Reader} (ha : r.ascii = false) {wanted : Bool} {p : Pos} {acc : Pages} (hk : r.Kept acc) : r.Kept (r.pageLeft wanted p acc) := by
  unfold Reader.pageLeft
  split
  · exact hk
  · rename_i pd p1 h1
    split
    · split
      · exact hk
      · rename_i pg hp
        refine ⟨?_, hk.2⟩
        intro page hpage
        rcases List.mem_append.mp hpage with hpage | hpage
        · exact hk.1 page hpage
        · rw [List.mem_singleton] at hpage
          rw [hpage]
          exact addPage_params ha h1 hp
    · exact hk

theorem loopKept_kept {r : Reader} (ha : r.ascii = false) (sel : Option (List Nat)) : ∀ (fuel page : Nat) (p : Pos) (acc : Pages) (x : Pages × Except PyErr Unit),
    r.Kept acc → r.loopKept sel fuel page p acc = some x → r.Kept x.1 := by
  intro fuel
  induction fuel with
  | zero => intro page p acc x _ h; cases h
  | succ fuel ih =>
    intro page p acc x hk h
    rw [Reader.loopKept] at h
    split at h
    · cases h; exact hk
    split at h
    · cases h; exact hk
    split at h
    · cases h; exact pageLeft_kept ha hk
    · rename_i hr
      exact ih _ _ _ _ (readPage_kept ha hk hr) h

theorem call_kept {r : Reader} (ha : r.ascii = false) {c : Conv} {fuel : Nat} {kept : Pages} {sel : Option (List Nat)} {x : Pages × Except PyErr Pages}
    (hk : r.Kept kept) (h : r.call c fuel kept sel = some x) : r.Kept x.1 ∧ ∀ pg, x.2 = .ok pg → exposed x.1 = .ok pg := by
  unfold Reader.call at h
  split at h
  · cases h; exact ⟨hk, by intro pg h; cases h⟩
  simp only [ha, Bool.false_eq_true, if_false] at h
  split at h
  · cases h
  · rename_i pg e hl
    cases h
    exact ⟨loopKept_kept ha sel _ _ _ _ _ hk hl, by intro pg h; cases h⟩
  · rename_i pg hl
    cases h
    exact ⟨loopKept_kept ha sel _ _ _ _ _ hk hl, fun _ h => h⟩

theorem calls_kept {r : Reader} (ha : r.ascii = false) {c : Conv} {fuel : Nat} : ∀ (sels : List (Option (List Nat))) (kept : Pages) (x : Pages × Except PyErr Pages),
    r.Kept kept → r.calls c fuel kept sels = some x → r.Kept x.1 ∧ ∀ pg, x.2 = .ok pg → exposed x.1 = .ok pg := by
  intro sels
  induction sels with
  | nil => intro kept x hk h; cases h; exact ⟨hk, fun _ h => h⟩
  | cons sel sels ih =>
    intro kept x hk h
    cases sels with
    | nil => exact call_kept ha hk h
    | cons sel2 sels =>
      rw [Reader.calls] at h
      · split at h
        · cases h
        · rename_i hc
          exact ih _ _ (call_kept ha hk hc).1 h
      · simp

theorem concat_input {pages out : List (List Record)} (h : concat pages = .ok out) : out = pages := by
  unfold concat at h
  split at h
  · cases h; rfl
  · split at h
    · cases h; rfl
    · cases h

theorem exposed_input {pg out : Pages} (h : exposed pg = .ok out) : out = pg := by
  unfold exposed at h
  cases h1 : concat pg.params with
  | error e => rw [h1] at h; cases h
  | ok ps =>
    rw [h1] at h
    cases h2 : concat pg.cols with
    | error e => rw [h2] at h; cases h
    | ok cs =>
      rw [h2] at h
      cases h
      rw [concat_input h1, concat_input h2]

theorem filter_recLen {fs : List (Str × Str)} (h : ∀ f ∈ fs, f.1 ≠ recLenName) : ((fs.map fieldKey).filter fun k => k.1 ≠ recLenName) = fs.map fieldKey := by
  rw [List.filter_eq_self]
  intro k hk
  obtain ⟨f, hf, rfl⟩ := List.mem_map.mp hk
  exact decide_eq_true (h f hf)

/-- **C127.** Whatever a binary file holds and whichever calls of `read` were made: if the last one succeeds, every record of the parameters has the row count
and the parameters without fixed value, every record of the columns has all columns, in the order of the header and each with a value of its type.
Each page has at most one record of parameters, and exactly one if the file was buffered. Fields with the name `record_length` are excluded. -/
theorem record_fields_partial {r : Reader} (ha : r.ascii = false) {c : Conv} {fuel : Nat} {sels : List (Option (List Nat))} {kept pg : Pages}
    (h : r.calls c fuel ⟨[], []⟩ sels = some (kept, .ok pg)) :
    ((∀ p ∈ r.params, p.name ≠ "record_length".toList) →
      ∀ page ∈ pg.params, ∀ rec ∈ page, List.Forall₂ (FieldOk r.maxStr) r.paramFields rec) ∧
    ((∀ c ∈ r.cols, c.name ≠ "record_length".toList) →
      ∀ page ∈ pg.cols, ∀ rec ∈ page, List.Forall₂ (FieldOk r.maxStr) r.colFields rec) ∧
    ∀ page ∈ pg.params, page.length ≤ 1 ∧ (r.buffer = true → page.length = 1) := by
  obtain ⟨hk, he⟩ := calls_kept ha sels ⟨[], []⟩ _ ⟨by simp, by simp⟩ h
  have e := exposed_input (he pg rfl)
  simp only at e hk
  subst e
  refine ⟨fun hp page hpage rec hrec => ?_, fun hc page hpage rec hrec => ?_, fun page hpage => (hk.1 page hpage).2⟩
  · have := (hk.1 page hpage).1 rec hrec
    rw [filter_recLen] at this
    · exact (List.forall₂_map_left_iff.mp this).imp fun _ _ => fieldOk_merged
    · intro f hf
      unfold Reader.paramFields at hf
      rcases List.mem_cons.mp hf with rfl | hf
      · decide +kernel
      · obtain ⟨p, hp', rfl⟩ := List.mem_map.mp hf
        exact hp p (List.mem_filter.mp hp').1
  · by_cases hs : ∃ c ∈ r.cols, c.type = "string".toList
    · have := (hk.2 page hpage).2 hs rec hrec
      rw [filter_recLen] at this
      · exact (List.forall₂_map_left_iff.mp this).imp fun _ _ => fieldOk_merged
      · intro f hf
        unfold Reader.colFields at hf
        obtain ⟨c, hc', rfl⟩ := List.mem_map.mp hf
        exact hc c hc'
    · push Not at hs
      have := (hk.2 page hpage).1 hs rec hrec
      have h2 := List.forall₂_map_left_iff.mp this
      refine (List.forall₂_iff_get.mpr ⟨h2.length_eq, fun i hi hi' => ?_⟩)
      apply fieldOk_read
      · have : r.colFields.get ⟨i, hi⟩ ∈ r.colFields := List.get_mem _ _
        unfold Reader.colFields at this
        obtain ⟨c, hc', e⟩ := List.mem_map.mp this
        intro h
        unfold Reader.colFields at h
        rw [← e] at h
        exact hs c hc' h
      · exact (List.forall₂_iff_get.mp h2).2 i hi hi'

/-- **C127, false in general.** A parameter with the name `record_length` never comes back, and neither does a column of that name if the file has a column
of type string. -/
theorem record_length_fails {r : Reader} (ha : r.ascii = false) {c : Conv} {fuel : Nat} {sels : List (Option (List Nat))} {kept pg : Pages}
    (h : r.calls c fuel ⟨[], []⟩ sels = some (kept, .ok pg)) :
    (∀ page ∈ pg.params, ∀ rec ∈ page, ∀ kv ∈ rec, kv.1 ≠ "record_length".toList) ∧
    ((∃ c ∈ r.cols, c.type = "string".toList) → ∀ page ∈ pg.cols, ∀ rec ∈ page, ∀ kv ∈ rec, kv.1 ≠ "record_length".toList) := by
  obtain ⟨hk, he⟩ := calls_kept ha sels ⟨[], []⟩ _ ⟨by simp, by simp⟩ h
  have e := exposed_input (he pg rfl)
  simp only at e hk
  subst e
  have aux : ∀ (dk : Dtype) (rec : Record), List.Forall₂ (MergedVal r.maxStr) (dk.filter fun k => k.1 ≠ recLenName) rec →
      ∀ kv ∈ rec, kv.1 ≠ recLenName := by
    intro dk rec hf kv hkv
    obtain ⟨i, hi, e⟩ := List.mem_iff_getElem.mp hkv
    have h2 := List.forall₂_iff_get.mp hf
    have := h2.2 i (by rw [h2.1]; exact hi) hi
    have hm : (dk.filter fun k => k.1 ≠ recLenName).get ⟨i, by rw [h2.1]; exact hi⟩ ∈ dk.filter fun k => k.1 ≠ recLenName := List.get_mem _ _
    have hn := (List.mem_filter.mp hm).2
    rw [← e]
    have h3 := this.1
    simp only [List.get_eq_getElem] at h3
    rw [h3]
    simpa using hn
  exact ⟨fun page hpage rec hrec => aux _ rec ((hk.1 page hpage).1 rec hrec),
    fun hs page hpage rec hrec => aux _ rec ((hk.2 page hpage).2 hs rec hrec)⟩

/-- The type that a column or parameter should have in `data_type`. -/
def declaredType (m : Nat) (type : Str) : MType := if type = "string".toList then .text m else .kept (typeKey type)

theorem mergedType_map (m : Nat) (keys : List Dtype) (fs : List (Str × Str))
    (h : (keys.flatten.filter fun k => k.1 ≠ recLenName) = fs.map fieldKey) : mergedType m keys = fs.map fun f => (f.1, declaredType m f.2) := by
  unfold mergedType
  rw [h, List.map_map]
  apply List.map_congr_left
  intro f _
  unfold fieldKey declaredType
  simp only [Function.comp_apply, Prod.mk.injEq, true_and]
  rcases typeKey_cases f.2 with ⟨ht, hk⟩ | ⟨ht, hk⟩ | ⟨ht, hk⟩ | ⟨ht, hk⟩ | ⟨ht, hk⟩ | hk
  · rw [hk, if_neg (by rw [ht]; decide +kernel)]
  · rw [hk, if_neg (by rw [ht]; decide +kernel)]
  · rw [hk, if_neg (by rw [ht]; decide +kernel)]
  · rw [hk, if_neg (by rw [ht]; decide +kernel)]
  · rw [hk, if_pos ht]
  · rw [hk, if_neg]
    intro ht
    rw [ht, typeKey_string] at hk
    cases hk

/-- **C127.** The columns of a file, binary or ASCII, are kept with a data type that has one field for each column: texts of `max_string_length` characters
for strings, the type of the header for others. -/
theorem column_data_type (r : Reader) (hc : r.cols ≠ []) (hn : ∀ c ∈ r.cols, c.name ≠ "record_length".toList) :
    r.attributes.columns = some ⟨r.cols.map fun c => (c.name, declaredType r.maxStr c.type), none⟩ := by
  have hfs : ∀ f ∈ r.colFields, f.1 ≠ recLenName := by
    intro f hf
    unfold Reader.colFields at hf
    obtain ⟨c, hc', rfl⟩ := List.mem_map.mp hf
    exact hn c hc'
  have hmap : (r.cols.map fun c => (c.name, declaredType r.maxStr c.type)) = r.colFields.map fun f => (f.1, declaredType r.maxStr f.2) := by
    unfold Reader.colFields
    rw [List.map_map]
    rfl
  unfold Reader.attributes initArray Reader.colKeys
  simp only [if_neg hc]
  rw [hmap]
  by_cases ha : r.ascii = true
  · simp only [ha, if_true, List.length_cons, List.length_nil, Nat.zero_lt_one, zero_add]
    rw [← mergedType_map r.maxStr [r.cols.map fun c => fieldKey (c.name, c.type)] r.colFields]
    · unfold mergedType
      rw [List.flatten_cons, List.flatten_nil, List.append_nil, List.flatten_cons, List.flatten_nil, List.append_nil, List.filter_map, List.filter_map,
        List.map_map, List.map_map]
      simp only [Option.some.injEq, StructData.mk.injEq, and_true]
      apply List.map_congr_left
      intro c _
      unfold fieldKey
      simp only [Function.comp_apply, Prod.mk.injEq, true_and]
      by_cases hs : c.type = "string".toList
      · simp only [if_pos hs]
        rw [hs, typeKey_string]
      · simp only [if_neg hs]
    · rw [List.flatten_cons, List.flatten_nil, List.append_nil]
      have := filter_recLen hfs
      unfold Reader.colFields at this ⊢
      rw [List.map_map] at this ⊢
      exact this
  · simp only [ha, Bool.false_eq_true, if_false]
    rw [if_pos (Nat.lt_of_succ_le (colGroups_pos r.cols []))]
    rw [mergedType_map r.maxStr _ r.colFields]
    rw [colGroups_flatten, List.nil_append]
    have := filter_recLen hfs
    unfold Reader.colFields at this ⊢
    rw [List.map_map] at this ⊢
    exact this

/-- **C127.** The accessors of every file that was opened, before a call of `read` and after a successful one: the parameters are always there, the columns
exactly if the header has some, and `arrays` always raises AttributeError. -/
theorem accessors_exact {ft : FloatText} {fuel : Nat} {buffer : Bool} {maxStr : Nat} {file : Bytes} {r : Reader}
    (h : openSdds ft fuel buffer maxStr file = some (.ok r)) (pg : Pages) :
    access r.attributes.parameters = .ok none ∧
    access r.attributes.columns = (if r.cols = [] then .error .attributeError else .ok none) ∧
    access r.attributes.arrays = .error .attributeError ∧
    access (r.attributes.afterRead pg).parameters = .ok (some pg.params) ∧
    access (r.attributes.afterRead pg).columns = (if r.cols = [] then .error .attributeError else .ok (some pg.cols)) ∧
    access (r.attributes.afterRead pg).arrays = .error .attributeError := by
  have hp : 0 < r.paramKeys.length := by
    unfold openSdds at h
    split at h
    · cases h
    · cases h
    · rename_i hd _
      simp only [Option.some.injEq, bind, Except.bind] at h
      split at h
      · cases h
      · split at h
        · cases h
        · split at h
          · cases h
          · rename_i hne
            cases h
            by_contra h0
            apply hne
            simp only [Nat.pos_iff_ne_zero, ne_eq, not_not, List.length_eq_zero_iff] at h0
            rw [h0]
            simp only [List.isEmpty_nil, Bool.and_true]
            by_contra ha
            unfold Reader.paramKeys at h0
            have ha' := Bool.eq_false_of_not_eq_true ha
            simp only [ha', Bool.not_false, if_true] at h0
            cases h0
  have hc : r.cols ≠ [] → 0 < r.colKeys.length := by
    intro hne
    unfold Reader.colKeys
    rw [if_neg hne]
    split
    · simp
    · exact colGroups_pos _ _
  unfold Reader.attributes Attributes.afterRead initArray
  rw [if_pos hp]
  refine ⟨rfl, ?_, rfl, rfl, ?_, rfl⟩
  · by_cases h0 : r.cols = []
    · rw [if_pos h0]
      unfold Reader.colKeys
      rw [if_pos h0]
      rfl
    · rw [if_neg h0, if_pos (hc h0)]
      rfl
  · by_cases h0 : r.cols = []
    · rw [if_pos h0]
      unfold Reader.colKeys
      rw [if_pos h0]
      rfl
    · rw [if_neg h0, if_pos (hc h0)]
      rfl

/-! Examples: a number and a string in one row, a column with the name `record_length`, and the file of C01. -/

def exFieldCol (name type : String) : ColField := ⟨name.toList, [], [], [], [], type.toList, none⟩

def exFieldReader (cols : List ColField) (file : Bytes) : Reader :=
  { file := file, buffer := true, maxStr := 5, headerEnd := 0, lineCount := 1, params := [], cols := cols, ascii := false, noRowCounts := false }

example (c : Conv) : ∃ pg, (exFieldReader [exFieldCol "n" "short", exFieldCol "s" "string"] [1, 0, 0, 0, 7, 0, 2, 0, 0, 0, 97, 98]).calls c 3 ⟨[], []⟩ [none] =
      some (pg, .ok pg) ∧ pg.cols = [[[("n".toList, .num .short 7), ("s".toList, .str [97, 98])]]] ∧
    ∀ page ∈ pg.cols, ∀ rec ∈ page, List.Forall₂ (FieldOk 5) [("n".toList, "short".toList), ("s".toList, "string".toList)] rec :=
  have h : (exFieldReader [exFieldCol "n" "short", exFieldCol "s" "string"] [1, 0, 0, 0, 7, 0, 2, 0, 0, 0, 97, 98]).calls c 3 ⟨[], []⟩ [none] =
      some (⟨[[[("row_counts".toList, .num .long 1)]]], [[[("n".toList, .num .short 7), ("s".toList, .str [97, 98])]]]⟩,
        .ok ⟨[[[("row_counts".toList, .num .long 1)]]], [[[("n".toList, .num .short 7), ("s".toList, .str [97, 98])]]]⟩) := by rfl
  ⟨_, h, rfl, (record_fields_partial rfl h).2.1 (by decide +kernel)⟩

example (c : Conv) : ∃ pg, (exFieldReader [exFieldCol "s" "string", exFieldCol "record_length" "short"] [1, 0, 0, 0, 2, 0, 0, 0, 97, 98, 7, 0]).calls c 3 ⟨[], []⟩
      [none] = some (pg, .ok pg) ∧ pg.cols = [[[("s".toList, .str [97, 98])]]] := by
  refine ⟨⟨[[[("row_counts".toList, .num .long 1)]]], [[[("s".toList, .str [97, 98])]]]⟩, ?_, rfl⟩
  rfl

example (c : Conv) : ∀ page ∈ [[[("s".toList, Val.str [97, 98])]]], ∀ rec ∈ page, ∀ kv ∈ rec, kv.1 ≠ "record_length".toList := by
  have h : (exFieldReader [exFieldCol "s" "string", exFieldCol "record_length" "short"] [1, 0, 0, 0, 2, 0, 0, 0, 97, 98, 7, 0]).calls c 3 ⟨[], []⟩ [none] =
      some (⟨[[[("row_counts".toList, .num .long 1)]]], [[[("s".toList, .str [97, 98])]]]⟩,
        .ok ⟨[[[("row_counts".toList, .num .long 1)]]], [[[("s".toList, .str [97, 98])]]]⟩) := by rfl
  exact (record_length_fails rfl h).2 (by decide +kernel)

example : (exFieldReader [exFieldCol "n" "short", exFieldCol "s" "string"] []).attributes.columns =
    some ⟨[("n".toList, .kept (.num .short)), ("s".toList, .text 5)], none⟩ :=
  (column_data_type _ (by decide +kernel) (by decide +kernel)).trans (by decide +kernel)

example : ∃ r, openSdds exText 20 true 50 (fileBytes exDoc exPages) = some (.ok r) ∧ access r.attributes.parameters = .ok none ∧
    access r.attributes.arrays = .error .attributeError := by
  obtain ⟨r, h, -⟩ := open_file exDoc_announces exPages (fuel := 20) (by decide) true 50
  have := accessors_exact h ⟨[], []⟩
  exact ⟨r, h, this.1, this.2.2.1⟩

end Verif.Sdds
