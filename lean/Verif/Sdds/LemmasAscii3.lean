import Verif.Sdds.LemmasAscii2

/-!
# Lemmas on ASCII SDDS files: what holds for every file

How far the position of a buffered reader moves, and the names of the fields.
-/

namespace Verif.Sdds

theorem genRows_length (white : Bool) (nb : Nat) (ls : List Bytes) : ∀ max : Option Nat, max ≠ some 0 →
    (genRows white nb max ls).1.length ≤ ls.length ∧ ∀ n, max = some n → (genRows white nb max ls).1.length ≤ n := by
  induction ls with
  | nil => intro max _; simp [genRows]
  | cons line ls ih =>
    intro max hm
    rw [genRows]
    simp only
    by_cases h1 : fieldsOf white line = []
    · rw [if_pos h1]
      obtain ⟨a, b⟩ := ih max hm
      exact ⟨by simp; omega, b⟩
    · rw [if_neg h1]
      by_cases h2 : (fieldsOf white line).length ≠ nb
      · rw [if_pos h2]
        obtain ⟨a, b⟩ := ih max hm
        exact ⟨by simp; omega, b⟩
      · rw [if_neg h2]
        by_cases h3 : max = some 1
        · rw [if_pos h3]
          refine ⟨by simp, ?_⟩
          intro n hn
          rw [h3, Option.some.injEq] at hn
          simp [← hn]
        · rw [if_neg h3]
          have hm' : max.map (· - 1) ≠ some 0 := by
            cases max with
            | none => simp
            | some n =>
              simp only [Option.map_some, ne_eq, Option.some.injEq] at hm h3 ⊢
              omega
          obtain ⟨a, b⟩ := ih _ hm'
          refine ⟨by simp; omega, ?_⟩
          intro n hn
          have hn0 : n ≠ 0 := by rintro rfl; exact hm hn
          have := b (n - 1) (by rw [hn]; rfl)
          simp only [List.length_cons]
          omega

theorem mapM_length {α β : Type} (f : α → Except PyErr β) : ∀ (l : List α) (r : List β), l.mapM f = .ok r → r.length = l.length := by
  intro l
  induction l with
  | nil => intro r h; cases h; rfl
  | cons a l ih =>
    intro r h
    rw [List.mapM_cons] at h
    cases h1 : f a with
    | error e => rw [h1] at h; cases h
    | ok b =>
      cases h2 : l.mapM f with
      | error e => rw [h1, h2] at h; cases h
      | ok bs =>
        rw [h1, h2] at h
        cases h
        simp [ih bs h2]

theorem mapM_mem {α β : Type} (f : α → Except PyErr β) : ∀ (l : List α) (r : List β), l.mapM f = .ok r → ∀ b ∈ r, ∃ a ∈ l, f a = .ok b := by
  intro l
  induction l with
  | nil => intro r h b hb; cases h; cases hb
  | cons a l ih =>
    intro r h b hb
    rw [List.mapM_cons] at h
    cases h1 : f a with
    | error e => rw [h1] at h; cases h
    | ok b' =>
      cases h2 : l.mapM f with
      | error e => rw [h1, h2] at h; cases h
      | ok bs =>
        rw [h1, h2] at h
        cases h
        rcases List.mem_cons.mp hb with rfl | hb
        · exact ⟨a, by simp, h1⟩
        · obtain ⟨x, hx, he⟩ := ih bs h2 b hb
          exact ⟨x, by simp [hx], he⟩

theorem genfromtxt_inv {c : Conv} {white : Bool} {dk : Dtype} {max : Option Int} {lines : List Bytes} {a : Arr} {rest : List Bytes}
    (h : genfromtxt c white dk max lines = .ok (a, rest)) :
    easyDtype dk = .ok a.dt ∧ 1 ≤ max.getD 1 ∧
      (genRows white (firstCount white lines) (max.map Int.toNat) lines).1.mapM (textRec c a.dt) = .ok a.rows := by
  unfold genfromtxt at h
  by_cases h1 : max.getD 1 < 1
  · rw [if_pos h1] at h; cases h
  · rw [if_neg h1] at h
    cases h2 : easyDtype dk with
    | error e => rw [h2] at h; cases h
    | ok dt =>
      rw [h2] at h
      simp only [bind, Except.bind] at h
      by_cases h3 : (genRows white (firstCount white lines) (max.map Int.toNat) lines).2.1 = true
      · rw [if_pos h3] at h; cases h
      · rw [if_neg h3] at h
        cases h4 : (genRows white (firstCount white lines) (max.map Int.toNat) lines).1.mapM (textRec c dt) with
        | error e => rw [h4] at h; cases h
        | ok recs =>
          rw [h4] at h
          cases h
          exact ⟨rfl, by omega, h4⟩

theorem genfromtxt_length {c : Conv} {white : Bool} {dk : Dtype} {max : Option Int} {lines : List Bytes} {a : Arr} {rest : List Bytes}
    (h : genfromtxt c white dk max lines = .ok (a, rest)) :
    a.rows.length ≤ lines.length ∧ ∀ n, max = some n → (a.rows.length : Int) ≤ n := by
  obtain ⟨_, h1, h2⟩ := genfromtxt_inv h
  have hl := mapM_length _ _ _ h2
  have hm : max.map Int.toNat ≠ some 0 := by
    cases max with
    | none => simp
    | some n =>
      simp only [Option.getD_some, Option.map_some, ne_eq, Option.some.injEq] at h1 ⊢
      omega
  obtain ⟨a1, a2⟩ := genRows_length white (firstCount white lines) lines _ hm
  rw [hl]
  refine ⟨a1, ?_⟩
  intro n hn
  have := a2 n.toNat (by rw [hn]; rfl)
  rw [hn, Option.getD_some] at h1
  omega

/-- A buffered reader moves one line for each parameter. -/
theorem Reader.textParams_pos {r : Reader} (hb : r.buffer = true) {c : Conv} : ∀ (dks : List Dtype) (acc : List Arr) (p : TPos) (x : List Arr × TPos),
    r.textParams c dks acc p = .ok x → x.2.position = p.position + dks.length := by
  intro dks
  induction dks with
  | nil => intro acc p x h; cases h; rfl
  | cons dk dks ih =>
    intro acc p x h
    rw [Reader.textParams] at h
    cases h1 : genfromtxt c false dk (some 1) ((r.source p).drop p.position) with
    | error e => rw [h1] at h; cases h
    | ok y =>
      rw [h1] at h
      simp only [bind, Except.bind, hb, if_true] at h
      have := ih _ _ _ h
      rw [this]
      simp only [List.length_cons]
      omega

theorem Reader.textCols_pos {r : Reader} (hb : r.buffer = true) {c : Conv} {n : Int} {p : TPos} {a : Arr} {p' : TPos}
    (h : r.textCols c (some n) p = .ok (a, p')) :
    p.position + 2 * a.rows.length ≤ p'.position ∧ (a.rows ≠ [] → p.position + a.rows.length ≤ (bufferLines r.file).length) := by
  unfold Reader.textCols at h
  cases h1 : genfromtxt c true (r.colKeys.headD []) (some n) ((r.source p).drop p.position) with
  | error e => rw [h1] at h; cases h
  | ok y =>
    rw [h1] at h
    obtain ⟨y1, y2⟩ := y
    simp only [bind, Except.bind, hb, if_true, Except.ok.injEq, Prod.mk.injEq] at h
    obtain ⟨rfl, rfl⟩ := h
    obtain ⟨l1, l2⟩ := genfromtxt_length h1
    have := l2 n rfl
    constructor
    · simp only [Option.getD_some]
      omega
    · intro hne
      have hpos := List.length_pos_of_ne_nil hne
      unfold Reader.source at l1
      rw [hb] at l1
      simp only [if_true, List.length_drop] at l1
      omega

theorem Reader.textRowCount_some {r : Reader} (hn : r.noRowCounts = false) {pd : List Arr} {p : TPos} {rc : Option Int}
    (h : r.textRowCount pd p = .ok rc) : ∃ n, rc = some n := by
  unfold Reader.textRowCount at h
  by_cases h0 : r.cols = []
  · rw [if_pos h0] at h
    cases h
    exact ⟨0, rfl⟩
  · rw [if_neg h0, hn] at h
    simp only [Bool.not_false, if_true] at h
    split at h
    · cases h
    · split at h
      · cases h
        exact ⟨_, rfl⟩
      · cases h
      · cases h

/-- The second half of the page loop. -/
def Reader.textTail (r : Reader) (c : Conv) (all wanted : Bool) (pd : List Arr) (acc1 : Pages) (p1 : TPos) : Except PyErr (Pages × TPos) := do
  let rc ← r.textRowCount pd p1
  if rc = some 0 then .ok (acc1, p1)
  else if all || wanted then do
    let (cd, p2) ← r.textCols c rc p1
    .ok ({ acc1 with cols := acc1.cols ++ [cd.rows] }, p2)
  else do
    let size ← itemSize (r.colKeys.headD [])
    match rc with
    | none => .error .typeError
    | some n => if n < 0 then .error .notModelled else .ok (acc1, { p1 with position := p1.position + size * n.toNat })

theorem Reader.textPage_split {r : Reader} {c : Conv} {all w : Bool} {p : TPos} {acc acc' : Pages} {p' : TPos}
    (h : r.textPage c all w p acc = .ok (acc', p')) :
    ∃ pd p1 acc1, r.textParams c r.paramKeys [] p = .ok (pd, p1) ∧
      (w = true → ∃ pg, textMerge r.maxStr r.paramKeys pd = .ok pg ∧ acc1 = ⟨acc.params ++ [pg], acc.cols⟩) ∧
      (w = false → acc1 = acc) ∧ r.textTail c all w pd acc1 p1 = .ok (acc', p') := by
  unfold Reader.textPage at h
  cases h1 : r.textParams c r.paramKeys [] p with
  | error e => rw [h1] at h; cases h
  | ok x =>
    obtain ⟨pd, p1⟩ := x
    rw [h1] at h
    cases w with
    | false => exact ⟨pd, p1, acc, rfl, by simp, fun _ => rfl, h⟩
    | true =>
      cases h2 : textMerge r.maxStr r.paramKeys pd with
      | error e =>
        simp only [bind, Except.bind, if_true, h2] at h
        cases h
      | ok pg =>
        simp only [bind, Except.bind, if_true, h2] at h
        exact ⟨pd, p1, _, rfl, fun _ => ⟨pg, h2, rfl⟩, by simp, h⟩

/-- What the second half does. -/
theorem Reader.textTail_split {r : Reader} {c : Conv} {all w : Bool} {pd : List Arr} {acc1 acc' : Pages} {p1 p' : TPos}
    (h : r.textTail c all w pd acc1 p1 = .ok (acc', p')) :
    acc'.params = acc1.params ∧ ((acc' = acc1 ∧ p1.position ≤ p'.position) ∨ ∃ rc a, r.textRowCount pd p1 = .ok rc ∧ r.textCols c rc p1 = .ok (a, p') ∧
      acc'.cols = acc1.cols ++ [a.rows]) := by
  unfold Reader.textTail at h
  cases h2 : r.textRowCount pd p1 with
  | error e => rw [h2] at h; cases h
  | ok rc =>
    rw [h2] at h
    simp only [bind, Except.bind] at h
    by_cases h0 : rc = some 0
    · rw [if_pos h0] at h
      simp only [Except.ok.injEq, Prod.mk.injEq] at h
      obtain ⟨rfl, rfl⟩ := h
      exact ⟨rfl, Or.inl ⟨rfl, by omega⟩⟩
    · rw [if_neg h0] at h
      by_cases hw : (all || w) = true
      · rw [if_pos hw] at h
        cases h3 : r.textCols c rc p1 with
        | error e => rw [h3] at h; cases h
        | ok y =>
          obtain ⟨a, p2⟩ := y
          rw [h3] at h
          simp only [Except.ok.injEq, Prod.mk.injEq] at h
          obtain ⟨rfl, rfl⟩ := h
          exact ⟨rfl, Or.inr ⟨rc, a, rfl, h3, rfl⟩⟩
      · rw [if_neg hw] at h
        cases h3 : itemSize (r.colKeys.headD []) with
        | error e => rw [h3] at h; cases h
        | ok size =>
          rw [h3] at h
          cases rc with
          | none => cases h
          | some n =>
            simp only at h
            by_cases hneg : n < 0
            · rw [if_pos hneg] at h; cases h
            · rw [if_neg hneg] at h
              simp only [Except.ok.injEq, Prod.mk.injEq] at h
              obtain ⟨rfl, rfl⟩ := h
              exact ⟨rfl, Or.inl ⟨rfl, by simp only; omega⟩⟩

/-- What one page does to the columns and to the position of a buffered reader. -/
theorem Reader.textPage_pos {r : Reader} (hb : r.buffer = true) (hn : r.noRowCounts = false) {c : Conv} {all w : Bool} {p : TPos} {acc : Pages} {acc' : Pages}
    {p' : TPos} (h : r.textPage c all w p acc = .ok (acc', p')) :
    p.position ≤ p'.position ∧ (acc'.cols = acc.cols ∨ ∃ rows, acc'.cols = acc.cols ++ [rows] ∧
      p.position + r.paramKeys.length + 2 * rows.length ≤ p'.position ∧
      (rows ≠ [] → p.position + r.paramKeys.length + rows.length ≤ (bufferLines r.file).length)) := by
  obtain ⟨pd, p1, acc1, h1, h2, h3, h4⟩ := Reader.textPage_split h
  have hp1 : p1.position = p.position + r.paramKeys.length := Reader.textParams_pos hb _ _ _ _ h1
  have hcols : acc1.cols = acc.cols := by
    cases w with
    | false => rw [h3 rfl]
    | true =>
      obtain ⟨pg, _, rfl⟩ := h2 rfl
      rfl
  obtain ⟨_, ⟨rfl, h6⟩ | ⟨rc, a, h6, h7, h8⟩⟩ := Reader.textTail_split h4
  · exact ⟨by omega, Or.inl hcols⟩
  · obtain ⟨n, rfl⟩ := Reader.textRowCount_some hn h6
    obtain ⟨g1, g2⟩ := Reader.textCols_pos hb h7
    refine ⟨by omega, Or.inr ⟨a.rows, by rw [h8, hcols], by omega, fun hne => ?_⟩⟩
    have := g2 hne
    omega

/-- If a buffered reader returns `m` pages of `n` rows each, the file has at least `m·k + (2m - 1)·n` lines after the header. -/
theorem Reader.textLoop_pos {r : Reader} (hb : r.buffer = true) (hn : r.noRowCounts = false) {c : Conv} {sel : Option (List Nat)} (n : Nat) (hpos : 0 < n) :
    ∀ (fuel k : Nat) (p : TPos) (acc out : Pages), r.textLoop c sel fuel k p acc = some (.ok out) →
    ∃ new, out.cols = acc.cols ++ new ∧ (new ≠ [] → (∀ rows ∈ new, rows.length = n) →
      p.position + new.length * r.paramKeys.length + (2 * new.length - 1) * n ≤ (bufferLines r.file).length) := by
  intro fuel
  induction fuel with
  | zero => intro k p acc out h; cases h
  | succ fuel ih =>
    intro k p acc out h
    unfold Reader.textLoop at h
    by_cases h1 : pastPages sel k = true
    · rw [if_pos h1] at h
      cases h
      exact ⟨[], by simp, fun hne => absurd rfl hne⟩
    · rw [if_neg h1] at h
      by_cases h2 : r.textEnd p = true
      · rw [if_pos h2] at h
        cases h
        exact ⟨[], by simp, fun hne => absurd rfl hne⟩
      · rw [if_neg h2] at h
        cases h3 : r.textPage c sel.isNone (wantedPage sel k) p acc with
        | error e => rw [h3] at h; cases h
        | ok x =>
          obtain ⟨acc', p'⟩ := x
          rw [h3] at h
          obtain ⟨new, e1, e2⟩ := ih _ _ _ _ h
          obtain ⟨g1, g2⟩ := Reader.textPage_pos hb hn h3
          rcases g2 with g2 | ⟨rows, g2, g3, g4⟩
          · refine ⟨new, by rw [e1, g2], fun hne hall => ?_⟩
            have := e2 hne hall
            omega
          · refine ⟨rows :: new, by rw [e1, g2]; simp, fun _ hall => ?_⟩
            have hr := hall rows (by simp)
            have hrne : rows ≠ [] := by
              rintro rfl
              simp at hr
              omega
            have g4 := g4 hrne
            by_cases hnew : new = []
            · subst hnew
              simp only [List.length_cons, List.length_nil]
              omega
            · have := e2 hnew fun x hx => hall x (by simp [hx])
              have hl : 0 < new.length := List.length_pos_of_ne_nil hnew
              simp only [List.length_cons]
              obtain ⟨q, hq⟩ : ∃ q, new.length = q + 1 := ⟨new.length - 1, by omega⟩
              rw [hq] at this ⊢
              rw [show 2 * (q + 1) - 1 = 2 * q + 1 by omega] at this
              rw [show 2 * (q + 1 + 1) - 1 = 2 * q + 1 + 2 by omega]
              rw [Nat.add_mul (2 * q + 1) 2 n, Nat.add_mul (q + 1) 1 r.paramKeys.length]
              rw [hr] at g3
              omega

theorem concat_eq {ps out : List (List Record)} (h : concat ps = .ok out) : out = ps := by
  cases ps with
  | nil => cases h; rfl
  | cons p ps =>
    simp only [concat] at h
    split at h
    · cases h; rfl
    · cases h

theorem Reader.readText_pages {r : Reader} {c : Conv} {fuel : Nat} {sel : Option (List Nat)} {out : Pages}
    (h : r.readText c fuel sel = some (.ok out)) :
    r.textLoop c sel fuel 0 ⟨if r.buffer then r.lineCount else 0, fileLines (r.file.drop r.headerEnd)⟩ ⟨[], []⟩ = some (.ok out) := by
  unfold Reader.readText at h
  by_cases h0 : sel = some []
  · rw [if_pos h0] at h; cases h
  · rw [if_neg h0] at h
    simp only at h
    split at h
    · cases h
    · cases h
    · rename_i pg hl
      rw [hl]
      simp only [bind, Except.bind, Option.some.injEq] at h
      cases h1 : concat pg.params with
      | error e => rw [h1] at h; cases h
      | ok ps =>
        rw [h1] at h
        cases h2 : concat pg.cols with
        | error e => rw [h2] at h; cases h
        | ok cs =>
          rw [h2] at h
          cases h
          rw [concat_eq h1, concat_eq h2]

/-! ## Names -/

theorem validNamesFrom_length (ns : List Str) : ∀ seen, (validNamesFrom seen ns).length = ns.length := by
  induction ns with
  | nil => intro _; rfl
  | cons n ns ih => intro seen; simp [validNamesFrom, ih]

theorem easyDtype_names {dk dt : Dtype} (h : easyDtype dk = .ok dt) : dt.map Prod.fst = validNames (dk.map Prod.fst) := by
  unfold easyDtype at h
  cases h1 : itemSize dk with
  | error e => rw [h1] at h; cases h
  | ok s =>
    rw [h1] at h
    simp only [bind, Except.bind] at h
    split at h
    · cases h
    · cases h
      rw [List.map_fst_zip]
      simp [validNames, validNamesFrom_length]

theorem mapM_zip_names (g : (Key × Bytes) → Except PyErr Val) (dt : Dtype) : ∀ (fields : List Bytes) (rec : Record),
    dt.length ≤ fields.length → (dt.zip fields).mapM (fun p => (g p).map fun v => (p.1.1, v)) = .ok rec → rec.map Prod.fst = dt.map Prod.fst := by
  induction dt with
  | nil => intro fields rec _ h; cases h; rfl
  | cons k dt ih =>
    intro fields rec hl h
    cases fields with
    | nil => simp at hl
    | cons s fields =>
      rw [List.zip_cons_cons, List.mapM_cons] at h
      cases h1 : g (k, s) with
      | error e => rw [h1] at h; cases h
      | ok v =>
        rw [h1] at h
        cases h2 : (dt.zip fields).mapM (fun p => (g p).map fun v => (p.1.1, v)) with
        | error e => rw [h2] at h; cases h
        | ok rs =>
          rw [h2] at h
          cases h
          rw [List.map_cons, List.map_cons, ih fields rs (by simpa using hl) h2]

theorem textRec_names {c : Conv} {dt : Dtype} {fields : List Bytes} {rec : Record} (h : textRec c dt fields = .ok rec) :
    rec.map Prod.fst = dt.map Prod.fst := by
  unfold textRec at h
  split at h
  · split at h
    · rename_i k _ s
      cases h1 : textVal c true k.2 s with
      | error e => rw [h1] at h; cases h
      | ok v => rw [h1] at h; cases h; rfl
    · cases h
  · split at h
    · cases h
    · rename_i hl
      exact mapM_zip_names (fun p => textVal c false p.1.2 p.2) dt fields rec (by omega) h

/-- The names of the records of an array. -/
theorem genfromtxt_names {c : Conv} {white : Bool} {dk : Dtype} {max : Option Int} {lines : List Bytes} {a : Arr} {rest : List Bytes}
    (h : genfromtxt c white dk max lines = .ok (a, rest)) :
    a.dt.map Prod.fst = validNames (dk.map Prod.fst) ∧ ∀ rec ∈ a.rows, rec.map Prod.fst = validNames (dk.map Prod.fst) := by
  obtain ⟨h1, _, h2⟩ := genfromtxt_inv h
  refine ⟨easyDtype_names h1, ?_⟩
  intro rec hrec
  obtain ⟨f, _, hf⟩ := mapM_mem _ _ _ h2 rec hrec
  rw [textRec_names hf, easyDtype_names h1]

/-- An array read with the key `dk`. -/
def NamedBy (dk : Dtype) (a : Arr) : Prop :=
  a.dt.map Prod.fst = validNames (dk.map Prod.fst) ∧ ∀ rec ∈ a.rows, rec.map Prod.fst = validNames (dk.map Prod.fst)

theorem Reader.textParams_names {r : Reader} {c : Conv} : ∀ (dks : List Dtype) (acc : List Arr) (p : TPos) (x : List Arr × TPos),
    r.textParams c dks acc p = .ok x → ∃ new, x.1 = acc ++ new ∧ List.Forall₂ NamedBy dks new := by
  intro dks
  induction dks with
  | nil => intro acc p x h; cases h; exact ⟨[], by simp, .nil⟩
  | cons dk dks ih =>
    intro acc p x h
    rw [Reader.textParams] at h
    cases h1 : genfromtxt c false dk (some 1) ((r.source p).drop p.position) with
    | error e => rw [h1] at h; cases h
    | ok y =>
      obtain ⟨a, rest⟩ := y
      rw [h1] at h
      simp only [bind, Except.bind] at h
      obtain ⟨new, e1, e2⟩ := ih _ _ _ h
      exact ⟨a :: new, by rw [e1]; simp, .cons (genfromtxt_names h1) e2⟩

theorem Reader.textCols_names {r : Reader} {c : Conv} {rc : Option Int} {p p' : TPos} {a : Arr} (h : r.textCols c rc p = .ok (a, p')) :
    NamedBy (r.colKeys.headD []) a := by
  unfold Reader.textCols at h
  cases h1 : genfromtxt c true (r.colKeys.headD []) rc ((r.source p).drop p.position) with
  | error e => rw [h1] at h; cases h
  | ok y =>
    obtain ⟨a', rest⟩ := y
    rw [h1] at h
    simp only [bind, Except.bind, Except.ok.injEq, Prod.mk.injEq] at h
    rw [← h.1]
    exact genfromtxt_names h1

/-- What holds for the pages of every successful read. -/
theorem Reader.textLoop_forall {r : Reader} {c : Conv} {sel : Option (List Nat)} (P Q : List Record → Prop)
    (hP : ∀ pd pg, List.Forall₂ NamedBy r.paramKeys pd → textMerge r.maxStr r.paramKeys pd = .ok pg → P pg)
    (hQ : ∀ a : Arr, NamedBy (r.colKeys.headD []) a → Q a.rows) :
    ∀ (fuel k : Nat) (p : TPos) (acc out : Pages), r.textLoop c sel fuel k p acc = some (.ok out) →
    (∀ x ∈ acc.params, P x) → (∀ x ∈ acc.cols, Q x) → (∀ x ∈ out.params, P x) ∧ ∀ x ∈ out.cols, Q x := by
  intro fuel
  induction fuel with
  | zero => intro k p acc out h; cases h
  | succ fuel ih =>
    intro k p acc out h hp hq
    unfold Reader.textLoop at h
    by_cases h1 : pastPages sel k = true
    · rw [if_pos h1] at h
      cases h
      exact ⟨hp, hq⟩
    · rw [if_neg h1] at h
      by_cases h2 : r.textEnd p = true
      · rw [if_pos h2] at h
        cases h
        exact ⟨hp, hq⟩
      · rw [if_neg h2] at h
        cases h3 : r.textPage c sel.isNone (wantedPage sel k) p acc with
        | error e => rw [h3] at h; cases h
        | ok x =>
          obtain ⟨acc', p'⟩ := x
          rw [h3] at h
          obtain ⟨pd, p1, acc1, g1, g2, g3, g4⟩ := Reader.textPage_split h3
          obtain ⟨new, e1, e2⟩ := Reader.textParams_names _ _ _ _ g1
          rw [List.nil_append] at e1
          have e1 : pd = new := e1
          subst e1
          have hacc1 : (∀ x ∈ acc1.params, P x) ∧ ∀ x ∈ acc1.cols, Q x := by
            cases hw : wantedPage sel k with
            | false => rw [g3 hw]; exact ⟨hp, hq⟩
            | true =>
              obtain ⟨pg, h5, rfl⟩ := g2 hw
              refine ⟨?_, hq⟩
              intro x hx
              rcases List.mem_append.mp hx with hx | hx
              · exact hp x hx
              · rw [List.mem_singleton.mp hx]
                exact hP pd pg e2 h5
          refine ih _ _ _ _ h ?_ ?_
          · rw [(Reader.textTail_split g4).1]
            exact hacc1.1
          · obtain ⟨_, ⟨rfl, _⟩ | ⟨rc, a, h6, h7, h8⟩⟩ := Reader.textTail_split g4
            · exact hacc1.2
            · rw [h8]
              intro x hx
              rcases List.mem_append.mp hx with hx | hx
              · exact hacc1.2 x hx
              · rw [List.mem_singleton.mp hx]
                exact hQ a (Reader.textCols_names h7)

theorem lastField_names {rec : Record} {n : Str} {kv : Str × Val} (h : lastField rec n = .ok kv) : kv.1 = n ∧ kv ∈ rec := by
  unfold lastField at h
  split at h
  · rename_i x hx
    cases h
    have := List.mem_filter.mp (List.mem_of_mem_getLast? hx)
    exact ⟨by simpa using this.2, this.1⟩
  · cases h

theorem mapM_lastField_names {rec : Record} : ∀ (ns : List Str) (out : Record), ns.mapM (lastField rec) = .ok out → out.map Prod.fst = ns := by
  intro ns
  induction ns with
  | nil => intro out h; cases h; rfl
  | cons n ns ih =>
    intro out h
    rw [List.mapM_cons] at h
    cases h1 : lastField rec n with
    | error e => rw [h1] at h; cases h
    | ok kv =>
      cases h2 : ns.mapM (lastField rec) with
      | error e => rw [h1, h2] at h; cases h
      | ok out' =>
        rw [h1, h2] at h
        cases h
        rw [List.map_cons, ih _ h2, (lastField_names h1).1]

theorem textMerge_cases {m : Nat} {keys : List Dtype} {arrs : List Arr} {pg : List Record} (h : textMerge m keys arrs = .ok pg) :
    (∃ a, arrs = [a] ∧ pg = a.rows) ∨ ∃ recs rec, arrs.mapM (textMergeOne m ((keys.flatMap fun dk => dk.map Prod.fst).filter (· ≠ recLenName))) = .ok recs ∧
      ((keys.flatMap fun dk => dk.map Prod.fst).filter (· ≠ recLenName)).mapM (lastField recs.flatten) = .ok rec ∧ pg = [rec] := by
  unfold textMerge at h
  split at h
  · rename_i a
    cases h
    exact Or.inl ⟨a, rfl, rfl⟩
  · simp only [bind, Except.bind] at h
    split at h
    · cases h
    · cases h1 : arrs.mapM (textMergeOne m ((keys.flatMap fun dk => dk.map Prod.fst).filter (· ≠ recLenName))) with
      | error e => rw [h1] at h; cases h
      | ok recs =>
        rw [h1] at h
        simp only at h
        cases h2 : ((keys.flatMap fun dk => dk.map Prod.fst).filter (· ≠ recLenName)).mapM (lastField recs.flatten) with
        | error e => rw [h2] at h; cases h
        | ok rec =>
          rw [h2] at h
          cases h
          exact Or.inr ⟨recs, rec, rfl, h2, rfl⟩

theorem keyNames (m : Nat) (fs : List (Str × SType)) : ((fs.map fun f => [tKey m f]).flatMap fun dk => dk.map Prod.fst) = fs.map Prod.fst := by
  induction fs with
  | nil => rfl
  | cons f fs ih =>
    rw [List.map_cons, List.flatMap_cons, ih]
    rfl

/-- Names that `genfromtxt` changes: the three excluded names, and names with blanks. -/
def ChangedName (n : Str) : Prop := n ∈ excludedNames ∨ ' ' ∈ n

theorem validName_ne {n m : Str} (h : ChangedName n) : validName m ≠ n := by
  intro he
  rcases h with h | h
  · unfold validName at he
    simp only at he
    split at he
    · rename_i hm
      generalize List.filter (fun x => decide (x ≠ '"')) (List.map (fun ch => if ch = ' ' then '_' else ch) (strip m)) = y at he hm
      subst he
      have : ∀ y ∈ excludedNames, y ++ ['_'] ∉ excludedNames := by decide
      exact this y hm h
    · rename_i hm
      exact hm (he ▸ h)
  · have hno : ' ' ∉ ((strip m).map fun ch => if ch = ' ' then '_' else ch).filter (· ≠ '"') := by
      intro hc
      have := (List.mem_filter.mp hc).1
      obtain ⟨ch, _, hch⟩ := List.mem_map.mp this
      split at hch
      · exact absurd hch (by decide)
      · exact absurd hch (by assumption)
    unfold validName at he
    simp only at he
    split at he
    · rw [← he] at h
      rcases List.mem_append.mp h with h | h
      · exact hno h
      · exact absurd h (by decide)
    · rw [← he] at h
      exact hno h

theorem validNamesFrom_ne {n : Str} (h : ChangedName n) (ns : List Str) : ∀ seen, n ∉ validNamesFrom seen ns := by
  induction ns with
  | nil => intro _ hc; cases hc
  | cons m ns ih =>
    intro seen hc
    rw [validNamesFrom] at hc
    rcases List.mem_cons.mp hc with hc | hc
    · by_cases h0 : seen.count (validName m) = 0
      · rw [if_pos h0] at hc
        exact validName_ne h hc.symm
      · rw [if_neg h0] at hc
        rcases h with h | h
        · have hu : '_' ∈ n := by
            rw [hc]
            exact List.mem_append_right _ List.mem_cons_self
          have : ∀ y ∈ excludedNames, '_' ∉ y := by decide
          exact this n h hu
        · rw [hc] at h
          rcases List.mem_append.mp h with h | h
          · have hv : ChangedName (validName m) := Or.inr h
            exact validName_ne hv rfl
          · rcases List.mem_cons.mp h with h | h
            · exact absurd h (by decide)
            · exact absurd (natStr_digits _ _ h) (by decide)
    · exact ih _ hc

theorem textMergeOne_names {m : Nat} {names : List Str} {a : Arr} {rec : Record} {L : List Str}
    (ha : ∀ x ∈ a.rows, x.map Prod.fst = L) (h : textMergeOne m names a = .ok rec) : ∀ kv ∈ rec, kv.1 ∈ L := by
  unfold textMergeOne at h
  split at h
  · cases h
    intro kv hkv
    cases hkv
  · split at h
    · split at h
      · rename_i rec' hr
        intro kv hkv
        obtain ⟨x, hx, hf⟩ := mapM_mem _ _ _ h kv hkv
        cases hc : castVal m x.2 with
        | error e => rw [hc] at hf; cases hf
        | ok v =>
          rw [hc] at hf
          cases hf
          rw [← ha rec' (by rw [hr]; simp)]
          exact List.mem_map.mpr ⟨x, (List.mem_filter.mp hx).1, rfl⟩
      · cases h
    · cases h

end Verif.Sdds
