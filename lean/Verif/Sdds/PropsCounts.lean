import Verif.Sdds.LemmasCounts
import Verif.Sdds.LemmasFile
import Verif.Sdds.PropsRead

/-!
# C133: reading a binary file always ends

The model of `Verif.Sdds.Counts`; `none` means that the page loop is still running after `fuel` pages.
-/

namespace Verif.Sdds

/-! ## The places where pages start -/

/-- Where the page after the one at `p` starts; `none` if the loop of `read()` ends there. -/
def Reader.nextPage (r : Reader) (p : ZPos) : Option ZPos :=
  if r.fileEndZ p then none
  else match r.readPageZ true true p ⟨[], []⟩ with
    | .ok x => some x.2
    | .error _ => none

/-- Where page `k` counted from the page at `p` starts. -/
def Reader.pagesFrom (r : Reader) : Nat → ZPos → Option ZPos
  | 0, p => some p
  | k + 1, p => (r.nextPage p).bind (r.pagesFrom k)

/-- Where page `k` starts; `none` if `read()` ends before. -/
def Reader.pageStart (r : Reader) (k : Nat) : Option ZPos := r.pagesFrom k ⟨if r.buffer then r.headerEnd else 0, r.headerEnd⟩

theorem readPageZ_snd (r : Reader) (all wanted : Bool) (p : ZPos) (acc acc' : ZPages) :
    (r.readPageZ all wanted p acc).map Prod.snd = (r.readPageZ all wanted p acc').map Prod.snd := by
  unfold Reader.readPageZ
  cases r.getParamsZ r.paramKeys [] p with
  | error e => rfl
  | ok x =>
    have key : ∀ a a' : ZPages, ((do
        let rc ← r.rowCountZ x.1 x.2
        if rc = 0 then .ok (a, x.2)
        else if all || wanted || r.varLen then do
          let (cd, p2) ← r.getColsZ rc x.2
          let pg ← addPageZ r.maxStr cd
          .ok ({ a with cols := a.cols ++ [pg] }, p2)
        else do
          let size ← itemSize (r.colKeys.headD [])
          .ok (a, { x.2 with position := x.2.position + size * rc }) : Except PyErr (ZPages × ZPos)).map Prod.snd) =
        ((do
        let rc ← r.rowCountZ x.1 x.2
        if rc = 0 then .ok (a', x.2)
        else if all || wanted || r.varLen then do
          let (cd, p2) ← r.getColsZ rc x.2
          let pg ← addPageZ r.maxStr cd
          .ok ({ a' with cols := a'.cols ++ [pg] }, p2)
        else do
          let size ← itemSize (r.colKeys.headD [])
          .ok (a', { x.2 with position := x.2.position + size * rc }) : Except PyErr (ZPages × ZPos)).map Prod.snd) := by
      intro a a'
      cases r.rowCountZ x.1 x.2 with
      | error e => rfl
      | ok rc =>
        simp only [bind, Except.bind]
        by_cases h0 : rc = 0
        · rw [if_pos h0, if_pos h0]; rfl
        · rw [if_neg h0, if_neg h0]
          by_cases hw : (all || wanted || r.varLen) = true
          · simp only [hw, if_true]
            cases r.getColsZ rc x.2 with
            | error e => rfl
            | ok y => cases h5 : addPageZ r.maxStr y.1 <;> simp [Except.map, h5]
          · simp only [hw]
            cases itemSize (r.colKeys.headD []) <;> rfl
    cases wanted with
    | false => exact key acc acc'
    | true =>
      simp only [bind, Except.bind, if_true]
      cases addPage r.maxStr [x.1] with
      | error e => rfl
      | ok pg => exact key { acc with params := acc.params ++ [pg] } { acc' with params := acc'.params ++ [pg] }

theorem pageLoopZ_none (r : Reader) (fuel : Nat) : ∀ (page : Nat) (p : ZPos) (acc : ZPages),
    r.pageLoopZ none fuel page p acc = none ↔ (r.pagesFrom fuel p).isSome = true := by
  induction fuel with
  | zero => intro page p acc; simp [Reader.pageLoopZ, Reader.pagesFrom]
  | succ fuel ih =>
    intro page p acc
    simp only [Reader.pageLoopZ, Reader.pagesFrom, Reader.nextPage, pastPages, wantedPage, Option.isNone_none, Bool.false_eq_true, if_false]
    by_cases hf : r.fileEndZ p = true
    · simp [hf]
    · rw [if_neg hf, if_neg hf]
      have h := readPageZ_snd r true true p acc ⟨[], []⟩
      cases h1 : r.readPageZ true true p acc with
      | error e =>
        rw [h1] at h
        cases h2 : r.readPageZ true true p ⟨[], []⟩ with
        | error e => simp
        | ok x => rw [h2] at h; cases h
      | ok y =>
        rw [h1] at h
        cases h2 : r.readPageZ true true p ⟨[], []⟩ with
        | error e => rw [h2] at h; cases h
        | ok x =>
          rw [h2] at h
          simp only [Except.map, Except.ok.injEq] at h
          simp only [Option.bind_some, ← h]
          exact ih _ _ _

theorem readZ_none (r : Reader) (fuel : Nat) : r.readZ fuel none = none ↔ (r.pageStart fuel).isSome = true := by
  unfold Reader.readZ Reader.pageStart
  rw [if_neg (by simp), ← pageLoopZ_none r fuel 0 _ ⟨[], []⟩]
  cases r.pageLoopZ none fuel 0 ⟨if r.buffer then r.headerEnd else 0, r.headerEnd⟩ ⟨[], []⟩ with
  | none => simp
  | some x => cases x <;> simp

theorem pagesFrom_add (r : Reader) (i j : Nat) : ∀ p : ZPos, r.pagesFrom (i + j) p = (r.pagesFrom i p).bind (r.pagesFrom j) := by
  induction i with
  | zero => intro p; simp [Reader.pagesFrom]
  | succ i ih =>
    intro p
    rw [Nat.add_right_comm]
    simp only [Reader.pagesFrom]
    cases r.nextPage p with
    | none => rfl
    | some q => exact ih q

theorem pageStart_mono (r : Reader) {i j : Nat} (h : i ≤ j) (hj : (r.pageStart j).isSome = true) : (r.pageStart i).isSome = true := by
  obtain ⟨k, rfl⟩ := Nat.exists_eq_add_of_le h
  unfold Reader.pageStart at *
  rw [pagesFrom_add] at hj
  cases hi : r.pagesFrom i ⟨if r.buffer then r.headerEnd else 0, r.headerEnd⟩ with
  | none => rw [hi] at hj; simp at hj
  | some q => rfl

/-! ## What one read does to the position -/

theorem readArrZ_buffered {r : Reader} (hb : r.buffer = true) {dk : Dtype} {count : Int} {p : ZPos} {x : Arr × ZPos} (h : r.readArrZ dk count p = .ok x) :
    ∃ size, itemSize dk = .ok size ∧ x.2 = { p with position := p.position + size * count } ∧ 0 ≤ p.position := by
  unfold Reader.readArrZ at h
  simp only [hb, if_true, bind, Except.bind] at h
  cases h1 : frombufferZ r.file dk count p.position with
  | error e => rw [h1] at h; cases h
  | ok a =>
    rw [h1] at h
    cases h2 : itemSize dk with
    | error e => rw [h2] at h; cases h
    | ok size =>
      rw [h2] at h
      cases h
      refine ⟨size, rfl, rfl, ?_⟩
      by_contra hn
      unfold frombufferZ at h1
      rw [if_pos (by omega), h2] at h1
      cases h1

theorem getParamsZ_buffered {r : Reader} (hb : r.buffer = true) (dks : List Dtype) : ∀ (acc : List Arr) (p : ZPos) (x : List Arr × ZPos),
    r.getParamsZ dks acc p = .ok x → x.2.ptr = p.ptr ∧ p.position ≤ x.2.position := by
  induction dks with
  | nil => intro acc p x h; cases h; exact ⟨rfl, le_refl _⟩
  | cons dk dks ih =>
    intro acc p x h
    simp only [Reader.getParamsZ, bind, Except.bind] at h
    cases h1 : resolve r.varLen acc.getLast? dk with
    | error e => rw [h1] at h; cases h
    | ok dk' =>
      simp only [h1] at h
      cases h2 : r.readArrZ dk' 1 p with
      | error e => rw [h2] at h; cases h
      | ok y =>
        simp only [h2] at h
        obtain ⟨size, -, hy, -⟩ := readArrZ_buffered hb h2
        obtain ⟨e1, e2⟩ := ih _ _ _ h
        rw [hy] at e1 e2
        exact ⟨e1, by simp only at e2; omega⟩

theorem getRowsZ_buffered {r : Reader} (hb : r.buffer = true) (keys : List Dtype) (n : Nat) : ∀ (p : ZPos) (x : List (List Arr) × ZPos),
    r.getRowsZ keys n p = .ok x → x.2.ptr = p.ptr ∧ p.position ≤ x.2.position := by
  induction n with
  | zero => intro p x h; cases h; exact ⟨rfl, le_refl _⟩
  | succ n ih =>
    intro p x h
    simp only [Reader.getRowsZ, bind, Except.bind] at h
    cases h1 : r.getParamsZ keys [] p with
    | error e => rw [h1] at h; cases h
    | ok y =>
      simp only [h1] at h
      cases h2 : r.getRowsZ keys n y.2 with
      | error e => rw [h2] at h; cases h
      | ok z =>
        simp only [h2] at h
        cases h
        obtain ⟨a1, a2⟩ := getParamsZ_buffered hb _ _ _ _ h1
        obtain ⟨b1, b2⟩ := ih _ _ h2
        exact ⟨b1.trans a1, a2.trans b2⟩

theorem getColsZ_buffered {r : Reader} (hb : r.buffer = true) {rc : Int} {p : ZPos} {x : List (List Arr) × ZPos} (h : r.getColsZ rc p = .ok x) :
    x.2.ptr = p.ptr ∧ (0 ≤ rc → p.position ≤ x.2.position) := by
  unfold Reader.getColsZ at h
  split at h
  · rename_i dk hk
    simp only [bind, Except.bind] at h
    cases h1 : r.readArrZ dk rc p with
    | error e => rw [h1] at h; cases h
    | ok y =>
      rw [h1] at h
      cases h
      obtain ⟨size, -, hy, -⟩ := readArrZ_buffered hb h1
      rw [hy]
      refine ⟨rfl, fun h0 => ?_⟩
      have : 0 ≤ (size : Int) * rc := mul_nonneg (by omega) h0
      simp only; omega
  · obtain ⟨a, b⟩ := getRowsZ_buffered hb _ _ _ _ h
    exact ⟨a, fun _ => b⟩

theorem getParamsZ_acc {r : Reader} (dks : List Dtype) : ∀ (acc : List Arr) (p : ZPos) (x : List Arr × ZPos),
    r.getParamsZ dks acc p = .ok x → ∃ more, x.1 = acc ++ more := by
  induction dks with
  | nil => intro acc p x h; cases h; exact ⟨[], by simp⟩
  | cons dk dks ih =>
    intro acc p x h
    simp only [Reader.getParamsZ, bind, Except.bind] at h
    cases h1 : resolve r.varLen acc.getLast? dk with
    | error e => rw [h1] at h; cases h
    | ok dk' =>
      simp only [h1] at h
      cases h2 : r.readArrZ dk' 1 p with
      | error e => rw [h2] at h; cases h
      | ok y =>
        simp only [h2] at h
        obtain ⟨more, hm⟩ := ih _ _ _ h
        exact ⟨y.1 :: more, by rw [hm]; simp⟩

theorem paramKeys_binary {r : Reader} (ha : r.ascii = false) : ∃ ks, r.paramKeys = [rowCountKey] :: ks := by
  unfold Reader.paramKeys
  rw [ha]
  exact ⟨_, rfl⟩

theorem itemSize_count : itemSize [rowCountKey] = .ok 4 := by decide +kernel

/-- The parameters of a page, split into the row count and the others. -/
theorem getParamsZ_split {r : Reader} (ha : r.ascii = false) {p : ZPos} {x : List Arr × ZPos} (h : r.getParamsZ r.paramKeys [] p = .ok x) :
    ∃ ks y more, r.paramKeys = [rowCountKey] :: ks ∧ r.readArrZ [rowCountKey] 1 p = .ok y ∧ r.getParamsZ ks [y.1] y.2 = .ok x ∧ x.1 = y.1 :: more := by
  obtain ⟨ks, hk⟩ := paramKeys_binary ha
  rw [hk] at h
  simp only [Reader.getParamsZ, bind, Except.bind, List.getLast?_nil] at h
  have hres : resolve r.varLen none [rowCountKey] = .ok [rowCountKey] := by unfold resolve; cases r.varLen <;> rfl
  rw [hres] at h
  simp only at h
  cases h2 : r.readArrZ [rowCountKey] 1 p with
  | error e => rw [h2] at h; cases h
  | ok y =>
    simp only [h2, List.nil_append] at h
    obtain ⟨more, hm⟩ := getParamsZ_acc _ _ _ _ h
    exact ⟨ks, y, more, hk, rfl, h, by rw [hm]; rfl⟩

/-- The four bytes at a place of the file as a row count. -/
def countAt (file : Bytes) (n : Nat) : Int := ofBits 4 (leNat ((file.drop n).take 4))

theorem readCount_buffered {r : Reader} (hb : r.buffer = true) {p : ZPos} {y : Arr × ZPos} (h : r.readArrZ [rowCountKey] 1 p = .ok y) :
    y.1 = ⟨[rowCountKey], [[(rowCountsName, .num .long (leNat ((r.file.drop p.position.toNat).take 4)))]]⟩ := by
  unfold Reader.readArrZ at h
  simp only [hb, if_true, bind, Except.bind, itemSize_count] at h
  cases h1 : frombufferZ r.file [rowCountKey] 1 p.position with
  | error e => rw [h1] at h; cases h
  | ok a =>
    rw [h1] at h
    cases h
    unfold frombufferZ frombuffer at h1
    simp only [itemSize_count, bind, Except.bind] at h1
    split at h1
    · cases h1
    · rw [if_pos (by decide)] at h1
      rw [if_neg (by decide)] at h1
      split at h1
      · cases h1
      · split at h1
        · cases h1
        · cases h1; rfl

theorem rowCountZ_counts {r : Reader} (hn : r.noRowCounts = false) {x : Nat} {more : List Arr} {p : ZPos} {rc : Int}
    (h : r.rowCountZ (⟨[rowCountKey], [[(rowCountsName, .num .long x)]]⟩ :: more) p = .ok rc) : rc = if r.cols = [] then 0 else ofBits 4 x := by
  unfold Reader.rowCountZ at h
  by_cases hc : r.cols = []
  · rw [if_pos hc] at h; cases h; rw [if_pos hc]
  · rw [if_neg hc, hn] at h
    simp only [Bool.not_false, if_true] at h
    rw [List.find?_cons_of_pos (by simp [rowCountKey])] at h
    simp only [List.head?_cons, Option.bind_some] at h
    have : recField rowCountsName [(rowCountsName, Val.num .long x)] = some (.num .long x) := by simp [recField]
    rw [this] at h
    cases h
    rw [if_neg hc]; rfl

theorem rowCountZ_lines {r : Reader} (hn : r.noRowCounts = true) {pd : List Arr} {p : ZPos} {rc : Int} (h : r.rowCountZ pd p = .ok rc) : 0 ≤ rc := by
  unfold Reader.rowCountZ at h
  by_cases hc : r.cols = []
  · rw [if_pos hc] at h; cases h; exact le_refl _
  · rw [if_neg hc, hn] at h
    simp only [Bool.not_true, Bool.false_eq_true, if_false] at h
    split at h
    · split at h
      · cases h; omega
      · cases h
    · cases h; omega

/-- The parts of a page that was read by `read()`. -/
theorem readPageZ_parts {r : Reader} {p : ZPos} {acc : ZPages} {x : ZPages × ZPos} (h : r.readPageZ true true p acc = .ok x) :
    ∃ y rc, r.getParamsZ r.paramKeys [] p = .ok y ∧ r.rowCountZ y.1 y.2 = .ok rc ∧
      ((rc = 0 ∧ x.2 = y.2) ∨ (rc ≠ 0 ∧ ∃ z, r.getColsZ rc y.2 = .ok z ∧ x.2 = z.2)) := by
  unfold Reader.readPageZ at h
  cases h1 : r.getParamsZ r.paramKeys [] p with
  | error e => rw [h1] at h; cases h
  | ok y =>
    simp only [h1, bind, Except.bind, if_true] at h
    cases h2 : addPage r.maxStr [y.1] with
    | error e => rw [h2] at h; cases h
    | ok pg =>
      simp only [h2] at h
      cases h3 : r.rowCountZ y.1 y.2 with
      | error e => rw [h3] at h; cases h
      | ok rc =>
        simp only [h3] at h
        refine ⟨y, rc, rfl, h3, ?_⟩
        by_cases h0 : rc = 0
        · rw [if_pos h0] at h; cases h; exact .inl ⟨h0, rfl⟩
        · rw [if_neg h0] at h
          simp only [Bool.true_or, if_true] at h
          cases h4 : r.getColsZ rc y.2 with
          | error e => rw [h4] at h; cases h
          | ok z =>
            simp only [h4] at h
            cases h5 : addPageZ r.maxStr z.1 with
            | error e => rw [h5] at h; cases h
            | ok pg2 => simp only [h5] at h; cases h; exact .inr ⟨h0, z, rfl, rfl⟩

theorem nextPage_some {r : Reader} {p q : ZPos} (h : r.nextPage p = some q) :
    r.fileEndZ p = false ∧ ∃ acc, r.readPageZ true true p ⟨[], []⟩ = .ok (acc, q) := by
  unfold Reader.nextPage at h
  by_cases hf : r.fileEndZ p = true
  · rw [if_pos hf] at h; cases h
  · rw [if_neg hf] at h
    refine ⟨by simpa using hf, ?_⟩
    cases h1 : r.readPageZ true true p ⟨[], []⟩ with
    | error e => rw [h1] at h; cases h
    | ok x => rw [h1] at h; cases h; exact ⟨x.1, rfl⟩

theorem nextPage_buffered {r : Reader} (hb : r.buffer = true) (ha : r.ascii = false) {p q : ZPos} (h : r.nextPage p = some q) :
    q.ptr = p.ptr ∧ 0 ≤ p.position ∧ p.position < r.file.length ∧
      ((r.noRowCounts = false → 0 ≤ countAt r.file p.position.toNat) → p.position < q.position) := by
  obtain ⟨hf, acc, hp⟩ := nextPage_some h
  have hlt : p.position < r.file.length := by
    unfold Reader.fileEndZ at hf
    simp only [hb, if_true, decide_eq_false_iff_not] at hf
    omega
  obtain ⟨y, rc, h1, h2, h3⟩ := readPageZ_parts hp
  obtain ⟨ks, c, more, -, hc, hks, hy⟩ := getParamsZ_split ha h1
  obtain ⟨size, hs, hc2, h0⟩ := readArrZ_buffered hb hc
  rw [itemSize_count] at hs
  cases hs
  obtain ⟨e1, e2⟩ := getParamsZ_buffered hb _ _ _ _ hks
  rw [hc2] at e1 e2
  simp only at e1 e2
  have hrc : (r.noRowCounts = false → 0 ≤ countAt r.file p.position.toNat) → 0 ≤ rc := by
    intro hh
    cases hn : r.noRowCounts with
    | true => exact rowCountZ_lines hn h2
    | false =>
      rw [hy, readCount_buffered hb hc] at h2
      rw [rowCountZ_counts hn h2]
      split
      · exact le_refl _
      · exact hh hn
  rcases h3 with ⟨-, hx⟩ | ⟨-, z, hz, hx⟩
  · rw [show q = y.2 from hx]
    exact ⟨e1, h0, hlt, fun _ => by omega⟩
  · rw [show q = z.2 from hx]
    obtain ⟨a, b⟩ := getColsZ_buffered hb hz
    exact ⟨a.trans e1, h0, hlt, fun hh => by have := b (hrc hh); omega⟩

/-! ## Without buffer the file position only grows -/

theorem fromfileZ_grows {buf : Bytes} {dk : Dtype} {count : Int} {ptr : Nat} {x : Arr × Nat} (h : fromfileZ buf dk count 0 ptr = .ok x) :
    ptr ≤ x.2 ∧ (count = 1 → ptr < buf.length → ptr < x.2) := by
  unfold fromfileZ at h
  rw [if_neg (by omega)] at h
  have e : ((ptr : Int) + 0).toNat = ptr := by omega
  rw [e] at h
  simp only at h
  by_cases hc : 0 ≤ count
  · rw [if_pos hc] at h
    unfold fromfile at h
    simp only [bind, Except.bind, Nat.add_zero] at h
    split at h
    · cases h
    · rename_i size hs
      by_cases h0 : size = 0
      · rw [if_pos h0] at h; cases h
      · rw [if_neg h0] at h
        split at h
        · cases h
          simp only
          exact ⟨by omega, fun _ _ => by omega⟩
        · cases h
          simp only
          refine ⟨by omega, fun hc1 _ => ?_⟩
          subst hc1
          have : (1 : Int).toNat * size = size := by simp
          omega
  · rw [if_neg hc] at h
    simp only [bind, Except.bind] at h
    split at h
    · cases h
    · split at h
      · cases h
      · split at h
        · cases h
        · cases h
          simp only
          exact ⟨by omega, fun hc1 => by omega⟩

theorem readArrZ_unbuffered {r : Reader} (hb : r.buffer = false) {dk : Dtype} {count : Int} {p : ZPos} {x : Arr × ZPos} (h0 : p.position = 0)
    (h : r.readArrZ dk count p = .ok x) : x.2.position = 0 ∧ p.ptr ≤ x.2.ptr ∧ (count = 1 → p.ptr < r.file.length → p.ptr < x.2.ptr) := by
  unfold Reader.readArrZ at h
  simp only [hb, Bool.false_eq_true, if_false, bind, Except.bind, h0] at h
  cases h1 : fromfileZ r.file dk count 0 p.ptr with
  | error e => rw [h1] at h; cases h
  | ok y =>
    rw [h1] at h
    cases h
    exact ⟨rfl, fromfileZ_grows h1⟩

theorem getParamsZ_unbuffered {r : Reader} (hb : r.buffer = false) (dks : List Dtype) : ∀ (acc : List Arr) (p : ZPos) (x : List Arr × ZPos),
    p.position = 0 → r.getParamsZ dks acc p = .ok x → x.2.position = 0 ∧ p.ptr ≤ x.2.ptr := by
  induction dks with
  | nil => intro acc p x h0 h; cases h; exact ⟨h0, le_refl _⟩
  | cons dk dks ih =>
    intro acc p x h0 h
    simp only [Reader.getParamsZ, bind, Except.bind] at h
    cases h1 : resolve r.varLen acc.getLast? dk with
    | error e => rw [h1] at h; cases h
    | ok dk' =>
      simp only [h1] at h
      cases h2 : r.readArrZ dk' 1 p with
      | error e => rw [h2] at h; cases h
      | ok y =>
        simp only [h2] at h
        obtain ⟨hy0, hy, -⟩ := readArrZ_unbuffered hb h0 h2
        obtain ⟨e1, e2⟩ := ih _ _ _ hy0 h
        exact ⟨e1, hy.trans e2⟩

theorem getRowsZ_unbuffered {r : Reader} (hb : r.buffer = false) (keys : List Dtype) (n : Nat) : ∀ (p : ZPos) (x : List (List Arr) × ZPos),
    p.position = 0 → r.getRowsZ keys n p = .ok x → x.2.position = 0 ∧ p.ptr ≤ x.2.ptr := by
  induction n with
  | zero => intro p x h0 h; cases h; exact ⟨h0, le_refl _⟩
  | succ n ih =>
    intro p x h0 h
    simp only [Reader.getRowsZ, bind, Except.bind] at h
    cases h1 : r.getParamsZ keys [] p with
    | error e => rw [h1] at h; cases h
    | ok y =>
      simp only [h1] at h
      cases h2 : r.getRowsZ keys n y.2 with
      | error e => rw [h2] at h; cases h
      | ok z =>
        simp only [h2] at h
        cases h
        obtain ⟨a1, a2⟩ := getParamsZ_unbuffered hb _ _ _ _ h0 h1
        obtain ⟨b1, b2⟩ := ih _ _ a1 h2
        exact ⟨b1, a2.trans b2⟩

theorem getColsZ_unbuffered {r : Reader} (hb : r.buffer = false) {rc : Int} {p : ZPos} {x : List (List Arr) × ZPos} (h0 : p.position = 0)
    (h : r.getColsZ rc p = .ok x) : x.2.position = 0 ∧ p.ptr ≤ x.2.ptr := by
  unfold Reader.getColsZ at h
  split at h
  · rename_i dk hk
    simp only [bind, Except.bind] at h
    cases h1 : r.readArrZ dk rc p with
    | error e => rw [h1] at h; cases h
    | ok y =>
      rw [h1] at h
      cases h
      obtain ⟨a, b, -⟩ := readArrZ_unbuffered hb h0 h1
      exact ⟨a, b⟩
  · exact getRowsZ_unbuffered hb _ _ _ _ h0 h

theorem nextPage_unbuffered {r : Reader} (hb : r.buffer = false) (ha : r.ascii = false) {p q : ZPos} (h0 : p.position = 0) (h : r.nextPage p = some q) :
    q.position = 0 ∧ p.ptr < q.ptr ∧ p.ptr < r.file.length := by
  obtain ⟨hf, acc, hp⟩ := nextPage_some h
  have hlt : p.ptr < r.file.length := by
    by_contra hn
    unfold Reader.fileEndZ at hf
    simp only [hb, Bool.false_eq_true, if_false] at hf
    rw [List.drop_eq_nil_iff.mpr (by omega)] at hf
    cases hf
  obtain ⟨y, rc, h1, h2, h3⟩ := readPageZ_parts hp
  obtain ⟨ks, c, more, -, hc, hks, hy⟩ := getParamsZ_split ha h1
  obtain ⟨c0, -, cg⟩ := readArrZ_unbuffered hb h0 hc
  obtain ⟨d0, dg⟩ := getParamsZ_unbuffered hb _ _ _ _ c0 hks
  have hg := cg rfl hlt
  rcases h3 with ⟨-, hx⟩ | ⟨-, z, hz, hx⟩
  · rw [show q = y.2 from hx]
    exact ⟨d0, by omega, hlt⟩
  · rw [show q = z.2 from hx]
    obtain ⟨a, b⟩ := getColsZ_unbuffered hb d0 hz
    exact ⟨a, by omega, hlt⟩

/-! ## C133 -/

theorem pageLoopZ_selected (r : Reader) (s : List Nat) (fuel : Nat) : ∀ (page : Nat) (p : ZPos) (acc : ZPages),
    s.foldl max 0 + 2 ≤ page + fuel → 0 < fuel → r.pageLoopZ (some s) fuel page p acc ≠ none := by
  induction fuel with
  | zero => intro page p acc _ h; omega
  | succ fuel ih =>
    intro page p acc hf _
    simp only [Reader.pageLoopZ]
    by_cases h1 : pastPages (some s) page = true
    · simp [h1]
    · have h1' : ¬ s.foldl max 0 < page := by simpa [pastPages] using h1
      rw [if_neg h1]
      by_cases h2 : r.fileEndZ p = true
      · simp [h2]
      · rw [if_neg h2]
        cases h3 : r.readPageZ (some s).isNone (wantedPage (some s) page) p acc with
        | error e => simp
        | ok x => exact ih _ _ _ (by omega) (by omega)

/-- **C133, selected pages.** A call with a list of pages ends for every file, with or without buffer, after at most two pages more than the largest
number in the list. -/
theorem selected_ends_partial (r : Reader) (s : List Nat) : r.readZ (s.foldl max 0 + 2) (some s) ≠ none := by
  unfold Reader.readZ
  by_cases hs : s = []
  · rw [hs]; simp
  · rw [if_neg (by simpa using hs)]
    have h := pageLoopZ_selected r s (s.foldl max 0 + 2) 0 ⟨if r.buffer then r.headerEnd else 0, r.headerEnd⟩ ⟨[], []⟩ (by omega) (by omega)
    cases h1 : r.pageLoopZ (some s) (s.foldl max 0 + 2) 0 ⟨if r.buffer then r.headerEnd else 0, r.headerEnd⟩ ⟨[], []⟩ with
    | none => exact absurd h1 h
    | some x => cases x <;> simp

theorem pagesFrom_unbuffered {r : Reader} (hb : r.buffer = false) (ha : r.ascii = false) (k : Nat) : ∀ p : ZPos, p.position = 0 →
    (r.pagesFrom k p).isSome = true → k ≤ r.file.length - p.ptr := by
  induction k with
  | zero => intro p _ _; omega
  | succ k ih =>
    intro p h0 h
    simp only [Reader.pagesFrom] at h
    cases hn : r.nextPage p with
    | none => rw [hn] at h; cases h
    | some q =>
      rw [hn] at h
      obtain ⟨a, b, c⟩ := nextPage_unbuffered hb ha h0 hn
      have := ih q a h
      omega

/-- **C133, without buffer.** `read()` of an unbuffered binary file ends for every file, whatever the row counts are. -/
theorem unbuffered_ends_partial (r : Reader) (hb : r.buffer = false) (ha : r.ascii = false) : r.readZ (r.file.length + 1) none ≠ none := by
  rw [Ne, readZ_none]
  intro h
  unfold Reader.pageStart at h
  rw [hb] at h
  have := pagesFrom_unbuffered hb ha _ _ rfl h
  omega

theorem pageStart_succ (r : Reader) (k : Nat) : r.pageStart (k + 1) = (r.pageStart k).bind r.nextPage := by
  unfold Reader.pageStart
  rw [pagesFrom_add]
  congr 1
  funext p
  simp [Reader.pagesFrom]

/-- **C133, with buffer.** `read()` of a buffered binary file ends if no page starts with a negative row count, or if the header says that there are none. -/
theorem buffered_ends_partial (r : Reader) (hb : r.buffer = true) (ha : r.ascii = false)
    (h : r.noRowCounts = false → ∀ k p, r.pageStart k = some p → 0 ≤ countAt r.file p.position.toNat) : r.readZ (r.file.length + 1) none ≠ none := by
  rw [Ne, readZ_none]
  intro hs
  have key : ∀ k p, r.pageStart k = some p → (k : Int) ≤ p.position := by
    intro k
    induction k with
    | zero =>
      intro p hp
      unfold Reader.pageStart at hp
      simp only [Reader.pagesFrom, hb, if_true, Option.some.injEq] at hp
      rw [← hp]; simp
    | succ k ih =>
      intro q hq
      rw [pageStart_succ] at hq
      cases hp : r.pageStart k with
      | none => rw [hp] at hq; cases hq
      | some p =>
        rw [hp] at hq
        obtain ⟨-, -, -, hlt⟩ := nextPage_buffered hb ha hq
        have := ih p hp
        have := hlt (fun hn => h hn k p hp)
        omega
  obtain ⟨q, hq⟩ := Option.isSome_iff_exists.mp hs
  rw [pageStart_succ] at hq
  cases hp : r.pageStart r.file.length with
  | none => rw [hp] at hq; cases hq
  | some p =>
    rw [hp] at hq
    obtain ⟨-, -, hlt, -⟩ := nextPage_buffered hb ha hq
    have := key _ _ hp
    omega

/-- **C133, exactly.** `read()` of a buffered binary file never ends exactly if two pages start at the same place. -/
theorem never_ends_iff (r : Reader) (hb : r.buffer = true) (ha : r.ascii = false) :
    (∀ fuel, r.readZ fuel none = none) ↔ ∃ i j p, i < j ∧ r.pageStart i = some p ∧ r.pageStart j = some p := by
  constructor
  · intro h
    have hs : ∀ k, ∃ p, r.pageStart k = some p := fun k => Option.isSome_iff_exists.mp ((readZ_none r k).mp (h k))
    choose f hf using hs
    have hnext : ∀ k, r.nextPage (f k) = some (f (k + 1)) := by
      intro k
      have := hf (k + 1)
      rw [pageStart_succ, hf k] at this
      exact this
    have hptr : ∀ k, (f k).ptr = r.headerEnd := by
      intro k
      induction k with
      | zero =>
        have := hf 0
        unfold Reader.pageStart at this
        simp only [Reader.pagesFrom, Option.some.injEq] at this
        rw [← this]
      | succ k ih => rw [(nextPage_buffered hb ha (hnext k)).1, ih]
    have hpos : ∀ k, 0 ≤ (f k).position ∧ (f k).position < r.file.length := fun k =>
      ⟨(nextPage_buffered hb ha (hnext k)).2.1, (nextPage_buffered hb ha (hnext k)).2.2.1⟩
    let g : ℕ → Fin (r.file.length + 1) := fun k => ⟨(f k).position.toNat, by have := hpos k; omega⟩
    obtain ⟨i, j, hij, hg⟩ := Finite.exists_ne_map_eq_of_infinite g
    have he : f i = f j := by
      have e1 : (f i).position.toNat = (f j).position.toNat := congrArg Fin.val hg
      have e2 : (f i).position = (f j).position := by have := hpos i; have := hpos j; omega
      have e3 : (f i).ptr = (f j).ptr := by rw [hptr i, hptr j]
      cases hi : f i
      cases hj : f j
      rw [hi, hj] at e2 e3
      simp only at e2 e3
      rw [e2, e3]
    rcases lt_or_gt_of_ne hij with hlt | hlt
    · exact ⟨i, j, f i, hlt, hf i, by rw [he]; exact hf j⟩
    · exact ⟨j, i, f j, hlt, hf j, by rw [← he]; exact hf i⟩
  · rintro ⟨i, j, p, hij, hi, hj⟩ fuel
    rw [readZ_none]
    obtain ⟨m, rfl⟩ := Nat.exists_eq_add_of_lt hij
    have hm : r.pagesFrom (m + 1) p = some p := by
      unfold Reader.pageStart at hi hj
      rw [Nat.add_assoc, pagesFrom_add, hi] at hj
      exact hj
    have hrep : ∀ n, r.pagesFrom (n * (m + 1)) p = some p := by
      intro n
      induction n with
      | zero => simp [Reader.pagesFrom]
      | succ n ih => rw [Nat.succ_mul, pagesFrom_add, ih]; exact hm
    refine pageStart_mono r (j := i + fuel * (m + 1)) ?_ ?_
    · have : fuel ≤ fuel * (m + 1) := Nat.le_mul_of_pos_right _ (by omega)
      omega
    · unfold Reader.pageStart at hi ⊢
      rw [pagesFrom_add, hi]
      simp [hrep]

/-! ## Files that are never read to the end -/

/-- A row that fits numeric columns. -/
def zeroRow (cols : List (Str × SType)) : List Val := cols.map fun f => match f.2 with | .num t => .num t 0 | .str => .str []

theorem zeroRow_fits (m : Nat) (cols : List (Str × SType)) (hs : SType.str ∉ cols.map Prod.snd) :
    List.Forall₂ (fun f v => Fits m f.2 v) cols (zeroRow cols) := by
  induction cols with
  | nil => exact .nil
  | cons f cols ih =>
    simp only [List.map_cons, List.mem_cons, not_or] at hs
    refine .cons ?_ (ih hs.2)
    obtain ⟨n, t⟩ := f
    cases t with
    | num t => exact ⟨rfl, by positivity⟩
    | str => simp at hs

theorem zeroRow_last (cols : List (Str × SType)) (hs : SType.str ∉ cols.map Prod.snd) : (zeroRow cols).getLast? ≠ some (.str []) := by
  intro h
  have := List.mem_of_getLast? h
  obtain ⟨f, hf, e⟩ := List.mem_map.mp this
  obtain ⟨n, t⟩ := f
  cases t with
  | num t => cases e
  | str => exact hs (List.mem_map.mpr ⟨_, hf, rfl⟩)

/-- The arrays of the parameters of a page whose row count has the bits `x`. -/
def countArrs (l : Layout) (x : Nat) (vs : List Val) : List Arr := ⟨fDt [rcField x], [[rcField x]]⟩ :: paramArrs (fields l.params vs)

theorem countParams_ok {r : Reader} {l : Layout} (hd : r.Describes l) (hl : l.Ok) {vs : List Val} (hv : List.Forall₂ (fun f v => Fits r.maxStr f.2 v) l.params vs)
    (hne : Val.str [] ∉ vs) {x : Nat} (hx : x < 4294967296) {p : Pos} (hp : r.PosOk p) {rest : Bytes}
    (hf : r.file.drop (r.cur p) = (leBytes 4 x ++ vs.flatMap encodeVal) ++ rest) (hc : r.cur p ≤ r.file.length) :
    r.getParams r.paramKeys [] p = .ok (countArrs l x vs, r.adv p (4 + (vs.flatMap encodeVal).length)) := by
  obtain ⟨e1, e2, e3⟩ := fields_spec hv
  have hk : r.paramKeys = paramDks (rcField x :: fields l.params vs) := by
    unfold Reader.paramKeys
    rw [hd.binary]
    simp only [Bool.not_false, if_true]
    rw [paramKeys_fields r.params r.maxStr l.params hd.params, ← paramDks_fields hv]
    rfl
  have he : leBytes 4 x ++ vs.flatMap encodeVal = encFs (rcField x :: fields l.params vs) := by
    rw [← e3]
    simp [encFs, rcField, encodeVal, FType.size]
  have hlen : 4 + (vs.flatMap encodeVal).length = (encFs (rcField x :: fields l.params vs)).length := by
    rw [← he]; simp
  rw [hk, hlen]
  rw [he] at hf
  rw [Reader.getParams_ok (m := r.maxStr) _ [] p hp ?_ ?_ ?_ ?_ (by intro x hx; simp at hx) rest hf hc]
  · rfl
  · intro f hf
    rcases List.mem_cons.mp hf with rfl | hf
    · simpa [ValOk, rcField, FType.size] using hx
    · exact e2 f hf
  · intro f hf
    rcases List.mem_cons.mp hf with rfl | hf
    · exact rowCounts_ne
    · intro hn
      apply hl.2.1
      rw [← e1, ← hn]
      exact List.mem_map.mpr ⟨f, hf, rfl⟩
  · intro f hf
    rcases List.mem_cons.mp hf with rfl | hf
    · simp [rcField]
    · intro hs
      apply hne
      rw [← fields_snd hv, ← hs]
      exact List.mem_map_of_mem hf
  · intro f hf hs
    rcases List.mem_cons.mp hf with rfl | hf
    · obtain ⟨s, hs⟩ := hs
      simp [rcField] at hs
    · obtain ⟨s, hs⟩ := hs
      apply hd.varLen_true
      rw [List.map_append, List.mem_append]
      exact Or.inl (fields_str hv hf hs)

theorem countParams_merge {l : Layout} (hl : l.Ok) {m : Nat} {vs : List Val} (hv : List.Forall₂ (fun f v => Fits m f.2 v) l.params vs)
    {x : Nat} (hx : x < 4294967296) : addPage m [countArrs l x vs] = .ok [rcField x :: fields l.params vs] := by
  obtain ⟨e1, e2, e3⟩ := fields_spec hv
  have hn : ∀ f ∈ fields l.params vs, f.1 ≠ recLenName := by
    intro f hf hn
    apply hl.2.1
    rw [← e1, ← hn]
    exact List.mem_map.mpr ⟨f, hf, rfl⟩
  have hm : merge m (countArrs l x vs) = .ok [rcField x :: fields l.params vs] := by
    by_cases hfs : paramArrs (fields l.params vs) = []
    · have : fields l.params vs = [] := by
        generalize fields l.params vs = fs at hfs
        cases fs with
        | nil => rfl
        | cons f fs =>
          obtain ⟨n, v⟩ := f
          cases v <;> simp [paramArrs] at hfs
      unfold countArrs
      rw [this]
      rfl
    · obtain ⟨L, hL1, hL2⟩ := mergeAll_params (m := m) _ e2 hn
      have h0 := mergeOne_plain (m := m) [rcField x]
        (by simpa [ValOk, rcField, FType.size] using hx) (by simpa [rcField] using rowCounts_ne)
      rw [merge_general (L := [rcField x] :: L) ?_ ?_ ?_]
      · rw [List.flatten_cons, hL2]; rfl
      · intro a ha
        unfold countArrs at ha
        injection ha with _ ha
        exact hfs ha
      · exact mapM_ok_cons _ _ _ _ _ h0 hL1
      · unfold countArrs
        rw [List.flatMap_cons, List.filter_append, names_params _ hn, e1]
        have := hl.1
        simpa [fDt_names, rcField, rowCounts_ne] using this
  unfold addPage
  rw [List.mapM_cons, hm]
  rfl

theorem ofBits_neg {k : Nat} (h0 : 0 < k) (h : k ≤ 2147483648) : ofBits 4 (4294967296 - k) = -(k : Int) := by
  unfold ofBits
  norm_num
  omega

/-- The header, one page with the row count `-k`, and further bytes. -/
def negativeFile (d : Doc) (k : Nat) (vs : List Val) (tail : Bytes) : Bytes :=
  utf8 d.text ++ ((leBytes 4 (4294967296 - k) ++ vs.flatMap encodeVal) ++ tail)

/-- **C133, the other files.** Every file whose first page has a negative row count `-k` such that `k` rows are as long as the parameters of the page
(with the row count), and where the rest is a whole number of rows: a buffered `read()` reads the first page again and again and never ends. Rows are
numbers, parameters can be strings. -/
theorem negative_rows_fails {ft : FloatText} {d : Doc} {l : Layout} (h : d.Announces ft l) (hl : l.Ok) (hcols : l.cols ≠ [])
    (hs : SType.str ∉ l.cols.map Prod.snd) {maxStr : Nat} {vs : List Val} (hv : List.Forall₂ (fun f v => Fits maxStr f.2 v) l.params vs)
    (hne : Val.str [] ∉ vs) {k : Nat} (hk0 : 0 < k) (hk : k ≤ 2147483648)
    (hsize : (l.cols.map fun f => match f.2 with | .num t => t.size | .str => 0).sum * k = 4 + (vs.flatMap encodeVal).length)
    {tail : Bytes} (htail : tail.length % (l.cols.map fun f => match f.2 with | .num t => t.size | .str => 0).sum = 0)
    {fuel : Nat} (hfuel : d.comments.length + d.namelists.length + 2 ≤ fuel) :
    ∃ r, openSdds ft fuel true maxStr (negativeFile d k vs tail) = some (.ok r) ∧ ∀ n, r.readZ n none = none := by
  obtain ⟨ps, hp1, hp2⟩ := params_of _ _ h.params h.fixed
  obtain ⟨cs, hc1, hc2⟩ := cols_of _ _ h.cols h.noLength
  refine ⟨_, open_doc ft h.ok _ hfuel true maxStr hp1 hc1 h.mode, ?_⟩
  generalize hr : (Reader.mk (utf8 d.text ++ ((leBytes 4 (4294967296 - k) ++ vs.flatMap encodeVal) ++ tail)) true maxStr (utf8 d.text).length
    (d.namelists.length + 2) ps cs false (textTrue (attrVal d.data "no_row_counts".toList))) = r
  have hd : r.Describes l := by
    subst hr
    refine ⟨rfl, ?_, hp2, hc2⟩
    simp only [h.counts]
    rfl
  have hb : r.buffer = true := by subst hr; rfl
  have ha : r.ascii = false := by subst hr; rfl
  have hfile : r.file = utf8 d.text ++ ((leBytes 4 (4294967296 - k) ++ vs.flatMap encodeVal) ++ tail) := by subst hr; rfl
  have hend : r.headerEnd = (utf8 d.text).length := by subst hr; rfl
  have hmax : r.maxStr = maxStr := by subst hr; rfl
  clear hr
  subst hmax
  have hpg : PageOk r.maxStr l ⟨vs, [zeroRow l.cols]⟩ := by
    refine ⟨hv, ?_, by simp, hne, ?_⟩
    · intro row hrow
      rw [List.mem_singleton.mp hrow]
      exact zeroRow_fits _ _ hs
    · intro row hrow
      rw [List.mem_singleton.mp hrow]
      exact zeroRow_last _ hs
  have hkeys := Reader.colKeys_num hd hpg hcols hs (by simp)
  have hitem := itemSize_numDt hl hpg hs (by simp)
  have hspos := rowSize_pos hpg hcols hs (by simp)
  change rowSize l.cols * k = _ at hsize
  change tail.length % rowSize l.cols = 0 at htail
  set P := (vs.flatMap encodeVal).length with hP
  set H := (utf8 d.text).length with hH
  let p0 : Pos := ⟨H, H⟩
  have hcur : r.cur p0 = H := by simp [Reader.cur, hb, p0]
  have hlen : r.file.length = H + (4 + P) + tail.length := by
    rw [hfile]; simp [hP, hH]; omega
  have hdrop : r.file.drop (r.cur p0) = (leBytes 4 (4294967296 - k) ++ vs.flatMap encodeVal) ++ tail := by
    rw [hcur, hfile, hH, List.drop_left]
  have hpar := countParams_ok hd hl hv hne (x := 4294967296 - k) (by omega) (p := p0) (fun hf => by rw [hb] at hf; cases hf) hdrop (by omega)
  have hadv : (r.adv p0 (4 + P)).toZ = ⟨((H + (4 + P) : Nat) : Int), H⟩ := by simp [Reader.adv, hb, p0, Pos.toZ]
  have hnext : r.nextPage ⟨H, H⟩ = some ⟨H, H⟩ := by
    unfold Reader.nextPage
    have hfe : r.fileEndZ ⟨H, H⟩ = false := by
      unfold Reader.fileEndZ
      simp only [hb, if_true, decide_eq_false_iff_not]
      omega
    rw [hfe]
    simp only [Bool.false_eq_true, if_false]
    have hz : r.getParamsZ r.paramKeys [] ⟨H, H⟩ = .ok (countArrs l (4294967296 - k) vs, ⟨((H + (4 + P) : Nat) : Int), H⟩) := by
      have := getParamsZ_nat r r.paramKeys [] p0
      rw [hpar] at this
      simp only [Except.map] at this
      rw [← hP, hadv] at this
      exact this
    have hrc : r.rowCountZ (countArrs l (4294967296 - k) vs) ⟨((H + (4 + P) : Nat) : Int), H⟩ = .ok (-(k : Int)) := by
      have hcne : r.cols ≠ [] := by
        intro h
        have := hd.cols
        rw [h, List.map_nil] at this
        exact hcols (List.map_eq_nil_iff.mp this.symm)
      unfold Reader.rowCountZ
      rw [if_neg hcne, hd.counts]
      simp only [Bool.not_false, if_true, countArrs]
      rw [List.find?_cons_of_pos (by simp [fDt, rcField])]
      simp only [List.head?_cons, Option.bind_some]
      have : recField rowCountsName [rcField (4294967296 - k)] = some (.num .long (4294967296 - k)) := by
        simp [recField, rcField]
      rw [this]
      simp only [FType.size, ofBits_neg hk0 hk]
    have hcd : ∃ a, r.getColsZ (-(k : Int)) ⟨((H + (4 + P) : Nat) : Int), H⟩ = .ok ([[a]], ⟨H, H⟩) := by
      unfold Reader.getColsZ
      rw [hkeys]
      simp only [Reader.readArrZ, hb, if_true, frombufferZ, hitem, bind, Except.bind]
      rw [if_neg (by omega), if_neg (by omega), if_neg (by omega), if_neg (by simp only [Int.toNat_natCast]; omega)]
      have e : r.file.length - ((H + (4 + P) : Nat) : Int).toNat = tail.length := by
        rw [Int.toNat_natCast]; omega
      rw [e, htail]
      simp only [ne_eq, not_true_eq_false, if_false]
      refine ⟨⟨numDt l.cols, decodeRows (numDt l.cols) (rowSize l.cols) (tail.length / rowSize l.cols) (r.file.drop (((H + (4 + P) : Nat) : Int).toNat))⟩, ?_⟩
      congr 2
      have : ((rowSize l.cols : Nat) : Int) * (-(k : Int)) = -((4 + P : Nat) : Int) := by
        rw [mul_neg, ← Nat.cast_mul, hsize]
      rw [this]
      congr 1
      push_cast
      ring
    obtain ⟨a, hcd⟩ := hcd
    unfold Reader.readPageZ
    rw [hz]
    simp only [bind, Except.bind, if_true, countParams_merge hl hv (x := 4294967296 - k) (by omega), hrc]
    rw [if_neg (by omega)]
    simp only [Bool.true_or, if_true, hcd, addPageZ]
    simp [addPage, merge, Except.map, bind, Except.bind, pure, Except.pure]
  rw [never_ends_iff r hb ha]
  have h0 : r.pageStart 0 = some ⟨H, H⟩ := by
    unfold Reader.pageStart
    simp [Reader.pagesFrom, hb, hend]
  refine ⟨0, 1, ⟨H, H⟩, by omega, h0, ?_⟩
  rw [pageStart_succ, h0]
  exact hnext

/-- The file of two pages, and a file of the same header whose row count is -1. -/
example : ∃ r, openSdds exText 20 true 50 (negativeFile exDoc 1 [.num .double 7] []) = some (.ok r) ∧ ∀ n, r.readZ n none = none :=
  negative_rows_fails exDoc_announces exLayout_ok (by decide) (by decide) (by
    refine .cons ?_ .nil
    exact ⟨rfl, by decide⟩) (by decide) (by decide) (by decide) (by decide) (by decide) (by decide)

/-- The same with 24 bytes behind the parameters; a selection of page 3 ends. -/
example : ∃ r, openSdds exText 20 true 50 (negativeFile exDoc 1 [.num .double 7] (List.replicate 24 1)) = some (.ok r) ∧ (∀ n, r.readZ n none = none) ∧
    r.readZ 5 (some [3]) ≠ none := by
  obtain ⟨r, h1, h2⟩ := negative_rows_fails exDoc_announces exLayout_ok (maxStr := 50) (vs := [.num .double 7]) (k := 1)
    (tail := List.replicate 24 1) (fuel := 20) (by decide) (by decide) (by
    refine .cons ?_ .nil
    exact ⟨rfl, by decide⟩) (by decide) (by decide) (by decide) (by decide) (by decide) (by decide)
  exact ⟨r, h1, h2, selected_ends_partial r [3]⟩

example : ∃ r, openSdds exText 20 false 50 (negativeFile exDoc 1 [.num .double 7] []) = some (.ok r) ∧ r.readZ (r.file.length + 1) none ≠ none := by
  have hfuel : exDoc.comments.length + exDoc.namelists.length + 2 ≤ 20 := by decide
  obtain ⟨ps, hp1, hp2⟩ := params_of _ _ exDoc_announces.params exDoc_announces.fixed
  obtain ⟨cs, hc1, hc2⟩ := cols_of _ _ exDoc_announces.cols exDoc_announces.noLength
  exact ⟨_, open_doc exText exDoc_announces.ok _ hfuel false 50 hp1 hc1 exDoc_announces.mode, unbuffered_ends_partial _ rfl rfl⟩

/-- A reader of a file with the row count 0, as a case of `buffered_ends_partial`. -/
def exZero : Reader := ⟨[0, 0, 0, 0], true, 100, 0, 0, [], [⟨"x".toList, [], [], [], [], "long".toList, none⟩], false, false⟩

example : exZero.readZ 5 none ≠ none := by
  refine buffered_ends_partial exZero rfl rfl ?_
  intro _ k p hk
  match k with
  | 0 =>
    have : exZero.pageStart 0 = some ⟨0, 0⟩ := by decide +kernel
    rw [this] at hk; cases hk; decide +kernel
  | 1 =>
    have : exZero.pageStart 1 = some ⟨4, 0⟩ := by decide +kernel
    rw [this] at hk; cases hk; decide +kernel
  | n + 2 =>
    have h : exZero.pageStart (2 + n) = none := by
      unfold Reader.pageStart
      rw [pagesFrom_add, show exZero.pagesFrom 2 ⟨if exZero.buffer then exZero.headerEnd else 0, exZero.headerEnd⟩ = none from by decide +kernel]
      rfl
    rw [Nat.add_comm] at hk
    rw [h] at hk; cases hk

end Verif.Sdds
