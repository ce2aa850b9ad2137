import Verif.Sdds.Counts
import Mathlib.Data.Fintype.Pigeonhole
import Mathlib.Data.Fintype.Card
import Mathlib.Tactic.Linarith

/-!
# Lemmas on reading binary files with any row count
-/

namespace Verif.Sdds

/-- A position of the model with natural numbers. -/
def Pos.toZ (p : Pos) : ZPos := ⟨p.position, p.ptr⟩

/-- Pages of the model with natural numbers. -/
def Pages.toZ (g : Pages) : ZPages := ⟨g.params, g.cols.map some⟩

theorem frombufferZ_nat (buf : Bytes) (dk : Dtype) (count offset : Nat) :
    frombufferZ buf dk count offset = frombuffer buf dk count offset := by
  unfold frombufferZ
  rw [if_neg (by omega), if_pos (by omega)]
  simp

theorem fromfileZ_nat (buf : Bytes) (dk : Dtype) (count offset ptr : Nat) :
    fromfileZ buf dk count offset ptr = fromfile buf dk count offset ptr := by
  unfold fromfileZ
  rw [if_neg (by omega)]
  simp only [Int.natCast_nonneg, if_true, Int.toNat_natCast]
  have : ((ptr : Int) + (offset : Int)).toNat = ptr + offset := by omega
  rw [this]
  rfl

theorem readArrZ_nat (r : Reader) (dk : Dtype) (count : Nat) (p : Pos) :
    r.readArrZ dk count p.toZ = (r.readArr dk count p).map fun x => (x.1, x.2.toZ) := by
  unfold Reader.readArrZ Reader.readArr
  cases r.buffer with
  | true =>
    simp only [if_true, Pos.toZ, frombufferZ_nat]
    cases h : frombuffer r.file dk count p.position with
    | error e => rfl
    | ok a =>
      cases h2 : itemSize dk with
      | error e => rfl
      | ok s => simp [bind, Except.bind, Except.map]
  | false =>
    simp only [Bool.false_eq_true, if_false, Pos.toZ, fromfileZ_nat]
    cases h : fromfile r.file dk count p.position p.ptr with
    | error e => rfl
    | ok a => rfl

theorem getParamsZ_nat (r : Reader) (dks : List Dtype) : ∀ (acc : List Arr) (p : Pos),
    r.getParamsZ dks acc p.toZ = (r.getParams dks acc p).map fun x => (x.1, x.2.toZ) := by
  induction dks with
  | nil => intro acc p; rfl
  | cons dk dks ih =>
    intro acc p
    simp only [Reader.getParamsZ, Reader.getParams]
    cases h : resolve r.varLen acc.getLast? dk with
    | error e => rfl
    | ok dk' =>
      simp only [bind, Except.bind]
      have e := readArrZ_nat r dk' 1 p
      rw [Nat.cast_one] at e
      rw [e]
      cases h2 : r.readArr dk' 1 p with
      | error e => rfl
      | ok a => exact ih _ _

theorem getRowsZ_nat (r : Reader) (keys : List Dtype) (n : Nat) : ∀ p : Pos,
    r.getRowsZ keys n p.toZ = (r.getRows keys n p).map fun x => (x.1, x.2.toZ) := by
  induction n with
  | zero => intro p; rfl
  | succ n ih =>
    intro p
    simp only [Reader.getRowsZ, Reader.getRows, getParamsZ_nat]
    cases h : r.getParams keys [] p with
    | error e => rfl
    | ok x =>
      simp only [bind, Except.bind, Except.map, ih]
      cases h2 : r.getRows keys n x.2 with
      | error e => rfl
      | ok y => rfl

theorem getColsZ_nat (r : Reader) (n : Nat) (p : Pos) :
    r.getColsZ n p.toZ = (r.getCols n p).map fun x => (x.1, x.2.toZ) := by
  unfold Reader.getColsZ Reader.getCols
  match r.colKeys with
  | [dk] =>
    simp only [readArrZ_nat]
    cases h : r.readArr dk n p with
    | error e => rfl
    | ok x => rfl
  | [] => simp only [Int.toNat_natCast]; exact getRowsZ_nat r _ n p
  | _ :: _ :: _ => simp only [Int.toNat_natCast]; exact getRowsZ_nat r _ n p

theorem fileEndZ_nat (r : Reader) (p : Pos) : r.fileEndZ p.toZ = r.fileEnd p := by
  unfold Reader.fileEndZ Reader.fileEnd
  cases r.buffer with
  | true => simp only [if_true, Pos.toZ]; exact decide_eq_decide.mpr (by omega)
  | false => rfl

theorem rowCountZ_nat (r : Reader) (pd : List Arr) (p : Pos) (h : r.rowCount pd p ≠ .error .notModelled) :
    r.rowCountZ pd p.toZ = (r.rowCount pd p).map fun n => (n : Int) := by
  unfold Reader.rowCount at h
  unfold Reader.rowCountZ Reader.rowCount
  by_cases hc : r.cols = []
  · rw [if_pos hc, if_pos hc]; rfl
  rw [if_neg hc] at h
  rw [if_neg hc, if_neg hc]
  by_cases hn : (!r.noRowCounts) = true
  · simp only [hn, if_true] at h ⊢
    cases hf : pd.find? fun a => (a.dt.head?.map Prod.fst) = some rowCountsName with
    | none => rfl
    | some a =>
      simp only [hf] at h
      simp only
      cases hr : a.rows.head?.bind (recField rowCountsName) with
      | none => rfl
      | some v =>
        cases v with
        | str s => rfl
        | num t x =>
          simp only [hr] at h
          simp only
          by_cases h0 : 0 ≤ ofBits t.size x
          · rw [if_pos h0]
            simp only [Except.map]
            congr 1
            omega
          · rw [if_neg h0] at h; exact absurd rfl h
  · simp only [hn] at h ⊢
    cases hb : r.buffer with
    | true =>
      simp only [if_true, Pos.toZ, Int.toNat_natCast]
      cases bytesToZero (r.file.drop p.position) <;> rfl
    | false => rw [hb] at h; exact absurd rfl h

theorem getRows_ne {r : Reader} {keys : List Dtype} {n : Nat} {p : Pos} {x : List (List Arr) × Pos} (h : r.getRows keys n p = .ok x) (hn : n ≠ 0) : x.1 ≠ [] := by
  cases n with
  | zero => exact absurd rfl hn
  | succ n =>
    simp only [Reader.getRows, bind, Except.bind] at h
    cases h1 : r.getParams keys [] p with
    | error e => rw [h1] at h; cases h
    | ok y =>
      simp only [h1] at h
      cases h2 : r.getRows keys n y.2 with
      | error e => rw [h2] at h; cases h
      | ok z => rw [h2] at h; cases h; simp

theorem getCols_ne {r : Reader} {n : Nat} {p : Pos} {x : List (List Arr) × Pos} (h : r.getCols n p = .ok x) (hn : n ≠ 0) : x.1 ≠ [] := by
  unfold Reader.getCols at h
  split at h
  · simp only [bind, Except.bind] at h
    split at h
    · cases h
    · cases h; simp
  · exact getRows_ne h hn

theorem pageRest_nat (r : Reader) (all wanted : Bool) (pd : List Arr) (p1 : Pos) (acc1 : Pages)
    (h : (do
      let rc ← r.rowCount pd p1
      if rc = 0 then .ok (acc1, p1)
      else if all || wanted || r.varLen then do
        let (cd, p2) ← r.getCols rc p1
        let pg ← addPage r.maxStr cd
        .ok ({ acc1 with cols := acc1.cols ++ [pg] }, p2)
      else do
        let size ← itemSize (r.colKeys.headD [])
        .ok (acc1, { p1 with position := p1.position + size * rc }) : Except PyErr (Pages × Pos)) ≠ .error .notModelled) :
    (do
      let rc ← r.rowCountZ pd p1.toZ
      if rc = 0 then .ok (acc1.toZ, p1.toZ)
      else if all || wanted || r.varLen then do
        let (cd, p2) ← r.getColsZ rc p1.toZ
        let pg ← addPageZ r.maxStr cd
        .ok ({ acc1.toZ with cols := acc1.toZ.cols ++ [pg] }, p2)
      else do
        let size ← itemSize (r.colKeys.headD [])
        .ok (acc1.toZ, { p1.toZ with position := p1.toZ.position + size * rc }) : Except PyErr (ZPages × ZPos)) =
    (do
      let rc ← r.rowCount pd p1
      if rc = 0 then .ok (acc1, p1)
      else if all || wanted || r.varLen then do
        let (cd, p2) ← r.getCols rc p1
        let pg ← addPage r.maxStr cd
        .ok ({ acc1 with cols := acc1.cols ++ [pg] }, p2)
      else do
        let size ← itemSize (r.colKeys.headD [])
        .ok (acc1, { p1 with position := p1.position + size * rc }) : Except PyErr (Pages × Pos)).map fun x => (x.1.toZ, x.2.toZ) := by
  rw [rowCountZ_nat r pd p1 (fun e => by rw [e] at h; exact h rfl)]
  cases h3 : r.rowCount pd p1 with
  | error e => rfl
  | ok n =>
    simp only [bind, Except.bind, Except.map, pure, Except.pure, Int.natCast_eq_zero]
    by_cases hn : n = 0
    · rw [if_pos hn, if_pos hn]
    · rw [if_neg hn, if_neg hn]
      by_cases hw : (all || wanted || r.varLen) = true
      · simp only [hw, if_true]
        rw [getColsZ_nat]
        cases h4 : r.getCols n p1 with
        | error e => rfl
        | ok y =>
          simp only [Except.map, addPageZ, if_neg (getCols_ne h4 hn)]
          cases h5 : addPage r.maxStr y.1 with
          | error e => rfl
          | ok pg => simp [Pages.toZ]
      · simp only [hw]
        cases h4 : itemSize (r.colKeys.headD []) with
        | error e => rfl
        | ok s => simp [Pos.toZ]

theorem readPageZ_nat (r : Reader) (all wanted : Bool) (p : Pos) (acc : Pages) (h : r.readPage all wanted p acc ≠ .error .notModelled) :
    r.readPageZ all wanted p.toZ acc.toZ = (r.readPage all wanted p acc).map fun x => (x.1.toZ, x.2.toZ) := by
  unfold Reader.readPage at h
  unfold Reader.readPageZ Reader.readPage
  rw [getParamsZ_nat]
  cases h1 : r.getParams r.paramKeys [] p with
  | error e => rfl
  | ok x =>
    rw [h1] at h
    cases wanted with
    | false => exact pageRest_nat r all false x.1 x.2 acc h
    | true =>
      cases h3 : addPage r.maxStr [x.1] with
      | error e => simp [bind, Except.bind, Except.map, h3]
      | ok pg =>
        simp only [h3, bind, Except.bind, Except.map, if_true] at h ⊢
        exact pageRest_nat r all true x.1 x.2 { acc with params := acc.params ++ [pg] } h

theorem pageLoopZ_nat (r : Reader) (sel : Option (List Nat)) (fuel : Nat) : ∀ (page : Nat) (p : Pos) (acc : Pages),
    r.pageLoop sel fuel page p acc ≠ some (.error .notModelled) →
    r.pageLoopZ sel fuel page p.toZ acc.toZ = (r.pageLoop sel fuel page p acc).map fun x => x.map Pages.toZ := by
  induction fuel with
  | zero => intro page p acc _; rfl
  | succ fuel ih =>
    intro page p acc h
    simp only [Reader.pageLoop] at h
    simp only [Reader.pageLoopZ, Reader.pageLoop, fileEndZ_nat]
    by_cases h1 : pastPages sel page = true
    · rw [if_pos h1, if_pos h1]; rfl
    · rw [if_neg h1] at h
      rw [if_neg h1, if_neg h1]
      by_cases h2 : r.fileEnd p = true
      · rw [if_pos h2, if_pos h2]; rfl
      · rw [if_neg h2] at h
        rw [if_neg h2, if_neg h2]
        rw [readPageZ_nat _ _ _ _ _ (fun e => by rw [e] at h; exact h rfl)]
        cases h3 : r.readPage sel.isNone (wantedPage sel page) p acc with
        | error e => rfl
        | ok x =>
          rw [h3] at h
          exact ih _ _ _ h

theorem concatZ_some (pages : List (List Record)) : concatZ (pages.map some) = (concat pages).map fun x => x.map some := by
  cases pages with
  | nil => rfl
  | cons pg rest =>
    simp only [List.map_cons, concatZ, concat, List.all_map]
    by_cases h : (rest.all fun q => decide (q.length = pg.length)) = true
    · rw [if_pos h, if_pos (by simpa [Function.comp_def] using h)]; rfl
    · rw [if_neg h, if_neg (by simpa [Function.comp_def] using h)]; rfl

/-- Where the model with natural numbers has a result, the model with integers has the same. -/
theorem readZ_read (r : Reader) (fuel : Nat) (sel : Option (List Nat)) (h : r.read fuel sel ≠ some (.error .notModelled)) :
    r.readZ fuel sel = (r.read fuel sel).map fun x => x.map Pages.toZ := by
  unfold Reader.read at h
  unfold Reader.readZ Reader.read
  by_cases hs : sel = some []
  · rw [if_pos hs, if_pos hs]; rfl
  rw [if_neg hs] at h
  rw [if_neg hs, if_neg hs]
  have e : (⟨if r.buffer then r.headerEnd else 0, r.headerEnd⟩ : ZPos) = (⟨if r.buffer then r.headerEnd else 0, r.headerEnd⟩ : Pos).toZ := by
    cases r.buffer <;> rfl
  rw [e, show (⟨[], []⟩ : ZPages) = (⟨[], []⟩ : Pages).toZ from rfl]
  simp only at h ⊢
  rw [pageLoopZ_nat _ _ _ _ _ _ (fun e => by rw [e] at h; exact h rfl)]
  cases r.pageLoop sel fuel 0 ⟨if r.buffer then r.headerEnd else 0, r.headerEnd⟩ ⟨[], []⟩ with
  | none => rfl
  | some x =>
    cases x with
    | error e => rfl
    | ok pg =>
      simp only [Option.map, Except.map, bind, Except.bind, Pages.toZ, concatZ_some]
      cases concat pg.params with
      | error e => rfl
      | ok ps => cases concat pg.cols <;> rfl

end Verif.Sdds
