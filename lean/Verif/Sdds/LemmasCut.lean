import Verif.Sdds.LemmasFile
import Verif.Sdds.PropsReadState

/-!
# Lemmas on files that are cut off
-/

namespace Verif.Sdds

/-- The same reader with a file of which only the first `n` bytes are left. -/
def Reader.cutTo (r : Reader) (n : Nat) : Reader := { r with file := r.file.take n }

def widths (dk : Dtype) : Nat := (dk.map fun k => keyWidth k.2).sum

theorem keyWidth_size {t : KType} {n : Nat} (h : keySize t = .ok n) : keyWidth t = n := by
  cases t <;> simp [keySize] at h <;> simp [keyWidth, h]

theorem itemSize_widths {dk : Dtype} {s : Nat} (h : itemSize dk = .ok s) : widths dk = s := by
  have aux : ∀ (dk : Dtype) (ss : List Nat), (dk.mapM fun k => keySize k.2) = .ok ss → widths dk = ss.sum := by
    intro dk
    induction dk with
    | nil => intro ss h; cases h; rfl
    | cons k dk ih =>
      intro ss h
      rw [List.mapM_cons] at h
      cases h1 : keySize k.2 with
      | error e => rw [h1] at h; cases h
      | ok n =>
        rw [h1] at h
        cases h2 : (dk.mapM fun k => keySize k.2) with
        | error e => rw [h2] at h; cases h
        | ok ns =>
          rw [h2] at h
          cases h
          have := ih ns h2
          unfold widths at this ⊢
          rw [List.map_cons, List.sum_cons, List.sum_cons, this, keyWidth_size h1]
  unfold itemSize at h
  cases h1 : (dk.mapM fun k => keySize k.2) with
  | error e => rw [h1] at h; cases h
  | ok ss =>
    rw [h1] at h
    simp only [bind, Except.bind] at h
    split_ifs at h
    cases h
    exact aux dk ss h1

theorem decodeRec_take (dk : Dtype) : ∀ (b : Bytes) (k : Nat), widths dk ≤ k → decodeRec dk (b.take k) = decodeRec dk b := by
  induction dk with
  | nil => intros; rfl
  | cons t dk ih =>
    intro b k h
    unfold widths at h
    rw [List.map_cons, List.sum_cons] at h
    unfold decodeRec
    rw [List.take_take, Nat.min_eq_left (by omega), List.drop_take, ih]
    unfold widths
    omega

theorem decodeRows_take (dk : Dtype) (size : Nat) (hs : widths dk = size) : ∀ (count : Nat) (b : Bytes) (k : Nat), count * size ≤ k →
    decodeRows dk size count (b.take k) = decodeRows dk size count b := by
  intro count
  induction count with
  | zero => intros; rfl
  | succ c ih =>
    intro b k h
    rw [Nat.succ_mul] at h
    unfold decodeRows
    rw [decodeRec_take _ _ _ (by omega), List.drop_take, ih _ _ (by omega)]

theorem Reader.readArr_cut {r : Reader} (hb : r.buffer = true) {n : Nat} (hn : n ≤ r.file.length) {dk : Dtype} {count : Nat} {p p' : Pos} {a : Arr}
    (h : r.readArr dk count p = .ok (a, p')) :
    p.position ≤ p'.position ∧
      (r.cutTo n).readArr dk count p = if p'.position ≤ n then .ok (a, p') else .error .valueError := by
  unfold Reader.readArr at h ⊢
  have hb' : (r.cutTo n).buffer = true := hb
  rw [if_pos hb] at h
  rw [if_pos hb']
  unfold frombuffer at h ⊢
  cases hs : itemSize dk with
  | error e => rw [hs] at h; cases h
  | ok size =>
    rw [hs] at h
    simp only [bind, Except.bind] at h ⊢
    have hlen : (r.cutTo n).file.length = n := by simp [Reader.cutTo, hn]
    rw [hlen]
    have hc : size * count = count * size := Nat.mul_comm _ _
    by_cases h0 : size = 0
    · rw [if_pos h0] at h; cases h
    rw [if_neg h0] at h ⊢
    by_cases h1 : r.file.length < p.position
    · rw [if_pos h1] at h; cases h
    rw [if_neg h1] at h
    by_cases h2 : r.file.length - p.position < count * size
    · rw [if_pos h2] at h; cases h
    rw [if_neg h2] at h
    simp only [Except.ok.injEq, Prod.mk.injEq] at h
    obtain ⟨rfl, rfl⟩ := h
    refine ⟨Nat.le_add_right _ _, ?_⟩
    simp only
    by_cases hp : p.position + size * count ≤ n
    · rw [if_pos hp, if_neg (by omega), if_neg (by omega)]
      simp only
      have : (r.cutTo n).file.drop p.position = (r.file.drop p.position).take (n - p.position) := by simp [Reader.cutTo, List.drop_take]
      rw [this, decodeRows_take _ _ (itemSize_widths hs) _ _ _ (by omega)]
    · rw [if_neg hp]
      by_cases h3 : n < p.position
      · rw [if_pos h3]
      · rw [if_neg h3, if_pos (by omega)]

theorem Reader.getParams_mono {r : Reader} (hb : r.buffer = true) : ∀ (dks : List Dtype) (acc : List Arr) (p : Pos)
    (acc' : List Arr) (p' : Pos), r.getParams dks acc p = .ok (acc', p') → p.position ≤ p'.position := by
  intro dks
  induction dks with
  | nil => intro acc p acc' p' h; cases h; exact le_refl _
  | cons dk dks ih =>
    intro acc p acc' p' h
    unfold Reader.getParams at h
    cases h1 : resolve r.varLen acc.getLast? dk with
    | error e => rw [h1] at h; cases h
    | ok dk' =>
      rw [h1] at h
      simp only [bind, Except.bind] at h
      cases h2 : r.readArr dk' 1 p with
      | error e => rw [h2] at h; cases h
      | ok q =>
        obtain ⟨a, p1⟩ := q
        rw [h2] at h
        exact le_trans (Reader.readArr_cut hb (le_refl _) h2).1 (ih _ _ _ _ h)

theorem Reader.getParams_cut {r : Reader} (hb : r.buffer = true) {n : Nat} (hn : n ≤ r.file.length) : ∀ (dks : List Dtype) (acc : List Arr) (p : Pos)
    (acc' : List Arr) (p' : Pos), p.position ≤ n → r.getParams dks acc p = .ok (acc', p') →
    p.position ≤ p'.position ∧ (r.cutTo n).getParams dks acc p = if p'.position ≤ n then .ok (acc', p') else .error .valueError := by
  intro dks
  induction dks with
  | nil =>
    intro acc p acc' p' hp h
    cases h
    exact ⟨le_refl _, (if_pos hp).symm⟩
  | cons dk dks ih =>
    intro acc p acc' p' hp h
    unfold Reader.getParams at h ⊢
    have hv : (r.cutTo n).varLen = r.varLen := rfl
    rw [hv]
    cases h1 : resolve r.varLen acc.getLast? dk with
    | error e => rw [h1] at h; cases h
    | ok dk' =>
      rw [h1] at h
      simp only [bind, Except.bind] at h ⊢
      cases h2 : r.readArr dk' 1 p with
      | error e => rw [h2] at h; cases h
      | ok q =>
        obtain ⟨a, p1⟩ := q
        rw [h2] at h
        obtain ⟨m1, m2⟩ := Reader.readArr_cut hb hn h2
        rw [m2]
        by_cases hp1 : p1.position ≤ n
        · rw [if_pos hp1]
          obtain ⟨i1, i2⟩ := ih _ _ _ _ hp1 h
          exact ⟨by omega, i2⟩
        · rw [if_neg hp1]
          have hmono : p1.position ≤ p'.position := Reader.getParams_mono hb dks _ _ _ _ h
          exact ⟨by omega, (if_neg (by omega)).symm⟩
theorem Reader.getRows_mono {r : Reader} (hb : r.buffer = true) (keys : List Dtype) : ∀ (k : Nat) (p : Pos) (rows : List (List Arr)) (p' : Pos),
    r.getRows keys k p = .ok (rows, p') → p.position ≤ p'.position := by
  intro k
  induction k with
  | zero => intro p rows p' h; cases h; exact le_refl _
  | succ k ih =>
    intro p rows p' h
    unfold Reader.getRows at h
    cases h1 : r.getParams keys [] p with
    | error e => rw [h1] at h; cases h
    | ok q =>
      obtain ⟨row, p1⟩ := q
      rw [h1] at h
      simp only [bind, Except.bind] at h
      cases h2 : r.getRows keys k p1 with
      | error e => rw [h2] at h; cases h
      | ok q =>
        obtain ⟨rest, p2⟩ := q
        rw [h2] at h
        cases h
        exact le_trans (Reader.getParams_mono hb _ _ _ _ _ h1) (ih _ _ _ h2)

theorem Reader.getRows_cut {r : Reader} (hb : r.buffer = true) {n : Nat} (hn : n ≤ r.file.length) (keys : List Dtype) : ∀ (k : Nat) (p : Pos)
    (rows : List (List Arr)) (p' : Pos), p.position ≤ n → r.getRows keys k p = .ok (rows, p') →
    (r.cutTo n).getRows keys k p = if p'.position ≤ n then .ok (rows, p') else .error .valueError := by
  intro k
  induction k with
  | zero =>
    intro p rows p' hp h
    cases h
    exact (if_pos hp).symm
  | succ k ih =>
    intro p rows p' hp h
    unfold Reader.getRows at h ⊢
    cases h1 : r.getParams keys [] p with
    | error e => rw [h1] at h; cases h
    | ok q =>
      obtain ⟨row, p1⟩ := q
      rw [h1] at h
      simp only [bind, Except.bind] at h ⊢
      obtain ⟨m1, m2⟩ := Reader.getParams_cut hb hn _ _ _ _ _ hp h1
      rw [m2]
      cases h2 : r.getRows keys k p1 with
      | error e => rw [h2] at h; cases h
      | ok q =>
        obtain ⟨rest, p2⟩ := q
        rw [h2] at h
        simp only [Except.ok.injEq, Prod.mk.injEq] at h
        obtain ⟨rfl, rfl⟩ := h
        by_cases hp1 : p1.position ≤ n
        · rw [if_pos hp1]
          simp only
          rw [ih _ _ _ hp1 h2]
          by_cases hp2 : p2.position ≤ n
          · rw [if_pos hp2]; simp only [if_pos hp2]
          · rw [if_neg hp2]; simp only [if_neg hp2]
        · rw [if_neg hp1]
          have := Reader.getRows_mono hb keys k _ _ _ h2
          exact (if_neg (by omega)).symm

theorem Reader.getCols_mono {r : Reader} (hb : r.buffer = true) {rc : Nat} {p p' : Pos} {cd : List (List Arr)}
    (h : r.getCols rc p = .ok (cd, p')) : p.position ≤ p'.position := by
  unfold Reader.getCols at h
  split at h
  · rename_i dk hd
    cases h2 : r.readArr dk rc p with
    | error e => rw [h2] at h; cases h
    | ok q =>
      obtain ⟨a, p1⟩ := q
      rw [h2] at h
      simp only [bind, Except.bind, Except.ok.injEq, Prod.mk.injEq] at h
      obtain ⟨rfl, rfl⟩ := h
      exact (Reader.readArr_cut hb (le_refl _) h2).1
  · exact Reader.getRows_mono hb _ _ _ _ _ h

theorem Reader.getCols_cut {r : Reader} (hb : r.buffer = true) {n : Nat} (hn : n ≤ r.file.length) {rc : Nat} {p p' : Pos} {cd : List (List Arr)}
    (hp : p.position ≤ n) (h : r.getCols rc p = .ok (cd, p')) :
    p.position ≤ p'.position ∧ (r.cutTo n).getCols rc p = if p'.position ≤ n then .ok (cd, p') else .error .valueError := by
  have hk : (r.cutTo n).colKeys = r.colKeys := rfl
  unfold Reader.getCols at h ⊢
  rw [hk]
  generalize r.colKeys = ks at h ⊢
  split at h
  · rename_i dk
    simp only
    cases h2 : r.readArr dk rc p with
    | error e => rw [h2] at h; cases h
    | ok q =>
      obtain ⟨a, p1⟩ := q
      rw [h2] at h
      simp only [bind, Except.bind, Except.ok.injEq, Prod.mk.injEq] at h
      obtain ⟨rfl, rfl⟩ := h
      obtain ⟨m1, m2⟩ := Reader.readArr_cut hb hn h2
      rw [m2]
      refine ⟨m1, ?_⟩
      by_cases hp1 : p1.position ≤ n
      · rw [if_pos hp1, if_pos hp1]; rfl
      · rw [if_neg hp1, if_neg hp1]; rfl
  · refine ⟨Reader.getRows_mono hb _ _ _ _ _ h, ?_⟩
    exact Reader.getRows_cut hb hn _ _ _ _ _ hp h

/-- A page of the cut file: the same, or an exception. -/
theorem Reader.readPage_cut {r : Reader} (hb : r.buffer = true) (hrc : r.noRowCounts = false) {n : Nat} (hn : n ≤ r.file.length) {p p' : Pos}
    {acc acc' : Pages} (hp : p.position ≤ n) (h : r.readPage true true p acc = .ok (acc', p')) :
    (r.cutTo n).readPage true true p acc = if p'.position ≤ n then .ok (acc', p') else .error .valueError := by
  unfold Reader.readPage at h ⊢
  have hk : (r.cutTo n).paramKeys = r.paramKeys := rfl
  have hm : (r.cutTo n).maxStr = r.maxStr := rfl
  have hr : ∀ pd q, (r.cutTo n).rowCount pd q = r.rowCount pd q := by
    intro pd q
    unfold Reader.rowCount
    have h1 : (r.cutTo n).noRowCounts = false := hrc
    have h2 : (r.cutTo n).cols = r.cols := rfl
    rw [h1, h2, hrc]
    rfl
  rw [hk, hm]
  cases h1 : r.getParams r.paramKeys [] p with
  | error e => rw [h1] at h; cases h
  | ok q =>
    obtain ⟨pd, p1⟩ := q
    rw [h1] at h
    simp only [bind, Except.bind, if_true] at h ⊢
    obtain ⟨m1, m2⟩ := Reader.getParams_cut hb hn _ _ _ _ _ hp h1
    rw [m2]
    cases h2 : addPage r.maxStr [pd] with
    | error e => rw [h2] at h; cases h
    | ok pg =>
      rw [h2] at h
      simp only at h ⊢
      cases h3 : r.rowCount pd p1 with
      | error e => rw [h3] at h; cases h
      | ok rc =>
        rw [h3] at h
        simp only at h
        by_cases h0 : rc = 0
        · rw [if_pos h0] at h
          simp only [Except.ok.injEq, Prod.mk.injEq] at h
          obtain ⟨rfl, rfl⟩ := h
          by_cases hp1 : p1.position ≤ n
          · rw [if_pos hp1, if_pos hp1]
            simp only [hr, h3, if_pos h0, h2]
          · rw [if_neg hp1, if_neg hp1]
        · rw [if_neg h0, if_pos (by simp)] at h
          cases h4 : r.getCols rc p1 with
          | error e => rw [h4] at h; cases h
          | ok q =>
            obtain ⟨cd, p2⟩ := q
            rw [h4] at h
            simp only at h
            cases h5 : addPage r.maxStr cd with
            | error e => rw [h5] at h; cases h
            | ok pg2 =>
              rw [h5] at h
              simp only [Except.ok.injEq, Prod.mk.injEq] at h
              obtain ⟨rfl, rfl⟩ := h
              by_cases hp1 : p1.position ≤ n
              · rw [if_pos hp1]
                obtain ⟨c1, c2⟩ := Reader.getCols_cut hb hn hp1 h4
                simp only [hr, h2, h3, if_neg h0]
                rw [if_pos (by simp), c2]
                by_cases hp2 : p2.position ≤ n
                · simp only [if_pos hp2, h5]
                · simp only [if_neg hp2]
              · rw [if_neg hp1]
                have := Reader.getCols_mono hb h4
                exact (if_neg (by omega)).symm

end Verif.Sdds
