import Verif.Sdds.LemmasCut
import Verif.Sdds.LemmasRead4

/-!
# Unbuffered reading of a file that is cut off
-/

namespace Verif.Sdds

theorem Reader.readArr_cutU {r : Reader} (hb : r.buffer = false) {n : Nat} (hn : n ≤ r.file.length) {dk : Dtype} {p p' : Pos} {a : Arr}
    (h0 : p.position = 0) (hp : p.ptr ≤ n) (h : r.readArr dk 1 p = .ok (a, p')) :
    p'.position = 0 ∧ p.ptr ≤ p'.ptr ∧
      (r.cutTo n).readArr dk 1 p = .ok (if p'.ptr ≤ n then (a, p') else (⟨dk, []⟩, { p with ptr := n })) := by
  have hb' : (r.cutTo n).buffer = false := hb
  have hf' : (r.cutTo n).file = r.file.take n := rfl
  unfold Reader.readArr at h ⊢
  rw [hb] at h
  rw [hb', hf']
  simp only [Bool.false_eq_true, if_false, fromfile, bind, Except.bind, h0, Nat.add_zero] at h ⊢
  cases hs : itemSize dk with
  | error e => rw [hs] at h; cases h
  | ok size =>
    rw [hs] at h
    simp only at h ⊢
    by_cases hz : size = 0
    · rw [if_pos hz] at h; cases h
    · rw [if_neg hz] at h ⊢
      have hpos : 0 < size := Nat.pos_of_ne_zero hz
      have hlen : (r.file.take n).length = n := by rw [List.length_take]; omega
      rw [hlen]
      by_cases hav : (r.file.length - p.ptr) / size < 1
      · rw [if_pos hav] at h
        simp only [Except.ok.injEq, Prod.mk.injEq] at h
        obtain ⟨rfl, rfl⟩ := h
        have hav0 : (r.file.length - p.ptr) / size = 0 := Nat.lt_one_iff.1 hav
        have hav' : (n - p.ptr) / size = 0 := by
          have := Nat.div_le_div_right (c := size) (show n - p.ptr ≤ r.file.length - p.ptr by omega)
          rw [hav0] at this
          exact Nat.le_zero.1 this
        rw [hav', if_pos (by omega)]
        simp only [decodeRows, hav0]
        refine ⟨trivial, by simp, ?_⟩
        rw [Nat.max_eq_right hp, Nat.max_eq_right (by omega)]
        by_cases he : r.file.length ≤ n
        · rw [if_pos he, show n = r.file.length by omega]
        · rw [if_neg he]
      · rw [if_neg hav] at h
        simp only [Except.ok.injEq, Prod.mk.injEq] at h
        obtain ⟨rfl, rfl⟩ := h
        simp only [Nat.one_mul]
        refine ⟨trivial, by omega, ?_⟩
        by_cases he : p.ptr + size ≤ n
        · have hav' : ¬ (n - p.ptr) / size < 1 := by
            rw [Nat.not_lt, Nat.le_div_iff_mul_le hpos]
            omega
          rw [if_neg hav', if_pos he]
          have : (r.file.take n).drop p.ptr = (r.file.drop p.ptr).take (n - p.ptr) := by rw [List.drop_take]
          rw [this, decodeRows_take _ _ (itemSize_widths hs) 1 _ _ (by omega)]
        · have hav' : (n - p.ptr) / size = 0 := Nat.div_eq_of_lt (by omega)
          rw [hav', if_pos (by omega), if_neg he]
          simp only [decodeRows]
          rw [Nat.max_eq_right hp]

/-- Field names do not change when a length is put in. -/
theorem resolve_names {v : Bool} {prev : Option Arr} {dk dk' : Dtype} (h : resolve v prev dk = .ok dk') : dk'.map Prod.fst = dk.map Prod.fst := by
  unfold resolve at h
  split at h
  · cases h; rfl
  · split at h
    · cases h; rfl
    · split at h
      · split at h
        · split at h
          · cases h; rfl
          · rename_i k ks _
            simp only [bind, Except.bind] at h
            split at h
            · cases h
            · cases h; rfl
        · cases h; rfl
      · cases h; rfl

/-- A list of arrays whose last one has no record and the field names `names`. -/
def BadLast (names : List Str) (arrs : List Arr) : Prop := ∃ a, arrs.getLast? = some a ∧ a.rows = [] ∧ a.dt.map Prod.fst = names

theorem Reader.readArr_eof {r : Reader} (hb : r.buffer = false) {dk : Dtype} {p : Pos} (h0 : p.position = 0) (hp : p.ptr = r.file.length) :
    (∃ e, r.readArr dk 1 p = .error e) ∨ r.readArr dk 1 p = .ok (⟨dk, []⟩, p) := by
  unfold Reader.readArr
  rw [hb]
  simp only [Bool.false_eq_true, if_false, fromfile, bind, Except.bind, h0, Nat.add_zero]
  cases itemSize dk with
  | error e => exact .inl ⟨e, rfl⟩
  | ok size =>
    simp only
    by_cases hz : size = 0
    · rw [if_pos hz]; exact .inl ⟨_, rfl⟩
    · rw [if_neg hz, hp, Nat.sub_self, Nat.zero_div, if_pos (by omega)]
      refine .inr ?_
      simp only [decodeRows, Nat.max_self]
      cases p
      simp_all

/-- Reading at the end of the file. -/
theorem Reader.getParams_eof {r : Reader} (hb : r.buffer = false) : ∀ (dks : List Dtype) (acc : List Arr) (p : Pos), p.position = 0 →
    p.ptr = r.file.length → (∃ e, r.getParams dks acc p = .error e) ∨
      ∃ arrs, r.getParams dks acc p = .ok (acc ++ arrs, p) ∧ arrs.length = dks.length ∧ ∀ dk, dks.getLast? = some dk → BadLast (dk.map Prod.fst) arrs := by
  intro dks
  induction dks with
  | nil =>
    intro acc p _ _
    exact .inr ⟨[], by simp [Reader.getParams], rfl, by simp⟩
  | cons dk dks ih =>
    intro acc p h0 hp
    unfold Reader.getParams
    cases hr : resolve r.varLen acc.getLast? dk with
    | error e => exact .inl ⟨e, rfl⟩
    | ok dk' =>
      simp only [bind, Except.bind]
      rcases Reader.readArr_eof hb (dk := dk') h0 hp with ⟨e, he⟩ | he
      · rw [he]; exact .inl ⟨e, rfl⟩
      · rw [he]
        rcases ih (acc ++ [⟨dk', []⟩]) p h0 hp with ⟨e, h1⟩ | ⟨arrs, h1, h2, h3⟩
        · exact .inl ⟨e, h1⟩
        · refine .inr ⟨⟨dk', []⟩ :: arrs, by simpa using h1, by simp [h2], fun k hk => ?_⟩
          cases dks with
          | nil =>
            simp only [List.length_nil, List.length_eq_zero_iff] at h2
            subst h2
            simp only [List.getLast?_singleton, Option.some.injEq] at hk
            subst hk
            exact ⟨_, rfl, rfl, resolve_names hr⟩
          | cons y ys =>
            rw [List.getLast?_cons_cons] at hk
            obtain ⟨a, g1, g2⟩ := h3 k hk
            exact ⟨a, by rw [List.getLast?_cons, g1]; rfl, g2⟩

theorem Reader.readArr_monoU {r : Reader} (hb : r.buffer = false) {dk : Dtype} {p p' : Pos} {a : Arr} (h0 : p.position = 0)
    (h : r.readArr dk 1 p = .ok (a, p')) : p'.position = 0 ∧ p.ptr ≤ p'.ptr := by
  unfold Reader.readArr at h
  rw [hb] at h
  simp only [Bool.false_eq_true, if_false, fromfile, bind, Except.bind, h0, Nat.add_zero] at h
  cases hs : itemSize dk with
  | error e => rw [hs] at h; cases h
  | ok size =>
    rw [hs] at h
    simp only at h
    by_cases hz : size = 0
    · rw [if_pos hz] at h; cases h
    · rw [if_neg hz] at h
      by_cases hav : (r.file.length - p.ptr) / size < 1
      · rw [if_pos hav] at h
        simp only [Except.ok.injEq, Prod.mk.injEq] at h
        rw [← h.2]
        exact ⟨rfl, le_max_left _ _⟩
      · rw [if_neg hav] at h
        simp only [Except.ok.injEq, Prod.mk.injEq] at h
        rw [← h.2]
        exact ⟨rfl, Nat.le_add_right _ _⟩

theorem Reader.getParams_monoU {r : Reader} (hb : r.buffer = false) : ∀ (dks : List Dtype) (acc : List Arr) (p : Pos) (acc' : List Arr) (p' : Pos),
    p.position = 0 → r.getParams dks acc p = .ok (acc', p') → p'.position = 0 ∧ p.ptr ≤ p'.ptr := by
  intro dks
  induction dks with
  | nil =>
    intro acc p acc' p' h0 h
    simp only [Reader.getParams, Except.ok.injEq, Prod.mk.injEq] at h
    rw [← h.2]
    exact ⟨h0, le_rfl⟩
  | cons dk dks ih =>
    intro acc p acc' p' h0 h
    unfold Reader.getParams at h
    cases hr : resolve r.varLen acc.getLast? dk with
    | error e => rw [hr] at h; cases h
    | ok dk' =>
      rw [hr] at h
      simp only [bind, Except.bind] at h
      cases ha : r.readArr dk' 1 p with
      | error e => rw [ha] at h; cases h
      | ok q =>
        obtain ⟨a, p1⟩ := q
        rw [ha] at h
        obtain ⟨m0, m1⟩ := Reader.readArr_monoU hb h0 ha
        obtain ⟨i0, i1⟩ := ih _ _ _ _ m0 h
        exact ⟨i0, by omega⟩

/-- Reading arrays of one record from the cut file: the same, or an exception, or the last array has no record. -/
theorem Reader.getParams_cutU {r : Reader} (hb : r.buffer = false) {n : Nat} (hn : n ≤ r.file.length) : ∀ (dks : List Dtype) (acc : List Arr) (p : Pos)
    (acc' : List Arr) (p' : Pos), p.position = 0 → p.ptr ≤ n → r.getParams dks acc p = .ok (acc', p') →
    p'.position = 0 ∧ p.ptr ≤ p'.ptr ∧
    (p'.ptr ≤ n → (r.cutTo n).getParams dks acc p = .ok (acc', p')) ∧
    (n < p'.ptr → (∃ e, (r.cutTo n).getParams dks acc p = .error e) ∨
      ∃ arrs, (r.cutTo n).getParams dks acc p = .ok (acc ++ arrs, ⟨0, n⟩) ∧ arrs.length = dks.length ∧
        ∀ dk, dks.getLast? = some dk → BadLast (dk.map Prod.fst) arrs) := by
  intro dks
  have hv : (r.cutTo n).varLen = r.varLen := rfl
  have hb' : (r.cutTo n).buffer = false := hb
  have hlen : (r.cutTo n).file.length = n := by
    show (r.file.take n).length = n
    rw [List.length_take]; omega
  induction dks with
  | nil =>
    intro acc p acc' p' h0 hp h
    simp only [Reader.getParams, Except.ok.injEq, Prod.mk.injEq] at h
    obtain ⟨rfl, rfl⟩ := h
    exact ⟨h0, le_rfl, fun _ => rfl, fun h => absurd hp (by omega)⟩
  | cons dk dks ih =>
    intro acc p acc' p' h0 hp h
    unfold Reader.getParams at h ⊢
    rw [hv]
    cases hr : resolve r.varLen acc.getLast? dk with
    | error e => rw [hr] at h; cases h
    | ok dk' =>
      rw [hr] at h
      simp only [bind, Except.bind] at h ⊢
      cases ha : r.readArr dk' 1 p with
      | error e => rw [ha] at h; cases h
      | ok q =>
        obtain ⟨a, p1⟩ := q
        rw [ha] at h
        simp only at h
        obtain ⟨c0, c1, c2⟩ := Reader.readArr_cutU hb hn h0 hp ha
        rw [c2]
        by_cases h1 : p1.ptr ≤ n
        · rw [if_pos h1]
          simp only
          obtain ⟨i0, i1, i2, i3⟩ := ih (acc ++ [a]) p1 acc' p' c0 h1 h
          refine ⟨i0, by omega, i2, fun hlt => ?_⟩
          rcases i3 hlt with he | ⟨arrs, g1, g2, g3⟩
          · exact .inl he
          · refine .inr ⟨a :: arrs, by simpa using g1, by simp [g2], fun k hk => ?_⟩
            cases dks with
            | nil =>
              simp only [Reader.getParams, Except.ok.injEq, Prod.mk.injEq] at h
              rw [← h.2] at hlt
              omega
            | cons y ys =>
              rw [List.getLast?_cons_cons] at hk
              obtain ⟨x, x1, x2⟩ := g3 k hk
              exact ⟨x, by rw [List.getLast?_cons, x1]; rfl, x2⟩
        · rw [if_neg h1]
          simp only
          have hmono := Reader.getParams_monoU hb dks _ _ _ _ c0 h
          refine ⟨hmono.1, by omega, fun hle => by omega, fun _ => ?_⟩
          have hpe : ({ p with ptr := n } : Pos) = ⟨0, n⟩ := by cases p; simp_all
          rw [hpe]
          rcases Reader.getParams_eof hb' dks (acc ++ [⟨dk', []⟩]) ⟨0, n⟩ rfl hlen.symm with he | ⟨arrs, g1, g2, g3⟩
          · exact .inl he
          · refine .inr ⟨⟨dk', []⟩ :: arrs, by simpa using g1, by simp [g2], fun k hk => ?_⟩
            cases dks with
            | nil =>
              simp only [List.length_nil, List.length_eq_zero_iff] at g2
              subst g2
              simp only [List.getLast?_singleton, Option.some.injEq] at hk
              subst hk
              exact ⟨_, rfl, rfl, resolve_names hr⟩
            | cons y ys =>
              rw [List.getLast?_cons_cons] at hk
              obtain ⟨x, x1, x2⟩ := g3 k hk
              exact ⟨x, by rw [List.getLast?_cons, x1]; rfl, x2⟩

theorem Reader.getRows_monoU {r : Reader} (hb : r.buffer = false) (keys : List Dtype) : ∀ (m : Nat) (p : Pos) (rows : List (List Arr)) (p' : Pos),
    p.position = 0 → r.getRows keys m p = .ok (rows, p') → p'.position = 0 ∧ p.ptr ≤ p'.ptr := by
  intro m
  induction m with
  | zero =>
    intro p rows p' h0 h
    simp only [Reader.getRows, Except.ok.injEq, Prod.mk.injEq] at h
    rw [← h.2]
    exact ⟨h0, le_rfl⟩
  | succ m ih =>
    intro p rows p' h0 h
    unfold Reader.getRows at h
    simp only [bind, Except.bind] at h
    cases h1 : r.getParams keys [] p with
    | error e => rw [h1] at h; cases h
    | ok q =>
      obtain ⟨row, p1⟩ := q
      rw [h1] at h
      simp only at h
      cases h2 : r.getRows keys m p1 with
      | error e => rw [h2] at h; cases h
      | ok q =>
        obtain ⟨rest, p2⟩ := q
        rw [h2] at h
        simp only [Except.ok.injEq, Prod.mk.injEq] at h
        obtain ⟨m0, m1⟩ := Reader.getParams_monoU hb _ _ _ _ _ h0 h1
        obtain ⟨i0, i1⟩ := ih _ _ _ m0 h2
        rw [← h.2]
        exact ⟨i0, by omega⟩

/-- Rows of the cut file: an exception, or one row has a bad last array. -/
theorem Reader.getRows_cutU {r : Reader} (hb : r.buffer = false) {n : Nat} (hn : n ≤ r.file.length) {keys : List Dtype} {dk : Dtype}
    (hk : keys.getLast? = some dk) : ∀ (m : Nat) (p : Pos) (rows : List (List Arr)) (p' : Pos), p.position = 0 → p.ptr ≤ n →
    r.getRows keys m p = .ok (rows, p') → n < p'.ptr →
    (∃ e, (r.cutTo n).getRows keys m p = .error e) ∨
      ∃ rows' q, (r.cutTo n).getRows keys m p = .ok (rows', q) ∧ ∃ row ∈ rows', row.length = keys.length ∧ BadLast (dk.map Prod.fst) row := by
  intro m
  induction m with
  | zero =>
    intro p rows p' h0 hp h hlt
    simp only [Reader.getRows, Except.ok.injEq, Prod.mk.injEq] at h
    rw [← h.2] at hlt
    omega
  | succ m ih =>
    intro p rows p' h0 hp h hlt
    unfold Reader.getRows at h ⊢
    simp only [bind, Except.bind] at h ⊢
    cases h1 : r.getParams keys [] p with
    | error e => rw [h1] at h; cases h
    | ok q =>
      obtain ⟨row, p1⟩ := q
      rw [h1] at h
      simp only at h
      obtain ⟨c0, c1, c2, c3⟩ := Reader.getParams_cutU hb hn _ _ _ _ _ h0 hp h1
      cases h2 : r.getRows keys m p1 with
      | error e => rw [h2] at h; cases h
      | ok q =>
        obtain ⟨rest, p2⟩ := q
        rw [h2] at h
        simp only [Except.ok.injEq, Prod.mk.injEq] at h
        obtain ⟨rfl, rfl⟩ := h
        by_cases hle : p1.ptr ≤ n
        · rw [c2 hle]
          simp only
          rcases ih p1 rest p2 c0 hle h2 hlt with ⟨e, he⟩ | ⟨rows', q, g1, row', g2, g3⟩
          · rw [he]; exact .inl ⟨e, rfl⟩
          · rw [g1]; exact .inr ⟨_, _, rfl, row', List.mem_cons_of_mem _ g2, g3⟩
        · rcases c3 (by omega) with ⟨e, he⟩ | ⟨arrs, g1, g2, g3⟩
          · rw [he]; exact .inl ⟨e, rfl⟩
          · rw [g1]
            simp only [List.nil_append]
            cases (r.cutTo n).getRows keys m ⟨0, n⟩ with
            | error e => exact .inl ⟨e, rfl⟩
            | ok q => exact .inr ⟨_, _, rfl, arrs, List.mem_cons_self, g2, g3 dk hk⟩

theorem mapM_error_of {α β : Type} {f : α → Except PyErr β} {e : PyErr} : ∀ {l : List α} {a : α}, a ∈ l → f a = .error e → ∃ e', l.mapM f = .error e' := by
  intro l
  induction l with
  | nil => intro a h; cases h
  | cons x xs ih =>
    intro a ha hf
    rw [List.mapM_cons]
    simp only [bind, Except.bind]
    cases hx : f x with
    | error e' => exact ⟨e', rfl⟩
    | ok y =>
      rcases List.mem_cons.1 ha with rfl | hm
      · rw [hx] at hf; cases hf
      · obtain ⟨e', he⟩ := ih hm hf
        exact ⟨e', by simp only [he]⟩

/-- Such a list cannot be merged. -/
theorem merge_bad {m : Nat} {names : List Str} {arrs : List Arr} (h : BadLast names arrs) (hn : names.all (· = recLenName) = false) (hl : arrs.length ≠ 1) :
    ∃ e, merge m arrs = .error e := by
  obtain ⟨a, h1, h2, h3⟩ := h
  have hmem : a ∈ arrs := List.mem_of_getLast? h1
  have hone : mergeOne m a = .error .valueError := by
    unfold mergeOne
    rw [h3, hn, h2]
    rfl
  obtain ⟨e, he⟩ := mapM_error_of hmem hone
  unfold merge
  split
  · exact absurd rfl hl
  · simp only [bind, Except.bind]
    split
    · exact ⟨_, rfl⟩
    · rw [he]; exact ⟨_, rfl⟩

theorem addPage_bad {m : Nat} {names : List Str} {rows : List (List Arr)} {row : List Arr} (hm : row ∈ rows) (h : BadLast names row)
    (hn : names.all (· = recLenName) = false) (hl : row.length ≠ 1) : ∃ e, addPage m rows = .error e := by
  obtain ⟨e, he⟩ := merge_bad (m := m) h hn hl
  obtain ⟨e', he'⟩ := mapM_error_of hm he
  unfold addPage
  simp only [bind, Except.bind, he']
  exact ⟨_, rfl⟩

end Verif.Sdds
