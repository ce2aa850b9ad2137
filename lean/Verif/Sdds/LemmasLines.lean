import Verif.Sdds.SpecFile

/-!
# Lemmas on header lines
-/

namespace Verif.Sdds

theorem ofNat_newline : ∀ x : UInt8, Char.ofNat x.toNat = '\n' ↔ x = 10 := by
  intro x
  have : ∀ n : Fin 256, Char.ofNat (UInt8.ofNat n.val).toNat = '\n' ↔ UInt8.ofNat n.val = 10 := by decide +kernel
  have h := this ⟨x.toNat, x.toNat_lt⟩
  simpa using h

theorem ofNat_bang : ∀ x : UInt8, Char.ofNat x.toNat = '!' ↔ x = 33 := by
  intro x
  have : ∀ n : Fin 256, Char.ofNat (UInt8.ofNat n.val).toNat = '!' ↔ UInt8.ofNat n.val = 33 := by decide +kernel
  have h := this ⟨x.toNat, x.toNat_lt⟩
  simpa using h

theorem readline_no (t rest : Bytes) (h : 10 ∉ t) : readline (t ++ 10 :: rest) = (t ++ [10], rest) :=
  readline_append t rest fun b hb hb10 => h (hb10 ▸ hb)

/-- The test in `_read_line` is the test for blank and comment lines. -/
theorem skip_iff {l : Bytes} (h : IsLine l) :
    (latin1 l = [] ∨ latin1 l = ['\n'] ∨ (latin1 l).head? = some '!') ↔ Ignorable l = true := by
  obtain ⟨t, rfl, ht⟩ := h
  unfold Ignorable latin1
  cases t with
  | nil => simp
  | cons a t =>
    have h1 : ¬ (a = 10 ∧ False) := by simp
    simp only [List.cons_append, List.map_cons, reduceCtorEq, List.cons.injEq, List.map_append, List.append_eq_nil_iff,
      List.map_eq_nil_iff, List.map_nil, and_false, false_or, List.head?_cons, Option.some.injEq, Bool.or_eq_true, beq_iff_eq,
      ofNat_bang]

theorem readLine_lt {fuel : Nat} {b : Bytes} {l : Str} {c : Bytes} (h : readLine fuel b = some (l, c)) :
    c.length < b.length := by
  induction fuel generalizing b with
  | zero => cases h
  | succ n ih =>
    have hlen : ∀ b : Bytes, (readline b).1.length + (readline b).2.length = b.length := by
      intro b
      induction b with
      | nil => rfl
      | cons x b ihb =>
        unfold readline
        split_ifs
        · simp; omega
        · simp; omega
    unfold readLine at h
    simp only at h
    have hb := hlen b
    split_ifs at h with h1
    · have := ih h; omega
    · simp only [Option.some.injEq, Prod.mk.injEq] at h
      have : (readline b).1 ≠ [] := by
        intro h0
        apply h1
        rw [h0]
        exact Or.inl rfl
      have := List.length_pos_of_ne_nil this
      rw [← h.2]
      omega

theorem readLine_ignore {l : Bytes} (h : IsLine l) (hi : Ignorable l = true) (fuel : Nat) (rest : Bytes) :
    readLine (fuel + 1) (l ++ rest) = readLine fuel rest := by
  have h' := (skip_iff h).mpr hi
  obtain ⟨t, rfl, ht⟩ := h
  rw [readLine, List.append_assoc, List.singleton_append, readline_no _ _ ht]
  simp only
  rw [if_pos h']

theorem readLine_relevant {l : Bytes} (h : IsLine l) (hi : Ignorable l = false) (fuel : Nat) (rest : Bytes) :
    readLine (fuel + 1) (l ++ rest) = some (latin1 l, rest) := by
  have h' := mt (skip_iff h).mp (by rw [hi]; simp)
  obtain ⟨t, rfl, ht⟩ := h
  rw [readLine, List.append_assoc, List.singleton_append, readline_no _ _ ht]
  simp only
  rw [if_neg h']

/-- Reading a line when a relevant one is left. -/
theorem readLine_skip {I : List Bytes} {x : Bytes} {M : List Bytes} (hI : ∀ l ∈ I, IsLine l ∧ Ignorable l = true)
    (hx : IsLine x) (hxi : Ignorable x = false) (body : Bytes) {fuel : Nat} (hf : I.length < fuel) :
    readLine fuel ((I ++ x :: M).flatten ++ body) = some (latin1 x, M.flatten ++ body) := by
  induction I generalizing fuel with
  | nil =>
    obtain ⟨f, rfl⟩ : ∃ f, fuel = f + 1 := ⟨fuel - 1, by simp at hf; omega⟩
    rw [List.nil_append, List.flatten_cons, List.append_assoc, readLine_relevant hx hxi]
  | cons a I ih =>
    obtain ⟨f, rfl⟩ : ∃ f, fuel = f + 1 := ⟨fuel - 1, by simp at hf; omega⟩
    obtain ⟨h1, h2⟩ := hI a List.mem_cons_self
    rw [List.cons_append, List.flatten_cons, List.append_assoc, readLine_ignore h1 h2]
    exact ih (fun l hl => hI l (List.mem_cons_of_mem _ hl)) (by simp at hf; omega)

/-- What a successful read says about the lines. -/
theorem readLine_cases {L : List Bytes} (hL : ∀ l ∈ L, IsLine l) {body : Bytes} {fuel : Nat} {s : Str} {c : Bytes}
    (h : readLine fuel (L.flatten ++ body) = some (s, c)) (hc : body.length ≤ c.length) :
    ∃ I x M, L = I ++ x :: M ∧ (∀ l ∈ I, Ignorable l = true) ∧ Ignorable x = false ∧ s = latin1 x ∧
      c = M.flatten ++ body := by
  induction L generalizing fuel with
  | nil =>
    have := readLine_lt h
    simp at this
    omega
  | cons a L ih =>
    cases fuel with
    | zero => cases h
    | succ f =>
      have ha := hL a List.mem_cons_self
      rw [List.flatten_cons, List.append_assoc] at h
      cases hi : Ignorable a with
      | true =>
        rw [readLine_ignore ha hi] at h
        obtain ⟨I, x, M, h1, h2, h3, h4, h5⟩ := ih (fun l hl => hL l (List.mem_cons_of_mem _ hl)) h
        refine ⟨a :: I, x, M, by rw [h1]; rfl, ?_, h3, h4, h5⟩
        intro l hl
        rcases List.mem_cons.mp hl with rfl | hl
        · exact hi
        · exact h2 l hl
      | false =>
        rw [readLine_relevant ha hi] at h
        simp only [Option.some.injEq, Prod.mk.injEq] at h
        exact ⟨[], a, L, rfl, by simp, hi, h.1.symm, h.2.symm⟩

theorem relevant_split {I : List Bytes} {x : Bytes} {M : List Bytes} (hI : ∀ l ∈ I, Ignorable l = true)
    (hx : Ignorable x = false) : Relevant (I ++ x :: M) = x :: Relevant M := by
  unfold Relevant
  rw [List.filter_append, List.filter_eq_nil_iff.mpr, List.filter_cons_of_pos (by simp [hx]), List.nil_append]
  intro l hl
  simp [hI l hl]

theorem relevant_cons {L : List Bytes} {x : Bytes} {R : List Bytes} (h : Relevant L = x :: R) :
    ∃ I M, L = I ++ x :: M ∧ (∀ l ∈ I, Ignorable l = true) ∧ Ignorable x = false ∧ Relevant M = R := by
  unfold Relevant at h ⊢
  obtain ⟨I, M, h1, h2, h3, h4⟩ := List.filter_eq_cons_iff.mp h
  refine ⟨I, M, h1, ?_, by simpa using h3, h4⟩
  intro l hl
  simpa using h2 l hl

/-- The last line, if any, is relevant. -/
def EndsRelevant (L : List Bytes) : Prop := ∀ l, L.getLast? = some l → Ignorable l = false

theorem EndsRelevant.suffix {I : List Bytes} {x : Bytes} {M : List Bytes} (h : EndsRelevant (I ++ x :: M)) :
    EndsRelevant M := by
  intro l hl
  apply h l
  cases M with
  | nil => cases hl
  | cons a M => rw [List.getLast?_append, List.getLast?_cons_cons, hl]; rfl

/-- One step in both files. -/
theorem readLine_sim {L L' : List Bytes} (hL : ∀ l ∈ L, IsLine l) (hL' : ∀ l ∈ L', IsLine l)
    (hr : Relevant L = Relevant L') (he : EndsRelevant L') {body : Bytes} {fuel : Nat} {s : Str} {c : Bytes}
    (h : readLine fuel (L.flatten ++ body) = some (s, c)) (hc : body.length ≤ c.length) {fuel' : Nat}
    (hf : L'.length < fuel') :
    ∃ M M', c = M.flatten ++ body ∧ (∀ l ∈ M, IsLine l) ∧ (∀ l ∈ M', IsLine l) ∧ Relevant M = Relevant M' ∧
      EndsRelevant M' ∧ M'.length < L'.length ∧
      readLine fuel' (L'.flatten ++ body) = some (s, M'.flatten ++ body) := by
  obtain ⟨I, x, M, rfl, h2, h3, h4, h5⟩ := readLine_cases hL h hc
  rw [relevant_split h2 h3] at hr
  obtain ⟨I', M', rfl, g2, g3, g4⟩ := relevant_cons hr.symm
  refine ⟨M, M', h5, fun l hl => hL l (by simp [hl]), fun l hl => hL' l (by simp [hl]), g4.symm, he.suffix, ?_, ?_⟩
  · simp; omega
  · rw [h4]
    refine readLine_skip ?_ (hL' x (by simp)) g3 body ?_
    · intro l hl
      exact ⟨hL' l (by simp [hl]), g2 l hl⟩
    · simp at hf; omega

theorem readNamelist_le {fuel n : Nat} {line : Str} {b : Bytes} {ls : List Str} {c : Bytes}
    (h : readNamelist fuel n line b = some (ls, c)) : c.length ≤ b.length := by
  induction n generalizing line b ls c with
  | zero => cases h
  | succ n ih =>
    unfold readNamelist at h
    split_ifs at h with h1
    · simp only [Option.some.injEq, Prod.mk.injEq] at h
      rw [h.2]
    · cases hr : readLine fuel b with
      | none => rw [hr] at h; cases h
      | some lb =>
        obtain ⟨l, b'⟩ := lb
        rw [hr] at h
        simp only at h
        cases hn : readNamelist fuel n l b' with
        | none => rw [hn] at h; cases h
        | some q =>
          obtain ⟨ls', b''⟩ := q
          rw [hn] at h
          simp only [Option.some.injEq, Prod.mk.injEq] at h
          have := ih hn
          have := readLine_lt hr
          rw [← h.2]
          omega

theorem readNamelist_sim {fuel n : Nat} {line : Str} {body : Bytes} {ls : List Str} {c : Bytes} {L L' : List Bytes}
    (hL : ∀ l ∈ L, IsLine l) (hL' : ∀ l ∈ L', IsLine l)
    (hr : Relevant L = Relevant L') (he : EndsRelevant L')
    (h : readNamelist fuel n line (L.flatten ++ body) = some (ls, c)) (hc : body.length ≤ c.length) {fuel' n' : Nat}
    (hf : L'.length < fuel') (hn : L'.length < n') :
    ∃ M M', c = M.flatten ++ body ∧ (∀ l ∈ M, IsLine l) ∧ (∀ l ∈ M', IsLine l) ∧ Relevant M = Relevant M' ∧
      EndsRelevant M' ∧ M'.length ≤ L'.length ∧
      readNamelist fuel' n' line (L'.flatten ++ body) = some (ls, M'.flatten ++ body) := by
  induction n generalizing line L L' ls c n' with
  | zero => cases h
  | succ n ih =>
    obtain ⟨m, rfl⟩ : ∃ m, n' = m + 1 := ⟨n' - 1, by omega⟩
    unfold readNamelist at h ⊢
    split_ifs at h ⊢ with h1
    · simp only [Option.some.injEq, Prod.mk.injEq] at h
      refine ⟨L, L', h.2.symm, hL, hL', hr, he, Nat.le_refl _, ?_⟩
      rw [← h.1]
    · cases hq : readLine fuel (L.flatten ++ body) with
      | none => rw [hq] at h; cases h
      | some lb =>
        obtain ⟨l, b'⟩ := lb
        rw [hq] at h
        simp only at h
        cases hq2 : readNamelist fuel n l b' with
        | none => rw [hq2] at h; cases h
        | some q =>
          obtain ⟨ls', b''⟩ := q
          rw [hq2] at h
          simp only [Option.some.injEq, Prod.mk.injEq] at h
          have hle := readNamelist_le hq2
          have hb' : body.length ≤ b'.length := by rw [h.2] at hle; omega
          obtain ⟨M, M', k1, k2, k3, k4, k5, k6, k7⟩ := readLine_sim hL hL' hr he hq hb' hf
          rw [k1] at hq2
          obtain ⟨N, N', j1, j2, j3, j4, j5, j6, j7⟩ := ih k2 k3 k4 k5 hq2 (by rw [h.2]; exact hc) (n' := m)
            (by omega) (by omega)
          refine ⟨N, N', by rw [← h.2]; exact j1, j2, j3, j4, j5, by omega, ?_⟩
          rw [k7]
          simp only
          rw [j7]
          simp only [h.1]

theorem headerLoop_le {fuel n count : Nat} {b : Bytes} {r : RawHeader} (h : headerLoop fuel n count b = some (.ok r)) :
    r.rest.length ≤ b.length := by
  induction n generalizing count b r with
  | zero => cases h
  | succ n ih =>
    unfold headerLoop at h
    cases hq : readLine fuel b with
    | none => rw [hq] at h; cases h
    | some lb =>
      obtain ⟨l, b'⟩ := lb
      rw [hq] at h
      simp only at h
      have h1 := readLine_lt hq
      split_ifs at h with ha hb
      · cases hq2 : readNamelist fuel fuel l b' with
        | none => rw [hq2] at h; cases h
        | some q =>
          obtain ⟨ls, b''⟩ := q
          rw [hq2] at h
          simp only at h
          have h2 := readNamelist_le hq2
          cases hq3 : headerLoop fuel n (count + 1 + ls.length) b'' with
          | none => rw [hq3] at h; cases h
          | some e =>
            cases e with
            | error e => rw [hq3] at h; cases h
            | ok r' =>
              rw [hq3] at h
              simp only [Option.some.injEq, Except.ok.injEq] at h
              have := ih hq3
              rw [← h]
              simp only
              omega
      · cases hq2 : readNamelist fuel fuel l b' with
        | none => rw [hq2] at h; cases h
        | some q =>
          obtain ⟨ls, b''⟩ := q
          rw [hq2] at h
          simp only [Option.some.injEq, Except.ok.injEq] at h
          have h2 := readNamelist_le hq2
          rw [← h]
          simp only
          omega
      · cases h

theorem flatten_nil {M : List Bytes} (hM : ∀ l ∈ M, IsLine l) {body : Bytes} (h : (M.flatten ++ body).length = body.length) :
    M = [] := by
  cases M with
  | nil => rfl
  | cons a M =>
    obtain ⟨t, rfl, -⟩ := hM a List.mem_cons_self
    simp at h
    omega

theorem endsRelevant_nil {M : List Bytes} (h : EndsRelevant M) (h0 : Relevant M = []) : M = [] := by
  cases hM : M.getLast? with
  | none => exact List.getLast?_eq_none_iff.mp hM
  | some l =>
    have h1 := h l hM
    have h2 : l ∈ M := List.mem_of_getLast? hM
    unfold Relevant at h0
    have := List.filter_eq_nil_iff.mp h0 l h2
    simp [h1] at this

theorem headerLoop_sim {fuel n count : Nat} {body : Bytes} {r : RawHeader} {L L' : List Bytes}
    (hL : ∀ l ∈ L, IsLine l) (hL' : ∀ l ∈ L', IsLine l) (hr : Relevant L = Relevant L') (he : EndsRelevant L')
    (h : headerLoop fuel n count (L.flatten ++ body) = some (.ok r)) (hrest : r.rest.length = body.length) {fuel' n' : Nat}
    (hf : L'.length < fuel') (hn : L'.length < n') :
    headerLoop fuel' n' count (L'.flatten ++ body) = some (.ok ⟨r.namelists, r.lineCount, body⟩) := by
  induction n generalizing count L L' r n' with
  | zero => cases h
  | succ n ih =>
    obtain ⟨m, rfl⟩ : ∃ m, n' = m + 1 := ⟨n' - 1, by omega⟩
    unfold headerLoop at h ⊢
    cases hq : readLine fuel (L.flatten ++ body) with
    | none => rw [hq] at h; cases h
    | some lb =>
      obtain ⟨l, b'⟩ := lb
      rw [hq] at h
      simp only at h
      split_ifs at h with ha hb
      · cases hq2 : readNamelist fuel fuel l b' with
        | none => rw [hq2] at h; cases h
        | some q =>
          obtain ⟨ls, b''⟩ := q
          rw [hq2] at h
          simp only at h
          cases hq3 : headerLoop fuel n (count + 1 + ls.length) b'' with
          | none => rw [hq3] at h; cases h
          | some e =>
            cases e with
            | error e => rw [hq3] at h; cases h
            | ok r' =>
              rw [hq3] at h
              simp only [Option.some.injEq, Except.ok.injEq] at h
              have hle3 := headerLoop_le hq3
              have hle2 := readNamelist_le hq2
              have hrr : r'.rest.length = body.length := by rw [← h] at hrest; exact hrest
              obtain ⟨M, M', k1, k2, k3, k4, k5, k6, k7⟩ := readLine_sim hL hL' hr he hq (by omega) hf
              rw [k1] at hq2
              obtain ⟨N, N', j1, j2, j3, j4, j5, j6, j7⟩ := readNamelist_sim k2 k3 k4 k5 hq2 (by omega) (fuel' := fuel')
                (n' := fuel') (by omega) (by omega)
              rw [j1] at hq3
              rw [k7]
              simp only
              rw [if_pos ha, j7]
              simp only
              rw [ih j2 j3 j4 j5 hq3 hrr (by omega) (by omega)]
              simp only
              rw [← h]
      · cases hq2 : readNamelist fuel fuel l b' with
        | none => rw [hq2] at h; cases h
        | some q =>
          obtain ⟨ls, b''⟩ := q
          rw [hq2] at h
          simp only [Option.some.injEq, Except.ok.injEq] at h
          have hle2 := readNamelist_le hq2
          have hb2 : b''.length = body.length := by rw [← h] at hrest; exact hrest
          obtain ⟨M, M', k1, k2, k3, k4, k5, k6, k7⟩ := readLine_sim hL hL' hr he hq (by omega) hf
          rw [k1] at hq2
          obtain ⟨N, N', j1, j2, j3, j4, j5, j6, j7⟩ := readNamelist_sim k2 k3 k4 k5 hq2 (by omega) (fuel' := fuel')
            (n' := fuel') (by omega) (by omega)
          rw [j1] at hb2
          rw [flatten_nil j2 hb2] at j4
          rw [endsRelevant_nil j5 j4.symm] at j7
          rw [k7]
          simp only
          rw [if_neg ha, if_pos hb, j7]
          simp only
          rw [← h]
          rfl
      · cases h

end Verif.Sdds
