import Verif.Sdds.LemmasLines

/-!
# The fuel does not matter once the loops end
-/

namespace Verif.Sdds

theorem readLine_mono {f f' : Nat} (hf : f ≤ f') {b : Bytes} {x : Str × Bytes} (h : readLine f b = some x) :
    readLine f' b = some x := by
  induction f generalizing b f' with
  | zero => cases h
  | succ n ih =>
    obtain ⟨m, rfl⟩ : ∃ m, f' = m + 1 := ⟨f' - 1, by omega⟩
    unfold readLine at h ⊢
    simp only at h ⊢
    split_ifs at h ⊢ with h1
    · exact ih (by omega) h
    · exact h

theorem readNamelist_mono {f f' n n' : Nat} (hf : f ≤ f') (hn : n ≤ n') {line : Str} {b : Bytes} {x : List Str × Bytes}
    (h : readNamelist f n line b = some x) : readNamelist f' n' line b = some x := by
  induction n generalizing line b n' x with
  | zero => cases h
  | succ n ih =>
    obtain ⟨m, rfl⟩ : ∃ m, n' = m + 1 := ⟨n' - 1, by omega⟩
    unfold readNamelist at h ⊢
    split_ifs at h ⊢ with h1
    · exact h
    · cases hq : readLine f b with
      | none => rw [hq] at h; cases h
      | some lb =>
        rw [hq] at h
        rw [readLine_mono hf hq]
        simp only at h ⊢
        cases hq2 : readNamelist f n lb.1 lb.2 with
        | none => rw [hq2] at h; cases h
        | some q =>
          rw [hq2] at h
          rw [ih (by omega) hq2]
          exact h

theorem headerLoop_mono {f f' n n' : Nat} (hf : f ≤ f') (hn : n ≤ n') {count : Nat} {b : Bytes}
    {x : Except PyErr RawHeader} (h : headerLoop f n count b = some x) : headerLoop f' n' count b = some x := by
  induction n generalizing count b n' x with
  | zero => cases h
  | succ n ih =>
    obtain ⟨m, rfl⟩ : ∃ m, n' = m + 1 := ⟨n' - 1, by omega⟩
    unfold headerLoop at h ⊢
    cases hq : readLine f b with
    | none => rw [hq] at h; cases h
    | some lb =>
      rw [hq] at h
      rw [readLine_mono hf hq]
      simp only at h ⊢
      split_ifs at h ⊢ with ha hb
      · cases hq2 : readNamelist f f lb.1 lb.2 with
        | none => rw [hq2] at h; cases h
        | some q =>
          rw [hq2] at h
          rw [readNamelist_mono hf hf hq2]
          simp only at h ⊢
          cases hq3 : headerLoop f n (count + 1 + q.1.length) q.2 with
          | none => rw [hq3] at h; cases h
          | some e =>
            rw [hq3] at h
            rw [ih (by omega) hq3]
            exact h
      · cases hq2 : readNamelist f f lb.1 lb.2 with
        | none => rw [hq2] at h; cases h
        | some q =>
          rw [hq2] at h
          rw [readNamelist_mono hf hf hq2]
          exact h
      · exact h

theorem readHeader_mono {f f' : Nat} (hf : f ≤ f') {b : Bytes} {x : Except PyErr RawHeader}
    (h : readHeader f b = some x) : readHeader f' b = some x := by
  unfold readHeader at h ⊢
  cases hq : readLine f b with
  | none => rw [hq] at h; cases h
  | some lb =>
    rw [hq] at h
    rw [readLine_mono hf hq]
    simp only at h ⊢
    split_ifs at h ⊢ with h1
    · exact headerLoop_mono hf hf h
    · exact h

theorem open_mono {ft : FloatText} {f f' : Nat} (hf : f ≤ f') {buffer : Bool} {m : Nat} {b : Bytes}
    {x : Except PyErr Reader} (h : openSdds ft f buffer m b = some x) : openSdds ft f' buffer m b = some x := by
  unfold openSdds at h ⊢
  cases hq : readHeader f b with
  | none => rw [hq] at h; cases h
  | some e =>
    rw [hq] at h
    rw [readHeader_mono hf hq]
    exact h

/-! ## The loops that never end -/

theorem readLine_blank {L : List Bytes} (hL : ∀ l ∈ L, IsLine l) (h : Relevant L = []) (fuel : Nat) :
    readLine fuel L.flatten = none := by
  induction fuel generalizing L with
  | zero => rfl
  | succ n ih =>
    cases L with
    | nil =>
      rw [List.flatten_nil, readLine]
      rw [if_pos (show latin1 (readline []).1 = [] ∨ latin1 (readline []).1 = ['\n'] ∨
        (latin1 (readline []).1).head? = some '!' from Or.inl rfl)]
      exact ih (L := []) (by simp) rfl
    | cons a L =>
      unfold Relevant at h
      have ha : Ignorable a = true := by
        have := List.filter_eq_nil_iff.mp h a List.mem_cons_self
        simpa using this
      rw [List.flatten_cons, readLine_ignore (hL a List.mem_cons_self) ha]
      refine ih (fun l hl => hL l (List.mem_cons_of_mem _ hl)) ?_
      unfold Relevant
      rw [List.filter_cons_of_neg (by simp [ha])] at h
      exact h

theorem readNamelist_suffix {fuel n : Nat} {line : Str} {L : List Bytes} (hL : ∀ l ∈ L, IsLine l) {ls : List Str} {c : Bytes}
    (h : readNamelist fuel n line L.flatten = some (ls, c)) : ∃ I N, L = I ++ N ∧ c = N.flatten := by
  induction n generalizing line L ls c with
  | zero => cases h
  | succ n ih =>
    unfold readNamelist at h
    split_ifs at h with h1
    · simp only [Option.some.injEq, Prod.mk.injEq] at h
      exact ⟨[], L, rfl, h.2.symm⟩
    · cases hq : readLine fuel L.flatten with
      | none => rw [hq] at h; cases h
      | some lb =>
        obtain ⟨l, b'⟩ := lb
        rw [hq] at h
        simp only at h
        have hq' : readLine fuel (L.flatten ++ []) = some (l, b') := by rw [List.append_nil]; exact hq
        obtain ⟨I, x, M, rfl, -, -, -, h5⟩ := readLine_cases hL hq' (by simp)
        rw [List.append_nil] at h5
        subst h5
        cases hq2 : readNamelist fuel n l M.flatten with
        | none => rw [hq2] at h; cases h
        | some q =>
          obtain ⟨ls', b''⟩ := q
          rw [hq2] at h
          simp only [Option.some.injEq, Prod.mk.injEq] at h
          obtain ⟨I', N, rfl, h6⟩ := ih (fun l hl => hL l (by simp [hl])) hq2
          exact ⟨I ++ x :: I', N, by simp, by rw [← h.2]; exact h6⟩

/-- Without a `&data` line the header loop never ends. -/
theorem headerLoop_never {L : List Bytes} (hL : ∀ l ∈ L, IsLine l)
    (h : ∀ l ∈ Relevant L, (sddsNamelists.any fun nl => hasSub nl (latin1 l)) = true) (fuel n count : Nat) :
    headerLoop fuel n count L.flatten = none := by
  induction n generalizing L count with
  | zero => rfl
  | succ n ih =>
    unfold headerLoop
    cases hq : readLine fuel L.flatten with
    | none => rfl
    | some lb =>
      obtain ⟨l, b'⟩ := lb
      have hq' : readLine fuel (L.flatten ++ []) = some (l, b') := by rw [List.append_nil]; exact hq
      obtain ⟨I, x, M, rfl, h2, h3, h4, h5⟩ := readLine_cases hL hq' (by simp)
      rw [List.append_nil] at h5
      subst h5
      rw [relevant_split h2 h3] at h
      have hx := h x List.mem_cons_self
      subst h4
      simp only
      rw [if_pos hx]
      cases hq2 : readNamelist fuel fuel (latin1 x) M.flatten with
      | none => rfl
      | some q =>
        obtain ⟨ls, c⟩ := q
        have hM : ∀ l ∈ M, IsLine l := fun l hl => hL l (by simp [hl])
        obtain ⟨I', N, rfl, rfl⟩ := readNamelist_suffix hM hq2
        simp only
        rw [ih (fun l hl => hM l (by simp [hl]))]
        intro l hl
        apply h l (List.mem_cons_of_mem _ _)
        unfold Relevant at hl ⊢
        rw [List.filter_append]
        exact List.mem_append_right _ hl

end Verif.Sdds
