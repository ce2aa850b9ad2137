import Verif.Sdds.Accessors
import Verif.Sdds.PropsMixed
import Verif.Sdds.LemmasCut
import Verif.Sdds.PropsOpen

/-!
# Lemmas on the fields of the records that are read
-/

namespace Verif.Sdds

/-- A value read with the key `k`. -/
def KeyVal (k : Key) (kv : Str × Val) : Prop :=
  kv.1 = k.1 ∧ match k.2 with
    | .num t => ∃ x, x < 256 ^ t.size ∧ kv.2 = .num t x
    | .strN n => ∃ s : Bytes, s.length ≤ n ∧ kv.2 = .str s
    | .strRaw => ∃ s : Bytes, kv.2 = .str s
    | .char => False

theorem stripNul_length (s : Bytes) : (stripNul s).length ≤ s.length := by
  unfold stripNul
  rw [List.length_reverse, ← List.length_reverse (as := s)]
  exact (List.dropWhile_suffix _).length_le

theorem keyVal_decode {k : Key} (hk : ∃ n, keySize k.2 = .ok n) (b : Bytes) : KeyVal k (k.1, decodeKey k.2 (b.take (keyWidth k.2))) := by
  obtain ⟨name, t⟩ := k
  obtain ⟨n, hn⟩ := hk
  refine ⟨rfl, ?_⟩
  cases t with
  | num t =>
    refine ⟨_, ?_, rfl⟩
    exact lt_of_lt_of_le (leNat_lt _) (Nat.pow_le_pow_right (by omega) (List.length_take_le _ _))
  | strN m => exact ⟨_, (stripNul_length _).trans (List.length_take_le _ _), rfl⟩
  | strRaw => cases hn
  | char => cases hn

theorem keyVal_decodeRec {dk : Dtype} (hk : ∀ k ∈ dk, ∃ n, keySize k.2 = .ok n) : ∀ b : Bytes, List.Forall₂ KeyVal dk (decodeRec dk b) := by
  induction dk with
  | nil => intro b; exact .nil
  | cons k dk ih =>
    intro b
    exact .cons (keyVal_decode (hk k (by simp)) b) (ih (fun k h => hk k (by simp [h])) _)

theorem keyVal_decodeRows {dk : Dtype} (hk : ∀ k ∈ dk, ∃ n, keySize k.2 = .ok n) (size : Nat) :
    ∀ (n : Nat) (b : Bytes), ∀ rec ∈ decodeRows dk size n b, List.Forall₂ KeyVal dk rec := by
  intro n
  induction n with
  | zero => intro b rec h; cases h
  | succ n ih =>
    intro b rec h
    rcases List.mem_cons.mp h with rfl | h
    · exact keyVal_decodeRec hk b
    · exact ih _ rec h

theorem itemSize_known {dk : Dtype} {s : Nat} (h : itemSize dk = .ok s) : (∀ k ∈ dk, ∃ n, keySize k.2 = .ok n) ∧ (dk.map Prod.fst).Nodup := by
  unfold itemSize at h
  cases h1 : (dk.mapM fun k => keySize k.2) with
  | error e => rw [h1] at h; cases h
  | ok ss =>
    rw [h1] at h
    simp only [bind, Except.bind] at h
    refine ⟨(mapM_ok_iff _ _).mp ⟨ss, h1⟩, ?_⟩
    by_contra hn
    rw [if_neg hn] at h
    cases h

theorem decodeRows_length (dk : Dtype) (size : Nat) : ∀ (n : Nat) (b : Bytes), (decodeRows dk size n b).length = n := by
  intro n
  induction n with
  | zero => intro b; rfl
  | succ n ih => intro b; rw [decodeRows, List.length_cons, ih]

/-- The records of an array that was read have the fields of the keys; a buffered read gives all records. -/
theorem readArr_fields {r : Reader} {dk : Dtype} {n : Nat} {p : Pos} {x : Arr × Pos} (h : r.readArr dk n p = .ok x) :
    x.1.dt = dk ∧ (∀ rec ∈ x.1.rows, List.Forall₂ KeyVal dk rec) ∧ x.1.rows.length ≤ n ∧ (r.buffer = true → x.1.rows.length = n) := by
  unfold Reader.readArr at h
  by_cases hb : r.buffer = true
  · rw [if_pos hb] at h
    unfold frombuffer at h
    cases hs : itemSize dk with
    | error e => rw [hs] at h; cases h
    | ok s =>
      rw [hs] at h
      simp only [bind, Except.bind] at h
      by_cases h0 : s = 0
      · rw [if_pos h0] at h; cases h
      · rw [if_neg h0] at h
        by_cases h1 : r.file.length < p.position
        · rw [if_pos h1] at h; cases h
        · rw [if_neg h1] at h
          by_cases h2 : r.file.length - p.position < n * s
          · rw [if_pos h2] at h; cases h
          · rw [if_neg h2] at h
            cases h
            refine ⟨rfl, keyVal_decodeRows (itemSize_known hs).1 _ _ _, ?_, fun _ => ?_⟩
            · exact (decodeRows_length _ _ _ _).le
            · exact decodeRows_length _ _ _ _
  · rw [if_neg hb] at h
    unfold fromfile at h
    cases hs : itemSize dk with
    | error e => rw [hs] at h; cases h
    | ok s =>
      rw [hs] at h
      simp only [bind, Except.bind] at h
      by_cases h0 : s = 0
      · rw [if_pos h0] at h; cases h
      · rw [if_neg h0] at h
        by_cases h1 : (r.file.length - (p.ptr + p.position)) / s < n
        · rw [if_pos h1] at h
          cases h
          refine ⟨rfl, keyVal_decodeRows (itemSize_known hs).1 _ _ _, ?_, fun h => absurd h hb⟩
          exact ((decodeRows_length _ _ _ _).trans_lt h1).le
        · rw [if_neg h1] at h
          cases h
          refine ⟨rfl, keyVal_decodeRows (itemSize_known hs).1 _ _ _, ?_, fun h => absurd h hb⟩
          exact (decodeRows_length _ _ _ _).le

/-- The key after the length of a string was put in. -/
def KeySub (k k' : Key) : Prop := k'.1 = k.1 ∧ (k'.2 = k.2 ∨ k.2 = .strRaw ∧ ∃ n, k'.2 = .strN n)

theorem keySub_refl (dk : Dtype) : List.Forall₂ KeySub dk dk :=
  List.forall₂_same.mpr fun _ _ => ⟨rfl, .inl rfl⟩

theorem resolve_sub {v : Bool} {prev : Option Arr} {dk dk' : Dtype} (h : resolve v prev dk = .ok dk') : List.Forall₂ KeySub dk dk' := by
  unfold resolve at h
  cases v with
  | false => cases h; exact keySub_refl _
  | true =>
    simp only [Bool.not_true, Bool.false_eq_true, if_false] at h
    cases prev with
    | none => cases h; exact keySub_refl _
    | some a =>
      simp only at h
      by_cases hc : (a.dt.map Prod.fst).contains recLenName = true
      · rw [if_pos hc] at h
        generalize a.rows.head?.bind (recField recLenName) = o at h
        match o, h with
        | none, h => cases h; exact keySub_refl _
        | some (.str s), h => cases h; exact keySub_refl _
        | some (.num t x), h =>
          cases dk with
          | nil => cases h; exact .nil
          | cons k ks =>
            simp only [bind, Except.bind] at h
            cases hf : fmtKey k.2 (ofBits t.size x) with
            | error e => rw [hf] at h; cases h
            | ok t' =>
              rw [hf] at h
              cases h
              refine .cons ⟨rfl, ?_⟩ (keySub_refl _)
              unfold fmtKey at hf
              generalize ofBits t.size x = i at hf
              obtain ⟨kn, kt⟩ := k
              cases kt with
              | num t => cases hf
              | char => cases hf
              | strN m => cases hf; exact .inl rfl
              | strRaw =>
                simp only at hf
                by_cases h0 : 0 ≤ i
                · rw [if_pos h0] at hf; cases hf; exact .inr ⟨rfl, _, rfl⟩
                · rw [if_neg h0] at hf; cases hf
      · rw [if_neg hc] at h; cases h; exact keySub_refl _

theorem keyVal_sub {k k' : Key} {kv : Str × Val} (h : KeySub k k') (hv : KeyVal k' kv) : KeyVal k kv := by
  obtain ⟨n, t⟩ := k
  obtain ⟨n', t'⟩ := k'
  obtain ⟨h1, h2⟩ := h
  obtain ⟨v1, v2⟩ := hv
  cases h1
  refine ⟨v1, ?_⟩
  rcases h2 with h2 | ⟨h2, m, h3⟩
  · cases h2; exact v2
  · cases h2
    cases h3
    obtain ⟨s, -, e⟩ := v2
    exact ⟨s, e⟩

theorem forall₂_sub {dk dk' : Dtype} {rec : Record} (h : List.Forall₂ KeySub dk dk') (hv : List.Forall₂ KeyVal dk' rec) : List.Forall₂ KeyVal dk rec := by
  induction h generalizing rec with
  | nil => cases hv; exact .nil
  | cons h _ ih => cases hv with | cons v vs => exact .cons (keyVal_sub h v) (ih vs)

theorem keySub_names {dk dk' : Dtype} (h : List.Forall₂ KeySub dk dk') : dk'.map Prod.fst = dk.map Prod.fst := by
  induction h with
  | nil => rfl
  | cons h _ ih => rw [List.map_cons, List.map_cons, ih, h.1]

/-- An array read for the group `dk`. -/
def GroupArr (b : Bool) (n : Nat) (dk : Dtype) (a : Arr) : Prop :=
  a.dt.map Prod.fst = dk.map Prod.fst ∧ (∀ rec ∈ a.rows, List.Forall₂ KeyVal dk rec) ∧ a.rows.length ≤ n ∧ (b = true → a.rows.length = n)

theorem getParams_fields {r : Reader} : ∀ (dks : List Dtype) (acc : List Arr) (p : Pos) (x : List Arr × Pos),
    r.getParams dks acc p = .ok x → ∃ new, x.1 = acc ++ new ∧ List.Forall₂ (GroupArr r.buffer 1) dks new := by
  intro dks
  induction dks with
  | nil => intro acc p x h; cases h; exact ⟨[], by simp, .nil⟩
  | cons dk dks ih =>
    intro acc p x h
    rw [Reader.getParams] at h
    cases h1 : resolve r.varLen acc.getLast? dk with
    | error e => rw [h1] at h; cases h
    | ok dk' =>
      rw [h1] at h
      simp only [bind, Except.bind] at h
      cases h2 : r.readArr dk' 1 p with
      | error e => rw [h2] at h; cases h
      | ok ap =>
        rw [h2] at h
        obtain ⟨new, e, hn⟩ := ih _ _ _ h
        have hs := resolve_sub h1
        obtain ⟨f1, f2, f3, f4⟩ := readArr_fields h2
        refine ⟨ap.1 :: new, by rw [e, List.append_assoc, List.singleton_append], .cons ⟨?_, fun rec hr => forall₂_sub hs (f2 rec hr), f3, f4⟩ hn⟩
        rw [f1, keySub_names hs]

theorem getRows_fields {r : Reader} {keys : List Dtype} : ∀ (n : Nat) (p : Pos) (x : List (List Arr) × Pos),
    r.getRows keys n p = .ok x → x.1.length = n ∧ ∀ row ∈ x.1, List.Forall₂ (GroupArr r.buffer 1) keys row := by
  intro n
  induction n with
  | zero => intro p x h; cases h; exact ⟨rfl, by simp⟩
  | succ n ih =>
    intro p x h
    rw [Reader.getRows] at h
    cases h1 : r.getParams keys [] p with
    | error e => rw [h1] at h; cases h
    | ok rp =>
      rw [h1] at h
      simp only [bind, Except.bind] at h
      cases h2 : r.getRows keys n rp.2 with
      | error e => rw [h2] at h; cases h
      | ok rest =>
        rw [h2] at h
        cases h
        obtain ⟨new, e, hn⟩ := getParams_fields _ _ _ _ h1
        obtain ⟨hl, hr⟩ := ih _ _ h2
        refine ⟨by simp [hl], ?_⟩
        intro row hrow
        rcases List.mem_cons.mp hrow with rfl | hrow
        · rw [e]; exact hn
        · exact hr row hrow

/-- A value in the array that `_merge` makes for the key `k`. -/
def MergedVal (m : Nat) (k : Key) (kv : Str × Val) : Prop :=
  kv.1 = k.1 ∧ match k.2 with
    | .num t => ∃ x, x < 256 ^ t.size ∧ kv.2 = .num t x
    | .char => False
    | _ => ∃ s : Bytes, s.length ≤ m ∧ (∀ b ∈ s, b < 128) ∧ kv.2 = .str s

theorem castVal_merged {m : Nat} {k : Key} {kv : Str × Val} {v : Val} (hk : KeyVal k kv) (h : castVal m kv.2 = .ok v) : MergedVal m k (kv.1, v) := by
  obtain ⟨n, t⟩ := k
  obtain ⟨h1, h2⟩ := hk
  refine ⟨h1, ?_⟩
  have str : ∀ s : Bytes, kv.2 = .str s → ∃ s' : Bytes, s'.length ≤ m ∧ (∀ b ∈ s', b < 128) ∧ v = .str s' := by
    intro s e
    rw [e, castVal] at h
    by_cases ha : s.all (· < 128) = true
    · rw [if_pos ha] at h
      cases h
      refine ⟨_, (stripNul_length _).trans (List.length_take_le _ _), ?_, rfl⟩
      intro b hb
      have hb' : b ∈ s := by
        unfold stripNul at hb
        exact List.mem_of_mem_take (List.mem_reverse.mp ((List.dropWhile_suffix _).subset (List.mem_reverse.mp hb)))
      simpa using List.all_eq_true.mp ha b hb'
    · rw [if_neg ha] at h; cases h
  cases t with
  | num t =>
    obtain ⟨x, hx, e⟩ := h2
    rw [e, castVal] at h
    cases h
    exact ⟨x, hx, rfl⟩
  | strN n => obtain ⟨s, -, e⟩ := h2; exact str s e
  | strRaw => obtain ⟨s, e⟩ := h2; exact str s e
  | char => exact h2

theorem mergeRec_fields {m : Nat} : ∀ (dk : Dtype) (rec out : Record), List.Forall₂ KeyVal dk rec → mergeRec m rec = .ok out →
    List.Forall₂ (MergedVal m) (dk.filter fun k => k.1 ≠ recLenName) out := by
  intro dk
  induction dk with
  | nil => intro rec out h ho; cases h; cases ho; exact .nil
  | cons k dk ih =>
    intro rec out h ho
    cases h with
    | @cons _ kv _ rest h hs =>
      have hn : kv.1 = k.1 := h.1
      unfold mergeRec at ho
      by_cases hk : k.1 = recLenName
      · rw [List.filter_cons_of_neg (by simpa [hn] using hk)] at ho
        rw [List.filter_cons_of_neg (by simpa using hk)]
        exact ih _ _ hs ho
      · rw [List.filter_cons_of_pos (by simpa [hn] using hk), List.mapM_cons] at ho
        rw [List.filter_cons_of_pos (by simpa using hk)]
        simp only [bind, Except.bind, pure, Except.pure] at ho
        cases h1 : castVal m kv.2 with
        | error e => rw [h1] at ho; cases ho
        | ok v =>
          rw [h1] at ho
          simp only at ho
          split at ho
          · cases ho
          · rename_i out' h2
            cases ho
            exact .cons (castVal_merged h h1) (ih _ _ hs h2)

theorem filter_all {dk : Dtype} (h : (dk.map Prod.fst).all (· = recLenName) = true) : (dk.filter fun k => k.1 ≠ recLenName) = [] := by
  rw [List.filter_eq_nil_iff]
  intro k hk
  have := List.all_eq_true.mp h k.1 (List.mem_map_of_mem hk)
  simpa using this

theorem mergeOne_fields {b : Bool} {m : Nat} {dk : Dtype} {a : Arr} {out : Record} (h : GroupArr b 1 dk a) (ho : mergeOne m a = .ok out) :
    List.Forall₂ (MergedVal m) (dk.filter fun k => k.1 ≠ recLenName) out := by
  unfold mergeOne at ho
  rw [h.1] at ho
  by_cases ha : (dk.map Prod.fst).all (· = recLenName) = true
  · rw [if_pos ha] at ho
    cases ho
    rw [filter_all ha]
    exact .nil
  · rw [if_neg ha] at ho
    obtain ⟨dt, rows⟩ := a
    match rows, ho, h with
    | [rec], ho, h => exact mergeRec_fields _ _ _ (h.2.1 rec (by simp)) ho

theorem mergeAll_fields {b : Bool} {m : Nat} : ∀ (keys : List Dtype) (arrs : List Arr) (outs : List Record), List.Forall₂ (GroupArr b 1) keys arrs →
    arrs.mapM (mergeOne m) = .ok outs → List.Forall₂ (MergedVal m) (keys.flatten.filter fun k => k.1 ≠ recLenName) outs.flatten := by
  intro keys
  induction keys with
  | nil => intro arrs outs h ho; cases h; cases ho; exact .nil
  | cons dk keys ih =>
    intro arrs outs h ho
    cases h with
    | @cons _ a _ arrs h hs =>
      rw [List.mapM_cons] at ho
      simp only [bind, Except.bind, pure, Except.pure] at ho
      cases h1 : mergeOne m a with
      | error e => rw [h1] at ho; cases ho
      | ok out =>
        rw [h1] at ho
        simp only at ho
        split at ho
        · cases ho
        · rename_i outs' h2
          cases ho
          rw [List.flatten_cons, List.filter_append, List.flatten_cons]
          exact List.rel_append (mergeOne_fields h h1) (ih _ _ hs h2)

theorem merge_fields {b : Bool} {m : Nat} {keys : List Dtype} {arrs : List Arr} {out : List Record} (hk : keys.length ≠ 1)
    (h : List.Forall₂ (GroupArr b 1) keys arrs) (ho : merge m arrs = .ok out) :
    ∃ rec, out = [rec] ∧ List.Forall₂ (MergedVal m) (keys.flatten.filter fun k => k.1 ≠ recLenName) rec := by
  have hl := h.length_eq
  unfold merge at ho
  split at ho
  · exact absurd hl hk
  · simp only [bind, Except.bind] at ho
    split at ho
    · cases ho
    · cases h1 : arrs.mapM (mergeOne m) with
      | error e => rw [h1] at ho; cases ho
      | ok outs =>
        rw [h1] at ho
        cases ho
        exact ⟨_, rfl, mergeAll_fields _ _ _ h h1⟩

end Verif.Sdds
