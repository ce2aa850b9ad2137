import Verif.Sdds.PropsMixed
import Verif.Sdds.PropsAscii

/-!
# Property C01: tables of every mix of column types, read without buffer

`np.column_stack` stores narrower columns with more bytes than the header declares. If the declared bytes are
nevertheless the first ones stored, all bytes from the first narrower entry on are 0 or 255, so that the bytes
left over are not taken for the end of the file.
-/

namespace Verif.Sdds

/-- The numpy casts of `np.column_stack` are exact: integers are widened with their sign, and
become the double of the same value. -/
structure Env.CastsExact (env : Env) : Prop where
  widen : ∀ x < 65536, env.cast .i16 .i32 x = toBits 4 (ofBits 2 x)
  short : ∀ x < 65536, env.cast .i16 .f64 x = (intF64 (ofBits 2 x)).toNat
  long : ∀ x < 4294967296, env.cast .i32 .f64 x = (intF64 (ofBits 4 x)).toNat

/-! ## Bytes of numbers -/

theorem leBytes_take (y : Nat) : ∀ (n s : Nat), s ≤ n → (leBytes n y).take s = leBytes s y
  | n, 0, _ => by simp [leBytes]
  | 0, s + 1, h => by omega
  | n + 1, s + 1, h => by
    simp only [leBytes, List.take_succ_cons]
    rw [leBytes_take (y / 256) n s (by omega)]

theorem leBytes_zero : ∀ n, leBytes n 0 = List.replicate n 0
  | 0 => rfl
  | n + 1 => by
    rw [leBytes, Nat.zero_div, leBytes_zero n]
    rfl

theorem leNat_zeros (n : Nat) : leNat (List.replicate n 0) = 0 := by
  induction n with
  | zero => rfl
  | succ n ih =>
    rw [List.replicate_succ, leNat, ih]
    rfl

/-- The double of an integer other than zero ends with a byte sequence that is not the integer. -/
theorem intF64_low {i : Int} (h0 : i ≠ 0) (h1 : i.natAbs < 2 ^ 32) : ∃ n : Nat, n % 2 ^ 21 = 0 ∧
    (intF64 i).toNat % 2 ^ 32 = n % 2 ^ 32 ∧ (i.natAbs % 2 ^ 21 = 0 → n % 2 ^ 32 = 0) := by
  obtain ⟨e, m, he, hn, hm, hv⟩ := natF64_spec (n := i.natAbs) (by omega) h1
  refine ⟨2 ^ 52 + m, ?_, ?_, ?_⟩
  · rw [hv]
    have : 2 ^ (52 - e) = 2 ^ 21 * 2 ^ (31 - e) := by rw [← Nat.pow_add]; congr 1; omega
    rw [this, Nat.mul_left_comm]
    exact Nat.mul_mod_right _ _
  · unfold intF64
    rw [hn, BitVec.toNat_ofNat]
    split <;> omega
  · intro hd
    rw [hv]
    obtain ⟨k, hk⟩ := Nat.dvd_of_mod_eq_zero hd
    have : 2 ^ (52 - e) = 2 ^ 21 * 2 ^ (31 - e) := by rw [← Nat.pow_add]; congr 1; omega
    rw [this, hk]
    have : 2 ^ 21 * k * (2 ^ 21 * 2 ^ (31 - e)) = 2 ^ 32 * (2 ^ 10 * (k * 2 ^ (31 - e))) := by
      have h42 : (2 : Nat) ^ 32 = 2 ^ 21 * 2 ^ 11 := by norm_num
      have h21 : (2 : Nat) ^ 21 = 2 ^ 11 * 2 ^ 10 := by norm_num
      generalize 2 ^ (31 - e) = a
      rw [h42]
      calc 2 ^ 21 * k * (2 ^ 21 * a) = 2 ^ 21 * (2 ^ 21 * (k * a)) := by
            rw [Nat.mul_assoc, Nat.mul_left_comm k]
        _ = 2 ^ 21 * (2 ^ 11 * 2 ^ 10 * (k * a)) := by rw [← h21]
        _ = _ := by simp only [Nat.mul_assoc]
    rw [this]
    exact Nat.mul_mod_right _ _

theorem long_low {x : Nat} (hx : x < 4294967296) (h : (intF64 (ofBits 4 x)).toNat % 4294967296 = x) : x = 0 := by
  by_contra h0
  have hi : ofBits 4 x ≠ 0 := by unfold ofBits; norm_num; split <;> omega
  have hb : (ofBits 4 x).natAbs < 2 ^ 32 := by unfold ofBits; norm_num; split <;> omega
  obtain ⟨n, h1, h2, h3⟩ := intF64_low hi hb
  norm_num at h1 h2 h3
  have hd : (ofBits 4 x).natAbs % 2097152 = 0 := by
    unfold ofBits
    norm_num
    split <;> omega
  have := h3 hd
  omega

theorem short_low {x : Nat} (hx : x < 65536) (h : (intF64 (ofBits 2 x)).toNat % 65536 = x) : x = 0 := by
  by_contra h0
  have hi : ofBits 2 x ≠ 0 := by unfold ofBits; norm_num; split <;> omega
  have hb : (ofBits 2 x).natAbs < 2 ^ 32 := by unfold ofBits; norm_num; split <;> omega
  obtain ⟨n, h1, h2, -⟩ := intF64_low hi hb
  norm_num at h1 h2
  omega

theorem widen_bytes {x : Nat} (hx : x < 65536) : ∃ e : UInt8, (e = 0 ∨ e = 255) ∧
    leBytes 4 (toBits 4 (ofBits 2 x)) = leBytes 2 x ++ List.replicate 2 e ∧
    ∀ f : UInt8, f = 0 ∨ f = 255 → leBytes 2 x = List.replicate 2 f → e = f := by
  by_cases hs : 2 * x < 65536
  · refine ⟨0, Or.inl rfl, ?_, ?_⟩
    · have : toBits 4 (ofBits 2 x) = x := by unfold ofBits toBits; norm_num [hs]; omega
      rw [this]
      have h1 : x / 256 / 256 = 0 := by omega
      simp only [leBytes, h1, List.replicate, List.cons_append, List.nil_append]
      rfl
    · rintro f (rfl | rfl) h
      · rfl
      · exfalso
        have := congrArg leNat h
        rw [leNat_leBytes_of_lt (by omega)] at this
        have e : leNat (List.replicate 2 255) = 65535 := by decide
        omega
  · refine ⟨255, Or.inr rfl, ?_, ?_⟩
    · have : toBits 4 (ofBits 2 x) = x + 4294901760 := by unfold ofBits toBits; norm_num [hs]; omega
      rw [this]
      have h1 : (x + 4294901760) / 256 / 256 = 65535 := by omega
      have h2 : UInt8.ofNat (x + 4294901760) = UInt8.ofNat x := by
        rw [← UInt8.toNat_inj, UInt8.toNat_ofNat', UInt8.toNat_ofNat']; omega
      have h3 : UInt8.ofNat ((x + 4294901760) / 256) = UInt8.ofNat (x / 256) := by
        rw [← UInt8.toNat_inj, UInt8.toNat_ofNat', UInt8.toNat_ofNat']; omega
      simp only [leBytes, h1, h2, h3, List.replicate, List.cons_append, List.nil_append]
      rfl
    · rintro f (rfl | rfl) h
      · exfalso
        have := congrArg leNat h
        rw [leNat_leBytes_of_lt (by omega)] at this
        have e : leNat (List.replicate 2 0) = 0 := by decide
        omega
      · rfl

/-! ## Fields that are read where others were written -/

theorem periodic {e : UInt8} {n : Nat} (hn : 1 ≤ n) {b rest : Bytes}
    (h : b <+: List.replicate n e ++ (b ++ rest)) : b = List.replicate b.length e := by
  rw [List.eq_replicate_iff]
  refine ⟨rfl, ?_⟩
  have key : ∀ i (hi : i < b.length), b[i] = e := by
    intro i
    induction i using Nat.strongRecOn with
    | _ i ih =>
      intro hi
      rw [h.getElem hi]
      by_cases hin : i < n
      · rw [List.getElem_append_left (by simpa using hin), List.getElem_replicate]
      · rw [List.getElem_append_right (by simpa using hin), List.getElem_append_left (by simp; omega)]
        simp only [List.length_replicate]
        exact ih (i - n) (by omega) (by omega)
  intro x hx
  obtain ⟨i, hi, rfl⟩ := List.getElem_of_mem hx
  exact key i hi

/-- A field with declared bytes `f.1` and stored bytes `f.2`, read behind at least `d` bytes `e`: if the
declared bytes are found there, everything is `e`. -/
def Glue (d : Nat) (e : UInt8) (f : Bytes × Bytes) : Prop :=
  f.1.length ≤ f.2.length ∧ ∀ n rest, d ≤ n → f.1 <+: List.replicate n e ++ (f.2 ++ rest) →
    f.1 = List.replicate f.1.length e ∧ f.2 = List.replicate f.2.length e

theorem glue_all {d : Nat} {e : UInt8} : ∀ (fs : List (Bytes × Bytes)), (∀ f ∈ fs, Glue d e f) → ∀ n, d ≤ n →
    fs.flatMap Prod.fst <+: List.replicate n e ++ fs.flatMap Prod.snd →
    List.replicate n e ++ fs.flatMap Prod.snd = List.replicate (n + (fs.flatMap Prod.snd).length) e
  | [], _, n, _, _ => by simp
  | f :: fs, hf, n, hn, hp => by
    rw [List.flatMap_cons, List.flatMap_cons] at hp
    obtain ⟨hlen, hg⟩ := hf f List.mem_cons_self
    obtain ⟨h1, h2⟩ := hg n _ hn ((List.prefix_append f.1 _).trans hp)
    have hsplit : List.replicate n e ++ (f.2 ++ fs.flatMap Prod.snd) =
        f.1 ++ (List.replicate (n + f.2.length - f.1.length) e ++ fs.flatMap Prod.snd) := by
      rw [← List.append_assoc, ← List.append_assoc]
      congr 1
      rw [h1, h2]
      simp only [List.length_replicate, List.replicate_append_replicate]
      congr 1
      omega
    rw [hsplit, List.prefix_append_right_inj] at hp
    have ih := glue_all fs (fun g hg => hf g (List.mem_cons_of_mem _ hg)) _ (by omega) hp
    rw [List.flatMap_cons, hsplit, ih, h1, List.replicate_append_replicate]
    simp only [List.length_replicate, List.length_append]
    congr 1
    omega

theorem glue_length {d : Nat} {e : UInt8} : ∀ (fs : List (Bytes × Bytes)), (∀ f ∈ fs, Glue d e f) →
    (fs.flatMap Prod.fst).length ≤ (fs.flatMap Prod.snd).length
  | [], _ => by simp
  | f :: fs, hf => by
    have h1 := (hf f List.mem_cons_self).1
    have h2 := glue_length fs fun g hg => hf g (List.mem_cons_of_mem _ hg)
    simp only [List.flatMap_cons, List.length_append]
    omega

/-- If the declared bytes are the first of the stored ones although a field is stored with more bytes, what
is left consists of bytes 0 or 255. -/
theorem leftover {d : Nat} {all : List (Bytes × Bytes)} : ∀ (fs : List (Bytes × Bytes)), (∀ f ∈ fs, f ∈ all) →
    (∀ f ∈ all, f.1 = f.2 ∨ ∀ rest, f.1 <+: f.2 ++ rest → ∃ e n, d ≤ n ∧ (e = 0 ∨ e = 255) ∧
      f.2 = f.1 ++ List.replicate n e ∧ ∀ g ∈ all, Glue d e g) →
    (∃ f ∈ fs, f.1 ≠ f.2) → fs.flatMap Prod.fst <+: fs.flatMap Prod.snd →
    ∃ e k, d ≤ k ∧ (e = 0 ∨ e = 255) ∧ fs.flatMap Prod.snd = fs.flatMap Prod.fst ++ List.replicate k e
  | [], _, _, hex, _ => by obtain ⟨f, hf, -⟩ := hex; cases hf
  | f :: fs, hall, h, hex, hp => by
    rw [List.flatMap_cons, List.flatMap_cons] at hp
    by_cases hsame : f.1 = f.2
    · rw [← hsame, List.prefix_append_right_inj] at hp
      obtain ⟨g, hg, hne⟩ := hex
      have hg' : g ∈ fs := by
        rcases List.mem_cons.mp hg with rfl | hg
        · exact absurd hsame hne
        · exact hg
      obtain ⟨e, k, h1, h2, h3⟩ := leftover fs (fun g hg => hall g (List.mem_cons_of_mem _ hg)) h ⟨g, hg', hne⟩ hp
      refine ⟨e, k, h1, h2, ?_⟩
      rw [List.flatMap_cons, List.flatMap_cons, h3, ← hsame, List.append_assoc]
    · obtain ⟨e, n, hn, he, hs, hg⟩ := ((h f (hall f List.mem_cons_self)).resolve_left hsame) _
        ((List.prefix_append f.1 _).trans hp)
      rw [hs, List.append_assoc, List.prefix_append_right_inj] at hp
      have hg' : ∀ g ∈ fs, Glue d e g := fun g hm => hg g (hall g (List.mem_cons_of_mem _ hm))
      have hconst := glue_all fs hg' n hn hp
      have hlen := glue_length fs hg'
      rw [hconst] at hp
      have hT : fs.flatMap Prod.fst = List.replicate (fs.flatMap Prod.fst).length e := by
        have e1 := List.prefix_iff_eq_take.mp hp
        rwa [List.take_replicate, Nat.min_eq_left (by omega)] at e1
      refine ⟨e, n + (fs.flatMap Prod.snd).length - (fs.flatMap Prod.fst).length, by omega, he, ?_⟩
      rw [List.flatMap_cons, List.flatMap_cons, hs, List.append_assoc, hconst, List.append_assoc]
      congr 1
      rw [hT, List.replicate_append_replicate]
      simp only [List.length_replicate]
      congr 1
      omega

/-! ## The fields of a table -/

/-- Declared and stored bytes of an entry of a column. -/
def entryBytes (env : Env) (u : ADType) (c : WCol) (i : Nat) : Bytes × Bytes :=
  (leBytes c.ftype.size (c.data.getD i 0), leBytes u.size (castTo env c.dtype u (c.data.getD i 0)))

def entries (env : Env) (cols : List WCol) (rows : Nat) : List (Bytes × Bytes) :=
  (List.range rows).flatMap fun i => cols.map fun c => entryBytes env (stackType cols) c i

theorem entries_stored (env : Env) (cols : List WCol) (rows : Nat) :
    (entries env cols rows).flatMap Prod.snd = tableBytes env cols rows := by
  unfold entries tableBytes rowBytes
  rw [List.flatMap_assoc]
  congr 1
  funext i
  rw [List.flatMap_map]
  rfl

/-- A number that is found where its double is stored is zero. -/
theorem double_entry {env : Env} (he : env.CastsExact) {t : FType} (ht : t = .long ∨ t = .short) {x : Nat}
    (hx : x < 256 ^ t.size) :
    (leBytes t.size x <+: leBytes 8 (env.cast (adType t) .f64 x) → x = 0) ∧
    (x = 0 → leBytes 8 (env.cast (adType t) .f64 x) = List.replicate 8 0) := by
  have zero : ∀ i : Int, i = 0 → leBytes 8 (intF64 i).toNat = List.replicate 8 0 := by
    rintro i rfl
    decide
  rcases ht with rfl | rfl
  · have hx' : x < 4294967296 := hx
    refine ⟨fun h => ?_, fun h0 => ?_⟩
    · have e := List.prefix_iff_eq_take.mp h
      rw [leBytes_length, leBytes_take _ _ _ (by decide)] at e
      have e := congrArg leNat e
      rw [leNat_leBytes_of_lt hx, leNat_leBytes] at e
      change x = (env.cast .i32 .f64 x) % 4294967296 at e
      rw [he.long x hx'] at e
      exact long_low hx' e.symm
    · change leBytes 8 (env.cast .i32 .f64 x) = _
      rw [he.long x hx']
      exact zero _ (by rw [h0]; decide)
  · have hx' : x < 65536 := hx
    refine ⟨fun h => ?_, fun h0 => ?_⟩
    · have e := List.prefix_iff_eq_take.mp h
      rw [leBytes_length, leBytes_take _ _ _ (by decide)] at e
      have e := congrArg leNat e
      rw [leNat_leBytes_of_lt hx, leNat_leBytes] at e
      change x = (env.cast .i16 .f64 x) % 65536 at e
      rw [he.short x hx'] at e
      exact short_low hx' e.symm
    · change leBytes 8 (env.cast .i16 .f64 x) = _
      rw [he.short x hx']
      exact zero _ (by rw [h0]; decide)

theorem glue_same {d : Nat} (hd : 1 ≤ d) (e : UInt8) (b : Bytes) : Glue d e (b, b) :=
  ⟨Nat.le_refl _, fun n rest hn h => by
    have := periodic (by omega) h
    exact ⟨this, this⟩⟩

theorem prefix_replicate {e : UInt8} {n : Nat} {b rest : Bytes} (hb : b.length ≤ n)
    (h : b <+: List.replicate n e ++ rest) : b = List.replicate b.length e := by
  have e1 := List.prefix_iff_eq_take.mp h
  rw [List.take_append_of_le_length (by simpa using hb), List.take_replicate, Nat.min_eq_left hb] at e1
  exact e1

theorem glue_double {env : Env} (he : env.CastsExact) {t : FType} (ht : t = .long ∨ t = .short) {x : Nat}
    (hx : x < 256 ^ t.size) : Glue 4 0 (leBytes t.size x, leBytes 8 (env.cast (adType t) .f64 x)) := by
  have hs : t.size ≤ 4 := by rcases ht with rfl | rfl <;> decide
  refine ⟨by simp only [leBytes_length]; omega, fun n rest hn h => ?_⟩
  have h1 := prefix_replicate (by simp only [leBytes_length]; omega) h
  refine ⟨h1, ?_⟩
  simp only [leBytes_length] at h1 ⊢
  apply (double_entry he ht hx).2
  have := congrArg leNat h1
  rwa [leNat_leBytes_of_lt hx, leNat_zeros] at this

theorem glue_widen {env : Env} (he : env.CastsExact) {x : Nat} (hx : x < 65536) {e : UInt8} (h01 : e = 0 ∨ e = 255) :
    Glue 2 e (leBytes 2 x, leBytes 4 (env.cast .i16 .i32 x)) := by
  refine ⟨by simp only [leBytes_length]; omega, fun n rest hn h => ?_⟩
  obtain ⟨f, -, h2, h3⟩ := widen_bytes hx
  rw [he.widen x hx]
  rw [he.widen x hx] at h
  have h1 := prefix_replicate (by simp only [leBytes_length]; omega) h
  simp only [leBytes_length] at h1 ⊢
  refine ⟨h1, ?_⟩
  rw [h2, h3 e h01 h1, h1]
  rfl

/-- What is left of the bytes of a table of mixed types whose declared bytes come first. -/
theorem table_leftover {env : Env} (he : env.CastsExact) {cols : List WCol} {rows : Nat} (hr : 0 < rows)
    (hw : ∀ c ∈ cols, ∃ t, c.Has t (adType t)) {c₁ d₁ : WCol} (hc : c₁ ∈ cols) (hd : d₁ ∈ cols)
    (hne : c₁.dtype ≠ d₁.dtype)
    (hp : (entries env cols rows).flatMap Prod.fst <+: tableBytes env cols rows) :
    ∃ e k, 2 ≤ k ∧ (e = 0 ∨ e = 255) ∧
      tableBytes env cols rows = (entries env cols rows).flatMap Prod.fst ++ List.replicate k e := by
  obtain ⟨u, hu, hst, hsize⟩ := stackType_wide cols (List.ne_nil_of_mem hc) hw
  have hlt : ∀ c ∈ cols, ∀ t, c.Has t (adType t) → ∀ i, c.data.getD i 0 < 256 ^ t.size := by
    intro c hc t ht i
    rcases Nat.lt_or_ge i c.data.length with hi | hi
    · rw [List.getD_eq_getElem?_getD, List.getElem?_eq_getElem hi, Option.getD_some]
      exact ht.2.2 _ (List.getElem_mem hi)
    · rw [List.getD_eq_getElem?_getD, List.getElem?_eq_none hi, Option.getD_none]
      exact Nat.pow_pos (by decide)
  -- an entry: of the type of the table, or narrower
  have hent : ∀ f ∈ entries env cols rows, (∃ b, f = (b, b)) ∨ ∃ t x, (t = .long ∨ t = .short) ∧ t ≠ u ∧
      t.size ≤ u.size ∧ x < 256 ^ t.size ∧ f = (leBytes t.size x, leBytes u.size (env.cast (adType t) (adType u) x)) := by
    intro f hf
    obtain ⟨i, -, hf⟩ := List.mem_flatMap.mp hf
    obtain ⟨c, hcm, rfl⟩ := List.mem_map.mp hf
    obtain ⟨t, ht⟩ := hw c hcm
    have h1 := hsize c hcm
    have h2 := hlt c hcm t ht i
    unfold entryBytes castTo
    rw [hst, ht.1, ht.ftype]
    rw [ht.ftype] at h1
    have husz : (adType u).size = u.size := by rcases hu with rfl | rfl | rfl <;> rfl
    rw [husz]
    by_cases htu : t = u
    · left
      subst htu
      rw [if_pos rfl]
      exact ⟨_, rfl⟩
    · right
      rw [if_neg fun h => htu (adType_inj h)]
      refine ⟨t, _, ?_, htu, h1, h2, rfl⟩
      rcases numType_cases ht.2.1 with rfl | h | h
      · exfalso
        rcases hu with rfl | rfl | rfl
        · exact htu rfl
        · exact absurd h1 (by decide)
        · exact absurd h1 (by decide)
      · exact Or.inl h
      · exact Or.inr h
  have hex : ∃ f ∈ entries env cols rows, f.1 ≠ f.2 := by
    have : ∃ c ∈ cols, c.dtype ≠ adType u := by
      by_cases h : c₁.dtype = adType u
      · exact ⟨d₁, hd, fun h' => hne (h.trans h'.symm)⟩
      · exact ⟨c₁, hc, h⟩
    obtain ⟨c, hcm, hcu⟩ := this
    refine ⟨entryBytes env (stackType cols) c 0, List.mem_flatMap.mpr ⟨0, List.mem_range.mpr hr,
      List.mem_map.mpr ⟨c, hcm, rfl⟩⟩, fun h => ?_⟩
    have := congrArg List.length h
    unfold entryBytes at this
    simp only [leBytes_length, hst] at this
    obtain ⟨t, ht⟩ := hw c hcm
    rw [ht.ftype] at this
    have husz : (adType u).size = u.size := by rcases hu with rfl | rfl | rfl <;> rfl
    rw [husz] at this
    have htu : t = u := size_inj (numType_cases ht.2.1) hu this
    exact hcu (by rw [ht.1, htu])
  rw [← entries_stored] at hp ⊢
  rcases hu with rfl | rfl | rfl
  · -- doubles
    obtain ⟨e, k, h1, h2, h3⟩ := leftover (d := 4) (all := entries env cols rows) _ (fun f hf => hf) (by
      intro f hf
      rcases hent f hf with ⟨b, rfl⟩ | ⟨t, x, ht, -, -, hx, rfl⟩
      · exact Or.inl rfl
      · right
        intro rest hpre
        have hs : t.size ≤ 4 := by rcases ht with rfl | rfl <;> decide
        have hpre' : leBytes t.size x <+: leBytes 8 (env.cast (adType t) .f64 x) :=
          List.prefix_of_prefix_length_le hpre (List.prefix_append _ _) (by simp only [leBytes_length]; omega)
        have hx0 := (double_entry he ht hx).1 hpre'
        refine ⟨0, 8 - t.size, by omega, Or.inl rfl, ?_, ?_⟩
        · change leBytes 8 (env.cast (adType t) .f64 x) = leBytes t.size x ++ _
          rw [(double_entry he ht hx).2 hx0, hx0, leBytes_zero, List.replicate_append_replicate]
          congr 1
          omega
        · intro g hg
          rcases hent g hg with ⟨b, rfl⟩ | ⟨t', x', ht', -, -, hx', rfl⟩
          · exact glue_same (by decide) _ _
          · exact glue_double he ht' hx') hex hp
    exact ⟨e, k, by omega, h2, h3⟩
  · -- longs
    have hshort : ∀ t : FType, (t = .long ∨ t = .short) → t ≠ .long → t = .short := fun t h1 h2 => h1.resolve_left h2
    obtain ⟨e, k, h1, h2, h3⟩ := leftover (d := 2) (all := entries env cols rows) _ (fun f hf => hf) (by
      intro f hf
      rcases hent f hf with ⟨b, rfl⟩ | ⟨t, x, ht, htu, -, hx, rfl⟩
      · exact Or.inl rfl
      · right
        intro rest hpre
        obtain rfl := hshort t ht htu
        obtain ⟨e, h01, hb, -⟩ := widen_bytes (x := x) hx
        refine ⟨e, 2, by omega, h01, ?_, ?_⟩
        · change leBytes 4 (env.cast .i16 .i32 x) = leBytes 2 x ++ _
          rw [he.widen x hx, hb]
        · intro g hg
          rcases hent g hg with ⟨b, rfl⟩ | ⟨t', x', ht', htu', -, hx', rfl⟩
          · exact glue_same (by decide) _ _
          · obtain rfl := hshort t' ht' htu'
            exact glue_widen he hx' h01) hex hp
    exact ⟨e, k, h1, h2, h3⟩
  · -- shorts: nothing is narrower
    exfalso
    obtain ⟨f, hf, hne'⟩ := hex
    rcases hent f hf with ⟨b, rfl⟩ | ⟨t, x, ht, htu, hsz, -, -⟩
    · exact hne' rfl
    · rcases ht with rfl | rfl
      · exact absurd hsz (by decide)
      · exact htu rfl

/-! ## Reading without buffer -/

/-- One page and more bytes: the result is the page if the reader takes the rest for the end, and has two
pages otherwise. -/
theorem Reader.read_first {r : Reader} {l : Layout} (hd : r.Describes l) (hl : l.Ok) (hb : r.buffer = false)
    {header rest : Bytes} {pg : Page} (hok : PageOk r.maxStr l pg)
    (hm : r.fileEnd ⟨0, r.headerEnd⟩ = false) (hfile : r.file = header ++ (encodePage pg ++ rest)) (hend : r.headerEnd = header.length) (fuel : Nat) :
    (r.fileEnd ⟨0, header.length + (encodePage pg).length⟩ = true →
      r.read (fuel + 2) none = some (.ok (pagesOf l [pg]))) ∧
    (r.fileEnd ⟨0, header.length + (encodePage pg).length⟩ = false →
      ∀ res, r.read fuel none = some (.ok res) → 2 ≤ res.params.length) := by
  have hp : r.PosOk ⟨0, r.headerEnd⟩ := fun _ => rfl
  have hcur : r.cur ⟨0, r.headerEnd⟩ = header.length := by
    unfold Reader.cur; rw [hb]; exact hend
  have hdrop : r.file.drop (r.cur ⟨0, r.headerEnd⟩) = encodePage pg ++ rest := by
    rw [hcur, hfile, List.drop_left]
  have hle : r.cur ⟨0, r.headerEnd⟩ ≤ r.file.length := by
    rw [hcur, hfile, List.length_append]; omega
  have hadv : r.adv ⟨0, r.headerEnd⟩ (encodePage pg).length = ⟨0, header.length + (encodePage pg).length⟩ := by
    unfold Reader.adv
    rw [hb, hend]
    rfl
  have hstep : ∀ fuel, r.pageLoop none (fuel + 1) 0 ⟨0, r.headerEnd⟩ ⟨[], []⟩ =
      r.pageLoop none fuel 1 ⟨0, header.length + (encodePage pg).length⟩ (pagesOf l [pg]) := by
    intro fuel
    rw [Reader.pageLoop]
    rw [if_neg (by simp [pastPages]), if_neg (by rw [hm]; simp)]
    change (match r.readPage true true _ ⟨[], []⟩ with
      | Except.error e => some (Except.error e)
      | Except.ok (acc', p') => r.pageLoop none fuel 1 p' acc') = _
    rw [Reader.readPage_keep hd hl hok hp true hdrop hle]
    simp only [hadv]
    rfl
  have hread : ∀ fuel, r.read fuel none = match r.pageLoop none fuel 0 ⟨0, r.headerEnd⟩ ⟨[], []⟩ with
      | none => none
      | some (.error e) => some (.error e)
      | some (.ok pg) => some ((concat pg.params).bind fun ps => (concat pg.cols).bind fun cs => .ok ⟨ps, cs⟩) := by
    intro fuel
    unfold Reader.read
    rw [if_neg (by simp), hb]
    rfl
  constructor
  · intro he
    rw [hread, hstep, Reader.pageLoop, if_neg (by simp [pastPages]), if_pos he]
    have h1 : concat (pagesOf l [pg]).params = .ok (pagesOf l [pg]).params := rfl
    have h2 : concat (pagesOf l [pg]).cols = .ok (pagesOf l [pg]).cols := by
      unfold pagesOf
      by_cases hh : hasData l pg = true
      · simp [hh, concat]
      · simp [hh, concat]
    simp only [h1, h2, Except.bind]
  · intro he res h
    rw [hread] at h
    cases fuel with
    | zero => rw [Reader.pageLoop] at h; cases h
    | succ fuel =>
      rw [hstep] at h
      cases fuel with
      | zero => rw [Reader.pageLoop] at h; cases h
      | succ fuel =>
        rw [Reader.pageLoop, if_neg (by simp [pastPages]), if_neg (by rw [he]; simp)] at h
        generalize (⟨0, header.length + (encodePage pg).length⟩ : Pos) = p1 at h
        cases h2 : r.readPage true true p1 (pagesOf l [pg]) with
        | error e =>
          simp only [Option.isNone_none, wantedPage, h2] at h
          cases h
        | ok x =>
          obtain ⟨acc', p'⟩ := x
          simp only [Option.isNone_none, wantedPage, h2, Nat.reduceAdd] at h
          cases h3 : r.pageLoop none fuel 2 p' acc' with
          | none => rw [h3] at h; cases h
          | some y =>
            rw [h3] at h
            cases y with
            | error e => cases h
            | ok pgs =>
              have a1 := Reader.readPage_grows h2
              have a2 := Reader.pageLoop_grows _ _ _ _ _ h3
              have a3 : (pagesOf l [pg]).params.length = 1 := rfl
              simp only [Option.some.injEq] at h
              cases c1 : concat pgs.params with
              | error e => rw [c1] at h; cases h
              | ok ps =>
                cases c2 : concat pgs.cols with
                | error e => rw [c1, c2] at h; cases h
                | ok cs =>
                  rw [c1, c2] at h
                  simp only [Except.bind, Except.ok.injEq] at h
                  rw [← h, concat_self c1]
                  change 2 ≤ pgs.params.length
                  omega

/-- Rows that look like the saved ones have their bytes. -/
theorem rows_bytes_eq {w : Writer} {rows : Nat} (env : Env) {rs : List (List Val)}
    (hlen : ∀ row ∈ rs, row.length = w.cols.length)
    (h : (rs.map fun row => (w.cols.map WCol.name).zip row) = typedRows w rows) :
    rs.flatMap (·.flatMap encodeVal) = (entries env w.cols rows).flatMap Prod.fst := by
  have e : ∀ row : List Val, row.length = w.cols.length →
      row.flatMap encodeVal = ((w.cols.map WCol.name).zip row).flatMap fun kv => encodeVal kv.2 := by
    intro row hr
    have : row = ((w.cols.map WCol.name).zip row).map Prod.snd := by
      rw [List.map_snd_zip]
      rw [List.length_map]
      omega
    conv_lhs => rw [this]
    rw [List.flatMap_map]
  have h1 : rs.flatMap (·.flatMap encodeVal) =
      (rs.map fun row => (w.cols.map WCol.name).zip row).flatMap fun rec => rec.flatMap fun kv => encodeVal kv.2 := by
    rw [List.flatMap_map]
    rw [List.flatMap_congr]
    exact fun row hr => e row (hlen row hr)
  rw [h1, h]
  unfold typedRows entries
  rw [List.flatMap_map, List.flatMap_assoc]
  congr 1
  funext i
  rw [List.flatMap_map, List.flatMap_map]
  rfl

/-- The values of the rows. -/
def typedVals (w : Writer) (rows : Nat) : List (List Val) :=
  (List.range rows).map fun i => w.cols.map fun c => .num c.ftype (c.data.getD i 0)

theorem typedVals_length (w : Writer) (rows : Nat) : (typedVals w rows).length = rows := by
  unfold typedVals
  rw [List.length_map, List.length_range]

theorem pagesOf_typed (w : Writer) (rows : Nat) :
    pagesOf (typedLayout w) [⟨savedVals w.params, typedVals w rows⟩] = typedPages w rows := by
  have hpr : paramRecord (typedLayout w) ⟨savedVals w.params, typedVals w rows⟩ = savedParams w rows := by
    unfold paramRecord savedParams
    simp only [typedVals_length]
    exact congrArg _ (zip_savedVals _)
  have hrr : rowRecords (typedLayout w) ⟨savedVals w.params, typedVals w rows⟩ = typedRows w rows := by
    unfold rowRecords typedVals typedRows typedLayout
    simp only [List.map_map]
    apply List.map_congr_left
    intro i _
    simp only [Function.comp_def, List.zip_map']
  unfold pagesOf typedPages
  by_cases h0 : rows = 0 ∨ w.cols = []
  · rw [if_pos h0, List.filter_cons_of_neg]
    · simp only [List.filter_nil, List.map_nil, List.map_cons, hpr]
    · unfold hasData typedLayout
      rcases h0 with h0 | h0
      · rw [h0]
        simp [typedVals]
      · simp [h0]
  · rw [if_neg h0, List.filter_cons_of_pos]
    · simp only [List.filter_nil, List.map_nil, List.map_cons, hpr, hrr]
    · unfold hasData typedLayout
      push Not at h0
      simp [typedVals, h0.1, h0.2]

/-- **C01 without buffer, exactly when it holds.** Whatever types the columns have: reading without buffer
gives back the saved page exactly when there are no rows or all columns have one type, and the first line
behind the first byte of the row count is not white space (which ends the file for the reader). -/
theorem save_read_unbuffered_iff {env : Env} (he : env.CastsExact) {w : Writer} {rows : Nat}
    (h : w.Typed env.ft rows) {fuel : Nat} (hfuel : w.params.length + w.cols.length + 3 ≤ fuel) (maxStr : Nat) :
    (saveBinary env w).2 = none ∧
    ∃ r, openSdds env.ft fuel false maxStr (saveBinary env w).1 = some (.ok r) ∧
      (r.read fuel none = some (.ok (typedPages w rows)) ↔ (rows = 0 ∨ w.OneType) ∧
        (readline ((saveBinary env w).1.drop (r.headerEnd + 1))).1.all isSpaceByte = false) := by
  have hlt : ¬ 4294967296 ≤ rows := by have := h.short; omega
  have hsave : saveBinary env w = (utf8 (headerText env.ft w "binary".toList) ++
      (leBytes 4 rows ++ (savedVals w.params).flatMap encodeVal ++ tableBytes env w.cols rows), none) := by
    unfold saveBinary
    rw [stackRows_ok h.lengths h.noCols]
    simp only
    rw [if_neg hlt, packParams_ok env _ h.storable]
    simp only [List.append_assoc]
  rw [hsave]
  refine ⟨rfl, _, open_header h.header _ hfuel false maxStr, ?_⟩
  have hd : ∀ body : Bytes, Reader.Describes {
        file := utf8 (headerText env.ft w "binary".toList) ++ body,
        buffer := false, maxStr := maxStr,
        headerEnd := (utf8 (headerText env.ft w "binary".toList)).length,
        lineCount := w.params.length + w.cols.length + 2,
        params := w.params.map readParam, cols := w.cols.map readCol, ascii := false,
        noRowCounts := false } (typedLayout w) := by
    intro body
    refine ⟨rfl, rfl, savedParams_fields _ h.storable, ?_⟩
    unfold typedLayout
    simp only [List.map_map, Function.comp_def]
    apply List.map_congr_left
    intro c hc
    obtain ⟨t, ht⟩ := h.has c hc
    rw [ht.ftype, ← numType_name ht.2.1]
    rfl
  have hfits := savedVals_fits maxStr w.params h.storable
  have hnostr : Val.str [] ∉ savedVals w.params := by
    intro hmem
    unfold savedVals at hmem
    obtain ⟨p, hp, hv⟩ := List.mem_filterMap.mp hmem
    rcases h.storable p hp with ⟨v, h1, h2, h3⟩ | ⟨v, h1, h2⟩
    · rw [h1] at hv
      cases v with
      | float x => simp [dataVal] at hv
      | int i => simp [dataVal] at hv
      | str s => exact h2.elim
    · rw [h1] at hv
      simp at hv
  simp only
  have hstart : ∀ body : Bytes, 2 ≤ body.length → Reader.fileEnd {
        file := utf8 (headerText env.ft w "binary".toList) ++ body,
        buffer := false, maxStr := maxStr,
        headerEnd := (utf8 (headerText env.ft w "binary".toList)).length,
        lineCount := w.params.length + w.cols.length + 2,
        params := w.params.map readParam, cols := w.cols.map readCol, ascii := false,
        noRowCounts := false } ⟨0, (utf8 (headerText env.ft w "binary".toList)).length⟩ =
      (readline ((utf8 (headerText env.ft w "binary".toList) ++ body).drop
        ((utf8 (headerText env.ft w "binary".toList)).length + 1))).1.all isSpaceByte := by
    intro body hb
    unfold Reader.fileEnd
    simp only [Bool.false_eq_true, if_false]
    rw [List.drop_left, ← List.drop_drop, List.drop_left]
    match body, hb with
    | x :: body, _ => rfl
  have hlen : 2 ≤ (leBytes 4 rows ++ (savedVals w.params).flatMap encodeVal ++ tableBytes env w.cols rows).length := by
    simp only [List.length_append, leBytes_length]
    omega
  rw [← hstart _ hlen]
  cases hmark : Reader.fileEnd {
        file := utf8 (headerText env.ft w "binary".toList) ++
          (leBytes 4 rows ++ (savedVals w.params).flatMap encodeVal ++ tableBytes env w.cols rows),
        buffer := false, maxStr := maxStr,
        headerEnd := (utf8 (headerText env.ft w "binary".toList)).length,
        lineCount := w.params.length + w.cols.length + 2,
        params := w.params.map readParam, cols := w.cols.map readCol, ascii := false,
        noRowCounts := false } ⟨0, (utf8 (headerText env.ft w "binary".toList)).length⟩ with
  | true =>
    refine ⟨fun hread => ?_, fun hc => absurd hc.2 (by simp)⟩
    exfalso
    obtain ⟨m, rfl⟩ : ∃ m, fuel = m + 1 := ⟨fuel - 1, by omega⟩
    unfold Reader.read at hread
    rw [if_neg (by simp)] at hread
    simp only [Bool.false_eq_true, if_false] at hread
    rw [Reader.pageLoop, if_neg (by simp [pastPages]), if_pos hmark] at hread
    have := congrArg (fun x => match x with
      | some (.ok pg) => Pages.params pg
      | _ => []) hread
    simp [concat, bind, Except.bind, typedPages] at this
  | false =>
  simp only [and_true]
  have hfirst := fun (rs : List (List Val)) (rest : Bytes) hpg hfile fuel => Reader.read_first
      (hd (leBytes 4 rows ++ (savedVals w.params).flatMap encodeVal ++ tableBytes env w.cols rows))
        (typed_layout_ok h.toNames) rfl
        (header := utf8 (headerText env.ft w "binary".toList)) (pg := ⟨savedVals w.params, rs⟩) (rest := rest)
        hpg hmark hfile rfl fuel
  obtain ⟨m, rfl⟩ : ∃ m, fuel = m + 2 := ⟨fuel - 2, by omega⟩
  by_cases hcase : rows = 0 ∨ w.OneType
  · refine ⟨fun _ => hcase, fun _ => ?_⟩
    have hbody : leBytes 4 rows ++ (savedVals w.params).flatMap encodeVal ++ tableBytes env w.cols rows =
        encodePage ⟨savedVals w.params, typedVals w rows⟩ ++ [] := by
      rw [List.append_nil]
      unfold encodePage
      simp only [typedVals_length]
      congr 1
      rcases hcase with h0 | ho
      · rw [h0]
        rfl
      · obtain ⟨t, hok, ht⟩ := h.ok ho
        unfold tableBytes typedVals
        rw [List.flatMap_map]
        apply List.flatMap_congr
        intro i _
        rw [rowBytes_ok env hok.has i]
        unfold savedRow
        simp only [List.flatMap_map]
        apply List.flatMap_congr
        intro c hc
        rw [ht c hc]
    have hpg : PageOk maxStr (typedLayout w) ⟨savedVals w.params, typedVals w rows⟩ := by
      refine ⟨hfits, ?_, by change (typedVals w rows).length < _; rw [typedVals_length]; exact h.short, hnostr, ?_⟩
      · intro row hrow
        obtain ⟨i, -, rfl⟩ := List.mem_map.mp hrow
        unfold typedLayout
        simp only [List.forall₂_map_left_iff, List.forall₂_map_right_iff, List.forall₂_same]
        intro c hc
        obtain ⟨t, ht⟩ := h.has c hc
        refine ⟨rfl, ?_⟩
        rw [ht.ftype, List.getD_eq_getElem?_getD]
        rcases Nat.lt_or_ge i c.data.length with hi | hi
        · rw [List.getElem?_eq_getElem hi]
          exact ht.2.2 _ (List.getElem_mem hi)
        · rw [List.getElem?_eq_none hi]
          exact Nat.pow_pos (by decide)
      · intro row hrow hlast
        obtain ⟨i, -, rfl⟩ := List.mem_map.mp hrow
        obtain ⟨c, -, hcv⟩ := List.mem_map.mp (List.mem_of_getLast? hlast)
        cases hcv
    rw [(hfirst (typedVals w rows) [] hpg (by rw [hbody]) m).1 ?_]
    · exact congrArg (fun x => some (Except.ok x)) (pagesOf_typed w rows)
    · unfold Reader.fileEnd
      simp only [Bool.false_eq_true, if_false]
      rw [hbody, List.append_nil, ← List.length_append, List.drop_length]
  · refine ⟨fun hread => ?_, fun hc => absurd hc hcase⟩
    exfalso
    have hrows : 0 < rows := Nat.pos_of_ne_zero fun h0 => hcase (Or.inl h0)
    have hmix : ∃ c ∈ w.cols, ∃ d ∈ w.cols, c.dtype ≠ d.dtype := by
      by_contra hall
      apply hcase
      right
      intro c hc d hd
      by_contra hne
      exact hall ⟨c, hc, d, hd, hne⟩
    obtain ⟨c, hc, d, hdm, hne⟩ := hmix
    have hlong := column_bytes_mixed_fails env w.cols rows hrows h.has hc hdm hne
    have hwid : declaredWidth w.cols = ((w.cols.map fun c => (c.name, c.ftype)).map fun f => f.2.size).sum := by
      rw [declaredWidth_eq _ h.has, List.map_map]
      rfl
    have hleft := table_leftover he hrows h.has hc hdm hne
    generalize htab : tableBytes env w.cols rows = tab at hlong hleft hread hfirst
    obtain ⟨rs, h1, h2, h3, h4⟩ := rows_of_bytes maxStr (w.cols.map fun c => (c.name, c.ftype)) rows
      (tab.take (rows * declaredWidth w.cols)) (by rw [← hwid, List.length_take]; omega)
    have hrow : ∀ row ∈ rs, List.Forall₂ (fun f v => Fits maxStr f.2 v) (typedLayout w).cols row := by
      intro row hrow
      have := h2 row hrow
      rw [List.map_map] at this
      exact this
    have hpg : PageOk maxStr (typedLayout w) ⟨savedVals w.params, rs⟩ := by
      refine ⟨hfits, hrow, by change rs.length < _; rw [h1]; exact h.short, hnostr, ?_⟩
      intro row hrow hlast
      exact h4 row hrow _ (List.mem_of_getLast? hlast) rfl
    have hbody : leBytes 4 rows ++ (savedVals w.params).flatMap encodeVal ++ tab =
        encodePage ⟨savedVals w.params, rs⟩ ++ tab.drop (rows * declaredWidth w.cols) := by
      unfold encodePage
      simp only [h1, h3, List.append_assoc, List.take_append_drop]
    have hfirst := fun fuel => hfirst rs (tab.drop (rows * declaredWidth w.cols)) hpg (by rw [hbody]) fuel
    cases hend : Reader.fileEnd {
        file := utf8 (headerText env.ft w "binary".toList) ++
          (leBytes 4 rows ++ (savedVals w.params).flatMap encodeVal ++ tab),
        buffer := false, maxStr := maxStr,
        headerEnd := (utf8 (headerText env.ft w "binary".toList)).length,
        lineCount := w.params.length + w.cols.length + 2,
        params := w.params.map readParam, cols := w.cols.map readCol, ascii := false,
        noRowCounts := false } ⟨0, (utf8 (headerText env.ft w "binary".toList)).length +
          (encodePage ⟨savedVals w.params, rs⟩).length⟩ with
    | false =>
      have := (hfirst (m + 2)).2 hend _ hread
      change 2 ≤ 1 at this
      omega
    | true =>
      rw [(hfirst m).1 hend] at hread
      have hne0 : ¬ (rows = 0 ∨ w.cols = []) := by
        rintro (h0 | h0)
        · omega
        · rw [h0] at hc; cases hc
      have hdat : hasData (typedLayout w) ⟨savedVals w.params, rs⟩ = true := by
        unfold hasData typedLayout
        have : rs ≠ [] := by intro h0; rw [h0] at h1; simp at h1; omega
        simp [List.ne_nil_of_mem hc, this]
      have hcols : [rs.map fun row => (w.cols.map WCol.name).zip row] = [typedRows w rows] := by
        have := congrArg Pages.cols (Except.ok.inj (Option.some.inj hread))
        unfold pagesOf typedPages at this
        rw [if_neg hne0] at this
        simp only [List.filter_cons_of_pos hdat, List.filter_nil, List.map_cons, List.map_nil] at this
        rw [← this]
        unfold rowRecords typedLayout
        simp only [List.map_map, Function.comp_def]
      have hbytes := rows_bytes_eq env (fun row hr => by
        have := (hrow row hr).length_eq
        unfold typedLayout at this
        rw [List.length_map] at this
        exact this.symm) (List.cons.inj hcols).1
      rw [h3] at hbytes
      obtain ⟨e, k, hk, he01, htl⟩ := hleft (by rw [← hbytes]; exact List.take_prefix _ _)
      have hdrop : tab.drop (rows * declaredWidth w.cols) = List.replicate k e := by
        have h5 := List.take_append_drop (rows * declaredWidth w.cols) tab
        rw [hbytes] at h5
        conv_rhs at h5 => rw [htl]
        exact List.append_cancel_left h5
      unfold Reader.fileEnd at hend
      simp only [Bool.false_eq_true, if_false] at hend
      rw [hbody, ← List.append_assoc, ← List.length_append, List.drop_left, hdrop] at hend
      obtain ⟨j, rfl⟩ : ∃ j, k = j + 2 := ⟨k - 2, by omega⟩
      rw [List.replicate_succ, List.replicate_succ] at hend
      simp only at hend
      rcases he01 with rfl | rfl
      · rw [readline, if_neg (by decide)] at hend
        simp only [List.all_cons] at hend
        exact absurd hend (by rw [show isSpaceByte 0 = false by decide]; simp)
      · rw [readline, if_neg (by decide)] at hend
        simp only [List.all_cons] at hend
        exact absurd hend (by rw [show isSpaceByte 255 = false by decide]; simp)

/-- Casts as numpy does them. -/
def exCasts : Env := ⟨exText, fun _ => .error .structError, fun d e x => match d, e with
  | .i16, .i32 => toBits 4 (ofBits 2 x)
  | .i16, .f64 => (intF64 (ofBits 2 x)).toNat
  | .i32, .f64 => (intF64 (ofBits 4 x)).toNat
  | _, _ => x⟩

theorem exCasts_exact : exCasts.CastsExact := ⟨fun _ _ => rfl, fun _ _ => rfl, fun _ _ => rfl⟩

example : ∃ r, openSdds exText 10 false 100 (saveBinary exCasts exMixed).1 = some (.ok r) ∧
    r.read 10 none ≠ some (.ok (typedPages exMixed 1)) := by
  obtain ⟨-, r, h1, h2⟩ := save_read_unbuffered_iff exCasts_exact (w := exMixed) exMixed_typed (fuel := 10) (by decide) 100
  exact ⟨r, h1, fun h => exMixed_not_one (h2.mp h).1⟩

/-- Two columns of doubles come back. -/
example : ∃ r, openSdds exText 10 false 100 (saveBinary exCasts exWriter).1 = some (.ok r) ∧
    (r.headerEnd = (utf8 (headerText exText exWriter "binary".toList)).length →
      r.read 10 none = some (.ok (typedPages exWriter 2))) := by
  obtain ⟨-, r, h1, h2⟩ := save_read_unbuffered_iff exCasts_exact (w := exWriter) (rows := 2)
    ⟨exWriter_ok.toNames, exWriter_ok.header, exWriter_ok.storable, fun c hc => ⟨_, exWriter_ok.has c hc⟩,
      exWriter_ok.lengths, exWriter_ok.noCols, exWriter_ok.short⟩ (fuel := 10) (by decide) 100
  refine ⟨r, h1, fun he => h2.mpr ⟨Or.inr fun c hc d hd => (exWriter_ok.has c hc).1.trans (exWriter_ok.has d hd).1.symm, ?_⟩⟩
  rw [he]
  decide +kernel

end Verif.Sdds
