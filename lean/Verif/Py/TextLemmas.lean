import Verif.Py.Text
import Mathlib.Tactic.Ring
import Mathlib.Tactic.Linarith
import Mathlib.Tactic.NormNum
import Mathlib.Tactic.Positivity
import Mathlib.Tactic.IntervalCases

/-!
# Lemmas on the text operations
-/

namespace Verif

@[simp] theorem leBytes_length (n x : Nat) : (leBytes n x).length = n := by
  induction n generalizing x with
  | zero => rfl
  | succ n ih => simp [leBytes, ih]

theorem leNat_leBytes (n x : Nat) : leNat (leBytes n x) = x % 256 ^ n := by
  induction n generalizing x with
  | zero => simp [leBytes, leNat, Nat.mod_one]
  | succ n ih =>
    simp only [leBytes, leNat, ih]
    rw [UInt8.toNat_ofNat', pow_succ 256 n, Nat.mul_comm (256 ^ n) 256, Nat.mod_mul]

theorem leNat_leBytes_of_lt {n x : Nat} (h : x < 256 ^ n) : leNat (leBytes n x) = x := by
  rw [leNat_leBytes, Nat.mod_eq_of_lt h]

theorem leBytes_leNat (b : Bytes) : leBytes b.length (leNat b) = b := by
  induction b with
  | nil => rfl
  | cons x b ih =>
    simp only [List.length_cons, leBytes, leNat]
    have h1 : (x.toNat + 256 * leNat b) / 256 = leNat b := by
      have := x.toNat_lt; omega
    rw [h1, ih]
    congr 1
    apply UInt8.toNat_inj.mp
    rw [UInt8.toNat_ofNat']
    have := x.toNat_lt; omega

theorem toBits_lt (n : Nat) (i : Int) : toBits n i < 256 ^ n := by
  unfold toBits
  have hp : (0 : Int) < (256 ^ n : Nat) := by positivity
  have h1 := Int.emod_nonneg i hp.ne'
  have h2 := Int.emod_lt_of_pos i hp
  omega

theorem ofBits_toBits {n : Nat} {i : Int} (hn : 0 < n) (h1 : -((256 ^ n : Nat) : Int) ≤ 2 * i)
    (h2 : 2 * i < (256 ^ n : Nat)) : ofBits n (toBits n i) = i := by
  unfold ofBits toBits
  have hp : (0 : Int) < (256 ^ n : Nat) := by positivity
  have hodd : ∃ k : Nat, 256 ^ n = 2 * k := by
    obtain ⟨m, rfl⟩ : ∃ m, n = m + 1 := ⟨n - 1, by omega⟩
    exact ⟨128 * 256 ^ m, by rw [pow_succ]; ring⟩
  obtain ⟨k, hk⟩ := hodd
  generalize 256 ^ n = w at *
  by_cases hi : 0 ≤ i
  · rw [Int.emod_eq_of_lt hi (by omega)]
    have : ((i.toNat : Nat) : Int) = i := Int.toNat_of_nonneg hi
    rw [if_pos (by omega)]
    omega
  · have e : i % (w : Int) = i + w := by
      rw [← Int.add_emod_right]
      exact Int.emod_eq_of_lt (by omega) (by omega)
    rw [e]
    have : (((i + w).toNat : Nat) : Int) = i + w := Int.toNat_of_nonneg (by omega)
    rw [if_neg (by omega)]
    omega

theorem utf8_append (a b : Str) : utf8 (a ++ b) = utf8 a ++ utf8 b := by simp [utf8]

theorem utf8EncodeChar_ascii (c : Char) (h : c.toNat < 128) :
    String.utf8EncodeChar c = [UInt8.ofNat c.toNat] := by
  unfold String.utf8EncodeChar
  have h' : c.val.toNat ≤ 127 := by
    have : c.val.toNat < 128 := h
    omega
  simp only [h', if_true]
  rfl

/-- All characters are 7-bit. -/
def Ascii (s : Str) : Prop := ∀ c ∈ s, c.toNat < 128

theorem Ascii.append {a b : Str} (ha : Ascii a) (hb : Ascii b) : Ascii (a ++ b) := by
  intro c hc
  rcases List.mem_append.mp hc with h | h
  · exact ha c h
  · exact hb c h

theorem utf8_ascii {s : Str} (h : Ascii s) : utf8 s = s.map fun c => UInt8.ofNat c.toNat := by
  induction s with
  | nil => rfl
  | cons c s ih =>
    simp only [utf8, List.flatMap_cons, List.map_cons]
    rw [utf8EncodeChar_ascii c (h c (by simp))]
    simp only [List.singleton_append, List.cons.injEq, true_and]
    exact ih fun c hc => h c (by simp [hc])

theorem Char.ofNat_toNat' (c : Char) : Char.ofNat c.toNat = c := Char.ofNat_toNat c

theorem latin1_utf8 {s : Str} (h : Ascii s) : latin1 (utf8 s) = s := by
  rw [utf8_ascii h]
  unfold latin1
  rw [List.map_map]
  conv_rhs => rw [← List.map_id s]
  apply List.map_congr_left
  intro c hc
  have hc' := h c hc
  simp only [Function.comp, id]
  rw [UInt8.toNat_ofNat', Nat.mod_eq_of_lt (by omega)]
  exact Char.ofNat_toNat c

theorem readline_append (l rest : Bytes) (h : ∀ b ∈ l, b ≠ 10) :
    readline (l ++ 10 :: rest) = (l ++ [10], rest) := by
  induction l with
  | nil => simp [readline]
  | cons b l ih =>
    have hb : b ≠ 10 := h b (by simp)
    simp only [List.cons_append, readline, if_neg hb]
    rw [ih fun b hb => h b (by simp [hb])]

theorem utf8_no_newline {s : Str} (h : Ascii s) (hn : '\n' ∉ s) : ∀ b ∈ utf8 s, b ≠ 10 := by
  rw [utf8_ascii h]
  intro b hb e
  obtain ⟨c, hc, rfl⟩ := List.mem_map.mp hb
  have hc' := h c hc
  have : c.toNat = 10 := by
    have := congrArg UInt8.toNat e
    rw [UInt8.toNat_ofNat', Nat.mod_eq_of_lt (by omega)] at this
    simpa using this
  apply hn
  have : c = '\n' := by
    rw [← Char.ofNat_toNat c, this]
  rwa [← this]

theorem hasSub_append_left (sub a b : Str) (h : hasSub sub b = true) : hasSub sub (a ++ b) = true := by
  induction a with
  | nil => exact h
  | cons c a ih => simp [hasSub, ih]

theorem hasSub_prefix (sub b : Str) : hasSub sub (sub ++ b) = true := by
  cases h : sub ++ b with
  | nil =>
    have : sub = [] := (List.append_eq_nil_iff.mp h).1
    simp [hasSub, this]
  | cons c cs =>
    simp only [hasSub, Bool.or_eq_true]
    left
    rw [← h]
    simp

theorem hasSub_infix (sub a b : Str) : hasSub sub (a ++ sub ++ b) = true := by
  rw [List.append_assoc]
  exact hasSub_append_left _ _ _ (hasSub_prefix _ _)

/-- If the substring contains a character that the text lacks, it does not occur. -/
theorem hasSub_false (sub s : Str) (c : Char) (hc : c ∈ sub) (hs : c ∉ s) : hasSub sub s = false := by
  induction s with
  | nil => cases sub with
    | nil => cases hc
    | cons => rfl
  | cons d s ih =>
    simp only [hasSub, Bool.or_eq_false_iff]
    refine ⟨?_, ih fun h => hs (by simp [h])⟩
    by_contra hp
    have hp : sub.isPrefixOf (d :: s) = true := by simpa using hp
    obtain ⟨t, ht⟩ := List.isPrefixOf_iff_prefix.mp hp
    apply hs
    rw [← ht]
    simp [hc]

theorem rstripChar_append_self (c : Char) (s : Str) (h : ∀ x, s.getLast? = some x → x ≠ c) :
    rstripChar c (s ++ [c]) = s := by
  unfold rstripChar
  rw [List.reverse_append, List.reverse_singleton, List.singleton_append, List.dropWhile_cons_of_pos (by simp)]
  cases hr : s.reverse with
  | nil =>
    have : s = [] := by simpa using hr
    simp [this]
  | cons x l =>
    have hx : s.getLast? = some x := by
      rw [← List.head?_reverse, hr]; rfl
    rw [List.dropWhile_cons_of_neg (by simpa using h x hx), ← hr, List.reverse_reverse]

theorem rstripChar_self (c : Char) (s : Str) (h : ∀ x, s.getLast? = some x → x ≠ c) :
    rstripChar c s = s := by
  unfold rstripChar
  cases hr : s.reverse with
  | nil =>
    have : s = [] := by simpa using hr
    simp [this]
  | cons x l =>
    have hx : s.getLast? = some x := by
      rw [← List.head?_reverse, hr]; rfl
    rw [List.dropWhile_cons_of_neg (by simpa using h x hx), ← hr, List.reverse_reverse]

/-- Digit character. -/
theorem digit_toNat {n : Nat} (h : n < 10) : (Char.ofNat (48 + n)).toNat = 48 + n := by
  interval_cases n <;> rfl

theorem digit_isDigit {n : Nat} (h : n < 10) : (Char.ofNat (48 + n)).isDigit = true := by
  interval_cases n <;> rfl

theorem digitsVal_append (a b : Str) (acc : Nat) :
    digitsVal acc (a ++ b) = (digitsVal acc a).bind fun x => digitsVal x b := by
  induction a generalizing acc with
  | nil => rfl
  | cons c a ih =>
    simp only [List.cons_append, digitsVal]
    split
    · rw [ih]
    · rfl

theorem digitsVal_natStr (n : Nat) : digitsVal 0 (natStr n) = some n := by
  induction n using Nat.strong_induction_on with
  | _ n ih =>
    rw [natStr]
    split
    · rename_i h
      simp only [digitsVal, digit_isDigit h, if_true, digit_toNat h]
      congr 1; omega
    · rename_i h
      rw [digitsVal_append, ih (n / 10) (by omega)]
      have h10 : n % 10 < 10 := Nat.mod_lt _ (by decide)
      simp only [Option.bind_some, digitsVal, digit_isDigit h10, if_true, digit_toNat h10]
      congr 1; omega

theorem natStr_digits (n : Nat) : ∀ c ∈ natStr n, c.isDigit = true := by
  induction n using Nat.strong_induction_on with
  | _ n ih =>
    rw [natStr]
    split
    · rename_i h
      intro c hc
      rw [List.mem_singleton.mp hc]; exact digit_isDigit h
    · rename_i h
      intro c hc
      rcases List.mem_append.mp hc with hc | hc
      · exact ih (n / 10) (by omega) c hc
      · rw [List.mem_singleton.mp hc]; exact digit_isDigit (Nat.mod_lt _ (by decide))

theorem natStr_ne_nil (n : Nat) : natStr n ≠ [] := by
  rw [natStr]; split <;> simp

theorem digit_ne {c d : Char} (h : c.isDigit = true) (hd : d.isDigit = false) : c ≠ d := by
  rintro rfl; rw [h] at hd; cases hd

theorem parseInt_intStr (i : Int) : parseInt (intStr i) = .ok i := by
  cases i with
  | ofNat n =>
    simp only [intStr]
    cases hs : natStr n with
    | nil => exact absurd hs (natStr_ne_nil n)
    | cons c cs =>
      have hc : c.isDigit = true := natStr_digits n c (by rw [hs]; simp)
      have h1 : c ≠ '-' := digit_ne hc rfl
      have h2 : c ≠ '+' := digit_ne hc rfl
      simp only [parseInt, beq_iff_eq, h1, h2, Bool.or_eq_true, or_self, if_false, ← hs, digitsVal_natStr]
      rfl
  | negSucc n =>
    simp only [intStr, parseInt]
    cases hs : natStr (n + 1) with
    | nil => exact absurd hs (natStr_ne_nil _)
    | cons c cs =>
      simp only [← hs, digitsVal_natStr]
      rfl

end Verif
