import Mathlib.Algebra.BigOperators.Group.List.Basic
import Mathlib.Algebra.CharZero.Defs
import Mathlib.Tactic.Ring
import Mathlib.Tactic.FieldSimp
import Verif.Switch.PropsOpal

/-!
# Property C21: the genesis file
-/

namespace Verif.Switch

variable {K : Type} [Field K]

theorem genesisTimes_length (num : Num K) (ps : List (Part K)) : (genesisTimes num ps).length = ps.length := by
  simp [genesisTimes]

theorem sum_sub_const (l : List K) (m : K) : (l.map fun t => t - m).sum = l.sum - (l.length : K) * m := by
  induction l with
  | nil => simp
  | cons a l ih =>
    simp only [List.map_cons, List.sum_cons, ih, List.length_cons, Nat.cast_succ]
    ring

/-- The pieces of a line of the file. -/
def words (f : Fmt K) (p : Part K) (t : K) : List Str := [f.csv p.x, f.csv p.ux, f.csv p.y, f.csv p.uy, f.csv t, f.csv p.pt]

/-- **C21.** The file has four header lines, with the number of particles in the third, and one
line per particle, in order, with x, ux, y, uy, a time and pt. The times differ from `ct / c` by
one constant, and their sum is zero. -/
theorem genesis_file [CharZero K] (num : Num K) (f : Fmt K) (version : Str) (s : Species K) (hs : s.coords ≠ [])
    (hv : '\n' ∉ version) (hq : '\n' ∉ f.charge s.totalCharge) (hf : ∀ v, '\n' ∉ f.csv v ∧ ' ' ∉ f.csv v) :
    ∃ (ts : List K) (shift : K) (rows : List Str),
      splitChar '\n' (writeGenesis num f version s) =
        ["? VERSION = ".toList ++ version, "? CHARGE = ".toList ++ f.charge s.totalCharge,
         "? SIZE = ".toList ++ natStr s.coords.length, "? COLUMNS X PX Y PY T P".toList] ++ rows ++ [[]] ∧
      rows.map (splitChar ' ') = List.zipWith (words f) s.coords ts ∧
      ts = s.coords.map (fun p => p.ct / num.c - shift) ∧ ts.sum = 0 := by
  let tt := s.coords.map fun p => p.ct / num.c
  let row : Part K × K → Str := fun pt =>
    f.csv pt.1.x ++ ' ' :: f.csv pt.1.ux ++ ' ' :: f.csv pt.1.y ++ ' ' :: f.csv pt.1.uy ++ ' ' :: f.csv pt.2 ++ ' ' :: f.csv pt.1.pt
  refine ⟨genesisTimes num s.coords, tt.sum / (tt.length : K), (s.coords.zip (genesisTimes num s.coords)).map row, ?_, ?_, ?_, ?_⟩
  · have hrow : ∀ a, '\n' ∉ row a := by
      intro a
      simp only [row, List.mem_append, List.mem_cons, not_or]
      simp (decide := true) [(hf _).1]
    have hz : List.zipWith (csvLine f) s.coords (genesisTimes num s.coords) =
        (s.coords.zip (genesisTimes num s.coords)).map fun a => row a ++ ['\n'] := by
      rw [List.zip, List.map_zipWith]
      rfl
    unfold writeGenesis
    rw [hz]
    simp only [List.append_assoc, List.singleton_append, List.cons_append, List.nil_append]
    have h1 : '\n' ∉ "? VERSION = ".toList ++ version := by
      rw [List.mem_append, not_or]; exact ⟨by decide, hv⟩
    have h2 : '\n' ∉ "? CHARGE = ".toList ++ f.charge s.totalCharge := by
      rw [List.mem_append, not_or]; exact ⟨by decide, hq⟩
    have h3 : '\n' ∉ "? SIZE = ".toList ++ natStr s.coords.length := by
      rw [List.mem_append, not_or]; exact ⟨by decide, natStr_noNl _⟩
    have h4 : '\n' ∉ "? COLUMNS X PX Y PY T P".toList := by decide
    rw [← List.append_assoc, Verif.Lte.splitChar_append h1, ← List.append_assoc, Verif.Lte.splitChar_append h2,
      ← List.append_assoc, Verif.Lte.splitChar_append h3, Verif.Lte.splitChar_append h4, splitChar_lines row hrow]
  · rw [List.map_map, List.zip, List.map_zipWith]
    congr 1
    funext p t
    simp only [Function.comp, row, words, List.append_assoc, List.cons_append]
    rw [Verif.Lte.splitChar_append (hf _).2, Verif.Lte.splitChar_append (hf _).2, Verif.Lte.splitChar_append (hf _).2,
      Verif.Lte.splitChar_append (hf _).2, Verif.Lte.splitChar_append (hf _).2, Verif.Lte.splitChar_none (hf _).2]
  · simp only [genesisTimes, List.map_map]
    rfl
  · have hl : (tt.length : K) ≠ 0 := by
      simp only [tt, List.length_map, ne_eq, Nat.cast_eq_zero, List.length_eq_zero_iff]
      exact hs
    show (tt.map fun t => t - tt.sum / (tt.length : K)).sum = 0
    rw [sum_sub_const, mul_div_cancel₀ _ hl, sub_self]

/-- Text of whole numbers for the example. -/
def exFmt : Fmt ℚ := ⟨fun q => match q with | some q => intStr q.num | none => "None".toList, fun v => intStr v.num⟩

theorem intStr_clean (n : Int) : '\n' ∉ intStr n ∧ ' ' ∉ intStr n := by
  cases n with
  | ofNat n => exact ⟨natStr_noNl n, fun h => absurd (natStr_digits n _ h) (by decide)⟩
  | negSucc n =>
    simp only [intStr, List.mem_cons, not_or]
    exact ⟨⟨by decide, natStr_noNl _⟩, by decide, fun h => absurd (natStr_digits _ _ h) (by decide)⟩

example : writeGenesis exNum exFmt "2.0".toList exSpecies =
    "? VERSION = 2.0\n? CHARGE = 7\n? SIZE = 2\n? COLUMNS X PX Y PY T P\n1 4 -2 6 2 2\n0 -8 5 0 -2 4\n".toList := by
  decide +kernel

example := genesis_file exNum exFmt "2.0".toList exSpecies (by decide) (by decide) (intStr_clean 7).1
  fun v => intStr_clean v.num

end Verif.Switch
