import Verif.Ptcls.Store
import Mathlib.Tactic.Common
import Mathlib.Algebra.Ring.Int.Defs

/-!
# Properties C114 and C115: the array of a phase space and its files
-/

namespace Verif.Ptcls

variable {α : Type} [Zero α]

/-- The array has six rows and as many columns as the object has particles, and there is at least one. -/
def Matches (s : Store α) : Prop := s.arr.shape = [6, s.num] ∧ 0 < s.num

/-- **C114, new objects.** A new object has zeros for the number of particles asked for; numbers that are not positive are refused. -/
theorem new_store (n : Int) : (0 < n → ∃ s : Store α, newStore n = .ok s ∧ (s.num : Int) = n ∧ Matches s ∧ s.arr.data.length = 6 * s.num ∧ ∀ x ∈ s.arr.data, x = 0) ∧
    (n ≤ 0 → (newStore n : Except PyErr (Store α)) = .error .exception) := by
  unfold newStore
  refine ⟨fun h => ?_, fun h => ?_⟩
  · rw [if_pos h]
    refine ⟨_, rfl, by simp only; omega, ⟨rfl, by simp only; omega⟩, by simp [zeros], ?_⟩
    intro x hx
    exact List.eq_of_mem_replicate hx
  · rw [if_neg (by omega)]

/-- **C114, check.** `check_array` accepts exactly the arrays with six rows and at least one column; then the number of particles is right. -/
theorem check_exact (s : Store α) : ((check s).1 = .ok () ↔ ∃ n, 0 < n ∧ s.arr.shape = [6, n]) ∧
    ((check s).1 = .ok () → Matches (check s).2) ∧ ((check s).1 ≠ .ok () → check s = (.error .exception, s)) ∧ (check s).2.arr = s.arr ∧ (check s).2.name = s.name := by
  unfold check Matches
  rcases hsh : s.arr.shape with _ | ⟨a, _ | ⟨b, _ | ⟨c, l⟩⟩⟩
  · simp
  · simp
  · by_cases ha : a = 6
    · subst ha
      rcases Nat.eq_zero_or_pos b with rfl | hb
      · simp
      · have hb' : ¬ b < 1 := by omega
        simp [hsh, hb', hb]
    · simp [ha]
  · simp

/-- A call that is not to be blamed for a mismatch: an array is only set if it fits the number of particles. -/
def Fits (s : Store α) (r : Except PyErr Unit) : StoreOp α → Prop
  | .setArray a => a.shape = [6, s.num]
  | .read => r ≠ .error .exception
  | _ => True

/-- All calls of a history fit. -/
def AllFit (s : Store α) (fs : Files α) : List (StoreOp α) → Prop
  | [] => True
  | op :: ops => Fits s (op.run s fs).1 op ∧ AllFit (op.run s fs).2.1 (op.run s fs).2.2 ops

theorem run_matches (op : StoreOp α) (s : Store α) (fs : Files α) (h : Matches s) (hf : Fits s (op.run s fs).1 op) : Matches (op.run s fs).2.1 := by
  cases op with
  | setNum n =>
    simp only [StoreOp.run]
    split_ifs with hn
    · exact ⟨rfl, by simp only; omega⟩
    · exact h
  | setName t =>
    simp only [StoreOp.run]
    split_ifs with hn
    · exact h
    · exact h
  | setArray a => exact ⟨hf, h.2⟩
  | check =>
    simp only [StoreOp.run]
    obtain ⟨_, h2, h3, _⟩ := check_exact s
    by_cases hc : (check s).1 = .ok ()
    · exact h2 hc
    · rw [h3 hc]; exact h
  | write => exact h
  | read =>
    simp only [StoreOp.run] at hf ⊢
    cases hg : Files.get fs (s.name ++ ".npz") with
    | none => simpa [hg] using h
    | some a =>
      simp only [hg] at hf ⊢
      obtain ⟨_, h2, h3, _⟩ := check_exact { s with arr := a }
      by_cases hc : (check { s with arr := a }).1 = .ok ()
      · exact h2 hc
      · rw [h3 hc] at hf
        exact absurd rfl hf

/-- **C114, histories.** After any history of calls the number of particles is that of the array, if arrays of another shape are never set
and no file with a wrong array is read. -/
theorem store_matches_partial (ops : List (StoreOp α)) : ∀ (s : Store α) (fs : Files α), Matches s → AllFit s fs ops → Matches (runAll s fs ops).2.1 := by
  induction ops with
  | nil => intro s fs h _; exact h
  | cons op ops ih =>
    intro s fs h hf
    simp only [runAll]
    exact ih _ _ (run_matches op s fs h hf.1) hf.2

/-- **C114 is false for `set_array_6d`.** Any array with another number of columns is accepted, and the number of particles stays the old one. -/
theorem set_array_fails (s : Store α) (fs : Files α) (a : NdArr α) (n : Nat) (ha : a.shape = [6, n]) (hn : n ≠ s.num) :
    (StoreOp.setArray a).run s fs = (.ok (), { s with arr := a }, fs) ∧ ¬ Matches ((StoreOp.setArray a).run s fs).2.1 := by
  refine ⟨rfl, fun h => hn ?_⟩
  have h1 : a.shape = [6, s.num] := h.1
  rw [ha] at h1
  simpa using h1

/-- **C114 is false for `read_array`.** If the file has a wrong array the call raises, but the wrong array is kept with the old number of particles. -/
theorem read_wrong_fails (s : Store α) (fs : Files α) (a : NdArr α) (hf : Files.get fs (s.name ++ ".npz") = some a) (ha : ¬ ∃ n, 0 < n ∧ a.shape = [6, n]) :
    StoreOp.read.run s fs = (.error .exception, { s with arr := a }, fs) ∧ ¬ Matches (StoreOp.read.run s fs).2.1 := by
  obtain ⟨h1, _, h3, _⟩ := check_exact { s with arr := a }
  have hc : (check { s with arr := a }).1 ≠ .ok () := fun h => ha (h1.1 h)
  have he : StoreOp.read.run s fs = (.error .exception, { s with arr := a }, fs) := by
    simp only [StoreOp.run, hf, h3 hc]
  refine ⟨he, ?_⟩
  rw [he]
  exact fun h => ha ⟨s.num, h.2, h.1⟩

/-! ## Files -/

/-- Calls that do not write the file of this name. -/
def Spares (name : String) (s : Store α) (fs : Files α) : List (StoreOp α) → Prop
  | [] => True
  | op :: ops => (∀ _ : op = .write, s.name ≠ name) ∧ Spares name (op.run s fs).2.1 (op.run s fs).2.2 ops

theorem append_npz {a b : String} (h : a ++ ".npz" = b ++ ".npz") : a = b := by
  have h' := congrArg String.toList h
  rw [String.toList_append, String.toList_append] at h'
  exact String.toList_inj.1 (List.append_cancel_right h')

theorem spares_file (name : String) (a : NdArr α) (ops : List (StoreOp α)) : ∀ (s : Store α) (fs : Files α),
    Spares name s fs ops → Files.get fs (name ++ ".npz") = some a → Files.get (runAll s fs ops).2.2 (name ++ ".npz") = some a := by
  induction ops with
  | nil => intro s fs _ h; exact h
  | cons op ops ih =>
    intro s fs hs h
    simp only [runAll]
    refine ih _ _ hs.2 ?_
    cases op with
    | setNum n => simp only [StoreOp.run]; split_ifs <;> exact h
    | setName t => simp only [StoreOp.run]; split_ifs <;> exact h
    | setArray a => exact h
    | check => exact h
    | write =>
      have hn := hs.1 rfl
      simp only [StoreOp.run, Files.get, List.find?_cons]
      have : ((s.name ++ ".npz" == name ++ ".npz") : Bool) = false := by
        rw [beq_eq_false_iff_ne]
        exact fun h => hn (append_npz h)
      rw [this]
      exact h
    | read =>
      simp only [StoreOp.run]
      cases Files.get fs (s.name ++ ".npz") with
      | none => exact h
      | some a => exact h

/-- **C115.** An array that was written is read back by any object with the same file name, with its number of particles, whatever calls of other
objects come between that do not write the file; only arrays without six rows or without columns raise. -/
theorem write_read (s t t' : Store α) (fs : Files α) (ops : List (StoreOp α)) (hs : Spares s.name t (StoreOp.write.run s fs).2.2 ops)
    (ht : t'.name = s.name) (n : Nat) (hn : 0 < n) (hsh : s.arr.shape = [6, n]) :
    StoreOp.read.run t' (runAll t (StoreOp.write.run s fs).2.2 ops).2.2 =
      (.ok (), ⟨n, s.name, s.arr⟩, (runAll t (StoreOp.write.run s fs).2.2 ops).2.2) := by
  have hw : Files.get (StoreOp.write.run s fs).2.2 (s.name ++ ".npz") = some s.arr := by
    simp [StoreOp.run, Files.get]
  have hg := spares_file s.name s.arr ops t _ hs hw
  simp only [StoreOp.run] at hg ⊢
  rw [ht, hg]
  have hb : ¬ n < 1 := by omega
  simp only [check, hsh, if_neg hb, ne_eq, not_true_eq_false, if_false]

/-- **C115, missing files.** Reading a file that does not exist raises OSError and changes nothing. -/
theorem read_missing (s : Store α) (fs : Files α) (h : Files.get fs (s.name ++ ".npz") = none) : StoreOp.read.run s fs = (.error .osError, s, fs) := by
  simp only [StoreOp.run, h]

/-- **C115, names.** File names are kept unless they are empty; then the call raises and the old name stays. -/
theorem name_kept (s : Store α) (fs : Files α) (t : String) :
    (t ≠ "" → (StoreOp.setName t).run s fs = (.ok (), { s with name := t }, fs)) ∧ (t = "" → (StoreOp.setName t).run s fs = (.error .exception, s, fs)) := by
  refine ⟨fun h => ?_, fun h => ?_⟩
  · have : 0 < t.length := by
      rw [Nat.pos_iff_ne_zero]
      intro h0
      exact h (by rwa [String.length_eq_zero_iff] at h0)
    simp only [StoreOp.run, if_pos this]
  · subst h
    rfl

/-! The theorems at concrete values. -/

/-- An array with two particles. -/
def exArr : NdArr Int := ⟨[6, 2], [1, 2, 3, 4, 5, 6, 7, 8, 9, 10, 11, 12]⟩

example : ∃ s : Store Int, newStore 2 = .ok s ∧ Matches s := ⟨_, rfl, rfl, by decide⟩

example : (check (⟨7, "a", exArr⟩ : Store Int)) = (.ok (), ⟨2, "a", exArr⟩) := by decide

/-- A history that fits: a written array is read again under the same name. -/
example : AllFit (⟨2, "ps6d", exArr⟩ : Store Int) [] [.write, .setNum 3, .read, .setName "b", .read] ∧
    (runAll (⟨2, "ps6d", exArr⟩ : Store Int) [] [.write, .setNum 3, .read, .setName "b", .read]).2.1 = ⟨2, "b", exArr⟩ := by
  refine ⟨?_, by decide⟩
  simp only [AllFit, Fits]
  exact ⟨trivial, trivial, by decide, trivial, by decide, trivial⟩

example : ¬ Matches ((StoreOp.setArray exArr).run ⟨5, "ps6d", zeros 5⟩ []).2.1 := (set_array_fails ⟨5, "ps6d", zeros 5⟩ [] exArr 2 rfl (by decide)).2

example : (StoreOp.read.run (⟨5, "f", zeros 5⟩ : Store Int) [("f.npz", ⟨[3], [1, 2, 3]⟩)]).1 = .error .exception := by decide

example : ∃ fs, StoreOp.read.run (⟨5, "f", zeros 5⟩ : Store Int) (runAll (⟨1, "g", zeros 1⟩ : Store Int) (StoreOp.write.run ⟨2, "f", exArr⟩ []).2.2 [.write, .setNum 4]).2.2 =
    (.ok (), ⟨2, "f", exArr⟩, fs) :=
  ⟨_, write_read ⟨2, "f", exArr⟩ ⟨1, "g", zeros 1⟩ ⟨5, "f", zeros 5⟩ [] [.write, .setNum 4] ⟨fun _ => by decide, fun h => by simp at h, trivial⟩ rfl 2 (by decide) rfl⟩

example : StoreOp.read.run (⟨5, "f", zeros 5⟩ : Store Int) [] = (.error .osError, ⟨5, "f", zeros 5⟩, []) := read_missing _ _ rfl

example : (StoreOp.setName "").run (⟨5, "f", zeros 5⟩ : Store Int) [] = (.error .exception, ⟨5, "f", zeros 5⟩, []) := (name_kept _ _ "").2 rfl

end Verif.Ptcls
