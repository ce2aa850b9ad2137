import Verif.Phases.PropsTune

/-! # Property C61: the range of turns that is used -/

namespace Verif.Phases

/-- Number of points before the index `i` of a Python slice: negative numbers count from the end. -/
def Before (len : Nat) (i : Int) (m : Nat) : Prop :=
  (0 ≤ i → (m : Int) = min i len) ∧ (i < 0 → -len ≤ i → (m : Int) = len + i) ∧ (i < -len → m = 0)

theorem sliceEnd_before (len : Nat) (i : Int) : Before len i (sliceEnd len i) := by
  unfold sliceEnd
  refine ⟨fun h => ?_, fun h h' => ?_, fun h => ?_⟩
  · rw [if_neg (by omega)]; omega
  · rw [if_pos h]; omega
  · rw [if_pos (by omega)]; omega

theorem before_le {len m : Nat} {i : Int} (h : Before len i m) : m ≤ len := by
  by_cases h1 : 0 ≤ i
  · have := h.1 h1; omega
  · by_cases h2 : -len ≤ i
    · have := h.2.1 (by omega) h2; omega
    · have := h.2.2 (by omega); omega

theorem before_unique {len m m' : Nat} {i : Int} (h : Before len i m) (h' : Before len i m') : m = m' := by
  by_cases h1 : 0 ≤ i
  · have := h.1 h1; have := h'.1 h1; omega
  · by_cases h2 : -len ≤ i
    · have := h.2.1 (by omega) h2; have := h'.2.1 (by omega) h2; omega
    · have := h.2.2 (by omega); have := h'.2.2 (by omega); omega

/-- **C61.** The tune is the one of the points from turn `t_i` up to turn `t_f`; negative numbers count from the end, and nothing or zero for `t_f` means the end. -/
theorem tune_turns (pre mid post : List ℝ) (ti : Int) (tf : Option Int) (h1 : Before (pre ++ mid ++ post).length ti pre.length)
    (h2 : (tf = none ∨ tf = some 0) ∧ post = [] ∨ ∃ j, tf = some j ∧ j ≠ 0 ∧ Before (pre ++ mid ++ post).length j (pre ++ mid).length) :
    tuneFft (.flat (pre ++ mid ++ post)) ti tf = tuneFft (.flat mid) 0 none := by
  have e1 := before_unique (sliceEnd_before _ ti) h1
  have hv : (Signal.flat mid).slice 0 ((Signal.flat mid).length : Int) = .flat mid := by
    show Signal.flat (slice _ _ _) = _
    unfold slice
    have : sliceEnd mid.length (mid.length : Int) = mid.length := by unfold sliceEnd; rw [if_neg (by omega)]; omega
    show Signal.flat (List.drop (sliceEnd mid.length 0) (List.take (sliceEnd mid.length (mid.length : Int)) mid)) = _
    rw [this, List.take_length]
    simp [sliceEnd]
  have hu (j : Int) (e2 : sliceEnd (pre ++ mid ++ post).length j = (pre ++ mid).length) :
      (Signal.flat (pre ++ mid ++ post)).slice ti j = .flat mid := by
    show Signal.flat (slice _ _ _) = _
    unfold slice
    rw [e1, e2, List.take_left' rfl, List.drop_left' rfl]
  have hend (h : post = []) : sliceEnd (pre ++ mid ++ post).length ((Signal.flat (pre ++ mid ++ post)).length : Int) = (pre ++ mid).length := by
    subst h
    show sliceEnd (pre ++ mid ++ []).length ((pre ++ mid ++ []).length : Int) = _
    unfold sliceEnd; rw [if_neg (by omega)]; simp; omega
  rcases h2 with ⟨rfl | rfl, hp⟩ | ⟨j, rfl, h0, h2⟩
  · unfold tuneFft
    simp only [hu _ (hend hp), hv]
  · unfold tuneFft
    simp only [if_true, hu _ (hend hp), hv]
  · unfold tuneFft
    simp only [if_neg h0, hu j (before_unique (sliceEnd_before _ j) h2), hv]

-- the last two of five points
example : tuneFft (.flat ([1, 2, 3] ++ [4, 5] ++ [])) (-2) (some 7) = tuneFft (.flat [4, 5]) 0 none :=
  tune_turns [1, 2, 3] [4, 5] [] (-2) (some 7) ⟨by simp, by simp, by simp⟩ (.inr ⟨7, rfl, by simp, ⟨by simp, by simp, by simp⟩⟩)

-- all but the first and the last
example : tuneFft (.flat ([1] ++ [2, 3, 4] ++ [5])) 1 (some (-1)) = tuneFft (.flat [2, 3, 4]) 0 none :=
  tune_turns [1] [2, 3, 4] [5] 1 (some (-1)) ⟨by simp, by simp, by simp⟩ (.inr ⟨-1, rfl, by simp, ⟨by simp, by simp, by simp⟩⟩)

end Verif.Phases
