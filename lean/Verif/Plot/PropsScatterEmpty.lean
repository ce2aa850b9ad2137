import Verif.Plot.PropsScatter

/-!
# Property C66: plots without particles
-/

namespace Verif.Plot

/-- **C66, no particles.** Data without particles in one of the two coordinates raises ValueError: there are no smallest and largest values. -/
theorem plot_empty (p : Scatter) (i j : Nat) (hd : p.data.length = 6) (hi : i < 6) (hj : j < 6)
    (h : p.data.getD i [] = [] ∨ p.data.getD j [] = []) : p.plot i j = .error .valueError := by
  have hidx : ∀ k : Nat, k < 6 → arrayIndex 6 (k : Int) = .ok k := by
    intro k hk
    unfold arrayIndex
    rw [if_pos (by omega)]
    simp
  have hnil : limits [] = .error .valueError := rfl
  unfold Scatter.plot
  rw [hd, hidx i hi, hidx j hj]
  rcases h with h | h
  · simp only [h, hnil]
  · simp only [h, hnil]
    by_cases h' : p.data.getD i [] = []
    · simp only [h', hnil]
    · obtain ⟨b, h1, _⟩ := limits_contain _ h'
      simp only [h1]

/-- Six empty rows. -/
example := plot_empty ⟨List.replicate 6 [], [], [], 0⟩ 0 5 rfl (by norm_num) (by norm_num) (.inl rfl)

end Verif.Plot
