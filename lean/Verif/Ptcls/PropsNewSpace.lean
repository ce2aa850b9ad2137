import Verif.Ptcls.Distrib

/-!
# Property C114: new phase spaces
-/

namespace Verif.Ptcls

/-- **C114, new objects.** A phase space is made exactly for positive numbers of particles. It has that many particles, all at the origin. -/
theorem new_phase_space (n : Int) :
    (n ≤ 0 → newPhaseSpace n = .error .exception) ∧
    (0 < n → ∃ s, newPhaseSpace n = .ok s ∧ (s.num : Int) = n ∧ s.arr.length = s.num ∧ ∀ x ∈ s.arr, ∀ i, x i = 0) := by
  refine ⟨fun h => if_neg (by omega), fun h => ⟨_, if_pos h, Int.toNat_of_nonneg h.le, List.length_replicate, fun x hx i => ?_⟩⟩
  rw [List.eq_of_mem_replicate hx]

/-- Three particles. -/
example := (new_phase_space 3).2 (by norm_num)

end Verif.Ptcls
