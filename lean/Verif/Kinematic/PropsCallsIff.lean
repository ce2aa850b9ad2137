import Verif.Kinematic.PropsExact

/-!
# Claim C44: when a second call gives the same answer
-/

namespace Verif.Kinematic

theorem map_fixed_iff (o : Option ℝ) (f : ℝ) : o.map (fun x => x * f) = o ↔ ∀ x, o = some x → x = 0 ∨ f = 1 := by
  cases o with
  | none => simp
  | some x =>
    simp only [Option.map_some, Option.some.injEq]
    constructor
    · rintro h y rfl
      by_cases h0 : x = 0
      · exact Or.inl h0
      · exact Or.inr (mul_left_cancel₀ h0 (by rw [h, mul_one]))
    · intro h
      rcases h x rfl with h | h <;> simp [h]

/-- **C44, SI output, exact condition.** The second call of a converter with SI output gives the answer of the first one if and only if
every quantity that is converted is zero or has the factor one. -/
theorem calls_SI_iff (k : Consts) (hk : k.Pos) (a : Args) (cv : Converter) (hi : init k a = .ok cv) (hout : a.outputUnit = "SI") :
    (call k (call k cv)).outputs = (call k cv).outputs ↔
      (∀ p, (call k cv).outputs.momentum = some p → p = 0 ∨ k.e = k.c) ∧ (∀ E, (call k cv).outputs.energy = some E → E = 0 ∨ k.e = 1) ∧
      (∀ E, (call k cv).outputs.kenergy = some E → E = 0 ∨ k.e = 1) ∧ ∀ m, (call k cv).outputs.mass = some m → m = 0 ∨ k.e = k.c ^ 2 := by
  have h := calls_SI_exact k a cv hi hout 1
  have h2 : calls k (1 + 1) cv = call k (call k cv) := rfl
  rw [h2] at h
  simp only [pow_one] at h
  have he : k.e ≠ 0 := hk.1.ne'
  have hc : k.c ≠ 0 := hk.2.ne'
  have f1 : (1 / k.e * k.c)⁻¹ = 1 ↔ k.e = k.c := by field_simp
  have f2 : (1 / k.e)⁻¹ = 1 ↔ k.e = 1 := by field_simp
  have f3 : (1 / k.e * k.c ^ 2)⁻¹ = 1 ↔ k.e = k.c ^ 2 := by field_simp
  rw [h]
  rw [← f1, ← f2, ← f3, ← map_fixed_iff, ← map_fixed_iff, ← map_fixed_iff, ← map_fixed_iff]
  constructor
  · intro h3
    exact ⟨congrArg Outputs.momentum h3, congrArg Outputs.energy h3, congrArg Outputs.kenergy h3, congrArg Outputs.mass h3⟩
  · rintro ⟨m1, m2, m3, m4⟩
    rw [m1, m2, m3, m4]

/-- With a given `gamma` of two the second call gives another answer. -/
example : ∃ cv, init toyConsts (only .gamma 2 none "eV" "eV" "SI") = .ok cv ∧ (call toyConsts (call toyConsts cv)).outputs ≠ (call toyConsts cv).outputs := by
  have hinit := (init_eq_ok_iff toyConsts (only .gamma 2 none "eV" "eV" "SI") _).mpr
    ⟨by simp [UnitsOk, only], by simp [declaration, allQuantities, only, List.filter], rfl⟩
  refine ⟨_, hinit, fun h => ?_⟩
  have := ((calls_SI_iff toyConsts toyConsts_ok.1 _ _ hinit rfl).1 h).2.1
  simp [call, allQuantities, setBetaGamma, only, outputsToSI, fill, toyConsts, massSetup, start] at this

end Verif.Kinematic
