import Verif.Kinematic.PropsExact

/-!
# Property C43: the unit labels of the printout
-/

namespace Verif.Kinematic

/-- What a unit name means in SI units. -/
noncomputable def siOf (k : Consts) (label : String) : Option ℝ :=
  if label = "eV" then some k.e
  else if label = "eV/c" then some (k.e / k.c)
  else if label = "eV/c^2" then some (k.e / k.c ^ 2)
  else if label ∈ ["J", "kg", "kg*m/s", "kg * m/s", "m/s", "T*m", ""] then some 1
  else none

/-- The dimension of a quantity: the unit names that can stand behind it. -/
def Names : Quantity → List String
  | .momentum => ["eV/c", "kg*m/s", "kg * m/s"]
  | .velocity => ["m/s"]
  | .energy => ["eV", "J"]
  | .kenergy => ["eV", "J"]
  | .brho => ["T*m", ""]
  | _ => [""]

/-- **C43, the labels of the results.** Every result together with the unit printed behind it is the value of the state, and the unit is one of the quantity. -/
theorem output_labels (k : Consts) (hk : k.Pos) (a : Args) (hu : UnitsOk a) (o : Outputs) (s : State) (hs : Shows k a.outputUnit o s) (q : Quantity) :
    outputLabel a q ∈ Names q ∧
    ∃ w f, o.get q = some w ∧ siOf k (outputLabel a q) = some f ∧ w * f = s.get q / siUnit k q := by
  obtain ⟨w, hw, hin⟩ := hs q
  have he := hk.e.ne'
  have hc := hk.c.ne'
  rcases hu.2.2 with ho | ho
  all_goals
    constructor
    · cases q <;> simp [outputLabel, momentumLabel, energyLabel, Names, ho]
    refine ⟨w, siOf k (outputLabel a q) |>.getD 0, hw, ?_, ?_⟩
    · cases q <;> simp [outputLabel, momentumLabel, energyLabel, siOf, ho]
    rw [← hin]
    cases q <;> simp [outputLabel, momentumLabel, energyLabel, siOf, ho, inEv, siUnit] <;> field_simp

/-- **C43, the label of the input.** The unit named for the input is the one in which it is given. -/
theorem input_label (k : Consts) (hk : k.Pos) (a : Args) (hu : UnitsOk a) (q : Quantity) (v : ℝ) :
    inputLabel a q ∈ Names q ∧
    ∃ f, siOf k (inputLabel a q) = some f ∧ v * f = inEv k a.inputUnit q v / siUnit k q := by
  have he := hk.e.ne'
  have hc := hk.c.ne'
  rcases hu.2.1 with ho | ho
  all_goals
    constructor
    · cases q <;> simp [inputLabel, Names, ho]
    refine ⟨siOf k (inputLabel a q) |>.getD 0, ?_, ?_⟩
    · cases q <;> simp [inputLabel, siOf, ho]
    cases q <;> simp [inputLabel, siOf, ho, inEv, siUnit] <;> field_simp

/-- **C43, the label of the mass.** The unit named for the mass is the one in which it is given. -/
theorem mass_label (k : Consts) (hk : k.Pos) (a : Args) (hu : UnitsOk a) (m : ℝ) (hm : a.mass = some m) :
    ∃ f, siOf k (massLabel a) = some f ∧ m * f = trueMassEv k a * (k.e / k.c ^ 2) := by
  have he := hk.e.ne'
  have hc := hk.c.ne'
  rcases hu.1 with ho | ho
  all_goals
    refine ⟨siOf k (massLabel a) |>.getD 0, ?_, ?_⟩
    · simp [massLabel, siOf, ho]
    simp [massLabel, siOf, ho, trueMassEv, hm]
    try field_simp

/-- **C43, the printed input exactly.** The input value in the printout together with its unit is the input that was given exactly if it was given in
electron volt units, is zero, or has the same unit in both systems. -/
theorem printed_input_iff (k : Consts) (hk : k.Pos) (he1 : k.e ≠ 1) (hce : k.c ≠ k.e) (a : Args) (q : Quantity) (v : ℝ) (hq : a.quantity q = some v)
    (o : Outputs) (hrun : run k a = .ok o) :
    (∃ w f, o.input = some w ∧ siOf k (inputLabel a q) = some f ∧ w * f = inEv k a.inputUnit q v / siUnit k q) ↔
      a.inputUnit = "eV" ∨ v = 0 ∨ q ∉ [.energy, .kenergy, .momentum] := by
  obtain ⟨cv, hcv⟩ : ∃ cv, init k a = .ok cv := by
    unfold run at hrun; cases h : init k a with
    | error e => rw [h] at hrun; simp [Except.map] at hrun
    | ok cv => exact ⟨cv, rfl⟩
  have hu : UnitsOk a := ((init_eq_ok_iff k a cv).1 hcv).1
  obtain ⟨-, f, hf, hfv⟩ := input_label k hk a hu q v
  rw [(reported_input_exact k a q v hq o hrun).1, hf]
  have hf0 : f ≠ 0 := by
    have he := hk.e.ne'
    have hc := hk.c.ne'
    unfold siOf at hf
    split_ifs at hf <;> simp at hf <;> rw [← hf] <;> positivity
  have h1 : (∃ w g, some (inEv k a.inputUnit q v) = some w ∧ some f = some g ∧ w * g = inEv k a.inputUnit q v / siUnit k q) ↔
      inEv k a.inputUnit q v = v := by
    constructor
    · rintro ⟨w, g, hw, hg, h⟩
      cases hw; cases hg
      rw [← hfv] at h
      exact mul_right_cancel₀ hf0 h
    · intro h
      exact ⟨_, _, rfl, rfl, by rw [← hfv, h]⟩
  rw [h1]
  have he := hk.e
  have hc := hk.c
  rcases hu.2.1 with ho | ho
  · simp [ho, inEv]
  · have hunit : v * siUnit k q = v ↔ v = 0 ∨ siUnit k q = 1 := by
      constructor
      · intro h
        by_cases hv : v = 0
        · exact .inl hv
        · exact .inr (mul_left_cancel₀ hv (by rw [h, mul_one]))
      · rintro (h | h) <;> simp [h]
    simp only [ho, inEv, if_true, hunit]
    have e2 : k.c / k.e = 1 ↔ False := by
      simp only [iff_false]; intro h; rw [div_eq_one_iff_eq he.ne'] at h; exact hce h
    cases q <;> simp [siUnit, he1, e2]

example : outputLabel (only .energy 10 (some 2) "SI" "SI" "eV") .momentum = "eV/c" ∧
    siOf toyConsts "eV/c" = some (toyConsts.e / toyConsts.c) := by
  constructor
  · simp [outputLabel, momentumLabel, only]
  · simp [siOf]

/-- A momentum given as 3 kg m/s of a particle of 2 kg: printed in eV/c. -/
example : ∃ (o : Outputs) (s : State), run toyConsts (only .momentum 3 (some 2) "SI" "SI" "eV") = .ok o ∧ s.momentum = 12 ∧
    ∃ w f, o.momentum = some w ∧ siOf toyConsts "eV/c" = some f ∧ w * f = s.momentum / 4 := by
  obtain ⟨o, ho⟩ := init_only toyConsts .momentum 3 (some 2) "SI" "SI" "eV" (.inr rfl) (.inr rfl) (.inl rfl)
  obtain ⟨s, -, h2, h3⟩ := converter_physical toyConsts toyConsts_ok.1 toyConsts_ok.2 _ .momentum 3 (by rfl)
    (by intro m h; cases h; norm_num) (by simp [Valid]) o ho
  have hv : inEv toyConsts "SI" .momentum 3 = 12 := by norm_num [inEv, siUnit, toyConsts]
  obtain ⟨-, w, f, hw, hf, h⟩ := output_labels toyConsts toyConsts_ok.1 _ ⟨.inr rfl, .inr rfl, .inl rfl⟩ o s h2 .momentum
  refine ⟨o, s, ho, h3.trans hv, w, f, hw, hf, ?_⟩
  rw [h]
  norm_num [State.get, siUnit, toyConsts]

/-- Of a momentum of 3 kg m/s the printout shows another number; a velocity of 1 m/s is shown as it is. -/
example : (∃ o, run toyConsts (only .momentum 3 none "eV" "SI" "eV") = .ok o ∧
      ¬ ∃ w f, o.input = some w ∧ siOf toyConsts (inputLabel (only .momentum 3 none "eV" "SI" "eV") .momentum) = some f ∧
        w * f = inEv toyConsts "SI" .momentum 3 / siUnit toyConsts .momentum) ∧
    ∃ o, run toyConsts (only .velocity 1 none "eV" "SI" "eV") = .ok o ∧
      ∃ w f, o.input = some w ∧ siOf toyConsts (inputLabel (only .velocity 1 none "eV" "SI" "eV") .velocity) = some f ∧
        w * f = inEv toyConsts "SI" .velocity 1 / siUnit toyConsts .velocity := by
  constructor
  · obtain ⟨o, ho⟩ := init_only toyConsts .momentum 3 none "eV" "SI" "eV" (.inl rfl) (.inr rfl) (.inl rfl)
    refine ⟨o, ho, fun h => ?_⟩
    have := (printed_input_iff toyConsts toyConsts_ok.1 (by norm_num [toyConsts]) (by norm_num [toyConsts]) _ .momentum 3 (by rfl) o ho).1 h
    simp [only] at this
  · obtain ⟨o, ho⟩ := init_only toyConsts .velocity 1 none "eV" "SI" "eV" (.inl rfl) (.inr rfl) (.inl rfl)
    exact ⟨o, ho, (printed_input_iff toyConsts toyConsts_ok.1 (by norm_num [toyConsts]) (by norm_num [toyConsts]) _ .velocity 1 (by rfl) o ho).2
      (.inr (.inr (by simp)))⟩

/-- A mass of 2 kg is named in kg. -/
example : ∃ f, siOf toyConsts (massLabel (only .gamma 2 (some 2) "SI" "eV" "eV")) = some f ∧ (2 : ℝ) * f = 16 * (1 / 8) := by
  obtain ⟨f, hf, h⟩ := mass_label toyConsts toyConsts_ok.1 (only .gamma 2 (some 2) "SI" "eV" "eV") ⟨.inr rfl, .inl rfl, .inl rfl⟩ 2 rfl
  refine ⟨f, hf, h.trans ?_⟩
  have hm : trueMassEv toyConsts (only .gamma 2 (some 2) "SI" "eV" "eV") = 16 := by
    norm_num [trueMassEv, only, toyConsts]
    decide
  rw [hm]
  norm_num [toyConsts]

end Verif.Kinematic
