import Verif.Kinematic.Props

/-!
# Properties C43 and C44 exactly: the reported mass and input, repeated calls
-/

namespace Verif.Kinematic

/-- **C43, the reported mass.** A mass that was given is reported as it was given (in the unit of its label) exactly if input and output unit are
the same. -/
theorem reported_mass_iff (k : Consts) (hk : k.Pos) (hne : k.c ^ 2 ≠ k.e) (a : Args) (m : ℝ) (hm : a.mass = some m) (hm0 : m ≠ 0)
    (o : Outputs) (hrun : run k a = .ok o) : o.mass = some m ↔ a.inputUnit = a.outputUnit := by
  have he := hk.e; have hc := hk.c
  have hcm : convMass k ≠ 0 := by unfold convMass; positivity
  have hcm1 : convMass k ≠ 1 := by
    unfold convMass
    intro h
    field_simp at h
    exact hne h
  obtain ⟨q, v, hq⟩ : ∃ q v, a.quantity q = some v := by
    have : ∃ cv, init k a = .ok cv := by
      unfold run at hrun
      cases h : init k a with
      | error e => rw [h] at hrun; cases hrun
      | ok cv => exact ⟨cv, rfl⟩
    obtain ⟨q, hq, -⟩ := ((init_ok_iff k a).1.1 this).2
    obtain ⟨v, hv⟩ := Option.ne_none_iff_exists'.mp hq
    exact ⟨q, v, hv⟩
  obtain ⟨hu, ho⟩ := run_eq k a o hrun q v hq
  have hrep : (massSetup k (convArgs k a)).2 = if a.inputUnit = "SI" then m * convMass k else m := by
    obtain ⟨h1, h2, -⟩ := convArgs_units k a
    unfold massSetup
    rw [h1, h2, convArgs_mass, hm]
    simp only [Option.map_some]
    split
    · rw [if_pos]
      split
      · exact mul_ne_zero hm0 hcm
      · exact hm0
    · rfl
  have key : o.mass = some (if a.outputUnit = "SI" then (if a.inputUnit = "SI" then m * convMass k else m) * (convMass k)⁻¹ else
      (if a.inputUnit = "SI" then m * convMass k else m)) := by
    rw [ho, hrep]
    split <;> rfl
  rw [key, Option.some_inj]
  obtain ⟨-, hui, huo⟩ := hu
  rcases hui with hui | hui <;> rcases huo with huo | huo <;> rw [hui, huo] <;> simp only [String.reduceEq, if_true, if_false, iff_true, iff_false]
  · intro h
    rw [mul_eq_left₀ hm0] at h
    exact hcm1 (inv_eq_one.1 h)
  · intro h
    rw [mul_eq_left₀ hm0] at h
    exact hcm1 h
  · field_simp

/-- **C43, the reported mass of the electron.** Without a mass the electron mass is reported in the unit of its label exactly if the output unit is eV. -/
theorem reported_electron_iff (k : Consts) (hk : k.Pos) (hne : k.c ^ 2 ≠ k.e) (a : Args) (hm : a.mass = none)
    (o : Outputs) (hrun : run k a = .ok o) : o.mass = some (if massLabel a = "kg" then k.meKg else k.meEv) ↔ a.outputUnit = "eV" := by
  have he := hk.e; have hc := hk.c; have h3 := hk.meEv; have h4 := hk.meKg
  have hcm : convMass k ≠ 0 := by unfold convMass; positivity
  have hcm1 : convMass k ≠ 1 := by
    unfold convMass
    intro h
    field_simp at h
    exact hne h
  obtain ⟨q, v, hq⟩ : ∃ q v, a.quantity q = some v := by
    have : ∃ cv, init k a = .ok cv := by
      unfold run at hrun
      cases h : init k a with
      | error e => rw [h] at hrun; cases hrun
      | ok cv => exact ⟨cv, rfl⟩
    obtain ⟨q, hq, -⟩ := ((init_ok_iff k a).1.1 this).2
    obtain ⟨v, hv⟩ := Option.ne_none_iff_exists'.mp hq
    exact ⟨q, v, hv⟩
  obtain ⟨hu, ho⟩ := run_eq k a o hrun q v hq
  have hrep : (massSetup k (convArgs k a)).2 = if massLabel a = "kg" then k.meKg else k.meEv := by
    obtain ⟨h1, -, -⟩ := convArgs_units k a
    unfold massSetup massLabel
    rw [h1, convArgs_mass, hm]
    by_cases h : a.massUnit = "eV"
    · simp [h]
    · simp only [h, if_false, Option.map_none, if_true]
      unfold Consts.evPerKg
      field_simp
  set M := if massLabel a = "kg" then k.meKg else k.meEv with hM
  have hM0 : M ≠ 0 := by rw [hM]; split <;> positivity
  have key : o.mass = some (if a.outputUnit = "SI" then M * (convMass k)⁻¹ else M) := by
    rw [ho, hrep]
    split <;> rfl
  rw [key, Option.some_inj]
  rcases hu.2.2 with huo | huo <;> rw [huo] <;> simp only [String.reduceEq, if_true, if_false, iff_false]
  intro h
  rw [mul_eq_left₀ hM0] at h
  exact hcm1 (inv_eq_one.1 h)

/-- **C43, the reported input.** What is reported as the input is the value in electron volt units, whatever its label says. -/
theorem reported_input_exact (k : Consts) (a : Args) (q : Quantity) (v : ℝ) (hq : a.quantity q = some v) (o : Outputs) (hrun : run k a = .ok o) :
    o.input = some (inEv k a.inputUnit q v) ∧ o.inputType = some q := by
  obtain ⟨-, ho⟩ := run_eq k a o hrun q v hq
  rw [ho]
  split <;> exact ⟨rfl, rfl⟩

/-- **C43, false for the reported input** for every energy and momentum that is given in SI units and not zero. -/
theorem reported_input_SI_fails (k : Consts) (a : Args) (q : Quantity) (v : ℝ) (hq : a.quantity q = some v) (hv : v ≠ 0) (hsi : a.inputUnit = "SI")
    (hqty : q = .energy ∨ q = .kenergy ∨ q = .momentum) (he : k.e ≠ 1) (hc : k.c ≠ k.e) (hk : k.Pos) (o : Outputs) (hrun : run k a = .ok o) :
    o.input ≠ some v := by
  rw [(reported_input_exact k a q v hq o hrun).1]
  have h0 := hk.e
  unfold inEv
  rw [if_pos hsi, Ne, Option.some_inj, mul_eq_left₀ hv]
  rcases hqty with rfl | rfl | rfl <;> simp only [siUnit] <;> intro h <;> field_simp at h
  · exact he h.symm
  · exact he h.symm
  · exact hc h

/-- **C44, false for SI output.** Call number `n + 1` of a converter with SI output gives the values of the first call times powers of the factors,
and the same for the rest. -/
theorem calls_SI_exact (k : Consts) (a : Args) (cv : Converter) (hi : init k a = .ok cv) (hout : a.outputUnit = "SI") (n : Nat) :
    (calls k (n + 1) cv).outputs =
      { (call k cv).outputs with
        momentum := (call k cv).outputs.momentum.map fun p => p * (1 / k.e * k.c)⁻¹ ^ n
        energy := (call k cv).outputs.energy.map fun E => E * (1 / k.e)⁻¹ ^ n
        kenergy := (call k cv).outputs.kenergy.map fun E => E * (1 / k.e)⁻¹ ^ n
        mass := (call k cv).outputs.mass.map fun m => m * (1 / k.e * k.c ^ 2)⁻¹ ^ n } := by
  obtain ⟨hu, hd, hcv⟩ := (init_eq_ok_iff k a cv).mp hi
  obtain ⟨q, v, hq⟩ : ∃ q v, a.quantity q = some v := by
    obtain ⟨q, hq, -⟩ := ((init_ok_iff k a).1.mp ⟨cv, hi⟩).2
    obtain ⟨v, hv⟩ := Option.ne_none_iff_exists'.mp hq
    exact ⟨q, v, hv⟩
  have hargs : cv.args = convArgs k a := by rw [hcv]; rfl
  have hq' : cv.args.quantity q = some (inEv k a.inputUnit q v) := by
    rw [hargs, convArgs_quantity, hq]; rfl
  have ho' : ∀ q', q' ≠ q → cv.args.quantity q' = none := by
    intro q' hne
    rw [hargs, convArgs_quantity, only_one hd hq q' hne]; rfl
  have hunit : cv.args.outputUnit = "SI" := by rw [hargs, (convArgs_units k a).2.2, hout]
  set w := inEv k a.inputUnit q v with hw
  set b := (start k cv.mass q w).1 with hb
  set g := (start k cv.mass q w).2 with hg
  -- every further call converts once more
  have hstep : ∀ c : Converter, c.args = cv.args → c.mass = cv.mass →
      call k c = { c with outputs := outputsToSI k { c.outputs with
        momentum := fill c.outputs.momentum (b * g * cv.mass), velocity := fill c.outputs.velocity (b * k.c)
        energy := fill c.outputs.energy (g * cv.mass), kenergy := fill c.outputs.kenergy (cv.mass * (g - 1))
        betagamma := fill c.outputs.betagamma (b * g), brho := fill c.outputs.brho (b * g * cv.mass / k.c)
        beta := some b, gamma := some g, input := some w, inputType := some q } } := by
    intro c hca hcm
    unfold call
    rw [fold_setBetaGamma k c q w (by rw [hca]; exact hq') (by intro q' hne; rw [hca]; exact ho' q' hne)]
    simp [hca, hcm, hunit, ← hb, ← hg]
  have hfirst := hstep cv rfl rfl
  have hnone : cv.outputs = ⟨none, none, none, none, none, none, none, none, some (massSetup k (convArgs k a)).2, none, none⟩ := by rw [hcv]; rfl
  have hall : ∀ n, ∀ c : Converter, c.args = cv.args → c.mass = cv.mass →
      c.outputs.beta = some b → c.outputs.gamma = some g → c.outputs.input = some w → c.outputs.inputType = some q →
      (∃ x, c.outputs.momentum = some x) → (∃ x, c.outputs.velocity = some x) → (∃ x, c.outputs.energy = some x) → (∃ x, c.outputs.kenergy = some x) →
      (∃ x, c.outputs.betagamma = some x) → (∃ x, c.outputs.brho = some x) → (∃ x, c.outputs.mass = some x) →
      (calls k n c).outputs = { c.outputs with
        momentum := c.outputs.momentum.map fun p => p * (1 / k.e * k.c)⁻¹ ^ n
        energy := c.outputs.energy.map fun E => E * (1 / k.e)⁻¹ ^ n
        kenergy := c.outputs.kenergy.map fun E => E * (1 / k.e)⁻¹ ^ n
        mass := c.outputs.mass.map fun m => m * (1 / k.e * k.c ^ 2)⁻¹ ^ n } := by
    intro n
    induction n with
    | zero => intro c _ _ _ _ _ _ _ _ _ _ _ _ _; simp [calls]
    | succ n ih =>
      rintro c hca hcm h1 h2 h3 h4 ⟨x1, m1⟩ ⟨x2, m2⟩ ⟨x3, m3⟩ ⟨x4, m4⟩ ⟨x5, m5⟩ ⟨x6, m6⟩ ⟨x7, m7⟩
      have hc := hstep c hca hcm
      have hco : (call k c).outputs = { c.outputs with
          momentum := c.outputs.momentum.map fun p => p * (1 / k.e * k.c)⁻¹
          energy := c.outputs.energy.map fun E => E * (1 / k.e)⁻¹
          kenergy := c.outputs.kenergy.map fun E => E * (1 / k.e)⁻¹
          mass := c.outputs.mass.map fun m => m * (1 / k.e * k.c ^ 2)⁻¹ } := by
        rw [hc]
        simp only [outputsToSI, fill, m1, m2, m3, m4, m5, m6, m7, h1, h2, h3, h4, convMass, Option.map_some]
      rw [calls, ih (call k c) hca hcm (by rw [hco]; exact h1) (by rw [hco]; exact h2) (by rw [hco]; exact h3) (by rw [hco]; exact h4)
        (by rw [hco]; simp [m1]) (by rw [hco]; simp [m2]) (by rw [hco]; simp [m3]) (by rw [hco]; simp [m4]) (by rw [hco]; simp [m5])
        (by rw [hco]; simp [m6]) (by rw [hco]; simp [m7]), hco]
      simp only [m1, m3, m4, m7, Option.map_some, pow_succ]
      congr 2 <;> ring
  rw [calls]
  refine hall n (call k cv) rfl rfl ?_ ?_ ?_ ?_ ?_ ?_ ?_ ?_ ?_ ?_ ?_ <;> rw [hfirst, hnone] <;> simp [outputsToSI, fill]

/-- A mass in eV with SI output: the number differs from the one given. -/
example : ∃ o, run toyConsts (only .gamma 2 (some 8) "eV" "eV" "SI") = .ok o ∧ o.mass ≠ some 8 := by
  obtain ⟨o, ho⟩ := init_only toyConsts .gamma 2 (some 8) "eV" "eV" "SI" (.inl rfl) (.inl rfl) (.inr rfl)
  refine ⟨o, ho, fun h => ?_⟩
  have := (reported_mass_iff toyConsts toyConsts_ok.1 (by norm_num [toyConsts]) _ 8 rfl (by norm_num) o ho).1 h
  simp [only] at this

example : ∃ o, run toyConsts (only .energy 10 (some 2) "SI" "SI" "SI") = .ok o ∧ o.mass = some 2 ∧ o.input ≠ some 10 := by
  obtain ⟨o, ho⟩ := init_only toyConsts .energy 10 (some 2) "SI" "SI" "SI" (.inr rfl) (.inr rfl) (.inr rfl)
  exact ⟨o, ho, (reported_mass_iff toyConsts toyConsts_ok.1 (by norm_num [toyConsts]) _ 2 rfl (by norm_num) o ho).2 rfl,
    reported_input_SI_fails toyConsts _ .energy 10 rfl (by norm_num) rfl (.inl rfl) (by norm_num [toyConsts]) (by norm_num [toyConsts]) toyConsts_ok.1 o ho⟩

example : ∃ o, run toyConsts (only .gamma 2 none "SI" "eV" "eV") = .ok o ∧ o.mass = some 1 := by
  obtain ⟨o, ho⟩ := init_only toyConsts .gamma 2 none "SI" "eV" "eV" (.inr rfl) (.inl rfl) (.inl rfl)
  refine ⟨o, ho, ?_⟩
  have := (reported_electron_iff toyConsts toyConsts_ok.1 (by norm_num [toyConsts]) _ rfl o ho).2 rfl
  rw [this]
  norm_num [massLabel, only, toyConsts]
  decide

/-- The energy shrinks from call to call. -/
example : ∃ cv, init toyConsts (only .gamma 2 none "eV" "eV" "SI") = .ok cv ∧
    (calls toyConsts 4 cv).outputs.energy = (call toyConsts cv).outputs.energy.map fun E => E * (1 / 2) ^ 3 := by
  have hinit := (init_eq_ok_iff toyConsts (only .gamma 2 none "eV" "eV" "SI") _).mpr
    ⟨by simp [UnitsOk, only], by simp [declaration, allQuantities, only, List.filter], rfl⟩
  refine ⟨_, hinit, ?_⟩
  rw [calls_SI_exact toyConsts _ _ hinit rfl 3]
  norm_num [toyConsts]

end Verif.Kinematic
