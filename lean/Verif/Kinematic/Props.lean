import Verif.Kinematic.Lemmas

/-!
# Properties C41-C45: `rsbeams.rsstats.kinematic.Converter`
-/

namespace Verif.Kinematic

/-- **C42 (and the value half of C43).** For every input quantity with a physical value,
every mass and every choice of the three units, the dictionary returned by
`Converter(...)()` shows, in the requested output unit, a state that satisfies all
relations of special relativity for the true mass, and that state is the one described by
the input. -/
theorem converter_physical (k : Consts) (hk : k.Pos) (hcons : k.Consistent) (a : Args)
    (q : Quantity) (v : ℝ) (hq : a.quantity q = some v)
    (hm : ∀ m, a.mass = some m → 0 < m)
    (hv : Valid k.c (trueMassEv k a) q (inEv k a.inputUnit q v))
    (o : Outputs) (hrun : run k a = .ok o) :
    ∃ s : State, s.Physical k.c (trueMassEv k a) ∧ Shows k a.outputUnit o s ∧
      s.get q = inEv k a.inputUnit q v := by
  obtain ⟨hu, ho⟩ := run_eq k a o hrun q v hq
  have hm0 : a.mass ≠ some 0 := fun h => lt_irrefl _ (hm 0 h)
  have hmass := massSetup_eq k hk hcons a hu hm0
  have hpos : 0 < trueMassEv k a := by
    unfold trueMassEv
    have he := hk.e; have hc := hk.c
    cases hmm : a.mass with
    | none => exact hk.meEv
    | some m =>
      have := hm m hmm
      simp only
      split <;> positivity
  obtain ⟨h1, h2, h3, h4⟩ := start_ok k hk hpos q _ hv
  refine ⟨cvState k (trueMassEv k a) q (inEv k a.inputUnit q v),
    mkState_physical hk.c h1 h2 h3, ?_, h4⟩
  rw [ho, hmass]
  rcases hu.2.2 with h | h
  · rw [h]; simpa using shows_eV k _ _ q _
  · rw [h]; simpa using shows_SI k hk _ _ q _

/-- **C41.** Converting with the same input and output unit gives the input value back,
for each of the eight quantities. -/
theorem converter_roundtrip (k : Consts) (hk : k.Pos) (hcons : k.Consistent) (a : Args)
    (q : Quantity) (v : ℝ) (hq : a.quantity q = some v)
    (hm : ∀ m, a.mass = some m → 0 < m)
    (hv : Valid k.c (trueMassEv k a) q (inEv k a.inputUnit q v))
    (hunit : a.outputUnit = a.inputUnit)
    (o : Outputs) (hrun : run k a = .ok o) : o.get q = some v := by
  obtain ⟨s, -, hs, hget⟩ := converter_physical k hk hcons a q v hq hm hv o hrun
  obtain ⟨w, hw, hw'⟩ := hs q
  rw [hw]
  rw [hget, hunit] at hw'
  have he := hk.e; have hc := hk.c
  unfold inEv at hw'
  split at hw'
  · have : siUnit k q ≠ 0 := by cases q <;> simp only [siUnit] <;> positivity
    rw [mul_left_inj' this] at hw'
    rw [hw']
  · rw [hw']

/-- **C43, inputs.** The same physical input and mass given in SI or in eV units lead to the
same `beta` and `gamma`. `a` and `b` may differ in all units; what counts is that they
describe the same value and the same mass. -/
theorem converter_unit_independent (k : Consts) (hk : k.Pos) (hcons : k.Consistent)
    (a b : Args) (q : Quantity) (v w : ℝ) (ha : a.quantity q = some v) (hb : b.quantity q = some w)
    (hma : a.mass ≠ some 0) (hmb : b.mass ≠ some 0)
    (hsameMass : trueMassEv k a = trueMassEv k b)
    (hsameValue : inEv k a.inputUnit q v = inEv k b.inputUnit q w)
    (oa ob : Outputs) (hra : run k a = .ok oa) (hrb : run k b = .ok ob) :
    oa.beta = ob.beta ∧ oa.gamma = ob.gamma := by
  obtain ⟨hua, hoa⟩ := run_eq k a oa hra q v ha
  obtain ⟨hub, hob⟩ := run_eq k b ob hrb q w hb
  rw [hoa, hob, massSetup_eq k hk hcons a hua hma, massSetup_eq k hk hcons b hub hmb,
    hsameMass, hsameValue]
  constructor <;> (split <;> split <;> rfl)

/-- **C45.** The constructor succeeds exactly when the three unit names are `eV` or `SI` and
exactly one quantity is given; otherwise it raises `AssertionError`. -/
theorem init_ok_iff (k : Consts) (a : Args) :
    ((∃ cv, init k a = .ok cv) ↔
      (∀ u ∈ [a.massUnit, a.inputUnit, a.outputUnit], u = "eV" ∨ u = "SI") ∧
        ∃! q, a.quantity q ≠ none) ∧
    (∀ err, init k a = .error err → err = .assertionError) := by
  have hdecl : declaration a = 1 ↔ ∃! q, a.quantity q ≠ none := by
    constructor
    · intro h
      have h' := h
      unfold declaration at h'
      obtain ⟨x, hx⟩ := List.length_eq_one_iff.mp h'
      have hxm : x ∈ List.filter (fun q => (a.quantity q).isSome) allQuantities := by rw [hx]; simp
      rw [List.mem_filter] at hxm
      obtain ⟨v, hv⟩ := Option.isSome_iff_exists.mp hxm.2
      refine ⟨x, by simp [hv], ?_⟩
      intro y hy
      by_contra hne
      exact hy (only_one h hv y hne)
    · rintro ⟨x, hx, huniq⟩
      have hn : ∀ y, y ≠ x → (a.quantity y).isSome = false := by
        intro y hy
        by_contra hc
        apply hy
        apply huniq
        intro hnone
        rw [hnone] at hc
        simp at hc
      have hs : (a.quantity x).isSome = true := by
        cases h : a.quantity x with
        | none => exact absurd h hx
        | some v => rfl
      unfold declaration allQuantities
      cases x <;> simp [List.filter, hs, hn]
  constructor
  · constructor
    · rintro ⟨cv, h⟩
      obtain ⟨hu, hd, -⟩ := (init_eq_ok_iff k a cv).mp h
      refine ⟨?_, hdecl.mp hd⟩
      unfold UnitsOk at hu
      simpa using hu
    · rintro ⟨hu, hd⟩
      refine ⟨_, (init_eq_ok_iff k a _).mpr ⟨?_, hdecl.mpr hd, rfl⟩⟩
      unfold UnitsOk
      simpa using hu
  · intro err h
    unfold init at h
    split at h
    · injection h with h; exact h.symm
    · split at h
      · injection h with h; exact h.symm
      · cases h

/-- **C44, eV output.** A converter with `output_unit='eV'` returns the same dictionary on
every call. -/
theorem calls_idempotent_partial (k : Consts) (a : Args) (cv : Converter) (hi : init k a = .ok cv)
    (hout : a.outputUnit = "eV") (n : Nat) :
    (calls k (n + 1) cv).outputs = (call k cv).outputs := by
  obtain ⟨hu, hd, hcv⟩ := (init_eq_ok_iff k a cv).mp hi
  have hex : ∃ q v, a.quantity q = some v := by
    have h := (init_ok_iff k a).1.mp ⟨cv, hi⟩
    obtain ⟨q, hq, -⟩ := h.2
    obtain ⟨v, hv⟩ := Option.ne_none_iff_exists'.mp hq
    exact ⟨q, v, hv⟩
  obtain ⟨q, v, hq⟩ := hex
  have hargs : cv.args = convArgs k a := by rw [hcv]; rfl
  have hq' : cv.args.quantity q = some (inEv k a.inputUnit q v) := by
    rw [hargs, convArgs_quantity, hq]; rfl
  have ho' : ∀ q', q' ≠ q → cv.args.quantity q' = none := by
    intro q' hne
    rw [hargs, convArgs_quantity, only_one hd hq q' hne]; rfl
  have hunit : cv.args.outputUnit = "eV" := by rw [hargs, (convArgs_units k a).2.2, hout]
  have hfirst : (call k cv).args = cv.args ∧ (call k cv).mass = cv.mass := ⟨rfl, rfl⟩
  -- a second call leaves the first result unchanged
  have hfix : call k (call k cv) = call k cv := by
    have h1 : ∀ c : Converter, c.args = cv.args → c.mass = cv.mass → call k c =
        { c with outputs := { c.outputs with
            momentum := fill c.outputs.momentum ((start k cv.mass q (inEv k a.inputUnit q v)).1 *
              (start k cv.mass q (inEv k a.inputUnit q v)).2 * cv.mass)
            velocity := fill c.outputs.velocity ((start k cv.mass q (inEv k a.inputUnit q v)).1 * k.c)
            energy := fill c.outputs.energy ((start k cv.mass q (inEv k a.inputUnit q v)).2 * cv.mass)
            kenergy := fill c.outputs.kenergy
              (cv.mass * ((start k cv.mass q (inEv k a.inputUnit q v)).2 - 1))
            betagamma := fill c.outputs.betagamma ((start k cv.mass q (inEv k a.inputUnit q v)).1 *
              (start k cv.mass q (inEv k a.inputUnit q v)).2)
            brho := fill c.outputs.brho ((start k cv.mass q (inEv k a.inputUnit q v)).1 *
              (start k cv.mass q (inEv k a.inputUnit q v)).2 * cv.mass / k.c)
            beta := some (start k cv.mass q (inEv k a.inputUnit q v)).1
            gamma := some (start k cv.mass q (inEv k a.inputUnit q v)).2
            input := some (inEv k a.inputUnit q v)
            inputType := some q } } := by
      intro c hca hcm
      unfold call
      rw [fold_setBetaGamma k c q (inEv k a.inputUnit q v) (by rw [hca]; exact hq')
        (by intro q' hne; rw [hca]; exact ho' q' hne)]
      simp [hca, hcm, hunit]
    rw [h1 (call k cv) rfl rfl, h1 cv rfl rfl]
    simp only [fill]
    cases cv.outputs.momentum <;> cases cv.outputs.velocity <;> cases cv.outputs.energy <;>
      cases cv.outputs.kenergy <;> cases cv.outputs.betagamma <;> cases cv.outputs.brho <;> rfl
  have hall : ∀ n, calls k n (call k cv) = call k cv := by
    intro n
    induction n with
    | zero => rfl
    | succ n ih => rw [calls, hfix, ih]
  rw [calls, hall]

/-- Arguments giving only `q = v`, default units unless stated. -/
def only (q : Quantity) (v : ℝ) (mass : Option ℝ) (mu iu ou : String) : Args :=
  { quantity := fun q' => if q' = q then some v else none, mass := mass, massUnit := mu,
    inputUnit := iu, outputUnit := ou }

/-- Constants with `c = 2`, `e = 1/2`, electron mass 1 kg = 8 eV: positive and consistent,
small numbers for witnesses. -/
noncomputable def toyConsts : Consts := { e := 1 / 2, c := 2, meEv := 8, meKg := 1 }

theorem toyConsts_ok : toyConsts.Pos ∧ toyConsts.Consistent := by
  constructor
  · constructor <;> norm_num [toyConsts]
  · norm_num [Consts.Consistent, toyConsts]

theorem init_only (k : Consts) (q : Quantity) (v : ℝ) (mass : Option ℝ) (mu iu ou : String)
    (h1 : mu = "eV" ∨ mu = "SI") (h2 : iu = "eV" ∨ iu = "SI") (h3 : ou = "eV" ∨ ou = "SI") :
    ∃ o, run k (only q v mass mu iu ou) = .ok o := by
  obtain ⟨cv, h⟩ := (init_ok_iff k (only q v mass mu iu ou)).1.mpr
    ⟨by simp [only, h1, h2, h3], ⟨q, by simp [only], fun y hy => by
      by_contra hne; exact hy (by simp [only, hne])⟩⟩
  exact ⟨(call k cv).outputs, by unfold run; rw [h]; rfl⟩

/-- **C44 fails for SI output.** Two calls on the same object return different energies. -/
theorem calls_SI_fails : ∃ (k : Consts) (a : Args) (cv : Converter), k.Pos ∧ k.Consistent ∧
    init k a = .ok cv ∧ (calls k 1 cv).outputs.energy ≠ (calls k 2 cv).outputs.energy := by
  have hinit := (init_eq_ok_iff toyConsts (only .gamma 2 none "eV" "eV" "SI") _).mpr
    ⟨by simp [UnitsOk, only], by
      simp [declaration, allQuantities, only, List.filter], rfl⟩
  refine ⟨toyConsts, _, _, toyConsts_ok.1, toyConsts_ok.2, hinit, ?_⟩
  simp [calls, call, allQuantities, setBetaGamma, only, outputsToSI, fill, toyConsts, massSetup,
    start]

/-- **C43 fails for the reported mass.** With input in eV and output in SI, the returned
`mass` is in kg while its label says `eV/c^2`: the reported number differs from the mass in
the labelled unit. -/
theorem reported_mass_fails : ∃ (k : Consts) (a : Args) (o : Outputs), k.Pos ∧ k.Consistent ∧
    run k a = .ok o ∧ massLabel a = "eV/c^2" ∧ o.mass ≠ some (trueMassEv k a) := by
  obtain ⟨o, ho⟩ := init_only toyConsts .gamma 2 (some 8) "eV" "eV" "SI" (by simp) (by simp) (by simp)
  refine ⟨toyConsts, _, o, toyConsts_ok.1, toyConsts_ok.2, ho, by simp [massLabel, only], ?_⟩
  obtain ⟨-, h⟩ := run_eq toyConsts _ o ho .gamma 2 (by simp [only])
  rw [h]
  simp [only, outputsToSI, rawOutputs, convArgs, massSetup, trueMassEv, convMass, toyConsts]
  norm_num

/-- **C43 fails for the reported input.** With an energy given in joules the returned `input`
is the value in eV while its label says `J`. -/
theorem reported_input_fails : ∃ (k : Consts) (a : Args) (o : Outputs) (v : ℝ), k.Pos ∧
    k.Consistent ∧ a.quantity .energy = some v ∧ run k a = .ok o ∧
    inputLabel a .energy = "J" ∧ o.input ≠ some v := by
  obtain ⟨o, ho⟩ := init_only toyConsts .energy 10 none "eV" "SI" "SI" (by simp) (by simp) (by simp)
  refine ⟨toyConsts, _, o, 10, toyConsts_ok.1, toyConsts_ok.2, by simp [only], ho,
    by simp [inputLabel, only], ?_⟩
  obtain ⟨-, h⟩ := run_eq toyConsts _ o ho .energy 10 (by simp [only])
  rw [h]
  simp [only, outputsToSI, rawOutputs, inEv, siUnit, toyConsts]

/-- **C41 fails for a zero mass given in eV**: `mass=0` is silently replaced by the electron
mass (kinematic.py:121), so the returned energy is not that of a massless particle. -/
theorem zero_mass_replaced (k : Consts) (v : ℝ) :
    (massSetup k (only .momentum v (some 0) "eV" "eV" "eV")).1 = k.meEv := by
  simp [massSetup, only]

/-- The hypotheses of C41-C43 are satisfiable with every quantity, in mixed units. -/
example : ∃ o, run toyConsts (only .energy 10 (some 2) "SI" "SI" "SI") = .ok o ∧
    o.get .energy = some 10 := by
  obtain ⟨o, ho⟩ := init_only toyConsts .energy 10 (some 2) "SI" "SI" "SI" (by simp) (by simp) (by simp)
  refine ⟨o, ho, ?_⟩
  refine converter_roundtrip toyConsts toyConsts_ok.1 toyConsts_ok.2 _ .energy 10 (by simp [only])
    ?_ ?_ rfl o ho
  · intro m hm; simp [only] at hm; linarith
  · simp [Valid, trueMassEv, only, inEv, siUnit, toyConsts]; norm_num

example : Valid 3 1 .velocity (-2) ∧ Valid 3 1 .beta (1 / 2) ∧ Valid 3 1 .gamma 1 ∧
    Valid 3 1 .kenergy 0 ∧ Valid 3 1 .momentum (-7) := by
  refine ⟨?_, ?_, ?_, ?_, trivial⟩ <;> simp [Valid] <;> norm_num [abs_lt]

/-- An energy of 10 J of a particle of 2 kg, with all constants known. -/
example : ∃ o s, run toyConsts (only .energy 10 (some 2) "SI" "SI" "eV") = .ok o ∧ State.Physical 2 16 s ∧
    Shows toyConsts "eV" o s ∧ s.energy = 20 := by
  obtain ⟨o, ho⟩ := init_only toyConsts .energy 10 (some 2) "SI" "SI" "eV" (.inr rfl) (.inr rfl) (.inl rfl)
  have hm : trueMassEv toyConsts (only .energy 10 (some 2) "SI" "SI" "eV") = 16 := by
    norm_num [trueMassEv, only, toyConsts]
    decide
  have hv : inEv toyConsts "SI" .energy 10 = 20 := by norm_num [inEv, siUnit, toyConsts]
  obtain ⟨s, h1, h2, h3⟩ := converter_physical toyConsts toyConsts_ok.1 toyConsts_ok.2 _ .energy 10 (by rfl)
    (by intro m h; cases h; norm_num) (by rw [hm]; change (16 : ℝ) ≤ inEv toyConsts "SI" .energy 10; rw [hv]; norm_num) o ho
  rw [hm] at h1
  exact ⟨o, s, ho, h1, h2, h3.trans hv⟩

/-- The same energy given in J and in eV. -/
example : ∃ o o', run toyConsts (only .energy 10 (some 2) "SI" "SI" "eV") = .ok o ∧
    run toyConsts (only .energy 20 (some 16) "eV" "eV" "SI") = .ok o' ∧ o.beta = o'.beta ∧ o.gamma = o'.gamma := by
  obtain ⟨o, ho⟩ := init_only toyConsts .energy 10 (some 2) "SI" "SI" "eV" (.inr rfl) (.inr rfl) (.inl rfl)
  obtain ⟨o', ho'⟩ := init_only toyConsts .energy 20 (some 16) "eV" "eV" "SI" (.inl rfl) (.inl rfl) (.inr rfl)
  exact ⟨o, o', ho, ho', converter_unit_independent toyConsts toyConsts_ok.1 toyConsts_ok.2 _ _ .energy 10 20 (by rfl) (by rfl)
    (by simp [only]) (by simp [only]) (by norm_num [trueMassEv, only, toyConsts]; decide) (by norm_num [inEv, siUnit, only, toyConsts]; decide) o o' ho ho'⟩

example : ∃ cv, init toyConsts (only .energy 10 (some 2) "SI" "SI" "eV") = .ok cv ∧
    (calls toyConsts 3 cv).outputs = (call toyConsts cv).outputs := by
  obtain ⟨cv, h⟩ := (init_ok_iff toyConsts (only .energy 10 (some 2) "SI" "SI" "eV")).1.2 ⟨by simp [only], .energy, by simp [only],
    by intro q hq; cases q <;> simp_all [only]⟩
  exact ⟨cv, h, calls_idempotent_partial toyConsts _ cv h rfl 2⟩

end Verif.Kinematic
