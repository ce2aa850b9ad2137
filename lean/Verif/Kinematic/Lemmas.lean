import Mathlib.Tactic.FieldSimp
import Mathlib.Tactic.Ring
import Mathlib.Tactic.LinearCombination
import Mathlib.Tactic.Linarith
import Mathlib.Tactic.NormNum
import Mathlib.Tactic.Positivity
import Verif.Kinematic.Spec

namespace Verif.Kinematic

/-- Any `(beta, gamma)` pair satisfying the Lorentz relation gives a physical state. -/
noncomputable def mkState (c m b g : ℝ) : State :=
  { beta := b, gamma := g, momentum := b * g * m, velocity := b * c, energy := g * m,
    kenergy := m * (g - 1), betagamma := b * g, brho := b * g * m / c }

theorem mkState_physical {c m b g : ℝ} (hc : 0 < c) (hg : 1 ≤ g) (hb : |b| < 1)
    (hl : g ^ 2 * (1 - b ^ 2) = 1) : (mkState c m b g).Physical c m where
  gamma_ge := hg
  beta_lt := hb
  lorentz := hl
  mass_shell := by simp only [mkState]; linear_combination (m ^ 2) * hl
  energy_gamma := by simp only [mkState]; ring
  energy_split := by simp only [mkState]; ring
  momentum_bg := by simp only [mkState]; ring
  bg := rfl
  velocity_beta := rfl
  rigidity := by simp only [mkState]; field_simp

theorem lorentz_of_beta {b : ℝ} (hb : |b| < 1) :
    1 ≤ 1 / Real.sqrt (1 - b ^ 2) ∧ (1 / Real.sqrt (1 - b ^ 2)) ^ 2 * (1 - b ^ 2) = 1 := by
  have h1 : b ^ 2 < 1 := by
    have := sq_abs b
    nlinarith [abs_nonneg b]
  have h2 : 0 < 1 - b ^ 2 := by linarith
  have hs : 0 < Real.sqrt (1 - b ^ 2) := Real.sqrt_pos.mpr h2
  constructor
  · rw [le_div_iff₀ hs, one_mul]
    have : Real.sqrt (1 - b ^ 2) ≤ Real.sqrt 1 := Real.sqrt_le_sqrt (by nlinarith [sq_nonneg b])
    simpa using this
  · rw [div_pow, Real.sq_sqrt h2.le]
    field_simp

theorem lorentz_of_gamma {g : ℝ} (hg : 1 ≤ g) :
    |Real.sqrt (1 - 1 / g ^ 2)| < 1 ∧ g ^ 2 * (1 - Real.sqrt (1 - 1 / g ^ 2) ^ 2) = 1 := by
  have h0 : 0 < g := by linarith
  have h2 : 0 < 1 / g ^ 2 := by positivity
  have h1 : 0 ≤ 1 - 1 / g ^ 2 := by
    have : 1 / g ^ 2 ≤ 1 := by
      rw [div_le_one (by positivity)]
      nlinarith
    linarith
  constructor
  · rw [abs_of_nonneg (Real.sqrt_nonneg _)]
    rw [show (1 : ℝ) = Real.sqrt 1 by simp]
    apply Real.sqrt_lt_sqrt
    · simpa using h1
    · simp
      positivity
  · rw [Real.sq_sqrt h1]
    field_simp
    ring

theorem beta_of_bg (n : ℝ) :
    |n / Real.sqrt (1 + n ^ 2)| < 1 ∧
      n / Real.sqrt (1 + n ^ 2) * (1 / Real.sqrt (1 - (n / Real.sqrt (1 + n ^ 2)) ^ 2)) = n := by
  have hp : 0 < 1 + n ^ 2 := by positivity
  have hs : 0 < Real.sqrt (1 + n ^ 2) := Real.sqrt_pos.mpr hp
  constructor
  · rw [abs_div, abs_of_pos hs, div_lt_one hs]
    rw [← Real.sqrt_sq_eq_abs]
    exact Real.sqrt_lt_sqrt (sq_nonneg _) (by linarith)
  · have h : 1 - (n / Real.sqrt (1 + n ^ 2)) ^ 2 = (1 / Real.sqrt (1 + n ^ 2)) ^ 2 := by
      rw [div_pow, div_pow, Real.sq_sqrt hp.le]
      field_simp
      ring
    rw [h, Real.sqrt_sq (by positivity)]
    field_simp

/-- Main fact on the `start_*` methods. -/
theorem start_ok (k : Consts) (hk : k.Pos) {m : ℝ} (hm : 0 < m) (q : Quantity) (v : ℝ)
    (hv : Valid k.c m q v) :
    1 ≤ (start k m q v).2 ∧ |(start k m q v).1| < 1 ∧
      (start k m q v).2 ^ 2 * (1 - (start k m q v).1 ^ 2) = 1 ∧
      (mkState k.c m (start k m q v).1 (start k m q v).2).get q = v := by
  have hc := hk.c
  cases q with
  | velocity =>
    simp only [Valid] at hv
    have hb : |v / k.c| < 1 := by rw [abs_div, abs_of_pos hc, div_lt_one hc]; exact hv
    have := lorentz_of_beta hb
    refine ⟨this.1, hb, this.2, ?_⟩
    simp only [start, mkState, State.get]; field_simp
  | beta =>
    have := lorentz_of_beta hv
    exact ⟨this.1, hv, this.2, rfl⟩
  | gamma =>
    have := lorentz_of_gamma hv
    exact ⟨hv, this.1, this.2, rfl⟩
  | energy =>
    simp only [Valid] at hv
    have hg : 1 ≤ v / m := by rw [le_div_iff₀ hm]; linarith
    have := lorentz_of_gamma hg
    refine ⟨hg, this.1, this.2, ?_⟩
    simp only [start, mkState, State.get]; field_simp
  | kenergy =>
    simp only [Valid] at hv
    have hg : 1 ≤ v / m + 1 := by have : 0 ≤ v / m := by positivity
                                  linarith
    have := lorentz_of_gamma hg
    refine ⟨hg, this.1, this.2, ?_⟩
    simp only [start, mkState, State.get]; field_simp; ring
  | betagamma =>
    have h := beta_of_bg v
    have := lorentz_of_beta h.1
    exact ⟨this.1, h.1, this.2, h.2⟩
  | momentum =>
    have h := beta_of_bg (v / m)
    have h2 := lorentz_of_beta h.1
    refine ⟨h2.1, h.1, h2.2, ?_⟩
    simp only [start, startMomentum, mkState, State.get]
    rw [h.2]; field_simp
  | brho =>
    have h := beta_of_bg (v * k.c / m)
    have h2 := lorentz_of_beta h.1
    refine ⟨h2.1, h.1, h2.2, ?_⟩
    simp only [start, startMomentum, mkState, State.get]
    rw [h.2]; field_simp

/-- Units are checked by the constructor. -/
def UnitsOk (a : Args) : Prop :=
  (a.massUnit = "eV" ∨ a.massUnit = "SI") ∧ (a.inputUnit = "eV" ∨ a.inputUnit = "SI")
    ∧ (a.outputUnit = "eV" ∨ a.outputUnit = "SI")

theorem init_eq_ok_iff (k : Consts) (a : Args) (cv : Converter) :
    init k a = .ok cv ↔ UnitsOk a ∧ declaration a = 1 ∧
      cv = { args := if a.inputUnit = "SI" then argsFromSI k a else a
             mass := (massSetup k (if a.inputUnit = "SI" then argsFromSI k a else a)).1
             outputs := { momentum := none, velocity := none, energy := none, kenergy := none,
                          betagamma := none, brho := none, beta := none, gamma := none,
                          mass := some (massSetup k (if a.inputUnit = "SI" then argsFromSI k a else a)).2
                          input := none, inputType := none } } := by
  unfold init
  by_cases h1 : UnitsOk a
  · have h1' := h1
    unfold UnitsOk at h1'
    rw [if_neg (not_not.mpr h1')]
    by_cases h2 : declaration a = 1
    · rw [if_neg (by simpa using h2)]
      constructor
      · intro h
        injection h with h
        exact ⟨h1, h2, h.symm⟩
      · rintro ⟨-, -, rfl⟩; rfl
    · rw [if_pos h2]
      constructor
      · intro h; cases h
      · rintro ⟨-, h, -⟩; exact absurd h h2
  · have h1' := h1
    unfold UnitsOk at h1'
    rw [if_pos h1']
    constructor
    · intro h; cases h
    · rintro ⟨h, -, -⟩; exact absurd h h1

/-- With exactly one quantity given, the others are `None`. -/
theorem only_one {a : Args} (h : declaration a = 1) {q : Quantity} {v : ℝ}
    (hq : a.quantity q = some v) (q' : Quantity) (hne : q' ≠ q) : a.quantity q' = none := by
  by_contra hsome
  obtain ⟨v', hv'⟩ := Option.ne_none_iff_exists'.mp hsome
  unfold declaration allQuantities at h
  have key : ∀ x, (a.quantity x).isSome = true → (List.filter (fun q => (a.quantity q).isSome)
      [Quantity.momentum, .velocity, .energy, .kenergy, .betagamma, .brho, .beta, .gamma]) = [x] := by
    intro x hx
    obtain ⟨y, hy⟩ := List.length_eq_one_iff.mp h
    have : x ∈ List.filter (fun q => (a.quantity q).isSome)
      [Quantity.momentum, .velocity, .energy, .kenergy, .betagamma, .brho, .beta, .gamma] := by
      rw [List.mem_filter]
      exact ⟨by cases x <;> simp, hx⟩
    rw [hy] at this ⊢
    simp only [List.mem_singleton] at this
    rw [this]
  have e1 := key q (by simp [hq])
  have e2 := key q' (by simp [hv'])
  rw [e1] at e2
  injection e2 with e2
  exact hne e2.symm

/-- The state that the converter computes. -/
noncomputable def cvState (k : Consts) (m : ℝ) (q : Quantity) (v : ℝ) : State :=
  mkState k.c m (start k m q v).1 (start k m q v).2

theorem fold_setBetaGamma (k : Consts) (cv : Converter) (q : Quantity) (v : ℝ)
    (hq : cv.args.quantity q = some v) (ho : ∀ q', q' ≠ q → cv.args.quantity q' = none)
    (o : Outputs) :
    allQuantities.foldl (setBetaGamma k cv) o =
      { o with input := some v, inputType := some q, beta := some (start k cv.mass q v).1
               gamma := some (start k cv.mass q v).2 } := by
  have hn : ∀ q', q' ≠ q → ∀ o, setBetaGamma k cv o q' = o := by
    intro q' h o; unfold setBetaGamma; rw [ho q' h]
  have hs : ∀ o, setBetaGamma k cv o q =
      { o with input := some v, inputType := some q, beta := some (start k cv.mass q v).1
               gamma := some (start k cv.mass q v).2 } := by
    intro o; unfold setBetaGamma; rw [hq]
  unfold allQuantities
  simp only [List.foldl]
  cases q <;> simp only [hn, hs, ne_eq, reduceCtorEq, not_false_eq_true]

/-- The dictionary returned by the first call, in electron volt units before conversion. -/
noncomputable def rawOutputs (k : Consts) (m rep : ℝ) (q : Quantity) (v : ℝ) : Outputs :=
  let s := cvState k m q v
  { momentum := some s.momentum, velocity := some s.velocity, energy := some s.energy
    kenergy := some s.kenergy, betagamma := some s.betagamma, brho := some s.brho
    beta := some s.beta, gamma := some s.gamma, mass := some rep, input := some v
    inputType := some q }

/-- The argument dictionary after the constructor. -/
noncomputable def convArgs (k : Consts) (a : Args) : Args :=
  if a.inputUnit = "SI" then argsFromSI k a else a

theorem convArgs_quantity (k : Consts) (a : Args) (q : Quantity) :
    (convArgs k a).quantity q = (a.quantity q).map (inEv k a.inputUnit q) := by
  unfold convArgs inEv
  split
  · simp only [argsFromSI]
    congr 1
    funext v
    cases q <;> simp [convFactor, siUnit]
    · left; ring
  · simp

theorem convArgs_mass (k : Consts) (a : Args) :
    (convArgs k a).mass = a.mass.map (fun m => if a.inputUnit = "SI" then m * convMass k else m) := by
  unfold convArgs
  split
  · simp [argsFromSI]
  · simp

theorem convArgs_units (k : Consts) (a : Args) :
    (convArgs k a).massUnit = a.massUnit ∧ (convArgs k a).inputUnit = a.inputUnit ∧
      (convArgs k a).outputUnit = a.outputUnit := by
  unfold convArgs; split <;> simp [argsFromSI]

theorem evPerKg_eq (k : Consts) (hk : k.Pos) (hcons : k.Consistent) :
    k.evPerKg = k.c ^ 2 / k.e := by
  have h1 := hk.meKg; have h2 := hk.e
  unfold Consts.evPerKg
  unfold Consts.Consistent at hcons
  rw [div_eq_div_iff h1.ne' h2.ne']; linarith

/-- The internal mass is the mass in eV, whatever units were used. -/
theorem massSetup_eq (k : Consts) (hk : k.Pos) (hcons : k.Consistent) (a : Args) (hu : UnitsOk a)
    (hm : a.mass ≠ some 0) : (massSetup k (convArgs k a)).1 = trueMassEv k a := by
  obtain ⟨h1, h2, h3⟩ := convArgs_units k a
  have hE := evPerKg_eq k hk hcons
  have he := hk.e; have hc := hk.c
  have hE0 : k.evPerKg ≠ 0 := by rw [hE]; positivity
  obtain ⟨hum, hui, -⟩ := hu
  unfold massSetup trueMassEv
  rw [h1, h2, convArgs_mass]
  cases hmm : a.mass with
  | none => simp only [Option.map_none]; split <;> rfl
  | some m =>
    have hm0 : m ≠ 0 := by intro h; apply hm; rw [hmm, h]
    have hcm : convMass k ≠ 0 := by unfold convMass; positivity
    rcases hum with hum | hum <;> rcases hui with hui | hui <;>
      simp only [hum, hui, pick, Option.map_some, if_true, if_false,
        String.reduceEq, ne_eq, hm0, not_false_eq_true, mul_eq_zero, hcm, or_self]
    · ring
    · rw [hE]; unfold convMass; field_simp; ring
    · rw [hE]; ring
    · unfold convMass; ring

theorem run_eq (k : Consts) (a : Args) (o : Outputs) (hrun : run k a = .ok o) (q : Quantity)
    (v : ℝ) (hq : a.quantity q = some v) :
    let raw := rawOutputs k (massSetup k (convArgs k a)).1 (massSetup k (convArgs k a)).2 q
      (inEv k a.inputUnit q v)
    UnitsOk a ∧ o = if a.outputUnit = "SI" then outputsToSI k raw else raw := by
  unfold run at hrun
  cases hi : init k a with
  | error e => rw [hi] at hrun; cases hrun
  | ok cv =>
    rw [hi] at hrun
    simp only [Except.map] at hrun
    injection hrun with hrun
    obtain ⟨hu, hd, hcv⟩ := (init_eq_ok_iff k a cv).mp hi
    refine ⟨hu, ?_⟩
    rw [← hrun]
    have hargs : cv.args = convArgs k a := by rw [hcv]; rfl
    have hmass : cv.mass = (massSetup k (convArgs k a)).1 := by rw [hcv]; rfl
    have hq' : cv.args.quantity q = some (inEv k a.inputUnit q v) := by
      rw [hargs, convArgs_quantity, hq]; rfl
    have ho' : ∀ q', q' ≠ q → cv.args.quantity q' = none := by
      intro q' hne
      rw [hargs, convArgs_quantity, only_one hd hq q' hne]; rfl
    unfold call
    rw [fold_setBetaGamma k cv q _ hq' ho', hargs, (convArgs_units k a).2.2]
    simp only [hcv, fill]
    rfl

theorem shows_eV (k : Consts) (m rep : ℝ) (q : Quantity) (v : ℝ) :
    Shows k "eV" (rawOutputs k m rep q v) (cvState k m q v) := by
  intro q'
  cases q' <;> simp [rawOutputs, Outputs.get, State.get, inEv]

theorem shows_SI (k : Consts) (hk : k.Pos) (m rep : ℝ) (q : Quantity) (v : ℝ) :
    Shows k "SI" (outputsToSI k (rawOutputs k m rep q v)) (cvState k m q v) := by
  have he := hk.e; have hc := hk.c
  intro q'
  cases q' <;>
    simp [rawOutputs, outputsToSI, Outputs.get, State.get, inEv, siUnit]
  all_goals field_simp

end Verif.Kinematic
