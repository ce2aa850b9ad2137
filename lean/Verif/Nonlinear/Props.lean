import Verif.Nonlinear.Model
import Mathlib.Analysis.SpecialFunctions.Trigonometric.Arctan
import Mathlib.Analysis.SpecialFunctions.Trigonometric.ArctanDeriv
import Mathlib.Tactic.Ring
import Mathlib.Tactic.Linarith
import Mathlib.Tactic.NormNum
import Mathlib.Tactic.Positivity
import Mathlib.Tactic.FieldSimp
import Mathlib.Tactic.LinearCombination

/-!
# Properties C59, C94 and C95: nonlinear inserts
-/

namespace Verif.Nonlinear

/-- The beta function in the middle of a drift of length `L` with phase advance `2 π μ`. -/
noncomputable def star (i : Insert) : ℝ := i.length / 2 * |Real.cos (Real.pi * i.phase) / Real.sin (Real.pi * i.phase)|

theorem phase_nonzero {μ : ℝ} (h : ¬ ∃ m : ℤ, μ = m / 2) : Real.sin (Real.pi * μ) ≠ 0 ∧ Real.cos (Real.pi * μ) ≠ 0 := by
  have hpi := Real.pi_pos
  constructor
  · intro h0
    obtain ⟨n, hn⟩ := Real.sin_eq_zero_iff.1 h0
    apply h
    refine ⟨2 * n, ?_⟩
    have : (n : ℝ) = μ := by
      apply mul_right_cancel₀ hpi.ne'
      rw [hn]; ring
    rw [← this]
    push_cast
    ring
  · intro h0
    obtain ⟨n, hn⟩ := Real.cos_eq_zero_iff.1 h0
    apply h
    refine ⟨2 * n + 1, ?_⟩
    have : μ = (2 * n + 1) / 2 := by
      apply mul_left_cancel₀ hpi.ne'
      rw [hn]; ring
    rw [this]
    push_cast
    ring

theorem f0_eq {i : Insert} (hs : Real.sin (Real.pi * i.phase) ≠ 0) (hc : Real.cos (Real.pi * i.phase) ≠ 0) :
    i.f0 = i.length / (4 * Real.sin (Real.pi * i.phase) ^ 2) := by
  unfold Insert.f0
  rw [Real.tan_eq_sin_div_cos]
  have := Real.sin_sq_add_cos_sq (Real.pi * i.phase)
  field_simp
  linear_combination i.length * this

theorem root_eq {i : Insert} (hL : 0 < i.length) (hs : Real.sin (Real.pi * i.phase) ≠ 0) (hc : Real.cos (Real.pi * i.phase) ≠ 0) :
    Real.sqrt (1 - (1 - i.length / 2 / i.f0) ^ 2) = 2 * |Real.sin (Real.pi * i.phase)| * |Real.cos (Real.pi * i.phase)| := by
  rw [f0_eq hs hc]
  have h1 := Real.sin_sq_add_cos_sq (Real.pi * i.phase)
  generalize Real.sin (Real.pi * i.phase) = s at *
  generalize Real.cos (Real.pi * i.phase) = c at *
  have e : 1 - (1 - i.length / 2 / (i.length / (4 * s ^ 2))) ^ 2 = (2 * |s| * |c|) ^ 2 := by
    rw [mul_pow, mul_pow, sq_abs, sq_abs]
    field_simp
    linear_combination -16 * s ^ 2 * h1
  rw [e, Real.sqrt_sq (by positivity)]

/-- **C59, drift law.** The beta function of an insert is that of a drift with its waist in the middle, and positive. -/
theorem drift_beta {i : Insert} (hL : 0 < i.length) (hμ : ¬ ∃ m : ℤ, i.phase = m / 2) (s : ℝ) :
    0 < star i ∧ i.beta s = star i + (s - i.length / 2) ^ 2 / star i ∧ star i ≤ i.beta s := by
  obtain ⟨hs, hc⟩ := phase_nonzero hμ
  have hst : 0 < star i := by
    unfold star
    have : Real.cos (Real.pi * i.phase) / Real.sin (Real.pi * i.phase) ≠ 0 := div_ne_zero hc hs
    positivity
  have hb : i.beta s = star i + (s - i.length / 2) ^ 2 / star i := by
    unfold Insert.beta star
    rw [root_eq hL hs hc, f0_eq hs hc, abs_div]
    have h1 := Real.sin_sq_add_cos_sq (Real.pi * i.phase)
    rw [← sq_abs, ← sq_abs (Real.cos (Real.pi * i.phase))] at h1
    have ps := abs_pos.2 hs
    have pc := abs_pos.2 hc
    rw [← sq_abs (Real.sin (Real.pi * i.phase))]
    generalize |Real.sin (Real.pi * i.phase)| = x at *
    generalize |Real.cos (Real.pi * i.phase)| = y at *
    field_simp
    linear_combination (-i.length ^ 2) * h1
  refine ⟨hst, hb, ?_⟩
  rw [hb]
  have : 0 ≤ (s - i.length / 2) ^ 2 / star i := by positivity
  linarith

/-- What `generate_sequence` makes. -/
theorem generate_ok {i : Insert} {q : Sequence} (h : i.generate = .ok q) :
    0 < i.length ∧ 0 < i.slices ∧ (¬ ∃ m : ℤ, i.phase = m / 2) ∧
    q.sVals = (List.range i.slices.toNat).map (fun k : Nat => (2 * k + 1) * i.length / (2 * i.slices)) ∧
    q.betas = q.sVals.map i.beta ∧ q.beta0 = i.beta 0 ∧
    q.cnll = q.betas.map (fun b => i.c * Real.sqrt b) ∧ q.knll = q.betas.map fun b => i.t * i.length / i.slices / b ^ 2 * (i.c * Real.sqrt b) ^ 2 := by
  unfold Insert.generate at h
  by_cases h1 : (∃ m : ℤ, i.phase = m / 2) ∨ i.length < 0
  · rw [if_pos h1] at h; cases h
  · rw [if_neg h1] at h
    push Not at h1
    by_cases h2 : i.slices = 0
    · rw [if_pos h2] at h; cases h
    · rw [if_neg h2] at h
      simp only [linspace] at h
      by_cases h3 : i.slices < 0
      · rw [if_pos h3] at h; cases h
      · rw [if_neg h3] at h
        simp only at h
        by_cases h4 : i.length = 0
        · rw [if_pos h4] at h; cases h
        · rw [if_neg h4] at h
          simp only [Except.ok.injEq] at h
          have hn : 0 < i.slices := by omega
          have hnr : (0 : ℝ) < i.slices := by exact_mod_cast hn
          have hL : 0 < i.length := lt_of_le_of_ne h1.2 (Ne.symm h4)
          refine ⟨hL, hn, by push Not; exact h1.1, ?_, ?_, ?_, ?_, ?_⟩
          · rw [← h]
            simp only
            refine List.map_congr_left fun k hk => ?_
            have hk' := List.mem_range.1 hk
            by_cases h5 : i.slices = 1
            · have : k = 0 := by omega
              subst this
              rw [h5]
              push_cast
              ring
            · have h6 : (i.slices : ℝ) - 1 ≠ 0 := by
                intro h0
                apply h5
                have : (i.slices : ℝ) = (1 : ℤ) := by push_cast; linarith
                exact_mod_cast this
              field_simp
              ring
          · rw [← h]
          · rw [← h]
            simp only [Insert.beta, zero_mul, zero_div, sub_zero]
          · rw [← h]
          · rw [← h]
            simp only
            rw [List.zipWith_map]
            induction (List.range i.slices.toNat) with
            | nil => rfl
            | cons k l ih => simp_all

/-- **C59, slices.** The slices are the middles of `n` equal parts, so they are symmetric about the centre of the insert, and so are
the beta functions. -/
theorem slices_symmetric {i : Insert} {q : Sequence} (h : i.generate = .ok q) :
    q.sVals.length = i.slices.toNat ∧ (∀ k (hk : k < q.sVals.length), q.sVals[k] = (k + 1 / 2) * (i.length / i.slices)) ∧
    (∀ k (hk : k < q.sVals.length), q.sVals[k] + q.sVals[q.sVals.length - 1 - k] = i.length) ∧
    q.betas.length = q.sVals.length ∧ ∀ k (hk : k < q.betas.length), q.betas[k] = q.betas[q.betas.length - 1 - k] ∧
      ∀ hs : k < q.sVals.length, q.betas[k] = star i + (q.sVals[k] - i.length / 2) ^ 2 / star i ∧ 0 < q.betas[k] := by
  obtain ⟨hL, hn, hμ, hs, hb, _, _, _⟩ := generate_ok h
  have hnr : (0 : ℝ) < i.slices := by exact_mod_cast hn
  have hl : q.sVals.length = i.slices.toNat := by rw [hs]; simp
  have hv : ∀ k (hk : k < q.sVals.length), q.sVals[k] = (k + 1 / 2) * (i.length / i.slices) := by
    intro k hk
    simp only [hs, List.getElem_map, List.getElem_range]
    field_simp
  have hsym : ∀ k (hk : k < q.sVals.length), q.sVals[k] + q.sVals[q.sVals.length - 1 - k] = i.length := by
    intro k hk
    rw [hv k hk, hv (q.sVals.length - 1 - k) (by omega)]
    have hc : (i.slices : ℝ) = ((q.sVals.length - 1 - k : ℕ) : ℝ) + k + 1 := by
      have : i.slices = ((q.sVals.length - 1 - k : ℕ) : ℤ) + k + 1 := by omega
      rw [this]
      push_cast
      ring
    have hc' : ((q.sVals.length - 1 - k : ℕ) : ℝ) = i.slices - k - 1 := by linarith
    rw [hc']
    field_simp
    ring
  have hbl : q.betas.length = q.sVals.length := by rw [hb]; simp
  have hbv : ∀ k (hk : k < q.betas.length) (hs : k < q.sVals.length), q.betas[k] = i.beta q.sVals[k] := by
    intro k hk hs
    simp only [hb, List.getElem_map]
  refine ⟨hl, hv, hsym, hbl, fun k hk => ⟨?_, fun hk' => ?_⟩⟩
  · rw [hbv k hk (by omega), hbv (q.betas.length - 1 - k) (by omega) (by omega), (drift_beta hL hμ _).2.1, (drift_beta hL hμ _).2.1]
    have := hsym k (by omega)
    simp only [hbl]
    have e : q.sVals[q.sVals.length - 1 - k] - i.length / 2 = -(q.sVals[k] - i.length / 2) := by linarith
    rw [e, neg_sq]
  · obtain ⟨h0, h1, h2⟩ := drift_beta hL hμ q.sVals[k]
    rw [hbv k hk hk']
    exact ⟨h1, by linarith⟩

/-- **C59, strengths.** Each lens has the aperture `c √β` and the strength `t c² l / β` with `l` the length of a slice. -/
theorem strengths {i : Insert} {q : Sequence} (h : i.generate = .ok q) :
    q.cnll = q.betas.map (fun b => i.c * Real.sqrt b) ∧ q.knll = q.betas.map fun b => i.t * i.c ^ 2 * (i.length / i.slices) / b := by
  obtain ⟨hL, hn, hμ, _, hb, _, hc, hk⟩ := generate_ok h
  refine ⟨hc, ?_⟩
  rw [hk]
  refine List.map_congr_left fun b hbm => ?_
  rw [hb] at hbm
  obtain ⟨s, _, rfl⟩ := List.mem_map.1 hbm
  obtain ⟨h0, _, h2⟩ := drift_beta hL hμ s
  have : 0 < i.beta s := by linarith
  have hnr : (0 : ℝ) < i.slices := by exact_mod_cast hn
  rw [mul_pow, Real.sq_sqrt this.le]
  field_simp

/-- **C59, refused.** No slices or a length of zero raise ZeroDivisionError, a negative number of slices ValueError. -/
theorem generate_refuses {i : Insert} (hL : 0 ≤ i.length) (hμ : ¬ ∃ m : ℤ, i.phase = m / 2) :
    (i.slices = 0 → i.generate = .error .zeroDivisionError) ∧ (i.slices < 0 → i.generate = .error .valueError) ∧
    (0 < i.slices → i.length = 0 → i.generate = .error .zeroDivisionError) ∧ (0 < i.slices → 0 < i.length → ∃ q, i.generate = .ok q) := by
  have h1 : ¬ ((∃ m : ℤ, i.phase = m / 2) ∨ i.length < 0) := by
    rintro (h | h)
    · exact hμ h
    · linarith
  unfold Insert.generate
  rw [if_neg h1]
  refine ⟨fun h => if_pos h, fun h => ?_, fun h h' => ?_, fun h h' => ?_⟩
  · rw [if_neg (by omega)]
    simp only [linspace, if_pos h]
  · rw [if_neg (by omega)]
    simp only [linspace]
    rw [if_neg (by omega)]
    exact if_pos h'
  · rw [if_neg (by omega)]
    simp only [linspace]
    rw [if_neg (by omega)]
    simp only [if_neg h'.ne']
    exact ⟨_, rfl⟩

/-! ## Phase advance -/

/-- Betatron phase from the middle of the insert. -/
noncomputable def betatron (i : Insert) (s : ℝ) : ℝ := Real.arctan ((s - i.length / 2) / star i)

/-- **C94.** The derivative of the betatron phase is one over the beta function, and the advance over the insert is `2 π phase`
for phases below one half. -/
theorem phase_partial {i : Insert} (hL : 0 < i.length) (h0 : 0 < i.phase) (h1 : i.phase < 1 / 2) :
    (∀ s, HasDerivAt (betatron i) (1 / i.beta s) s) ∧ betatron i i.length - betatron i 0 = 2 * Real.pi * i.phase := by
  have hpi := Real.pi_pos
  have hμ : ¬ ∃ m : ℤ, i.phase = m / 2 := by
    rintro ⟨m, hm⟩
    rw [hm] at h0 h1
    have a : (0 : ℝ) < m := by linarith
    have b : (m : ℝ) < 1 := by linarith
    have a' : 0 < m := by exact_mod_cast a
    have b' : m < 1 := by exact_mod_cast b
    omega
  obtain ⟨hst, _, _⟩ := drift_beta hL hμ 0
  refine ⟨fun s => ?_, ?_⟩
  · have hd : HasDerivAt (fun s => (s - i.length / 2) / star i) (1 / star i) s :=
      ((hasDerivAt_id s).sub_const _).div_const _
    have := hd.arctan
    have e : 1 / (1 + ((s - i.length / 2) / star i) ^ 2) * (1 / star i) = 1 / i.beta s := by
      rw [(drift_beta hL hμ s).2.1]
      have : star i ^ 2 + (s - i.length / 2) ^ 2 ≠ 0 := by positivity
      field_simp
    rw [e] at this
    exact this
  · have hs : 0 < Real.sin (Real.pi * i.phase) := Real.sin_pos_of_pos_of_lt_pi (by positivity) (by nlinarith)
    have hc : 0 < Real.cos (Real.pi * i.phase) := Real.cos_pos_of_mem_Ioo ⟨by nlinarith, by nlinarith⟩
    have e : (i.length - i.length / 2) / star i = Real.tan (Real.pi * i.phase) := by
      unfold star
      rw [abs_of_pos (div_pos hc hs), Real.tan_eq_sin_div_cos]
      field_simp
      norm_num
    have e' : (0 - i.length / 2) / star i = -Real.tan (Real.pi * i.phase) := by
      rw [← e]
      ring
    unfold betatron
    rw [e, e', Real.arctan_neg, Real.arctan_tan (by nlinarith) (by nlinarith)]
    ring

/-- **C94 is false for phases between one half and one.** The insert then has the phase advance `2 π (1 - phase)`. -/
theorem phase_fails {i : Insert} (hL : 0 < i.length) (h0 : 1 / 2 < i.phase) (h1 : i.phase < 1) :
    betatron i i.length - betatron i 0 = 2 * Real.pi * (1 - i.phase) ∧ betatron i i.length - betatron i 0 < Real.pi := by
  have hpi := Real.pi_pos
  have hst : star i = star { i with phase := 1 - i.phase } := by
    unfold star
    simp only
    rw [show Real.pi * (1 - i.phase) = Real.pi - Real.pi * i.phase by ring, Real.sin_pi_sub, Real.cos_pi_sub, neg_div, abs_neg]
  have hb : ∀ s, betatron i s = betatron { i with phase := 1 - i.phase } s := by
    intro s
    unfold betatron
    rw [hst]
  obtain ⟨_, h⟩ := phase_partial (i := { i with phase := 1 - i.phase }) hL (by simp only; linarith) (by simp only; linarith)
  simp only at h
  have : betatron i i.length - betatron i 0 = 2 * Real.pi * (1 - i.phase) := by
    rw [hb, hb]
    exact h
  refine ⟨this, ?_⟩
  rw [this]
  nlinarith

/-! ## The aperture parameter and the elements -/

/-- **C95 is false.** No assignment to `c` ever succeeds or changes anything. -/
theorem set_c_fails (i : Insert) (v : ℝ) : (i.setC v).1 = i ∧ (i.setC v).2 ≠ none ∧ (0 ≤ v → (i.setC v).2 = some .nameError) := by
  unfold Insert.setC
  by_cases h : v < 0
  · rw [if_pos h]
    exact ⟨rfl, by simp, fun h' => absurd h' (by push Not; exact h)⟩
  · rw [if_neg h]
    exact ⟨rfl, by simp, fun _ => rfl⟩

/-- **C95, elements.** There is one element for each slice, in order, with its strength and aperture. -/
theorem madx_elements (num : ℝ → String) {i : Insert} {q : Sequence} (h : i.generate = .ok q) :
    q.madx num = q.betas.map fun b =>
      "nllens, knll = " ++ num (i.t * i.c ^ 2 * (i.length / i.slices) / b) ++ ", cnll = " ++ num (i.c * Real.sqrt b) ++ ";" := by
  obtain ⟨h1, h2⟩ := strengths h
  unfold Sequence.madx
  rw [h1, h2]
  induction q.betas with
  | nil => rfl
  | cons b l ih => simp only [List.map_cons, List.zipWith_cons_cons, ih]

/-- An insert of length 2 and phase 0.3 with 20 slices. -/
example : ∃ q, Insert.generate ⟨2, 3 / 10, 1 / 10, 1 / 100, 20⟩ = .ok q := by
  refine (generate_refuses (i := ⟨2, 3 / 10, 1 / 10, 1 / 100, 20⟩) (by norm_num) ?_).2.2.2 (by norm_num) (by norm_num)
  rintro ⟨m, hm⟩
  simp only at hm
  have a : (0 : ℝ) < m := by linarith
  have b : (m : ℝ) < 1 := by linarith
  have a' : 0 < m := by exact_mod_cast a
  have b' : m < 1 := by exact_mod_cast b
  omega

/-- A phase strictly between two multiples of one half. -/
theorem between_halves {μ : ℝ} (h0 : 0 < μ) (h1 : μ < 1 / 2) : ¬ ∃ m : ℤ, μ = m / 2 := by
  rintro ⟨m, hm⟩
  have a : (0 : ℝ) < m := by linarith
  have b : (m : ℝ) < 1 := by linarith
  have a' : 0 < m := by exact_mod_cast a
  have b' : m < 1 := by exact_mod_cast b
  omega

example : 0 < star ⟨2, 3 / 10, 1 / 10, 1 / 100, 20⟩ :=
  (drift_beta (i := ⟨2, 3 / 10, 1 / 10, 1 / 100, 20⟩) (by norm_num) (between_halves (by norm_num) (by norm_num)) 1).1

example : ∃ q, Insert.generate ⟨2, 3 / 10, 1 / 10, 1 / 100, 20⟩ = .ok q ∧ q.sVals.length = 20 ∧
    q.cnll = q.betas.map (fun b => 1 / 100 * Real.sqrt b) := by
  obtain ⟨q, h⟩ := (generate_refuses (i := ⟨2, 3 / 10, 1 / 10, 1 / 100, 20⟩) (by norm_num)
    (between_halves (by norm_num) (by norm_num))).2.2.2 (by norm_num) (by norm_num)
  exact ⟨q, h, (slices_symmetric h).1, (strengths h).1⟩

example : betatron ⟨2, 3 / 10, 1 / 10, 1 / 100, 20⟩ 2 - betatron ⟨2, 3 / 10, 1 / 10, 1 / 100, 20⟩ 0 = 2 * Real.pi * (3 / 10) :=
  (phase_partial (i := ⟨2, 3 / 10, 1 / 10, 1 / 100, 20⟩) (by norm_num) (by norm_num) (by norm_num)).2

example : betatron ⟨2, 7 / 10, 1 / 10, 1 / 100, 20⟩ 2 - betatron ⟨2, 7 / 10, 1 / 10, 1 / 100, 20⟩ 0 = 2 * Real.pi * (1 - 7 / 10) :=
  (phase_fails (i := ⟨2, 7 / 10, 1 / 10, 1 / 100, 20⟩) (by norm_num) (by norm_num) (by norm_num)).1

end Verif.Nonlinear
