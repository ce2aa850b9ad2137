import Verif.Decoherence.Model
import Mathlib.MeasureTheory.Integral.IntervalIntegral.FundThmCalculus
import Mathlib.Analysis.SpecialFunctions.Trigonometric.Deriv
import Mathlib.Analysis.SpecialFunctions.Trigonometric.Bounds
import Mathlib.Analysis.Real.Pi.Bounds
import Mathlib.Tactic.Ring
import Mathlib.Tactic.Linarith
import Mathlib.Tactic.NormNum
import Mathlib.Tactic.Positivity
import Mathlib.Tactic.FieldSimp
import Mathlib.Tactic.LinearCombination

/-!
# Properties C62, C96 and C97: decoherence of an offset beam
-/

namespace Verif.Decoherence

/-- The tune of a particle whose squared amplitude is the fraction `u` of the largest one. -/
noncomputable def tune (nu0 : ℝ) (mu : List ℝ) (u : ℝ) : ℝ := nu0 - ∑ k ∈ Finset.range mu.length, mu.getD k 0 * u ^ (k + 1)

/-- The centroid after `n` turns: the average of the offset over the waterbag, where the squared amplitude is uniform. -/
noncomputable def spec (Z nu0 : ℝ) (mu : List ℝ) (n : Nat) : ℝ := ∫ u in (0 : ℝ)..1, Z * Real.cos (2 * Real.pi * n * tune nu0 mu u)

theorem advanceLoop_eq (a : ℝ) (n : Int) : ∀ (mu : List ℝ) (order : Nat) (adv : ℝ),
    advanceLoop a n mu (order + 1) adv = adv + ∑ k ∈ Finset.range mu.length, mu.getD k 0 * a ^ (k + order + 1) / (2 * Real.pi * n) ^ (k + order) := by
  intro mu
  induction mu with
  | nil => intro order adv; simp [advanceLoop]
  | cons m mu ih =>
    intro order adv
    unfold advanceLoop
    rw [ih, List.length_cons, Finset.sum_range_succ']
    simp only [List.getD_cons_succ, List.getD_cons_zero, Nat.add_sub_cancel, zero_add]
    rw [show ∀ x y z : ℝ, x + y + z = x + (z + y) by intro x y z; ring]
    congr 2
    refine Finset.sum_congr rfl fun k _ => ?_
    rw [show k + 1 + order + 1 = k + (order + 1) + 1 by ring, show k + 1 + order = k + (order + 1) by ring]

/-- The loop in the variable `u = a / (2 π n)`. -/
theorem advance_scaled (u : ℝ) (n : Nat) (hn : 0 < n) (mu : List ℝ) :
    advanceLoop (2 * Real.pi * n * u) n mu 1 0 = 2 * Real.pi * n * ∑ k ∈ Finset.range mu.length, mu.getD k 0 * u ^ (k + 1) := by
  rw [show advanceLoop (2 * Real.pi * n * u) n mu 1 0 = advanceLoop (2 * Real.pi * n * u) n mu (0 + 1) 0 from rfl, advanceLoop_eq, zero_add, Finset.mul_sum]
  refine Finset.sum_congr rfl fun k _ => ?_
  have hpi := Real.pi_pos
  have hn' : (0 : ℝ) < n := by exact_mod_cast hn
  have hc : ((2 * Real.pi * ((n : ℤ) : ℝ)) ^ (k + 0)) ≠ 0 := by
    push_cast
    positivity
  rw [mul_pow]
  simp only [add_zero] at hc ⊢
  push_cast at hc ⊢
  rw [pow_succ (2 * Real.pi * (n : ℝ)) k]
  field_simp

theorem spec_zero (Z nu0 : ℝ) (mu : List ℝ) : spec Z nu0 mu 0 = Z := by
  unfold spec
  simp

theorem tune_continuous (nu0 : ℝ) (mu : List ℝ) : Continuous (tune nu0 mu) := by
  unfold tune
  fun_prop

/-- **C62, any order.** `integrate_any_order` is the average over the waterbag, for all turn numbers and coefficients. -/
theorem any_order (c : Centroid) (n : Nat) : c.anyOrder (some n) = spec c.Z c.nu0 c.mu n := by
  unfold Centroid.anyOrder
  simp only [Option.getD_some]
  by_cases h0 : n = 0
  · subst h0
    rw [if_pos (by simp), spec_zero]
  · rw [if_neg (by exact_mod_cast h0)]
    have hn : 0 < n := Nat.pos_of_ne_zero h0
    have hn' : (0 : ℝ) < n := by exact_mod_cast hn
    have hpi := Real.pi_pos
    have hcm := intervalIntegral.smul_integral_comp_mul_left (f := c.integrand n) (a := 0) (b := 1) (2 * Real.pi * (n : ℝ))
    rw [mul_zero, mul_one] at hcm
    rw [show (2 * Real.pi * ((n : ℤ) : ℝ)) = 2 * Real.pi * (n : ℝ) by push_cast; ring, ← hcm]
    unfold spec
    rw [smul_eq_mul, ← intervalIntegral.integral_const_mul]
    refine intervalIntegral.integral_congr fun u hu => ?_
    rw [Set.uIcc_of_le zero_le_one] at hu
    simp only [Centroid.integrand]
    rw [advance_scaled u n hn]
    have hle : 2 * Real.pi * (n : ℝ) * u ≤ 1 * 2 * Real.pi * ((n : ℤ) : ℝ) := by
      push_cast
      have := hu.2
      nlinarith [mul_pos hpi hn']
    rw [if_pos hle, ← Real.cos_sub]
    unfold tune
    rw [show 2 * Real.pi * (n : ℝ) * (c.nu0 - ∑ k ∈ Finset.range c.mu.length, c.mu.getD k 0 * u ^ (k + 1)) =
      2 * Real.pi * c.nu0 * ((n : ℤ) : ℝ) - 2 * Real.pi * (n : ℝ) * ∑ k ∈ Finset.range c.mu.length, c.mu.getD k 0 * u ^ (k + 1) by push_cast; ring]
    push_cast
    field_simp

/-- **C62, first order.** The closed form is the average over the waterbag. -/
theorem first_order (c : Centroid) (m : ℝ) (hmu : c.mu = [m]) (hm : m ≠ 0) (n : Nat) : c.firstOrder (some n) = .ok (spec c.Z c.nu0 c.mu n) := by
  unfold Centroid.firstOrder
  simp only [Option.getD_some, hmu]
  by_cases h0 : n = 0
  · subst h0
    rw [if_pos (by simp), spec_zero]
  · rw [if_neg (by exact_mod_cast h0)]
    have hn' : (0 : ℝ) < n := by exact_mod_cast Nat.pos_of_ne_zero h0
    have hpi := Real.pi_pos
    have hd : 2 * Real.pi * (n : ℝ) * m ≠ 0 := by positivity
    rw [if_neg (by push_cast; exact hd)]
    congr 1
    unfold spec
    have ht : ∀ u, tune c.nu0 [m] u = c.nu0 - m * u := by
      intro u
      simp [tune]
    have hder : ∀ u ∈ Set.uIcc (0 : ℝ) 1, HasDerivAt (fun u => -(c.Z / (2 * Real.pi * n * m)) * Real.sin (2 * Real.pi * n * (c.nu0 - m * u)))
        (c.Z * Real.cos (2 * Real.pi * n * tune c.nu0 [m] u)) u := by
      intro u _
      have h1 : HasDerivAt (fun u => 2 * Real.pi * n * (c.nu0 - m * u)) (2 * Real.pi * n * -(m * 1)) u :=
        (((hasDerivAt_id u).const_mul m).const_sub c.nu0).const_mul _
      have h2 := (h1.sin.const_mul (-(c.Z / (2 * Real.pi * n * m))))
      have e : -(c.Z / (2 * Real.pi * n * m)) * (Real.cos (2 * Real.pi * n * (c.nu0 - m * u)) * (2 * Real.pi * n * -(m * 1))) =
          c.Z * Real.cos (2 * Real.pi * n * tune c.nu0 [m] u) := by
        rw [ht]
        field_simp
      rw [e] at h2
      exact h2
    have hint : IntervalIntegrable (fun u => c.Z * Real.cos (2 * Real.pi * n * tune c.nu0 [m] u)) MeasureTheory.volume 0 1 := by
      apply Continuous.intervalIntegrable
      have := tune_continuous c.nu0 [m]
      fun_prop
    rw [intervalIntegral.integral_eq_sub_of_hasDerivAt hder hint]
    push_cast
    rw [show 2 * Real.pi * (n : ℝ) * (c.nu0 - m * 1) = 2 * Real.pi * c.nu0 * n - 2 * (Real.pi * n * m) by ring,
      show 2 * Real.pi * (n : ℝ) * (c.nu0 - m * 0) = 2 * Real.pi * c.nu0 * n by ring,
      show 2 * Real.pi * (n : ℝ) * m = 2 * (Real.pi * n * m) by ring, Real.sin_sub, Real.cos_two_mul]
    have := Real.sin_sq_add_cos_sq (Real.pi * n * m)
    linear_combination (-(c.Z / (2 * (Real.pi * n * m))) * 2 * Real.sin (2 * Real.pi * c.nu0 * n)) * -this

theorem fresnelS_deriv (x : ℝ) : HasDerivAt fresnelS (Real.sin (Real.pi * x ^ 2 / 2)) x := by
  have hc : Continuous fun t : ℝ => Real.sin (Real.pi * t ^ 2 / 2) := by fun_prop
  exact intervalIntegral.integral_hasDerivAt_right (hc.intervalIntegrable 0 x) (hc.stronglyMeasurableAtFilter _ _) hc.continuousAt

theorem fresnelC_deriv (x : ℝ) : HasDerivAt fresnelC (Real.cos (Real.pi * x ^ 2 / 2)) x := by
  have hc : Continuous fun t : ℝ => Real.cos (Real.pi * t ^ 2 / 2) := by fun_prop
  exact intervalIntegral.integral_hasDerivAt_right (hc.intervalIntegrable 0 x) (hc.stronglyMeasurableAtFilter _ _) hc.continuousAt

/-- **C62, second order.** For a positive second coefficient the formula with Fresnel integrals is the average over the waterbag. -/
theorem second_order_partial (c : Centroid) (m0 m1 : ℝ) (hmu : c.mu = [m0, m1]) (hm : 0 < m1) (n : Nat) :
    c.secondOrder (some n) = .ok (some (spec c.Z c.nu0 c.mu n)) := by
  unfold Centroid.secondOrder
  simp only [Option.getD_some, hmu]
  by_cases h0 : n = 0
  · subst h0
    rw [if_pos (by simp), spec_zero]
  · rw [if_neg (by exact_mod_cast h0)]
    have hn' : (0 : ℝ) < n := by exact_mod_cast Nat.pos_of_ne_zero h0
    have hpi := Real.pi_pos
    rw [if_neg hm.ne', if_neg (by push_cast; exact not_lt.2 (by positivity))]
    congr 2
    unfold spec
    have ht : ∀ u, tune c.nu0 [m0, m1] u = c.nu0 - (m0 * u + m1 * u ^ 2) := by
      intro u
      simp [tune, Finset.sum_range_succ]
    -- the root of m1 n
    obtain ⟨r, hr, hr2⟩ : ∃ r > 0, r ^ 2 = m1 * n := ⟨Real.sqrt (m1 * n), Real.sqrt_pos.2 (by positivity), Real.sq_sqrt (by positivity)⟩
    have s1 : Real.sqrt (m1 * ((n : ℤ) : ℝ) * Real.pi ^ 2) = r * Real.pi := by
      push_cast
      rw [← hr2, ← mul_pow, Real.sqrt_sq (by positivity)]
    have s2 : Real.sqrt (4 * m1 * ((n : ℤ) : ℝ)) = 2 * r := by
      push_cast
      rw [show 4 * m1 * (n : ℝ) = (2 * r) ^ 2 by rw [mul_pow, hr2]; ring, Real.sqrt_sq (by positivity)]
    have hder : ∀ u ∈ Set.uIcc (0 : ℝ) 1, HasDerivAt (fun u => c.second m0 m1 (2 * Real.pi * n * u) n * c.Z / (2 * r))
        (c.Z * Real.cos (2 * Real.pi * n * tune c.nu0 [m0, m1] u)) u := by
      intro u _
      have hx : HasDerivAt (fun u => (m0 * ((n : ℤ) : ℝ) * Real.pi + m1 * (2 * Real.pi * n * u)) / (r * Real.pi))
          (m1 * (2 * Real.pi * n * 1) / (r * Real.pi)) u :=
        ((((hasDerivAt_id u).const_mul _).const_mul _).const_add _).div_const _
      have hC := (fresnelC_deriv ((m0 * ((n : ℤ) : ℝ) * Real.pi + m1 * (2 * Real.pi * n * u)) / (r * Real.pi))).comp u hx
      have hS := (fresnelS_deriv ((m0 * ((n : ℤ) : ℝ) * Real.pi + m1 * (2 * Real.pi * n * u)) / (r * Real.pi))).comp u hx
      have h3 := ((((hC.mul_const (Real.cos (Real.pi * m0 ^ 2 * ((n : ℤ) : ℝ) / (2 * m1) + 2 * Real.pi * c.nu0 * ((n : ℤ) : ℝ)))).add
        (hS.mul_const (Real.sin (Real.pi * m0 ^ 2 * ((n : ℤ) : ℝ) / (2 * m1) + 2 * Real.pi * c.nu0 * ((n : ℤ) : ℝ))))).mul_const c.Z).div_const (2 * r))
      have e : ∀ A B : ℝ, (Real.cos A * (m1 * (2 * Real.pi * n * 1) / (r * Real.pi)) * Real.cos B + Real.sin A * (m1 * (2 * Real.pi * n * 1) / (r * Real.pi)) * Real.sin B) *
          c.Z / (2 * r) = c.Z * Real.cos (B - A) := by
        intro A B
        rw [Real.cos_sub]
        have : m1 * (2 * Real.pi * (n : ℝ) * 1) / (r * Real.pi) = 2 * r := by
          field_simp
          linear_combination -hr2
        rw [this]
        field_simp
      rw [e] at h3
      have e2 : Real.pi * m0 ^ 2 * ((n : ℤ) : ℝ) / (2 * m1) + 2 * Real.pi * c.nu0 * ((n : ℤ) : ℝ) -
          Real.pi * ((m0 * ((n : ℤ) : ℝ) * Real.pi + m1 * (2 * Real.pi * n * u)) / (r * Real.pi)) ^ 2 / 2 =
          2 * Real.pi * n * tune c.nu0 [m0, m1] u := by
        rw [ht, div_pow, mul_pow, hr2]
        push_cast
        field_simp
        ring
      rw [e2] at h3
      have e3 : (fun u => c.second m0 m1 (2 * Real.pi * n * u) n * c.Z / (2 * r)) = fun u =>
          (fresnelC ((m0 * ((n : ℤ) : ℝ) * Real.pi + m1 * (2 * Real.pi * n * u)) / (r * Real.pi)) *
            Real.cos (Real.pi * m0 ^ 2 * ((n : ℤ) : ℝ) / (2 * m1) + 2 * Real.pi * c.nu0 * ((n : ℤ) : ℝ)) +
          fresnelS ((m0 * ((n : ℤ) : ℝ) * Real.pi + m1 * (2 * Real.pi * n * u)) / (r * Real.pi)) *
            Real.sin (Real.pi * m0 ^ 2 * ((n : ℤ) : ℝ) / (2 * m1) + 2 * Real.pi * c.nu0 * ((n : ℤ) : ℝ))) * c.Z / (2 * r) := by
        funext u
        simp only [Centroid.second, s1]
      rw [e3]
      exact h3
    have hint : IntervalIntegrable (fun u => c.Z * Real.cos (2 * Real.pi * n * tune c.nu0 [m0, m1] u)) MeasureTheory.volume 0 1 := by
      apply Continuous.intervalIntegrable
      have := tune_continuous c.nu0 [m0, m1]
      fun_prop
    rw [intervalIntegral.integral_eq_sub_of_hasDerivAt hder hint, s2]
    push_cast
    rw [mul_one, mul_zero]
    ring

/-- **C62 is false for a negative second coefficient.** The formula gives NaN for every turn except the first. -/
theorem second_order_fails (c : Centroid) (m0 m1 : ℝ) (l : List ℝ) (hmu : c.mu = m0 :: m1 :: l) (hm : m1 < 0) (n : Nat) (hn : 0 < n) :
    c.secondOrder (some n) = .ok none := by
  unfold Centroid.secondOrder
  simp only [Option.getD_some, hmu]
  have hn' : (0 : ℝ) < n := by exact_mod_cast hn
  rw [if_neg (by exact_mod_cast hn.ne'), if_neg hm.ne, if_pos (by push_cast; nlinarith)]

/-- **C62 is false for coefficients zero.** The closed forms divide by the last coefficient. -/
theorem zero_coefficient_fails (c : Centroid) (n : Nat) (hn : 0 < n) :
    (c.mu = [0] → c.firstOrder (some n) = .error .zeroDivisionError) ∧
    (∀ m0, c.mu = [m0, 0] → c.secondOrder (some n) = .error .zeroDivisionError) := by
  refine ⟨fun h => ?_, fun m0 h => ?_⟩
  · unfold Centroid.firstOrder
    simp only [Option.getD_some, h]
    rw [if_neg (by exact_mod_cast hn.ne'), if_pos (by simp)]
  · unfold Centroid.secondOrder
    simp only [Option.getD_some, h]
    rw [if_neg (by exact_mod_cast hn.ne'), if_pos trivial]

/-- The coefficients for which a closed form exists, or that are integrated numerically. -/
def Regular : List ℝ → Prop
  | [m] => m ≠ 0
  | [_, m] => 0 < m
  | _ => True

/-- **C62, all turns.** For such coefficients `calculate_centroids` gives the average over the waterbag for the turns 0 to N - 1. -/
theorem centroids_partial (c : Centroid) (h : Regular c.mu) :
    c.calculate = .ok ((List.range c.N.toNat).map fun n => some (spec c.Z c.nu0 c.mu n)) := by
  have hch : ∀ n : Nat, c.chosen n = .ok (some (spec c.Z c.nu0 c.mu n)) := by
    intro n
    unfold Centroid.chosen
    match hmu : c.mu, h with
    | [], _ => simp only [List.length_nil]; rw [if_neg (by decide), if_neg (by decide), any_order, hmu]
    | [m], h =>
      simp only [List.length_cons, List.length_nil]
      rw [if_pos (by decide), first_order c m hmu h n, hmu]
      rfl
    | [m0, m1], h =>
      simp only [List.length_cons, List.length_nil]
      rw [if_neg (by decide), if_pos (by decide), second_order_partial c m0 m1 hmu h n, hmu]
    | m0 :: m1 :: m2 :: l, _ =>
      simp only [List.length_cons]
      rw [if_neg (by omega), if_neg (by omega), any_order, hmu]
  unfold Centroid.calculate
  generalize List.range c.N.toNat = l
  induction l with
  | nil => rfl
  | cons n l ih =>
    simp only [List.map_cons, List.mapM_cons, hch, ih]
    rfl

/-- **C96 is false.** The list has `N` entries, for the turns 0 to N - 1: the turn `N` is not in it. -/
theorem last_turn_fails (c : Centroid) (h : Regular c.mu) (l : List (Option ℝ)) (hl : c.calculate = .ok l) : l.length = c.N.toNat := by
  rw [centroids_partial c h] at hl
  simp only [Except.ok.injEq] at hl
  rw [← hl]
  simp

/-- **C97.** The centroid is never further from the axis than the initial offset, for all turns and coefficients. -/
theorem centroid_bound (c : Centroid) (n : Nat) : |c.anyOrder (some n)| ≤ |c.Z| := by
  rw [any_order]
  unfold spec
  have := intervalIntegral.norm_integral_le_of_norm_le_const (a := (0 : ℝ)) (b := 1) (C := |c.Z|)
    (f := fun u => c.Z * Real.cos (2 * Real.pi * n * tune c.nu0 c.mu u)) (fun u _ => by
      rw [norm_mul, Real.norm_eq_abs, Real.norm_eq_abs]
      exact mul_le_of_le_one_right (abs_nonneg _) (Real.abs_cos_le_one _))
  simpa using this

/-- **C97, no tune spread.** Without amplitude dependence the centroid oscillates with the linear tune. -/
theorem no_spread (c : Centroid) (h : c.mu = []) (n : Nat) : c.anyOrder (some n) = c.Z * Real.cos (2 * Real.pi * n * c.nu0) := by
  rw [any_order]
  unfold spec
  have : ∀ u, tune c.nu0 c.mu u = c.nu0 := by
    intro u
    simp [tune, h]
  simp only [this]
  simp

/-- **C97, decay.** With linear dependence on the squared amplitude the centroid decays like one over the turn number. -/
theorem first_order_decay (c : Centroid) (m : ℝ) (hmu : c.mu = [m]) (hm : m ≠ 0) (n : Nat) (hn : 0 < n) :
    ∃ x, c.firstOrder (some n) = .ok x ∧ |x| ≤ |c.Z| / (Real.pi * n * |m|) := by
  have hn' : (0 : ℝ) < n := by exact_mod_cast hn
  have hpi := Real.pi_pos
  have hm' := abs_pos.2 hm
  refine ⟨_, by
    unfold Centroid.firstOrder
    simp only [Option.getD_some, hmu]
    rw [if_neg (by exact_mod_cast hn.ne'), if_neg (by push_cast; positivity)], ?_⟩
  push_cast
  have hb : Real.cos (2 * Real.pi * c.nu0 * n) * Real.sin (2 * Real.pi * n * m) +
      2 * Real.sin (2 * Real.pi * c.nu0 * n) * Real.sin (Real.pi * n * m) ^ 2 =
      Real.sin (2 * Real.pi * c.nu0 * n) - Real.sin (2 * Real.pi * c.nu0 * n - 2 * (Real.pi * n * m)) := by
    rw [Real.sin_sub, Real.cos_two_mul, show 2 * Real.pi * (n : ℝ) * m = 2 * (Real.pi * n * m) by ring]
    have := Real.sin_sq_add_cos_sq (Real.pi * n * m)
    linear_combination 2 * Real.sin (2 * Real.pi * c.nu0 * n) * this
  rw [hb, abs_mul, abs_div]
  have h1 := Real.abs_sin_le_one (2 * Real.pi * c.nu0 * n)
  have h2 := Real.abs_sin_le_one (2 * Real.pi * c.nu0 * n - 2 * (Real.pi * n * m))
  have h3 := abs_sub (Real.sin (2 * Real.pi * c.nu0 * n)) (Real.sin (2 * Real.pi * c.nu0 * n - 2 * (Real.pi * n * m)))
  have h4 : |2 * Real.pi * (n : ℝ) * m| = 2 * (Real.pi * n * |m|) := by
    rw [abs_mul, abs_of_pos (by positivity)]
    ring
  rw [h4]
  calc |c.Z| / (2 * (Real.pi * n * |m|)) * |Real.sin (2 * Real.pi * c.nu0 * n) - Real.sin (2 * Real.pi * c.nu0 * n - 2 * (Real.pi * n * m))|
      ≤ |c.Z| / (2 * (Real.pi * n * |m|)) * 2 := mul_le_mul_of_nonneg_left (by linarith) (by positivity)
    _ = |c.Z| / (Real.pi * n * |m|) := by field_simp

example : Regular [3] ∧ Regular [-1, 2] ∧ Regular [1, 0, -3] ∧ Regular [] := ⟨by simp [Regular], by simp [Regular], trivial, trivial⟩

/-! The theorems above at concrete values. -/

example : Centroid.firstOrder ⟨10, 2, 1 / 3, [-1 / 5]⟩ (some 7) = .ok (spec 2 (1 / 3) [-1 / 5] 7) :=
  first_order ⟨10, 2, 1 / 3, [-1 / 5]⟩ (-1 / 5) rfl (by norm_num) 7

example : Centroid.secondOrder ⟨10, 2, 1 / 3, [-1 / 5, 2]⟩ (some 7) = .ok (some (spec 2 (1 / 3) [-1 / 5, 2] 7)) :=
  second_order_partial ⟨10, 2, 1 / 3, [-1 / 5, 2]⟩ (-1 / 5) 2 rfl (by norm_num) 7

example : Centroid.secondOrder ⟨10, 2, 1 / 3, [-1 / 5, -2]⟩ (some 7) = .ok none :=
  second_order_fails ⟨10, 2, 1 / 3, [-1 / 5, -2]⟩ (-1 / 5) (-2) [] rfl (by norm_num) 7 (by norm_num)

example : Centroid.secondOrder ⟨10, 2, 1 / 3, [-1 / 5, 0]⟩ (some 7) = .error .zeroDivisionError :=
  (zero_coefficient_fails ⟨10, 2, 1 / 3, [-1 / 5, 0]⟩ 7 (by norm_num)).2 _ rfl

example : ∃ l, Centroid.calculate ⟨10, 2, 1 / 3, [-1 / 5, 2]⟩ = .ok l ∧ l.length = 10 :=
  ⟨_, centroids_partial ⟨10, 2, 1 / 3, [-1 / 5, 2]⟩ (by simp [Regular]),
    last_turn_fails ⟨10, 2, 1 / 3, [-1 / 5, 2]⟩ (by simp [Regular]) _ (centroids_partial _ (by simp [Regular]))⟩

example : Centroid.anyOrder ⟨10, 2, 1 / 3, []⟩ (some 7) = 2 * Real.cos (2 * Real.pi * (7 : ℕ) * (1 / 3)) := no_spread ⟨10, 2, 1 / 3, []⟩ rfl 7

end Verif.Decoherence
