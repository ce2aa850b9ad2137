import Verif.Decoherence.PropsRoundedAny

/-!
# Property C178: sums over the rounded integrand

`quad` approximates the integral by sums of the integrand at points between the limits, with positive weights whose sum is the length of the interval. The sums
are taken as exact here.
-/

namespace Verif.Decoherence

open Verif.Py

variable (R : Rounding)

theorem sizes_le {w : ℝ} : ∀ (mu : List ℝ) (f : Nat → ℝ → ℝ), (∀ i m, f i m ≤ w * |m|) → (mu.mapIdx f).sum ≤ w * (mu.map abs).sum
  | [], f, _ => by simp
  | m :: mu, f, h => by
    have := sizes_le mu (fun i => f (i + 1)) fun i m => h (i + 1) m
    have h0 := h 0 m
    rw [List.mapIdx_cons, List.sum_cons, List.map_cons, List.sum_cons, mul_add]
    exact add_le_add h0 this

theorem advanceSize_le {a w : ℝ} (ha : 0 ≤ a) (haw : a ≤ w) (hw : 0 < w) (mu : List ℝ) : advanceSize a w mu ≤ w * (mu.map abs).sum := by
  refine sizes_le mu _ fun i m => ?_
  have e : m * a ^ (i + 1) / w ^ i = m * (a * (a / w) ^ i) := by
    rw [div_pow, pow_succ]
    ring
  have h1 : (a / w) ^ i ≤ 1 := pow_le_one₀ (by positivity) ((div_le_one hw).2 haw)
  have h0 : 0 ≤ (a / w) ^ i := by positivity
  rw [e, abs_mul, abs_of_nonneg (mul_nonneg ha h0), mul_comm]
  refine mul_le_mul_of_nonneg_right ?_ (abs_nonneg m)
  exact (mul_le_mul_of_nonneg_left h1 ha).trans (by rw [mul_one]; exact haw)

theorem weighted {g h : ℝ → ℝ} {B : ℝ} : ∀ rule : List (ℝ × ℝ), (∀ p ∈ rule, 0 ≤ p.1) → (∀ p ∈ rule, |g p.2 - h p.2| ≤ B) →
    |(rule.map fun p => p.1 * g p.2).sum - (rule.map fun p => p.1 * h p.2).sum| ≤ (rule.map Prod.fst).sum * B
  | [], _, _ => by simp
  | p :: rule, hw, hB => by
    have ih := weighted rule (fun q hq => hw q (by simp [hq])) fun q hq => hB q (by simp [hq])
    have h1 := mul_le_mul_of_nonneg_left (hB p (by simp)) (hw p (by simp))
    have h2 : |p.1 * g p.2 - p.1 * h p.2| ≤ p.1 * B := by
      rw [← mul_sub, abs_mul, abs_of_nonneg (hw p (by simp))]
      exact h1
    simp only [List.map_cons, List.sum_cons, add_mul]
    rw [add_sub_add_comm]
    exact (abs_add_le _ _).trans (add_le_add h2 ih)

/-- Every rule with nonnegative weights: the sum over the rounded integrand is bounded by `|Z|` times the sum of the weights over the length of the interval, up
to `2 ^ -48`. It is the sum over the exact integrand up to that factor times `2 ^ -48` and the rounding errors of the phases at the largest amplitude, which grow
with the turn. -/
theorem rounded_quadrature {lib : Lib} (hl : lib.Accurate) (c : Centroid) (n : Nat) (hn : 0 < n) (hlen : c.mu.length ≤ 2 ^ 40) (rule : List (ℝ × ℝ))
    (hw : ∀ p ∈ rule, 0 ≤ p.1) (hx : ∀ p ∈ rule, 0 ≤ p.2 ∧ p.2 ≤ 2 * Real.pi * n ∧ p.2 ≤ rTurn R n) :
    |(rule.map fun p => p.1 * c.rIntegrand R lib n p.2).sum| ≤ (rule.map Prod.fst).sum * (|c.Z| / (2 * Real.pi * n) * (1 + 2 ^ (-48 : ℤ))) ∧
      |(rule.map fun p => p.1 * c.rIntegrand R lib n p.2).sum - (rule.map fun p => p.1 *
          (c.Z / (2 * Real.pi * n) * Real.cos (2 * Real.pi * n * c.nu0 - advancePhase p.2 (2 * Real.pi * n) c.mu))).sum| ≤
        (rule.map Prod.fst).sum * (|c.Z| / (2 * Real.pi * n) * (2 ^ (-48 : ℤ) + 2 * Real.pi * n *
          (2 ^ (-50 : ℤ) * |c.nu0| + ((1 + 2 ^ (-53 : ℤ)) ^ (7 * c.mu.length + 8) - 1) * (c.mu.map abs).sum))) := by
  have hn' : (0 : ℝ) < n := by exact_mod_cast hn
  have hpos : (0 : ℝ) < 2 * Real.pi * n := by have := Real.pi_pos; positivity
  constructor
  · have := weighted (g := fun x => c.rIntegrand R lib n x) (h := fun _ => 0) (B := |c.Z| / (2 * Real.pi * n) * (1 + 2 ^ (-48 : ℤ))) rule hw
      fun p hp => by
        rw [sub_zero]
        exact (rounded_integrand R hl c n hn p.2 (hx p hp).2.2 hlen).1
    simpa using this
  · refine weighted (g := fun x => c.rIntegrand R lib n x)
      (h := fun x => c.Z / (2 * Real.pi * n) * Real.cos (2 * Real.pi * n * c.nu0 - advancePhase x (2 * Real.pi * n) c.mu)) rule hw fun p hp => ?_
    refine (rounded_integrand R hl c n hn p.2 (hx p hp).2.2 hlen).2.trans (mul_le_mul_of_nonneg_left ?_ (by positivity))
    have hr := roundings_nonneg (7 * c.mu.length + 8)
    unfold roundings at hr
    have hs := mul_le_mul_of_nonneg_left (advanceSize_le (hx p hp).1 (hx p hp).2.1 hpos c.mu) hr
    rw [add_assoc]
    refine add_le_add le_rfl ?_
    rw [mul_add]
    exact add_le_add (le_of_eq (by ring)) (hs.trans (le_of_eq (by ring)))

/-! ## Examples -/

/-- Two points with weights, and exact functions. -/
example := rounded_quadrature R (lib := ⟨⟨Real.cos, Real.sin⟩, fun x k => x ^ k⟩) ⟨fun x => by simp, fun x k => by simp⟩
  ⟨10, 2, 1 / 3, [1 / 100, -1 / 50, 3]⟩ 7 (by norm_num) (by norm_num) [(3, 0), (20, 1)] (by
    intro p hp
    simp only [List.mem_cons, List.not_mem_nil, or_false] at hp
    rcases hp with rfl | rfl <;> norm_num) (by
    have hpi := Real.pi_gt_three
    have h1 : (1 : ℝ) ≤ rTurn R ((7 : Nat) : Int) := by
      have a1 : (1 : ℝ) ≤ R.rnd Real.pi := R.rnd_one ▸ R.mono (by linarith)
      have a2 : (1 : ℝ) ≤ R.rnd (2 * R.rnd Real.pi) := R.rnd_one ▸ R.mono (by linarith)
      unfold rTurn
      push_cast
      exact R.rnd_one ▸ R.mono (by linarith)
    intro p hp
    simp only [List.mem_cons, List.not_mem_nil, or_false] at hp
    push_cast
    rcases hp with rfl | rfl
    · exact ⟨le_rfl, by positivity, zero_le_one.trans h1⟩
    · exact ⟨zero_le_one, by show (1 : ℝ) ≤ _; linarith, h1⟩)

end Verif.Decoherence
