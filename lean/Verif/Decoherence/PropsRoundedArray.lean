import Verif.Decoherence.PropsArrayAny
import Verif.Decoherence.PropsRoundedAny
import Verif.Decoherence.RoundedArray

/-!
# Property C179: arrays of amplitudes in double precision
-/

namespace Verif.Decoherence

open Verif.Py

variable (R : Rounding)

theorem rAdvanceArray_arr (lib : Lib) (a : List ℝ) (n : Int) : ∀ (mu : List ℝ) (k : Nat) (f : ℝ → ℝ),
    rAdvanceArray R lib a n mu k (.arr (a.map f)) = .arr (a.map fun x => rAdvance R lib x n mu k (f x))
  | [], k, f => by simp [rAdvanceArray, rAdvance]
  | m :: mu, k, f => by
    rw [rAdvanceArray, Value.rAdd, zip_map, rAdvanceArray_arr lib a n mu]
    rfl

theorem rAdvanceArray_eq (lib : Lib) (a : List ℝ) (n : Int) (mu : List ℝ) (h : mu ≠ []) :
    rAdvanceArray R lib a n mu 1 (.num 0) = .arr (a.map fun x => rAdvance R lib x n mu 1 0) := by
  cases mu with
  | nil => exact absurd rfl h
  | cons m mu =>
    rw [rAdvanceArray, Value.rAdd, List.map_map, rAdvanceArray_arr]
    rfl

/-- **C179 in double precision.** The entries of an array of other than one entry are exactly what the code gives for numbers with the same functions, except
that entries at the rounded cutoff give zero. -/
theorem rounded_array (lib : Lib) (c : Centroid) (n : Int) (a : List ℝ) (ha : a.length ≠ 1) :
    c.rIntegrandArray R lib n a = .arr (a.map fun x => if x = rTurn R n then 0 else c.rIntegrand R lib n x) := by
  have key : ∀ w x y : ℝ, R.rnd (w * R.rnd (R.rnd y * if x < rTurn R n then 1 else 0)) =
      if x = rTurn R n then 0 else R.rnd (w * if x ≤ rTurn R n then R.rnd y else 0) := by
    intro w x y
    rcases lt_trichotomy x (rTurn R n) with h | h | h
    · simp [h, h.le, h.ne, R.fixed (R.isFloat y)]
    · simp [h, R.rnd_zero]
    · simp [h.ne', not_le.2 h, not_lt.2 h.le, R.rnd_zero]
  have hc : c.rIntegrandArray R lib n a = Value.map (fun y => R.rnd (R.rnd (c.Z / (2 * n)) * y)) (((rAdvanceArray R lib a n c.mu 1 (.num 0)).map fun x =>
      R.rnd (R.rnd (lib.cos (R.rnd (R.rnd (R.rnd (2 * R.rnd Real.pi) * c.nu0) * n)) * lib.cos x) +
        R.rnd (lib.sin (R.rnd (R.rnd (R.rnd (2 * R.rnd Real.pi) * c.nu0) * n)) * lib.sin x))).map (fun y => R.rnd (y / 1 / R.rnd Real.pi)) |>.rMul R
      (a.map fun x => if x < rTurn R n then 1 else 0)) := by
    match a, ha with
    | [], _ => rfl
    | [_], h => simp at h
    | _ :: _ :: _, _ => rfl
  rw [hc]
  by_cases hmu : c.mu = []
  · rw [hmu]
    simp only [rAdvanceArray, Value.map, Value.rMul, List.map_map, Value.arr.injEq]
    refine List.map_congr_left fun x _ => ?_
    simp only [Function.comp, Centroid.rIntegrand, hmu, rAdvance]
    exact key _ x _
  · rw [rAdvanceArray_eq R lib a n c.mu hmu]
    simp only [Value.map, Value.rMul, List.map_map, zip_map, Value.arr.injEq]
    refine List.map_congr_left fun x _ => ?_
    simp only [Function.comp, Centroid.rIntegrand]
    exact key _ x _

/-- **C179 in double precision, one entry.** A number results beyond the rounded cutoff and without coefficients. -/
theorem rounded_array_single (lib : Lib) (c : Centroid) (n : Int) (x : ℝ) :
    c.rIntegrandArray R lib n [x] = if c.mu ≠ [] ∧ x ≤ rTurn R n then .arr [c.rIntegrand R lib n x] else .num (c.rIntegrand R lib n x) := by
  have e : rTurn R n = R.rnd (R.rnd (2 * R.rnd Real.pi) * n) := rfl
  by_cases hmu : c.mu = []
  · by_cases hx : x ≤ rTurn R n <;> rw [e] at hx ⊢ <;>
      simp [Centroid.rIntegrandArray, Centroid.rIntegrand, hmu, hx, rAdvanceArray, rAdvance, Value.map]
  · by_cases hx : x ≤ rTurn R n <;> rw [e] at hx ⊢ <;>
      simp [Centroid.rIntegrandArray, Centroid.rIntegrand, hmu, hx, rAdvanceArray_eq, Value.map]

/-- **C179 in double precision, the loss.** For arrays of other than one entry, without coefficients and with a tune of zero, an entry at the rounded cutoff
should give about `Z / (2 pi n)`; it gives zero. -/
theorem rounded_array_fails {lib : Lib} (hl : lib.Accurate) (c : Centroid) (hmu : c.mu = []) (hnu : c.nu0 = 0) (hZ : c.Z ≠ 0) (n : Nat) (hn : 0 < n)
    (a : List ℝ) (ha : a.length ≠ 1) (hmem : rTurn R n ∈ a) :
    c.rIntegrandArray R lib n a ≠ .arr (a.map (c.rIntegrand R lib n)) := by
  intro h
  rw [rounded_array R lib c n a ha, Value.arr.injEq, List.map_inj_left] at h
  have h0 := h _ hmem
  rw [if_pos rfl] at h0
  have hb := (rounded_integrand R hl c n hn (rTurn R n) le_rfl (by simp [hmu])).2
  have hpi := Real.pi_pos
  have hn' : (0 : ℝ) < n := by exact_mod_cast hn
  rw [← h0, hmu, hnu] at hb
  simp only [advancePhase, advanceSize, List.mapIdx_nil, List.sum_nil, mul_zero, sub_zero, Real.cos_zero, mul_one, zero_sub, abs_neg, abs_zero, add_zero,
    abs_div] at hb
  rw [abs_of_pos (a := 2 * Real.pi * n) (by positivity)] at hb
  have hF : 0 < |c.Z| / (2 * Real.pi * n) := by have := abs_pos.2 hZ; positivity
  have : |c.Z| / (2 * Real.pi * n) * 2 ^ (-48 : ℤ) < |c.Z| / (2 * Real.pi * n) * 1 := mul_lt_mul_of_pos_left (by norm_num) hF
  rw [mul_one] at this
  exact absurd hb (not_le.2 this)

/-! ## Examples -/

/-- The cutoff and zero, with exact functions. -/
example := rounded_array_fails R (lib := ⟨⟨Real.cos, Real.sin⟩, fun x k => x ^ k⟩) ⟨fun x => by simp, fun x k => by simp⟩
  ⟨10, 2, 0, []⟩ rfl rfl (by norm_num) 7 (by norm_num) [0, rTurn R (7 : Nat)] (by simp) (by simp)

/-- Two amplitudes and two coefficients. -/
example (lib : Lib) := rounded_array R lib ⟨10, 2, 1 / 3, [1 / 100, 3]⟩ 7 [0, 1] (by simp)

end Verif.Decoherence
