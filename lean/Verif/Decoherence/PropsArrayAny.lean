import Verif.Decoherence.ArrayAny

/-!
# Property C179: arrays of amplitudes
-/

namespace Verif.Decoherence

theorem zip_map (g : ℝ → ℝ → ℝ) (f h : ℝ → ℝ) (a : List ℝ) : List.zipWith g (a.map f) (a.map h) = a.map fun x => g (f x) (h x) := by
  induction a with
  | nil => rfl
  | cons x a ih => simp [ih]

theorem advanceArray_arr (a : List ℝ) (n : Int) : ∀ (mu : List ℝ) (k : Nat) (f : ℝ → ℝ),
    advanceArray a n mu k (.arr (a.map f)) = .arr (a.map fun x => advanceLoop x n mu k (f x))
  | [], k, f => by simp [advanceArray, advanceLoop]
  | m :: mu, k, f => by
    rw [advanceArray, Value.add, zip_map, advanceArray_arr a n mu]
    rfl

theorem advanceArray_eq (a : List ℝ) (n : Int) (mu : List ℝ) (h : mu ≠ []) :
    advanceArray a n mu 1 (.num 0) = .arr (a.map fun x => advanceLoop x n mu 1 0) := by
  cases mu with
  | nil => exact absurd rfl h
  | cons m mu =>
    rw [advanceArray, Value.add, List.map_map, advanceArray_arr]
    rfl

/-- An array of other than one entry gives an array: the integrand of each entry, except that entries at the cutoff `2 pi n` itself give zero. -/
theorem array_integrand (c : Centroid) (n : Int) (a : List ℝ) (ha : a.length ≠ 1) :
    c.integrandArray n a = .arr (a.map fun x => if x = 2 * Real.pi * n then 0 else c.integrand n x) := by
  have key : ∀ x y : ℝ, c.Z / (2 * n) * (y / 1 / Real.pi * if x < 2 * Real.pi * n then 1 else 0) =
      if x = 2 * Real.pi * n then 0 else c.Z / (2 * n) * if x ≤ 2 * Real.pi * n then y / 1 / Real.pi else 0 := by
    intro x y
    rcases lt_trichotomy x (2 * Real.pi * n) with h | h | h
    · simp [h, h.le, h.ne]
    · simp [h]
    · simp [h.ne', not_le.2 h, not_lt.2 h.le]
  have hc : c.integrandArray n a = Value.map (c.Z / (2 * n) * ·) (((advanceArray a n c.mu 1 (.num 0)).map fun x =>
      Real.cos (2 * Real.pi * c.nu0 * n) * Real.cos x + Real.sin (2 * Real.pi * c.nu0 * n) * Real.sin x).map (· / 1 / Real.pi) |>.mul
      (a.map fun x => if x < 2 * Real.pi * n then 1 else 0)) := by
    match a, ha with
    | [], _ => rfl
    | [_], h => simp at h
    | _ :: _ :: _, _ => rfl
  rw [hc]
  by_cases hmu : c.mu = []
  · rw [hmu]
    simp only [advanceArray, Value.map, Value.mul, List.map_map, Value.arr.injEq]
    refine List.map_congr_left fun x _ => ?_
    simp only [Function.comp, Centroid.integrand, hmu, advanceLoop, one_mul]
    exact key x _
  · rw [advanceArray_eq a n c.mu hmu]
    simp only [Value.map, Value.mul, List.map_map, zip_map, Value.arr.injEq]
    refine List.map_congr_left fun x _ => ?_
    simp only [Function.comp, Centroid.integrand, one_mul]
    exact key x _

/-- An array without entries at the cutoff gives the array of the integrands. -/
theorem array_integrand_partial (c : Centroid) (n : Int) (a : List ℝ) (ha : a.length ≠ 1) (h : ∀ x ∈ a, x ≠ 2 * Real.pi * n) :
    c.integrandArray n a = .arr (a.map (c.integrand n)) := by
  rw [array_integrand c n a ha]
  congr 1
  exact List.map_congr_left fun x hx => if_neg (h x hx)

/-- An array with an entry at the cutoff gives the array of the integrands only if the cosine of the phase of that amplitude is zero. -/
theorem array_cutoff_fails (c : Centroid) (n : Nat) (hn : 0 < n) (hZ : c.Z ≠ 0) (a : List ℝ) (ha : a.length ≠ 1) (hmem : 2 * Real.pi * n ∈ a) :
    c.integrandArray n a = .arr (a.map (c.integrand n)) ↔
      Real.cos (2 * Real.pi * c.nu0 * n - advanceLoop (2 * Real.pi * n) n c.mu 1 0) = 0 := by
  have hn' : (n : ℝ) ≠ 0 := by exact_mod_cast hn.ne'
  have hv : c.integrand n (2 * Real.pi * n) = c.Z / (2 * n) *
      (Real.cos (2 * Real.pi * c.nu0 * n - advanceLoop (2 * Real.pi * n) n c.mu 1 0) / Real.pi) := by
    simp [Centroid.integrand, Real.cos_sub]
  rw [array_integrand c n a ha, Value.arr.injEq, List.map_inj_left]
  constructor
  · intro h
    have := h _ hmem
    simp only [Int.cast_natCast, if_true] at this
    rw [hv] at this
    simpa [hZ, hn', Real.pi_ne_zero] using this.symm
  · intro h x _
    split_ifs with hx
    · simp only [Int.cast_natCast] at hx
      rw [hx, hv, h]
      simp
    · rfl

/-- An array of one entry gives an array only if there are coefficients and the entry is not beyond the cutoff; otherwise a number. -/
theorem array_single (c : Centroid) (n : Int) (x : ℝ) :
    c.integrandArray n [x] = if c.mu ≠ [] ∧ x ≤ 2 * Real.pi * n then .arr [c.integrand n x] else .num (c.integrand n x) := by
  by_cases hmu : c.mu = []
  · by_cases hx : x ≤ 2 * Real.pi * n <;> simp [Centroid.integrandArray, Centroid.integrand, hmu, hx, advanceArray, advanceLoop, Value.map]
  · by_cases hx : x ≤ 2 * Real.pi * n <;>
      simp [Centroid.integrandArray, Centroid.integrand, hmu, hx, advanceArray_eq, Value.map]

/-! ## Examples -/

/-- Two amplitudes below the cutoff. -/
example := array_integrand_partial ⟨10, 2, 1 / 3, [1 / 100, 3]⟩ 7 [0, -1] (by simp) (by
  intro x hx
  have := Real.pi_pos
  simp only [List.mem_cons, List.not_mem_nil, or_false] at hx
  rcases hx with rfl | rfl <;> push_cast <;> intro h <;> linarith)

/-- The whole tune as the frequency and no coefficients: the entry at the cutoff should be `Z / (2 pi n)`. -/
example : (⟨10, 2, 1, []⟩ : Centroid).integrandArray (1 : Nat) [0, 2 * Real.pi * (1 : Nat)] ≠
    .arr ([0, 2 * Real.pi * (1 : Nat)].map ((⟨10, 2, 1, []⟩ : Centroid).integrand (1 : Nat))) := by
  rw [Ne, array_cutoff_fails ⟨10, 2, 1, []⟩ 1 one_pos (by norm_num) _ (by simp) (by simp)]
  simp [advanceLoop]

end Verif.Decoherence
