import Verif.Phases.Model
import Mathlib.Analysis.SpecialFunctions.Complex.Circle
import Mathlib.Algebra.Order.Ring.GeomSum
import Mathlib.Algebra.Field.GeomSum
import Mathlib.Tactic.Ring
import Mathlib.Tactic.Linarith
import Mathlib.Tactic.NormNum
import Mathlib.Tactic.Positivity
import Mathlib.Tactic.FieldSimp
import Mathlib.Tactic.LinearCombination

/-!
# Property C61: tune from the Fourier transform
-/

namespace Verif.Phases

/-! ## First maximum -/

/-- `i` is the first index of the largest value. -/
def FirstMax (l : List ℝ) (i : Nat) : Prop :=
  ∃ h : i < l.length, (∀ j (hj : j < l.length), l[j] ≤ l[i]) ∧ ∀ j (hj : j < i), l[j] < l[i]

theorem argmaxFrom_spec : ∀ (post pre : List ℝ) (best : ℝ) (bi : Nat), (∃ h : bi < pre.length, pre[bi] = best) → FirstMax pre bi →
    FirstMax (pre ++ post) (argmaxFrom best bi pre.length post) := by
  intro post
  induction post with
  | nil => intro pre best bi _ hm; rw [List.append_nil]; exact hm
  | cons x post ih =>
    intro pre best bi hb hm
    obtain ⟨hlt, hbe⟩ := hb
    obtain ⟨_, h1, h2⟩ := hm
    have happ : pre ++ x :: post = (pre ++ [x]) ++ post := by simp
    unfold argmaxFrom
    by_cases hx : best < x
    · rw [if_pos hx, happ]
      have := ih (pre ++ [x]) x pre.length ⟨by simp, by simp⟩ ⟨by simp, ?_, ?_⟩
      · simpa using this
      · intro j hj
        rcases Nat.lt_or_ge j pre.length with h | h
        · rw [List.getElem_append_left h]
          have := h1 j h
          rw [hbe] at this
          simp only [List.getElem_append_right (le_refl _), Nat.sub_self, List.getElem_cons_zero]
          linarith
        · have : j = pre.length := by simp at hj; omega
          subst this
          exact le_refl _
      · intro j hj
        rw [List.getElem_append_left hj]
        have := h1 j hj
        rw [hbe] at this
        simp only [List.getElem_append_right (le_refl _), Nat.sub_self, List.getElem_cons_zero]
        linarith
    · rw [if_neg hx, happ]
      have := ih (pre ++ [x]) best bi ⟨by simp; omega, by rw [List.getElem_append_left hlt, hbe]⟩ ⟨by simp; omega, ?_, ?_⟩
      · simpa using this
      · intro j hj
        rw [List.getElem_append_left hlt]
        rcases Nat.lt_or_ge j pre.length with h | h
        · rw [List.getElem_append_left h]
          exact h1 j h
        · have : j = pre.length := by simp at hj; omega
          subst this
          simp only [List.getElem_append_right (le_refl _), Nat.sub_self, List.getElem_cons_zero]
          rw [hbe]
          linarith
      · intro j hj
        rw [List.getElem_append_left hlt, List.getElem_append_left (by omega)]
        exact h2 j hj

theorem argmax_spec {l : List ℝ} {i : Nat} (h : argmax l = .ok i) : FirstMax l i := by
  match l with
  | [] => cases h
  | x :: l =>
    simp only [argmax, Except.ok.injEq] at h
    rw [← h]
    exact argmaxFrom_spec l [x] x 0 ⟨by simp, rfl⟩ ⟨by simp, by intro j hj; simp at hj; subst hj; exact le_refl _, by intro j hj; omega⟩

theorem argmax_ok {l : List ℝ} (h : l ≠ []) : ∃ i, argmax l = .ok i := by
  match l with
  | [] => exact absurd rfl h
  | x :: l => exact ⟨_, rfl⟩

theorem firstMax_unique {l : List ℝ} {i j : Nat} (hi : FirstMax l i) (hj : FirstMax l j) : i = j := by
  obtain ⟨h1, h2, h3⟩ := hi
  obtain ⟨k1, k2, k3⟩ := hj
  rcases Nat.lt_trichotomy i j with h | h | h
  · have := k3 i h
    have := h2 j k1
    linarith
  · exact h
  · have := h3 j h
    have := k2 i h1
    linarith

/-! ## Range -/

/-- The frequency index `m` as a tune at most one half. -/
noncomputable def folded (m n : Nat) : ℝ := if (1 / 2 : ℝ) < (m : ℝ) / n then 1 - (m : ℝ) / n else (m : ℝ) / n

/-- The points that are transformed. -/
def used (x : Signal) (ti : Int) (tf : Option Int) : Signal :=
  x.slice ti (match tf with
    | none => (x.length : Int)
    | some j => if j = 0 then (x.length : Int) else j)

def Signal.points : Signal → List ℝ
  | .flat l => l
  | .column l => l

theorem spectrum_length {x : Signal} {sp : List ℝ} (h : spectrum x = .ok sp) : sp.length = x.length := by
  cases x with
  | flat l =>
    simp only [spectrum] at h
    by_cases hl : l = []
    · rw [if_pos hl] at h; cases h
    · rw [if_neg hl] at h
      simp only [Except.ok.injEq] at h
      rw [← h]
      simp [Signal.length]
  | column l =>
    simp only [spectrum, Except.ok.injEq] at h
    rw [← h]
    simp [Signal.length]

/-- A successful call: the index of the first maximum of the spectrum, divided and folded. -/
theorem tune_ok {x : Signal} {ti : Int} {tf : Option Int} {q : ℝ} (h : tuneFft x ti tf = .ok q) :
    ∃ sp m, spectrum (used x ti tf) = .ok sp ∧ FirstMax sp m ∧ m < (used x ti tf).length ∧
      q = folded m (used x ti tf).length := by
  unfold tuneFft at h
  change (match spectrum (used x ti tf) with
    | .error e => .error e
    | .ok sp => match argmax sp with
      | .error e => .error e
      | .ok m => .ok (folded m (used x ti tf).length)) =
    Except.ok (ε := PyErr) q at h
  cases hs : spectrum (used x ti tf) with
  | error e => rw [hs] at h; cases h
  | ok sp =>
    rw [hs] at h
    simp only at h
    cases hm : argmax sp with
    | error e => rw [hm] at h; cases h
    | ok m =>
      rw [hm] at h
      simp only [Except.ok.injEq] at h
      have := argmax_spec hm
      exact ⟨sp, m, rfl, this, by rw [← spectrum_length hs]; exact this.1, h.symm⟩

/-- **C61, range.** Whatever the signal and the interval, a returned tune is between zero and one half and is a multiple of
one over the number of points used. -/
theorem tune_range {x : Signal} {ti : Int} {tf : Option Int} {q : ℝ} (h : tuneFft x ti tf = .ok q) :
    0 ≤ q ∧ q ≤ 1 / 2 ∧ ∃ k : Nat, q = k / (used x ti tf).length := by
  obtain ⟨sp, m, _, _, hm, rfl⟩ := tune_ok h
  have hn : (0 : ℝ) < (used x ti tf).length := by exact_mod_cast (by omega : 0 < (used x ti tf).length)
  have h0 : (0 : ℝ) ≤ m / (used x ti tf).length := by positivity
  have h1 : (m : ℝ) / (used x ti tf).length < 1 := by
    rw [div_lt_one hn]
    exact_mod_cast hm
  unfold folded
  split_ifs with hq
  · refine ⟨by linarith, by linarith, (used x ti tf).length - m, ?_⟩
    rw [Nat.cast_sub hm.le]
    field_simp
  · exact ⟨h0, by linarith, m, rfl⟩

/-- **C61, refused.** The call raises ValueError exactly when there are no points in the interval. -/
theorem tune_refuses (x : Signal) (ti : Int) (tf : Option Int) :
    ((used x ti tf).length = 0 → tuneFft x ti tf = .error .valueError) ∧ ((used x ti tf).length ≠ 0 → ∃ q, tuneFft x ti tf = .ok q) := by
  have hu : tuneFft x ti tf = (match spectrum (used x ti tf) with
    | .error e => .error e
    | .ok sp => match argmax sp with
      | .error e => .error e
      | .ok m => .ok (folded m (used x ti tf).length)) := rfl
  rw [hu]
  generalize used x ti tf = u
  constructor
  · intro h
    cases u with
    | flat l =>
      have : l = [] := List.length_eq_zero_iff.1 h
      subst this
      simp [spectrum]
    | column l =>
      have : l = [] := List.length_eq_zero_iff.1 h
      subst this
      simp [spectrum, argmax]
  · intro h
    cases u with
    | flat l =>
      have hl : l ≠ [] := fun e => h (List.length_eq_zero_iff.2 e)
      obtain ⟨i, hi⟩ := argmax_ok (l := (List.range l.length).map fun m => ‖dft l m‖) (by simpa using hl)
      simp only [spectrum, if_neg hl, hi]
      exact ⟨_, rfl⟩
    | column l =>
      have hl : l ≠ [] := fun e => h (List.length_eq_zero_iff.2 e)
      obtain ⟨i, hi⟩ := argmax_ok (l := l.map fun x => ‖dft [x] 0‖) (by simpa using hl)
      simp only [spectrum, hi]
      exact ⟨_, rfl⟩

/-! ## Pure oscillations -/

/-- Sum of the powers of a root of unity. -/
theorem unit_sum (n : Nat) (hn : 0 < n) (r : ℤ) :
    ∑ j ∈ Finset.range n, Complex.exp (2 * Real.pi * Complex.I * j * r / n) = if (n : ℤ) ∣ r then (n : ℂ) else 0 := by
  have hn0 : (n : ℂ) ≠ 0 := by exact_mod_cast hn.ne'
  have hpow : ∀ j : Nat, Complex.exp (2 * Real.pi * Complex.I * j * r / n) = Complex.exp (2 * Real.pi * Complex.I * (r / n)) ^ j := by
    intro j
    rw [← Complex.exp_nat_mul]
    congr 1
    ring
  simp only [hpow]
  by_cases hd : (n : ℤ) ∣ r
  · rw [if_pos hd]
    obtain ⟨k, rfl⟩ := hd
    have : Complex.exp (2 * Real.pi * Complex.I * (((n : ℤ) * k : ℤ) / n)) = 1 := by
      rw [Complex.exp_eq_one_iff]
      refine ⟨k, ?_⟩
      push_cast
      field_simp
    rw [this]
    simp
  · rw [if_neg hd]
    have h1 : Complex.exp (2 * Real.pi * Complex.I * (r / n)) ≠ 1 := by
      intro h
      obtain ⟨k, hk⟩ := Complex.exp_eq_one_iff.1 h
      apply hd
      refine ⟨k, ?_⟩
      have hpi : (2 * Real.pi * Complex.I : ℂ) ≠ 0 := by
        simp [Real.pi_ne_zero]
      have : (r : ℂ) / n = k := by
        apply mul_left_cancel₀ hpi
        rw [hk]
        ring
      rw [div_eq_iff hn0] at this
      have h2 : ((r : ℤ) : ℂ) = ((k * n : ℤ) : ℂ) := by push_cast; exact this
      have := Int.cast_injective h2
      rw [this]
      ring
    rw [geom_sum_eq h1, ← Complex.exp_nat_mul, show (n : ℂ) * (2 * Real.pi * Complex.I * (r / n)) = r * (2 * Real.pi * Complex.I) by
      field_simp, Complex.exp_int_mul_two_pi_mul_I, sub_self, zero_div]

/-- `n` samples of `d + A cos(2 π k j / n + φ)`. -/
noncomputable def tone (d A φ : ℝ) (n k : Nat) : List ℝ := (List.range n).map fun j : Nat => d + A * Real.cos (2 * Real.pi * k * j / n + φ)

theorem tone_term (d A φ : ℝ) (n k m j : Nat) (hn : 0 < n) :
    ((d + A * Real.cos (2 * Real.pi * k * j / n + φ) : ℝ) : ℂ) * Complex.exp (-(2 * Real.pi * Complex.I * j * m / n)) =
      d * Complex.exp (2 * Real.pi * Complex.I * j * ((-m : ℤ) : ℂ) / n) +
      (A / 2 * Complex.exp (φ * Complex.I) * Complex.exp (2 * Real.pi * Complex.I * j * ((k - m : ℤ) : ℂ) / n) +
       A / 2 * Complex.exp (-(φ * Complex.I)) * Complex.exp (2 * Real.pi * Complex.I * j * ((-k - m : ℤ) : ℂ) / n)) := by
  push_cast
  rw [Complex.cos, show (2 * Real.pi * k * j / n + φ : ℂ) * Complex.I = φ * Complex.I + 2 * Real.pi * Complex.I * j * k / n by ring,
    show -(2 * Real.pi * k * j / n + φ : ℂ) * Complex.I = -(φ * Complex.I) + -(2 * Real.pi * Complex.I * j * k / n) by ring,
    Complex.exp_add, Complex.exp_add,
    show (2 * Real.pi * Complex.I * j * (-m : ℂ) / n) = -(2 * Real.pi * Complex.I * j * m / n) by ring,
    show (2 * Real.pi * Complex.I * j * (k - m : ℂ) / n) = 2 * Real.pi * Complex.I * j * k / n + -(2 * Real.pi * Complex.I * j * m / n) by ring,
    show (2 * Real.pi * Complex.I * j * (-k - m : ℂ) / n) = -(2 * Real.pi * Complex.I * j * k / n) + -(2 * Real.pi * Complex.I * j * m / n) by ring,
    Complex.exp_add, Complex.exp_add]
  ring

theorem tone_dft (d A φ : ℝ) (n k m : Nat) (hn : 0 < n) :
    dft (tone d A φ n k) m = d * (if (n : ℤ) ∣ -m then (n : ℂ) else 0) +
      (A / 2 * Complex.exp (φ * Complex.I) * (if (n : ℤ) ∣ k - m then (n : ℂ) else 0) +
       A / 2 * Complex.exp (-(φ * Complex.I)) * (if (n : ℤ) ∣ -k - m then (n : ℂ) else 0)) := by
  rw [← unit_sum n hn, ← unit_sum n hn, ← unit_sum n hn, Finset.mul_sum, Finset.mul_sum, Finset.mul_sum, ← Finset.sum_add_distrib,
    ← Finset.sum_add_distrib]
  have hl : (tone d A φ n k).length = n := by simp [tone]
  unfold dft
  rw [hl]
  refine Finset.sum_congr rfl fun j hj => ?_
  rw [← tone_term d A φ n k m j hn]
  congr 2
  have hj' := Finset.mem_range.1 hj
  rw [List.getD_eq_getElem?_getD, List.getElem?_eq_getElem (by rw [hl]; exact hj')]
  simp [tone]

theorem tone_norm (d A φ : ℝ) (n k m : Nat) (hk : 0 < k) (hkn : 2 * k < n) (hm : m < n) :
    ‖dft (tone d A φ n k) m‖ = if m = 0 then n * |d| else if m = k ∨ m = n - k then n * |A| / 2 else 0 := by
  have hn : 0 < n := by omega
  rw [tone_dft d A φ n k m hn]
  have d1 : (n : ℤ) ∣ -m ↔ m = 0 := by
    constructor
    · rintro ⟨c, hc⟩
      have : c = 0 := by nlinarith
      subst this
      omega
    · rintro rfl; simp
  have d2 : (n : ℤ) ∣ k - m ↔ m = k := by
    constructor
    · rintro ⟨c, hc⟩
      have h1 : (n : ℤ) * c < n := by omega
      have h2 : -(n : ℤ) < n * c := by omega
      have c1 : c < 1 := by nlinarith
      have c2 : -1 < c := by nlinarith
      have : c = 0 := by omega
      subst this
      omega
    · rintro rfl; simp
  have d3 : (n : ℤ) ∣ -k - m ↔ m = n - k := by
    constructor
    · rintro ⟨c, hc⟩
      have h1 : (n : ℤ) * c < 0 := by omega
      have h2 : -2 * (n : ℤ) < n * c := by omega
      have c1 : c < 0 := by nlinarith
      have c2 : -2 < c := by nlinarith
      have : c = -1 := by omega
      subst this
      omega
    · rintro rfl
      exact ⟨-1, by omega⟩
  simp only [d1, d2, d3]
  have e1 : ‖Complex.exp (φ * Complex.I)‖ = 1 := Complex.norm_exp_ofReal_mul_I φ
  have e2 : ‖Complex.exp (-(φ * Complex.I))‖ = 1 := by
    rw [show -((φ : ℂ) * Complex.I) = ((-φ : ℝ) : ℂ) * Complex.I by push_cast; ring]
    exact Complex.norm_exp_ofReal_mul_I (-φ)
  by_cases h0 : m = 0
  · have hk1 : ¬ m = k := by omega
    have hk2 : ¬ m = n - k := by omega
    rw [if_pos h0, if_neg hk1, if_neg hk2, if_pos h0]
    simp
    ring
  · rw [if_neg h0, if_neg h0]
    by_cases h1 : m = k
    · have hk2 : ¬ m = n - k := by omega
      rw [if_pos h1, if_neg hk2, if_pos (Or.inl h1)]
      simp [e1]
      ring
    · rw [if_neg h1]
      by_cases h2 : m = n - k
      · rw [if_pos h2, if_pos (Or.inr h2)]
        simp [e2]
        ring
      · rw [if_neg h2, if_neg (by tauto)]
        simp

theorem tone_first (d A φ : ℝ) (n k : Nat) (hk : 0 < k) (hkn : 2 * k < n) (hd : |d| < |A| / 2) :
    FirstMax ((List.range n).map fun m => ‖dft (tone d A φ n k) m‖) k := by
  have hn : (0 : ℝ) < n := by exact_mod_cast (by omega : 0 < n)
  have hA : 0 < n * |A| / 2 := by
    have := abs_nonneg d
    have : 0 < |A| := by linarith
    positivity
  have hv : ∀ m, m < n → ‖dft (tone d A φ n k) m‖ ≤ n * |A| / 2 ∧ (m < k → ‖dft (tone d A φ n k) m‖ < n * |A| / 2) := by
    intro m hm
    rw [tone_norm d A φ n k m hk hkn hm]
    have hnd : n * |d| < n * |A| / 2 := by nlinarith
    split_ifs with h0 h1
    · exact ⟨hnd.le, fun _ => hnd⟩
    · exact ⟨le_refl _, fun h => by omega⟩
    · exact ⟨hA.le, fun _ => hA⟩
  have hkk : ‖dft (tone d A φ n k) k‖ = n * |A| / 2 := by
    rw [tone_norm d A φ n k k hk hkn (by omega), if_neg (by omega), if_pos (Or.inl rfl)]
  refine ⟨by simp; omega, ?_, ?_⟩
  · intro j hj
    simp only [List.length_map, List.length_range] at hj
    simp only [List.getElem_map, List.getElem_range]
    rw [hkk]
    exact (hv j hj).1
  · intro j hj
    simp only [List.getElem_map, List.getElem_range]
    rw [hkk]
    exact (hv j (by omega)).2 hj

theorem tone_zero (d A φ : ℝ) (n k : Nat) (hk : 0 < k) (hkn : 2 * k < n) (hd : |A| / 2 ≤ |d|) :
    FirstMax ((List.range n).map fun m => ‖dft (tone d A φ n k) m‖) 0 := by
  have hn : (0 : ℝ) < n := by exact_mod_cast (by omega : 0 < n)
  refine ⟨by simp; omega, ?_, fun j hj => by omega⟩
  intro j hj
  simp only [List.length_map, List.length_range] at hj
  simp only [List.getElem_map, List.getElem_range]
  rw [tone_norm d A φ n k 0 hk hkn (by omega), if_pos rfl, tone_norm d A φ n k j hk hkn hj]
  split_ifs with h0 h1
  · exact le_refl _
  · nlinarith
  · positivity

/-- **C61, pure oscillation.** If the points used are `n` samples of `d + A cos(2 π k j / n + φ)` with `0 < k < n / 2` and an
offset below half the amplitude, the tune is `k / n`. -/
theorem pure_tone_partial {x : Signal} {ti : Int} {tf : Option Int} (d A φ : ℝ) (n k : Nat) (hk : 0 < k) (hkn : 2 * k < n) (hd : |d| < |A| / 2)
    (hu : used x ti tf = .flat (tone d A φ n k)) : tuneFft x ti tf = .ok (k / n) := by
  have hl : (tone d A φ n k).length = n := by simp [tone]
  obtain ⟨q, hq⟩ := (tune_refuses x ti tf).2 (by rw [hu]; simp only [Signal.length, hl]; omega)
  obtain ⟨sp, m, hs, hm, _, rfl⟩ := tune_ok hq
  rw [hq]
  rw [hu] at hs ⊢
  simp only [spectrum, hl] at hs
  rw [if_neg (fun h => by have := congrArg List.length h; rw [hl] at this; simp at this; omega)] at hs
  simp only [Except.ok.injEq] at hs
  rw [← hs] at hm
  rw [firstMax_unique hm (tone_first d A φ n k hk hkn hd)]
  simp only [Signal.length, hl, folded]
  rw [if_neg]
  push Not
  have hn : (0 : ℝ) < n := by exact_mod_cast (by omega : 0 < n)
  rw [div_le_iff₀ hn]
  have : (2 * k : ℝ) < n := by exact_mod_cast hkn
  linarith

/-- **C61 is false with an offset.** If the offset is at least half of the amplitude, the tune is zero. -/
theorem offset_tone_fails {x : Signal} {ti : Int} {tf : Option Int} (d A φ : ℝ) (n k : Nat) (hk : 0 < k) (hkn : 2 * k < n) (hd : |A| / 2 ≤ |d|)
    (hu : used x ti tf = .flat (tone d A φ n k)) : tuneFft x ti tf = .ok 0 := by
  have hl : (tone d A φ n k).length = n := by simp [tone]
  obtain ⟨q, hq⟩ := (tune_refuses x ti tf).2 (by rw [hu]; simp only [Signal.length, hl]; omega)
  obtain ⟨sp, m, hs, hm, _, rfl⟩ := tune_ok hq
  rw [hq]
  rw [hu] at hs ⊢
  simp only [spectrum, hl] at hs
  rw [if_neg (fun h => by have := congrArg List.length h; rw [hl] at this; simp at this; omega)] at hs
  simp only [Except.ok.injEq] at hs
  rw [← hs] at hm
  rw [firstMax_unique hm (tone_zero d A φ n k hk hkn hd)]
  simp [folded]

/-- The whole turns of a tracking run: with the default interval the first sample is left out, and the other `n` samples have a
shifted phase. -/
theorem default_used (d A φ : ℝ) (n k : Nat) (hn : 0 < n) :
    used (.flat ((List.range (n + 1)).map fun j : Nat => d + A * Real.cos (2 * Real.pi * k * j / n + φ))) 1 none =
      .flat (tone d A (φ + 2 * Real.pi * k / n) n k) := by
  have hn0 : (n : ℝ) ≠ 0 := by exact_mod_cast hn.ne'
  simp only [used, Signal.slice, Signal.length, slice, sliceEnd, List.length_map, List.length_range]
  rw [if_neg (by omega), if_neg (by omega), show (((n + 1 : ℕ) : ℤ)).toNat = n + 1 by omega, min_self,
    List.take_of_length_le (by simp), show min (1 : ℤ).toNat (n + 1) = 1 by simp]
  congr 1
  rw [List.range_succ_eq_map, List.map_cons, List.drop_succ_cons, List.drop_zero, List.map_map]
  unfold tone
  refine List.map_congr_left fun j _ => ?_
  simp only [Function.comp, Nat.succ_eq_add_one]
  congr 3
  push_cast
  field_simp
  ring

/-- **C61, default interval.** -/
theorem pure_tone_default_partial (d A φ : ℝ) (n k : Nat) (hk : 0 < k) (hkn : 2 * k < n) (hd : |d| < |A| / 2) :
    tuneFft (.flat ((List.range (n + 1)).map fun j : Nat => d + A * Real.cos (2 * Real.pi * k * j / n + φ))) 1 none = .ok (k / n) :=
  pure_tone_partial d A _ n k hk hkn hd (default_used d A φ n k (by omega))

/-- **C61 is false for columns.** For an array of shape `(n, 1)`, as the documentation asks for, the result is the position of
the largest coordinate divided by the number of turns (folded), for every signal. -/
theorem column_fails {l : List ℝ} {ti : Int} {tf : Option Int} {q : ℝ} (h : tuneFft (.column l) ti tf = .ok q) :
    ∃ m, FirstMax ((used (.column l) ti tf).points.map fun x => |x|) m ∧
      q = folded m (used (.column l) ti tf).length := by
  obtain ⟨sp, m, hs, hm, _, hq⟩ := tune_ok h
  refine ⟨m, ?_, hq⟩
  simp only [used, Signal.slice, spectrum, Except.ok.injEq] at hs
  rw [← hs] at hm
  have e : (fun x : ℝ => ‖dft [x] 0‖) = fun x => |x| := by
    funext x
    simp [dft]
  rw [e] at hm
  exact hm

/-- A pure oscillation of tune 1/4 in a column whose first used point is the largest gives tune 0. -/
theorem column_tone_fails : tuneFft (.column [0, 1, 0, -1, 0]) 1 none = .ok 0 := by
  obtain ⟨q, hq⟩ := (tune_refuses (.column [0, 1, 0, -1, 0]) 1 none).2 (by decide)
  obtain ⟨m, hm, rfl⟩ := column_fails hq
  rw [hq]
  have hm0 : FirstMax ((used (.column [0, 1, 0, -1, 0]) 1 none).points.map fun x => |x|) 0 := by
    have e : (used (.column [0, 1, 0, -1, 0]) 1 none).points.map (fun x => |x|) = [1, 0, 1, 0] := by
      show ([1, 0, -1, 0] : List ℝ).map (fun x => |x|) = [1, 0, 1, 0]
      simp
    rw [e]
    refine ⟨by simp, ?_, fun j hj => by omega⟩
    intro j hj
    simp only [List.length_cons, List.length_nil] at hj
    match j, hj with
    | 0, _ => simp
    | 1, _ => simp
    | 2, _ => simp
    | 3, _ => simp
  rw [firstMax_unique hm hm0]
  simp [folded]

/-- Ten turns of a tune of 3/10 with the default arguments. -/
example : tuneFft (.flat ((List.range (10 + 1)).map fun j : Nat => (1 / 5 : ℝ) + 1 * Real.cos (2 * Real.pi * (3 : ℕ) * j / (10 : ℕ) + 1))) 1 none = .ok ((3 : ℕ) / (10 : ℕ)) :=
  pure_tone_default_partial (1 / 5) 1 1 10 3 (by norm_num) (by norm_num) (by norm_num [abs_of_pos])

/-- The whole signal is used with `ti = 0`. -/
example : tuneFft (.flat (tone (1 / 5) 1 1 10 3)) 0 none = .ok ((3 : ℕ) / (10 : ℕ)) ∧
    tuneFft (.flat (tone 2 1 1 10 3)) 0 none = .ok 0 := by
  have hu : ∀ d : ℝ, used (.flat (tone d 1 1 10 3)) 0 none = .flat (tone d 1 1 10 3) := by
    intro d
    simp [used, Signal.slice, Signal.length, tone, slice, sliceEnd]
  exact ⟨pure_tone_partial (1 / 5) 1 1 10 3 (by norm_num) (by norm_num) (by norm_num [abs_of_pos]) (hu _),
    offset_tone_fails 2 1 1 10 3 (by norm_num) (by norm_num) (by norm_num) (hu _)⟩

example : ∃ q, tuneFft (.flat [1, 2, 0, 5]) 1 none = .ok q ∧ 0 ≤ q ∧ q ≤ 1 / 2 := by
  obtain ⟨q, h⟩ := (tune_refuses (.flat [1, 2, 0, 5]) 1 none).2 (by simp [used, Signal.slice, Signal.length, slice, sliceEnd])
  exact ⟨q, h, (tune_range h).1, (tune_range h).2.1⟩

example : ∃ m, FirstMax ((used (.column [0, 1, 0, -1, 0]) 1 none).points.map fun x => |x|) m ∧
    0 = folded m (used (.column [0, 1, 0, -1, 0]) 1 none).length := column_fails column_tone_fails

end Verif.Phases
