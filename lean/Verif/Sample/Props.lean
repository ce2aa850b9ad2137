import Mathlib.Algebra.Order.Ring.Rat
import Mathlib.Tactic.Linarith
import Mathlib.Tactic.FieldSimp
import Mathlib.Tactic.Ring
import Verif.Sample.Model

/-!
# Properties C52, C79 and C80: sampling from a distribution
-/

namespace Verif.Sample

variable {K : Type} [Field K] [LinearOrder K] [IsStrictOrderedRing K]

theorem cdfLoop_length (t : K) (ws : List K) : ∀ c, (cdfLoop t c ws).length = ws.length := by
  induction ws with
  | nil => intro c; rfl
  | cons w ws ih => intro c; simp [cdfLoop, ih]

theorem cdfLoop_get (t : K) (ws : List K) : ∀ (c : K) (k : Nat) (hk : k < (cdfLoop t c ws).length),
    (cdfLoop t c ws)[k] = (c + (ws.take (k + 1)).sum) / t := by
  induction ws with
  | nil => intro c k hk; simp [cdfLoop] at hk
  | cons w ws ih =>
    intro c k hk
    match k with
    | 0 => simp [cdfLoop]
    | k + 1 =>
      simp only [cdfLoop, List.getElem_cons_succ, ih, List.take_succ_cons, List.sum_cons]
      ring

theorem sum_take_mono {ws : List K} (h : ∀ w ∈ ws, 0 ≤ w) (i : Nat) : (ws.take i).sum ≤ (ws.take (i + 1)).sum := by
  induction ws generalizing i with
  | nil => simp
  | cons w ws ih =>
    match i with
    | 0 => simpa using h w (by simp)
    | i + 1 =>
      simp only [List.take_succ_cons, List.sum_cons]
      have := ih (fun w hw => h w (by simp [hw])) i
      linarith

theorem sum_take_le {ws : List K} (h : ∀ w ∈ ws, 0 ≤ w) {i j : Nat} (hij : i ≤ j) :
    (ws.take i).sum ≤ (ws.take j).sum := by
  induction j, hij using Nat.le_induction with
  | base => exact le_refl _
  | succ j _ ih => exact le_trans ih (sum_take_mono h j)

/-- Weights that describe a distribution. -/
structure Weights (ws : List K) : Prop where
  nonneg : ∀ w ∈ ws, 0 ≤ w
  pos : 0 < ws.sum

/-- **C52.** The table has one entry per weight, entry `k` is the part of the sum that comes from the
weights up to `k`, the table does not decrease, and it ends at one. -/
theorem cdf_table {ws : List K} (h : Weights ws) :
    (calculateCdf ws).length = ws.length ∧
    (∀ k, ∀ hk : k < (calculateCdf ws).length, (calculateCdf ws)[k] = (ws.take (k + 1)).sum / ws.sum) ∧
    (∀ i j, ∀ (hi : i < (calculateCdf ws).length) (hj : j < (calculateCdf ws).length), i ≤ j →
      (calculateCdf ws)[i] ≤ (calculateCdf ws)[j]) ∧
    (calculateCdf ws).getLast? = some 1 := by
  have hl : (calculateCdf ws).length = ws.length := cdfLoop_length _ _ _
  have hg : ∀ k, ∀ hk : k < (calculateCdf ws).length, (calculateCdf ws)[k] = (ws.take (k + 1)).sum / ws.sum := by
    intro k hk
    have := cdfLoop_get ws.sum ws 0 k hk
    rw [zero_add] at this
    exact this
  refine ⟨hl, hg, ?_, ?_⟩
  · intro i j hi hj hij
    rw [hg i hi, hg j hj]
    exact div_le_div_of_nonneg_right (sum_take_le h.nonneg (by omega)) h.pos.le
  · have hne : ws ≠ [] := by
      rintro rfl
      exact absurd h.pos (by simp)
    have hlen : 0 < ws.length := List.length_pos_iff.2 hne
    rw [List.getLast?_eq_getElem?, List.getElem?_eq_getElem (by omega), hg]
    rw [List.take_of_length_le (by omega), div_self h.pos.ne']

theorem searchsorted_spec (a : List K) (y : K) (k : Nat) (hk : k < a.length)
    (hs : ∀ i j, ∀ (hi : i < a.length) (hj : j < a.length), i ≤ j → a[i] ≤ a[j]) :
    searchsorted a y = k ↔ (∀ j, ∀ hj : j < a.length, j < k → a[j] < y) ∧ y ≤ a[k] := by
  unfold searchsorted
  induction a generalizing k with
  | nil => simp at hk
  | cons v a ih =>
    by_cases hv : v < y
    · rw [List.takeWhile_cons_of_pos (by simpa using hv), List.length_cons]
      match k with
      | 0 =>
        constructor
        · intro h; omega
        · rintro ⟨_, h⟩
          simp only [List.getElem_cons_zero] at h
          exact absurd hv (not_lt.2 h)
      | k + 1 =>
        have hk' : k < a.length := by simpa using hk
        rw [Nat.add_right_cancel_iff, ih k hk' (fun i j hi hj hij => by
          exact hs (i + 1) (j + 1) (by simpa using hi) (by simpa using hj) (by omega))]
        constructor
        · rintro ⟨h1, h2⟩
          refine ⟨fun j hj hjk => ?_, by simpa using h2⟩
          match j with
          | 0 => simpa using hv
          | j + 1 => simpa using h1 j (by simpa using hj) (by omega)
        · rintro ⟨h1, h2⟩
          exact ⟨fun j hj hjk => h1 (j + 1) (by simpa using hj) (by omega), h2⟩
    · rw [List.takeWhile_cons_of_neg (by simpa using hv), List.length_nil]
      constructor
      · intro h
        subst h
        exact ⟨fun j _ h => absurd h (Nat.not_lt_zero j), by simpa using not_lt.1 hv⟩
      · rintro ⟨h1, _⟩
        by_contra hne
        exact hv (h1 0 (by simp) (Nat.pos_of_ne_zero fun h => hne h.symm))

/-- **C52.** The inverse of the table: the number `y` gives entry `k > 0` exactly when it is in the half
open interval that begins at the relative weight of everything before `k` and is as long as the
relative weight of `k`. Entry 0 is given by all `y` up to its relative weight. -/
theorem inverse_interval {ws : List K} (h : Weights ws) (y : K) (k : Nat) (hk : k < ws.length) :
    (searchsorted (calculateCdf ws) y = k ↔
      (0 < k → (ws.take k).sum / ws.sum < y) ∧ y ≤ (ws.take k).sum / ws.sum + ws[k] / ws.sum) := by
  obtain ⟨hl, hg, hm, _⟩ := cdf_table h
  rw [searchsorted_spec _ _ k (by omega) hm, hg k (by omega)]
  have hsplit : (ws.take (k + 1)).sum / ws.sum = (ws.take k).sum / ws.sum + ws[k] / ws.sum := by
    rw [List.take_succ_eq_append_getElem hk, List.sum_append, List.sum_singleton, add_div]
  rw [hsplit]
  constructor
  · rintro ⟨h1, h2⟩
    refine ⟨fun hpos => ?_, h2⟩
    have := h1 (k - 1) (by omega) (by omega)
    rw [hg, show k - 1 + 1 = k by omega] at this
    exact this
  · rintro ⟨h1, h2⟩
    refine ⟨fun j hj hjk => ?_, h2⟩
    rw [hg]
    refine lt_of_le_of_lt ?_ (h1 (by omega))
    exact div_le_div_of_nonneg_right (sum_take_le h.nonneg (by omega)) h.pos.le

/-- **C52.** Every number up to one gives an entry of the table, and for positive numbers the
weight of that entry is positive. -/
theorem inverse_weight {ws : List K} (h : Weights ws) {y : K} (hy : y ≤ 1) :
    ∃ hk : searchsorted (calculateCdf ws) y < ws.length, 0 < y → 0 < ws[searchsorted (calculateCdf ws) y] := by
  obtain ⟨hl, hg, hm, hlast⟩ := cdf_table h
  have hlt : searchsorted (calculateCdf ws) y < (calculateCdf ws).length := by
    by_contra hge
    have hall : (calculateCdf ws).takeWhile (fun v => decide (v < y)) = calculateCdf ws := by
      apply List.Sublist.eq_of_length_le (List.takeWhile_sublist _)
      exact not_lt.1 hge
    have : ∀ v ∈ calculateCdf ws, v < y := by
      intro v hv
      rw [← hall] at hv
      have := List.all_eq_true.1 (List.all_takeWhile (l := calculateCdf ws) (p := fun v => decide (v < y))) v hv
      simpa using this
    have h1 := this 1 (List.mem_of_getLast? hlast)
    exact absurd hy (not_le.2 h1)
  rw [hl] at hlt
  refine ⟨hlt, fun hpos => ?_⟩
  obtain ⟨h1, h2⟩ := (inverse_interval h y _ hlt).1 rfl
  have h3 : 0 < ws[searchsorted (calculateCdf ws) y] / ws.sum := by
    by_cases h0 : 0 < searchsorted (calculateCdf ws) y
    · have := h1 h0
      linarith
    · have hz : searchsorted (calculateCdf ws) y = 0 := by omega
      have h4 : (ws.take (searchsorted (calculateCdf ws) y)).sum / ws.sum = 0 := by rw [hz]; simp
      rw [h4] at h2
      linarith
  rcases lt_or_eq_of_le (h.nonneg _ (List.getElem_mem hlt)) with hw | hw
  · exact hw
  · rw [← hw] at h3
    simp at h3

theorem takeAll_ok {x : List K} {is : List Nat} (h : ∀ i ∈ is, i < x.length) :
    ∃ vs : List K, takeAll x is = .ok vs ∧ vs.length = is.length ∧
      ∀ n : Nat, vs[n]? = (is[n]?).bind fun (i : Nat) => x[i]? := by
  induction is with
  | nil => exact ⟨[], rfl, rfl, by simp⟩
  | cons i is ih =>
    obtain ⟨vs, h1, h2, h3⟩ := ih fun j hj => h j (by simp [hj])
    have hi := h i (by simp)
    refine ⟨x[i] :: vs, ?_, by simp [h2], ?_⟩
    · unfold takeAll
      rw [List.getElem?_eq_getElem hi, h1]
    · intro n
      match n with
      | 0 => simp [List.getElem?_eq_getElem hi]
      | n + 1 => simpa using h3 n

theorem grid_bounds {a b : K} (hab : a ≤ b) {i wn : Nat} (hi : i < wn) :
    a ≤ a + (i : K) * ((b - a) / (wn - 1 : Nat)) ∧ a + (i : K) * ((b - a) / (wn - 1 : Nat)) ≤ b := by
  have hd : 0 ≤ (b - a) / ((wn - 1 : Nat) : K) := div_nonneg (by linarith) (Nat.cast_nonneg _)
  have hi0 : (0 : K) ≤ i := Nat.cast_nonneg _
  refine ⟨by nlinarith [mul_nonneg hi0 hd], ?_⟩
  have hiw : (i : K) ≤ ((wn - 1 : Nat) : K) := by exact_mod_cast (by omega : i ≤ wn - 1)
  rcases Nat.eq_zero_or_pos (wn - 1) with hz | hz
  · have : i = 0 := by omega
    subst this
    simp [hab]
  · have hz' : (0 : K) < ((wn - 1 : Nat) : K) := by exact_mod_cast hz
    have : (i : K) * ((b - a) / ((wn - 1 : Nat) : K)) ≤ ((wn - 1 : Nat) : K) * ((b - a) / ((wn - 1 : Nat) : K)) :=
      mul_le_mul_of_nonneg_right hiw hd
    rw [mul_div_cancel₀ _ hz'.ne'] at this
    linarith

/-- Numeric inversion for any method that draws numbers: the shape is that of the drawn numbers, and
every element is the grid point that `inverse_interval` gives for its number. -/
theorem sample_data (S : Spline K) (f : Dist K) (a b : K) (hab : a ≤ b) (args : Args K) (wn : Nat) {ws : List K}
    (hf : f (linspace a b wn) args.passed = ws) (hlen : ws.length = wn) (h : Weights ws) (method : String)
    (y : List K) (hy : ∀ v ∈ y, v ≤ 1) {shape : List Nat} (hd : draw method y = .ok ⟨shape, y⟩) :
    ∃ vs : List K, sample S f a b args wn ⟨method, "numeric"⟩ y = .ok ⟨shape, vs⟩ ∧ vs.length = y.length ∧
      (∀ v ∈ vs, a ≤ v ∧ v ≤ b) ∧
      ∀ n : Nat, vs[n]? = y[n]?.map fun v => a + (searchsorted (calculateCdf ws) v : K) * ((b - a) / (wn - 1 : Nat)) := by
  have hll : (linspace a b wn).length = wn := by simp [linspace]
  obtain ⟨vs, h1, h2, h3⟩ := takeAll_ok (x := linspace a b wn) (is := y.map (searchsorted (calculateCdf ws))) (by
    intro i hi
    obtain ⟨v, hv, rfl⟩ := List.mem_map.1 hi
    rw [hll, ← hlen]
    exact (inverse_weight h (hy v hv)).1)
  have h4 : ∀ n : Nat, vs[n]? = y[n]?.map fun v => a + (searchsorted (calculateCdf ws) v : K) * ((b - a) / (wn - 1 : Nat)) := by
    intro n
    rw [h3, List.getElem?_map]
    cases hyn : y[n]? with
    | none => rfl
    | some v =>
      obtain ⟨hlt, _⟩ := inverse_weight h (hy v (List.mem_of_getElem? hyn))
      simp only [Option.map_some, Option.bind_some, linspace, List.getElem?_map]
      rw [List.getElem?_range (by rw [← hlen]; exact hlt)]
      rfl
  refine ⟨vs, ?_, by simpa using h2, ?_, h4⟩
  · unfold sample
    simp only [hd, if_true, cdfOnGrid, hf, h1]
  · intro v hv
    obtain ⟨n, hn⟩ := List.mem_iff_getElem?.1 hv
    rw [h4] at hn
    cases hyn : y[n]? with
    | none => rw [hyn] at hn; cases hn
    | some u =>
      rw [hyn] at hn
      obtain ⟨hlt, _⟩ := inverse_weight h (hy u (List.mem_of_getElem? hyn))
      rw [hlen] at hlt
      rw [← Option.some.inj hn]
      exact grid_bounds hab hlt

/-- **C80.** A call of `sample` for `n` points with method `random` and numeric inversion gives an array
of `n` numbers, all between `a` and `b`. Not proved: the default inversion `interpolate`. -/
theorem sample_random_partial (S : Spline K) (f : Dist K) (a b : K) (hab : a ≤ b) (args : Args K) (wn : Nat) {ws : List K}
    (hf : f (linspace a b wn) args.passed = ws) (hlen : ws.length = wn) (h : Weights ws)
    (y : List K) (hy : ∀ v ∈ y, v ≤ 1) :
    ∃ vs : List K, sample S f a b args wn ⟨"random", "numeric"⟩ y = .ok ⟨[y.length], vs⟩ ∧ vs.length = y.length ∧
      (∀ v ∈ vs, a ≤ v ∧ v ≤ b) ∧
      ∀ n : Nat, vs[n]? = y[n]?.map fun v => a + (searchsorted (calculateCdf ws) v : K) * ((b - a) / (wn - 1 : Nat)) :=
  sample_data S f a b hab args wn hf hlen h "random" y hy rfl

/-- **C80.** With method `halton` the points are the same but the array has two dimensions: no call
gives an array of shape `(n,)`. -/
theorem sample_halton_fails (S : Spline K) (f : Dist K) (a b : K) (hab : a ≤ b) (args : Args K) (wn : Nat) {ws : List K}
    (hf : f (linspace a b wn) args.passed = ws) (hlen : ws.length = wn) (h : Weights ws)
    (y : List K) (hy : ∀ v ∈ y, v ≤ 1) :
    ∃ vs : List K, sample S f a b args wn ⟨"halton", "numeric"⟩ y = .ok ⟨[y.length, 1], vs⟩ ∧ vs.length = y.length ∧
      (∀ v ∈ vs, a ≤ v ∧ v ≤ b) ∧
      ∀ n : Nat, vs[n]? = y[n]?.map fun v => a + (searchsorted (calculateCdf ws) v : K) * ((b - a) / (wn - 1 : Nat)) :=
  sample_data S f a b hab args wn hf hlen h "halton" y hy rfl

/-- **C80.** Other methods and other kinds of inversion are refused. -/
theorem sample_refuses (S : Spline K) (f : Dist K) (a b : K) (args : Args K) (wn : Nat) (opt : Options) (y : List K)
    (h : opt.method ∉ ["random", "halton"] ∨ opt.invert ∉ ["numeric", "interpolate"]) :
    sample S f a b args wn opt y = .error .notImplementedError := by
  simp only [List.mem_cons, List.not_mem_nil, or_false, not_or] at h
  unfold sample draw
  by_cases h1 : opt.method = "random"
  · rcases h with h | h
    · exact absurd h1 h.1
    · simp only [if_pos h1, if_neg h.1, if_neg h.2]
  · by_cases h2 : opt.method = "halton"
    · rcases h with h | h
      · exact absurd h2 h.2
      · simp only [if_neg h1, if_pos h2, if_neg h.1, if_neg h.2]
    · simp only [if_neg h1, if_neg h2]

/-- **C79.** The extra arguments reach the distribution function: a tuple as it is, a number as the only
argument. Proved for numbers other than zero. -/
theorem args_partial (f : Dist K) (grid : List K) :
    (∀ vs, cdfOnGrid f grid (.tuple vs) = calculateCdf (f grid vs)) ∧
    (∀ v, v ≠ 0 → cdfOnGrid f grid (.num v) = calculateCdf (f grid [v])) := by
  refine ⟨fun vs => rfl, fun v hv => ?_⟩
  unfold cdfOnGrid Args.passed
  simp only [if_neg hv]

/-- The number zero does not reach the distribution function. -/
theorem args_zero_fails (f : Dist K) (grid : List K) : cdfOnGrid f grid (.num 0) = calculateCdf (f grid []) := by
  unfold cdfOnGrid Args.passed
  simp only [if_true]

/-- Weights 1, 0, 3. -/
theorem exWeights : Weights ([1, 0, 3] : List ℚ) := ⟨by decide +kernel, by decide +kernel⟩

example : calculateCdf ([1, 0, 3] : List ℚ) = [1 / 4, 1 / 4, 1] := by decide +kernel

example : ∃ hk : searchsorted (calculateCdf ([1, 0, 3] : List ℚ)) (1 / 2) < 3,
    (0 : ℚ) < 1 / 2 → (0 : ℚ) < [1, 0, 3][searchsorted (calculateCdf ([1, 0, 3] : List ℚ)) (1 / 2)] :=
  inverse_weight exWeights (by norm_num)

example : sample (fun _ _ t => t) (fun g _ => g) (0 : ℚ) 2 .none 3 ⟨"random", "numeric"⟩ [0, 1 / 4, 1 / 2] = .ok ⟨[3], [0, 1, 2]⟩ := by
  decide +kernel

example : sample (fun _ _ t => t) (fun g _ => g) (0 : ℚ) 2 .none 3 ⟨"halton", "numeric"⟩ [0, 1 / 4, 1 / 2] = .ok ⟨[3, 1], [0, 1, 2]⟩ := by
  decide +kernel

example : Weights ((fun (g : List ℚ) (_ : List ℚ) => g) (linspace 0 2 3) (Args.none : Args ℚ).passed) ∧
    ∀ v ∈ ([0, 1 / 4, 1 / 2] : List ℚ), v ≤ 1 :=
  ⟨⟨by decide +kernel, by decide +kernel⟩, by decide +kernel⟩

example : sample (fun _ _ t => t) (fun g _ => g) (0 : ℚ) 2 .none 3 ⟨"sobol", "numeric"⟩ [0] = .error .notImplementedError :=
  sample_refuses _ _ _ _ _ _ _ _ (by decide)

example : cdfOnGrid (fun g as => g.map fun v => v + as.sum) [0, 1] (.num (2 : ℚ)) ≠
    cdfOnGrid (fun g as => g.map fun v => v + as.sum) [0, 1] .none := by decide +kernel

example : (calculateCdf ([1, 0, 3] : List ℚ)).getLast? = some 1 := (cdf_table exWeights).2.2.2

example : searchsorted (calculateCdf ([1, 0, 3] : List ℚ)) (1 / 2) = 2 :=
  (inverse_interval exWeights (1 / 2) 2 (by decide)).2 (by norm_num)

example : ∃ vs : List ℚ, sample (fun _ _ t => t) (fun g _ => g) 0 2 .none 3 ⟨"random", "numeric"⟩ [0, 1 / 4, 1 / 2] = .ok ⟨[3], vs⟩ ∧ ∀ v ∈ vs, 0 ≤ v ∧ v ≤ 2 := by
  obtain ⟨vs, h1, _, h2, _⟩ := sample_random_partial (K := ℚ) (fun _ _ t => t) (fun g _ => g) 0 2 (by norm_num) .none 3 (ws := [0, 1, 2]) (by decide +kernel) rfl
    ⟨by decide +kernel, by decide +kernel⟩ [0, 1 / 4, 1 / 2] (by decide +kernel)
  exact ⟨vs, h1, h2⟩

example : ∃ vs : List ℚ, sample (fun _ _ t => t) (fun g _ => g) 0 2 .none 3 ⟨"halton", "numeric"⟩ [0, 1 / 4, 1 / 2] = .ok ⟨[3, 1], vs⟩ ∧ ∀ v ∈ vs, 0 ≤ v ∧ v ≤ 2 := by
  obtain ⟨vs, h1, _, h2, _⟩ := sample_halton_fails (K := ℚ) (fun _ _ t => t) (fun g _ => g) 0 2 (by norm_num) .none 3 (ws := [0, 1, 2]) (by decide +kernel) rfl
    ⟨by decide +kernel, by decide +kernel⟩ [0, 1 / 4, 1 / 2] (by decide +kernel)
  exact ⟨vs, h1, h2⟩

end Verif.Sample
