import Verif.Sample.Props
import Mathlib.Tactic.FieldSimp
import Mathlib.Data.List.Nodup
import Mathlib.Tactic.LinearCombination

/-!
# Property C118: sampling by interpolation
-/

namespace Verif.Sample

variable {K : Type} [Field K] [LinearOrder K] [IsStrictOrderedRing K]

/-- Laws of interpolation used here: the curve goes through its nodes, and it is a straight line if the nodes are on one. -/
structure Interpolates (S : Spline K) : Prop where
  node : ∀ xs ys : List K, xs.length = ys.length → xs.Nodup → ∀ k (hx : k < xs.length) (hy : k < ys.length), S xs ys xs[k] = ys[k]
  line : ∀ xs ys : List K, xs.length = ys.length → xs.Nodup → 4 ≤ xs.length → ∀ m c : K,
    (∀ k (hx : k < xs.length) (hy : k < ys.length), ys[k] = m * xs[k] + c) → ∀ t, S xs ys t = m * t + c

theorem cdf_get (ws : List K) (k : Nat) (hk : k < (calculateCdf ws).length) : (calculateCdf ws)[k] = (ws.take (k + 1)).sum / ws.sum := by
  have := cdfLoop_get ws.sum ws 0 k hk
  rw [zero_add] at this
  exact this

theorem cdf_length (ws : List K) : (calculateCdf ws).length = ws.length := cdfLoop_length _ _ _

theorem sum_take_lt {ws : List K} (h : ∀ w ∈ ws, 0 < w) {i j : Nat} (hij : i < j) (hj : j ≤ ws.length) : (ws.take i).sum < (ws.take j).sum := by
  have h1 : (ws.take (i + 1)).sum = (ws.take i).sum + ws[i] := by
    rw [List.take_succ_eq_append_getElem (by omega), List.sum_append, List.sum_singleton]
  have h2 := h ws[i] (List.getElem_mem _)
  have h3 := sum_take_le (fun w hw => (h w hw).le) (i := i + 1) (j := j) hij
  linarith

theorem cdf_nodup {ws : List K} (h : ∀ w ∈ ws, 0 < w) : (calculateCdf ws).Nodup := by
  rw [List.nodup_iff_injective_get]
  intro i j hij
  simp only [List.get_eq_getElem] at hij
  rw [cdf_get, cdf_get] at hij
  have hi : i.1 < ws.length := lt_of_lt_of_eq i.2 (cdf_length ws)
  have hj : j.1 < ws.length := lt_of_lt_of_eq j.2 (cdf_length ws)
  have hpos : 0 < ws.sum := by
    have := sum_take_lt h (i := 0) (j := ws.length) (by omega) le_rfl
    simpa using this
  have he : (ws.take (i.1 + 1)).sum = (ws.take (j.1 + 1)).sum := by
    rw [div_eq_div_iff hpos.ne' hpos.ne'] at hij
    exact mul_right_cancel₀ hpos.ne' hij
  apply Fin.ext
  rcases Nat.lt_trichotomy i.1 j.1 with hlt | heq | hlt
  · exact absurd he (sum_take_lt h (by omega) (by omega)).ne
  · exact heq
  · exact absurd he (sum_take_lt h (by omega) (by omega)).ne'

theorem linspace_length (a b : K) (wn : Nat) : (linspace a b wn).length = wn := by simp [linspace]

theorem linspace_get (a b : K) (wn k : Nat) (hk : k < (linspace a b wn).length) : (linspace a b wn)[k] = a + (k : K) * ((b - a) / (wn - 1 : Nat)) := by
  simp [linspace]

/-- The result of `sample` with positive weights. -/
theorem sample_interp (S : Spline K) (f : Dist K) (a b : K) (args : Args K) (wn : Nat) (hwn : 4 ≤ wn) {ws : List K} (hf : f (linspace a b wn) args.passed = ws)
    (hlen : ws.length = wn) (h : ∀ w ∈ ws, 0 < w) (method : String) (y : List K) {shape : List Nat} (hd : draw method y = .ok ⟨shape, y⟩) :
    sample S f a b args wn ⟨method, "interpolate"⟩ y = .ok ⟨shape, y.map (S (calculateCdf ws) (linspace a b wn))⟩ := by
  have h1 : cdfOnGrid f (linspace a b wn) args = calculateCdf ws := by unfold cdfOnGrid; rw [hf]
  have h2 : ("interpolate" : String) ≠ "numeric" := by decide
  unfold sample
  simp only [hd, h1, if_neg h2, if_true]
  unfold interpolate
  have e1 : ¬ (calculateCdf ws).length ≠ (linspace a b wn).length := by rw [cdf_length, linspace_length]; omega
  have e2 : ¬ (calculateCdf ws).length < 4 := by rw [cdf_length]; omega
  rw [if_neg e1, if_neg e2, if_pos (cdf_nodup h)]

/-- **C118, nodes.** With positive weights a number that is an entry of the table of the distribution gives its grid point, the same as numeric
inversion, in an array of the shape of the drawn numbers. -/
theorem interp_node_partial (S : Spline K) (hS : Interpolates S) (f : Dist K) (a b : K) (args : Args K) (wn : Nat) (hwn : 4 ≤ wn) {ws : List K}
    (hf : f (linspace a b wn) args.passed = ws) (hlen : ws.length = wn) (h : ∀ w ∈ ws, 0 < w) (y : List K) :
    ∃ vs : List K, sample S f a b args wn ⟨"random", "interpolate"⟩ y = .ok ⟨[y.length], vs⟩ ∧ vs.length = y.length ∧
      ∀ n k : Nat, k < wn → y[n]? = some ((ws.take (k + 1)).sum / ws.sum) →
        vs[n]? = some (a + (k : K) * ((b - a) / (wn - 1 : Nat))) ∧ searchsorted (calculateCdf ws) ((ws.take (k + 1)).sum / ws.sum) = k := by
  refine ⟨_, sample_interp S f a b args wn hwn hf hlen h "random" y rfl, by simp, ?_⟩
  intro n k hk hy
  have hk1 : k < (calculateCdf ws).length := by rw [cdf_length]; omega
  have hk2 : k < (linspace a b wn).length := by rw [linspace_length]; omega
  have hw : Weights ws := by
    refine ⟨fun w hw => (h w hw).le, ?_⟩
    have := sum_take_lt h (i := 0) (j := ws.length) (by omega) le_rfl
    simpa using this
  constructor
  · rw [List.getElem?_map, hy, Option.map_some]
    congr 1
    have := hS.node (calculateCdf ws) (linspace a b wn) (by rw [cdf_length, linspace_length, hlen]) (cdf_nodup h) k hk1 hk2
    rw [cdf_get, linspace_get] at this
    exact this
  · refine (inverse_interval hw _ k (by omega)).2 ⟨fun _ => ?_, ?_⟩
    · exact div_lt_div_of_pos_right (sum_take_lt h (by omega) (by omega)) hw.pos
    · rw [List.take_succ_eq_append_getElem (by omega), List.sum_append, List.sum_singleton, add_div]

/-- **C118, uniform distribution.** For equal weights the sample is below the exact inverse `a + y (b - a)` by `1 - y` steps of the grid. -/
theorem interp_uniform (S : Spline K) (hS : Interpolates S) (f : Dist K) (a b w : K) (hw : 0 < w) (args : Args K) (wn : Nat) (hwn : 4 ≤ wn)
    (hf : f (linspace a b wn) args.passed = List.replicate wn w) (method : String) (y : List K) {shape : List Nat} (hd : draw method y = .ok ⟨shape, y⟩) :
    sample S f a b args wn ⟨method, "interpolate"⟩ y = .ok ⟨shape, y.map fun t => a + t * (b - a) - (1 - t) * ((b - a) / (wn - 1 : Nat))⟩ := by
  have hlen : (List.replicate wn w).length = wn := by simp
  have hpos : ∀ v ∈ List.replicate wn w, 0 < v := by
    intro v hv
    rw [List.eq_of_mem_replicate hv]
    exact hw
  rw [sample_interp S f a b args wn hwn hf hlen hpos method y hd]
  have hn0 : (wn : K) ≠ 0 := by exact_mod_cast (by omega : wn ≠ 0)
  have hn1 : ((wn - 1 : Nat) : K) = wn - 1 := by
    rw [Nat.cast_sub (by omega)]
    simp
  have hn1' : (wn : K) - 1 ≠ 0 := by
    rw [← hn1]
    exact_mod_cast (by omega : wn - 1 ≠ 0)
  congr 2
  refine List.map_congr_left fun t _ => ?_
  rw [hS.line (calculateCdf (List.replicate wn w)) (linspace a b wn) (by rw [cdf_length, linspace_length, hlen]) (cdf_nodup hpos) (by rw [cdf_length, hlen]; exact hwn)
    (wn * ((b - a) / (wn - 1 : Nat))) (a - (b - a) / (wn - 1 : Nat)) ?_ t]
  · rw [hn1]
    field_simp
    ring
  · intro k hk hk'
    have hk2 : k < wn := by rwa [cdf_length, hlen] at hk
    rw [cdf_get, linspace_get, List.take_replicate, List.sum_replicate, List.sum_replicate, Nat.min_eq_left (by omega), nsmul_eq_mul, nsmul_eq_mul, hn1]
    have : w ≠ 0 := hw.ne'
    push_cast
    field_simp
    ring

/-- **C118 is false: samples outside of the interval.** For equal weights every drawn number below `1 / wn` gives a sample below `a`. -/
theorem interp_outside_fails (S : Spline K) (hS : Interpolates S) (f : Dist K) (a b w : K) (hab : a < b) (hw : 0 < w) (args : Args K) (wn : Nat) (hwn : 4 ≤ wn)
    (hf : f (linspace a b wn) args.passed = List.replicate wn w) (t : K) (ht : t < 1 / wn) :
    ∃ v, sample S f a b args wn ⟨"random", "interpolate"⟩ [t] = .ok ⟨[1], [v]⟩ ∧ v < a := by
  refine ⟨_, interp_uniform S hS f a b w hw args wn hwn hf "random" [t] rfl, ?_⟩
  have hn0 : (0 : K) < wn := by exact_mod_cast (by omega : 0 < wn)
  have hn1 : ((wn - 1 : Nat) : K) = wn - 1 := by
    rw [Nat.cast_sub (by omega)]
    simp
  have hn1' : (0 : K) < wn - 1 := by
    rw [← hn1]
    exact_mod_cast (by omega : 0 < wn - 1)
  rw [lt_div_iff₀ hn0] at ht
  rw [hn1]
  have hh : 0 < (b - a) / (wn - 1) := div_pos (by linarith) hn1'
  have e : a + t * (b - a) - (1 - t) * ((b - a) / (wn - 1)) = a + (t * wn - 1) * ((b - a) / (wn - 1)) := by
    field_simp
    ring
  simp only
  rw [e]
  nlinarith

/-- **C118 is false: weights that vanish.** If a weight after the first is zero the call raises ValueError, whatever is drawn. -/
theorem interp_zero_fails (S : Spline K) (f : Dist K) (a b : K) (args : Args K) (wn : Nat) {ws : List K} (hf : f (linspace a b wn) args.passed = ws)
    (k : Nat) (hk : k + 1 < ws.length) (h0 : ws[k + 1]? = some 0) (y : List K) (method : String) (hm : method = "random" ∨ method = "halton") :
    sample S f a b args wn ⟨method, "interpolate"⟩ y = .error .valueError := by
  have hnd : ¬ (calculateCdf ws).Nodup := by
    intro hn
    rw [List.nodup_iff_injective_get] at hn
    have hk1 : k + 1 < (calculateCdf ws).length := by rwa [cdf_length]
    have hk0 : k < (calculateCdf ws).length := by omega
    have := @hn ⟨k, hk0⟩ ⟨k + 1, hk1⟩ (by
      simp only [List.get_eq_getElem]
      rw [cdf_get, cdf_get, List.take_succ_eq_append_getElem (i := k + 1) hk, List.sum_append, List.sum_singleton]
      rw [List.getElem?_eq_getElem hk] at h0
      injection h0 with h0
      rw [h0, add_zero])
    simp at this
  have h1 : cdfOnGrid f (linspace a b wn) args = calculateCdf ws := by unfold cdfOnGrid; rw [hf]
  have h2 : ("interpolate" : String) ≠ "numeric" := by decide
  have h3 : interpolate S (calculateCdf ws) (linspace a b wn) y = .error .valueError := by
    unfold interpolate
    split_ifs <;> rfl
  have hd : ∃ shape, draw method y = .ok ⟨shape, y⟩ := by
    rcases hm with rfl | rfl
    · exact ⟨_, rfl⟩
    · exact ⟨_, rfl⟩
  obtain ⟨shape, hd⟩ := hd
  unfold sample
  simp only [hd, h1, if_neg h2, if_true, h3]

/-- **C118, short grids.** Fewer than four grid points are refused. -/
theorem interp_short (S : Spline K) (f : Dist K) (a b : K) (args : Args K) (wn : Nat) (hwn : wn < 4) (y : List K) (method : String)
    (hm : method = "random" ∨ method = "halton") : sample S f a b args wn ⟨method, "interpolate"⟩ y = .error .valueError := by
  have h2 : ("interpolate" : String) ≠ "numeric" := by decide
  have h3 : interpolate S (cdfOnGrid f (linspace a b wn) args) (linspace a b wn) y = .error .valueError := by
    unfold interpolate
    rw [linspace_length]
    split_ifs with c1 c2
    · rfl
    · rfl
    · omega
    · rfl
  have hd : ∃ shape, draw method y = .ok ⟨shape, y⟩ := by
    rcases hm with rfl | rfl
    · exact ⟨_, rfl⟩
    · exact ⟨_, rfl⟩
  obtain ⟨shape, hd⟩ := hd
  unfold sample
  simp only [hd, if_neg h2, if_true, h3]

/-! ## A curve that meets the laws -/

open Classical in
/-- The line through the nodes if there is one, otherwise the values at the nodes and zero elsewhere. -/
noncomputable def exSpline : Spline ℚ := fun xs ys t =>
  if h : ∃ mc : ℚ × ℚ, ∀ k (_ : k < xs.length) (_ : k < ys.length), ys[k] = mc.1 * xs[k] + mc.2 then h.choose.1 * t + h.choose.2
  else if h : ∃ k, ∃ (_ : k < xs.length) (_ : k < ys.length), xs[k] = t then ys[h.choose]'h.choose_spec.choose_spec.choose
  else 0

theorem exSpline_ok : Interpolates exSpline := by
  constructor
  · intro xs ys hl hn k hx hy
    unfold exSpline
    split_ifs with h1 h2
    · exact (h1.choose_spec k hx hy).symm
    · obtain ⟨g1, g2, g3⟩ := h2.choose_spec
      have he : h2.choose = k := by
        rw [List.nodup_iff_injective_get] at hn
        have := @hn ⟨_, g1⟩ ⟨k, hx⟩ g3
        simpa using this
      simp only [he]
    · exact absurd ⟨k, hx, hy, rfl⟩ h2
  · intro xs ys hl hn h4 m c hline t
    have h1 : ∃ mc : ℚ × ℚ, ∀ k (_ : k < xs.length) (_ : k < ys.length), ys[k] = mc.1 * xs[k] + mc.2 := ⟨(m, c), hline⟩
    unfold exSpline
    rw [dif_pos h1]
    have hspec := h1.choose_spec
    set mc := h1.choose
    have e0 := (hline 0 (by omega) (by omega)).symm.trans (hspec 0 (by omega) (by omega))
    have e1 := (hline 1 (by omega) (by omega)).symm.trans (hspec 1 (by omega) (by omega))
    have hne : xs[0] - xs[1] ≠ 0 := by
      intro h
      rw [List.nodup_iff_injective_get] at hn
      have := @hn ⟨0, by omega⟩ ⟨1, by omega⟩ (sub_eq_zero.1 h)
      simp at this
    have hm : (m - mc.1) * (xs[0] - xs[1]) = 0 := by linear_combination e0 - e1
    have hm' : m = mc.1 := sub_eq_zero.1 ((mul_eq_zero.1 hm).resolve_right hne)
    have hc : c = mc.2 := by rw [hm'] at e0; linarith
    rw [hm', hc]

example : ∃ vs : List ℚ, sample exSpline (fun g _ => g.map fun x => x + 1) 0 3 .none 4 ⟨"random", "interpolate"⟩ [1 / 10, 6 / 10] = .ok ⟨[2], vs⟩ ∧
    vs[0]? = some (0 + ((0 : ℕ) : ℚ) * ((3 - 0) / (4 - 1 : Nat))) ∧ vs[1]? = some (0 + ((2 : ℕ) : ℚ) * ((3 - 0) / (4 - 1 : Nat))) := by
  obtain ⟨vs, h1, _, h2⟩ := interp_node_partial exSpline exSpline_ok (fun g _ => g.map fun x => x + 1) 0 3 .none 4 (by norm_num) (ws := [1, 2, 3, 4])
    (by decide +kernel) rfl (by decide +kernel) [1 / 10, 6 / 10]
  exact ⟨vs, h1, (h2 0 0 (by norm_num) (by norm_num)).1, (h2 1 2 (by norm_num) (by norm_num)).1⟩

example : ∃ v : ℚ, sample exSpline (fun g _ => g.map fun _ => 1) 0 3 .none 4 ⟨"random", "interpolate"⟩ [1 / 10] = .ok ⟨[1], [v]⟩ ∧ v < 0 :=
  interp_outside_fails exSpline exSpline_ok (fun g _ => g.map fun _ => 1) 0 3 1 (by norm_num) (by norm_num) .none 4 (by norm_num) (by decide +kernel) (1 / 10) (by norm_num)

example (S : Spline ℚ) : sample S (fun g _ => g.map fun x => if x < 2 then 1 else 0) 0 3 .none 4 ⟨"random", "interpolate"⟩ [1 / 10] = .error .valueError :=
  interp_zero_fails S (fun g _ => g.map fun x => if x < 2 then 1 else 0) 0 3 .none 4 (ws := [1, 1, 0, 0]) (by decide +kernel) 1 (by norm_num) rfl _ "random" (.inl rfl)

example (S : Spline ℚ) : sample S (fun g _ => g.map fun x => x + 1) 0 3 .none 3 ⟨"halton", "interpolate"⟩ [1 / 10] = .error .valueError :=
  interp_short S _ 0 3 .none 3 (by norm_num) _ "halton" (.inr rfl)

end Verif.Sample
