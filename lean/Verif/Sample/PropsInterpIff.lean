import Verif.Sample.PropsInterp

/-!
C118 exactly: the distributions that can be inverted by interpolation.
-/

namespace Verif.Sample

variable {K : Type} [Field K] [LinearOrder K] [IsStrictOrderedRing K]

/-- The values of the cumulative distribution are different if and only if no weight but the first is zero. -/
theorem cdf_nodup_iff {ws : List K} (hw : Weights ws) : (calculateCdf ws).Nodup ↔ ∀ w ∈ ws.tail, 0 < w := by
  have hstep : ∀ i (hi : i < ws.length), (ws.take (i + 1)).sum = (ws.take i).sum + ws[i] := by
    intro i hi
    rw [List.take_succ_eq_append_getElem hi, List.sum_append, List.sum_singleton]
  constructor
  · intro h w hwm
    rcases (hw.nonneg w (List.mem_of_mem_tail hwm)).lt_or_eq with h0 | h0
    · exact h0
    · exfalso
      obtain ⟨k, hk, hke⟩ := List.getElem_of_mem hwm
      rw [List.length_tail] at hk
      rw [List.getElem_tail] at hke
      have h1 : k < (calculateCdf ws).length := by rw [cdf_length]; omega
      have h2 : k + 1 < (calculateCdf ws).length := by rw [cdf_length]; omega
      have he : (calculateCdf ws)[k] = (calculateCdf ws)[k + 1] := by
        rw [cdf_get, cdf_get, hstep (k + 1) (by omega), hke, ← h0, add_zero]
      have := (List.Nodup.getElem_inj_iff h).1 he
      omega
  · intro h
    have hlt : ∀ i j, i < j → j < ws.length → (ws.take (i + 1)).sum < (ws.take (j + 1)).sum := by
      intro i j hij hj
      have h1 : 0 < ws[i + 1] := h _ (by
        rw [← List.drop_one, List.mem_drop_iff_getElem]
        exact ⟨i, by omega, by simp [add_comm]⟩)
      have h2 := hstep (i + 1) (by omega)
      have h3 := sum_take_le hw.nonneg (i := i + 1 + 1) (j := j + 1) (by omega)
      linarith
    rw [List.nodup_iff_injective_get]
    intro i j hij
    simp only [List.get_eq_getElem] at hij
    rw [cdf_get, cdf_get] at hij
    have hi : i.1 < ws.length := lt_of_lt_of_eq i.2 (cdf_length ws)
    have hj : j.1 < ws.length := lt_of_lt_of_eq j.2 (cdf_length ws)
    have he : (ws.take (i.1 + 1)).sum = (ws.take (j.1 + 1)).sum := by
      rw [div_eq_div_iff hw.pos.ne' hw.pos.ne'] at hij
      exact mul_right_cancel₀ hw.pos.ne' hij
    apply Fin.ext
    rcases Nat.lt_trichotomy i.1 j.1 with hl | heq | hl
    · exact absurd he (hlt _ _ hl hj).ne
    · exact heq
    · exact absurd he (hlt _ _ hl hi).ne'

/-- **C118, exactly.** For weights that are not negative and not all zero, interpolation gives samples if and only if there are at least four grid points, as many weights,
and no weight after the first is zero; otherwise ValueError is raised. -/
theorem interp_iff (S : Spline K) (f : Dist K) (a b : K) (args : Args K) (wn : Nat) {ws : List K} (hf : f (linspace a b wn) args.passed = ws)
    (hw : Weights ws) (method : String) (y : List K) {shape : List Nat} (hd : draw method y = .ok ⟨shape, y⟩) :
    (¬ (ws.length = wn ∧ 4 ≤ wn ∧ ∀ w ∈ ws.tail, 0 < w) → sample S f a b args wn ⟨method, "interpolate"⟩ y = .error .valueError) ∧
    ((ws.length = wn ∧ 4 ≤ wn ∧ ∀ w ∈ ws.tail, 0 < w) →
      sample S f a b args wn ⟨method, "interpolate"⟩ y = .ok ⟨shape, y.map (S (calculateCdf ws) (linspace a b wn))⟩) := by
  have key : sample S f a b args wn ⟨method, "interpolate"⟩ y =
      if ws.length = wn ∧ 4 ≤ wn ∧ ∀ w ∈ ws.tail, 0 < w then .ok ⟨shape, y.map (S (calculateCdf ws) (linspace a b wn))⟩ else .error .valueError := by
    have h1 : cdfOnGrid f (linspace a b wn) args = calculateCdf ws := by unfold cdfOnGrid; rw [hf]
    have h2 : ("interpolate" : String) ≠ "numeric" := by decide
    unfold sample
    simp only [hd, h1, if_neg h2, if_true]
    unfold interpolate
    rw [cdf_length, linspace_length]
    by_cases e1 : ws.length = wn
    · rw [if_neg (not_not.2 e1)]
      by_cases e2 : ws.length < 4
      · rw [if_pos e2, if_neg (by omega)]
      · rw [if_neg e2]
        by_cases e3 : ∀ w ∈ ws.tail, 0 < w
        · rw [if_pos ((cdf_nodup_iff hw).2 e3), if_pos ⟨e1, by omega, e3⟩]
        · rw [if_neg (fun h => e3 ((cdf_nodup_iff hw).1 h)), if_neg (fun h => e3 h.2.2)]
    · rw [if_pos e1, if_neg (fun h => e1 h.1)]
  rw [key]
  exact ⟨fun h => if_neg h, fun h => if_pos h⟩

/-- **C118, nodes.** Whenever samples are given, a number that is an entry of the table gives its grid point, the same as numeric inversion. -/
theorem interp_node_exact (S : Spline K) (hS : Interpolates S) (f : Dist K) (a b : K) (args : Args K) (wn : Nat) {ws : List K}
    (hf : f (linspace a b wn) args.passed = ws) (hw : Weights ws) (y : List K) {r : Arr K}
    (h : sample S f a b args wn ⟨"random", "interpolate"⟩ y = .ok r) :
    r.shape = [y.length] ∧ r.data.length = y.length ∧
      ∀ n k : Nat, k < wn → y[n]? = some ((ws.take (k + 1)).sum / ws.sum) →
        r.data[n]? = some (a + (k : K) * ((b - a) / (wn - 1 : Nat))) ∧ searchsorted (calculateCdf ws) ((ws.take (k + 1)).sum / ws.sum) = k := by
  obtain ⟨h1, h2⟩ := interp_iff S f a b args wn hf hw "random" y (shape := [y.length]) rfl
  by_cases hc : ws.length = wn ∧ 4 ≤ wn ∧ ∀ w ∈ ws.tail, 0 < w
  · rw [h2 hc, Except.ok.injEq] at h
    subst h
    refine ⟨rfl, by simp, ?_⟩
    intro n k hk hy
    have hk1 : k < (calculateCdf ws).length := by rw [cdf_length]; omega
    have hk2 : k < (linspace a b wn).length := by rw [linspace_length]; omega
    have hnd := (cdf_nodup_iff hw).2 hc.2.2
    constructor
    · simp only
      rw [List.getElem?_map, hy, Option.map_some]
      congr 1
      have := hS.node (calculateCdf ws) (linspace a b wn) (by rw [cdf_length, linspace_length, hc.1]) hnd k hk1 hk2
      rw [cdf_get, linspace_get] at this
      exact this
    · refine (inverse_interval hw _ k (by omega)).2 ⟨fun h0 => ?_, ?_⟩
      · refine div_lt_div_of_pos_right ?_ hw.pos
        have h1 : 0 < ws[k] := hc.2.2 _ (by
          rw [← List.drop_one, List.mem_drop_iff_getElem]
          refine ⟨k - 1, by omega, ?_⟩
          congr 1
          omega)
        rw [List.take_succ_eq_append_getElem (by omega), List.sum_append, List.sum_singleton]
        linarith
      · rw [List.take_succ_eq_append_getElem (by omega), List.sum_append, List.sum_singleton, add_div]
  · rw [h1 hc] at h
    cases h

/-- Non-vacuity: a first weight of zero is allowed, a later one is not. -/
example (S : Spline ℚ) : (∃ r, sample S (fun _ _ => [0, 1, 1, 2]) 0 1 .none 4 ⟨"random", "interpolate"⟩ [1 / 4] = .ok r) ∧
    sample S (fun _ _ => [1, 0, 1, 2]) 0 1 .none 4 ⟨"random", "interpolate"⟩ [1 / 4] = .error .valueError :=
  ⟨⟨_, (interp_iff S _ 0 1 .none 4 rfl ⟨by decide, by decide +kernel⟩ "random" [1 / 4] rfl).2 (by decide)⟩,
    (interp_iff S _ 0 1 .none 4 rfl ⟨by decide, by decide +kernel⟩ "random" [1 / 4] rfl).1 (by decide)⟩

end Verif.Sample
