import Verif.Sample.PropsRounded
import Verif.Ptcls.PropsRoundedTwiss

/-!
# Claim C155: sampling by interpolation in double precision
-/

namespace Verif.Sample

open Verif.Py

variable (R : Rounding)

theorem npSum_pos {l : List ℝ} (hl : ∀ x ∈ l, 0 < x) (hf : ∀ x ∈ l, IsFloat x) (hne : l ≠ []) : 0 < npSum R l := by
  induction hn : l.length using Nat.strong_induction_on generalizing l with
  | _ n ih =>
    have hadd : ∀ l : List ℝ, (∀ x ∈ l, 0 < x) → l ≠ [] → 0 < addAll R 0 l := by
      intro l hl hne
      cases l with
      | nil => exact absurd rfl hne
      | cons x l =>
        have h1 : 0 < R.rnd (0 + x) := R.pos (by rw [zero_add]; exact hl x (by simp))
        exact lt_of_lt_of_le h1 (addAll_ge R (R.isFloat _) fun y hy => (hl y (by simp [hy])).le)
    rw [npSum]
    split
    · split
      · exact hadd l hl hne
      · unfold blockSum
        split
        · rename_i a0 a1 a2 a3 a4 a5 a6 a7 rest _ _
          have h := lanes_ge R (r := ![a0, a1, a2, a3, a4, a5, a6, a7]) (fun i => by fin_cases i <;> exact hf _ (by simp))
            (l := rest) (fun x hx => (hl x (by simp [hx])).le)
          have h0 : ∀ i, 0 < (lanes R ![a0, a1, a2, a3, a4, a5, a6, a7] rest).1 i := fun i =>
            lt_of_lt_of_le (by fin_cases i <;> exact hl _ (by simp)) (h.1 i)
          refine lt_of_lt_of_le (R.pos ?_) (addAll_ge R (R.isFloat _) h.2)
          have := R.pos (add_pos (h0 0) (h0 1))
          have := R.pos (add_pos (h0 2) (h0 3))
          have := R.pos (add_pos (h0 4) (h0 5))
          have := R.pos (add_pos (h0 6) (h0 7))
          exact add_pos (R.pos (by linarith)) (R.pos (by linarith))
        · exact hadd l hl hne
    · rename_i h128
      refine R.pos (add_pos (ih _ ?_ (fun x hx => hl x (List.mem_of_mem_take hx)) (fun x hx => hf x (List.mem_of_mem_take hx)) ?_ rfl)
        (ih _ ?_ (fun x hx => hl x (List.mem_of_mem_drop hx)) (fun x hx => hf x (List.mem_of_mem_drop hx)) ?_ rfl))
      · simp only [List.length_take, splitAt]; omega
      · rw [← List.length_pos_iff]; simp only [List.length_take, splitAt]; omega
      · simp only [List.length_drop, splitAt]; omega
      · rw [← List.length_pos_iff]; simp only [List.length_drop, splitAt]; omega

/-- The sum in order is right up to a factor. -/
theorem addAll_bounds {s : ℝ} (hs : 0 ≤ s) {l : List ℝ} (hl : ∀ x ∈ l, 0 ≤ x) :
    (s + l.sum) * (1 - 2 ^ (-53 : ℤ)) ^ l.length ≤ addAll R s l ∧ addAll R s l * (1 - 2 ^ (-53 : ℤ)) ^ l.length ≤ s + l.sum := by
  induction l generalizing s with
  | nil => simp [addAll]
  | cons x l ih =>
    have hx := hl x (by simp)
    have hl' : ∀ y ∈ l, 0 ≤ y := fun y hy => hl y (by simp [hy])
    have hsum : 0 ≤ l.sum := List.sum_nonneg hl'
    have e := R.error (s + x)
    rw [abs_of_nonneg (a := s + x) (by linarith), abs_le] at e
    obtain ⟨h1, h2⟩ := ih (s := R.rnd (s + x)) (R.nonneg (by linarith)) hl'
    have hq : (0 : ℝ) < 1 - 2 ^ (-53 : ℤ) := by norm_num
    have hqn := pow_pos hq l.length
    have hu : (2 : ℝ) ^ (-53 : ℤ) * 2 ^ (-53 : ℤ) ≥ 0 := by positivity
    have hall : addAll R s (x :: l) = addAll R (R.rnd (s + x)) l := rfl
    rw [hall, List.length_cons, List.sum_cons, pow_succ]
    generalize (1 - (2 : ℝ) ^ (-53 : ℤ)) ^ l.length = q at *
    generalize addAll R (R.rnd (s + x)) l = A at *
    generalize R.rnd (s + x) = r at *
    norm_num at *
    constructor
    · have : (s + (x + l.sum)) * (9007199254740991 / 9007199254740992) ≤ r + l.sum := by linarith
      calc _ = (s + (x + l.sum)) * (9007199254740991 / 9007199254740992) * q := by ring
        _ ≤ (r + l.sum) * q := mul_le_mul_of_nonneg_right this hqn.le
        _ ≤ _ := h1
    · calc A * (q * (9007199254740991 / 9007199254740992)) = A * q * (9007199254740991 / 9007199254740992) := by ring
        _ ≤ (r + l.sum) * (9007199254740991 / 9007199254740992) := by linarith
        _ ≤ _ := by linarith

theorem pow_half {n : ℕ} (hn : n ≤ 2 ^ 52) : (1 / 2 : ℝ) ≤ (1 - 2 ^ (-53 : ℤ)) ^ n := by
  have h := one_add_mul_le_pow (a := -(2 : ℝ) ^ (-53 : ℤ)) (by norm_num) n
  rw [← sub_eq_add_neg] at h
  refine le_trans ?_ h
  have h2 : (n : ℝ) ≤ 4503599627370496 := by exact_mod_cast hn
  norm_num
  linarith

theorem addAll_half {l : List ℝ} (hl : ∀ x ∈ l, 0 ≤ x) (hn : l.length ≤ 2 ^ 52) : l.sum / 2 ≤ addAll R 0 l ∧ addAll R 0 l ≤ 2 * l.sum := by
  obtain ⟨h1, h2⟩ := addAll_bounds R le_rfl hl
  have h3 := pow_half hn
  have hs := List.sum_nonneg hl
  have h4 : 0 ≤ addAll R 0 l := addAll_ge R isFloat_zero hl
  rw [zero_add] at h1 h2
  generalize (1 - (2 : ℝ) ^ (-53 : ℤ)) ^ l.length = q at *
  constructor
  · have := mul_le_mul_of_nonneg_left h3 hs
    linarith
  · have := mul_le_mul_of_nonneg_left h3 h4
    linarith

theorem loop_get (total s : ℝ) (ws : List ℝ) (k : ℕ) (hk : k < ws.length) :
    (rCdfLoop R total s ws)[k]? = some (R.rnd (addAll R s (ws.take (k + 1)) / total)) := by
  induction ws generalizing s k with
  | nil => simp at hk
  | cons w ws ih =>
    cases k with
    | zero => simp [rCdfLoop, addAll]
    | succ k =>
      rw [rCdfLoop, List.getElem?_cons_succ, ih (R.rnd (s + w)) k (by simpa using hk)]
      rfl

/-- Values that grow enough are different. -/
theorem loop_strict {total s : ℝ} (ht : 0 < total) (hs : 0 ≤ s) {ws : List ℝ}
    (hw : ∀ k w, ws[k]? = some w → 0 < w ∧ addAll R s (ws.take k) * 2 ^ (-50 : ℤ) ≤ w) :
    (rCdfLoop R total s ws).Pairwise (· < ·) ∧ ∀ v ∈ rCdfLoop R total s ws, R.rnd (s / total) < v := by
  induction ws generalizing s with
  | nil => exact ⟨.nil, by simp [rCdfLoop]⟩
  | cons w ws ih =>
    obtain ⟨w0, w1⟩ := hw 0 w rfl
    have w2 : s * 2 ^ (-50 : ℤ) ≤ w := w1
    obtain ⟨h1, h2⟩ := ih (s := R.rnd (s + w)) (R.nonneg (by linarith)) fun k v hv => hw (k + 1) v (by simpa using hv)
    have h3 : R.rnd (s / total) < R.rnd (R.rnd (s + w) / total) := by
      rcases eq_or_lt_of_le hs with rfl | hs
      · rw [zero_div, R.rnd_zero]
        exact R.pos (div_pos (R.pos (by linarith)) ht)
      · have e1 := R.error (s + w)
        rw [abs_of_nonneg (a := s + w) (by linarith), abs_le] at e1
        have e2 := R.error (R.rnd (s + w) / total)
        rw [abs_of_nonneg (a := R.rnd (s + w) / total) (div_nonneg (R.nonneg (by linarith)) ht.le), abs_le] at e2
        have e3 := R.error (s / total)
        rw [abs_of_pos (a := s / total) (div_pos hs ht), abs_le] at e3
        have h4 : s * (1 + 2 ^ (-51 : ℤ)) ≤ R.rnd (s + w) := by
          norm_num at e1 w2 ⊢
          linarith
        have h5 : s / total * (1 + 2 ^ (-51 : ℤ)) ≤ R.rnd (s + w) / total := by
          rw [div_mul_eq_mul_div]
          exact div_le_div_of_nonneg_right h4 ht.le
        have h6 := div_pos hs ht
        norm_num at e2 e3 h5 ⊢
        linarith
    rw [rCdfLoop]
    refine ⟨List.pairwise_cons.2 ⟨h2, h1⟩, ?_⟩
    intro v hv
    rcases List.mem_cons.1 hv with rfl | hv
    · exact h3
    · exact h3.trans (h2 v hv)

/-- **C155 for weights that do not fall too fast.** If every weight is at least `2^-49` of the sum of the weights before it, interpolation
gives as many samples as numbers were drawn. -/
theorem interp_rounded_partial (S : Spline ℝ) {x ws : List ℝ} (y : List ℝ) (hx : x.length = ws.length) (h4 : 4 ≤ ws.length) (hlen : ws.length ≤ 2 ^ 52)
    (hf : ∀ w ∈ ws, 0 < w ∧ IsFloat w) (hw : ∀ k w, ws[k]? = some w → (ws.take k).sum * 2 ^ (-49 : ℤ) ≤ w) :
    ∃ vs, interpolate S (rCalculateCdf R ws) x y = .ok vs ∧ vs.length = y.length ∧ (rCalculateCdf R ws).Pairwise (· < ·) := by
  have hT := npSum_pos R (fun w h => (hf w h).1) (fun w h => (hf w h).2) (by rw [← List.length_pos_iff]; omega)
  have hst := (loop_strict R (ws := ws) hT le_rfl (by
    intro k w hk
    refine ⟨(hf w (List.mem_of_getElem? hk)).1, ?_⟩
    have h1 := (addAll_half R (l := ws.take k) (fun v hv => (hf v (List.mem_of_mem_take hv)).1.le) (by rw [List.length_take]; omega)).2
    have h2 := hw k w hk
    norm_num at h2 ⊢
    linarith)).1
  have hl := (rCdfLoop_get R (npSum R ws) 0 ws).1
  refine ⟨y.map (S (rCalculateCdf R ws) x), ?_, by simp, hst⟩
  unfold interpolate
  have h1 : (rCalculateCdf R ws).length = ws.length := hl
  rw [if_neg (by rw [h1, hx]; simp), if_neg (by rw [h1]; omega), if_pos]
  exact hst.imp fun h => ne_of_lt h

/-- **C155 is false for weights that fall fast.** If a weight is positive but less than `2^-55` of the sum of the weights before it, two
values of the table are equal and interpolation raises ValueError, whatever is drawn. -/
theorem interp_flat_fails (S : Spline ℝ) (x : List ℝ) {ws : List ℝ} (y : List ℝ) (hlen : ws.length ≤ 2 ^ 52)
    (hw : ∀ w ∈ ws, 0 ≤ w) {k : ℕ} {w : ℝ} (hk : ws[k]? = some w) (h : w < (ws.take k).sum * 2 ^ (-55 : ℤ)) :
    interpolate S (rCalculateCdf R ws) x y = .error .valueError := by
  have hkl : k < ws.length := (List.getElem?_eq_some_iff.1 hk).1
  have hw0 := hw w (List.mem_of_getElem? hk)
  have hk0 : k ≠ 0 := by
    rintro rfl
    simp at h
    linarith
  obtain ⟨j, rfl⟩ := Nat.exists_eq_succ_of_ne_zero hk0
  have h1 := (addAll_half R (l := ws.take (j + 1)) (fun v hv => hw v (List.mem_of_mem_take hv)) (by rw [List.length_take]; omega)).1
  have hA : 0 < addAll R 0 (ws.take (j + 1)) := by
    norm_num at h
    linarith
  have h2 : addAll R 0 (ws.take (j + 1 + 1)) = addAll R 0 (ws.take (j + 1)) := by
    have h3 : ws.take (j + 1 + 1) = ws.take (j + 1) ++ [w] := by
      rw [List.take_add_one, hk]; rfl
    have h5 : addAll R 0 (ws.take (j + 1) ++ [w]) = R.rnd (addAll R 0 (ws.take (j + 1)) + w) := by
      simp only [addAll, List.foldl_append, List.foldl_cons, List.foldl_nil]
    rw [h3, h5]
    refine Ptcls.rnd_absorb R (addAll_isFloat R isFloat_zero _) hA ?_
    rw [abs_of_nonneg hw0]
    norm_num at h ⊢
    linarith
  have g1 := loop_get R (npSum R ws) 0 ws j (by omega)
  have g2 := loop_get R (npSum R ws) 0 ws (j + 1) hkl
  rw [h2] at g2
  have hnd : ¬ (rCalculateCdf R ws).Nodup := by
    intro hn
    have := (List.getElem?_inj (l := rCalculateCdf R ws) (i := j) (j := j + 1) (by
      rw [show (rCalculateCdf R ws).length = ws.length from (rCdfLoop_get R (npSum R ws) 0 ws).1]; omega) hn).1 (g1.trans g2.symm)
    omega
  unfold interpolate
  by_cases ha : (rCalculateCdf R ws).length ≠ x.length
  · rw [if_pos ha]
  · rw [if_neg ha]
    by_cases hb : (rCalculateCdf R ws).length < 4
    · rw [if_pos hb]
    · rw [if_neg hb, if_neg hnd]

example (S : Spline ℝ) : ∃ vs, interpolate S (rCalculateCdf R [1, 2, 4, 1]) [0, 1, 2, 3] [1 / 2] = .ok vs ∧ vs.length = 1 := by
  obtain ⟨vs, h, h2, -⟩ := interp_rounded_partial R S (x := [0, 1, 2, 3]) (ws := [1, 2, 4, 1]) [1 / 2] rfl (by simp) (by norm_num)
    (by
      intro w hw
      simp only [List.mem_cons, List.not_mem_nil, or_false] at hw
      rcases hw with rfl | rfl | rfl | rfl
      · exact ⟨by norm_num, isFloat_one⟩
      · exact ⟨by norm_num, ⟨2, 0, by norm_num, by norm_num⟩⟩
      · exact ⟨by norm_num, ⟨4, 0, by norm_num, by norm_num⟩⟩
      · exact ⟨by norm_num, isFloat_one⟩)
    (by
      intro k w hk
      match k, hk with
      | 0, hk => simp at hk; subst hk; norm_num
      | 1, hk => simp at hk; subst hk; norm_num
      | 2, hk => simp at hk; subst hk; norm_num
      | 3, hk => simp at hk; subst hk; norm_num
      | k + 4, hk => simp at hk)
  exact ⟨vs, h, h2⟩

/-- The tail of a Gaussian: the last weight is `2^-60`. -/
example (S : Spline ℝ) : interpolate S (rCalculateCdf R [1, 1, 1, 2 ^ (-60 : ℤ)]) [0, 1, 2, 3] [1 / 2] = .error .valueError :=
  interp_flat_fails R S _ _ (by norm_num) (by intro w hw; simp at hw; rcases hw with rfl | rfl <;> norm_num) (k := 3) rfl (by norm_num)

end Verif.Sample
