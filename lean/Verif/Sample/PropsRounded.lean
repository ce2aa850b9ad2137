import Verif.Sample.Rounded
import Mathlib.Tactic.FinCases

/-!
# Numeric sampling with rounded arithmetic (C144)
-/

namespace Verif.Sample

open Verif.Py

variable (R : Rounding)

theorem addAll_ge {s : ℝ} (hs : IsFloat s) {l : List ℝ} (hl : ∀ x ∈ l, 0 ≤ x) : s ≤ addAll R s l := by
  induction l generalizing s with
  | nil => exact le_refl _
  | cons x l ih =>
    have h0 := hl x (List.mem_cons_self ..)
    refine le_trans (R.ge_of_ge hs (show s ≤ s + x by linarith)) ?_
    exact ih (R.isFloat _) fun y hy => hl y (List.mem_cons_of_mem _ hy)

theorem addAll_isFloat {s : ℝ} (hs : IsFloat s) (l : List ℝ) : IsFloat (addAll R s l) := by
  induction l generalizing s with
  | nil => exact hs
  | cons x l ih => exact ih (R.isFloat _)

/-- The values of the loop: monotone, and the last one belongs to the sum in order. -/
theorem rCdfLoop_get (total s : ℝ) (ws : List ℝ) : (rCdfLoop R total s ws).length = ws.length ∧
    ∀ w ∈ ws.getLast?, (rCdfLoop R total s ws).getLast? = some (R.rnd (addAll R s ws / total)) := by
  induction ws generalizing s with
  | nil => exact ⟨rfl, by simp⟩
  | cons w ws ih =>
    obtain ⟨h1, h2⟩ := ih (R.rnd (s + w))
    refine ⟨by rw [rCdfLoop, List.length_cons, h1, List.length_cons], ?_⟩
    intro v hv
    cases ws with
    | nil => rfl
    | cons w' ws =>
      rw [List.getLast?_cons_cons] at hv
      have := h2 v hv
      rw [rCdfLoop, rCdfLoop] at *
      rw [List.getLast?_cons_cons]
      exact this

theorem rCdfLoop_sorted {total s : ℝ} (ht : 0 ≤ total) (hs : IsFloat s) {ws : List ℝ} (hw : ∀ w ∈ ws, 0 ≤ w) :
    (rCdfLoop R total s ws).Pairwise (· ≤ ·) ∧ ∀ v ∈ rCdfLoop R total s ws, R.rnd (s / total) ≤ v := by
  induction ws generalizing s with
  | nil => exact ⟨.nil, by simp [rCdfLoop]⟩
  | cons w ws ih =>
    obtain ⟨h1, h2⟩ := ih (s := R.rnd (s + w)) (R.isFloat _) fun y hy => hw y (List.mem_cons_of_mem _ hy)
    have h0 := hw w (List.mem_cons_self ..)
    have h3 : R.rnd (s / total) ≤ R.rnd (R.rnd (s + w) / total) :=
      R.mono (div_le_div_of_nonneg_right (R.ge_of_ge hs (by linarith)) ht)
    rw [rCdfLoop]
    refine ⟨List.pairwise_cons.2 ⟨h2, h1⟩, ?_⟩
    intro v hv
    rcases List.mem_cons.1 hv with rfl | hv
    · exact h3
    · exact h3.trans (h2 v hv)

/-- An index is in range exactly if some value is not smaller than the drawn number. -/
theorem searchsorted_lt_iff {l : List ℝ} {y : ℝ} : searchsorted l y < l.length ↔ ∃ v ∈ l, y ≤ v := by
  rw [searchsorted]
  induction l with
  | nil => simp
  | cons v l ih =>
    by_cases h : v < y
    · rw [List.takeWhile_cons_of_pos (by simpa using h), List.length_cons, List.length_cons, Nat.add_lt_add_iff_right, ih]
      simp [not_le.2 h]
    · rw [List.takeWhile_cons_of_neg (by simpa using h)]
      simp only [List.length_nil, List.length_cons, Nat.zero_lt_succ, true_iff]
      exact ⟨v, List.mem_cons_self .., not_lt.1 h⟩

theorem takeAll_iff {K : Type} {x : List K} {is : List Nat} :
    ((∃ vs, takeAll x is = .ok vs) ↔ ∀ i ∈ is, i < x.length) ∧ (¬ (∀ i ∈ is, i < x.length) → takeAll x is = .error .indexError) := by
  induction is with
  | nil => exact ⟨by simp [takeAll], by simp⟩
  | cons i is ih =>
    obtain ⟨h1, h2⟩ := ih
    by_cases hi : i < x.length
    · by_cases hr : ∀ j ∈ is, j < x.length
      · obtain ⟨vs, hvs⟩ := h1.2 hr
        refine ⟨⟨fun _ j hj => ?_, fun _ => ⟨x[i] :: vs, ?_⟩⟩, fun hc => absurd ?_ hc⟩
        · rcases List.mem_cons.1 hj with rfl | hj
          exacts [hi, hr j hj]
        · rw [takeAll, List.getElem?_eq_getElem hi, hvs]
        · intro j hj
          rcases List.mem_cons.1 hj with rfl | hj
          exacts [hi, hr j hj]
      · have he : takeAll x (i :: is) = .error .indexError := by
          rw [takeAll, List.getElem?_eq_getElem hi, h2 hr]
        refine ⟨⟨fun ⟨vs, h⟩ => ?_, fun h => absurd (fun j hj => h j (List.mem_cons_of_mem _ hj)) hr⟩, fun _ => he⟩
        rw [he] at h; cases h
    · have he : takeAll x (i :: is) = .error .indexError := by
        rw [takeAll, List.getElem?_eq_none (not_lt.1 hi)]
      refine ⟨⟨fun ⟨vs, h⟩ => ?_, fun h => absurd (h i (List.mem_cons_self ..)) hi⟩, fun _ => he⟩
      rw [he] at h; cases h

/-- **C144, exactly.** Numeric inversion with rounded arithmetic succeeds exactly if no drawn number is larger than the last value of the table, the
rounded quotient of the sum in order and `np.sum`; otherwise it raises IndexError. -/
theorem numeric_rounded_iff {x ws y : List ℝ} (hw : ∀ w ∈ ws, 0 ≤ w) (hne : ws ≠ []) (hx : x.length = ws.length) (ht : 0 ≤ npSum R ws) :
    ((∃ vs, rNumeric R x ws y = .ok vs) ↔ ∀ u ∈ y, u ≤ R.rnd (addAll R 0 ws / npSum R ws)) ∧
    (¬ (∀ u ∈ y, u ≤ R.rnd (addAll R 0 ws / npSum R ws)) → rNumeric R x ws y = .error .indexError) := by
  obtain ⟨hlen, hlast⟩ := rCdfLoop_get R (npSum R ws) 0 ws
  obtain ⟨hsort, -⟩ := rCdfLoop_sorted R ht isFloat_zero hw
  have hl := hlast (ws.getLast hne) (List.getLast?_eq_some_getLast hne)
  have key : (∀ i ∈ y.map (searchsorted (rCalculateCdf R ws)), i < x.length) ↔ ∀ u ∈ y, u ≤ R.rnd (addAll R 0 ws / npSum R ws) := by
    rw [List.forall_mem_map]
    refine forall₂_congr fun u _ => ?_
    rw [hx, ← hlen]
    refine Iff.trans searchsorted_lt_iff ?_
    constructor
    · rintro ⟨v, hv, huv⟩
      refine huv.trans ?_
      obtain ⟨l', hl'⟩ := List.getLast?_eq_some_iff.1 hl
      rw [rCalculateCdf] at hv
      rw [hl'] at hsort hv
      rw [List.pairwise_append] at hsort
      rcases List.mem_append.1 hv with hv | hv
      · exact hsort.2.2 v hv _ (List.mem_singleton_self _)
      · rw [List.mem_singleton] at hv; rw [hv]
    · intro h
      exact ⟨_, List.mem_of_getLast? hl, h⟩
  exact ⟨takeAll_iff.1.trans key, fun h => takeAll_iff.2 fun hc => h (key.1 hc)⟩

/-- **C144, small grids.** With up to 7 grid points and a positive weight, all numbers below 1 can be drawn. Missing: larger grids
(`numeric_fails`). -/
theorem numeric_small_partial {x ws y : List ℝ} (hw : ∀ w ∈ ws, 0 ≤ w ∧ IsFloat w) (hpos : ∃ w ∈ ws, 0 < w) (hx : x.length = ws.length)
    (h8 : ws.length < 8) (hy : ∀ u ∈ y, u < 1) : ∃ vs, rNumeric R x ws y = .ok vs := by
  have hsum : npSum R ws = addAll R 0 ws := by
    rw [npSum, dif_pos (by omega), if_pos h8]
  have hp : 0 < addAll R 0 ws := by
    obtain ⟨w, hw1, hw2⟩ := hpos
    obtain ⟨l1, l2, rfl⟩ := List.append_of_mem hw1
    rw [addAll, List.foldl_append, List.foldl_cons]
    have h1 : 0 ≤ addAll R 0 l1 := addAll_ge R isFloat_zero fun v hv => (hw v (by simp [hv])).1
    refine lt_of_lt_of_le (R.pos (show 0 < addAll R 0 l1 + w by linarith)) ?_
    exact addAll_ge R (R.isFloat _) fun v hv => (hw v (by simp [hv])).1
  have hne : ws ≠ [] := by rintro rfl; simp at hpos
  refine (numeric_rounded_iff R (fun w h => (hw w h).1) hne hx (by rw [hsum]; exact hp.le)).1.2 ?_
  intro u hu
  rw [hsum, div_self hp.ne', R.rnd_one]
  exact (hy u hu).le

/-- The small weight of the examples: 3/4 of half the distance from 1 to the next number. -/
noncomputable def tiny : ℝ := 3 * 2 ^ (-55 : ℤ)

/-- One weight 1, and `n` small weights. -/
noncomputable def peaked (n : Nat) : List ℝ := 1 :: List.replicate n tiny

theorem tiny_pos : 0 < tiny := by rw [tiny]; positivity

theorem tiny_float : IsFloat tiny := ⟨3, -55, by norm_num, by norm_num [tiny]⟩

theorem one_add_tiny : R.rnd (1 + tiny) = 1 := by
  refine le_antisymm ?_ (R.ge_of_ge isFloat_one (by linarith [tiny_pos]))
  by_contra hc
  rw [not_le] at hc
  have h1 := R.nearest (1 + tiny) 1 isFloat_one
  have h2 := IsFloat.gap_above (m := 2 ^ 52) (e := -52) le_rfl (R.isFloat (1 + tiny)) (by push_cast; norm_num at hc ⊢; exact hc)
  rw [show (1 : ℝ) - (1 + tiny) = -tiny by ring, abs_neg, abs_of_pos tiny_pos, abs_le] at h1
  have h3 := h1.2
  generalize R.rnd (1 + tiny) = r at *
  rw [tiny] at h3
  push_cast at h2
  norm_num at h2 h3
  linarith

theorem addAll_peaked (n : Nat) : addAll R 0 (peaked n) = 1 := by
  rw [addAll, peaked, List.foldl_cons, zero_add, R.rnd_one]
  induction n with
  | zero => rfl
  | succ n ih => rw [List.replicate_succ, List.foldl_cons, one_add_tiny]; exact ih

theorem lanes_ge {r : Fin 8 → ℝ} (hr : ∀ i, IsFloat (r i)) {l : List ℝ} (hl : ∀ x ∈ l, 0 ≤ x) :
    (∀ i, r i ≤ (lanes R r l).1 i) ∧ ∀ x ∈ (lanes R r l).2, 0 ≤ x := by
  induction hn : l.length using Nat.strong_induction_on generalizing r l with
  | _ n ih =>
    unfold lanes
    split
    · rename_i a0 a1 a2 a3 a4 a5 a6 a7 rest
      have h := ih rest.length (by rw [← hn]; simp only [List.length_cons]; omega) (r := fun i => R.rnd (r i + ![a0, a1, a2, a3, a4, a5, a6, a7] i))
        (fun i => R.isFloat _) (l := rest) (fun x hx => hl x (by simp [hx])) rfl
      refine ⟨fun i => le_trans (R.ge_of_ge (hr i) ?_) (h.1 i), h.2⟩
      have : 0 ≤ ![a0, a1, a2, a3, a4, a5, a6, a7] i := by
        fin_cases i <;> exact hl _ (by simp)
      linarith
    · exact ⟨fun i => le_refl _, hl⟩

theorem npSum_nonneg {l : List ℝ} (hl : ∀ x ∈ l, 0 ≤ x) (hf : ∀ x ∈ l, IsFloat x) : 0 ≤ npSum R l := by
  induction hn : l.length using Nat.strong_induction_on generalizing l with
  | _ n ih =>
    rw [npSum]
    split
    · split
      · exact addAll_ge R isFloat_zero hl
      · unfold blockSum
        split
        · rename_i a0 a1 a2 a3 a4 a5 a6 a7 rest _ _
          have h := lanes_ge R (r := ![a0, a1, a2, a3, a4, a5, a6, a7]) (fun i => by fin_cases i <;> exact hf _ (by simp))
            (l := rest) (fun x hx => hl x (by simp [hx]))
          have h0 : ∀ i, 0 ≤ (lanes R ![a0, a1, a2, a3, a4, a5, a6, a7] rest).1 i := fun i =>
            le_trans (by fin_cases i <;> exact hl _ (by simp)) (h.1 i)
          refine le_trans (R.nonneg ?_) (addAll_ge R (R.isFloat _) h.2)
          have := R.nonneg (add_nonneg (h0 0) (h0 1))
          have := R.nonneg (add_nonneg (h0 2) (h0 3))
          have := R.nonneg (add_nonneg (h0 4) (h0 5))
          have := R.nonneg (add_nonneg (h0 6) (h0 7))
          exact add_nonneg (R.nonneg (by linarith)) (R.nonneg (by linarith))
        · exact addAll_ge R isFloat_zero hl
    · refine R.nonneg (add_nonneg (ih _ ?_ (fun x hx => hl x (List.mem_of_mem_take hx)) (fun x hx => hf x (List.mem_of_mem_take hx)) rfl)
        (ih _ ?_ (fun x hx => hl x (List.mem_of_mem_drop hx)) (fun x hx => hf x (List.mem_of_mem_drop hx)) rfl))
      · simp only [List.length_take, splitAt]; omega
      · simp only [List.length_drop, splitAt]; omega

theorem next_float : IsFloat (1 + 2 ^ (-52 : ℤ)) := ⟨2 ^ 52 + 1, -52, by norm_num, by norm_num⟩

/-- 1 and two small weights are already the number after 1. -/
theorem one_add_two : (1 : ℝ) + 2 ^ (-52 : ℤ) ≤ R.rnd (1 + 2 * tiny) := by
  by_contra hc
  have h1 := R.nearest (1 + 2 * tiny) _ next_float
  have h2 : R.rnd (1 + 2 * tiny) ≤ 1 := by
    by_contra hd
    rw [not_le] at hd
    have h2 := IsFloat.gap_above (m := 2 ^ 52) (e := -52) le_rfl (R.isFloat (1 + 2 * tiny)) (by push_cast; norm_num at hd ⊢; exact hd)
    apply hc
    push_cast at h2
    norm_num at h2 ⊢
    linarith
  have h3 : |(1 : ℝ) + 2 ^ (-52 : ℤ) - (1 + 2 * tiny)| = 2 * 2 ^ (-55 : ℤ) := by
    rw [tiny, abs_of_pos] <;> norm_num
  rw [h3, abs_le] at h1
  have h4 := h1.1
  rw [tiny] at h2 h4
  generalize R.rnd _ = r at h2 h4
  norm_num at h2 h4
  linarith

theorem npSum_peaked {n : Nat} (hn : 7 ≤ n) : (1 : ℝ) + 2 ^ (-52 : ℤ) ≤ npSum R (peaked n) := by
  have hnn : ∀ k, ∀ x ∈ peaked k, 0 ≤ x ∧ IsFloat x := by
    intro k x hx
    rcases List.mem_cons.1 hx with rfl | hx
    · exact ⟨zero_le_one, isFloat_one⟩
    · rw [List.eq_of_mem_replicate hx]; exact ⟨tiny_pos.le, tiny_float⟩
  induction n using Nat.strong_induction_on with
  | _ n ih =>
    have hlen : (peaked n).length = n + 1 := by simp [peaked]
    rw [npSum]
    split
    · rw [if_neg (by omega)]
      obtain ⟨k, rfl⟩ : ∃ k, n = k + 7 := ⟨n - 7, by omega⟩
      have hp : peaked (k + 7) = 1 :: tiny :: tiny :: tiny :: tiny :: tiny :: tiny :: tiny :: List.replicate k tiny := rfl
      rw [hp, blockSum]
      have h := lanes_ge R (r := ![1, tiny, tiny, tiny, tiny, tiny, tiny, tiny])
        (fun i => by fin_cases i <;> first | exact isFloat_one | exact tiny_float)
        (l := List.replicate k tiny) (fun x hx => by rw [List.eq_of_mem_replicate hx]; exact tiny_pos.le)
      generalize lanes R ![1, tiny, tiny, tiny, tiny, tiny, tiny, tiny] (List.replicate k tiny) = L at h
      obtain ⟨r, left⟩ := L
      obtain ⟨h1, h2⟩ := h
      refine le_trans ?_ (addAll_ge R (R.isFloat _) h2)
      have a0 : (1 : ℝ) ≤ r 0 := h1 0
      have a1 : tiny ≤ r 1 := h1 1
      have a2 : tiny ≤ r 2 := h1 2
      have a3 : tiny ≤ r 3 := h1 3
      have a4 : tiny ≤ r 4 := h1 4
      have a5 : tiny ≤ r 5 := h1 5
      have a6 : tiny ≤ r 6 := h1 6
      have a7 : tiny ≤ r 7 := h1 7
      have t0 := tiny_pos
      have tf : IsFloat (2 * tiny) := ⟨3, -54, by norm_num, by norm_num [tiny]⟩
      have b0 : 1 ≤ R.rnd (r 0 + r 1) := R.ge_of_ge isFloat_one (by linarith)
      have b1 : 2 * tiny ≤ R.rnd (r 2 + r 3) := R.ge_of_ge tf (by linarith)
      have b2 : 0 ≤ R.rnd (r 4 + r 5) := R.nonneg (by linarith)
      have b3 : 0 ≤ R.rnd (r 6 + r 7) := R.nonneg (by linarith)
      have b4 : 0 ≤ R.rnd (R.rnd (r 4 + r 5) + R.rnd (r 6 + r 7)) := R.nonneg (by linarith)
      have b5 : 1 + 2 ^ (-52 : ℤ) ≤ R.rnd (R.rnd (r 0 + r 1) + R.rnd (r 2 + r 3)) :=
        (one_add_two R).trans (R.mono (by linarith))
      exact R.ge_of_ge next_float (by linarith)
    · have hs : 64 ≤ splitAt (n + 1) ∧ splitAt (n + 1) ≤ n := by simp only [splitAt]; omega
      rw [hlen]
      obtain ⟨k, hk⟩ : ∃ k, splitAt (n + 1) = k + 1 := ⟨splitAt (n + 1) - 1, by omega⟩
      have ht : (peaked n).take (splitAt (n + 1)) = peaked k := by
        rw [hk, peaked, List.take_succ_cons, List.take_replicate, Nat.min_eq_left (by omega), peaked]
      rw [ht]
      have h1 := ih k (by omega) (by omega)
      have h2 : 0 ≤ npSum R ((peaked n).drop (splitAt (n + 1))) :=
        npSum_nonneg R (fun x hx => (hnn n x (List.mem_of_mem_drop hx)).1) (fun x hx => (hnn n x (List.mem_of_mem_drop hx)).2)
      exact R.ge_of_ge next_float (by linarith)

/-- **C144, negated.** For every grid of 8 different points or more there is a positive distribution for which the largest number `np.random.random`
draws, `1 - 2 ** -53`, raises IndexError, whatever else is drawn and however ties are rounded. -/
theorem numeric_fails {x : List ℝ} (hx : 8 ≤ x.length) (hd : x.Nodup) : ∃ f : ℝ → ℝ, (∀ v, 0 < f v ∧ IsFloat (f v)) ∧
    ∀ R : Rounding, ∀ y : List ℝ, 1 - 2 ^ (-53 : ℤ) ∈ y → rNumeric R x (x.map f) y = .error .indexError := by
  obtain ⟨n, hn⟩ : ∃ n, x.length = n + 1 := ⟨x.length - 1, by omega⟩
  obtain ⟨x0, xs, rfl⟩ := List.exists_cons_of_length_eq_add_one hn
  have hpos : ∀ w ∈ peaked n, 0 < w ∧ IsFloat w := by
    intro x hx
    rcases List.mem_cons.1 hx with rfl | hx
    · exact ⟨zero_lt_one, isFloat_one⟩
    · rw [List.eq_of_mem_replicate hx]; exact ⟨tiny_pos, tiny_float⟩
  refine ⟨fun v => if v = x0 then 1 else tiny, ?_, ?_⟩
  · intro v
    beta_reduce
    by_cases h : v = x0
    · rw [if_pos h]; exact ⟨zero_lt_one, isFloat_one⟩
    · rw [if_neg h]; exact ⟨tiny_pos, tiny_float⟩
  have hmap : (x0 :: xs).map (fun v => if v = x0 then 1 else tiny) = peaked n := by
    rw [List.map_cons, if_pos rfl, peaked, List.cons.injEq]
    refine ⟨rfl, ?_⟩
    rw [List.eq_replicate_iff]
    refine ⟨by simpa using hn, ?_⟩
    intro w hw
    obtain ⟨v, hv, rfl⟩ := List.mem_map.1 hw
    rw [if_neg]
    rintro rfl
    exact (List.nodup_cons.1 hd).1 hv
  rw [hmap]
  have hlen : (peaked n).length = n + 1 := by simp [peaked]
  intro R y hy
  have hT := npSum_peaked R (n := n) (by omega)
  have hT0 : 0 < npSum R (peaked n) := lt_of_lt_of_le (by positivity) hT
  refine (numeric_rounded_iff R (fun w hw => (hpos w hw).1.le) (by simp [peaked]) (by rw [hlen, hn]) hT0.le).2 ?_
  intro hc
  have h1 := hc _ hy
  rw [addAll_peaked] at h1
  have hf : IsFloat (1 - 2 ^ (-52 : ℤ)) := ⟨2 ^ 52 - 1, -52, by norm_num, by norm_num⟩
  have h2 : R.rnd (1 / npSum R (peaked n)) ≤ R.rnd (1 / (1 + 2 ^ (-52 : ℤ))) :=
    R.mono (one_div_le_one_div_of_le (by positivity) hT)
  have h3 := R.nearest (1 / (1 + 2 ^ (-52 : ℤ))) _ hf
  have h4 : |(1 : ℝ) - 2 ^ (-52 : ℤ) - 1 / (1 + 2 ^ (-52 : ℤ))| ≤ 2 ^ (-103 : ℤ) := by
    rw [abs_le]; norm_num
  have h5 := (abs_le.1 (h3.trans h4)).2
  generalize R.rnd (1 / npSum R (peaked n)) = r at h1 h2
  generalize R.rnd (1 / (1 + 2 ^ (-52 : ℤ))) = q at h2 h5
  norm_num at h1 h5
  linarith

example : ∃ x : List ℝ, 8 ≤ x.length ∧ x.Nodup ∧ ∃ y : List ℝ, 1 - 2 ^ (-53 : ℤ) ∈ y ∧ y ≠ [1 - 2 ^ (-53 : ℤ)] :=
  ⟨(List.range 10).map (fun k : ℕ => (k : ℝ)), by simp, List.nodup_range.map Nat.cast_injective, [0, 1 - 2 ^ (-53 : ℤ)], by simp, by simp⟩

example : ∃ x ws y : List ℝ, (∀ w ∈ ws, 0 ≤ w ∧ IsFloat w) ∧ (∃ w ∈ ws, 0 < w) ∧ x.length = ws.length ∧ ws.length < 8 ∧ ∀ u ∈ y, u < 1 :=
  ⟨[1, 2], [1, 0], [0, 1 / 2], by simp [isFloat_one, isFloat_zero], ⟨1, by simp, one_pos⟩, rfl, by simp, by norm_num⟩

example : ∃ x ws y : List ℝ, (∀ w ∈ ws, 0 ≤ w) ∧ ws ≠ [] ∧ x.length = ws.length ∧ 0 ≤ npSum R ws ∧ y ≠ [] :=
  ⟨[1, 2], [1, 0], [0, 1 / 2], by simp, by simp, rfl, npSum_nonneg R (by simp) (by simp [isFloat_one, isFloat_zero]), by simp⟩

end Verif.Sample
