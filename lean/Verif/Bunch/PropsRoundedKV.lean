import Verif.Bunch.RoundedKV
import Verif.Bunch.Lemmas
import Verif.Sample.Rounded
import Verif.Phases.Rounded
import Verif.Py.Near

/-!
# Property C166: KV bunches in double precision
-/

namespace Verif.Bunch

open Verif.Py Verif.Sample

variable (R : Rounding)

/-! ## Sums of a quiet start -/

/-- Four values of a coordinate in a quiet start: positions change sign at once, momenta after the second. -/
def four (b : Bool) (x : ℝ) : List ℝ := if b then [x, -x, -x, x] else [x, x, -x, -x]

theorem addAll_four (b : Bool) {x : ℝ} (hx : IsFloat x) (l : List ℝ) : addAll R 0 (four b x ++ l) = addAll R 0 l := by
  have h2 : R.rnd (x + x) = x + x := R.fixed (by rw [← two_mul]; exact Phases.isFloat_two_mul hx)
  cases b
  · simp [addAll, four, R.fixed hx, h2]
  · simp [addAll, four, R.fixed hx, R.fixed (isFloat_neg hx)]

theorem addAll_fours (b : Bool) {xs : List ℝ} (hx : ∀ x ∈ xs, IsFloat x) : addAll R 0 (xs.flatMap (four b)) = 0 := by
  induction xs with
  | nil => rfl
  | cons x xs ih =>
    rw [List.flatMap_cons, addAll_four R b (hx x (by simp)), ih fun y hy => hx y (by simp [hy])]

/-- The eight sums in a quiet start. -/
def eight (b : Bool) (s t : ℝ) : Fin 8 → ℝ := if b then ![s, -s, -s, s, t, -t, -t, t] else ![s, s, -s, -s, t, t, -t, -t]

theorem eight_step (b : Bool) (s t x y : ℝ) : (fun i => R.rnd (eight b s t i + eight b x y i)) = eight b (R.rnd (s + x)) (R.rnd (t + y)) := by
  have hn : ∀ u v : ℝ, R.rnd (-u + -v) = -R.rnd (u + v) := fun u v => by rw [← R.odd]; congr 1; ring
  funext i
  cases b <;> fin_cases i <;> simp [eight, hn]

theorem lanes_fours (b : Bool) : ∀ (n : Nat) (xs : List ℝ) (s t : ℝ), xs.length ≤ n →
    ∃ s' t' ys, lanes R (eight b s t) (xs.flatMap (four b)) = (eight b s' t', List.flatMap (four b) ys) ∧ ∀ y ∈ ys, y ∈ xs := by
  intro n
  induction n using Nat.strong_induction_on with
  | _ n ih =>
    intro xs s t hn
    match xs with
    | [] => exact ⟨s, t, [], by cases b <;> rfl, by simp⟩
    | [x] => exact ⟨s, t, [x], by cases b <;> rfl, by simp⟩
    | x :: y :: xs =>
      have he : lanes R (eight b s t) ((x :: y :: xs).flatMap (four b)) =
          lanes R (fun i => R.rnd (eight b s t i + eight b x y i)) (xs.flatMap (four b)) := by
        cases b <;> rfl
      rw [he, eight_step]
      simp only [List.length_cons] at hn
      obtain ⟨s', t', ys, h1, h2⟩ := ih (n - 1) (by omega) xs (R.rnd (s + x)) (R.rnd (t + y)) (by omega)
      exact ⟨s', t', ys, h1, fun z hz => by simp [h2 z hz]⟩

theorem blockSum_fours (b : Bool) {xs : List ℝ} (hx : ∀ x ∈ xs, IsFloat x) : blockSum R (xs.flatMap (four b)) = 0 := by
  match xs with
  | [] => rfl
  | [x] =>
    have : blockSum R ([x].flatMap (four b)) = addAll R 0 ([x].flatMap (four b)) := by cases b <;> rfl
    rw [this, addAll_fours R b hx]
  | x :: y :: xs =>
    obtain ⟨s, t, ys, h1, h2⟩ := lanes_fours R b xs.length xs x y le_rfl
    have he : blockSum R ((x :: y :: xs).flatMap (four b)) =
        let (r, left) := lanes R (eight b x y) (xs.flatMap (four b))
        addAll R (R.rnd (R.rnd (R.rnd (r 0 + r 1) + R.rnd (r 2 + r 3)) + R.rnd (R.rnd (r 4 + r 5) + R.rnd (r 6 + r 7)))) left := by
      cases b <;> rfl
    rw [he, h1]
    have hz : R.rnd (R.rnd (R.rnd (eight b s t 0 + eight b s t 1) + R.rnd (eight b s t 2 + eight b s t 3)) +
        R.rnd (R.rnd (eight b s t 4 + eight b s t 5) + R.rnd (eight b s t 6 + eight b s t 7))) = 0 := by
      have hn : ∀ u v : ℝ, R.rnd (-u + -v) = -R.rnd (u + v) := fun u v => by rw [← R.odd]; congr 1; ring
      cases b <;> simp [eight, hn]
    simp only [hz]
    exact addAll_fours R b fun y hy => hx y (by simp [h2 y hy])

theorem take_fours (b : Bool) : ∀ (k : Nat) (xs : List ℝ), (xs.flatMap (four b)).take (4 * k) = (xs.take k).flatMap (four b) ∧
    (xs.flatMap (four b)).drop (4 * k) = (xs.drop k).flatMap (four b) := by
  intro k
  induction k with
  | zero => intro xs; simp
  | succ k ih =>
    intro xs
    match xs with
    | [] => simp
    | x :: xs =>
      have := ih xs
      rw [show 4 * (k + 1) = 4 * k + 1 + 1 + 1 + 1 by ring, List.flatMap_cons, List.take_succ_cons, List.drop_succ_cons, List.flatMap_cons]
      cases b <;> simp [four, this.1, this.2]

theorem length_fours (b : Bool) (xs : List ℝ) : (xs.flatMap (four b)).length = 4 * xs.length := by
  induction xs with
  | nil => rfl
  | cons x xs ih =>
    rw [List.flatMap_cons, List.length_append, ih]
    cases b <;> simp [four] <;> ring

theorem npSum_fours (b : Bool) : ∀ (n : Nat) (xs : List ℝ), xs.length ≤ n → (∀ x ∈ xs, IsFloat x) → npSum R (xs.flatMap (four b)) = 0 := by
  intro n
  induction n using Nat.strong_induction_on with
  | _ n ih =>
    intro xs hn hx
    rw [npSum]
    by_cases h : (xs.flatMap (four b)).length ≤ 128
    · rw [dif_pos h]
      by_cases h8 : (xs.flatMap (four b)).length < 8
      · rw [if_pos h8, addAll_fours R b hx]
      · rw [if_neg h8, blockSum_fours R b hx]
    · rw [dif_neg h]
      rw [length_fours] at h ⊢
      obtain ⟨k, hk, hk0, hk1⟩ : ∃ k, splitAt (4 * xs.length) = 4 * k ∧ 0 < k ∧ k < xs.length := by
        refine ⟨splitAt (4 * xs.length) / 4, ?_, ?_, ?_⟩ <;> simp only [splitAt] <;> omega
      rw [hk, (take_fours b k xs).1, (take_fours b k xs).2]
      rw [ih (n - 1) (by omega) _ (by rw [List.length_take]; omega) fun x h => hx x (List.mem_of_mem_take h),
        ih (n - 1) (by omega) _ (by rw [List.length_drop]; omega) fun x h => hx x (List.mem_of_mem_drop h)]
      simp

/-! ## The loop -/

/-- The particles of the loop: each comes from an accepted trial, with three more in a quiet start. -/
theorem rKvLoop_made (T : Trig) (sh : Shape) (quiet : Bool) (h xMax yMax : ℝ) : ∀ (fuel n : Nat) (s : List ℝ) (l : List P4),
    rKvLoop R T sh quiet h xMax yMax fuel n s = .ok l → ∃ qs : List P4, l = qs.flatMap (group quiet) ∧ ∀ q ∈ qs, ∃ a ∈ s, ∃ b ∈ s, ∃ r ∈ s,
      rQuadratic R (rTrialCoord R a xMax) (rTrialCoord R b yMax) < h ∧
      q = rPlace R T sh h (rQuadratic R (rTrialCoord R a xMax) (rTrialCoord R b yMax)) (rTrialCoord R a xMax) (rTrialCoord R b yMax) r := by
  intro fuel
  induction fuel with
  | zero =>
    intro n s l e
    cases n with
    | zero => rw [rKvLoop] at e; cases e; exact ⟨[], rfl, by simp⟩
    | succ n => rw [rKvLoop] at e; cases e
  | succ fuel ih =>
    intro n s l e
    cases n with
    | zero => rw [rKvLoop] at e; cases e; exact ⟨[], rfl, by simp⟩
    | succ n =>
      match s with
      | [] => simp [rKvLoop] at e
      | [a] => simp [rKvLoop] at e
      | a :: b :: s =>
        unfold rKvLoop at e
        simp only at e
        by_cases hv : rQuadratic R (rTrialCoord R a xMax) (rTrialCoord R b yMax) < h
        · rw [if_pos hv] at e
          match s with
          | [] => cases e
          | r :: s =>
            simp only at e
            split at e
            · cases e
            · next l' hl =>
              cases e
              obtain ⟨qs, h1, h2⟩ := ih _ _ _ hl
              refine ⟨rPlace R T sh h (rQuadratic R (rTrialCoord R a xMax) (rTrialCoord R b yMax)) (rTrialCoord R a xMax) (rTrialCoord R b yMax) r :: qs, ?_, ?_⟩
              · rw [List.flatMap_cons, h1]
                cases quiet <;> rfl
              · intro q hq
                rcases List.mem_cons.mp hq with rfl | hq
                · exact ⟨a, by simp, b, by simp, r, by simp, hv, rfl⟩
                · obtain ⟨a', ha, b', hb, r', hr, h3⟩ := h2 q hq
                  exact ⟨a', by simp [ha], b', by simp [hb], r', by simp [hr], h3⟩
        · rw [if_neg hv] at e
          obtain ⟨qs, h1, h2⟩ := ih _ _ _ e
          refine ⟨qs, h1, fun q hq => ?_⟩
          obtain ⟨a', ha, b', hb, r', hr, h3⟩ := h2 q hq
          exact ⟨a', by simp [ha], b', by simp [hb], r', by simp [hr], h3⟩

/-- The array after a run without exception: one particle may stand in all rows, otherwise the rows are the particles of the loop. -/
theorem rDistributeKV_ok {T : Trig} {newton draws} {b b' : Bunch} (h : rDistributeKV R T newton draws b = (b', none)) :
    b.emitx = b.emity ∧ b'.emit = R.rnd (4 * b.emitx) ∧ b'.shape = b.shape ∧ 0 ≤ b'.emit ∧ 0 < b.shape.bx ∧ 0 < b.shape.byy ∧ ∃ (m : ℝ) (l : List P4),
      newton (fun y => .ok (some (R.rnd (b'.emit - rQuadratic R 0 y)))) (R.rnd (Real.sqrt b'.emit)) = .ok m ∧
      rKvLoop R T b.shape b.quiet b'.emit m m draws.length b.npart draws = .ok l ∧ assign b.particles l = .ok b'.particles := by
  unfold rDistributeKV at h
  by_cases he : b.emitx ≠ b.emity
  · rw [if_pos he] at h
    simp at h
  · rw [if_neg he] at h
    simp only [Bunch.finish] at h
    split at h
    · simp at h
    · next l hl =>
      split at h
      · simp at h
      · next ps hps =>
        simp only [Prod.mk.injEq, and_true] at h
        subst h
        split at hl
        · cases hl
        · next hc =>
          split at hl
          · cases hl
          · next m hm =>
            have h0 : 0 ≤ R.rnd (4 * b.emitx) := not_lt.mp fun hlt => hc (Or.inl hlt)
            have h1 : 0 < b.shape.bx := not_le.mp fun hlt => hc (Or.inr (Or.inl hlt))
            have h2 : 0 < b.shape.byy := not_le.mp fun hlt => hc (Or.inr (Or.inr hlt))
            exact ⟨not_not.mp he, rfl, rfl, h0, h1, h2, m, l, hm, hl, hps⟩

theorem assign_trans {ps ps' : List Row} {l : List P4} (h : assign ps l = .ok ps') (h1 : l.length ≠ 1) : ps'.map trans = l := by
  match l with
  | [] => cases h
  | [q] => simp at h1
  | q :: q' :: l =>
    rw [assign] at h
    · by_cases hl : (q :: q' :: l).length = ps.length
      · rw [if_pos hl] at h
        cases h
        exact (zip_trans ps _ hl).1
      · rw [if_neg hl] at h
        cases h
    · simp
    · simp

theorem assign_mem {ps ps' : List Row} {l : List P4} (h : assign ps l = .ok ps') : ∀ p ∈ ps', trans p ∈ l := by
  match l with
  | [] => cases h
  | [q] =>
    cases h
    intro p hp
    obtain ⟨r, _, rfl⟩ := List.mem_map.mp hp
    simp [trans_setRow]
  | q :: q' :: l =>
    intro p hp
    rw [← assign_trans h (by simp)]
    exact List.mem_map_of_mem hp

theorem rPlace_isFloat (T : Trig) (sh : Shape) (h v x y r : ℝ) (i : Fin 4) : IsFloat (rPlace R T sh h v x y r i) := by
  fin_cases i <;> exact R.isFloat _

theorem group_four (qs : List P4) (i : Fin 4) : (qs.flatMap (group true)).map (fun q => q i) = (qs.map fun q => q i).flatMap (four (i.1 % 2 = 0)) := by
  induction qs with
  | nil => rfl
  | cons q qs ih =>
    rw [List.flatMap_cons, List.map_append, ih, List.map_cons, List.flatMap_cons]
    congr 1
    fin_cases i <;> simp [group, mirrors, four]

/-- **C166, quiet start.** After a quiet start the sum of each transverse coordinate is exactly zero, added one particle after the other or as
`np.sum` does. -/
theorem rounded_quiet {T : Trig} {newton draws} {b b' : Bunch} (hq : b.quiet = true) (h : rDistributeKV R T newton draws b = (b', none))
    (i : Fin 4) : addAll R 0 (b'.particles.map fun p => trans p i) = 0 ∧ npSum R (b'.particles.map fun p => trans p i) = 0 := by
  obtain ⟨_, _, _, _, _, _, m, l, _, hl, ha⟩ := rDistributeKV_ok R h
  rw [hq] at hl
  obtain ⟨qs, h1, h2⟩ := rKvLoop_made R T _ _ _ _ _ _ _ _ _ hl
  have hlen : l.length ≠ 1 := by
    rw [h1, group_length]
    simp only [if_true]
    omega
  have hcol : (b'.particles.map fun p => trans p i) = (qs.map fun q => q i).flatMap (four (i.1 % 2 = 0)) := by
    rw [← group_four, ← h1, ← assign_trans ha hlen, List.map_map]
    rfl
  have hf : ∀ x ∈ qs.map (fun q => q i), IsFloat x := by
    intro x hx
    obtain ⟨q, hq', rfl⟩ := List.mem_map.mp hx
    obtain ⟨a, _, b2, _, r, _, _, rfl⟩ := h2 q hq'
    exact rPlace_isFloat R T _ _ _ _ _ _ i
  rw [hcol]
  exact ⟨addAll_fours R _ hf, npSum_fours R _ _ _ le_rfl hf⟩

/-! ## Extent -/

theorem rTrialCoord_le {a m : ℝ} (h0 : 0 ≤ a) (h1 : a ≤ 1) (hm : IsFloat m) : |rTrialCoord R a m| ≤ |m| := by
  have hh : IsFloat (1 / 2 : ℝ) := by simpa using isFloat_zpow (-1)
  have k1 : |R.rnd (1 / 2 - a)| ≤ 1 / 2 := abs_le.mpr ⟨R.ge_of_ge (isFloat_neg hh) (by linarith), R.le_of_le hh (by linarith)⟩
  rw [abs_le] at k1
  have k2 : |R.rnd (2 * R.rnd (1 / 2 - a))| ≤ 1 :=
    abs_le.mpr ⟨R.ge_of_ge (isFloat_neg isFloat_one) (by linarith), R.le_of_le isFloat_one (by linarith)⟩
  have k3 : |R.rnd (2 * R.rnd (1 / 2 - a)) * m| ≤ |m| := by
    rw [abs_mul]
    calc _ ≤ 1 * |m| := mul_le_mul_of_nonneg_right k2 (abs_nonneg m)
      _ = |m| := one_mul _
  rw [abs_le] at k3
  exact abs_le.mpr ⟨R.ge_of_ge (isFloat_neg (isFloat_abs hm)) k3.1, R.le_of_le (isFloat_abs hm) k3.2⟩

theorem rnd_abs (x : ℝ) : |R.rnd x| = R.rnd |x| := by
  rcases le_total 0 x with h | h
  · rw [abs_of_nonneg h, abs_of_nonneg (R.nonneg h)]
  · rw [abs_of_nonpos h, R.odd, abs_of_nonpos]
    have := R.nonneg (x := -x) (by linarith)
    rw [R.odd] at this
    linarith

/-- **C166, extent.** With drawn numbers between 0 and 1, no particle is farther out than the point at which the root finder stopped, scaled
with the root of the beta function. -/
theorem rounded_extent {T : Trig} {newton draws} {b b' : Bunch} (hd : ∀ a ∈ draws, 0 ≤ a ∧ a ≤ 1)
    (hn : ∀ f x m, newton f x = .ok m → IsFloat m) (h : rDistributeKV R T newton draws b = (b', none)) :
    ∃ m, newton (fun y => .ok (some (R.rnd (b'.emit - rQuadratic R 0 y)))) (R.rnd (Real.sqrt b'.emit)) = .ok m ∧
      ∀ p ∈ b'.particles, |p 0| ≤ R.rnd (|m| * R.rnd (Real.sqrt b.betax)) ∧ |p 2| ≤ R.rnd (|m| * R.rnd (Real.sqrt b.betax)) := by
  obtain ⟨_, _, _, _, hbx, _, m, l, hm, hl, ha⟩ := rDistributeKV_ok R h
  refine ⟨m, hm, fun p hp => ?_⟩
  obtain ⟨qs, h1, h2⟩ := rKvLoop_made R T _ _ _ _ _ _ _ _ _ hl
  have hpl := assign_mem ha p hp
  rw [h1, List.mem_flatMap] at hpl
  obtain ⟨q, hq, hpq⟩ := hpl
  obtain ⟨a, ha', c, hc, r, _, _, hqe⟩ := h2 q hq
  have hB : 0 ≤ R.rnd (Real.sqrt b.betax) := R.nonneg (Real.sqrt_nonneg _)
  have key : ∀ a ∈ draws, |R.rnd (rTrialCoord R a m * R.rnd (Real.sqrt b.betax))| ≤ R.rnd (|m| * R.rnd (Real.sqrt b.betax)) := by
    intro a ha
    rw [rnd_abs, abs_mul, abs_of_nonneg hB]
    exact R.mono (mul_le_mul_of_nonneg_right (rTrialCoord_le R (hd a ha).1 (hd a ha).2 (hn _ _ _ hm)) hB)
  have k0 : |q 0| ≤ R.rnd (|m| * R.rnd (Real.sqrt b.betax)) := by rw [hqe]; exact key a ha'
  have k2 : |q 2| ≤ R.rnd (|m| * R.rnd (Real.sqrt b.betax)) := by rw [hqe]; exact key c hc
  have t0 : p 0 = trans p 0 := rfl
  have t2 : p 2 = trans p 2 := rfl
  rw [t0, t2]
  have hcase : (trans p 0 = q 0 ∨ trans p 0 = -q 0) ∧ (trans p 2 = q 2 ∨ trans p 2 = -q 2) := by
    cases hqu : b.quiet with
    | false =>
      rw [hqu] at hpq
      simp only [group, List.mem_cons, Bool.false_eq_true, if_false, List.not_mem_nil, or_false] at hpq
      rw [hpq]
      exact ⟨Or.inl rfl, Or.inl rfl⟩
    | true =>
      rw [hqu] at hpq
      simp only [group, mirrors, List.mem_cons, if_true, List.not_mem_nil, or_false] at hpq
      rcases hpq with e | e | e | e <;> rw [e] <;> simp
  constructor
  · rcases hcase.1 with e | e <;> rw [e]
    · exact k0
    · rw [abs_neg]; exact k0
  · rcases hcase.2 with e | e <;> rw [e]
    · exact k2
    · rw [abs_neg]; exact k2

/-! ## The energy shell -/

theorem near_trans {a b x y z : ℝ} (h : Near a x y) (h' : Near b y z) (ha : 0 ≤ a) : Near (a + b + a * b) x z := by
  have h1 := h'.abs_le
  unfold Near at *
  calc |x - z| ≤ |x - y| + |y - z| := abs_sub_le _ _ _
    _ ≤ a * ((1 + b) * |z|) + b * |z| := add_le_add (h.trans (mul_le_mul_of_nonneg_left h1 ha)) h'
    _ = _ := by ring

theorem near_add {ε x y z w : ℝ} (h : Near ε x y) (h' : Near ε z w) (hy : 0 ≤ y) (hw : 0 ≤ w) : Near ε (x + z) (y + w) := by
  unfold Near at *
  rw [abs_of_nonneg hy] at h
  rw [abs_of_nonneg hw] at h'
  rw [abs_of_nonneg (a := y + w) (by linarith), add_sub_add_comm, mul_add]
  exact (abs_add_le _ _).trans (add_le_add h h')

/-- The energy in normalised coordinates. -/
theorem normal_energy {x y E c s : ℝ} (hV : rQuadratic R x y < E) (hcs : |c ^ 2 + s ^ 2 - 1| ≤ 2 ^ (-51 : ℤ)) {pm : ℝ}
    (hpm : pm = R.rnd (Real.sqrt (R.rnd (2 * R.rnd (E - rQuadratic R x y))))) :
    0 < E ∧ |1 / 2 * (x ^ 2 + y ^ 2) + 1 / 2 * (R.rnd (pm * c) ^ 2 + R.rnd (pm * s) ^ 2) - E| ≤ 2 ^ (-49 : ℤ) * E := by
  have r1 : ∀ z : ℝ, Near (1 * 2 ^ (-53 : ℤ)) (R.rnd z) z := fun z => ((Near.refl z).rnd R).weaken (by norm_num)
  have q1 : Near (1 * 2 ^ (-53 : ℤ)) (R.rnd (x * x) + R.rnd (y * y)) (x * x + y * y) :=
    near_add (r1 _) (r1 _) (mul_self_nonneg x) (mul_self_nonneg y)
  have q2 := (q1.rnd R).weaken (ε' := 2.1 * 2 ^ (-53 : ℤ)) (by norm_num)
  have q3 := (((Near.refl (1 / 2)).mul q2).rnd R).weaken (ε' := 3.2 * 2 ^ (-53 : ℤ)) (by norm_num)
  have hV0 : 0 ≤ rQuadratic R x y :=
    R.nonneg (mul_nonneg (by norm_num) (R.nonneg (add_nonneg (R.nonneg (mul_self_nonneg x)) (R.nonneg (mul_self_nonneg y)))))
  change Near _ (rQuadratic R x y) _ at q3
  generalize rQuadratic R x y = V at *
  have d0 : 0 < E - V := by linarith
  have w1 := (((Near.refl 2).mul (r1 (E - V))).rnd R).weaken (ε' := 2.1 * 2 ^ (-53 : ℤ)) (by norm_num)
  have hW : 0 ≤ R.rnd (2 * R.rnd (E - V)) := R.nonneg (mul_nonneg (by norm_num) (R.nonneg d0.le))
  have w2 := ((r1 (Real.sqrt (R.rnd (2 * R.rnd (E - V))))).mul (r1 (Real.sqrt (R.rnd (2 * R.rnd (E - V)))))).weaken
    (ε' := 2.1 * 2 ^ (-53 : ℤ)) (by norm_num)
  rw [← hpm, Real.mul_self_sqrt hW] at w2
  have w3 := (near_trans w2 w1 (by positivity)).weaken (ε' := 4.3 * 2 ^ (-53 : ℤ)) (by norm_num)
  have t1 : Near (4 * 2 ^ (-53 : ℤ)) (c ^ 2 + s ^ 2) 1 := by
    unfold Near
    refine hcs.trans ?_
    norm_num
  have w4 := (w3.mul t1).weaken (ε' := 8.4 * 2 ^ (-53 : ℤ)) (by norm_num)
  have p1 := ((r1 (pm * c)).mul (r1 (pm * c))).weaken (ε' := 2.1 * 2 ^ (-53 : ℤ)) (by norm_num)
  have p2 := ((r1 (pm * s)).mul (r1 (pm * s))).weaken (ε' := 2.1 * 2 ^ (-53 : ℤ)) (by norm_num)
  have p3 := near_add p1 p2 (mul_self_nonneg _) (mul_self_nonneg _)
  rw [show pm * c * (pm * c) + pm * s * (pm * s) = pm * pm * (c ^ 2 + s ^ 2) by ring] at p3
  have p4 := (near_trans p3 w4 (by positivity)).weaken (ε' := 10.6 * 2 ^ (-53 : ℤ)) (by norm_num)
  have hQ : 0 ≤ 1 / 2 * (x * x + y * y) := mul_nonneg (by norm_num) (add_nonneg (mul_self_nonneg x) (mul_self_nonneg y))
  refine ⟨by linarith, ?_⟩
  have e49 : (2 : ℝ) ^ (-49 : ℤ) = 16 * 2 ^ (-53 : ℤ) := by norm_num
  have hu0 : (0 : ℝ) < 2 ^ (-53 : ℤ) := two_zpow_pos _
  have hu1 : (2 : ℝ) ^ (-53 : ℤ) ≤ 1 / 1000 := by norm_num
  rw [e49]
  unfold Near at q3 p4
  rw [abs_of_nonneg hQ] at q3
  rw [abs_of_nonneg (a := 2 * (E - V) * 1) (by linarith)] at p4
  generalize (2 : ℝ) ^ (-53 : ℤ) = u at *
  have hq : 1 / 2 * (x * x + y * y) = 1 / 2 * (x ^ 2 + y ^ 2) := by ring
  have hp : R.rnd (pm * c) * R.rnd (pm * c) + R.rnd (pm * s) * R.rnd (pm * s) = R.rnd (pm * c) ^ 2 + R.rnd (pm * s) ^ 2 := by ring
  rw [hq] at q3 hQ
  rw [hp] at p4
  generalize R.rnd (pm * c) ^ 2 + R.rnd (pm * s) ^ 2 = P at *
  generalize 1 / 2 * (x ^ 2 + y ^ 2) = Q at *
  have hV' : 0 ≤ V := hV0
  have q4 := abs_le.mp q3
  have p5 := abs_le.mp p4
  have hQV : Q ≤ 1.1 * V := by
    have : u * Q ≤ 1 / 1000 * Q := mul_le_mul_of_nonneg_right hu1 hQ
    linarith [q4.1]
  have k1 : u * Q ≤ u * (1.1 * V) := mul_le_mul_of_nonneg_left hQV hu0.le
  have k2 : 0 ≤ u * V := mul_nonneg hu0.le hV'
  have k3 : 0 ≤ u * (E - V) := mul_nonneg hu0.le d0.le
  rw [abs_le]
  have k4 : u * (E - V) = u * E - u * V := by ring
  constructor <;> linarith [q4.1, q4.2, p5.1, p5.2]

/-- What is stored of one plane. -/
theorem plane_error {β α A X p : ℝ} (hβ : 0 < β) (hα : |α| ≤ A) (hA : A ≤ 2 ^ 40) :
    |cs β α (R.rnd (X * R.rnd (Real.sqrt β))) (R.rnd (R.rnd (p - R.rnd (α * X)) / R.rnd (Real.sqrt β))) - (X ^ 2 + p ^ 2)| ≤
      2 ^ (-47 : ℤ) * (1 + A) * (X ^ 2 + p ^ 2) := by
  have r1 : ∀ z : ℝ, Near (1 * 2 ^ (-53 : ℤ)) (R.rnd z) z := fun z => ((Near.refl z).rnd R).weaken (by norm_num)
  have hs : 0 < Real.sqrt β := Real.sqrt_pos.mpr hβ
  have hss : Real.sqrt β * Real.sqrt β = β := Real.mul_self_sqrt hβ.le
  set S := Real.sqrt β with hS
  have x1 := (((Near.refl X).mul (r1 S)).rnd R).weaken (ε' := 2.1 * 2 ^ (-53 : ℤ)) (by norm_num)
  have x2 := (x1.mul (Near.refl (1 / S))).weaken (ε' := 2.1 * 2 ^ (-53 : ℤ)) (by norm_num)
  rw [show X * S * (1 / S) = X by field_simp] at x2
  have b1 := ((r1 S).inv (by norm_num) hs.ne').weaken (ε' := 1.1 * 2 ^ (-53 : ℤ)) (by norm_num)
  have p1 := (((Near.refl (R.rnd (p - R.rnd (α * X)))).mul b1).rnd R).weaken (ε' := 2.2 * 2 ^ (-53 : ℤ)) (by norm_num)
  have p2 := (p1.mul (Near.refl S)).weaken (ε' := 2.2 * 2 ^ (-53 : ℤ)) (by norm_num)
  rw [show R.rnd (p - R.rnd (α * X)) * (1 / S) * S = R.rnd (p - R.rnd (α * X)) by field_simp,
    show R.rnd (p - R.rnd (α * X)) * (1 / R.rnd S) = R.rnd (p - R.rnd (α * X)) / R.rnd S by ring] at p2
  have d1 := r1 (p - R.rnd (α * X))
  have a1 := r1 (α * X)
  have xx := (x2.mul x2).weaken (ε' := 4.3 * 2 ^ (-53 : ℤ)) (by norm_num)
  have hcs : ∀ x q, cs β α x q = (x * (1 / S)) * (x * (1 / S)) + (q * S + α * (x * (1 / S))) ^ 2 := by
    intro x q
    unfold cs
    rw [← hss]
    field_simp
    ring
  rw [hcs]
  have e47 : (2 : ℝ) ^ (-47 : ℤ) = 64 * 2 ^ (-53 : ℤ) := by norm_num
  have hu0 : (0 : ℝ) < 2 ^ (-53 : ℤ) := two_zpow_pos _
  have huA : 8 * (2 : ℝ) ^ (-53 : ℤ) * (1 + A) ≤ 1 := by
    have : 8 * (2 : ℝ) ^ (-53 : ℤ) * (1 + A) ≤ 8 * (2 : ℝ) ^ (-53 : ℤ) * (1 + 2 ^ 40) :=
      mul_le_mul_of_nonneg_left (by linarith) (by positivity)
    refine this.trans ?_
    norm_num
  have hu1 : (2 : ℝ) ^ (-53 : ℤ) ≤ 1 / 1000 := by norm_num
  rw [e47]
  generalize R.rnd (R.rnd (p - R.rnd (α * X)) / R.rnd S) * S = Q at *
  generalize R.rnd (X * R.rnd S) * (1 / S) = X' at *
  generalize R.rnd (p - R.rnd (α * X)) = d at *
  generalize R.rnd (α * X) = a at *
  unfold Near at x2 p2 d1 a1 xx
  generalize (2 : ℝ) ^ (-53 : ℤ) = u at *
  rw [abs_of_nonneg (mul_self_nonneg X)] at xx
  have hA0 : 0 ≤ A := (abs_nonneg α).trans hα
  -- the error of the momentum
  have hz0 := abs_nonneg (α * X)
  have hp0 := abs_nonneg p
  have hX0 := abs_nonneg X
  have hzA : |α * X| ≤ A * |X| := by rw [abs_mul]; exact mul_le_mul_of_nonneg_right hα hX0
  have ha : |a| ≤ 1.1 * |α * X| := by
    have h1 : |a| ≤ |a - α * X| + |α * X| := by
      have := abs_add_le (a - α * X) (α * X)
      rwa [sub_add_cancel] at this
    have h2 : u * |α * X| ≤ 1 / 1000 * |α * X| := mul_le_mul_of_nonneg_right hu1 hz0
    linarith
  have hpa : |p - a| ≤ |p| + 1.1 * |α * X| := (abs_sub _ _).trans (by linarith)
  have hd : |d| ≤ 1.1 * (|p| + 1.1 * |α * X|) := by
    have h1 : |d| ≤ |d - (p - a)| + |p - a| := by
      have := abs_add_le (d - (p - a)) (p - a)
      rwa [sub_add_cancel] at this
    have h2 : u * |p - a| ≤ 1 / 1000 * |p - a| := mul_le_mul_of_nonneg_right hu1 (abs_nonneg _)
    linarith
  have hax : |α * (X' - X)| ≤ 2.1 * (u * |α * X|) := by
    rw [abs_mul, abs_mul]
    calc |α| * |X' - X| ≤ |α| * (2.1 * u * |X|) := mul_le_mul_of_nonneg_left x2 (abs_nonneg α)
      _ = 2.1 * (u * (|α| * |X|)) := by ring
  have he : |Q + α * X' - p| ≤ 8 * u * (|p| + |α * X|) := by
    have h1 : Q + α * X' - p = (Q - d) + (d - (p - a)) - (a - α * X) + α * (X' - X) := by ring
    have h2 : |Q + α * X' - p| ≤ |Q - d| + |d - (p - a)| + |a - α * X| + |α * (X' - X)| := by
      rw [h1]
      refine (abs_add_le _ _).trans (add_le_add_left ?_ _)
      refine (abs_sub _ _).trans (add_le_add_left ?_ _)
      exact abs_add_le _ _
    have h3 : u * |d| ≤ u * (1.1 * (|p| + 1.1 * |α * X|)) := mul_le_mul_of_nonneg_left hd hu0.le
    have h4 : u * |p - a| ≤ u * (|p| + 1.1 * |α * X|) := mul_le_mul_of_nonneg_left hpa hu0.le
    have h5 : 0 ≤ u * |p| := mul_nonneg hu0.le hp0
    have h6 : 0 ≤ u * |α * X| := mul_nonneg hu0.le hz0
    linarith
  set s := |p| + |X| with hsdef
  have hs0 : 0 ≤ s := add_nonneg hp0 hX0
  have he1 : |Q + α * X' - p| ≤ 8 * u * (1 + A) * s := by
    refine he.trans ?_
    have h1 : |p| + |α * X| ≤ (1 + A) * s := by
      have h2 : 0 ≤ A * |p| := mul_nonneg hA0 hp0
      rw [hsdef]
      linarith
    calc 8 * u * (|p| + |α * X|) ≤ 8 * u * ((1 + A) * s) := mul_le_mul_of_nonneg_left h1 (by linarith)
      _ = _ := by ring
  have he2 : |Q + α * X' - p| ≤ s := he1.trans (by
    have := mul_le_mul_of_nonneg_right huA hs0
    linarith)
  have hsum : |Q + α * X' + p| ≤ 3 * s := by
    have h1 : Q + α * X' + p = (Q + α * X' - p) + 2 * p := by ring
    rw [h1]
    refine (abs_add_le _ _).trans ?_
    rw [abs_mul, abs_two]
    linarith
  have hsq : |(Q + α * X') ^ 2 - p ^ 2| ≤ 24 * (u * (1 + A)) * s ^ 2 := by
    rw [show (Q + α * X') ^ 2 - p ^ 2 = (Q + α * X' - p) * (Q + α * X' + p) by ring, abs_mul]
    calc _ ≤ 8 * u * (1 + A) * s * (3 * s) := mul_le_mul he1 hsum (abs_nonneg _) ((abs_nonneg _).trans he1)
      _ = _ := by ring
  have hs2 : s ^ 2 ≤ 2 * (X ^ 2 + p ^ 2) := by
    have h1 := sq_nonneg (|p| - |X|)
    have h2 := sq_abs p
    have h3 := sq_abs X
    rw [hsdef]
    nlinarith
  have huA0 : 0 ≤ u * (1 + A) := mul_nonneg hu0.le (by linarith)
  have hk : 24 * (u * (1 + A)) * s ^ 2 ≤ 24 * (u * (1 + A)) * (2 * (X ^ 2 + p ^ 2)) := mul_le_mul_of_nonneg_left hs2 (by linarith)
  have hX2 : X * X ≤ X ^ 2 + p ^ 2 := by nlinarith [sq_nonneg p]
  have hu' : u * (X * X) ≤ u * (1 + A) * (X ^ 2 + p ^ 2) := by
    have h1 : u ≤ u * (1 + A) := by
      have := mul_nonneg hu0.le hA0
      linarith
    exact mul_le_mul h1 hX2 (mul_self_nonneg X) huA0
  have hT : 0 ≤ u * (1 + A) * (X ^ 2 + p ^ 2) := mul_nonneg huA0 (by positivity)
  rw [show X' * X' + (Q + α * X') ^ 2 - (X ^ 2 + p ^ 2) = (X' * X' - X * X) + ((Q + α * X') ^ 2 - p ^ 2) by ring]
  refine (abs_add_le _ _).trans ?_
  have h64 : 64 * u * (1 + A) * (X ^ 2 + p ^ 2) = 64 * (u * (1 + A) * (X ^ 2 + p ^ 2)) := by ring
  rw [h64]
  have h48 : 24 * (u * (1 + A)) * (2 * (X ^ 2 + p ^ 2)) = 48 * (u * (1 + A) * (X ^ 2 + p ^ 2)) := by ring
  linarith

/-- A particle from an accepted trial. -/
theorem place_shell {T : Trig} (hT : ∀ t, |T.cos t ^ 2 + T.sin t ^ 2 - 1| ≤ 2 ^ (-51 : ℤ)) {sh : Shape} {E x y r A : ℝ} (hbx : 0 < sh.bx)
    (hby : 0 < sh.byy) (hax : |sh.ax| ≤ A) (hay : |sh.ay| ≤ A) (hA : A ≤ 2 ^ 40) (hV : rQuadratic R x y < E) :
    |1 / 2 * (cs sh.bx sh.ax (rPlace R T sh E (rQuadratic R x y) x y r 0) (rPlace R T sh E (rQuadratic R x y) x y r 1) +
      cs sh.byy sh.ay (rPlace R T sh E (rQuadratic R x y) x y r 2) (rPlace R T sh E (rQuadratic R x y) x y r 3)) - E| ≤
      2 ^ (-46 : ℤ) * (1 + A) * E := by
  obtain ⟨hE, h1⟩ := normal_energy R hV (hT (R.rnd (R.rnd (2 * R.rnd Real.pi) * r))) rfl
  have h2 := plane_error R (X := x) (p := R.rnd (R.rnd (Real.sqrt (R.rnd (2 * R.rnd (E - rQuadratic R x y)))) *
    T.cos (R.rnd (R.rnd (2 * R.rnd Real.pi) * r)))) hbx hax hA
  have h3 := plane_error R (X := y) (p := R.rnd (R.rnd (Real.sqrt (R.rnd (2 * R.rnd (E - rQuadratic R x y)))) *
    T.sin (R.rnd (R.rnd (2 * R.rnd Real.pi) * r)))) hby hay hA
  change |1 / 2 * (cs sh.bx sh.ax (R.rnd (x * R.rnd (Real.sqrt sh.bx))) (R.rnd (R.rnd (_ - R.rnd (sh.ax * x)) / R.rnd (Real.sqrt sh.bx))) +
    cs sh.byy sh.ay (R.rnd (y * R.rnd (Real.sqrt sh.byy))) (R.rnd (R.rnd (_ - R.rnd (sh.ay * y)) / R.rnd (Real.sqrt sh.byy)))) - E| ≤ _
  generalize R.rnd (R.rnd (Real.sqrt (R.rnd (2 * R.rnd (E - rQuadratic R x y)))) * T.cos (R.rnd (R.rnd (2 * R.rnd Real.pi) * r))) = p at *
  generalize R.rnd (R.rnd (Real.sqrt (R.rnd (2 * R.rnd (E - rQuadratic R x y)))) * T.sin (R.rnd (R.rnd (2 * R.rnd Real.pi) * r))) = q at *
  generalize cs sh.bx sh.ax (R.rnd (x * R.rnd (Real.sqrt sh.bx))) (R.rnd (R.rnd (p - R.rnd (sh.ax * x)) / R.rnd (Real.sqrt sh.bx))) = c1 at *
  generalize cs sh.byy sh.ay (R.rnd (y * R.rnd (Real.sqrt sh.byy))) (R.rnd (R.rnd (q - R.rnd (sh.ay * y)) / R.rnd (Real.sqrt sh.byy))) = c2 at *
  have hA0 : 0 ≤ A := (abs_nonneg _).trans hax
  have e46 : (2 : ℝ) ^ (-46 : ℤ) = 128 * 2 ^ (-53 : ℤ) := by norm_num
  have e47 : (2 : ℝ) ^ (-47 : ℤ) = 64 * 2 ^ (-53 : ℤ) := by norm_num
  have e49 : (2 : ℝ) ^ (-49 : ℤ) = 16 * 2 ^ (-53 : ℤ) := by norm_num
  have hu0 : (0 : ℝ) < 2 ^ (-53 : ℤ) := two_zpow_pos _
  have hu1 : (2 : ℝ) ^ (-53 : ℤ) ≤ 1 / 1000 := by norm_num
  rw [e46]
  rw [e47] at h2 h3
  rw [e49] at h1
  generalize (2 : ℝ) ^ (-53 : ℤ) = u at *
  have hH : 1 / 2 * (x ^ 2 + y ^ 2) + 1 / 2 * (p ^ 2 + q ^ 2) ≤ 1.1 * E := by
    have := (abs_le.mp h1).2
    have h4 : u * E ≤ 1 / 1000 * E := mul_le_mul_of_nonneg_right hu1 hE.le
    linarith
  have huA : 0 ≤ u * (1 + A) := mul_nonneg hu0.le (by linarith)
  have h5 : u * (1 + A) * (1 / 2 * (x ^ 2 + y ^ 2) + 1 / 2 * (p ^ 2 + q ^ 2)) ≤ u * (1 + A) * (1.1 * E) := mul_le_mul_of_nonneg_left hH huA
  have h6 : u * E ≤ u * (1 + A) * E := mul_le_mul_of_nonneg_right (by
    have := mul_nonneg hu0.le hA0
    linarith) hE.le
  rw [show 1 / 2 * (c1 + c2) - E = 1 / 2 * (c1 - (x ^ 2 + p ^ 2)) + 1 / 2 * (c2 - (y ^ 2 + q ^ 2)) +
    (1 / 2 * (x ^ 2 + y ^ 2) + 1 / 2 * (p ^ 2 + q ^ 2) - E) by ring]
  refine (abs_add_le _ _).trans ?_
  have h7 : |1 / 2 * (c1 - (x ^ 2 + p ^ 2)) + 1 / 2 * (c2 - (y ^ 2 + q ^ 2))| ≤ 1 / 2 * |c1 - (x ^ 2 + p ^ 2)| + 1 / 2 * |c2 - (y ^ 2 + q ^ 2)| := by
    refine (abs_add_le _ _).trans ?_
    rw [abs_mul, abs_mul, abs_of_pos (a := (1 / 2 : ℝ)) (by norm_num)]
  have h8 : 0 ≤ u * E := mul_nonneg hu0.le hE.le
  linarith

/-- **C166, energy shell.** Half the sum of the Courant-Snyder invariants of every particle is the attribute `emit` up to the relative error
`2 ^ -46 * (1 + |alpha|)`. Missing, as in exact arithmetic (C56): different beta functions, and quiet starts with alpha. -/
theorem rounded_shell_partial {T : Trig} (hT : ∀ t, |T.cos t ^ 2 + T.sin t ^ 2 - 1| ≤ 2 ^ (-51 : ℤ)) {newton draws} {b b' : Bunch} {A : ℝ}
    (h : rDistributeKV R T newton draws b = (b', none)) (hb : b.betay = b.betax) (hq : b.quiet = false ∨ (b.alphax = 0 ∧ b.alphay = 0))
    (hax : |b.alphax| ≤ A) (hay : |b.alphay| ≤ A) (hA : A ≤ 2 ^ 40) :
    ∀ p ∈ b'.particles, |1 / 2 * (cs b.betax b.alphax (p 0) (p 1) + cs b.betay b.alphay (p 2) (p 3)) - b'.emit| ≤
      2 ^ (-46 : ℤ) * (1 + A) * b'.emit := by
  obtain ⟨_, _, _, _, hbx, hby, m, l, hm, hl, ha⟩ := rDistributeKV_ok R h
  intro p hp
  obtain ⟨qs, h1, h2⟩ := rKvLoop_made R T _ _ _ _ _ _ _ _ _ hl
  have hpl := assign_mem ha p hp
  rw [h1, List.mem_flatMap] at hpl
  obtain ⟨q, hqm, hpq⟩ := hpl
  obtain ⟨a, _, c, _, r, _, hV, hqe⟩ := h2 q hqm
  have hs := place_shell R hT (sh := b.shape) (r := r) hbx hby hax hay hA hV
  rw [← hqe] at hs
  have hsh : b.shape.bx = b.betax ∧ b.shape.byy = b.betay ∧ b.shape.ax = b.alphax ∧ b.shape.ay = b.alphay :=
    ⟨rfl, by rw [hb]; rfl, rfl, rfl⟩
  rw [hsh.1, hsh.2.1, hsh.2.2.1, hsh.2.2.2] at hs
  have hcase : cs b.betax b.alphax (p 0) (p 1) = cs b.betax b.alphax (q 0) (q 1) ∧
      cs b.betay b.alphay (p 2) (p 3) = cs b.betay b.alphay (q 2) (q 3) := by
    have t : p 0 = trans p 0 ∧ p 1 = trans p 1 ∧ p 2 = trans p 2 ∧ p 3 = trans p 3 := ⟨rfl, rfl, rfl, rfl⟩
    rw [t.1, t.2.1, t.2.2.1, t.2.2.2]
    cases hqu : b.quiet with
    | false =>
      rw [hqu] at hpq
      simp only [group, List.mem_cons, Bool.false_eq_true, if_false, List.not_mem_nil, or_false] at hpq
      rw [hpq]
      exact ⟨rfl, rfl⟩
    | true =>
      rw [hqu] at hpq
      obtain ⟨h0, h0'⟩ := hq.resolve_left (by rw [hqu]; simp)
      rw [h0, h0']
      simp only [group, mirrors, List.mem_cons, if_true, List.not_mem_nil, or_false] at hpq
      rcases hpq with e | e | e | e <;> rw [e] <;> simp [cs]
  rw [hcase.1, hcase.2]
  exact hs

/-- Four particles of a quiet start, for every rounding: the hypotheses of the theorems are met. -/
example : ∃ (T : Trig) (b b' : Bunch), (∀ t, |T.cos t ^ 2 + T.sin t ^ 2 - 1| ≤ 2 ^ (-51 : ℤ)) ∧ b.quiet = true ∧ b.betay = b.betax ∧
    b.alphax = 0 ∧ b.alphay = 0 ∧ b.npart = 4 ∧ rDistributeKV R T (fun _ _ => .ok 2) [1 / 2, 1 / 2, 1 / 4] b = (b', none) := by
  have hz : rQuadratic R (rTrialCoord R (1 / 2) 2) (rTrialCoord R (1 / 2) 2) = 0 := by simp [rQuadratic, rTrialCoord]
  have h4 : R.rnd (4 * 1) = 4 := by
    rw [mul_one]
    exact R.fixed (by exact_mod_cast isFloat_int (n := 4) (by norm_num))
  have hlt : (0 : ℝ) < 4 := by norm_num
  refine ⟨⟨Real.cos, Real.sin⟩, ⟨4, "KV", 1, 1, 2, 3, 0, 3, 0, 0, 0, 0, 0, true, List.replicate 4 0⟩,
    (rDistributeKV R ⟨Real.cos, Real.sin⟩ (fun _ _ => .ok 2) [1 / 2, 1 / 2, 1 / 4]
      ⟨4, "KV", 1, 1, 2, 3, 0, 3, 0, 0, 0, 0, 0, true, List.replicate 4 0⟩).1, fun t => ?_, rfl, rfl, rfl, rfl, rfl, ?_⟩
  · simp only [Real.cos_sq_add_sin_sq, sub_self, abs_zero]
    positivity
  · refine Prod.ext rfl ?_
    have hc : ¬((4 : ℝ) < 0 ∨ (3 : ℝ) ≤ 0 ∨ (3 : ℝ) ≤ 0) := by norm_num
    simp only [rDistributeKV, ne_eq, not_true_eq_false, if_false, h4, Bunch.shape, Bunch.readBetax, Bunch.readBetay, if_neg hc, List.length_cons,
      List.length_nil, rKvLoop, hz, if_pos hlt, Bunch.finish, assign]
    rfl

end Verif.Bunch
