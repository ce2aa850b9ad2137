import Verif.Stats6d.PropsJacobiAll

/-!
C50: a symmetric matrix for which `jacobi_eigen_solver6d` (stats6d.py:85-168) returns vectors that are not eigenvectors.
The first five sweeps are followed with exact rational numbers.
-/

open scoped BigOperators

namespace Verif.Stats6d

/-- Rational 6x6 matrix, by rows; only the diagonal and the entries above it are used. -/
abbrev QM := List (List ℚ)

def QM.at (Q : QM) (i j : Fin 6) : ℚ := (List.getD Q i.val []).getD j.val 0

def QM.of (f : Fin 6 → Fin 6 → ℚ) : QM :=
  [[f 0 0, f 0 1, f 0 2, f 0 3, f 0 4, f 0 5], [f 1 0, f 1 1, f 1 2, f 1 3, f 1 4, f 1 5], [f 2 0, f 2 1, f 2 2, f 2 3, f 2 4, f 2 5],
   [f 3 0, f 3 1, f 3 2, f 3 3, f 3 4, f 3 5], [f 4 0, f 4 1, f 4 2, f 4 3, f 4 4, f 4 5], [f 5 0, f 5 1, f 5 2, f 5 3, f 5 4, f 5 5]]

theorem QM.at_of (f : Fin 6 → Fin 6 → ℚ) (i j : Fin 6) : (QM.of f).at i j = f i j := by
  fin_cases i <;> fin_cases j <;> rfl

/-- The state holds the rational matrix. -/
structure Rep (s : JState) (Q : QM) : Prop where
  up : ∀ p q, p < q → s.sigma p q = (Q.at p q : ℝ)
  ev : ∀ i, s.ev i = (Q.at i i : ℝ)
  split : ∀ i, s.ev i = s.b i + s.z i

/-- The rotation of the pair `(p, q)` with tangent `t` and cosine `c`. -/
def rotQ (Q : QM) (p q : Fin 6) (t c : ℚ) : QM :=
  let s := t * c
  let tau := s / (1 + c)
  QM.of fun r k =>
    if r = k then (if r = p then Q.at p p - t * Q.at p q else if r = q then Q.at q q + t * Q.at p q else Q.at r r)
    else if r = p ∧ k = q then 0
    else if r < p ∧ k = p then Q.at r p - s * (Q.at r q + Q.at r p * tau)
    else if r < p ∧ k = q then Q.at r q + s * (Q.at r p - Q.at r q * tau)
    else if r = p ∧ p < k ∧ k < q then Q.at p k - s * (Q.at k q + Q.at p k * tau)
    else if k = q ∧ p < r ∧ r < q then Q.at r q + s * (Q.at p r - Q.at r q * tau)
    else if r = p ∧ q < k then Q.at p k - s * (Q.at q k + Q.at p k * tau)
    else if r = q ∧ q < k then Q.at q k + s * (Q.at p k - Q.at q k * tau)
    else Q.at r k

/-- One pass in the first four sweeps, given tangent and cosine if there is a rotation. -/
def stepQ (th : ℚ) (Q : QM) (pq : Fin 6 × Fin 6) (h : Option (ℚ × ℚ)) : Option QM :=
  match h with
  | none => if |Q.at pq.1 pq.2| ≤ th then some Q else none
  | some (t, c) =>
    if th < |Q.at pq.1 pq.2| ∧ t ^ 2 * Q.at pq.1 pq.2 + (Q.at pq.2 pq.2 - Q.at pq.1 pq.1) * t - Q.at pq.1 pq.2 = 0 ∧
        t ≠ 0 ∧ -1 < t ∧ t < 1 ∧ 0 < c ∧ c ^ 2 * (1 + t ^ 2) = 1
    then some (rotQ Q pq.1 pq.2 t c) else none

/-- The passes of a sweep. -/
def foldQ (th : ℚ) (h : Fin 6 × Fin 6 → Option (ℚ × ℚ)) : List (Fin 6 × Fin 6) → QM → Option QM
  | [], Q => some Q
  | pq :: l, Q => match stepQ th Q pq (h pq) with
    | some Q' => foldQ th h l Q'
    | none => none

def sumQ (Q : QM) : ℚ := (pairs.map fun pq => |Q.at pq.1 pq.2|).sum

theorem tScal_unique {a h t : ℝ} (ha : a ≠ 0) (h1 : t ^ 2 * a + h * t - a = 0) (h0 : t ≠ 0) (hl : -1 < t) (hu : t < 1) :
    tScal a h (100 * |a|) = t := by
  have hg : ¬ (|h| + 100 * |a| = |h|) := by
    have : 0 < |a| := abs_pos.2 ha
    intro h2; linarith
  unfold tScal
  rw [if_neg hg]
  simp only
  have hth : 1 / 2 * h / a = (1 - t ^ 2) / (2 * t) := by
    field_simp
    linear_combination h1
  rw [hth]
  have ht2 : 0 < 1 - t ^ 2 := by nlinarith
  have hs : Real.sqrt (1 + ((1 - t ^ 2) / (2 * t)) ^ 2) = (1 + t ^ 2) / (2 * |t|) := by
    rw [Real.sqrt_eq_iff_mul_self_eq (by positivity) (by positivity)]
    have : |t| ^ 2 = t ^ 2 := sq_abs t
    field_simp
    rw [this]
    ring
  have hab : |(1 - t ^ 2) / (2 * t)| = (1 - t ^ 2) / (2 * |t|) := by
    rw [abs_div, abs_mul, abs_of_pos ht2, abs_of_pos (two_pos)]
  rw [hs, hab]
  have hpos : 0 < |t| := abs_pos.2 h0
  have e : 1 / ((1 - t ^ 2) / (2 * |t|) + (1 + t ^ 2) / (2 * |t|)) = |t| := by
    field_simp
    ring
  rw [e]
  by_cases hneg : t < 0
  · rw [if_pos (div_neg_of_pos_of_neg ht2 (by linarith)), abs_of_neg hneg]; ring
  · have : 0 < t := lt_of_le_of_ne (not_lt.mp hneg) (Ne.symm h0)
    rw [if_neg (not_lt.mpr (by positivity)), abs_of_pos this]

theorem cos_unique {t c : ℝ} (hc : 0 < c) (h : c ^ 2 * (1 + t ^ 2) = 1) : 1 / Real.sqrt (1 + t ^ 2) = c := by
  have : Real.sqrt (1 + t ^ 2) = 1 / c := by
    rw [Real.sqrt_eq_iff_mul_self_eq (by positivity) (by positivity)]
    field_simp
    linarith
  rw [this, one_div_one_div]

theorem stepQ_rep {n : Nat} (hn : n ≤ 3) {th : ℚ} (hth : 0 ≤ th) {s : JState} {Q Q' : QM} {pq : Fin 6 × Fin 6} (hpq : pq.1 < pq.2)
    {h : Option (ℚ × ℚ)} (hr : Rep s Q) (hq : stepQ th Q pq h = some Q') : Rep (jStep n (th : ℝ) s pq) Q' := by
  obtain ⟨p, q⟩ := pq
  simp only at hpq
  have ha := hr.up p q hpq
  have hn3 : ¬ (n > 3) := by omega
  unfold jStep
  simp only [hn3, false_and, if_false]
  match h with
  | none =>
    simp only [stepQ] at hq
    split at hq
    · rename_i hle
      injection hq with hq
      subst hq
      have : ¬ (|s.sigma p q| > (th : ℝ)) := by
        rw [ha, not_lt]
        exact_mod_cast hle
      rw [if_neg this]
      exact hr
    · cases hq
  | some (t, c) =>
    simp only [stepQ] at hq
    split at hq
    · rename_i hh
      obtain ⟨c1, c2, c3, c4, c5, c6, c7⟩ := hh
      injection hq with hq
      subst hq
      have hgt : |s.sigma p q| > (th : ℝ) := by
        rw [ha]
        exact_mod_cast c1
      have ha0 : s.sigma p q ≠ 0 := by
        intro h0
        rw [h0, abs_zero] at hgt
        have : (0 : ℝ) ≤ th := by exact_mod_cast hth
        linarith
      rw [if_pos hgt]
      have ht : tScal (s.sigma p q) (s.ev q - s.ev p) (100 * |s.sigma p q|) = (t : ℝ) := by
        refine tScal_unique ha0 ?_ (by exact_mod_cast c3) (by exact_mod_cast c4) (by exact_mod_cast c5)
        rw [ha, hr.ev, hr.ev]
        exact_mod_cast c2
      have hc : 1 / Real.sqrt (1 + (t : ℝ) ^ 2) = (c : ℝ) := cos_unique (by exact_mod_cast c6) (by exact_mod_cast c7)
      rw [ht, hc]
      constructor
      · intro r k hrk
        simp only [rotQ, QM.at_of, rotSigma]
        rw [if_neg (ne_of_lt hrk)]
        by_cases e1 : r = p ∧ k = q
        · simp [e1]
        rw [if_neg e1, if_neg e1]
        by_cases e2 : r < p ∧ k = p
        · rw [if_pos e2, if_pos e2, hr.up r p e2.1, hr.up r q (e2.1.trans hpq)]; push_cast; ring
        rw [if_neg e2, if_neg e2]
        by_cases e3 : r < p ∧ k = q
        · rw [if_pos e3, if_pos e3, hr.up r p e3.1, hr.up r q (e3.1.trans hpq)]; push_cast; ring
        rw [if_neg e3, if_neg e3]
        by_cases e4 : r = p ∧ p < k ∧ k < q
        · rw [if_pos e4, if_pos e4, hr.up p k e4.2.1, hr.up k q e4.2.2]; push_cast; ring
        rw [if_neg e4, if_neg e4]
        by_cases e5 : k = q ∧ p < r ∧ r < q
        · rw [if_pos e5, if_pos e5, hr.up p r e5.2.1, hr.up r q e5.2.2]; push_cast; ring
        rw [if_neg e5, if_neg e5]
        by_cases e6 : r = p ∧ q < k
        · rw [if_pos e6, if_pos e6, hr.up p k (hpq.trans e6.2), hr.up q k e6.2]; push_cast; ring
        rw [if_neg e6, if_neg e6]
        by_cases e7 : r = q ∧ q < k
        · rw [if_pos e7, if_pos e7, hr.up p k (hpq.trans e7.2), hr.up q k e7.2]; push_cast; ring
        rw [if_neg e7, if_neg e7]
        exact hr.up r k hrk
      · intro i
        simp only [rotQ, QM.at_of, if_true]
        rw [ha, hr.ev p, hr.ev q, hr.ev i]
        by_cases e1 : i = p
        · rw [if_pos e1, if_pos e1]; push_cast; ring
        rw [if_neg e1, if_neg e1]
        by_cases e2 : i = q
        · rw [if_pos e2, if_pos e2]; push_cast; ring
        rw [if_neg e2, if_neg e2]
      · intro i
        simp only
        have h1 := hr.split i
        by_cases hip : i = p
        · subst hip; simp only [if_true]; linarith
        · by_cases hiq : i = q
          · subst hiq; simp only [hip, if_true, if_false]; linarith
          · simp only [hip, hiq, if_false]; exact h1
    · cases hq

theorem foldQ_rep {n : Nat} (hn : n ≤ 3) {th : ℚ} (hth : 0 ≤ th) (h : Fin 6 × Fin 6 → Option (ℚ × ℚ)) (l : List (Fin 6 × Fin 6)) :
    ∀ {s : JState} {Q Q' : QM}, (∀ pq ∈ l, pq.1 < pq.2) → Rep s Q → foldQ th h l Q = some Q' →
      Rep (l.foldl (jStep n (th : ℝ)) s) Q' := by
  induction l with
  | nil =>
    intro s Q Q' _ hr hq
    injection hq with hq
    subst hq
    exact hr
  | cons pq l ih =>
    intro s Q Q' hl hr hq
    simp only [foldQ] at hq
    split at hq
    · rename_i Q1 h1
      exact ih (fun x hx => hl x (List.mem_cons_of_mem _ hx)) (stepQ_rep hn hth (hl pq List.mem_cons_self) hr h1) hq
    · cases hq

theorem offSum_rep {s : JState} {Q : QM} (hr : Rep s Q) : offSum s = (sumQ Q : ℝ) := by
  unfold offSum sumQ
  have key : ∀ l : List (Fin 6 × Fin 6), (∀ pq ∈ l, pq.1 < pq.2) →
      (l.map fun pq => |s.sigma pq.1 pq.2|).sum = (((l.map fun pq => |Q.at pq.1 pq.2|).sum : ℚ) : ℝ) := by
    intro l
    induction l with
    | nil => intro _; simp
    | cons pq l ih =>
      intro hl
      rw [List.map_cons, List.sum_cons, List.map_cons, List.sum_cons, ih (fun x hx => hl x (List.mem_cons_of_mem _ hx)),
        hr.up _ _ (hl pq List.mem_cons_self)]
      push_cast
      rfl
  exact key pairs (fun pq hp => (mem_pairs pq).mp hp)

/-- A whole sweep, one of the first four. -/
def sweepQ (n : Nat) (h : Fin 6 × Fin 6 → Option (ℚ × ℚ)) (Q : QM) : Option QM :=
  if sumQ Q = 0 then none else foldQ (if n < 3 then sumQ Q / 180 else 0) h pairs Q

theorem sweepQ_rep {n : Nat} (hn : n ≤ 3) (h : Fin 6 × Fin 6 → Option (ℚ × ℚ)) {s : JState} {Q Q' : QM} (hr : Rep s Q)
    (hq : sweepQ n h Q = some Q') : offSum s ≠ 0 ∧ Rep (jSweep n s) Q' := by
  unfold sweepQ at hq
  split at hq
  · cases hq
  rename_i h0
  have ho := offSum_rep hr
  have hth : jThreshold n (offSum s) = ((if n < 3 then sumQ Q / 180 else 0 : ℚ) : ℝ) := by
    unfold jThreshold
    rw [ho]
    split
    · push_cast; ring
    · simp
  have hpos : 0 ≤ (if n < 3 then sumQ Q / 180 else 0 : ℚ) := by
    have := jThreshold_nonneg n s
    rw [hth] at this
    exact_mod_cast this
  refine ⟨by rw [ho]; exact_mod_cast h0, ?_⟩
  have h1 := foldQ_rep hn hpos h pairs (fun pq hp => (mem_pairs pq).mp hp) hr hq
  unfold jSweep
  rw [hth]
  refine ⟨h1.up, fun i => ?_, fun i => by simp [jCollect]⟩
  have := h1.ev i
  rw [h1.split i] at this
  exact this

/-- The matrix; then what the solver holds after one, two, three and four sweeps. -/
def badQ0 : QM :=
  [[-9144, 0, 768/5, -576/5, 0, 0],
   [0, -9225, 300, -225, 0, 0],
   [0, 0, 8639993310476315231851904/400000200000025, 11519996017170888576111072/400000200000025, -575998992000216000000/16000008000001, 288000000/4000001],
   [0, 0, 0, 15359990987159333567916696/400000200000025, -767998656000288000000/16000008000001, 384000000/4000001],
   [0, 0, 0, 0, 2399999280000090000/16000008000001, 479999880000/4000001],
   [0, 0, 0, 0, 0, 160000]]

/-- After the first sweep. -/
def badQ1 : QM :=
  [[-9144, 0, 192, 0, 0, 0],
   [0, -9225, 375, 0, 0, 0],
   [0, 0, -9256, 0, 0, 0],
   [0, 0, 0, 959999520001500000000000/16000008000001, -959998320000360000000/16000008000001, 480000000/4000001],
   [0, 0, 0, 0, 2399999280000090000/16000008000001, 479999880000/4000001],
   [0, 0, 0, 0, 0, 160000]]

/-- After the second. -/
def badQ2 : QM :=
  [[-9144, 0, 192, 0, 0, 0],
   [0, -9225, 375, 0, 0, 0],
   [0, 0, -9256, 0, 0, 0],
   [0, 0, 0, 60000000000, 0, 0],
   [0, 0, 0, 0, 90000, 120000],
   [0, 0, 0, 0, 0, 160000]]

/-- After the third. -/
def badQ3 : QM :=
  [[-9144, 0, 192, 0, 0, 0],
   [0, -9225, 375, 0, 0, 0],
   [0, 0, -9256, 0, 0, 0],
   [0, 0, 0, 60000000000, 0, 0],
   [0, 0, 0, 0, 0, 0],
   [0, 0, 0, 0, 0, 250000]]

/-- After the fourth: the diagonal entries of the pair (0, 1) are minus fifty times the entry. -/
def badQ4 : QM :=
  [[-9000, 180, -135, 0, 0, 0],
   [0, -9000, 0, 0, 0, 0],
   [0, 0, -9625, 0, 0, 0],
   [0, 0, 0, 60000000000, 0, 0],
   [0, 0, 0, 0, 0, 0],
   [0, 0, 0, 0, 0, 250000]]


theorem bad_sweep0 : sweepQ 0 (fun pq => if pq = (2, 3) then some (3/4, 4/5) else none) badQ0 = some badQ1 := by decide +kernel

theorem bad_sweep1 : sweepQ 1 (fun pq => if pq = (3, 4) then some (4000/3999999, 3999999/4000001) else none) badQ1 = some badQ2 := by
  decide +kernel

theorem bad_sweep2 : sweepQ 2 (fun pq => if pq = (4, 5) then some (3/4, 4/5) else none) badQ2 = some badQ3 := by decide +kernel

theorem bad_sweep3 : sweepQ 3 (fun pq => if pq = (0, 2) ∨ pq = (1, 2) then some (-3/4, 4/5) else none) badQ3 = some badQ4 := by
  decide +kernel

/-- The matrix of the counterexample. -/
noncomputable def badM : Fin 6 → Fin 6 → ℝ := fun i j => if i ≤ j then (badQ0.at i j : ℝ) else (badQ0.at j i : ℝ)

theorem badM_symm : Symmetric badM := by
  intro i j
  unfold badM
  rcases lt_trichotomy i j with h | h | h
  · rw [if_pos h.le, if_neg (not_le.mpr h)]
  · rw [h]
  · rw [if_neg (not_le.mpr h), if_pos h.le]

theorem badM_rep : Rep (jInit badM) badQ0 := by
  refine ⟨fun p q h => ?_, fun i => ?_, fun i => ?_⟩
  · show badM p q = _
    unfold badM
    rw [if_pos h.le]
  · show badM i i = _
    unfold badM
    rw [if_pos le_rfl]
  · simp [jInit]

/-- All entries above the diagonal are zero. -/
def Flat (s : JState) : Prop := ∀ p q, p < q → s.sigma p q = 0

theorem flat_step {n : Nat} {s : JState} {pq : Fin 6 × Fin 6} (hpq : pq.1 < pq.2) (h : Flat s) : Flat (jStep n 0 s pq) := by
  obtain ⟨p, q⟩ := pq
  unfold jStep
  simp only
  split
  · intro r c hrc
    simp only
    split
    · rfl
    · exact h r c hrc
  · rw [if_neg]
    · exact h
    · rw [h p q hpq, abs_zero]
      exact lt_irrefl _

theorem flat_fold {n : Nat} (l : List (Fin 6 × Fin 6)) (hl : ∀ pq ∈ l, pq.1 < pq.2) : ∀ s, Flat s → Flat (l.foldl (jStep n 0) s) := by
  induction l with
  | nil => intro s h; exact h
  | cons pq l ih =>
    intro s h
    exact ih (fun x hx => hl x (List.mem_cons_of_mem _ hx)) _ (flat_step (hl pq List.mem_cons_self) h)

theorem flat_offSum {s : JState} (h : Flat s) : offSum s = 0 := by
  unfold offSum
  apply List.sum_eq_zero
  intro x hx
  obtain ⟨pq, hp, rfl⟩ := List.mem_map.1 hx
  rw [h _ _ ((mem_pairs pq).mp hp), abs_zero]

theorem single_step {n : Nat} {s : JState} {p q : Fin 6} (hpq : p < q) (h : ∀ r c, r < c → (r, c) ≠ (p, q) → s.sigma r c = 0) :
    Flat (jStep n 0 s (p, q)) := by
  unfold jStep
  simp only
  split
  · intro r c hrc
    simp only
    split
    · rfl
    · rename_i hne
      exact h r c hrc (fun e => hne (by injection e with a b; exact ⟨a, b⟩))
  · split
    · intro r k hrk
      simp only [rotSigma]
      by_cases e1 : r = p ∧ k = q
      · rw [if_pos e1]
      rw [if_neg e1]
      have hz : ∀ a b, a < b → (a ≠ p ∨ b ≠ q) → s.sigma a b = 0 := fun a b hab hor => h a b hab (fun e => by
        injection e with x y
        rcases hor with hor | hor
        · exact hor x
        · exact hor y)
      by_cases e2 : r < p ∧ k = p
      · rw [if_pos e2, hz r p e2.1 (.inl (ne_of_lt e2.1)), hz r q (e2.1.trans hpq) (.inl (ne_of_lt e2.1))]; ring
      rw [if_neg e2]
      by_cases e3 : r < p ∧ k = q
      · rw [if_pos e3, hz r p e3.1 (.inl (ne_of_lt e3.1)), hz r q (e3.1.trans hpq) (.inl (ne_of_lt e3.1))]; ring
      rw [if_neg e3]
      by_cases e4 : r = p ∧ p < k ∧ k < q
      · rw [if_pos e4, hz p k e4.2.1 (.inr (ne_of_lt e4.2.2)), hz k q e4.2.2 (.inl (ne_of_gt e4.2.1))]; ring
      rw [if_neg e4]
      by_cases e5 : k = q ∧ p < r ∧ r < q
      · rw [if_pos e5, hz p r e5.2.1 (.inr (ne_of_lt e5.2.2)), hz r q e5.2.2 (.inl (ne_of_gt e5.2.1))]; ring
      rw [if_neg e5]
      by_cases e6 : r = p ∧ q < k
      · rw [if_pos e6, hz p k (hpq.trans e6.2) (.inr (ne_of_gt e6.2)), hz q k e6.2 (.inr (ne_of_gt e6.2))]; ring
      rw [if_neg e6]
      by_cases e7 : r = q ∧ q < k
      · rw [if_pos e7, hz p k (hpq.trans e7.2) (.inr (ne_of_gt e7.2)), hz q k e7.2 (.inr (ne_of_gt e7.2))]; ring
      rw [if_neg e7]
      refine hz r k hrk ?_
      by_contra hcon
      push Not at hcon
      exact e1 hcon
    · rename_i hle
      intro r c hrc
      by_cases e : (r, c) = (p, q)
      · injection e with a b
        subst a; subst b
        rw [not_lt] at hle
        exact abs_eq_zero.1 (le_antisymm hle (abs_nonneg _))
      · exact h r c hrc e

theorem pairs_head : ∃ l, pairs = (0, 1) :: (0, 2) :: l := ⟨_, rfl⟩

theorem bad_last {s : JState} (h : Rep s badQ4) : offSum s ≠ 0 ∧ stepDrop 4 s (0, 1) ≠ 0 ∧ offSum (jSweep 4 s) = 0 := by
  have h01 : s.sigma 0 1 = 180 := by
    rw [h.up 0 1 (by decide)]
    have : badQ4.at 0 1 = 180 := by decide +kernel
    rw [this]; norm_num
  have e0 : s.ev 0 = -9000 := by
    rw [h.ev 0]
    have : badQ4.at 0 0 = -9000 := by decide +kernel
    rw [this]; norm_num
  have e1 : s.ev 1 = -9000 := by
    rw [h.ev 1]
    have : badQ4.at 1 1 = -9000 := by decide +kernel
    rw [this]; norm_num
  have ho : offSum s ≠ 0 := by
    rw [offSum_rep h]
    have : sumQ badQ4 ≠ 0 := by decide +kernel
    exact_mod_cast this
  have hd : stepDrop 4 s (0, 1) ≠ 0 := by
    rw [stepDrop_ne, h01, e0, e1, abs_of_pos (by norm_num : (0 : ℝ) < 180)]
    norm_num
  refine ⟨ho, hd, ?_⟩
  obtain ⟨l, hl⟩ := pairs_head
  have hth : jThreshold 4 (offSum s) = 0 := by simp [jThreshold]
  have hzero : ∀ r c : Fin 6, r < c → (r, c) ≠ (0, 1) → (r, c) ≠ (0, 2) → s.sigma r c = 0 := by
    have : ∀ r c : Fin 6, r < c → (r, c) ≠ (0, 1) → (r, c) ≠ (0, 2) → badQ4.at r c = 0 := by decide +kernel
    intro r c h1 h2 h3
    rw [h.up r c h1, this r c h1 h2 h3]
    norm_num
  have hmem : ∀ pq ∈ l, pq.1 < pq.2 := fun pq hp => (mem_pairs pq).mp (by
    rw [hl]; exact List.mem_cons_of_mem _ (List.mem_cons_of_mem _ hp))
  have hs1 : ∀ r c : Fin 6, r < c → (r, c) ≠ (0, 2) → (jStep 4 0 s (0, 1)).sigma r c = 0 := by
    intro r c hrc h2
    unfold jStep
    simp only
    rw [if_pos]
    · simp only
      split
      · rfl
      · rename_i hne
        exact hzero r c hrc (fun e => hne (by injection e with a b; exact ⟨a, b⟩)) h2
    · rw [h01, e0, e1]
      norm_num [abs_of_pos, abs_of_neg]
  have hflat : Flat (pairs.foldl (jStep 4 0) s) := by
    rw [hl, List.foldl_cons, List.foldl_cons]
    exact flat_fold l hmem _ (single_step (by decide) hs1)
  unfold jSweep
  rw [hth]
  exact flat_offSum hflat

theorem runs_sweep {m : Fin 6 → Fin 6 → ℝ} {n : Nat} {s : JState} (h : Runs m n pairs (jThreshold n (offSum s)) s) (hn : n + 1 < 50)
    (h0 : offSum (jSweep n s) ≠ 0) : Runs m (n + 1) pairs (jThreshold (n + 1) (offSum (jSweep n s))) (jSweep n s) := by
  unfold jSweep at h0 ⊢
  exact Runs.next (foldDrop_ne pairs s h).1 hn h0

theorem bad_run : (∃ ev v, jacobi badM = .ok (ev, v)) ∧ Drops badM := by
  obtain ⟨o0, r1⟩ := sweepQ_rep (by omega) _ badM_rep bad_sweep0
  obtain ⟨o1, r2⟩ := sweepQ_rep (by omega) _ r1 bad_sweep1
  obtain ⟨o2, r3⟩ := sweepQ_rep (by omega) _ r2 bad_sweep2
  obtain ⟨o3, r4⟩ := sweepQ_rep (by omega) _ r3 bad_sweep3
  obtain ⟨o4, hd, hend⟩ := bad_last r4
  obtain ⟨l, hl⟩ := pairs_head
  constructor
  · refine ⟨(jSweep 4 (jSweep 3 (jSweep 2 (jSweep 1 (jSweep 0 (jInit badM)))))).ev,
      (jSweep 4 (jSweep 3 (jSweep 2 (jSweep 1 (jSweep 0 (jInit badM)))))).vecs, ?_⟩
    unfold jacobi
    rw [show (50 : Nat) = 44 + 1 + 1 + 1 + 1 + 1 + 1 from rfl]
    rw [jLoop, if_neg o0, jLoop, if_neg o1, jLoop, if_neg o2, jLoop, if_neg o3, jLoop, if_neg o4, jLoop, if_pos hend]
  · have x4 := runs_sweep (runs_sweep (runs_sweep (runs_sweep (Runs.start o0) (by omega) o1) (by omega) o2) (by omega) o3) (by omega) o4
    obtain ⟨a, b, c, d⟩ := stepDrop_ne.1 hd
    rw [hl] at x4
    exact ⟨4, _, _, _, 0, 1, x4, a, b, c, d⟩

/-- **C50 is false for symmetric matrices that are not positive semidefinite.** For this matrix the solver ends without an error; the
vectors are orthonormal, but they are not eigenvectors and the squares of the values do not add up to those of the matrix. -/
theorem jacobi_symmetric_fails : ∃ (m : Fin 6 → Fin 6 → ℝ) (ev : Fin 6 → ℝ) (v : Fin 6 → Fin 6 → ℝ),
    Symmetric m ∧ jacobi m = .ok (ev, v) ∧ Orthonormal v ∧ ¬ Eigen m ev v ∧ ∑ i, ev i ^ 2 < ∑ i, ∑ j, m i j ^ 2 := by
  obtain ⟨⟨ev, v, hj⟩, hdrop⟩ := bad_run
  obtain ⟨h1, h2, h3, h4⟩ := jacobi_symmetric_iff badM badM_symm ev v hj
  exact ⟨badM, ev, v, badM_symm, hj, h1, fun he => h2.1 he hdrop, lt_of_le_of_ne h3 (fun he => h4.1 he hdrop)⟩

/-- Non-vacuity of `jacobi_symmetric_iff`: a run that ends, on a matrix that is not positive semidefinite. -/
example : ∃ ev v, jacobi badM = .ok (ev, v) ∧ Symmetric badM ∧ badM 0 0 < 0 := by
  obtain ⟨⟨ev, v, hj⟩, _⟩ := bad_run
  refine ⟨ev, v, hj, badM_symm, ?_⟩
  have : badQ0.at 0 0 < 0 := by decide +kernel
  show ((badQ0.at 0 0 : ℚ) : ℝ) < 0
  exact_mod_cast this

end Verif.Stats6d
