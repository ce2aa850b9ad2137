import Verif.Stats6d.Props

/-!
C50 for all symmetric matrices: what `jacobi_eigen_solver6d` (stats6d.py:85-168) returns when the matrix need not be
positive semidefinite.
-/

open scoped BigOperators
open Matrix

namespace Verif.Stats6d

/-- The passes through the body of the double loop in a run on `m`: sweep `n` with threshold `th`, the pairs still to do, the state. -/
inductive Runs (m : Fin 6 → Fin 6 → ℝ) : Nat → List (Fin 6 × Fin 6) → ℝ → JState → Prop
  | start : offSum (jInit m) ≠ 0 → Runs m 0 pairs (jThreshold 0 (offSum (jInit m))) (jInit m)
  | step {n pq l th s} : Runs m n (pq :: l) th s → Runs m n l th (jStep n th s pq)
  | next {n th s} : Runs m n [] th s → n + 1 < 50 → offSum (jCollect s) ≠ 0 →
      Runs m (n + 1) pairs (jThreshold (n + 1) (offSum (jCollect s))) (jCollect s)

/-- In the run on `m` an entry that is not zero is set to zero without a rotation: after the fourth sweep the two diagonal
entries are both minus fifty times the absolute value of the entry. -/
def Drops (m : Fin 6 → Fin 6 → ℝ) : Prop :=
  ∃ n l th s p q, Runs m n ((p, q) :: l) th s ∧ 3 < n ∧ s.sigma p q ≠ 0 ∧
    s.ev p = -50 * |s.sigma p q| ∧ s.ev q = -50 * |s.sigma p q|

/-- Square of the entry that one pass drops. -/
noncomputable def stepDrop (n : Nat) (s : JState) (pq : Fin 6 × Fin 6) : ℝ :=
  if n > 3 ∧ abs (s.ev pq.1 + 100 * |s.sigma pq.1 pq.2|) = |s.ev pq.1| ∧ abs (s.ev pq.2 + 100 * |s.sigma pq.1 pq.2|) = |s.ev pq.2|
  then s.sigma pq.1 pq.2 ^ 2 else 0

/-- The same for a list of pairs. -/
noncomputable def foldDrop (n : Nat) (th : ℝ) : List (Fin 6 × Fin 6) → JState → ℝ
  | [], _ => 0
  | pq :: l, s => stepDrop n s pq + foldDrop n th l (jStep n th s pq)

/-- The same for the sweeps to come. -/
noncomputable def loopDrop : Nat → Nat → JState → ℝ
  | 0, _, _ => 0
  | left + 1, n, s => if offSum s = 0 then 0
    else foldDrop n (jThreshold n (offSum s)) pairs s + loopDrop left (n + 1) (jSweep n s)

theorem stepDrop_nonneg (n : Nat) (s : JState) (pq : Fin 6 × Fin 6) : 0 ≤ stepDrop n s pq := by
  unfold stepDrop
  split
  · positivity
  · exact le_rfl

theorem foldDrop_nonneg (n : Nat) (th : ℝ) (l : List (Fin 6 × Fin 6)) : ∀ s, 0 ≤ foldDrop n th l s := by
  induction l with
  | nil => intro s; exact le_rfl
  | cons pq l ih => intro s; exact add_nonneg (stepDrop_nonneg n s pq) (ih _)

theorem loopDrop_nonneg (left : Nat) : ∀ n s, 0 ≤ loopDrop left n s := by
  induction left with
  | zero => intro n s; exact le_rfl
  | succ left ih =>
    intro n s
    unfold loopDrop
    split
    · exact le_rfl
    · exact add_nonneg (foldDrop_nonneg _ _ _ _) (ih _ _)

theorem coincide {e g : ℝ} (hg : 0 < g) : |e + g| = |e| ↔ e = -(g / 2) := by
  rw [abs_eq_abs]
  constructor
  · rintro (h | h) <;> linarith
  · intro h; right; linarith

/-- A pass drops something exactly if the two diagonal entries are minus fifty times the entry. -/
theorem stepDrop_ne {n : Nat} {s : JState} {p q : Fin 6} :
    stepDrop n s (p, q) ≠ 0 ↔ 3 < n ∧ s.sigma p q ≠ 0 ∧ s.ev p = -50 * |s.sigma p q| ∧ s.ev q = -50 * |s.sigma p q| := by
  unfold stepDrop
  by_cases h0 : s.sigma p q = 0
  · simp [h0]
  · have hg : 0 < 100 * |s.sigma p q| := by positivity
    simp only [coincide hg]
    have e : -(100 * |s.sigma p q| / 2) = -50 * |s.sigma p q| := by ring
    rw [e]
    split
    · rename_i h
      exact ⟨fun _ => ⟨h.1, h0, h.2.1, h.2.2⟩, fun _ => pow_ne_zero _ h0⟩
    · rename_i h
      exact ⟨fun h' => absurd rfl h', fun h' => absurd ⟨h'.1, h'.2.2.1, h'.2.2.2⟩ h⟩

theorem foldDrop_ne {m : Fin 6 → Fin 6 → ℝ} {n : Nat} {th : ℝ} (l : List (Fin 6 × Fin 6)) : ∀ s, Runs m n l th s →
    Runs m n [] th (l.foldl (jStep n th) s) ∧ (foldDrop n th l s ≠ 0 → Drops m) := by
  induction l with
  | nil => intro s h; exact ⟨h, fun h => absurd rfl h⟩
  | cons pq l ih =>
    intro s h
    obtain ⟨h1, h2⟩ := ih _ (.step h)
    refine ⟨h1, fun hne => ?_⟩
    by_cases hs : stepDrop n s pq = 0
    · rw [foldDrop, hs, zero_add] at hne
      exact h2 hne
    · obtain ⟨a, b, c, d⟩ := stepDrop_ne.1 hs
      exact ⟨n, l, th, s, pq.1, pq.2, h, a, b, c, d⟩

theorem loopDrop_ne {m : Fin 6 → Fin 6 → ℝ} (left : Nat) : ∀ n s, n + left = 50 →
    (offSum s ≠ 0 → n < 50 → Runs m n pairs (jThreshold n (offSum s)) s) → loopDrop left n s ≠ 0 → Drops m := by
  induction left with
  | zero => intro n s _ _ h; exact absurd rfl h
  | succ left ih =>
    intro n s hn hr h
    unfold loopDrop at h
    split at h
    · exact absurd rfl h
    · rename_i h0
      have hrun := hr h0 (by omega)
      obtain ⟨h1, h2⟩ := foldDrop_ne pairs s hrun
      by_cases hf : foldDrop n (jThreshold n (offSum s)) pairs s = 0
      · rw [hf, zero_add] at h
        refine ih (n + 1) _ (by omega) ?_ h
        intro h3 h4
        exact .next h1 h4 h3
      · exact h2 hf

/-- Sum of squares of the matrix held. -/
noncomputable def nrm (s : JState) : ℝ := Matrix.trace (full s.sigma s.ev * full s.sigma s.ev)

theorem jStep_keep {m : Matrix (Fin 6) (Fin 6) ℝ} (n : Nat) (th : ℝ) (hth : 0 ≤ th) (s : JState) (pq : Fin 6 × Fin 6)
    (hpq : pq.1 < pq.2) (h : JInv m s) (hd : stepDrop n s pq = 0) : JInv m (jStep n th s pq) := by
  obtain ⟨p, q⟩ := pq
  simp only at hpq
  unfold jStep
  simp only
  split
  · rename_i hc
    have : s.sigma p q = 0 := by
      unfold stepDrop at hd
      rw [if_pos hc] at hd
      exact pow_eq_zero_iff (two_ne_zero) |>.1 hd
    have heq : (fun r c => if r = p ∧ c = q then (0 : ℝ) else s.sigma r c) = s.sigma := by
      funext r c
      split
      · rename_i hrc; rw [hrc.1, hrc.2, this]
      · rfl
    rw [heq]
    exact h
  · split
    · rename_i hgt
      have hne : s.sigma p q ≠ 0 := by
        intro h0; rw [h0, abs_zero] at hgt; linarith
      set apq := s.sigma p q with hapq
      set t := tScal apq (s.ev q - s.ev p) (100 * |apq|) with ht
      have hz := tScal_eq apq (s.ev q - s.ev p) hne
      rw [← ht] at hz
      have hp : 0 < 1 + t ^ 2 := by positivity
      have hs : 0 < Real.sqrt (1 + t ^ 2) := Real.sqrt_pos.mpr hp
      set c := 1 / Real.sqrt (1 + t ^ 2) with hc
      have hc0 : 0 < c := by positivity
      have hc2 : c ^ 2 * (1 + t ^ 2) = 1 := by
        rw [hc, div_pow, Real.sq_sqrt hp.le]; field_simp
      have hcs : c ^ 2 + (t * c) ^ 2 = 1 := by linear_combination hc2
      have hc1 : 1 + c ≠ 0 := by positivity
      have htau : t * c / (1 + c) * (1 + c) = t * c := by field_simp
      have hst : t * c * (t * c / (1 + c)) = 1 - c := by
        field_simp; linear_combination hc2
      have hfull := full_rot s.sigma s.ev p q hpq c (t * c) t (t * c / (1 + c)) rfl hcs htau hz hc0
      have hv := rotVecs_eq s.vecs p q (ne_of_lt hpq) c (t * c) (t * c / (1 + c)) hst
      constructor
      · simp only
        rw [hv, Matrix.transpose_mul, Matrix.mul_assoc, ← Matrix.mul_assoc (Matrix.of s.vecs)ᵀ, h.orth,
          Matrix.one_mul, rotJ_orth p q (ne_of_lt hpq) c (t * c) hcs]
      · simp only
        rw [hv, hfull, ← h.sim, Matrix.transpose_mul]
        simp only [Matrix.mul_assoc]
      · intro i
        simp only
        have h1 := h.split i
        by_cases hip : i = p
        · subst hip; simp only [if_true]; linarith
        · by_cases hiq : i = q
          · subst hiq; simp only [hip, if_true, if_false]; linarith
          · simp only [hip, hiq, if_false]; exact h1
    · exact h

/-- What holds in every state: orthonormal vectors, and the diagonal is the sum of its two parts. -/
structure JGen (s : JState) : Prop where
  orth : (Matrix.of s.vecs)ᵀ * Matrix.of s.vecs = 1
  split : ∀ i, s.ev i = s.b i + s.z i

theorem JInv.nrm_eq {m : Matrix (Fin 6) (Fin 6) ℝ} {s : JState} (h : JInv m s) : nrm s = Matrix.trace (m * m) := by
  have h1' : Matrix.of s.vecs * (Matrix.of s.vecs)ᵀ = 1 := mul_eq_one_comm.mp h.orth
  unfold nrm
  rw [← h.sim]
  have : (Matrix.of s.vecs)ᵀ * m * Matrix.of s.vecs * ((Matrix.of s.vecs)ᵀ * m * Matrix.of s.vecs) =
      (Matrix.of s.vecs)ᵀ * (m * m) * Matrix.of s.vecs := by
    have : (Matrix.of s.vecs)ᵀ * m * Matrix.of s.vecs * ((Matrix.of s.vecs)ᵀ * m * Matrix.of s.vecs) =
      (Matrix.of s.vecs)ᵀ * m * (Matrix.of s.vecs * (Matrix.of s.vecs)ᵀ) * m * Matrix.of s.vecs := by
      simp only [Matrix.mul_assoc]
    rw [this, h1', Matrix.mul_one]
    simp only [Matrix.mul_assoc]
  rw [this, Matrix.trace_mul_comm, ← Matrix.mul_assoc, h1', Matrix.one_mul]

theorem JGen.inv {s : JState} (h : JGen s) :
    JInv (Matrix.of s.vecs * full s.sigma s.ev * (Matrix.of s.vecs)ᵀ) s := by
  refine ⟨h.orth, ?_, h.split⟩
  have : (Matrix.of s.vecs)ᵀ * (Matrix.of s.vecs * full s.sigma s.ev * (Matrix.of s.vecs)ᵀ) * Matrix.of s.vecs =
      ((Matrix.of s.vecs)ᵀ * Matrix.of s.vecs) * full s.sigma s.ev * ((Matrix.of s.vecs)ᵀ * Matrix.of s.vecs) := by
    simp only [Matrix.mul_assoc]
  rw [this, h.orth, Matrix.one_mul, Matrix.mul_one]

theorem nrm_drop (sg : Fin 6 → Fin 6 → ℝ) (ev : Fin 6 → ℝ) (p q : Fin 6) (hpq : p < q) :
    Matrix.trace (full (fun r c => if r = p ∧ c = q then 0 else sg r c) ev * full (fun r c => if r = p ∧ c = q then 0 else sg r c) ev) =
      Matrix.trace (full sg ev * full sg ev) - 2 * sg p q ^ 2 := by
  have key : ∀ f : Matrix (Fin 6) (Fin 6) ℝ, (∀ i j, f i j = f j i) → Matrix.trace (f * f) = ∑ i, ∑ j, f i j ^ 2 := by
    intro f hf
    unfold Matrix.trace
    refine Finset.sum_congr rfl fun i _ => ?_
    rw [Matrix.diag_apply, Matrix.mul_apply]
    refine Finset.sum_congr rfl fun j _ => ?_
    rw [hf j i]; ring
  have hsym : ∀ (g : Fin 6 → Fin 6 → ℝ) (i j), full g ev i j = full g ev j i := by
    intro g i j
    unfold full
    simp only [Matrix.of_apply]
    rcases lt_trichotomy i j with h | h | h
    · rw [if_neg (ne_of_lt h), if_pos h, if_neg (Ne.symm (ne_of_lt h)), if_neg (not_lt.mpr h.le)]
    · rw [h]
    · rw [if_neg (Ne.symm (ne_of_lt h)), if_neg (not_lt.mpr h.le), if_neg (ne_of_lt h), if_pos h]
  rw [key _ (hsym _), key _ (hsym _)]
  have hpt : ∀ i j, full sg ev i j ^ 2 = full (fun r c => if r = p ∧ c = q then 0 else sg r c) ev i j ^ 2 +
      ((if i = p then if j = q then sg p q ^ 2 else 0 else 0) + (if i = q then if j = p then sg p q ^ 2 else 0 else 0)) := by
    intro i j
    unfold full
    simp only [Matrix.of_apply]
    rcases lt_trichotomy i j with h | h | h
    · rw [if_neg (ne_of_lt h), if_pos h, if_neg (ne_of_lt h), if_pos h]
      by_cases h1 : i = p
      · subst h1
        by_cases h2 : j = q
        · subst h2; simp [ne_of_lt hpq]
        · simp [h2, ne_of_lt hpq]
      · by_cases h3 : i = q
        · subst h3
          have : j ≠ p := fun e => by subst e; exact absurd hpq (not_lt.mpr h.le)
          simp [h1, this]
        · simp [h1, h3]
    · subst h
      by_cases h1 : i = p
      · subst h1; simp [ne_of_lt hpq]
      · simp [h1]
    · rw [if_neg (Ne.symm (ne_of_lt h)), if_neg (not_lt.mpr h.le), if_neg (Ne.symm (ne_of_lt h)), if_neg (not_lt.mpr h.le)]
      by_cases h1 : j = p
      · subst h1
        by_cases h2 : i = q
        · subst h2; simp [Ne.symm (ne_of_lt hpq)]
        · simp [h2, Ne.symm (ne_of_lt h)]
      · by_cases h3 : j = q
        · subst h3
          have : i ≠ p := fun e => by subst e; exact absurd hpq (not_lt.mpr h.le)
          simp [h1, this]
        · simp [h1, h3]
  simp only [hpt, Finset.sum_add_distrib]
  simp
  ring

theorem jStep_gen (n : Nat) (th : ℝ) (hth : 0 ≤ th) (s : JState) (pq : Fin 6 × Fin 6) (hpq : pq.1 < pq.2) (h : JGen s) :
    JGen (jStep n th s pq) ∧ nrm (jStep n th s pq) = nrm s - 2 * stepDrop n s pq := by
  by_cases hd : stepDrop n s pq = 0
  · have h1 := jStep_keep n th hth s pq hpq h.inv hd
    refine ⟨⟨h1.orth, h1.split⟩, ?_⟩
    rw [h1.nrm_eq, h.inv.nrm_eq, hd]
    ring
  · have hc : n > 3 ∧ abs (s.ev pq.1 + 100 * |s.sigma pq.1 pq.2|) = |s.ev pq.1| ∧
        abs (s.ev pq.2 + 100 * |s.sigma pq.1 pq.2|) = |s.ev pq.2| := by
      by_contra hc
      exact hd (if_neg hc)
    have e : jStep n th s pq = { s with sigma := fun r c => if r = pq.1 ∧ c = pq.2 then 0 else s.sigma r c } := by
      unfold jStep
      simp only
      rw [if_pos hc]
    rw [e]
    refine ⟨⟨h.orth, h.split⟩, ?_⟩
    unfold nrm stepDrop
    rw [if_pos hc]
    exact nrm_drop s.sigma s.ev pq.1 pq.2 hpq

theorem foldl_gen (n : Nat) (th : ℝ) (hth : 0 ≤ th) (l : List (Fin 6 × Fin 6)) (hl : ∀ pq ∈ l, pq.1 < pq.2) :
    ∀ s, JGen s → JGen (l.foldl (jStep n th) s) ∧ nrm (l.foldl (jStep n th) s) = nrm s - 2 * foldDrop n th l s := by
  induction l with
  | nil => intro s h; exact ⟨h, by simp [foldDrop]⟩
  | cons pq l ih =>
    intro s h
    obtain ⟨h1, h2⟩ := jStep_gen n th hth s pq (hl pq List.mem_cons_self) h
    obtain ⟨h3, h4⟩ := ih (fun x hx => hl x (List.mem_cons_of_mem _ hx)) _ h1
    refine ⟨h3, ?_⟩
    rw [List.foldl_cons, h4, h2, foldDrop]
    ring

theorem foldl_keep {m : Matrix (Fin 6) (Fin 6) ℝ} (n : Nat) (th : ℝ) (hth : 0 ≤ th) (l : List (Fin 6 × Fin 6))
    (hl : ∀ pq ∈ l, pq.1 < pq.2) : ∀ s, JInv m s → foldDrop n th l s = 0 → JInv m (l.foldl (jStep n th) s) := by
  induction l with
  | nil => intro s h _; exact h
  | cons pq l ih =>
    intro s h hd
    have h1 := stepDrop_nonneg n s pq
    have h2 := foldDrop_nonneg n th l (jStep n th s pq)
    have hd' : stepDrop n s pq + foldDrop n th l (jStep n th s pq) = 0 := hd
    exact ih (fun x hx => hl x (List.mem_cons_of_mem _ hx)) _
      (jStep_keep n th hth s pq (hl pq List.mem_cons_self) h (by linarith)) (by linarith)

theorem collect_full {s : JState} (h : ∀ i, s.ev i = s.b i + s.z i) : full (jCollect s).sigma (jCollect s).ev = full s.sigma s.ev := by
  unfold jCollect
  simp only
  congr 1
  funext i
  exact (h i).symm

theorem jSweep_gen (n : Nat) (s : JState) (h : JGen s) :
    JGen (jSweep n s) ∧ nrm (jSweep n s) = nrm s - 2 * foldDrop n (jThreshold n (offSum s)) pairs s := by
  obtain ⟨h1, h2⟩ := foldl_gen n _ (jThreshold_nonneg n s) pairs (fun pq hp => (mem_pairs pq).mp hp) s h
  unfold jSweep
  refine ⟨⟨h1.orth, fun i => by simp [jCollect]⟩, ?_⟩
  rw [← h2]
  unfold nrm
  rw [collect_full h1.split]

theorem jSweep_keep {m : Matrix (Fin 6) (Fin 6) ℝ} (n : Nat) (s : JState) (h : JInv m s)
    (hd : foldDrop n (jThreshold n (offSum s)) pairs s = 0) : JInv m (jSweep n s) := by
  have h1 := foldl_keep n _ (jThreshold_nonneg n s) pairs (fun pq hp => (mem_pairs pq).mp hp) s h hd
  unfold jSweep
  refine ⟨h1.orth, ?_, fun i => by simp [jCollect]⟩
  rw [collect_full h1.split]
  exact h1.sim

theorem jLoop_gen (left : Nat) : ∀ (n : Nat) (s : JState) (ev : Fin 6 → ℝ) (v : Fin 6 → Fin 6 → ℝ), JGen s →
    jLoop left n s = .ok (ev, v) →
    (Matrix.of v)ᵀ * Matrix.of v = 1 ∧ ∑ i, ev i ^ 2 = nrm s - 2 * loopDrop left n s := by
  induction left with
  | zero => intro n s ev v h hl; simp [jLoop] at hl
  | succ left ih =>
    intro n s ev v h hl
    unfold jLoop at hl
    split at hl
    · rename_i hz
      injection hl with hl
      injection hl with h1 h2
      subst h1; subst h2
      refine ⟨h.orth, ?_⟩
      rw [loopDrop, if_pos hz]
      unfold nrm
      rw [full_diag_of_offSum s hz]
      simp [Matrix.trace, Matrix.diag_apply, Matrix.mul_apply]
      refine Finset.sum_congr rfl fun i _ => ?_
      ring
    · rename_i hz
      obtain ⟨h1, h2⟩ := jSweep_gen n s h
      obtain ⟨h3, h4⟩ := ih (n + 1) _ ev v h1 hl
      refine ⟨h3, ?_⟩
      rw [h4, h2, loopDrop, if_neg hz]
      ring

theorem jLoop_keep {m : Matrix (Fin 6) (Fin 6) ℝ} (left : Nat) :
    ∀ (n : Nat) (s : JState) (ev : Fin 6 → ℝ) (v : Fin 6 → Fin 6 → ℝ), JInv m s →
      jLoop left n s = .ok (ev, v) → loopDrop left n s = 0 →
      (Matrix.of v)ᵀ * m * Matrix.of v = Matrix.of fun i j => if i = j then ev i else 0 := by
  induction left with
  | zero => intro n s ev v h hl; simp [jLoop] at hl
  | succ left ih =>
    intro n s ev v h hl hd
    unfold jLoop at hl
    split at hl
    · rename_i hz
      injection hl with hl
      injection hl with h1 h2
      subst h1; subst h2
      rw [h.sim, full_diag_of_offSum s hz]
    · rename_i hz
      rw [loopDrop, if_neg hz] at hd
      have a := foldDrop_nonneg n (jThreshold n (offSum s)) pairs s
      have b := loopDrop_nonneg left (n + 1) (jSweep n s)
      exact ih (n + 1) _ ev v (jSweep_keep n s h (by linarith)) hl (by linarith)

theorem eigen_iff {m : Fin 6 → Fin 6 → ℝ} {ev : Fin 6 → ℝ} {v : Fin 6 → Fin 6 → ℝ} (h1 : (Matrix.of v)ᵀ * Matrix.of v = 1) :
    Eigen m ev v ↔ (Matrix.of v)ᵀ * Matrix.of m * Matrix.of v = Matrix.of fun i j => if i = j then ev i else 0 := by
  have h1' : Matrix.of v * (Matrix.of v)ᵀ = 1 := mul_eq_one_comm.mp h1
  have e : Eigen m ev v ↔ Matrix.of m * Matrix.of v = Matrix.of v * Matrix.of fun i j => if i = j then ev i else 0 := by
    rw [← Matrix.ext_iff]
    unfold Eigen
    refine forall_congr' fun i => forall_congr' fun j => ?_
    rw [Matrix.mul_apply, Matrix.mul_apply]
    simp only [Matrix.of_apply, mul_ite, mul_zero, Finset.sum_ite_eq', Finset.mem_univ, if_true]
    rw [mul_comm (ev j)]
  rw [e]
  constructor
  · intro h
    rw [Matrix.mul_assoc, h, ← Matrix.mul_assoc, h1, Matrix.one_mul]
  · intro h
    rw [← h, ← Matrix.mul_assoc, ← Matrix.mul_assoc, h1', Matrix.one_mul]

theorem runs_drop {m : Fin 6 → Fin 6 → ℝ} {n : Nat} {l : List (Fin 6 × Fin 6)} {th : ℝ} {s : JState}
    (h : Runs m n l th s) : n < 50 ∧ ((foldDrop n th l s + loopDrop (49 - n) (n + 1) (jCollect (l.foldl (jStep n th) s)) ≠ 0) →
      loopDrop 50 0 (jInit m) ≠ 0) := by
  induction h with
  | start h0 =>
    refine ⟨by omega, fun h => ?_⟩
    show loopDrop (49 + 1) 0 (jInit m) ≠ 0
    rw [loopDrop, if_neg h0]
    exact h
  | @step n pq l th s _ ih =>
    refine ⟨ih.1, fun h => ih.2 ?_⟩
    have h1 := stepDrop_nonneg n s pq
    have h2 := foldDrop_nonneg n th l (jStep n th s pq)
    have h3 := loopDrop_nonneg (49 - n) (n + 1) (jCollect (l.foldl (jStep n th) (jStep n th s pq)))
    rw [List.foldl_cons, foldDrop]
    intro h0
    apply h
    linarith
  | @next n th s _ hn h0 ih =>
    refine ⟨hn, fun h => ih.2 ?_⟩
    rw [foldDrop, zero_add, List.foldl_nil]
    have e : 49 - n = (49 - (n + 1)) + 1 := by omega
    rw [e, loopDrop, if_neg h0]
    exact h

theorem drops_iff (m : Fin 6 → Fin 6 → ℝ) : Drops m ↔ loopDrop 50 0 (jInit m) ≠ 0 := by
  constructor
  · rintro ⟨n, l, th, s, p, q, hr, h1, h2, h3, h4⟩
    refine (runs_drop hr).2 ?_
    have hs : stepDrop n s (p, q) ≠ 0 := stepDrop_ne.2 ⟨h1, h2, h3, h4⟩
    have a := stepDrop_nonneg n s (p, q)
    have b := foldDrop_nonneg n th l (jStep n th s (p, q))
    have c := loopDrop_nonneg (49 - n) (n + 1) (jCollect (((p, q) :: l).foldl (jStep n th) s))
    have : 0 < stepDrop n s (p, q) := lt_of_le_of_ne a (Ne.symm hs)
    rw [foldDrop]
    intro h0
    linarith
  · intro h
    exact loopDrop_ne 50 0 (jInit m) rfl (fun h0 _ => .start h0) h

/-- **C50 for all symmetric matrices.** Whatever the matrix, the vectors that are returned are orthonormal. They are eigenvectors
for the returned values exactly if the run drops no entry; the solver drops an entry, in sweep five or later, if the two diagonal
entries are both minus fifty times its absolute value, which the test for negligible entries takes for zero. -/
theorem jacobi_symmetric_iff (m : Fin 6 → Fin 6 → ℝ) (hs : Symmetric m) (ev : Fin 6 → ℝ) (v : Fin 6 → Fin 6 → ℝ)
    (h : jacobi m = .ok (ev, v)) :
    Orthonormal v ∧ (Eigen m ev v ↔ ¬ Drops m) ∧ (∑ i, ev i ^ 2 ≤ ∑ i, ∑ j, m i j ^ 2) ∧
      (∑ i, ev i ^ 2 = ∑ i, ∑ j, m i j ^ 2 ↔ ¬ Drops m) := by
  have hi := jInit_inv m hs
  obtain ⟨h1, h2⟩ := jLoop_gen 50 0 _ ev v ⟨hi.orth, hi.split⟩ h
  rw [hi.nrm_eq] at h2
  have hnorm : Matrix.trace (Matrix.of m * Matrix.of m) = ∑ i, ∑ j, m i j ^ 2 := by
    unfold Matrix.trace
    refine Finset.sum_congr rfl fun i _ => ?_
    rw [Matrix.diag_apply, Matrix.mul_apply]
    refine Finset.sum_congr rfl fun j _ => ?_
    rw [Matrix.of_apply, Matrix.of_apply, hs j i]
    ring
  rw [hnorm] at h2
  have hnn := loopDrop_nonneg 50 0 (jInit m)
  have hsq : (∑ i, ev i ^ 2 = ∑ i, ∑ j, m i j ^ 2) ↔ ¬ Drops m := by
    rw [drops_iff, not_not, h2]
    constructor <;> intro h <;> linarith
  refine ⟨?_, ?_, by linarith, hsq⟩
  · intro i j
    have := congrFun (congrFun h1 i) j
    rw [Matrix.mul_apply] at this
    simpa [Matrix.one_apply] using this
  · constructor
    · intro he
      rw [← hsq]
      rw [eigen_iff h1] at he
      have h1' : Matrix.of v * (Matrix.of v)ᵀ = 1 := mul_eq_one_comm.mp h1
      rw [← hnorm]
      have e1 : ∑ i, ev i ^ 2 = Matrix.trace ((Matrix.of fun i j => if i = j then ev i else 0) * (Matrix.of fun i j => if i = j then ev i else 0) : Matrix (Fin 6) (Fin 6) ℝ) := by
        simp [Matrix.trace, Matrix.diag_apply, Matrix.mul_apply]
        refine Finset.sum_congr rfl fun i _ => ?_
        ring
      rw [e1, ← he]
      have : (Matrix.of v)ᵀ * Matrix.of m * Matrix.of v * ((Matrix.of v)ᵀ * Matrix.of m * Matrix.of v) =
          (Matrix.of v)ᵀ * (Matrix.of m * Matrix.of m) * Matrix.of v := by
        have : (Matrix.of v)ᵀ * Matrix.of m * Matrix.of v * ((Matrix.of v)ᵀ * Matrix.of m * Matrix.of v) =
          (Matrix.of v)ᵀ * Matrix.of m * (Matrix.of v * (Matrix.of v)ᵀ) * Matrix.of m * Matrix.of v := by
          simp only [Matrix.mul_assoc]
        rw [this, h1', Matrix.mul_one]
        simp only [Matrix.mul_assoc]
      rw [this, Matrix.trace_mul_comm, ← Matrix.mul_assoc, h1', Matrix.one_mul]
    · intro hd
      rw [eigen_iff h1]
      refine jLoop_keep 50 0 _ ev v hi h ?_
      rw [drops_iff, not_not] at hd
      exact hd

/-- The vectors stay orthonormal in every run, on every matrix. -/
theorem jacobi_orthonormal (m : Fin 6 → Fin 6 → ℝ) (sweeps : List Nat) :
    Orthonormal (sweeps.foldl (fun s n => jSweep n s) (jInit m)).vecs := by
  have hi : JGen (jInit m) := by
    refine ⟨?_, by simp [jInit]⟩
    have h1 : Matrix.of (jInit m).vecs = 1 := by
      ext i j; simp [jInit, Matrix.one_apply]
    rw [h1]; simp
  have key : ∀ s, JGen s → JGen (sweeps.foldl (fun s n => jSweep n s) s) := by
    induction sweeps with
    | nil => intro s h; exact h
    | cons n l ih => intro s h; exact ih _ (jSweep_gen n s h).1
  have h := key _ hi
  intro i j
  have := congrFun (congrFun h.orth i) j
  rw [Matrix.mul_apply] at this
  simpa [Matrix.one_apply] using this

end Verif.Stats6d
