import Verif.Stats6d.LemmasJacobi

open scoped BigOperators
open Matrix

set_option linter.unusedSimpArgs false

namespace Verif.Stats6d

theorem tScal_eq (apq h : ℝ) (hne : apq ≠ 0) :
    tScal apq h (100 * |apq|) * h = apq * (1 - tScal apq h (100 * |apq|) ^ 2) := by
  have hpos : 0 < |apq| := abs_pos.mpr hne
  unfold tScal
  rw [if_neg (by intro hh; linarith)]
  simp only
  set th := 1 / 2 * h / apq with hth
  have hh : h = 2 * th * apq := by rw [hth]; field_simp
  have hs : 0 < Real.sqrt (1 + th ^ 2) := Real.sqrt_pos.mpr (by positivity)
  have hsq : Real.sqrt (1 + th ^ 2) ^ 2 = 1 + th ^ 2 := Real.sq_sqrt (by positivity)
  have hd : |th| + Real.sqrt (1 + th ^ 2) ≠ 0 := by have := abs_nonneg th; positivity
  set r := Real.sqrt (1 + th ^ 2) with hr
  split
  · rename_i hlt
    rw [abs_of_neg hlt] at hd ⊢
    rw [hh]
    field_simp
    linear_combination -hsq
  · rename_i hge
    push Not at hge
    rw [abs_of_nonneg hge] at hd ⊢
    rw [hh]
    field_simp
    linear_combination -hsq

/-- The invariant of the solver. -/
structure JInv (m : Matrix (Fin 6) (Fin 6) ℝ) (s : JState) : Prop where
  orth : (Matrix.of s.vecs)ᵀ * Matrix.of s.vecs = 1
  sim : (Matrix.of s.vecs)ᵀ * m * Matrix.of s.vecs = full s.sigma s.ev
  split : ∀ i, s.ev i = s.b i + s.z i

theorem rotVecs_eq (v : Fin 6 → Fin 6 → ℝ) (p q : Fin 6) (hpq : p ≠ q) (c s tau : ℝ)
    (hst : s * tau = 1 - c) :
    Matrix.of (rotVecs v p q s tau) = Matrix.of v * rotJ p q c s := by
  ext i k
  rw [mul_rotJ _ p q hpq]
  simp only [rotVecs, Matrix.of_apply]
  split
  · linear_combination (-(v i p)) * hst
  · split
    · linear_combination (-(v i q)) * hst
    · rfl

theorem JInv.ev_nonneg {m : Matrix (Fin 6) (Fin 6) ℝ} (hm : PosSemidef fun i j => m i j) {s : JState}
    (h : JInv m s) (p : Fin 6) : 0 ≤ s.ev p := by
  have h1 : s.ev p = ((Matrix.of s.vecs)ᵀ * m * Matrix.of s.vecs) p p := by
    rw [h.sim]; simp [full]
  rw [h1]
  have h2 := hm (fun i => s.vecs i p)
  rw [Matrix.mul_apply]
  simp only [Matrix.mul_apply, Matrix.transpose_apply, Matrix.of_apply, Finset.sum_mul]
  rw [Finset.sum_comm]
  exact h2

theorem offSum_nonneg (s : JState) : 0 ≤ offSum s := by
  unfold offSum
  apply List.sum_nonneg
  intro x hx
  obtain ⟨pq, -, rfl⟩ := List.mem_map.mp hx
  exact abs_nonneg _

theorem jThreshold_nonneg (n : Nat) (s : JState) : 0 ≤ jThreshold n (offSum s) := by
  unfold jThreshold
  have := offSum_nonneg s
  split
  · positivity
  · exact le_rfl

theorem mem_pairs (pq : Fin 6 × Fin 6) : pq ∈ pairs ↔ pq.1 < pq.2 := by
  unfold pairs
  simp only [List.mem_flatMap, List.mem_finRange, true_and, List.mem_map, List.mem_filter,
    decide_eq_true_eq]
  constructor
  · rintro ⟨p, q, h, rfl⟩; exact h
  · intro h; exact ⟨pq.1, pq.2, h, rfl⟩

theorem jStep_inv {m : Matrix (Fin 6) (Fin 6) ℝ} (hm : PosSemidef fun i j => m i j) (n : Nat)
    (th : ℝ) (hth : 0 ≤ th) (s : JState) (pq : Fin 6 × Fin 6) (hpq : pq.1 < pq.2) (h : JInv m s) :
    JInv m (jStep n th s pq) := by
  obtain ⟨p, q⟩ := pq
  simp only at hpq
  unfold jStep
  simp only
  split
  · rename_i hc
    have h0 := h.ev_nonneg hm p
    have ha : 0 ≤ 100 * |s.sigma p q| := by positivity
    have : s.sigma p q = 0 := by
      have := hc.2.1
      rw [abs_of_nonneg h0, abs_of_nonneg (by linarith)] at this
      have : |s.sigma p q| = 0 := by linarith
      exact abs_eq_zero.mp this
    have heq : (fun r c => if r = p ∧ c = q then (0 : ℝ) else s.sigma r c) = s.sigma := by
      funext r c
      split
      · rename_i hrc; rw [hrc.1, hrc.2, this]
      · rfl
    rw [heq]
    exact h
  · split
    · rename_i hgt
      have hne : s.sigma p q ≠ 0 := by
        intro h0; rw [h0, abs_zero] at hgt; linarith
      set apq := s.sigma p q with hapq
      set t := tScal apq (s.ev q - s.ev p) (100 * |apq|) with ht
      have hz := tScal_eq apq (s.ev q - s.ev p) hne
      rw [← ht] at hz
      have hp : 0 < 1 + t ^ 2 := by positivity
      have hs : 0 < Real.sqrt (1 + t ^ 2) := Real.sqrt_pos.mpr hp
      set c := 1 / Real.sqrt (1 + t ^ 2) with hc
      have hc0 : 0 < c := by positivity
      have hc2 : c ^ 2 * (1 + t ^ 2) = 1 := by
        rw [hc, div_pow, Real.sq_sqrt hp.le]; field_simp
      have hcs : c ^ 2 + (t * c) ^ 2 = 1 := by linear_combination hc2
      have hc1 : 1 + c ≠ 0 := by positivity
      have htau : t * c / (1 + c) * (1 + c) = t * c := by field_simp
      have hst : t * c * (t * c / (1 + c)) = 1 - c := by
        field_simp; linear_combination hc2
      have hfull := full_rot s.sigma s.ev p q hpq c (t * c) t (t * c / (1 + c)) rfl hcs htau hz hc0
      have hv := rotVecs_eq s.vecs p q (ne_of_lt hpq) c (t * c) (t * c / (1 + c)) hst
      constructor
      · simp only
        rw [hv, Matrix.transpose_mul, Matrix.mul_assoc, ← Matrix.mul_assoc (Matrix.of s.vecs)ᵀ, h.orth,
          Matrix.one_mul, rotJ_orth p q (ne_of_lt hpq) c (t * c) hcs]
      · simp only
        rw [hv, hfull, ← h.sim, Matrix.transpose_mul]
        simp only [Matrix.mul_assoc]
      · intro i
        simp only
        have h1 := h.split i
        by_cases hip : i = p
        · subst hip; simp only [if_true]; linarith
        · by_cases hiq : i = q
          · subst hiq; simp only [hip, if_true, if_false]; linarith
          · simp only [hip, hiq, if_false]; exact h1
    · exact h

theorem foldl_jStep_inv {m : Matrix (Fin 6) (Fin 6) ℝ} (hm : PosSemidef fun i j => m i j) (n : Nat)
    (th : ℝ) (hth : 0 ≤ th) (l : List (Fin 6 × Fin 6)) (hl : ∀ pq ∈ l, pq.1 < pq.2) :
    ∀ s, JInv m s → JInv m (l.foldl (jStep n th) s) := by
  induction l with
  | nil => intro s h; exact h
  | cons pq l ih =>
    intro s h
    exact ih (fun x hx => hl x (List.mem_cons_of_mem _ hx)) _
      (jStep_inv hm n th hth s pq (hl pq List.mem_cons_self) h)

theorem jSweep_inv {m : Matrix (Fin 6) (Fin 6) ℝ} (hm : PosSemidef fun i j => m i j) (n : Nat)
    (s : JState) (h : JInv m s) : JInv m (jSweep n s) := by
  have := foldl_jStep_inv hm n _ (jThreshold_nonneg n s) pairs (fun pq hp => (mem_pairs pq).mp hp) s h
  unfold jSweep jCollect
  constructor
  · exact this.orth
  · simp only
    rw [this.sim]
    congr 1
    funext i
    exact this.split i
  · intro i; simp

theorem jInit_inv (m : Fin 6 → Fin 6 → ℝ) (hs : Symmetric m) : JInv (Matrix.of m) (jInit m) := by
  have h1 : Matrix.of (jInit m).vecs = 1 := by
    ext i j; simp [jInit, Matrix.one_apply]
  constructor
  · rw [h1]; simp
  · rw [h1]
    ext i j
    simp only [Matrix.transpose_one, Matrix.one_mul, Matrix.mul_one, full, jInit, Matrix.of_apply]
    by_cases h : i = j
    · simp [h]
    · rcases lt_trichotomy i j with h2 | h2 | h2
      · simp [h, h2]
      · exact absurd h2 h
      · simp [h, not_lt.mpr h2.le, hs i j]
  · intro i; simp [jInit]

theorem full_diag_of_offSum (s : JState) (h : offSum s = 0) :
    full s.sigma s.ev = Matrix.of fun i j => if i = j then s.ev i else 0 := by
  have h0 : ∀ p q, p < q → s.sigma p q = 0 := by
    intro p q hpq
    unfold offSum at h
    have hnn : ∀ x ∈ pairs.map (fun pq => |s.sigma pq.1 pq.2|), 0 ≤ x := by
      intro x hx
      obtain ⟨pq, -, rfl⟩ := List.mem_map.mp hx
      exact abs_nonneg _
    have := (List.all_zero_of_le_zero_le_of_sum_eq_zero hnn h)
      (List.mem_map.mpr ⟨(p, q), (mem_pairs (p, q)).mpr hpq, rfl⟩)
    exact abs_eq_zero.mp this
  ext i j
  simp only [full, Matrix.of_apply]
  by_cases hij : i = j
  · simp [hij]
  · rcases lt_trichotomy i j with h2 | h2 | h2
    · simp [hij, h2, h0 i j h2]
    · exact absurd h2 hij
    · simp [hij, not_lt.mpr h2.le, h0 j i h2]

theorem jLoop_spec {m : Matrix (Fin 6) (Fin 6) ℝ} (hm : PosSemidef fun i j => m i j) (left : Nat) :
    ∀ (n : Nat) (s : JState) (ev : Fin 6 → ℝ) (v : Fin 6 → Fin 6 → ℝ), JInv m s →
      jLoop left n s = .ok (ev, v) →
      (Matrix.of v)ᵀ * Matrix.of v = 1 ∧
      (Matrix.of v)ᵀ * m * Matrix.of v = Matrix.of fun i j => if i = j then ev i else 0 := by
  induction left with
  | zero => intro n s ev v h hl; simp [jLoop] at hl
  | succ left ih =>
    intro n s ev v h hl
    unfold jLoop at hl
    split at hl
    · rename_i hz
      injection hl with hl
      injection hl with h1 h2
      subst h1; subst h2
      exact ⟨h.orth, by rw [h.sim, full_diag_of_offSum s hz]⟩
    · exact ih (n + 1) _ ev v (jSweep_inv hm n s h) hl

end Verif.Stats6d
