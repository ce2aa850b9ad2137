import Mathlib.Tactic.FinCases
import Verif.Stats6d.LemmasJacobi2

/-!
# The Jacobi solver on a matrix with one coupled pair: one rotation is enough
-/

set_option linter.unusedSimpArgs false

namespace Verif.Stats6d

theorem jStep_zero (n : Nat) (hn : n ≤ 3) (th : ℝ) (hth : 0 ≤ th) (s : JState) (pq : Fin 6 × Fin 6)
    (h : s.sigma pq.1 pq.2 = 0) : jStep n th s pq = s := by
  unfold jStep
  simp only
  rw [if_neg (by omega), if_neg (by rw [h, abs_zero]; exact not_lt.mpr hth)]

theorem foldl_zero (n : Nat) (hn : n ≤ 3) (th : ℝ) (hth : 0 ≤ th) (l : List (Fin 6 × Fin 6))
    (s : JState) (h : ∀ pq ∈ l, s.sigma pq.1 pq.2 = 0) : l.foldl (jStep n th) s = s := by
  induction l with
  | nil => rfl
  | cons a l ih =>
    rw [List.foldl_cons, jStep_zero n hn th hth s a (h a (by simp))]
    exact ih fun pq hpq => h pq (by simp [hpq])

theorem offSum_eq_zero (s : JState) (h : ∀ pq ∈ pairs, s.sigma pq.1 pq.2 = 0) : offSum s = 0 := by
  unfold offSum
  apply List.sum_eq_zero
  intro x hx
  obtain ⟨pq, h1, rfl⟩ := List.mem_map.mp hx
  rw [h pq h1, abs_zero]

theorem pairs_eq : pairs = [(0, 1), (0, 2), (0, 3), (0, 4), (0, 5), (1, 2), (1, 3), (1, 4), (1, 5),
    (2, 3), (2, 4), (2, 5), (3, 4), (3, 5), (4, 5)] := by
  decide

theorem rotSigma_single (m : Fin 6 → Fin 6 → ℝ) (s tau : ℝ)
    (h : ∀ i j, i < j → (i, j) ≠ (0, 1) → m i j = 0) :
    ∀ pq ∈ pairs, rotSigma m 0 1 s tau pq.1 pq.2 = 0 := by
  have e : ∀ i j, i < j → (i, j) ≠ (0, 1) → m i j = 0 := h
  intro pq hpq
  rw [pairs_eq] at hpq
  simp only [List.mem_cons, List.not_mem_nil, or_false] at hpq
  rcases hpq with rfl | rfl | rfl | rfl | rfl | rfl | rfl | rfl | rfl | rfl | rfl | rfl | rfl | rfl | rfl <;>
    simp [rotSigma, e 0 2 (by decide) (by decide), e 0 3 (by decide) (by decide),
      e 0 4 (by decide) (by decide), e 0 5 (by decide) (by decide), e 1 2 (by decide) (by decide),
      e 1 3 (by decide) (by decide), e 1 4 (by decide) (by decide), e 1 5 (by decide) (by decide),
      e 2 3 (by decide) (by decide), e 2 4 (by decide) (by decide), e 2 5 (by decide) (by decide),
      e 3 4 (by decide) (by decide), e 3 5 (by decide) (by decide), e 4 5 (by decide) (by decide)]

/-- With only the pair (0,1) coupled the solver returns after one sweep, with the vectors of
one rotation. -/
theorem jacobi_single (m : Fin 6 → Fin 6 → ℝ) (h : ∀ i j, i < j → (i, j) ≠ (0, 1) → m i j = 0)
    (h01 : m 0 1 ≠ 0) :
    ∃ ev, jacobi m = .ok (ev,
      let t := tScal (m 0 1) (m 1 1 - m 0 0) (100 * |m 0 1|)
      let c := 1 / Real.sqrt (1 + t ^ 2)
      rotVecs (fun i j => if i = j then 1 else 0) 0 1 (t * c) (t * c / (1 + c))) := by
  have hoff : offSum (jInit m) = |m 0 1| := by
    have e : ∀ i j, i < j → (i, j) ≠ (0, 1) → m i j = 0 := h
    unfold offSum
    rw [pairs_eq]
    simp [jInit, e 0 2 (by decide) (by decide), e 0 3 (by decide) (by decide),
      e 0 4 (by decide) (by decide), e 0 5 (by decide) (by decide), e 1 2 (by decide) (by decide),
      e 1 3 (by decide) (by decide), e 1 4 (by decide) (by decide), e 1 5 (by decide) (by decide),
      e 2 3 (by decide) (by decide), e 2 4 (by decide) (by decide), e 2 5 (by decide) (by decide),
      e 3 4 (by decide) (by decide), e 3 5 (by decide) (by decide), e 4 5 (by decide) (by decide)]
  have hpos : 0 < |m 0 1| := abs_pos.mpr h01
  have hth : 0 ≤ jThreshold 0 (offSum (jInit m)) := jThreshold_nonneg 0 _
  have hfirst : |m 0 1| > jThreshold 0 (offSum (jInit m)) := by
    rw [hoff]
    unfold jThreshold
    rw [if_pos (by decide)]
    have : (0.2 : ℝ) * |m 0 1| / 36 = |m 0 1| * (1 / 180) := by ring
    rw [this]
    nlinarith
  have hstep : ∃ ev b z sn tau, jStep 0 (jThreshold 0 (offSum (jInit m))) (jInit m) (0, 1) =
      { sigma := rotSigma m 0 1 sn tau, ev := ev, b := b, z := z, vecs :=
        let t := tScal (m 0 1) (m 1 1 - m 0 0) (100 * |m 0 1|)
        let c := 1 / Real.sqrt (1 + t ^ 2)
        rotVecs (fun i j => if i = j then 1 else 0) 0 1 (t * c) (t * c / (1 + c)) } := by
    unfold jStep
    simp only
    rw [if_neg (by omega), if_pos (by exact hfirst)]
    exact ⟨_, _, _, _, _, rfl⟩
  obtain ⟨ev, b, z, sn, tau, hstep⟩ := hstep
  have hsw : jSweep 0 (jInit m) = jCollect (jStep 0 (jThreshold 0 (offSum (jInit m))) (jInit m) (0, 1)) := by
    unfold jSweep
    rw [pairs_eq, List.foldl_cons, foldl_zero 0 (by decide) _ hth]
    intro pq hpq
    rw [hstep]
    refine rotSigma_single m _ _ h pq ?_
    rw [pairs_eq]
    exact List.mem_cons_of_mem _ hpq
  refine ⟨fun i => b i + z i, ?_⟩
  unfold jacobi
  rw [jLoop, if_neg (by rw [hoff]; exact hpos.ne'), hsw, jLoop, if_pos]
  · rw [hstep]; rfl
  · apply offSum_eq_zero
    rw [hstep]
    exact rotSigma_single m _ _ h

end Verif.Stats6d
