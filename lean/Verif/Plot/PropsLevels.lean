import Verif.Plot.PropsScatter

/-!
C105 and C106 exactly: labels that are read back and contour levels that cover the field.
-/

namespace Verif.Plot

/-- **C105, exactly.** A label is read back if and only if it has at most five characters and does not end with a NUL character. -/
theorem label_iff (p : Scatter) (i : Nat) (hlab : p.labels.length = 6) (hi : i < 6) (label : List Char) :
    ∃ q, p.setLabel i label = .ok q ∧ (∀ j : Nat, j ≠ i → q.getLabel j = p.getLabel j) ∧
      (q.getLabel i = .ok label ↔ label.length ≤ 5 ∧ label.getLast? ≠ some '\x00') := by
  obtain ⟨q, h1, h2, h3⟩ := set_get p i hlab hi label
  refine ⟨q, h1, h3, ?_⟩
  rw [h2, Except.ok.injEq]
  constructor
  · intro h
    refine ⟨h ▸ stored_length label, fun h0 => ?_⟩
    have hl : label.length ≤ 5 := h ▸ stored_length label
    obtain ⟨s, rfl⟩ : ∃ s, label = s ++ ['\x00'] := by
      obtain ⟨s, hs⟩ := List.getLast?_eq_some_iff.1 h0
      exact ⟨s, hs⟩
    unfold stored at h
    rw [List.take_of_length_le hl, List.reverse_append, List.reverse_singleton, List.singleton_append, List.dropWhile_cons_of_pos (by decide)] at h
    have h5 := congrArg List.length h
    rw [List.length_reverse, List.length_append] at h5
    have h6 := (List.dropWhile_suffix (l := s.reverse) (fun c => decide (c = '\x00'))).length_le
    rw [List.length_reverse] at h6
    rw [List.length_singleton] at h5
    omega
  · rintro ⟨h5, h0⟩
    exact stored_short label h5 h0

/-- **C106, cover, exactly.** With `n` levels and any multiplier the levels of a field that is not constant (or has a negative value) go from `-b` to `b - 2 b / n`,
where `b` is the largest magnitude of the field times the multiplier up to rounding; they cover the field if and only if its smallest and largest values are
between these two. -/
theorem levels_cover_iff (x : ℝ) (l : List ℝ) (n : Int) (hn : 1 ≤ n) (m : ℝ) (hm : 0 < m) (hv : minOf x l < maxOf x l ∨ minOf x l < 0) :
    ∃ b a lev, contourLevels (x :: l) n m = .ok lev ∧ (∀ y ∈ x :: l, |y| ≤ a) ∧ (∃ y ∈ x :: l, |y| = a) ∧ 0 ≤ b ∧ |b - m * a| ≤ 1 / 2000 ∧
      ((∃ lo ∈ lev, ∃ hi ∈ lev, ∀ y ∈ x :: l, lo ≤ y ∧ y ≤ hi) ↔ ∀ y ∈ x :: l, -b ≤ y ∧ y ≤ b - 2 * b / n) := by
  obtain ⟨b, a, h1, h2, h3, h4⟩ := range_cases x l m hm hv
  have hb : 0 ≤ b := by
    have hr : levelRange x l m = if |m * minOf x l| < m * maxOf x l then (-around3 (m * maxOf x l), around3 (m * maxOf x l))
      else (around3 (m * minOf x l), |around3 (m * minOf x l)|) := rfl
    obtain ⟨z, hz, hz'⟩ := h3
    have ha : 0 ≤ m * a := mul_nonneg hm.le (hz' ▸ abs_nonneg z)
    by_cases h : |m * minOf x l| < m * maxOf x l
    · rw [hr, if_pos h, Prod.mk.injEq] at h1
      rw [← h1.2]
      unfold around3
      have h0 : 0 < m * maxOf x l := lt_of_le_of_lt (abs_nonneg _) h
      have he := rint_error (m * maxOf x l * 1000)
      rw [abs_le] at he
      have : (-1 : ℝ) < rint (m * maxOf x l * 1000) := by linarith [he.1]
      have hi : -1 < rint (m * maxOf x l * 1000) := by exact_mod_cast this
      have hi' : (0 : ℝ) ≤ rint (m * maxOf x l * 1000) := by exact_mod_cast (by omega : 0 ≤ rint (m * maxOf x l * 1000))
      positivity
    · rw [hr, if_neg h, Prod.mk.injEq] at h1
      rw [← h1.2]
      exact abs_nonneg _
  have hlev : contourLevels (x :: l) n m = .ok ((List.range n.toNat).map fun i : Nat => -b + i * (2 * b / n)) := by
    unfold contourLevels
    simp only [h1]
    congr 1
    refine List.map_congr_left fun i _ => ?_
    ring
  refine ⟨b, a, _, hlev, h2, h3, hb, h4, ?_⟩
  have hn0 : (0 : ℝ) < n := by exact_mod_cast (by omega : 0 < n)
  have hd : 0 ≤ 2 * b / n := by positivity
  constructor
  · rintro ⟨lo, hlo, hi, hhi, hc⟩ y hy
    obtain ⟨i, _, rfl⟩ := List.mem_map.1 hlo
    obtain ⟨j, hj, rfl⟩ := List.mem_map.1 hhi
    have hj' : ((j : ℝ) + 1) ≤ n := by
      have : (j : Int) + 1 ≤ n := by have := List.mem_range.1 hj; omega
      exact_mod_cast this
    have hsum : (n : ℝ) * (2 * b / n) = 2 * b := by field_simp
    have hi0 : 0 ≤ (i : ℝ) * (2 * b / n) := by positivity
    have hj2 : ((j : ℝ) + 1) * (2 * b / n) ≤ n * (2 * b / n) := mul_le_mul_of_nonneg_right hj' hd
    obtain ⟨c1, c2⟩ := hc y hy
    constructor <;> linarith
  · intro hc
    have hnat : ((n.toNat - 1 : Nat) : ℝ) = n - 1 := by
      have : ((n.toNat - 1 : Nat) : Int) = n - 1 := by omega
      exact_mod_cast this
    refine ⟨-b, List.mem_map.2 ⟨0, List.mem_range.2 (by omega), by simp⟩, b - 2 * b / n,
      List.mem_map.2 ⟨n.toNat - 1, List.mem_range.2 (by omega), ?_⟩, hc⟩
    rw [hnat]
    field_simp
    ring

/-- Non-vacuity: a label with a NUL at its end is not read back. -/
example (p : Scatter) (hlab : p.labels.length = 6) : ∃ q, p.setLabel (2 : Nat) ['a', '\x00'] = .ok q ∧ q.getLabel (2 : Nat) ≠ .ok ['a', '\x00'] := by
  obtain ⟨q, h1, _, h2⟩ := label_iff p 2 hlab (by omega) ['a', '\x00']
  exact ⟨q, h1, fun h => (h2.1 h).2 rfl⟩

/-- Non-vacuity: two levels never cover a field that has the value 1 and is not larger. -/
example : ¬ ∃ lev, contourLevels [1, -1] 2 1 = .ok lev ∧ ∃ lo ∈ lev, ∃ hi ∈ lev, ∀ y ∈ ([1, -1] : List ℝ), lo ≤ y ∧ y ≤ hi := by
  rintro ⟨lev, h, hc⟩
  obtain ⟨b, a, lev', h', _, _, _, h4, hiff⟩ := levels_cover_iff 1 [-1] 2 (by norm_num) 1 (by norm_num) (Or.inl (by norm_num [minOf, maxOf]))
  rw [h] at h'
  cases h'
  have := ((hiff.1 hc) 1 (by simp)).2
  norm_num at this

end Verif.Plot
