import Verif.Ptcls.RoundedComponents
import Verif.Ptcls.PropsClean
import Verif.Py.TiesEven

/-!
# Property C171: offsets and factors of one component in double precision
-/

namespace Verif.Ptcls

open Verif.Py Verif.Stats6d

variable (R : Rounding)

/-- Adding a number that is small compared to a float does not change it. -/
theorem add_absorbed {d x : ℝ} (hd : IsFloat d) (h : |x| < |d| * 2 ^ (-54 : ℤ)) : R.rnd (x + d) = d := by
  have key : ∀ d x : ℝ, IsFloat d → 0 < d → |x| < d * 2 ^ (-54 : ℤ) → R.rnd (x + d) = d := by
    intro d x hd h0 h
    have h1 := R.nearest (x + d) d hd
    rw [show d - (x + d) = -x by ring, abs_neg] at h1
    have h2 : |R.rnd (x + d) - d| < d * 2 ^ (-53 : ℤ) := by
      have := abs_sub_le (R.rnd (x + d)) (x + d) d
      rw [show x + d - d = x by ring] at this
      norm_num at h ⊢
      linarith
    rw [abs_lt] at h2
    rcases lt_trichotomy (R.rnd (x + d)) d with hl | he | hg
    · have := hd.gap_rel (R.isFloat _) h0 hl
      linarith [h2.1]
    · exact he
    · have := (R.isFloat (x + d)).gap_rel hd (h0.trans hg) hg
      have h3 : d * 2 ^ (-53 : ℤ) < R.rnd (x + d) * 2 ^ (-53 : ℤ) := mul_lt_mul_of_pos_right hg (by positivity)
      linarith [h2.2]
  rcases lt_trichotomy d 0 with hn | h0 | hp
  · have := key (-d) (-x) (isFloat_neg hd) (by linarith) (by rw [abs_neg]; rwa [abs_of_neg hn] at h)
    rw [show -x + -d = -(x + d) by ring, R.odd] at this
    linarith
  · rw [h0, abs_zero, zero_mul] at h
    exact absurd h (not_lt.2 (abs_nonneg x))
  · exact key d x hd hp (by rwa [abs_of_pos hp] at h)

/-- **C171, offset.** Every particle keeps the other components, its component is moved up to one rounding and the order of the particles is kept; the
average moves by the offset up to one rounding of the average magnitude. -/
theorem offset_rounded (a : Arr) (ha : a ≠ []) (d : ℝ) (i : Fin 6) :
    ∃ b, rOffsetComponent R a d i.1 = .ok b ∧ b.length = a.length ∧
      (∀ (k : ℕ) (p q : Vec), a[k]? = some p → b[k]? = some q → (∀ j, j ≠ i → q j = p j) ∧ |q i - (p i + d)| ≤ |p i + d| * 2 ^ (-53 : ℤ)) ∧
      (∀ (k k' : ℕ) (p p' q q' : Vec), a[k]? = some p → a[k']? = some p' → b[k]? = some q → b[k']? = some q' → p i ≤ p' i → q i ≤ q' i) ∧
      |mean b i - (mean a i + d)| ≤ (a.map fun p => |p i + d|).sum / a.length * 2 ^ (-53 : ℤ) := by
  have hin : ¬ ((i.1 : Int) < 0 ∨ 5 < (i.1 : Int)) := by omega
  have hl : (0 : ℝ) < a.length := by exact_mod_cast List.length_pos_iff.2 ha
  refine ⟨_, by unfold rOffsetComponent; rw [if_neg hin], by rw [List.length_map], fun k p q hp hq => ?_, fun k k' p p' q q' hp hp' hq hq' h => ?_, ?_⟩
  · rw [List.getElem?_map, hp] at hq
    simp only [Option.map_some, Option.some.injEq] at hq
    subst hq
    refine ⟨fun j hj => if_neg fun e => hj (Fin.ext (by exact_mod_cast e)), ?_⟩
    beta_reduce
    rw [if_pos rfl]
    exact R.error _
  · rw [List.getElem?_map, hp] at hq
    rw [List.getElem?_map, hp'] at hq'
    simp only [Option.map_some, Option.some.injEq] at hq hq'
    subst hq hq'
    beta_reduce
    rw [if_pos rfl, if_pos rfl]
    exact R.mono (by linarith)
  · have hs : ∀ l : Arr, |(l.map fun p => R.rnd (p i + d)).sum - ((l.map fun p => p i).sum + l.length * d)| ≤
        (l.map fun p => |p i + d|).sum * 2 ^ (-53 : ℤ) := by
      intro l
      induction l with
      | nil => simp
      | cons p l ih =>
        have e := R.error (p i + d)
        simp only [List.map_cons, List.sum_cons, List.length_cons, Nat.cast_add, Nat.cast_one]
        rw [abs_le] at e ih ⊢
        constructor <;> linarith [e.1, e.2, ih.1, ih.2]
    unfold mean
    rw [List.length_map, List.map_map]
    simp only [Function.comp_def, if_true]
    have h := hs a
    rw [show (a.map fun p => R.rnd (p i + d)).sum / a.length - ((a.map fun p => p i).sum / a.length + d) =
      ((a.map fun p => R.rnd (p i + d)).sum - ((a.map fun p => p i).sum + a.length * d)) / a.length by field_simp, abs_div, abs_of_pos hl,
      div_mul_eq_mul_div]
    exact div_le_div_of_nonneg_right h hl.le

/-- **C171, subtracting a number of about the same size.** If every value of the component is between half and twice the number that is taken off, the
result is exactly that of exact arithmetic, so that no second moment changes. -/
theorem offset_exact (a : Arr) (ha : a ≠ []) {d : ℝ} (hd : IsFloat d) (i : Fin 6)
    (h : ∀ p ∈ a, IsFloat (p i) ∧ 0 < p i ∧ p i ≤ 2 * d ∧ d ≤ 2 * p i) :
    ∃ b, rOffsetComponent R a (-d) i.1 = .ok b ∧ (∀ j, mean b j = if j = i then mean a j - d else mean a j) ∧ ∀ j k, cov b j k = cov a j k := by
  obtain ⟨b, h1, h2, h3⟩ := offset_moments a ha (-d) i
  refine ⟨b, ?_, h2, h3⟩
  have hin : ¬ ((i.1 : Int) < 0 ∨ 5 < (i.1 : Int)) := by omega
  unfold offsetComponent at h1
  rw [if_neg hin] at h1
  unfold rOffsetComponent
  rw [if_neg hin, ← h1]
  congr 1
  refine List.map_congr_left fun p hp => ?_
  obtain ⟨k1, k2, k3, k4⟩ := h p hp
  funext j
  by_cases hj : (j.1 : Int) = i.1
  · rw [if_pos hj, if_pos hj]
    have : j = i := Fin.ext (by exact_mod_cast hj)
    subst this
    rw [← sub_eq_add_neg]
    rcases le_total (p j) d with hle | hle
    · rw [← neg_sub]
      exact R.fixed (isFloat_neg (isFloat_sub k1 hd hle k4))
    · exact R.fixed (isFloat_sub hd k1 hle k3)
  · rw [if_neg hj, if_neg hj]

/-- **C171, offset, is false for large offsets.** If the offset is more than `2 ^ 54` times as large as every value of the component, all particles get
the offset itself: all second moments of the component are zero, and taking the offset off again gives zero for every particle. -/
theorem offset_large_fails (a : Arr) (ha : a ≠ []) {d : ℝ} (hd : IsFloat d) (i : Fin 6) (h : ∀ p ∈ a, |p i| < |d| * 2 ^ (-54 : ℤ)) :
    ∃ b, rOffsetComponent R a d i.1 = .ok b ∧ (∀ q ∈ b, q i = d) ∧ (∀ j, cov b i j = 0) ∧
      ∃ c, rOffsetComponent R b (-d) i.1 = .ok c ∧ c.length = a.length ∧ ∀ q ∈ c, q i = 0 := by
  have hin : ¬ ((i.1 : Int) < 0 ∨ 5 < (i.1 : Int)) := by omega
  have hl : (0 : ℝ) < a.length := by exact_mod_cast List.length_pos_iff.2 ha
  have hb : ∀ q ∈ (a.map fun p i' => if ((i' : Fin 6).1 : Int) = i.1 then R.rnd (p i' + d) else p i'), q i = d := by
    intro q hq
    obtain ⟨p, hp, rfl⟩ := List.mem_map.1 hq
    simp only [if_true]
    exact add_absorbed R hd (h p hp)
  refine ⟨_, by unfold rOffsetComponent; rw [if_neg hin], hb, fun j => ?_, _, by unfold rOffsetComponent; rw [if_neg hin], by simp, fun q hq => ?_⟩
  · have hlb : (a.map fun (p : Vec) (i' : Fin 6) => if (i'.1 : Int) = i.1 then R.rnd (p i' + d) else p i').length = a.length := List.length_map _
    generalize (a.map fun (p : Vec) (i' : Fin 6) => if (i'.1 : Int) = i.1 then R.rnd (p i' + d) else p i') = b at *
    have hm : mean b i = d := by
      unfold mean
      rw [List.map_congr_left (g := fun _ => d) hb, List.map_const', List.sum_replicate, nsmul_eq_mul, hlb]
      field_simp
    unfold cov
    rw [List.map_congr_left (g := fun _ => (0 : ℝ)) fun q hq => by rw [hb q hq, hm, sub_self, zero_mul]]
    simp
  · obtain ⟨p, hp, rfl⟩ := List.mem_map.1 hq
    simp only [if_true]
    rw [hb p hp, add_neg_cancel, R.rnd_zero]

/-- **C171, taking the offset off again** gives every particle back up to one rounding of its value and one of the moved value. -/
theorem offset_undo_partial (a : Arr) (d : ℝ) (i : Fin 6) :
    ∃ b c, rOffsetComponent R a d i.1 = .ok b ∧ rOffsetComponent R b (-d) i.1 = .ok c ∧ c.length = a.length ∧
      ∀ (k : ℕ) (p q : Vec), a[k]? = some p → c[k]? = some q →
        (∀ j, j ≠ i → q j = p j) ∧ |q i - p i| ≤ (|p i| + |p i + d| * (1 + 2 ^ (-53 : ℤ))) * 2 ^ (-53 : ℤ) := by
  have hin : ¬ ((i.1 : Int) < 0 ∨ 5 < (i.1 : Int)) := by omega
  refine ⟨_, _, by unfold rOffsetComponent; rw [if_neg hin], by unfold rOffsetComponent; rw [if_neg hin], by simp, fun k p q hp hq => ?_⟩
  rw [List.getElem?_map, List.getElem?_map, hp] at hq
  simp only [Option.map_some, Option.some.injEq] at hq
  subst hq
  refine ⟨fun j hj => ?_, ?_⟩
  · have hj' : ¬ (j.1 : Int) = i.1 := fun e => hj (Fin.ext (by exact_mod_cast e))
    simp only [if_neg hj']
  · simp only [if_true]
    have e1 := R.error (p i + d)
    have e2 := R.error (R.rnd (p i + d) + -d)
    have e3 : |R.rnd (p i + d) + -d| ≤ |p i| + |p i + d| * 2 ^ (-53 : ℤ) := by
      rw [show R.rnd (p i + d) + -d = p i + (R.rnd (p i + d) - (p i + d)) by ring]
      exact (abs_add_le _ _).trans (by linarith)
    have e4 : |R.rnd (p i + d) + -d| * 2 ^ (-53 : ℤ) ≤ (|p i| + |p i + d| * 2 ^ (-53 : ℤ)) * 2 ^ (-53 : ℤ) :=
      mul_le_mul_of_nonneg_right e3 (by positivity)
    generalize (2 : ℝ) ^ (-53 : ℤ) = u at *
    have e5 := e2.trans e4
    rw [abs_le] at e1 e5 ⊢
    constructor <;> linarith [e1.1, e1.2, e5.1, e5.2]

/-- **C171, factor.** Every particle keeps the other components and its component is multiplied up to one rounding. -/
theorem multiply_rounded (a : Arr) (d : ℝ) (i : Fin 6) :
    ∃ b, rMultiplyComponent R a d i.1 = .ok b ∧ b.length = a.length ∧
      ∀ (k : ℕ) (p q : Vec), a[k]? = some p → b[k]? = some q → (∀ j, j ≠ i → q j = p j) ∧ |q i - p i * d| ≤ |p i * d| * 2 ^ (-53 : ℤ) := by
  have hin : ¬ ((i.1 : Int) < 0 ∨ 5 < (i.1 : Int)) := by omega
  refine ⟨_, by unfold rMultiplyComponent; rw [if_neg hin], by rw [List.length_map], fun k p q hp hq => ?_⟩
  rw [List.getElem?_map, hp] at hq
  simp only [Option.map_some, Option.some.injEq] at hq
  subst hq
  refine ⟨fun j hj => if_neg fun e => hj (Fin.ext (by exact_mod_cast e)), ?_⟩
  beta_reduce
  rw [if_pos rfl]
  exact R.error _

/-- **C171, powers of two.** A factor of `2 ^ e` or `-2 ^ e` multiplies the average and the moments exactly, and the inverse factor restores the array. -/
theorem multiply_power (a : Arr) (i : Fin 6) (h : ∀ p ∈ a, IsFloat (p i)) (e : ℤ) {s : ℝ} (hs : s = 1 ∨ s = -1) :
    ∃ b, rMultiplyComponent R a (s * 2 ^ e) i.1 = .ok b ∧ (∀ j, mean b j = if j = i then mean a j * (s * 2 ^ e) else mean a j) ∧
      (∀ j k, cov b j k = (if j = i then s * 2 ^ e else 1) * (if k = i then s * 2 ^ e else 1) * cov a j k) ∧
      rMultiplyComponent R b (s * 2 ^ (-e)) i.1 = .ok a := by
  obtain ⟨b, h1, h2, h3⟩ := multiply_moments a (s * 2 ^ e) i
  have hin : ¬ ((i.1 : Int) < 0 ∨ 5 < (i.1 : Int)) := by omega
  have hf : ∀ {x : ℝ}, IsFloat x → ∀ e : ℤ, IsFloat (x * (s * 2 ^ e)) := by
    rintro x ⟨m, k, hm, rfl⟩ e
    have base : IsFloat ((m : ℝ) * 2 ^ k * 2 ^ e) := ⟨m, k + e, hm, by rw [zpow_add₀ (by norm_num)]; ring⟩
    rcases hs with rfl | rfl
    · rwa [one_mul]
    · rw [neg_one_mul, mul_neg]
      exact isFloat_neg base
  have hss : ∀ x : ℝ, x * (s * 2 ^ e) * (s * 2 ^ (-e)) = x := by
    intro x
    have h1 : s * s = 1 := by rcases hs with rfl | rfl <;> norm_num
    have h2 : (2 : ℝ) ^ e * 2 ^ (-e) = 1 := by rw [← zpow_add₀ (by norm_num)]; simp
    calc x * (s * 2 ^ e) * (s * 2 ^ (-e)) = x * (s * s) * ((2 : ℝ) ^ e * 2 ^ (-e)) := by ring
      _ = x := by rw [h1, h2]; ring
  unfold multiplyComponent at h1
  rw [if_neg hin] at h1
  have hb : b = a.map fun p i' => if (i'.1 : Int) = i.1 then p i' * (s * 2 ^ e) else p i' := by cases h1; rfl
  refine ⟨b, ?_, h2, h3, ?_⟩
  · unfold rMultiplyComponent
    rw [if_neg hin, hb]
    congr 1
    refine List.map_congr_left fun p hp => ?_
    funext j
    by_cases hj : (j.1 : Int) = i.1
    · rw [if_pos hj, if_pos hj]
      have : j = i := Fin.ext (by exact_mod_cast hj)
      subst this
      exact R.fixed (hf (h p hp) e)
    · rw [if_neg hj, if_neg hj]
  · unfold rMultiplyComponent
    rw [if_neg hin, hb, List.map_map]
    congr 1
    conv_rhs => rw [← List.map_id a]
    refine List.map_congr_left fun p hp => ?_
    funext j
    by_cases hj : (j.1 : Int) = i.1
    · have : j = i := Fin.ext (by exact_mod_cast hj)
      subst this
      simp only [Function.comp_apply, if_true, id_eq, hss]
      exact R.fixed (h p hp)
    · simp only [Function.comp_apply, if_neg hj, id_eq]

/-- **C171, other indices** are refused. -/
theorem rounded_refuses (a : Arr) (d : ℝ) (n : Int) (h : n < 0 ∨ 5 < n) :
    rOffsetComponent R a d n = .error .exception ∧ rMultiplyComponent R a d n = .error .exception :=
  ⟨if_pos h, if_pos h⟩

/-- Two particles at 3 and 5: taking off 4 is exact, multiplying by 2 too, and an offset of `2 ^ 60` loses both. -/
example : ∃ a : Arr, a ≠ [] ∧ (∀ p ∈ a, IsFloat (p 0) ∧ 0 < p 0 ∧ p 0 ≤ 2 * 4 ∧ 4 ≤ 2 * p 0) ∧ IsFloat 4 ∧ IsFloat (2 ^ (60 : ℤ)) ∧
    (∀ p ∈ a, |p 0| < |(2 : ℝ) ^ (60 : ℤ)| * 2 ^ (-54 : ℤ)) ∧ ∃ p ∈ a, ∃ q ∈ a, p 0 ≠ q 0 := by
  have h3 : IsFloat 3 := by exact_mod_cast isFloat_int (n := 3) (by norm_num)
  have h5 : IsFloat 5 := by exact_mod_cast isFloat_int (n := 5) (by norm_num)
  refine ⟨[fun _ => 3, fun _ => 5], by simp, fun p hp => ?_, by exact_mod_cast isFloat_int (n := 4) (by norm_num), isFloat_zpow _, fun p hp => ?_,
    fun _ => 3, by simp, fun _ => 5, by simp, by norm_num⟩
  · simp only [List.mem_cons, List.not_mem_nil, or_false] at hp
    rcases hp with rfl | rfl
    · exact ⟨h3, by norm_num, by norm_num, by norm_num⟩
    · exact ⟨h5, by norm_num, by norm_num, by norm_num⟩
  · simp only [List.mem_cons, List.not_mem_nil, or_false] at hp
    rcases hp with rfl | rfl <;> norm_num

end Verif.Ptcls
