import Verif.Bunch.Model
import Mathlib.Tactic.Linarith
import Mathlib.Tactic.FieldSimp
import Mathlib.Tactic.Ring
import Mathlib.Tactic.Positivity

/-!
# Property C58: the elliptic potential
-/

namespace Verif.Bunch

/-- Distance from the point `(f, 0)`. -/
noncomputable def dist (f x y : ℝ) : ℝ := Real.sqrt ((x - f) ^ 2 + y ^ 2)

/-- The potential of the paper cited in the module, in elliptic coordinates with foci at `(±c, 0)`. -/
noncomputable def ellU (t c x y : ℝ) : ℝ :=
  let u := (dist (-c) x y + dist c x y) / (2 * c)
  let v := (dist (-c) x y - dist c x y) / (2 * c)
  (x ^ 2 + y ^ 2) / 2 - t * c ^ 2 * ((u * Real.sqrt (u ^ 2 - 1) * Real.arcosh u +
    v * Real.sqrt (1 - v ^ 2) * (Real.arccos v - Real.pi / 2)) / (u ^ 2 - v ^ 2))

theorem dist_nonneg (f x y : ℝ) : 0 ≤ dist f x y := Real.sqrt_nonneg _

theorem dist_sq (f x y : ℝ) : dist f x y ^ 2 = (x - f) ^ 2 + y ^ 2 := Real.sq_sqrt (by positivity)

theorem le_dist (f x y : ℝ) : |x - f| ≤ dist f x y := by
  apply Real.le_sqrt_of_sq_le
  rw [sq_abs]
  nlinarith [sq_nonneg y]

/-- The sum of the distances from the foci is at least their distance. -/
theorem dist_sum (x y : ℝ) : 2 ≤ dist (-1) x y + dist 1 x y := by
  have h1 := le_dist (-1) x y
  have h2 := le_dist 1 x y
  have h3 := le_abs_self (x - -1)
  have h4 := neg_abs_le (x - 1)
  linarith

/-- The difference of the distances from the foci is at most their distance. -/
theorem dist_diff (x y : ℝ) : -2 ≤ dist (-1) x y - dist 1 x y ∧ dist (-1) x y - dist 1 x y ≤ 2 := by
  have h1 := le_dist (-1) x y
  have h2 := le_dist 1 x y
  have n1 := dist_nonneg (-1) x y
  have n2 := dist_nonneg 1 x y
  have s1 := dist_sq (-1) x y
  have s2 := dist_sq 1 x y
  have a1 := abs_le.1 h1
  have a2 := abs_le.1 h2
  constructor
  · have : dist 1 x y ≤ dist (-1) x y + 2 := by
      apply le_of_sq_le_sq _ (by linarith)
      nlinarith
    linarith
  · have : dist (-1) x y ≤ dist 1 x y + 2 := by
      apply le_of_sq_le_sq _ (by linarith)
      nlinarith
    linarith
where
  le_of_sq_le_sq {a b : ℝ} (h : a ^ 2 ≤ b ^ 2) (hb : 0 ≤ b) : a ≤ b := le_trans (le_abs_self a) (abs_le_of_sq_le_sq h hb)

theorem dist_zero {f x y : ℝ} : dist f x y = 0 ↔ x = f ∧ y = 0 := by
  unfold dist
  rw [Real.sqrt_eq_zero (by positivity)]
  constructor
  · intro h
    have h1 : (x - f) ^ 2 = 0 := by nlinarith [sq_nonneg (x - f), sq_nonneg y]
    have h2 : y ^ 2 = 0 := by nlinarith [sq_nonneg (x - f), sq_nonneg y]
    exact ⟨by have := pow_eq_zero_iff (two_ne_zero) |>.1 h1; linarith, pow_eq_zero_iff (two_ne_zero) |>.1 h2⟩
  · rintro ⟨rfl, rfl⟩
    ring

/-- Value of the elliptic part for all arguments. -/
theorem elliptic_eq (x y : ℝ) : elliptic x y =
    if dist (-1) x y * dist 1 x y = 0 then none
    else
      let u := (dist (-1) x y + dist 1 x y) / 2
      let v := (dist (-1) x y - dist 1 x y) / 2
      some ((u * Real.sqrt (u ^ 2 - 1) * Real.arcosh u + v * Real.sqrt (1 - v ^ 2) * (-Real.pi / 2 + Real.arccos v)) / (u ^ 2 - v ^ 2)) := by
  have hs := dist_sum x y
  obtain ⟨hd1, hd2⟩ := dist_diff x y
  have hsq : ∀ a : ℝ, 0 ≤ a → npSqrt a = some (Real.sqrt a) := fun a h => if_neg (not_lt.2 h)
  have e1 : Real.sqrt ((x + 1) ^ 2 + y ^ 2) = dist (-1) x y := by unfold dist; congr 1; ring
  have e2 : Real.sqrt ((x - 1) ^ 2 + y ^ 2) = dist 1 x y := rfl
  unfold elliptic
  rw [hsq _ (by positivity), hsq _ (by positivity), e1, e2]
  simp only [Option.bind_eq_bind, Option.bind_some]
  rw [hsq _ (by nlinarith), hsq _ (by nlinarith)]
  have hc : npArccosh ((dist (-1) x y + dist 1 x y) / 2) = some (Real.arcosh ((dist (-1) x y + dist 1 x y) / 2)) :=
    if_neg (by linarith)
  have ha : npArccos ((dist (-1) x y - dist 1 x y) / 2) = some (Real.arccos ((dist (-1) x y - dist 1 x y) / 2)) :=
    if_neg (by push Not; constructor <;> linarith)
  rw [hc, ha]
  simp only [Option.bind_some]
  have hp : ((dist (-1) x y + dist 1 x y) / 2) ^ 2 - ((dist (-1) x y - dist 1 x y) / 2) ^ 2 = dist (-1) x y * dist 1 x y := by ring
  rw [hp]

theorem dist_scale {c : ℝ} (hc : 0 < c) (f x y : ℝ) : dist f (x / c) (y / c) = dist (f * c) x y / c := by
  unfold dist
  rw [show (x / c - f) ^ 2 + (y / c) ^ 2 = ((x - f * c) ^ 2 + y ^ 2) / c ^ 2 by field_simp,
    Real.sqrt_div (by positivity), Real.sqrt_sq hc.le]

/-- **C58, defined.** For a positive aperture parameter the code computes the potential of the paper, without
leaving the domain of a square root or an inverse function, everywhere except at the two singular points (and
there as well if the strength is zero). -/
theorem potential_defined (t c x y : ℝ) (hc : 0 < c) (h : t = 0 ∨ (¬ (x = c ∧ y = 0) ∧ ¬ (x = -c ∧ y = 0))) :
    potential t c x y = .ok (some (ellU t c x y)) := by
  unfold potential ellU
  by_cases ht : t = 0
  · rw [if_pos ht, ht]
    simp only [quadratic, Except.ok.injEq, Option.some.injEq]
    ring
  · rw [if_neg ht, if_neg hc.ne', elliptic_eq]
    have hn := h.resolve_left ht
    have h1 : dist (-1) (x / c) (y / c) ≠ 0 := by
      rw [Ne, dist_zero]
      rintro ⟨h1, h2⟩
      apply hn.2
      constructor
      · field_simp at h1; exact h1
      · rw [div_eq_zero_iff] at h2; exact h2.resolve_right hc.ne'
    have h2 : dist 1 (x / c) (y / c) ≠ 0 := by
      rw [Ne, dist_zero]
      rintro ⟨h1, h2⟩
      apply hn.1
      constructor
      · field_simp at h1; exact h1
      · rw [div_eq_zero_iff] at h2; exact h2.resolve_right hc.ne'
    rw [if_neg (mul_ne_zero h1 h2)]
    simp only [Option.map_some, Except.ok.injEq, Option.some.injEq, quadratic]
    rw [dist_scale hc, dist_scale hc, show (-1 : ℝ) * c = -c by ring, one_mul]
    rw [show (dist (-c) x y / c + dist c x y / c) / 2 = (dist (-c) x y + dist c x y) / (2 * c) by field_simp,
      show (dist (-c) x y / c - dist c x y / c) / 2 = (dist (-c) x y - dist c x y) / (2 * c) by field_simp]
    generalize (dist (-c) x y + dist c x y) / (2 * c) = u
    generalize (dist (-c) x y - dist c x y) / (2 * c) = v
    ring

/-- **C58, singular points.** At the two singular points the result is not a number, and with `c = 0` the code
raises. -/
theorem potential_singular (t c : ℝ) (ht : t ≠ 0) :
    (c ≠ 0 → potential t c c 0 = .ok none ∧ potential t c (-c) 0 = .ok none) ∧
    (c = 0 → ∀ x y, potential t c x y = .error .zeroDivisionError) := by
  constructor
  · intro hc
    unfold potential
    rw [if_neg ht, if_neg hc, if_neg ht, if_neg hc, elliptic_eq, elliptic_eq, if_pos, if_pos]
    · exact ⟨rfl, rfl⟩
    · have : dist (-1) (-c / c) (0 / c) = 0 := by
        rw [dist_zero]
        exact ⟨by field_simp, by simp⟩
      rw [this, zero_mul]
    · have : dist 1 (c / c) (0 / c) = 0 := by
        rw [dist_zero]
        exact ⟨by field_simp, by simp⟩
      rw [this, mul_zero]
  · intro hc x y
    unfold potential
    rw [if_neg ht, if_pos hc]

theorem dist_neg_x (f x y : ℝ) : dist f (-x) y = dist (-f) x y := by
  unfold dist
  congr 1
  ring

theorem dist_neg_y (f x y : ℝ) : dist f x (-y) = dist f x y := by
  unfold dist
  congr 1
  ring

/-- **C58, symmetric.** The potential is even in both coordinates, for all arguments. -/
theorem potential_even (t c x y : ℝ) :
    potential t c (-x) y = potential t c x y ∧ potential t c x (-y) = potential t c x y := by
  have q1 : quadratic (-x) y = quadratic x y := by unfold quadratic; ring
  have q2 : quadratic x (-y) = quadratic x y := by unfold quadratic; ring
  have e1 : elliptic (-x / c) (y / c) = elliptic (x / c) (y / c) := by
    rw [elliptic_eq, elliptic_eq, neg_div, dist_neg_x, dist_neg_x, neg_neg]
    rw [mul_comm (dist 1 (x / c) (y / c)), add_comm (dist 1 (x / c) (y / c))]
    have hv : (dist 1 (x / c) (y / c) - dist (-1) (x / c) (y / c)) / 2 = -((dist (-1) (x / c) (y / c) - dist 1 (x / c) (y / c)) / 2) := by ring
    rw [hv]
    simp only
    generalize (dist (-1) (x / c) (y / c) - dist 1 (x / c) (y / c)) / 2 = v
    rw [Real.arccos_neg, neg_sq]
    congr 3
    ring
  have e2 : elliptic (x / c) (-y / c) = elliptic (x / c) (y / c) := by
    rw [elliptic_eq, elliptic_eq, neg_div, dist_neg_y, dist_neg_y]
  unfold potential
  rw [q1, q2, e1, e2]
  exact ⟨rfl, rfl⟩

/-- Without strength the potential is that of the linear lattice. -/
theorem potential_linear (c x y : ℝ) : potential 0 c x y = .ok (some ((x ^ 2 + y ^ 2) / 2)) := by
  unfold potential
  rw [if_pos rfl]
  simp only [quadratic, Except.ok.injEq, Option.some.injEq]
  ring

example : potential (1 / 10) 2 3 4 = .ok (some (ellU (1 / 10) 2 3 4)) :=
  potential_defined _ _ _ _ (by norm_num) (Or.inr ⟨by norm_num, by norm_num⟩)

/-- At the origin the potential is zero. -/
example : ellU (1 / 10) 2 0 0 = 0 := by
  have h : ∀ f : ℝ, dist f 0 0 = |f| := fun f => by
    unfold dist
    rw [show ((0 : ℝ) - f) ^ 2 + 0 ^ 2 = f ^ 2 by ring, Real.sqrt_sq_eq_abs]
  unfold ellU
  rw [h, h]
  norm_num

example : potential (1 / 10) 2 2 0 = .ok none := ((potential_singular (1 / 10) 2 (by norm_num)).1 (by norm_num)).1

end Verif.Bunch
