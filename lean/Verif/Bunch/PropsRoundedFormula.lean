import Verif.Bunch.PropsRoundedPotential
import Verif.Bunch.PropsRoundedKV

/-!
# Property C156: accuracy of the elliptic potential in double precision
-/

namespace Verif.Bunch

open Verif.Py Verif.Kinematic Verif.Nonlinear

variable (R : Rounding)

theorem near_self (x : ℝ) : Near (2 ^ (-53 : ℤ)) (R.rnd x) x := ((Near.refl x).rnd R).weaken (by norm_num)

/-- A sum of two numbers that are known up to parts of two bounds. -/
theorem sum_error {ε X x Y y A B : ℝ} (hX : |X - x| ≤ ε * A) (hY : |Y - y| ≤ ε * B) (hA : |x| ≤ A) (hB : |y| ≤ B) :
    |R.rnd (X + Y) - (x + y)| ≤ (ε + (1 + ε) * 2 ^ (-53 : ℤ)) * (A + B) := by
  have h1 := R.error (X + Y)
  have h2 : |X + Y - (x + y)| ≤ ε * (A + B) := by
    rw [show X + Y - (x + y) = (X - x) + (Y - y) by ring]
    exact (abs_add_le _ _).trans (by linarith)
  have h3 : |X + Y| ≤ (1 + ε) * (A + B) := by
    have e : X + Y = (X + Y - (x + y)) + (x + y) := by ring
    rw [e]
    refine (abs_add_le _ _).trans ?_
    have := abs_add_le x y
    linarith
  have h4 : (2 : ℝ) ^ (-53 : ℤ) * |X + Y| ≤ 2 ^ (-53 : ℤ) * ((1 + ε) * (A + B)) := mul_le_mul_of_nonneg_left h3 (by positivity)
  calc |R.rnd (X + Y) - (x + y)| ≤ |R.rnd (X + Y) - (X + Y)| + |X + Y - (x + y)| := abs_sub_le _ _ _
    _ ≤ _ := by linarith

/-- **C156, accuracy.** Where the elliptic part is a number, the potential is the quadratic part less `t c²` times the elliptic part, up to `2 ^ -50`
of the two magnitudes. -/
theorem potential_formula (F : Arc) {t c x y E : ℝ} (ht : t ≠ 0) (hc : c ≠ 0)
    (hE : rElliptic R F (rU R (R.rnd (x / c)) (R.rnd (y / c))) (rV R (R.rnd (x / c)) (R.rnd (y / c))) = .num E) :
    ∃ p, rPotential R F t c x y = .ok (.num p) ∧
      |p - ((x ^ 2 + y ^ 2) / 2 - t * c ^ 2 * E)| ≤ 2 ^ (-50 : ℤ) * ((x ^ 2 + y ^ 2) / 2 + |t| * c ^ 2 * |E|) := by
  unfold rPotential
  simp only [if_neg ht, if_neg hc, hE, FVal.scale, fadd]
  refine ⟨_, rfl, ?_⟩
  have q1 := near_add (near_self R (x * x)) (near_self R (y * y)) (mul_self_nonneg x) (mul_self_nonneg y)
  have q : Near (5 * 2 ^ (-53 : ℤ)) (R.rnd (1 / 2 * R.rnd (R.rnd (x * x) + R.rnd (y * y)))) (1 / 2 * (x * x + y * y)) :=
    (((Near.refl (1 / 2)).mul (q1.rnd R)).rnd R).weaken (by norm_num)
  have k : Near (5 * 2 ^ (-53 : ℤ)) (R.rnd (R.rnd (R.rnd (-1 * t) * R.rnd (c * c)) * E)) (-1 * t * (c * c) * E) :=
    (((((near_self R (-1 * t)).mul (near_self R (c * c))).rnd R).mul (Near.refl E)).rnd R).weaken (by norm_num)
  have := sum_error R q k le_rfl le_rfl
  rw [abs_of_nonneg (a := 1 / 2 * (x * x + y * y)) (by nlinarith [mul_self_nonneg x, mul_self_nonneg y])] at this
  have e : |-1 * t * (c * c) * E| = |t| * c ^ 2 * |E| := by
    rw [abs_mul, abs_mul, abs_mul, abs_neg, abs_one, one_mul, abs_mul_self, sq]
  rw [e] at this
  have e1 : 1 / 2 * (x * x + y * y) + -1 * t * (c * c) * E = (x ^ 2 + y ^ 2) / 2 - t * c ^ 2 * E := by ring
  have e2 : 1 / 2 * (x * x + y * y) = (x ^ 2 + y ^ 2) / 2 := by ring
  rw [e1, e2] at this
  exact this.trans (mul_le_mul_of_nonneg_right (by norm_num) (by positivity))

/-- The middle. -/
example (F : Arc) : ∃ t c x y E : ℝ, t ≠ 0 ∧ c ≠ 0 ∧
    rElliptic R F (rU R (R.rnd (x / c)) (R.rnd (y / c))) (rV R (R.rnd (x / c)) (R.rnd (y / c))) = .num E := by
  have h2 : R.rnd (1 + 1) = 2 := by rw [one_add_one_eq_two]; exact R.fixed (by exact_mod_cast isFloat_int (n := 2) (by norm_num))
  have h1 : R.rnd (-1) = -1 := by rw [R.odd, R.rnd_one]
  have hU : rU R (R.rnd (0 / 1)) (R.rnd (0 / 1)) = 1 := by simp [rU, rRadius, h1, h2]
  have hV : rV R (R.rnd (0 / 1)) (R.rnd (0 / 1)) = 0 := by simp [rV, rRadius, h1]
  obtain ⟨E, hE⟩ := elliptic_num R F (u := 1) (v := 0) (by exact_mod_cast isFloat_int (n := 0) (by norm_num)) le_rfl (by norm_num)
  exact ⟨1, 1, 0, 0, E, one_ne_zero, one_ne_zero, by rw [hU, hV, hE]⟩

/-- **C156, accuracy of the elliptic part.** Well away from the segment between the poles, and from the axis beyond them, the elliptic part is right
up to `2 ^ -48` of the magnitudes of its parts. -/
theorem elliptic_formula (F : Arc) {u v : ℝ} (hu0 : 0 < u) (hu : 2 ≤ u ^ 2) (hv : v ^ 2 ≤ 1 / 2) :
    ∃ E, rElliptic R F u v = .num E ∧
      |E - (u * Real.sqrt (u ^ 2 - 1) * F.cosh u + v * Real.sqrt (1 - v ^ 2) * (-Real.pi / 2 + F.cos v)) / (u ^ 2 - v ^ 2)| ≤
        2 ^ (-48 : ℤ) * ((|u * Real.sqrt (u ^ 2 - 1) * F.cosh u| + |v * Real.sqrt (1 - v ^ 2)| * (Real.pi / 2 + |F.cos v|)) / (u ^ 2 - v ^ 2)) := by
  have eu := near_self R (u * u)
  have ev := near_self R (v * v)
  have uu : u * u = u ^ 2 := (sq u).symm
  have vv : v * v = v ^ 2 := (sq v).symm
  rw [uu] at eu
  rw [vv] at ev
  have hv0 := sq_nonneg v
  unfold Near at eu ev
  rw [abs_of_nonneg (a := u ^ 2) (by positivity)] at eu
  rw [abs_of_nonneg (a := v ^ 2) hv0] at ev
  have n1 : Near (2 ^ (-52 : ℤ)) (R.rnd (u ^ 2) - 1) (u ^ 2 - 1) := by
    unfold Near
    rw [abs_of_pos (a := u ^ 2 - 1) (by linarith), show R.rnd (u ^ 2) - 1 - (u ^ 2 - 1) = R.rnd (u ^ 2) - u ^ 2 by ring]
    refine eu.trans ?_
    norm_num
    linarith
  have n2 : Near (2 ^ (-52 : ℤ)) (1 - R.rnd (v ^ 2)) (1 - v ^ 2) := by
    unfold Near
    rw [abs_of_pos (a := 1 - v ^ 2) (by linarith), show 1 - R.rnd (v ^ 2) - (1 - v ^ 2) = -(R.rnd (v ^ 2) - v ^ 2) by ring, abs_neg]
    refine ev.trans ?_
    norm_num
    linarith
  have n3 : Near (2 ^ (-52 : ℤ)) (R.rnd (u ^ 2) - R.rnd (v ^ 2)) (u ^ 2 - v ^ 2) := by
    unfold Near
    rw [abs_of_pos (a := u ^ 2 - v ^ 2) (by linarith),
      show R.rnd (u ^ 2) - R.rnd (v ^ 2) - (u ^ 2 - v ^ 2) = (R.rnd (u ^ 2) - u ^ 2) - (R.rnd (v ^ 2) - v ^ 2) by ring]
    refine (abs_sub _ _).trans ((add_le_add eu ev).trans ?_)
    norm_num
    linarith
  have m1 := (n1.rnd R).weaken (ε' := 2 ^ (-51 : ℤ)) (by norm_num)
  have m2 := (n2.rnd R).weaken (ε' := 2 ^ (-51 : ℤ)) (by norm_num)
  have m3 := (n3.rnd R).weaken (ε' := 2 ^ (-51 : ℤ)) (by norm_num)
  have p1 : 0 ≤ R.rnd (R.rnd (u ^ 2) - 1) := R.nonneg (by linarith [R.ge_of_ge isFloat_one (x := u ^ 2) (by linarith)])
  have p2 : 0 ≤ R.rnd (1 - R.rnd (v ^ 2)) := R.nonneg (by linarith [R.le_of_le isFloat_one (x := v ^ 2) (by linarith)])
  have s1 := ((m1.sqrt p1 (by linarith) (by norm_num)).rnd R).weaken (ε' := 2 ^ (-51 : ℤ)) (by norm_num)
  have s2 := ((m2.sqrt p2 (by linarith) (by norm_num)).rnd R).weaken (ε' := 7 / 2 * 2 ^ (-53 : ℤ)) (by norm_num)
  have hD : 0 < u ^ 2 - v ^ 2 := by linarith
  have d0 : R.rnd (R.rnd (u ^ 2) - R.rnd (v ^ 2)) ≠ 0 := by
    intro h
    rw [h] at m3
    have := m3.le_abs
    rw [abs_zero, abs_of_pos hD] at this
    nlinarith [show (0 : ℝ) < 1 - 2 ^ (-51 : ℤ) by norm_num]
  have hu1 : ¬(u < 1 ∨ 1 < |v|) := by
    rw [not_or, not_lt, not_lt]
    exact ⟨by nlinarith, by rw [← sq_abs] at hv; nlinarith [abs_nonneg v]⟩
  unfold rElliptic
  rw [uu, vv]
  simp only [rsqrt, if_neg (not_lt.2 p1), if_neg (not_lt.2 p2), if_neg hu1, fdiv, if_neg d0]
  refine ⟨_, rfl, ?_⟩
  -- the two parts of the numerator
  have f := (((((Near.refl u).mul s1).rnd R).mul (Near.refl (F.cosh u))).rnd R).weaken (ε' := 10 * 2 ^ (-53 : ℤ)) (by norm_num)
  have g1 := (((Near.refl v).mul s2).rnd R).weaken (ε' := 5 * 2 ^ (-53 : ℤ)) (by norm_num)
  have w : |R.rnd (-(R.rnd Real.pi) / 2 + F.cos v) - (-Real.pi / 2 + F.cos v)| ≤ (2 ^ (-53 : ℤ) + (1 + 2 ^ (-53 : ℤ)) * 2 ^ (-53 : ℤ)) *
      (Real.pi / 2 + |F.cos v|) := by
    refine sum_error R ?_ (by rw [sub_self, abs_zero]; positivity) ?_ le_rfl
    · have := R.error Real.pi
      rw [abs_of_pos Real.pi_pos] at this
      rw [show -(R.rnd Real.pi) / 2 - -Real.pi / 2 = -((R.rnd Real.pi - Real.pi) / 2) by ring, abs_neg, abs_div, abs_two]
      norm_num at this ⊢
      linarith
    · rw [neg_div, abs_neg, abs_of_pos (by positivity)]
  generalize R.rnd (-(R.rnd Real.pi) / 2 + F.cos v) = w' at w
  generalize R.rnd (v * R.rnd (Real.sqrt (R.rnd (1 - R.rnd (v ^ 2))))) = vb at g1
  generalize R.rnd (R.rnd (u * R.rnd (Real.sqrt (R.rnd (R.rnd (u ^ 2) - 1)))) * F.cosh u) = f' at f
  generalize R.rnd (R.rnd (u ^ 2) - R.rnd (v ^ 2)) = D' at m3 d0
  generalize v * Real.sqrt (1 - v ^ 2) = V at g1
  generalize u * Real.sqrt (u ^ 2 - 1) * F.cosh u = fu at f
  have hW : |-Real.pi / 2 + F.cos v| ≤ Real.pi / 2 + |F.cos v| := by
    refine (abs_add_le _ _).trans ?_
    rw [neg_div, abs_neg, abs_of_pos (a := Real.pi / 2) (by positivity)]
  have hW0 : 0 ≤ Real.pi / 2 + |F.cos v| := by positivity
  generalize -Real.pi / 2 + F.cos v = W at w hW
  generalize Real.pi / 2 + |F.cos v| = B at w hW hW0
  generalize u ^ 2 - v ^ 2 = D at m3 hD
  have hg : |R.rnd (vb * w') - V * W| ≤ 10 * 2 ^ (-53 : ℤ) * (|V| * B) := by
    have a1 : |w'| ≤ (1 + 2 ^ (-51 : ℤ)) * B := by
      have : w' = (w' - W) + W := by ring
      rw [this]
      refine (abs_add_le _ _).trans ?_
      have : ((2 : ℝ) ^ (-53 : ℤ) + (1 + 2 ^ (-53 : ℤ)) * 2 ^ (-53 : ℤ)) * B ≤ 2 ^ (-51 : ℤ) * B := mul_le_mul_of_nonneg_right (by norm_num) hW0
      linarith
    have a2 : |vb * w' - V * W| ≤ (5 * 2 ^ (-53 : ℤ) * (1 + 2 ^ (-51 : ℤ)) + (2 ^ (-53 : ℤ) + (1 + 2 ^ (-53 : ℤ)) * 2 ^ (-53 : ℤ))) * (|V| * B) := by
      rw [show vb * w' - V * W = (vb - V) * w' + V * (w' - W) by ring]
      refine (abs_add_le _ _).trans ?_
      rw [abs_mul, abs_mul]
      have b1 := mul_le_mul g1 a1 (abs_nonneg _) (by positivity)
      have b2 := mul_le_mul_of_nonneg_left w (abs_nonneg V)
      linarith
    have a3 : |vb * w'| ≤ 2 * (|V| * B) := by
      have h1 := g1.abs_le
      rw [abs_mul]
      have := mul_le_mul h1 a1 (abs_nonneg _) (by positivity)
      have h2 : (1 + 5 * (2 : ℝ) ^ (-53 : ℤ)) * |V| * ((1 + 2 ^ (-51 : ℤ)) * B) = (1 + 5 * 2 ^ (-53 : ℤ)) * (1 + 2 ^ (-51 : ℤ)) * (|V| * B) := by ring
      rw [h2] at this
      exact this.trans (mul_le_mul_of_nonneg_right (by norm_num) (by positivity))
    have a4 := R.error (vb * w')
    have a5 := mul_le_mul_of_nonneg_left a3 (show (0 : ℝ) ≤ 2 ^ (-53 : ℤ) by positivity)
    have a6 := abs_sub_le (R.rnd (vb * w')) (vb * w') (V * W)
    have hG : 0 ≤ |V| * B := by positivity
    generalize |V| * B = G at *
    norm_num at a2 a4 a5 a6 ⊢
    linarith
  have hVW : |V * W| ≤ |V| * B := by rw [abs_mul]; exact mul_le_mul_of_nonneg_left hW (abs_nonneg _)
  have hN := sum_error R f hg le_rfl hVW
  generalize R.rnd (f' + R.rnd (vb * w')) = N' at hN
  have hNb : |fu + V * W| ≤ |fu| + |V| * B := (abs_add_le _ _).trans (by linarith)
  have hG : 0 ≤ |fu| + |V| * B := by positivity
  generalize |fu| + |V| * B = G at *
  generalize fu + V * W = N at hN hNb
  -- the quotient
  have iv := (m3.inv (by norm_num) hD.ne').weaken (ε' := 5 * 2 ^ (-53 : ℤ)) (by norm_num)
  unfold Near at iv
  have hi : 0 < 1 / D := by positivity
  rw [abs_of_pos hi] at iv
  have c1 : |N'| ≤ 2 * G := by
    have : N' = (N' - N) + N := by ring
    rw [this]
    refine (abs_add_le _ _).trans ?_
    norm_num at hN
    linarith
  have c2 : |N' / D' - N / D| ≤ 2 ^ (-49 : ℤ) * (3 / 2) * (G / D) := by
    rw [show N' / D' - N / D = N' * (1 / D' - 1 / D) + (N' - N) * (1 / D) by ring]
    refine (abs_add_le _ _).trans ?_
    rw [abs_mul, abs_mul, abs_of_pos hi]
    have b1 := mul_le_mul c1 iv (abs_nonneg _) (by positivity)
    have b2 := mul_le_mul_of_nonneg_right hN hi.le
    have e : G / D = G * (1 / D) := by ring
    rw [e]
    have b3 : 2 * G * (5 * 2 ^ (-53 : ℤ) * (1 / D)) = 10 * 2 ^ (-53 : ℤ) * (G * (1 / D)) := by ring
    have b4 : 0 ≤ G * (1 / D) := by positivity
    have b5 : (10 * 2 ^ (-53 : ℤ) + (1 + 10 * 2 ^ (-53 : ℤ)) * 2 ^ (-53 : ℤ)) * G * (1 / D) = (10 * 2 ^ (-53 : ℤ) + (1 + 10 * 2 ^ (-53 : ℤ)) * 2 ^ (-53 : ℤ)) * (G * (1 / D)) := by ring
    rw [b3] at b1
    rw [b5] at b2
    generalize G * (1 / D) = H at *
    norm_num at b1 b2 ⊢
    linarith
  have hGD : 0 ≤ G / D := by positivity
  have c3 : |N / D| ≤ G / D := by rw [abs_div, abs_of_pos hD]; exact div_le_div_of_nonneg_right hNb hD.le
  have c4 := R.error (N' / D')
  have c5 : |N' / D'| ≤ 2 * (G / D) := by
    have : N' / D' = (N' / D' - N / D) + N / D := by ring
    rw [this]
    refine (abs_add_le _ _).trans ?_
    norm_num at c2 ⊢
    linarith
  have c6 := mul_le_mul_of_nonneg_left c5 (show (0 : ℝ) ≤ 2 ^ (-53 : ℤ) by positivity)
  have c7 := abs_sub_le (R.rnd (N' / D')) (N' / D') (N / D)
  generalize G / D = H at *
  norm_num at c2 c4 c6 ⊢
  linarith

/-- The point of the elliptic coordinates 2 and 1/2, with functions that are not zero. -/
example : ∃ (u v E : ℝ), 0 < u ∧ 2 ≤ u ^ 2 ∧ v ^ 2 ≤ 1 / 2 ∧ rElliptic R ⟨fun u => u, fun v => v⟩ u v = .num E := by
  obtain ⟨E, h, _⟩ := elliptic_formula R ⟨fun u => u, fun v => v⟩ (u := 2) (v := 1 / 2) (by norm_num) (by norm_num) (by norm_num)
  exact ⟨2, 1 / 2, E, by norm_num, by norm_num, by norm_num, h⟩

end Verif.Bunch
