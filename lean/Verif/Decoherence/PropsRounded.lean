import Verif.Decoherence.Rounded
import Verif.Decoherence.Props
import Verif.Py.Near

/-!
# Property C174: the centroid in double precision
-/

namespace Verif.Decoherence

open Verif.Py

variable (R : Rounding)

/-- Sine and cosine to one unit in the last place. -/
def Trig.Accurate (T : Trig) : Prop := ∀ x, |T.cos x - Real.cos x| ≤ 2 ^ (-52 : ℤ) * |Real.cos x| ∧ |T.sin x - Real.sin x| ≤ 2 ^ (-52 : ℤ) * |Real.sin x|

theorem near_rnd (x : ℝ) : Near (2 ^ (-53 : ℤ)) (R.rnd x) x := ((Near.refl x).rnd R).weaken (by norm_num)

/-- A product of a number close to `2π` or `π` with two numbers. -/
theorem phase_near {p q : ℝ} (h : Near (21 / 10 * 2 ^ (-53 : ℤ)) p q) (a b : ℝ) : Near (42 / 10 * 2 ^ (-53 : ℤ)) (R.rnd (R.rnd (p * a) * b)) (q * a * b) := by
  have h1 := ((h.mul (Near.refl a)).rnd R).weaken (ε' := 315 / 100 * 2 ^ (-53 : ℤ)) (by norm_num)
  exact ((h1.mul (Near.refl b)).rnd R).weaken (by norm_num)

theorem two_pi_near : Near (21 / 10 * 2 ^ (-53 : ℤ)) (R.rnd (2 * R.rnd Real.pi)) (2 * Real.pi) :=
  (((Near.refl 2).mul (near_rnd R Real.pi)).rnd R).weaken (by norm_num)

theorem pi_near : Near (21 / 10 * 2 ^ (-53 : ℤ)) (R.rnd Real.pi) Real.pi := (near_rnd R Real.pi).weaken (by norm_num)

/-- The bracket of the closed form, for any phases. -/
theorem bracket_near {T : Trig} (hT : T.Accurate) {x y h : ℝ} (hx : |2 * h - x| ≤ 9 * 2 ^ (-53 : ℤ) * |x|) :
    |R.rnd (R.rnd (T.cos y * T.sin x) + R.rnd (R.rnd (2 * T.sin y) * R.rnd (T.sin h * T.sin h))) -
      (Real.cos y * Real.sin x + 2 * Real.sin y * Real.sin (x / 2) ^ 2)| ≤ 40 * 2 ^ (-53 : ℤ) * |x| := by
  have nc : Near (2 ^ (-52 : ℤ)) (T.cos y) (Real.cos y) := (hT y).1
  have ns : Near (2 ^ (-52 : ℤ)) (T.sin y) (Real.sin y) := (hT y).2
  have nx : Near (2 ^ (-52 : ℤ)) (T.sin x) (Real.sin x) := (hT x).2
  have nh : Near (2 ^ (-52 : ℤ)) (T.sin h) (Real.sin h) := (hT h).2
  have nA : Near (51 / 10 * 2 ^ (-53 : ℤ)) (R.rnd (T.cos y * T.sin x)) (Real.cos y * Real.sin x) := ((nc.mul nx).rnd R).weaken (by norm_num)
  have n1 : Near (31 / 10 * 2 ^ (-53 : ℤ)) (R.rnd (2 * T.sin y)) (2 * Real.sin y) := (((Near.refl 2).mul ns).rnd R).weaken (by norm_num)
  have n2 : Near (51 / 10 * 2 ^ (-53 : ℤ)) (R.rnd (T.sin h * T.sin h)) (Real.sin h * Real.sin h) := ((nh.mul nh).rnd R).weaken (by norm_num)
  have nB := ((n1.mul n2).rnd R).weaken (ε' := 93 / 10 * 2 ^ (-53 : ℤ)) (by norm_num)
  generalize R.rnd (T.cos y * T.sin x) = A at *
  generalize R.rnd (R.rnd (2 * T.sin y) * R.rnd (T.sin h * T.sin h)) = B at *
  have sx : |Real.sin x| ≤ |x| := Real.abs_sin_le_abs
  have sh : |Real.sin h| ≤ |h| := Real.abs_sin_le_abs
  have hc1 := Real.abs_cos_le_one y
  have hs1 := Real.abs_sin_le_one y
  have hh1 := Real.abs_sin_le_one h
  have hh2 := Real.abs_sin_le_one (x / 2)
  have x0 := abs_nonneg x
  have ha : |A - Real.cos y * Real.sin x| ≤ 51 / 10 * 2 ^ (-53 : ℤ) * |x| := by
    refine le_trans nA (mul_le_mul_of_nonneg_left ?_ (by norm_num))
    rw [abs_mul]
    calc |Real.cos y| * |Real.sin x| ≤ 1 * |x| := mul_le_mul hc1 sx (abs_nonneg _) zero_le_one
      _ = |x| := one_mul _
  have hbig : 2 * |h| ≤ 11 / 10 * |x| := by
    have h1 := abs_sub_abs_le_abs_sub (2 * h) x
    rw [abs_mul, abs_of_pos (a := (2 : ℝ)) (by norm_num)] at h1
    norm_num at hx
    linarith
  have hb : |B - 2 * Real.sin y * (Real.sin h * Real.sin h)| ≤ 103 / 10 * 2 ^ (-53 : ℤ) * |x| := by
    refine le_trans nB ?_
    have : |2 * Real.sin y * (Real.sin h * Real.sin h)| ≤ 2 * |h| := by
      rw [abs_mul, abs_mul, abs_mul, abs_of_pos (a := (2 : ℝ)) (by norm_num)]
      calc 2 * |Real.sin y| * (|Real.sin h| * |Real.sin h|) ≤ 2 * 1 * (1 * |h|) :=
            mul_le_mul (by linarith) (mul_le_mul hh1 sh (abs_nonneg _) zero_le_one) (by positivity) (by norm_num)
        _ = 2 * |h| := by ring
    generalize |2 * Real.sin y * (Real.sin h * Real.sin h)| = z at *
    norm_num
    linarith
  have hd : |2 * Real.sin y * (Real.sin h * Real.sin h) - 2 * Real.sin y * Real.sin (x / 2) ^ 2| ≤ 18 * 2 ^ (-53 : ℤ) * |x| := by
    have e : 2 * Real.sin y * (Real.sin h * Real.sin h) - 2 * Real.sin y * Real.sin (x / 2) ^ 2 =
        2 * Real.sin y * ((Real.sin h - Real.sin (x / 2)) * (Real.sin h + Real.sin (x / 2))) := by ring
    have l1 : |Real.sin h - Real.sin (x / 2)| ≤ |h - x / 2| := Real.abs_sin_sub_sin_le _ _
    have l2 : |Real.sin h + Real.sin (x / 2)| ≤ 2 := (abs_add_le _ _).trans (by linarith)
    have l3 : |h - x / 2| = |2 * h - x| / 2 := by
      rw [show h - x / 2 = (2 * h - x) / 2 by ring, abs_div, abs_of_pos (a := (2 : ℝ)) (by norm_num)]
    rw [e, abs_mul, abs_mul, abs_mul, abs_of_pos (a := (2 : ℝ)) (by norm_num)]
    calc 2 * |Real.sin y| * (|Real.sin h - Real.sin (x / 2)| * |Real.sin h + Real.sin (x / 2)|) ≤ 2 * 1 * (|h - x / 2| * 2) :=
          mul_le_mul (by linarith) (mul_le_mul l1 l2 (abs_nonneg _) (abs_nonneg _)) (by positivity) (by norm_num)
      _ = 2 * |2 * h - x| := by rw [l3]; ring
      _ ≤ _ := by linarith
  have hF : |Real.cos y * Real.sin x + 2 * Real.sin y * Real.sin (x / 2) ^ 2| ≤ 2 * |x| := by
    have e1 : |Real.cos y * Real.sin x| ≤ 1 * |x| := by
      rw [abs_mul]; exact mul_le_mul hc1 sx (abs_nonneg _) zero_le_one
    have e2 : |2 * Real.sin y * Real.sin (x / 2) ^ 2| ≤ |x| := by
      have sx2 : |Real.sin (x / 2)| ≤ |x / 2| := Real.abs_sin_le_abs
      rw [pow_two, abs_mul, abs_mul, abs_mul, abs_of_pos (a := (2 : ℝ)) (by norm_num)]
      calc 2 * |Real.sin y| * (|Real.sin (x / 2)| * |Real.sin (x / 2)|) ≤ 2 * 1 * (1 * |x / 2|) :=
            mul_le_mul (by linarith) (mul_le_mul hh2 sx2 (abs_nonneg _) zero_le_one) (by positivity) (by norm_num)
        _ = |x| := by rw [abs_div, abs_of_pos (a := (2 : ℝ)) (by norm_num)]; ring
    exact (abs_add_le _ _).trans (by linarith)
  have hsum : |A + B - (Real.cos y * Real.sin x + 2 * Real.sin y * Real.sin (x / 2) ^ 2)| ≤ 334 / 10 * 2 ^ (-53 : ℤ) * |x| := by
    rw [show A + B - (Real.cos y * Real.sin x + 2 * Real.sin y * Real.sin (x / 2) ^ 2) = (A - Real.cos y * Real.sin x) +
      (B - 2 * Real.sin y * (Real.sin h * Real.sin h)) + (2 * Real.sin y * (Real.sin h * Real.sin h) - 2 * Real.sin y * Real.sin (x / 2) ^ 2) by ring]
    refine (abs_add_three _ _ _).trans ?_
    linarith
  have he := R.error (A + B)
  generalize Real.cos y * Real.sin x + 2 * Real.sin y * Real.sin (x / 2) ^ 2 = F at *
  have hAB : |A + B| ≤ |A + B - F| + |F| := by
    have := abs_add_le (A + B - F) F
    rwa [sub_add_cancel] at this
  refine (abs_sub_le _ (A + B) F).trans ?_
  norm_num at he hsum ⊢
  linarith

/-- The closed form for given phases is that of a beam with the tune and the coefficient that give these phases. -/
theorem closed_form (Z y : ℝ) {x : ℝ} (hx : x ≠ 0) {n : Nat} (hn : 0 < n) :
    Z / x * (Real.cos y * Real.sin x + 2 * Real.sin y * Real.sin (x / 2) ^ 2) = spec Z (y / (2 * Real.pi * n)) [x / (2 * Real.pi * n)] n := by
  have hn' : (0 : ℝ) < n := by exact_mod_cast hn
  have hpi := Real.pi_pos
  have hm : x / (2 * Real.pi * n) ≠ 0 := by positivity
  have h := first_order ⟨n, Z, y / (2 * Real.pi * n), [x / (2 * Real.pi * n)]⟩ _ rfl hm n
  unfold Centroid.firstOrder at h
  simp only [Option.getD_some] at h
  have e1 : 2 * Real.pi * ((n : ℤ) : ℝ) * (x / (2 * Real.pi * n)) = x := by push_cast; field_simp
  have e2 : 2 * Real.pi * (y / (2 * Real.pi * n)) * ((n : ℤ) : ℝ) = y := by push_cast; field_simp
  have e3 : Real.pi * ((n : ℤ) : ℝ) * (x / (2 * Real.pi * n)) = x / 2 := by push_cast; field_simp
  rw [if_neg (by exact_mod_cast hn.ne'), e1, if_neg hx, e2, e3] at h
  exact Except.ok.inj h

/-- Two averages with phases that differ by a little. -/
theorem spec_close (Z : ℝ) {a b a' b' : ℝ} (n : Nat) :
    |spec Z a [b] n - spec Z a' [b'] n| ≤ |Z| * (|2 * Real.pi * n * a - 2 * Real.pi * n * a'| + |2 * Real.pi * n * b - 2 * Real.pi * n * b'|) := by
  have ht : ∀ a b u : ℝ, tune a [b] u = a - b * u := by
    intro a b u
    simp [tune]
  unfold spec
  have hint : ∀ a b : ℝ, IntervalIntegrable (fun u => Z * Real.cos (2 * Real.pi * n * tune a [b] u)) MeasureTheory.volume 0 1 := by
    intro a b
    apply Continuous.intervalIntegrable
    have := tune_continuous a [b]
    fun_prop
  rw [← intervalIntegral.integral_sub (hint a b) (hint a' b')]
  have h := intervalIntegral.norm_integral_le_of_norm_le_const (a := (0 : ℝ)) (b := 1)
    (f := fun u => Z * Real.cos (2 * Real.pi * n * tune a [b] u) - Z * Real.cos (2 * Real.pi * n * tune a' [b'] u))
    (C := |Z| * (|2 * Real.pi * n * a - 2 * Real.pi * n * a'| + |2 * Real.pi * n * b - 2 * Real.pi * n * b'|)) (by
      intro u hu
      rw [Set.uIoc_of_le zero_le_one] at hu
      rw [Real.norm_eq_abs, ← mul_sub, abs_mul]
      refine mul_le_mul_of_nonneg_left ((Real.abs_cos_sub_cos_le _ _).trans ?_) (abs_nonneg _)
      rw [ht, ht, show 2 * Real.pi * (n : ℝ) * (a - b * u) - 2 * Real.pi * n * (a' - b' * u) = (2 * Real.pi * n * a - 2 * Real.pi * n * a') -
        (2 * Real.pi * n * b - 2 * Real.pi * n * b') * u by ring]
      refine (abs_sub _ _).trans (add_le_add le_rfl ?_)
      rw [abs_mul, abs_of_pos hu.1]
      exact mul_le_of_le_one_right (abs_nonneg _) hu.2)
  rw [Real.norm_eq_abs, sub_zero, abs_one, mul_one] at h
  exact h

/-- **C174.** In double precision the centroid of the closed form is the average over the waterbag up to `2 ^ (-47)` of the offset and `2 ^ (-50)` of
the phases, and never above the offset by more than `2 ^ (-47)` of it. -/
theorem rounded_centroid {T : Trig} (hT : T.Accurate) (c : Centroid) {m : ℝ} (hmu : c.mu = [m]) (hm : m ≠ 0) (n : Nat) :
    ∃ v, c.rFirstOrder R T (some n) = .ok v ∧ |v| ≤ |c.Z| * (1 + 2 ^ (-47 : ℤ)) ∧
      |v - spec c.Z c.nu0 c.mu n| ≤ |c.Z| * (2 ^ (-47 : ℤ) + 2 ^ (-50 : ℤ) * (2 * Real.pi * n * (|c.nu0| + |m|))) := by
  have hpi := Real.pi_pos
  rcases Nat.eq_zero_or_pos n with rfl | hn
  · refine ⟨c.Z, by simp [Centroid.rFirstOrder], ?_, ?_⟩
    · have := abs_nonneg c.Z
      have h2 : (0 : ℝ) ≤ |c.Z| * 2 ^ (-47 : ℤ) := by positivity
      linarith
    · rw [spec_zero, sub_self, abs_zero]
      positivity
  have hn' : (0 : ℝ) < n := by exact_mod_cast hn
  have nx := phase_near R (two_pi_near R) n m
  have ny := phase_near R (two_pi_near R) c.nu0 n
  have nh := phase_near R (pi_near R) n m
  have hX : 2 * Real.pi * n * m ≠ 0 := by positivity
  have hr : c.rFirstOrder R T (some n) = if R.rnd (R.rnd (R.rnd (2 * R.rnd Real.pi) * n) * m) = 0 then .error .zeroDivisionError
      else .ok (rFirst R T c.Z c.nu0 m n (R.rnd (R.rnd (R.rnd (2 * R.rnd Real.pi) * n) * m))) := by
    unfold Centroid.rFirstOrder
    simp only [Option.getD_some, hmu]
    rw [if_neg (by exact_mod_cast hn.ne')]
    simp only [Int.cast_natCast]
  unfold rFirst at hr
  simp only at hr
  generalize R.rnd (R.rnd (R.rnd (2 * R.rnd Real.pi) * n) * m) = x at *
  generalize R.rnd (R.rnd (R.rnd (2 * R.rnd Real.pi) * c.nu0) * n) = y at *
  generalize R.rnd (R.rnd (R.rnd Real.pi * n) * m) = h at *
  have hxa := nx.le_abs
  have hx : x ≠ 0 := by
    intro h0
    rw [h0, abs_zero] at hxa
    have := abs_pos.2 hX
    generalize |2 * Real.pi * n * m| = z at *
    norm_num at hxa
    linarith
  rw [if_neg hx] at hr
  have hhx : |2 * h - x| ≤ 9 * 2 ^ (-53 : ℤ) * |x| := by
    unfold Near at nx nh
    rw [show 2 * Real.pi * n * m = 2 * (Real.pi * n * m) by ring, abs_mul 2, abs_of_pos (a := (2 : ℝ)) (by norm_num)] at nx hxa
    have e : |2 * h - x| ≤ 2 * |h - Real.pi * n * m| + |x - 2 * (Real.pi * n * m)| := by
      rw [show 2 * h - x = 2 * (h - Real.pi * n * m) - (x - 2 * (Real.pi * n * m)) by ring]
      refine (abs_sub _ _).trans ?_
      rw [abs_mul 2, abs_of_pos (a := (2 : ℝ)) (by norm_num)]
    generalize |h - Real.pi * n * m| = z1 at *
    generalize |x - 2 * (Real.pi * n * m)| = z2 at *
    generalize |2 * h - x| = z3 at *
    have hp0 := abs_nonneg (Real.pi * n * m)
    generalize |Real.pi * n * m| = z4 at *
    have hx0 := abs_nonneg x
    generalize |x| = z5 at *
    clear hr
    norm_num at nx nh hxa ⊢
    linarith
  have hb := bracket_near R hT (y := y) hhx
  have hcf := closed_form c.Z y hx hn
  have hFb : |Real.cos y * Real.sin x + 2 * Real.sin y * Real.sin (x / 2) ^ 2| ≤ |x| := by
    have e : Real.cos y * Real.sin x + 2 * Real.sin y * Real.sin (x / 2) ^ 2 = Real.sin y - Real.sin (y - x) := by
      have h1 := Real.cos_two_mul (x / 2)
      have h2 := Real.sin_sq_add_cos_sq (x / 2)
      rw [show 2 * (x / 2) = x by ring] at h1
      rw [Real.sin_sub]
      linear_combination (2 * Real.sin y) * h2 + Real.sin y * h1
    rw [e]
    have := Real.abs_sin_sub_sin_le y (y - x)
    rwa [sub_sub_cancel] at this
  have hZ0 := abs_nonneg c.Z
  generalize R.rnd (R.rnd (T.cos y * T.sin x) + R.rnd (R.rnd (2 * T.sin y) * R.rnd (T.sin h * T.sin h))) = N at *
  have hx0 : 0 < |x| := abs_pos.2 hx
  generalize Real.cos y * Real.sin x + 2 * Real.sin y * Real.sin (x / 2) ^ 2 = F at *
  have eq1 := near_rnd R (c.Z / x)
  generalize R.rnd (c.Z / x) = q at *
  have hN : |N| ≤ (1 + 40 * 2 ^ (-53 : ℤ)) * |x| := by
    have := abs_add_le (N - F) F
    rw [sub_add_cancel] at this
    linarith
  have hq := eq1.abs_le
  unfold Near at eq1
  have hZx : |c.Z / x| * |x| = |c.Z| := by rw [abs_div]; field_simp
  have hv := R.error (q * N)
  have s1 : |q * N| ≤ 11 / 10 * |c.Z| := by
    rw [abs_mul]
    calc |q| * |N| ≤ ((1 + 2 ^ (-53 : ℤ)) * |c.Z / x|) * ((1 + 40 * 2 ^ (-53 : ℤ)) * |x|) := mul_le_mul hq hN (abs_nonneg _) (by positivity)
      _ = (1 + 2 ^ (-53 : ℤ)) * (1 + 40 * 2 ^ (-53 : ℤ)) * (|c.Z / x| * |x|) := by ring
      _ ≤ 11 / 10 * |c.Z| := by rw [hZx]; exact mul_le_mul_of_nonneg_right (by norm_num) hZ0
  have s2 : |q * N - c.Z / x * F| ≤ 42 * 2 ^ (-53 : ℤ) * |c.Z| := by
    rw [show q * N - c.Z / x * F = (q - c.Z / x) * N + c.Z / x * (N - F) by ring]
    refine (abs_add_le _ _).trans ?_
    rw [abs_mul, abs_mul]
    have k1 : |q - c.Z / x| * |N| ≤ (2 ^ (-53 : ℤ) * |c.Z / x|) * ((1 + 40 * 2 ^ (-53 : ℤ)) * |x|) :=
      mul_le_mul eq1 hN (abs_nonneg _) (by positivity)
    have k2 : |c.Z / x| * |N - F| ≤ |c.Z / x| * (40 * 2 ^ (-53 : ℤ) * |x|) := mul_le_mul_of_nonneg_left hb (abs_nonneg _)
    have k3 : (2 ^ (-53 : ℤ) * |c.Z / x|) * ((1 + 40 * 2 ^ (-53 : ℤ)) * |x|) + |c.Z / x| * (40 * 2 ^ (-53 : ℤ) * |x|) =
        (2 ^ (-53 : ℤ) * (1 + 40 * 2 ^ (-53 : ℤ)) + 40 * 2 ^ (-53 : ℤ)) * (|c.Z / x| * |x|) := by ring
    rw [hZx] at k3
    refine (add_le_add k1 k2).trans (k3.le.trans (mul_le_mul_of_nonneg_right (by norm_num) hZ0))
  have s3 : |R.rnd (q * N) - c.Z / x * F| ≤ |c.Z| * 2 ^ (-47 : ℤ) := by
    refine (abs_sub_le _ (q * N) _).trans ?_
    have : |q * N| * 2 ^ (-53 : ℤ) ≤ 11 / 10 * |c.Z| * 2 ^ (-53 : ℤ) := mul_le_mul_of_nonneg_right s1 (by positivity)
    norm_num at hv this s2 ⊢
    linarith
  refine ⟨_, hr, ?_, ?_⟩
  · have h1 : |c.Z / x * F| ≤ |c.Z| := by
      rw [abs_mul, ← hZx]
      exact mul_le_mul_of_nonneg_left hFb (abs_nonneg _)
    have h2 := abs_add_le (R.rnd (q * N) - c.Z / x * F) (c.Z / x * F)
    rw [sub_add_cancel] at h2
    rw [mul_add, mul_one]
    exact h2.trans ((add_le_add s3 h1).trans (add_comm _ _).le)
  · rw [hcf] at s3
    have h1 := spec_close c.Z (a := y / (2 * Real.pi * n)) (b := x / (2 * Real.pi * n)) (a' := c.nu0) (b' := m) n
    rw [show 2 * Real.pi * (n : ℝ) * (y / (2 * Real.pi * n)) = y by field_simp, show 2 * Real.pi * (n : ℝ) * (x / (2 * Real.pi * n)) = x by field_simp] at h1
    unfold Near at nx ny
    rw [show 2 * Real.pi * c.nu0 * n = 2 * Real.pi * n * c.nu0 by ring] at ny
    have ea : ∀ t : ℝ, |2 * Real.pi * n * t| = 2 * Real.pi * n * |t| := fun t => by rw [abs_mul, abs_of_pos (a := 2 * Real.pi * n) (by positivity)]
    rw [ea] at nx ny
    have h2 : |y - 2 * Real.pi * n * c.nu0| + |x - 2 * Real.pi * n * m| ≤ 2 ^ (-50 : ℤ) * (2 * Real.pi * n * (|c.nu0| + |m|)) := by
      have g1 : 0 ≤ 2 * Real.pi * n * |c.nu0| := by positivity
      have g2 : 0 ≤ 2 * Real.pi * n * |m| := by positivity
      rw [mul_add (2 * Real.pi * (n : ℝ))]
      generalize 2 * Real.pi * n * |c.nu0| = z1 at *
      generalize 2 * Real.pi * n * |m| = z2 at *
      generalize |y - 2 * Real.pi * n * c.nu0| = z3 at *
      generalize |x - 2 * Real.pi * n * m| = z4 at *
      norm_num at nx ny ⊢
      linarith
    rw [hmu]
    refine (abs_sub_le _ _ _).trans ((add_le_add s3 (h1.trans (mul_le_mul_of_nonneg_left h2 hZ0))).trans (le_of_eq (by ring)))

/-- **C174 is false for a coefficient of zero**: the closed form divides by it, also in double precision. -/
theorem rounded_zero_fails {T : Trig} (c : Centroid) (hmu : c.mu = [0]) (n : Nat) (hn : 0 < n) :
    c.rFirstOrder R T (some n) = .error .zeroDivisionError := by
  unfold Centroid.rFirstOrder
  simp only [Option.getD_some, hmu]
  rw [if_neg (by exact_mod_cast hn.ne'), if_pos (by rw [mul_zero, R.rnd_zero])]

/-- The exact functions, and the ones that are too small by a part of `2 ^ (-53)`. -/
example : Trig.Accurate ⟨Real.cos, Real.sin⟩ ∧ Trig.Accurate ⟨fun x => Real.cos x * (1 - 2 ^ (-53 : ℤ)), fun x => Real.sin x * (1 - 2 ^ (-53 : ℤ))⟩ := by
  refine ⟨fun x => ⟨by simp, by simp⟩, fun x => ⟨?_, ?_⟩⟩
  · show |Real.cos x * (1 - 2 ^ (-53 : ℤ)) - Real.cos x| ≤ _
    rw [show Real.cos x * (1 - 2 ^ (-53 : ℤ)) - Real.cos x = Real.cos x * -(2 ^ (-53 : ℤ)) by ring, abs_mul, mul_comm]
    exact mul_le_mul_of_nonneg_right (by norm_num) (abs_nonneg _)
  · show |Real.sin x * (1 - 2 ^ (-53 : ℤ)) - Real.sin x| ≤ _
    rw [show Real.sin x * (1 - 2 ^ (-53 : ℤ)) - Real.sin x = Real.sin x * -(2 ^ (-53 : ℤ)) by ring, abs_mul, mul_comm]
    exact mul_le_mul_of_nonneg_right (by norm_num) (abs_nonneg _)

end Verif.Decoherence
