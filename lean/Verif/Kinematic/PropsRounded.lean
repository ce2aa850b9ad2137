import Verif.Kinematic.Rounded
import Verif.Kinematic.Spec

/-!
# Rounded kinematics stay physical (C139)
-/

namespace Verif.Kinematic

open Verif.Py

variable (R : Rounding)

theorem abs_rnd_le {x y : ℝ} (hy : IsFloat y) (hy' : IsFloat (-y)) (h : |x| ≤ y) : |R.rnd x| ≤ y := by
  rw [abs_le] at h ⊢
  exact ⟨R.ge_of_ge hy' h.1, R.le_of_le hy h.2⟩

/-- The divisor of `rNormal` is not smaller than the number. -/
theorem normal_divisor {n : ℝ} (hn : IsFloat n) :
    |n| ≤ R.rnd (Real.sqrt (R.rnd (1 + R.rnd (n * n)))) ∧ 1 ≤ R.rnd (Real.sqrt (R.rnd (1 + R.rnd (n * n)))) := by
  have h0 : 0 ≤ R.rnd (n * n) := R.nonneg (mul_self_nonneg n)
  constructor
  · rw [← R.sqrt_sq (isFloat_abs hn) (abs_nonneg n), abs_mul_abs_self]
    exact R.mono (Real.sqrt_le_sqrt (R.ge_of_ge (R.isFloat _) (by linarith)))
  · refine R.ge_of_ge isFloat_one (Real.le_sqrt_of_sq_le ?_)
    rw [one_pow]
    exact R.ge_of_ge isFloat_one (by linarith)

theorem rNormal_le {n : ℝ} (hn : IsFloat n) : |rNormal R n| ≤ 1 := by
  obtain ⟨h1, h2⟩ := normal_divisor R hn
  refine abs_rnd_le R isFloat_one (isFloat_neg isFloat_one) ?_
  rw [abs_div, abs_of_pos (lt_of_lt_of_le one_pos h2)]
  exact (div_le_one (lt_of_lt_of_le one_pos h2)).2 h1

/-- What `gamma` can be. -/
theorem rGamma_cases {b : ℝ} (hb : IsFloat b) (h : |b| ≤ 1) :
    (rGamma R b = .inf ∧ |b| = 1) ∨ ∃ g, rGamma R b = .num g ∧ 1 ≤ g ∧ |b| < 1 ∧ IsFloat g := by
  have hb2 : b * b ≤ 1 := by rw [← abs_mul_abs_self]; exact mul_le_one₀ h (abs_nonneg b) h
  have h1 : R.rnd (b * b) ≤ 1 := R.le_of_le isFloat_one hb2
  have h2 : 0 ≤ R.rnd (1 - R.rnd (b * b)) := R.nonneg (by linarith)
  have h0 : 0 ≤ R.rnd (b * b) := R.nonneg (mul_self_nonneg b)
  have h3 : R.rnd (1 - R.rnd (b * b)) ≤ 1 := R.le_of_le isFloat_one (by linarith)
  rw [rGamma, rsqrt, if_neg (not_lt.2 h2), FVal.recip]
  rcases h.eq_or_lt with heq | hlt
  · left
    have : b * b = 1 := by rw [← abs_mul_abs_self, heq, mul_one]
    refine ⟨?_, heq⟩
    rw [this]; simp
  · right
    -- squares below 1 stay below 1
    have hlt1 : R.rnd (b * b) < 1 := by
      refine lt_of_le_of_ne h1 fun hc => ?_
      have h4 := R.sqrt_sq (isFloat_abs hb) (abs_nonneg b)
      rw [abs_mul_abs_self, hc, Real.sqrt_one, R.rnd_one] at h4
      linarith
    have h5 : 0 < R.rnd (1 - R.rnd (b * b)) := R.pos (by linarith)
    have h6 : 0 < R.rnd (Real.sqrt (R.rnd (1 - R.rnd (b * b)))) := R.pos (Real.sqrt_pos.2 h5)
    have h7 : R.rnd (Real.sqrt (R.rnd (1 - R.rnd (b * b)))) ≤ 1 := R.le_of_le isFloat_one (Real.sqrt_le_one.2 h3)
    refine ⟨_, by rw [if_neg h6.ne'], R.ge_of_ge isFloat_one ?_, hlt, R.isFloat _⟩
    rw [le_div_iff₀ h6]; linarith

theorem rBeta_cases {g : ℝ} (h : 1 ≤ g) : ∃ b, rBeta R g = .ok (.num b) ∧ 0 ≤ b ∧ b ≤ 1 := by
  have h1 : 1 ≤ R.rnd (g * g) := R.ge_of_ge isFloat_one (by nlinarith)
  have h2 : R.rnd (1 / R.rnd (g * g)) ≤ 1 := R.le_of_le isFloat_one ((div_le_one (by linarith)).2 h1)
  have h3 : 0 ≤ R.rnd (1 / R.rnd (g * g)) := R.nonneg (by positivity)
  have h4 : 0 ≤ R.rnd (1 - R.rnd (1 / R.rnd (g * g))) := R.nonneg (by linarith)
  have h5 : R.rnd (1 - R.rnd (1 / R.rnd (g * g))) ≤ 1 := R.le_of_le isFloat_one (by linarith)
  refine ⟨R.rnd (Real.sqrt (R.rnd (1 - R.rnd (1 / R.rnd (g * g))))), ?_, R.nonneg (Real.sqrt_nonneg _),
    R.le_of_le isFloat_one (Real.sqrt_le_one.2 h5)⟩
  rw [rBeta, if_neg (by linarith), rsqrt, if_neg (not_lt.2 h4)]

/-- The two numbers all results are made of. -/
theorem rStart_cases {c m : ℝ} (hc0 : 0 < c) (hm0 : 0 < m) {q : Quantity} {v : ℝ} (hv : IsFloat v)
    (h : Valid c m q v) : ∃ b g, rStart R c m q v = .ok (.num b, g) ∧ |b| ≤ 1 ∧
      ((g = .inf ∧ |b| = 1) ∨ ∃ x, g = .num x ∧ 1 ≤ x ∧ IsFloat x) := by
  have key : ∀ b, IsFloat b → |b| ≤ 1 → ((rGamma R b = .inf ∧ |b| = 1) ∨ ∃ x, rGamma R b = .num x ∧ 1 ≤ x ∧ IsFloat x) := by
    intro b hb h
    rcases rGamma_cases R hb h with h | ⟨g, h1, h2, _, h3⟩
    exacts [.inl h, .inr ⟨g, h1, h2, h3⟩]
  have kn : ∀ n, IsFloat n → ((rGamma R (rNormal R n) = .inf ∧ |rNormal R n| = 1) ∨ ∃ x, rGamma R (rNormal R n) = .num x ∧ 1 ≤ x ∧ IsFloat x) :=
    fun n hn => key _ (R.isFloat _) (rNormal_le R hn)
  have kb : ∀ g, 1 ≤ g → ∃ b, rBeta R g = .ok (.num b) ∧ |b| ≤ 1 := by
    intro g hg
    obtain ⟨b, h1, h2, h3⟩ := rBeta_cases R hg
    exact ⟨b, h1, by rwa [abs_of_nonneg h2]⟩
  cases q <;> simp only [rStart, rDiv, hc0.ne', hm0.ne', if_false, bind, Except.bind] <;> simp only [Valid] at h
  · exact ⟨_, _, rfl, rNormal_le R (R.isFloat _), kn _ (R.isFloat _)⟩
  · have hb : |R.rnd (v / c)| ≤ 1 := by
      refine abs_rnd_le R isFloat_one (isFloat_neg isFloat_one) ?_
      rw [abs_div, abs_of_pos hc0]
      exact (div_le_one hc0).2 h.le
    exact ⟨_, _, rfl, hb, key _ (R.isFloat _) hb⟩
  · have hg : 1 ≤ R.rnd (v / m) := R.ge_of_ge isFloat_one ((one_le_div hm0).2 h)
    obtain ⟨b, h1, h2⟩ := kb _ hg
    exact ⟨b, _, by rw [h1], h2, .inr ⟨_, rfl, hg, R.isFloat _⟩⟩
  · have hg : 1 ≤ R.rnd (R.rnd (v / m) + 1) := R.ge_of_ge isFloat_one (by
      have := R.nonneg (div_nonneg h hm0.le); linarith)
    obtain ⟨b, h1, h2⟩ := kb _ hg
    exact ⟨b, _, by rw [h1], h2, .inr ⟨_, rfl, hg, R.isFloat _⟩⟩
  · exact ⟨_, _, rfl, rNormal_le R hv, kn _ hv⟩
  · exact ⟨_, _, rfl, rNormal_le R (R.isFloat _), kn _ (R.isFloat _)⟩
  · exact ⟨_, _, rfl, h.le, key _ hv h.le⟩
  · obtain ⟨b, h1, h2⟩ := kb _ h
    exact ⟨b, _, by rw [h1], h2, .inr ⟨_, rfl, h, hv⟩⟩

/-- **C139.** For every value a massive particle can have, the rounded results are physical: the velocity is at most `c`, `gamma` is at least 1, the
energy at least the mass, the kinetic energy is not negative, and the momentum is at most the energy, or `gamma`, the energies and the size of the
momentum are infinite and the velocity is `c`. Nothing is nan and nothing is raised. -/
theorem rounded_physical {c m : ℝ} (hc : IsFloat c) (hc0 : 0 < c) (hm : IsFloat m) (hm0 : 0 < m) {q : Quantity} {v : ℝ} (hv : IsFloat v)
    (h : Valid c m q v) : ∃ o b w, rCall R c m q v = .ok o ∧ o .beta = .num b ∧ |b| ≤ 1 ∧ o .velocity = .num w ∧ |w| ≤ c ∧
      ((∃ g en ke p bg br, o .gamma = .num g ∧ 1 ≤ g ∧ o .energy = .num en ∧ m ≤ en ∧ o .kenergy = .num ke ∧ 0 ≤ ke ∧
          o .momentum = .num p ∧ |p| ≤ en ∧ o .betagamma = .num bg ∧ |bg| ≤ g ∧ o .brho = .num br) ∨
        (o .gamma = .inf ∧ o .energy = .inf ∧ o .kenergy = .inf ∧
          ((b = 1 ∧ w = c ∧ o .momentum = .inf ∧ o .betagamma = .inf ∧ o .brho = .inf) ∨
            (b = -1 ∧ w = -c ∧ o .momentum = .ninf ∧ o .betagamma = .ninf ∧ o .brho = .ninf)))) := by
  obtain ⟨b, g, h1, hb, hg⟩ := rStart_cases R hc0 hm0 hv h
  refine ⟨_, b, R.rnd (c * b), by rw [rCall, h1]; rfl, rfl, hb, rfl, ?_, ?_⟩
  · refine abs_rnd_le R hc (isFloat_neg hc) ?_
    rw [abs_mul, abs_of_pos hc0]
    exact mul_le_of_le_one_right hc0.le hb
  · rcases hg with ⟨rfl, hb1⟩ | ⟨x, rfl, hx, hxf⟩
    · right
      refine ⟨rfl, by simp [FVal.scale, hm0], by simp [FVal.pred, FVal.scale, hm0], ?_⟩
      rcases abs_cases b with ⟨h2, _⟩ | ⟨h2, _⟩ <;> rw [h2] at hb1
      · left
        subst hb1
        simp [FVal.scale, FVal.times, FVal.over, hm0, R.fixed hc]
      · right
        obtain rfl : b = -1 := by linarith
        have h3 : ¬ ((0 : ℝ) < -1) := by norm_num
        have h4 : (-1 : ℝ) < 0 := by norm_num
        have h5 : R.rnd (c * -1) = -c := by rw [mul_neg_one, R.fixed (isFloat_neg hc)]
        simp only [FVal.scale, FVal.times, FVal.over, if_pos hm0, if_neg h3, if_pos h4, h5, and_self]
    · left
      have hx0 : 0 < x := lt_of_lt_of_le one_pos hx
      have h5 : |b * x| ≤ x := by
        rw [abs_mul, abs_of_pos hx0]
        exact mul_le_of_le_one_left hx0.le hb
      have hbg : |R.rnd (b * x)| ≤ x := abs_rnd_le R hxf (isFloat_neg hxf) h5
      refine ⟨x, _, _, _, _, _, rfl, hx, rfl, R.ge_of_ge hm (le_mul_of_one_le_right hm0.le hx), rfl,
        R.nonneg (mul_nonneg hm0.le (R.nonneg (by linarith))), rfl, ?_, rfl, hbg, rfl⟩
      have h6 : |m * R.rnd (b * x)| ≤ m * x := by
        rw [abs_mul, abs_of_pos hm0]
        exact mul_le_mul_of_nonneg_left hbg hm0.le
      rw [abs_le] at h6 ⊢
      exact ⟨by rw [← R.odd]; exact R.mono h6.1, R.mono h6.2⟩

/-- A particle with a momentum of three masses. -/
example : Valid 299792458 2 .momentum 6 ∧ IsFloat 6 ∧ IsFloat 299792458 := by
  refine ⟨trivial, ?_, ?_⟩
  · exact_mod_cast isFloat_int (n := 6) (by norm_num)
  · exact_mod_cast isFloat_int (n := 299792458) (by norm_num)

end Verif.Kinematic
