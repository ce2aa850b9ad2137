import Verif.Decoherence.PropsRounded
import Verif.Decoherence.RoundedAny

/-!
# Property C178: the integrand of the centroid in double precision
-/

namespace Verif.Decoherence

open Verif.Py

variable (R : Rounding)

/-- Sine, cosine and powers to one unit in the last place. -/
def Lib.Accurate (lib : Lib) : Prop := lib.toTrig.Accurate ∧ ∀ x k, |lib.pow x k - x ^ k| ≤ 2 ^ (-52 : ℤ) * |x ^ k|

/-- The phase from the coefficients, `m a + m' a^2 / w + m'' a^3 / w^2 + …`. -/
noncomputable def advancePhase (a w : ℝ) (mu : List ℝ) : ℝ := (mu.mapIdx fun i m => m * a ^ (i + 1) / w ^ i).sum

/-- The same with magnitudes. -/
noncomputable def advanceSize (a w : ℝ) (mu : List ℝ) : ℝ := (mu.mapIdx fun i m => |m * a ^ (i + 1) / w ^ i|).sum

/-- `j` roundings. -/
noncomputable def roundings (j : Nat) : ℝ := (1 + 2 ^ (-53 : ℤ)) ^ j - 1

theorem roundings_nonneg (j : Nat) : 0 ≤ roundings j := by
  unfold roundings
  have := one_le_pow₀ (n := j) (show (1 : ℝ) ≤ 1 + 2 ^ (-53 : ℤ) by norm_num)
  linarith

theorem roundings_mono {i j : Nat} (h : i ≤ j) : roundings i ≤ roundings j := by
  unfold roundings
  have := pow_le_pow_right₀ (show (1 : ℝ) ≤ 1 + 2 ^ (-53 : ℤ) by norm_num) h
  linarith

/-- Up to `2 ^ 50` roundings are less than a seventh. -/
theorem roundings_le {j : Nat} (h : j ≤ 2 ^ 50) : roundings j ≤ 1 / 7 := by
  have h1 := one_add_mul_le_pow (a := (-(2 : ℝ) ^ (-53 : ℤ))) (by norm_num) j
  have hj : (j : ℝ) * 2 ^ (-53 : ℤ) ≤ 1 / 8 := by
    have : (j : ℝ) ≤ 1125899906842624 := by exact_mod_cast h
    norm_num
    linarith
  rw [mul_neg] at h1
  have h2 : (7 : ℝ) / 8 ≤ (1 + -(2 : ℝ) ^ (-53 : ℤ)) ^ j := by
    rw [show (7 : ℝ) / 8 = 1 + -(1 / 8) by norm_num]
    exact (add_le_add le_rfl (neg_le_neg hj)).trans h1
  have h3 : (1 + (2 : ℝ) ^ (-53 : ℤ)) ^ j * (1 + -(2 : ℝ) ^ (-53 : ℤ)) ^ j ≤ 1 := by
    rw [← mul_pow]
    exact pow_le_one₀ (by norm_num) (by norm_num)
  have h4 : 0 < (1 + (2 : ℝ) ^ (-53 : ℤ)) ^ j := by positivity
  have h5 := mul_le_mul_of_nonneg_left h2 h4.le
  unfold roundings
  generalize (1 + (2 : ℝ) ^ (-53 : ℤ)) ^ j = X at *
  generalize (1 + -(2 : ℝ) ^ (-53 : ℤ)) ^ j = Y at *
  linarith

theorem near_mul {i j : Nat} {x y z w : ℝ} (h : Near (roundings i) x y) (h' : Near (roundings j) z w) : Near (roundings (i + j)) (x * z) (y * w) := by
  refine (h.mul h').weaken (le_of_eq ?_)
  unfold roundings
  rw [pow_add]
  ring

theorem near_round {i : Nat} {x y : ℝ} (h : Near (roundings i) x y) : Near (roundings (i + 1)) (R.rnd x) y := by
  refine (h.rnd R).weaken (le_of_eq ?_)
  unfold roundings
  rw [pow_succ]
  ring

theorem near_self (x : ℝ) : Near (roundings 0) x x := (Near.refl x).weaken (roundings_nonneg 0)

theorem near_inv {j : Nat} {z w : ℝ} (h : Near (roundings j) z w) (hj : j ≤ 2 ^ 50) (hw : w ≠ 0) : Near (roundings (2 * j)) (1 / z) (1 / w) := by
  have h1 := roundings_le hj
  have h0 := roundings_nonneg j
  refine (h.inv (by linarith) hw).weaken ?_
  have e : roundings (2 * j) = (1 + roundings j) * (1 + roundings j) - 1 := by
    unfold roundings
    rw [two_mul, pow_add]
    ring
  rw [e, div_le_iff₀ (by linarith)]
  generalize roundings j = x at *
  nlinarith [mul_nonneg h0 h0, mul_nonneg (mul_nonneg h0 h0) (show 0 ≤ 1 / 7 - x by linarith)]

theorem near_pow {j : Nat} {x y : ℝ} (h : Near (roundings j) x y) (k : Nat) : Near (roundings (j * k)) (x ^ k) (y ^ k) := by
  induction k with
  | zero => simpa using near_self 1
  | succ k ih =>
    rw [pow_succ, pow_succ, Nat.mul_succ]
    exact near_mul ih h

theorem near_lib {lib : Lib} (hl : lib.Accurate) {j : Nat} {x y : ℝ} (h : Near (roundings j) x y) (k : Nat) :
    Near (roundings (2 + j * k)) (lib.pow x k) (y ^ k) := by
  have h1 : Near (2 ^ (-52 : ℤ)) (lib.pow x k) (x ^ k) := hl.2 x k
  have h2 := near_pow h k
  unfold Near at *
  have h3 := h2.trans le_rfl
  have h4 := Near.abs_le h2
  have tri := abs_sub_le (lib.pow x k) (x ^ k) (y ^ k)
  have e : roundings (2 + j * k) = (1 + 2 ^ (-53 : ℤ)) ^ 2 * (1 + roundings (j * k)) - 1 := by
    unfold roundings
    rw [pow_add]
    ring
  rw [e]
  have h0 := roundings_nonneg (j * k)
  have hy := abs_nonneg (y ^ k)
  have h5 : (2 : ℝ) ^ (-52 : ℤ) * |x ^ k| ≤ 2 ^ (-52 : ℤ) * ((1 + roundings (j * k)) * |y ^ k|) := mul_le_mul_of_nonneg_left h4 (by positivity)
  have h6 : (1 : ℝ) + 2 ^ (-52 : ℤ) ≤ (1 + 2 ^ (-53 : ℤ)) ^ 2 := by norm_num
  have h7 := mul_le_mul_of_nonneg_right h6 (show 0 ≤ (1 + roundings (j * k)) * |y ^ k| by positivity)
  nlinarith

theorem turn_near (n : Nat) : Near (roundings 3) (rTurn R n) (2 * Real.pi * n) := by
  have h1 := near_round R (near_self Real.pi)
  have h2 := near_round R (near_mul (near_self 2) h1)
  have h3 := near_round R (near_mul h2 (near_self (n : ℝ)))
  unfold rTurn
  push_cast
  exact h3

/-- One term of the phase. -/
theorem term_near {lib : Lib} (hl : lib.Accurate) (a m : ℝ) {n : Nat} (hn : 0 < n) {i : Nat} (hi : i ≤ 2 ^ 40) :
    Near (roundings (6 * i + 8)) (R.rnd (R.rnd (m * lib.pow a (i + 1)) / lib.pow (rTurn R n) i)) (m * a ^ (i + 1) / (2 * Real.pi * n) ^ i) := by
  have h1 := near_lib hl (near_self a) (i + 1)
  rw [Nat.zero_mul] at h1
  have h2 := near_round R (near_mul (near_self m) h1)
  have h3 := near_lib hl (turn_near R n) i
  have hw : (2 * Real.pi * (n : ℝ)) ^ i ≠ 0 := by
    have hn' : (0 : ℝ) < n := by exact_mod_cast hn
    have := Real.pi_pos
    positivity
  have h4 := near_round R (near_mul h2 (near_inv h3 (by omega) hw))
  rw [mul_one_div, mul_one_div] at h4
  exact h4.weaken (roundings_mono (by omega))

theorem advance_loop {lib : Lib} (hl : lib.Accurate) (a : ℝ) {n : Nat} (hn : 0 < n) : ∀ (mu : List ℝ) (i : Nat) (adv x s : ℝ), i + mu.length ≤ 2 ^ 40 → |x| ≤ s →
    |adv - x| ≤ roundings (7 * i + 8) * s →
    |rAdvance R lib a n mu (i + 1) adv - (x + (mu.mapIdx fun k m => m * a ^ (i + k + 1) / (2 * Real.pi * n) ^ (i + k)).sum)| ≤
      roundings (7 * (i + mu.length) + 8) * (s + (mu.mapIdx fun k m => |m * a ^ (i + k + 1) / (2 * Real.pi * n) ^ (i + k)|).sum) := by
  intro mu
  induction mu with
  | nil =>
    intro i adv x s _ _ h
    simpa [rAdvance] using h
  | cons m mu ih =>
    intro i adv x s hlen hx h
    rw [List.length_cons] at hlen
    have ht := term_near R hl a m hn (i := i) (by omega)
    rw [rAdvance, Nat.add_sub_cancel]
    set T := m * a ^ (i + 1) / (2 * Real.pi * n) ^ i with hT
    generalize R.rnd (R.rnd (m * lib.pow a (i + 1)) / lib.pow (rTurn R n) i) = t at *
    unfold Near at ht
    have ht' : |t - T| ≤ roundings (7 * i + 14) * |T| := ht.trans (mul_le_mul_of_nonneg_right (roundings_mono (by omega)) (abs_nonneg _))
    have h' : |adv - x| ≤ roundings (7 * i + 14) * s :=
      h.trans (mul_le_mul_of_nonneg_right (roundings_mono (by omega)) ((abs_nonneg _).trans hx))
    have hs : |(adv + t) - (x + T)| ≤ roundings (7 * i + 14) * (s + |T|) := by
      have := abs_add_le (adv - x) (t - T)
      rw [show adv + t - (x + T) = adv - x + (t - T) by ring]
      linarith
    have hb : |x + T| ≤ s + |T| := (abs_add_le _ _).trans (by linarith)
    have hstep : |R.rnd (adv + t) - (x + T)| ≤ roundings (7 * (i + 1) + 8) * (s + |T|) := by
      have e1 := R.error (adv + t)
      have e2 := abs_sub_abs_le_abs_sub (adv + t) (x + T)
      have tri := abs_sub_le (R.rnd (adv + t)) (adv + t) (x + T)
      have e : roundings (7 * (i + 1) + 8) = roundings (7 * i + 14) + (1 + roundings (7 * i + 14)) * 2 ^ (-53 : ℤ) := by
        rw [show 7 * (i + 1) + 8 = 7 * i + 14 + 1 by omega]
        unfold roundings
        rw [pow_succ]
        ring
      have e3 : |adv + t| ≤ (1 + roundings (7 * i + 14)) * (s + |T|) := by linarith
      have e4 := mul_le_mul_of_nonneg_right e3 (show (0 : ℝ) ≤ 2 ^ (-53 : ℤ) by positivity)
      rw [e]
      linarith
    have key := ih (i + 1) (R.rnd (adv + t)) (x + T) (s + |T|) (by omega) hb hstep
    rw [List.mapIdx_cons, List.mapIdx_cons, List.sum_cons, List.sum_cons, List.length_cons]
    simp only [Nat.add_zero, ← hT]
    have e5 : ∀ k, i + 1 + k = i + (k + 1) := fun k => by omega
    simp only [e5] at key
    rw [← add_assoc x, ← add_assoc s]
    exact key

/-- The angular term, for any phases. -/
theorem angular_close {T : Trig} (hT : T.Accurate) (x y : ℝ) :
    |R.rnd (R.rnd (T.cos x * T.cos y) + R.rnd (T.sin x * T.sin y)) - Real.cos (x - y)| ≤ 12 * 2 ^ (-53 : ℤ) := by
  have c1 : Near (2 ^ (-52 : ℤ)) (T.cos x) (Real.cos x) := (hT x).1
  have c2 : Near (2 ^ (-52 : ℤ)) (T.cos y) (Real.cos y) := (hT y).1
  have s1 : Near (2 ^ (-52 : ℤ)) (T.sin x) (Real.sin x) := (hT x).2
  have s2 : Near (2 ^ (-52 : ℤ)) (T.sin y) (Real.sin y) := (hT y).2
  have nA := ((c1.mul c2).rnd R).weaken (ε' := 51 / 10 * 2 ^ (-53 : ℤ)) (by norm_num)
  have nB := ((s1.mul s2).rnd R).weaken (ε' := 51 / 10 * 2 ^ (-53 : ℤ)) (by norm_num)
  generalize R.rnd (T.cos x * T.cos y) = A at *
  generalize R.rnd (T.sin x * T.sin y) = B at *
  unfold Near at nA nB
  have b1 : |Real.cos x * Real.cos y| ≤ 1 := by
    rw [abs_mul]
    exact mul_le_one₀ (Real.abs_cos_le_one x) (abs_nonneg _) (Real.abs_cos_le_one y)
  have b2 : |Real.sin x * Real.sin y| ≤ 1 := by
    rw [abs_mul]
    exact mul_le_one₀ (Real.abs_sin_le_one x) (abs_nonneg _) (Real.abs_sin_le_one y)
  have h1 : |A + B - Real.cos (x - y)| ≤ 102 / 10 * 2 ^ (-53 : ℤ) := by
    rw [Real.cos_sub, show A + B - (Real.cos x * Real.cos y + Real.sin x * Real.sin y) = (A - Real.cos x * Real.cos y) + (B - Real.sin x * Real.sin y) by ring]
    refine (abs_add_le _ _).trans ?_
    generalize |Real.cos x * Real.cos y| = p at *
    generalize |Real.sin x * Real.sin y| = q at *
    generalize |A - Real.cos x * Real.cos y| = P at *
    generalize |B - Real.sin x * Real.sin y| = Q at *
    norm_num at nA nB ⊢
    linarith
  have h2 := R.error (A + B)
  have h3 := abs_sub_abs_le_abs_sub (A + B) (Real.cos (x - y))
  have h4 := Real.abs_cos_le_one (x - y)
  have tri := abs_sub_le (R.rnd (A + B)) (A + B) (Real.cos (x - y))
  generalize |R.rnd (A + B) - Real.cos (x - y)| = a at *
  generalize |R.rnd (A + B) - (A + B)| = b at *
  generalize |A + B - Real.cos (x - y)| = c at *
  generalize |A + B| = d at *
  generalize |Real.cos (x - y)| = e at *
  norm_num at h1 h2 ⊢
  linarith

/-- **C178.** For all amplitudes up to the computed end of the range, the integrand is bounded by its factor up to rounding, and it is `Z / (2 π n)` times the cosine
of the phase, up to a few roundings and the roundings of the phases: `2 ^ (-50)` of the phase of the linear tune, and seven roundings per coefficient of the phases of the
others. -/
theorem rounded_integrand {lib : Lib} (hl : lib.Accurate) (c : Centroid) (n : Nat) (hn : 0 < n) (a : ℝ) (ha : a ≤ rTurn R n) (hlen : c.mu.length ≤ 2 ^ 40) :
    |c.rIntegrand R lib n a| ≤ |c.Z| / (2 * Real.pi * n) * (1 + 2 ^ (-48 : ℤ)) ∧
      |c.rIntegrand R lib n a - c.Z / (2 * Real.pi * n) * Real.cos (2 * Real.pi * n * c.nu0 - advancePhase a (2 * Real.pi * n) c.mu)| ≤
        |c.Z| / (2 * Real.pi * n) * (2 ^ (-48 : ℤ) + 2 ^ (-50 : ℤ) * (2 * Real.pi * n * |c.nu0|) +
          ((1 + 2 ^ (-53 : ℤ)) ^ (7 * c.mu.length + 8) - 1) * advanceSize a (2 * Real.pi * n) c.mu) := by
  have hn' : (0 : ℝ) < n := by exact_mod_cast hn
  have hpi := Real.pi_pos
  have hadv := advance_loop R hl a hn c.mu 0 0 0 0 (by omega) (by simp) (by simp)
  simp only [Nat.zero_add, zero_add] at hadv
  have hslip := phase_near R (two_pi_near R) c.nu0 (n : ℝ)
  unfold Near at hslip
  have ha' : a ≤ R.rnd (R.rnd (2 * R.rnd Real.pi) * ((n : ℤ) : ℝ)) := ha
  unfold Centroid.rIntegrand
  simp only
  rw [if_pos ha', div_one]
  push_cast
  have hang := angular_close R hl.1 (R.rnd (R.rnd (R.rnd (2 * R.rnd Real.pi) * c.nu0) * n)) (rAdvance R lib a n c.mu 1 0)
  generalize rAdvance R lib a n c.mu 1 0 = A at *
  generalize R.rnd (R.rnd (R.rnd (2 * R.rnd Real.pi) * c.nu0) * n) = S at *
  generalize R.rnd (R.rnd (lib.cos S * lib.cos A) + R.rnd (lib.sin S * lib.sin A)) = P at *
  -- the factors
  have n1 : Near (2 ^ (-53 : ℤ)) (R.rnd (c.Z / (2 * n))) (c.Z / (2 * n)) := near_rnd R _
  have n2 : Near (11 / 10 * 2 ^ (-53 : ℤ)) (1 / R.rnd Real.pi) (1 / Real.pi) :=
    ((near_rnd R Real.pi).inv (by norm_num) hpi.ne').weaken (by norm_num)
  have n3 := (((Near.refl P).mul n2).rnd R).weaken (ε' := 22 / 10 * 2 ^ (-53 : ℤ)) (by norm_num)
  rw [mul_one_div, mul_one_div] at n3
  have n4 := ((n1.mul n3).rnd R).weaken (ε' := 44 / 10 * 2 ^ (-53 : ℤ)) (by norm_num)
  have e1 : c.Z / (2 * n) * (P / Real.pi) = c.Z / (2 * Real.pi * n) * P := by field_simp
  rw [e1] at n4
  unfold Near at n4
  generalize R.rnd (R.rnd (c.Z / (2 * n)) * R.rnd (P / R.rnd Real.pi)) = V at *
  have hF : |c.Z / (2 * Real.pi * n)| = |c.Z| / (2 * Real.pi * n) := by rw [abs_div, abs_of_pos (a := 2 * Real.pi * n) (by positivity)]
  have hF0 : 0 ≤ |c.Z| / (2 * Real.pi * n) := by positivity
  rw [abs_mul, hF] at n4
  have hcos := Real.abs_cos_le_one (S - A)
  have hP : |P| ≤ 1 + 12 * 2 ^ (-53 : ℤ) := by
    have := abs_sub_abs_le_abs_sub P (Real.cos (S - A))
    linarith
  -- the phases
  have hph : |Real.cos (S - A) - Real.cos (2 * Real.pi * n * c.nu0 - advancePhase a (2 * Real.pi * n) c.mu)| ≤
      2 ^ (-50 : ℤ) * (2 * Real.pi * n * |c.nu0|) + ((1 + 2 ^ (-53 : ℤ)) ^ (7 * c.mu.length + 8) - 1) * advanceSize a (2 * Real.pi * n) c.mu := by
    refine (Real.abs_cos_sub_cos_le _ _).trans ?_
    rw [show S - A - (2 * Real.pi * n * c.nu0 - advancePhase a (2 * Real.pi * n) c.mu) =
      (S - 2 * Real.pi * c.nu0 * n) - (A - advancePhase a (2 * Real.pi * n) c.mu) by ring]
    refine (abs_sub _ _).trans (add_le_add (hslip.trans ?_) hadv)
    rw [abs_mul, abs_mul, abs_of_pos (a := 2 * Real.pi) (by positivity), abs_of_pos hn', show 2 * Real.pi * |c.nu0| * n = 2 * Real.pi * n * |c.nu0| by ring]
    exact mul_le_mul_of_nonneg_right (by norm_num) (by positivity)
  set F := |c.Z| / (2 * Real.pi * n) with hFdef
  have m1 : 44 / 10 * 2 ^ (-53 : ℤ) * (F * |P|) ≤ F * (5 * 2 ^ (-53 : ℤ)) := by
    have : 44 / 10 * 2 ^ (-53 : ℤ) * |P| ≤ 5 * 2 ^ (-53 : ℤ) := by
      generalize |P| = p at *
      norm_num at hP ⊢
      linarith
    have := mul_le_mul_of_nonneg_left this hF0
    linarith
  have m2 : F * |P| ≤ F * (1 + 12 * 2 ^ (-53 : ℤ)) := mul_le_mul_of_nonneg_left hP hF0
  constructor
  · have t1 := abs_sub_abs_le_abs_sub V (c.Z / (2 * Real.pi * n) * P)
    rw [abs_mul, hF] at t1
    have : F * (1 + 12 * 2 ^ (-53 : ℤ)) + F * (5 * 2 ^ (-53 : ℤ)) ≤ F * (1 + 2 ^ (-48 : ℤ)) := by
      rw [← mul_add]
      exact mul_le_mul_of_nonneg_left (by norm_num) hF0
    exact (sub_le_iff_le_add'.1 t1).trans ((add_le_add m2 (n4.trans m1)).trans this)
  · set Q := Real.cos (2 * Real.pi * n * c.nu0 - advancePhase a (2 * Real.pi * n) c.mu) with hQ
    have t1 := abs_sub_le V (c.Z / (2 * Real.pi * n) * P) (c.Z / (2 * Real.pi * n) * Q)
    have t2 : |c.Z / (2 * Real.pi * n) * P - c.Z / (2 * Real.pi * n) * Q| = F * |P - Q| := by rw [← mul_sub, abs_mul, hF]
    have t3 := abs_sub_le P (Real.cos (S - A)) Q
    have t4 := mul_le_mul_of_nonneg_left (t3.trans (add_le_add hang hph)) hF0
    rw [t2] at t1
    have t5 : F * (12 * 2 ^ (-53 : ℤ)) + F * (5 * 2 ^ (-53 : ℤ)) ≤ F * 2 ^ (-48 : ℤ) := by
      rw [← mul_add]
      exact mul_le_mul_of_nonneg_left (by norm_num) hF0
    rw [mul_add] at t4
    rw [add_assoc, mul_add]
    refine t1.trans ((add_le_add (n4.trans m1) t4).trans ?_)
    rw [← add_assoc]
    exact add_le_add ((le_of_eq (add_comm _ _)).trans t5) le_rfl

/-- Beyond the range the integrand is zero. -/
theorem rounded_integrand_outside (lib : Lib) (c : Centroid) (n : Nat) (a : ℝ) (ha : rTurn R n < a) : c.rIntegrand R lib n a = 0 := by
  have ha' : ¬ a ≤ R.rnd (R.rnd (2 * R.rnd Real.pi) * ((n : ℤ) : ℝ)) := not_le.2 ha
  unfold Centroid.rIntegrand
  simp only
  rw [if_neg ha', mul_zero, R.rnd_zero]

/-! ## Examples -/

/-- Three coefficients, with exact functions. -/
example := rounded_integrand R (lib := ⟨⟨Real.cos, Real.sin⟩, fun x k => x ^ k⟩) ⟨fun x => by simp, fun x k => by simp⟩
  ⟨10, 2, 1 / 3, [1 / 100, -1 / 50, 3]⟩ 7 (by norm_num) 0 (by
    unfold rTurn
    exact R.nonneg (mul_nonneg (R.nonneg (mul_nonneg (by norm_num) (R.nonneg Real.pi_pos.le))) (by norm_num))) (by norm_num)

end Verif.Decoherence
