import Verif.Ptcls.Current
import Verif.Ptcls.PropsClean

/-!
# Properties C116 and C117: peak current, range of the coordinates
-/

namespace Verif.Ptcls

open Verif.Stats6d

/-- **C47, exact loss.** After the first particle was overwritten by the average, the variance of a coordinate is smaller by the square of the deviation
of the first particle times `(1 + 1/n) / n`. -/
theorem variance_after (p0 : Vec) (rest : Arr) (i : Fin 6) :
    variance (mean (p0 :: rest) :: rest) i =
      variance (p0 :: rest) i - (p0 i - mean (p0 :: rest) i) ^ 2 * (1 / ((rest.length : ℝ) + 1) + 1 / ((rest.length : ℝ) + 1) ^ 2) := by
  have hl : (rest.length : ℝ) + 1 ≠ 0 := by positivity
  unfold variance
  rw [cov_eq _ (by simp), cov_eq _ (by simp)]
  unfold mean
  simp only [List.map_cons, List.sum_cons, List.length_cons]
  push_cast
  field_simp
  ring

/-- The velocity of the design particle over the speed of light. -/
theorem beta0_eq (p m : ℝ) (hm : 0 < m) : beta0 p m = .ok (p / Real.sqrt (p ^ 2 + m ^ 2)) := by
  obtain ⟨g, b, hg, hb, hg1, _, hbg, _⟩ := relativistic p m hm
  rw [hb]
  have hg2 : g = Real.sqrt ((p / m) ^ 2 + 1) := by
    unfold gamma0 beta0gamma0 at hg
    rw [if_neg hm.ne'] at hg
    simp only [bind, Except.bind] at hg
    rw [msqrt_ok (by positivity)] at hg
    injection hg with hg
    exact hg.symm
  have h1 : Real.sqrt (p ^ 2 + m ^ 2) = m * g := by
    rw [hg2, show p ^ 2 + m ^ 2 = m ^ 2 * ((p / m) ^ 2 + 1) by field_simp, Real.sqrt_mul (by positivity), Real.sqrt_sq hm.le]
  have hg0 : g ≠ 0 := by linarith
  rw [h1]
  congr 1
  rw [eq_div_iff (mul_ne_zero hm.ne' hg0)]
  have : b * g * m = p := by rw [hbg]; field_simp
  linarith

/-- **C116, value.** The peak current is the charge times the velocity of the design particle over the rms length of the bunch. -/
theorem peak_current (a : Arr) (ha : a ≠ []) (p m q : ℝ) (hm : 0 < m) (hv : 0 < variance a 4) :
    (peakCurrent a p m q).1 = .ok (q * (299792458 * p / Real.sqrt (p ^ 2 + m ^ 2)) / Real.sqrt (variance a 4)) := by
  obtain ⟨_, var, arr, h, hvar⟩ := variance_correct a ha
  have hr : calcRms a = .ok (fun i => Real.sqrt (var i), arr) := by
    unfold calcRms
    rw [h]
    rfl
  have hs : Real.sqrt (variance a 4) ≠ 0 := (Real.sqrt_pos.2 hv).ne'
  unfold peakCurrent
  rw [hr, beta0_eq p m hm]
  simp only
  rw [hvar, if_neg hs]
  simp only [lightSpeed]
  congr 1
  rw [div_div_eq_mul_div]
  ring

theorem peakCurrent_arr (p0 : Vec) (rest : Arr) (p m q : ℝ) : (peakCurrent (p0 :: rest) p m q).2 = mean (p0 :: rest) :: rest := by
  obtain ⟨var, h⟩ := variance_overwrites p0 rest
  have hr : calcRms (p0 :: rest) = .ok (fun i => Real.sqrt (var i), mean (p0 :: rest) :: rest) := by
    unfold calcRms
    rw [h]
    rfl
  unfold peakCurrent
  rw [hr]
  cases beta0 p m with
  | error e => rfl
  | ok b => simp only; split_ifs <;> rfl

/-- **C116, asked twice.** The second answer is the same if the first particle is at the average of the coordinate `s`. -/
theorem peak_current_twice_partial (p0 : Vec) (rest : Arr) (p m q : ℝ) (hm : 0 < m) (hv : 0 < variance (p0 :: rest) 4) (h0 : p0 4 = mean (p0 :: rest) 4) :
    (peakCurrent (peakCurrent (p0 :: rest) p m q).2 p m q).1 = (peakCurrent (p0 :: rest) p m q).1 := by
  have hva := variance_after p0 rest 4
  rw [h0, sub_self] at hva
  have hve : variance (mean (p0 :: rest) :: rest) 4 = variance (p0 :: rest) 4 := by rw [hva]; ring
  rw [peakCurrent_arr, peak_current _ (by simp) p m q hm (by rw [hve]; exact hv), peak_current _ (by simp) p m q hm hv, hve]

/-- **C116 is false for the second call.** If the first particle is not at the average of `s`, the second answer is larger, for every bunch that moves forward
and has still a length. -/
theorem peak_current_twice_fails (p0 : Vec) (rest : Arr) (p m q : ℝ) (hm : 0 < m) (hp : 0 < p) (hq : 0 < q) (h0 : p0 4 ≠ mean (p0 :: rest) 4)
    (hv : 0 < variance (mean (p0 :: rest) :: rest) 4) :
    ∃ i1 i2, (peakCurrent (p0 :: rest) p m q).1 = .ok i1 ∧ (peakCurrent (peakCurrent (p0 :: rest) p m q).2 p m q).1 = .ok i2 ∧ i1 < i2 := by
  have hva := variance_after p0 rest 4
  have hd : 0 < (p0 4 - mean (p0 :: rest) 4) ^ 2 := by
    have : p0 4 - mean (p0 :: rest) 4 ≠ 0 := sub_ne_zero.2 h0
    positivity
  have hf : 0 < 1 / ((rest.length : ℝ) + 1) + 1 / ((rest.length : ℝ) + 1) ^ 2 := by positivity
  have hlt : variance (mean (p0 :: rest) :: rest) 4 < variance (p0 :: rest) 4 := by
    have := mul_pos hd hf
    linarith
  refine ⟨_, _, peak_current _ (by simp) p m q hm (lt_trans hv hlt), (congrArg (fun a => (peakCurrent a p m q).1) (peakCurrent_arr p0 rest p m q)).trans (peak_current _ (by simp) p m q hm hv), ?_⟩
  · apply div_lt_div_of_pos_left
    · positivity
    · exact Real.sqrt_pos.2 hv
    · exact Real.sqrt_lt_sqrt hv.le hlt

/-- **C116, refusals.** Without particles IndexError is raised, with mass zero ZeroDivisionError. -/
theorem peak_current_refuses (p m q : ℝ) : (peakCurrent [] p m q).1 = .error .indexError ∧
    ∀ a : Arr, a ≠ [] → (peakCurrent a p 0 q).1 = .error .zeroDivisionError := by
  refine ⟨rfl, fun a ha => ?_⟩
  obtain ⟨_, var, arr, h, _⟩ := variance_correct a ha
  have hr : calcRms a = .ok (fun i => Real.sqrt (var i), arr) := by
    unfold calcRms
    rw [h]
    rfl
  have hb : beta0 p 0 = .error .zeroDivisionError := by
    unfold beta0 beta0gamma0
    rw [if_pos rfl]
    rfl
  unfold peakCurrent
  rw [hr, hb]

theorem foldl_min_spec (l : Arr) (i : Fin 6) : ∀ x : ℝ, let r := l.foldl (fun m q => min m (q i)) x
    r ≤ x ∧ (∀ q ∈ l, r ≤ q i) ∧ (r = x ∨ ∃ q ∈ l, r = q i) := by
  induction l with
  | nil => intro x; simp
  | cons q l ih =>
    intro x
    obtain ⟨h1, h2, h3⟩ := ih (min x (q i))
    simp only [List.foldl_cons]
    refine ⟨le_trans h1 (min_le_left _ _), ?_, ?_⟩
    · intro z hz
      rcases List.mem_cons.1 hz with rfl | hz
      · exact le_trans h1 (min_le_right _ _)
      · exact h2 z hz
    · rcases h3 with h3 | ⟨z, hz, h3⟩
      · rcases min_choice x (q i) with hm | hm
        · exact .inl (h3.trans hm)
        · exact .inr ⟨q, by simp, h3.trans hm⟩
      · exact .inr ⟨z, by simp [hz], h3⟩

theorem foldl_max_spec (l : Arr) (i : Fin 6) : ∀ x : ℝ, let r := l.foldl (fun m q => max m (q i)) x
    x ≤ r ∧ (∀ q ∈ l, q i ≤ r) ∧ (r = x ∨ ∃ q ∈ l, r = q i) := by
  induction l with
  | nil => intro x; simp
  | cons q l ih =>
    intro x
    obtain ⟨h1, h2, h3⟩ := ih (max x (q i))
    simp only [List.foldl_cons]
    refine ⟨le_trans (le_max_left _ _) h1, ?_, ?_⟩
    · intro z hz
      rcases List.mem_cons.1 hz with rfl | hz
      · exact le_trans (le_max_right _ _) h1
      · exact h2 z hz
    · rcases h3 with h3 | ⟨z, hz, h3⟩
      · rcases max_choice x (q i) with hm | hm
        · exact .inl (h3.trans hm)
        · exact .inr ⟨q, by simp, h3.trans hm⟩
      · exact .inr ⟨z, by simp [hz], h3⟩

/-- **C117.** Minimum and maximum of every coordinate bound all particles and are taken by some; the average lies between. Without particles
ValueError is raised. -/
theorem coordinate_range (a : Arr) (ha : a ≠ []) : ∃ lo hi, calcMin a = .ok lo ∧ calcMax a = .ok hi ∧
    ∀ i, (∀ q ∈ a, lo i ≤ q i ∧ q i ≤ hi i) ∧ (∃ q ∈ a, lo i = q i) ∧ (∃ q ∈ a, hi i = q i) ∧ lo i ≤ calcAverages a i ∧ calcAverages a i ≤ hi i := by
  cases a with
  | nil => exact absurd rfl ha
  | cons p l =>
    refine ⟨_, _, rfl, rfl, fun i => ?_⟩
    obtain ⟨h1, h2, h3⟩ := foldl_min_spec l i (p i)
    obtain ⟨g1, g2, g3⟩ := foldl_max_spec l i (p i)
    set lo := l.foldl (fun m q => min m (q i)) (p i)
    set hi := l.foldl (fun m q => max m (q i)) (p i)
    have hall : ∀ q ∈ p :: l, lo ≤ q i ∧ q i ≤ hi := by
      intro q hq
      rcases List.mem_cons.1 hq with rfl | hq
      · exact ⟨h1, g1⟩
      · exact ⟨h2 q hq, g2 q hq⟩
    have hsum : ∀ l : Arr, (∀ q ∈ l, lo ≤ q i ∧ q i ≤ hi) → l.length * lo ≤ (l.map fun q => q i).sum ∧ (l.map fun q => q i).sum ≤ l.length * hi := by
      intro l
      induction l with
      | nil => intro _; simp
      | cons q l ih =>
        intro hl
        obtain ⟨a1, a2⟩ := ih fun z hz => hl z (by simp [hz])
        obtain ⟨b1, b2⟩ := hl q (by simp)
        simp only [List.map_cons, List.sum_cons, List.length_cons]
        push_cast
        constructor <;> linarith
    obtain ⟨s1, s2⟩ := hsum _ hall
    have hl : (0 : ℝ) < (p :: l).length := by simp only [List.length_cons]; positivity
    refine ⟨hall, ?_, ?_, ?_, ?_⟩
    · rcases h3 with h3 | ⟨q, hq, h3⟩
      · exact ⟨p, by simp, h3⟩
      · exact ⟨q, by simp [hq], h3⟩
    · rcases g3 with g3 | ⟨q, hq, g3⟩
      · exact ⟨p, by simp, g3⟩
      · exact ⟨q, by simp [hq], g3⟩
    · unfold calcAverages calcAvg
      rw [le_div_iff₀ hl]
      linarith
    · unfold calcAverages calcAvg
      rw [div_le_iff₀ hl]
      linarith

/-- **C117, refusal.** Without particles there is no range. -/
theorem range_refuses : calcMin [] = .error .valueError ∧ calcMax [] = .error .valueError := ⟨rfl, rfl⟩

/-! The theorems at concrete values. -/

/-- Three particles with all coordinates 0, 3 and 6. -/
def threeParticles : Arr := [fun _ => 0, fun _ => 3, fun _ => 6]

example : variance (mean threeParticles :: [fun _ => 3, fun _ => 6]) 4 = 6 - 9 * (1 / 3 + 1 / 9) := by
  have h := variance_after (fun _ => 0) [fun _ => 3, fun _ => 6] 4
  have e : threeParticles = (fun _ => 0) :: [fun _ => 3, fun _ => 6] := rfl
  rw [e, h]
  norm_num [variance, cov, mean]

example : (peakCurrent threeParticles 3 4 5).1 = .ok (5 * (299792458 * 3 / 5) / Real.sqrt 6) := by
  have hv : variance threeParticles 4 = 6 := by norm_num [variance, cov, mean, threeParticles]
  have h := peak_current threeParticles (by simp [threeParticles]) 3 4 5 (by norm_num) (by rw [hv]; norm_num)
  rw [h, hv]
  have : Real.sqrt (3 ^ 2 + 4 ^ 2) = 5 := by rw [show (3 : ℝ) ^ 2 + 4 ^ 2 = 5 ^ 2 by norm_num, Real.sqrt_sq (by norm_num)]
  rw [this]

example : ∃ i1 i2, (peakCurrent threeParticles 3 4 5).1 = .ok i1 ∧ (peakCurrent (peakCurrent threeParticles 3 4 5).2 3 4 5).1 = .ok i2 ∧ i1 < i2 :=
  peak_current_twice_fails (fun _ => 0) [fun _ => 3, fun _ => 6] 3 4 5 (by norm_num) (by norm_num) (by norm_num) (by norm_num [mean])
    (by norm_num [variance, cov, mean])

example : (peakCurrent (peakCurrent [fun _ => 3, fun _ => 0, fun _ => 6] 3 4 5).2 3 4 5).1 = (peakCurrent [fun _ => 3, fun _ => 0, fun _ => 6] 3 4 5).1 :=
  peak_current_twice_partial (fun _ => 3) [fun _ => 0, fun _ => 6] 3 4 5 (by norm_num) (by norm_num [variance, cov, mean]) (by norm_num [mean])

example : ∃ lo hi, calcMin threeParticles = .ok lo ∧ calcMax threeParticles = .ok hi ∧ lo 2 ≤ 3 ∧ 3 ≤ hi 5 := by
  obtain ⟨lo, hi, h1, h2, h⟩ := coordinate_range threeParticles (by simp [threeParticles])
  have := (h 2).1 (fun _ => 3) (by simp [threeParticles])
  have h5 := (h 5).1 (fun _ => 3) (by simp [threeParticles])
  exact ⟨lo, hi, h1, h2, this.1, h5.2⟩

end Verif.Ptcls
