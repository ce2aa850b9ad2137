import Verif.Bunch.PropsAperture
import Verif.Bunch.PropsGaussian

/-!
C90 for different beta functions, and C89 exactly.
-/

namespace Verif.Bunch

/-- The part of the energy that belongs to one plane. -/
theorem plane_energy {β : ℝ} (hβ : 0 < β) (α y q : ℝ) :
    (Real.sqrt β * q + α * y / Real.sqrt β) ^ 2 = β * q ^ 2 + 2 * α * y * q + α ^ 2 * y ^ 2 / β := by
  have h := Real.sq_sqrt hβ.le
  have hs : Real.sqrt β ≠ 0 := (Real.sqrt_pos.2 hβ).ne'
  have e : (Real.sqrt β * q + α * y / Real.sqrt β) ^ 2 =
      Real.sqrt β ^ 2 * q ^ 2 + 2 * α * y * q + α ^ 2 * y ^ 2 / Real.sqrt β ^ 2 := by
    field_simp
    ring
  rw [e, h]

theorem div_sqrt_sq {β : ℝ} (hβ : 0 < β) (y : ℝ) : (y / Real.sqrt β) ^ 2 = y ^ 2 / β := by
  rw [div_pow, Real.sq_sqrt hβ.le]

/-- **C90 is false for different beta functions.** The particles of a KV bunch were placed with the horizontal beta function in both planes. Without
nonlinear strength, a particle has the energy `emitx` with the beta functions of the bunch if and only if they are equal or its
vertical coordinates satisfy one equation; for any strength, a particle on the horizontal axis has it if and only if they are equal or its vertical
momentum is zero. -/
theorem nonlinear_planes_fails {newton} {draws : List ℝ} {b b' : NBunch} (hc : 0 < b.c) (hp : b.particles.length = b.npart)
    (hq : b.quiet = true → b.alphax = 0 ∧ b.alphay = 0) (hx : 0 < b.betax) (hy : 0 < b.betay)
    (h : b.distributeKV newton draws = (b', none)) : ∀ p ∈ b'.particles,
    (b.t = 0 → (energy b.t b.c b.betax b.betay b.alphax b.alphay (p 0) (p 1) (p 2) (p 3) = b.emitx ↔
      b.betay = b.betax ∨ b.betax * b.betay * p 3 ^ 2 = (1 + b.alphay ^ 2) * p 2 ^ 2)) ∧
    (p 2 = 0 → (energy b.t b.c b.betax b.betay b.alphax b.alphay (p 0) (p 1) (p 2) (p 3) = b.emitx ↔
      b.betay = b.betax ∨ p 3 = 0)) := by
  intro p hpm
  have hu := (nonlinear_used (newton := newton) (draws := draws) (b' := b') hc hp hq).1 h p hpm
  constructor
  · intro ht
    rw [← hu, ht]
    unfold energy ellU
    simp only [zero_mul, sub_zero]
    rw [plane_energy hx, plane_energy hy, plane_energy hx, div_sqrt_sq hx, div_sqrt_sq hy, div_sqrt_sq hx]
    have key : ∀ A B y q α : ℝ, (A + y ^ 2 / b.betay) / 2 + 1 / 2 * (B + (b.betay * q ^ 2 + 2 * α * y * q + α ^ 2 * y ^ 2 / b.betay)) -
        ((A + y ^ 2 / b.betax) / 2 + 1 / 2 * (B + (b.betax * q ^ 2 + 2 * α * y * q + α ^ 2 * y ^ 2 / b.betax))) =
        (b.betay - b.betax) * (b.betax * b.betay * q ^ 2 - (1 + α ^ 2) * y ^ 2) / (2 * b.betax * b.betay) := by
      intro A B y q α
      field_simp
      ring
    rw [← sub_eq_zero, key, div_eq_zero_iff, mul_eq_zero, sub_eq_zero, sub_eq_zero]
    have : 2 * b.betax * b.betay ≠ 0 := by positivity
    tauto
  · intro h0
    rw [← hu, h0]
    unfold energy
    rw [plane_energy hx, plane_energy hy, plane_energy hx, zero_div, zero_div, ← sub_eq_zero]
    have key : ∀ A B q α : ℝ, A + 1 / 2 * (B + (b.betay * q ^ 2 + 2 * α * 0 * q + α ^ 2 * 0 ^ 2 / b.betay)) -
        (A + 1 / 2 * (B + (b.betax * q ^ 2 + 2 * α * 0 * q + α ^ 2 * 0 ^ 2 / b.betax))) = (b.betay - b.betax) * q ^ 2 / 2 := by
      intro A B q α
      ring
    rw [key, div_eq_zero_iff, mul_eq_zero, sub_eq_zero, pow_eq_zero_iff (two_ne_zero)]
    have : ¬ (2 : ℝ) = 0 := two_ne_zero
    tauto

/-- **C89, exactly.** With ideal numbers the moments of a bunch are the ones of its Twiss functions if and only if in each plane the emittance or alpha is zero. -/
theorem gaussian_matched_iff {gx gxp gy gyp} {b b' : Bunch} (hp : b.particles.length = b.npart) (h : b.distributeGaussian gx gxp gy gyp = (b', none))
    (hx : drawMoment gx gx = 1) (hxp : drawMoment gxp gxp = 1) (hc : drawMoment gx gxp = 0)
    (hy : drawMoment gy gy = 1) (hyp : drawMoment gyp gyp = 1) (hc' : drawMoment gy gyp = 0) :
    (moment b'.particles 0 0 = b.emitx * b.betax ∧ moment b'.particles 1 1 = b.emitx * b.gammax ∧
      moment b'.particles 0 1 = -(b.emitx * b.alphax) ∧ moment b'.particles 2 2 = b.emity * b.betay ∧
      moment b'.particles 3 3 = b.emity * b.gammay ∧ moment b'.particles 2 3 = -(b.emity * b.alphay)) ↔
    (b.emitx = 0 ∨ b.alphax = 0) ∧ (b.emity = 0 ∨ b.alphay = 0) := by
  obtain ⟨h1, h2, h3, h4, h5, h6, _, _⟩ := gaussian_partial hp h hx hxp hc hy hyp hc'
  rw [h1, h2, h3, h4, h5, h6]
  simp only [true_and, zero_eq_neg, mul_eq_zero]

/-- A bunch with different beta functions. -/
noncomputable def planes : NBunch := { nwitness 4 with betay := 5 }

theorem planes_kv : planes.distributeKV (fun _ _ => .ok 2) [1 / 2, 1 / 4, 0] =
    ((planes.distributeKV (fun _ _ => .ok 2) [1 / 2, 1 / 4, 0]).1, none) := by
  refine Prod.ext rfl ?_
  unfold NBunch.distributeKV NBunch.lift
  simp only
  rw [if_neg (by simp [planes, nwitness])]
  have hr : kvRun (fun _ _ => .ok 2) (potential planes.t planes.c) (some planes.c) [1 / 2, 1 / 4, 0]
      { planes.toBunch with emit := planes.emitx } = .ok [place planes.shape 4 (1 / 2) 0 1 0] := by
    unfold kvRun
    rw [if_neg (by norm_num [planes, nwitness, Bunch.shape, Bunch.readBetax, Bunch.readBetay])]
    simp only [planes, nwitness, Option.getD_some, List.length_cons, List.length_nil]
    rw [kvLoop.eq_def]
    simp only [potential_zero, trial_half, trial_quarter, quadratic_one]
    rw [if_pos (by norm_num)]
    rw [kvLoop.eq_def]
    rfl
  rw [hr]
  rfl

example : ∀ p ∈ (planes.distributeKV (fun _ _ => .ok 2) [1 / 2, 1 / 4, 0]).1.particles,
    energy 0 2 3 5 1 2 (p 0) (p 1) (p 2) (p 3) = 4 ↔ (5 : ℝ) = 3 ∨ (3 : ℝ) * 5 * p 3 ^ 2 = (1 + 2 ^ 2) * p 2 ^ 2 :=
  fun p hp => (nonlinear_planes_fails (b := planes) (by norm_num [planes, nwitness]) rfl (by simp [planes, nwitness]) (by norm_num [planes, nwitness])
    (by norm_num [planes]) planes_kv p hp).1 rfl

example : ∃ b', (witness 4 false 3 2 5).distributeGaussian [1, 1, -1, -1] [1, -1, 1, -1] [1, 1, -1, -1] [1, -1, 1, -1] = (b', none) ∧
    ¬ (moment b'.particles 0 0 = 1 * 3 ∧ moment b'.particles 1 1 = 1 * (witness 4 false 3 2 5).gammax ∧
      moment b'.particles 0 1 = -(1 * 5) ∧ moment b'.particles 2 2 = 1 * 2 ∧
      moment b'.particles 3 3 = 1 * (witness 4 false 3 2 5).gammay ∧ moment b'.particles 2 3 = -(1 * (witness 4 false 3 2 5).alphay)) := by
  have h : ∃ b', (witness 4 false 3 2 5).distributeGaussian [1, 1, -1, -1] [1, -1, 1, -1] [1, 1, -1, -1] [1, -1, 1, -1] = (b', none) := by
    unfold Bunch.distributeGaussian
    rw [if_neg (by norm_num [witness])]
    exact ⟨_, rfl⟩
  obtain ⟨b', hb⟩ := h
  refine ⟨b', hb, fun hm => ?_⟩
  have := ((gaussian_matched_iff (by simp [witness]) hb (by norm_num [drawMoment]) (by norm_num [drawMoment]) (by norm_num [drawMoment])
    (by norm_num [drawMoment]) (by norm_num [drawMoment]) (by norm_num [drawMoment])).1 hm).1
  norm_num [witness] at this

end Verif.Bunch
