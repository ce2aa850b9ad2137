import Verif.Bunch.PropsRoundedNonlinear

/-!
# Property C169: energies of the particles of nonlinear bunches in double precision
-/

namespace Verif.Bunch

open Verif.Py Verif.Sample Verif.Kinematic Verif.Nonlinear

variable (R : Rounding)

/-- The kinetic energy in normalised coordinates. -/
theorem kinetic_error {h v c s : ℝ} (hv : v < h) (hcs : |c ^ 2 + s ^ 2 - 1| ≤ 2 ^ (-51 : ℤ)) {pm : ℝ}
    (hpm : pm = R.rnd (Real.sqrt (R.rnd (2 * R.rnd (h - v))))) :
    Near (2 ^ (-49 : ℤ)) (R.rnd (pm * c) ^ 2 + R.rnd (pm * s) ^ 2) (2 * (h - v)) := by
  have r1 : ∀ z : ℝ, Near (1 * 2 ^ (-53 : ℤ)) (R.rnd z) z := fun z => ((Near.refl z).rnd R).weaken (by norm_num)
  have d0 : 0 < h - v := by linarith
  have w1 := (((Near.refl 2).mul (r1 (h - v))).rnd R).weaken (ε' := 2.1 * 2 ^ (-53 : ℤ)) (by norm_num)
  have hW : 0 ≤ R.rnd (2 * R.rnd (h - v)) := R.nonneg (mul_nonneg (by norm_num) (R.nonneg d0.le))
  have w2 := ((r1 (Real.sqrt (R.rnd (2 * R.rnd (h - v))))).mul (r1 (Real.sqrt (R.rnd (2 * R.rnd (h - v)))))).weaken
    (ε' := 2.1 * 2 ^ (-53 : ℤ)) (by norm_num)
  rw [← hpm, Real.mul_self_sqrt hW] at w2
  have w3 := (near_trans w2 w1 (by positivity)).weaken (ε' := 4.3 * 2 ^ (-53 : ℤ)) (by norm_num)
  have t1 : Near (4 * 2 ^ (-53 : ℤ)) (c ^ 2 + s ^ 2) 1 := by
    unfold Near
    refine hcs.trans ?_
    norm_num
  have w4 := (w3.mul t1).weaken (ε' := 8.4 * 2 ^ (-53 : ℤ)) (by norm_num)
  have p1 := ((r1 (pm * c)).mul (r1 (pm * c))).weaken (ε' := 2.1 * 2 ^ (-53 : ℤ)) (by norm_num)
  have p2 := ((r1 (pm * s)).mul (r1 (pm * s))).weaken (ε' := 2.1 * 2 ^ (-53 : ℤ)) (by norm_num)
  have p3 := near_add p1 p2 (mul_self_nonneg _) (mul_self_nonneg _)
  rw [show pm * c * (pm * c) + pm * s * (pm * s) = pm * pm * (c ^ 2 + s ^ 2) by ring] at p3
  have p4 := (near_trans p3 w4 (by positivity)).weaken (ε' := 2 ^ (-49 : ℤ)) (by norm_num)
  rwa [mul_one, ← sq, ← sq] at p4

/-- **C169, energy.** For alphas up to `2 ^ 40` without quiet start, and for alphas zero with it: the sum of the two invariants of a particle is twice the quadratic
part of the potential at its normalised position and twice what is left of its energy there, up to `2 ^ -45 (1 + |alpha|)`. -/
theorem nonlinear_shell {T : Trig} {F : Arc} {log : ℝ → ℝ} {newton : Newton} {draws : List ℝ} {b b' : NBunch} {E : ℝ → Prop}
    (hT : ∀ t, |T.cos t ^ 2 + T.sin t ^ 2 - 1| ≤ 2 ^ (-51 : ℤ)) (hβ : 0 < b.betax) {A : ℝ} (hx : |b.alphax| ≤ A) (hy : |b.alphay| ≤ A)
    (hA : A ≤ 2 ^ 40) (hq : b.quiet = false ∨ (b.alphax = 0 ∧ b.alphay = 0))
    (h : Fills R T F log newton draws b b' E) :
    ∀ p ∈ b'.particles, ∃ x y v h, E h ∧ rPotential R F b.t b.c x y = .ok (.num v) ∧ v < h ∧
      |p 0| = |R.rnd (x * R.rnd (Real.sqrt b.betax))| ∧ |p 2| = |R.rnd (y * R.rnd (Real.sqrt b.betax))| ∧
      |cs b.betax b.alphax (p 0) (p 1) + cs b.betax b.alphay (p 2) (p 3) - (x ^ 2 + y ^ 2 + 2 * (h - v))| ≤
        2 ^ (-45 : ℤ) * (1 + A) * (x ^ 2 + y ^ 2 + 2 * (h - v)) := by
  obtain ⟨l, ⟨qs, h1, _, h2⟩, ha⟩ := fills_made R h
  intro p hp
  have hpl := assign_mem ha p hp
  rw [h1, List.mem_flatMap] at hpl
  obtain ⟨q, hq', hpq⟩ := hpl
  obtain ⟨f, z, m, hm, a, ha', c, hc', r, _, H, v, hH, hv, hlt, hqe⟩ := h2 q hq'
  have hv' : rPotential R F b.t b.c (rTrialCoord R a b.c) (rTrialCoord R c m) = .ok (.num v) := by
    unfold rPot at hv
    split at hv
    · cases hv
    · next w hw => simp only [Except.ok.injEq, Option.some.injEq] at hv; rw [← hv]; exact hw
    · cases hv
  have hcase : |p 0| = |q 0| ∧ |p 2| = |q 2| ∧ cs b.betax b.alphax (p 0) (p 1) = cs b.betax b.alphax (q 0) (q 1) ∧
      cs b.betax b.alphay (p 2) (p 3) = cs b.betax b.alphay (q 2) (q 3) := by
    have t : p 0 = trans p 0 ∧ p 1 = trans p 1 ∧ p 2 = trans p 2 ∧ p 3 = trans p 3 := ⟨rfl, rfl, rfl, rfl⟩
    rw [t.1, t.2.1, t.2.2.1, t.2.2.2]
    cases hqu : b.quiet with
    | false =>
      rw [hqu] at hpq
      simp only [group, List.mem_cons, Bool.false_eq_true, if_false, List.not_mem_nil, or_false] at hpq
      rw [hpq]
      exact ⟨rfl, rfl, rfl, rfl⟩
    | true =>
      rw [hqu] at hpq
      obtain ⟨h0, h0'⟩ := hq.resolve_left (by rw [hqu]; simp)
      rw [h0, h0']
      simp only [group, mirrors, List.mem_cons, if_true, List.not_mem_nil, or_false] at hpq
      rcases hpq with e | e | e | e <;> rw [e] <;> simp [cs]
  refine ⟨rTrialCoord R a b.c, rTrialCoord R c m, v, H, hH, hv', hlt, by rw [hcase.1, hqe]; rfl, by rw [hcase.2.1, hqe]; rfl, ?_⟩
  rw [hcase.2.2.1, hcase.2.2.2, hqe]
  generalize rTrialCoord R a b.c = x at *
  generalize rTrialCoord R c m = y at *
  have hK := kinetic_error R hlt (hT (R.rnd (R.rnd (2 * R.rnd Real.pi) * r))) rfl
  have kx := plane_error R (X := x) (p := R.rnd (R.rnd (Real.sqrt (R.rnd (2 * R.rnd (H - v)))) * T.cos (R.rnd (R.rnd (2 * R.rnd Real.pi) * r)))) hβ hx hA
  have ky := plane_error R (X := y) (p := R.rnd (R.rnd (Real.sqrt (R.rnd (2 * R.rnd (H - v)))) * T.sin (R.rnd (R.rnd (2 * R.rnd Real.pi) * r)))) hβ hy hA
  unfold Near at hK
  rw [abs_of_pos (a := 2 * (H - v)) (by linarith)] at hK
  change |cs b.betax b.alphax (R.rnd (x * R.rnd (Real.sqrt b.betax))) (R.rnd (R.rnd (R.rnd (R.rnd (Real.sqrt (R.rnd (2 * R.rnd (H - v)))) *
      T.cos (R.rnd (R.rnd (2 * R.rnd Real.pi) * r))) - R.rnd (b.alphax * x)) / R.rnd (Real.sqrt b.betax))) +
    cs b.betax b.alphay (R.rnd (y * R.rnd (Real.sqrt b.betax))) (R.rnd (R.rnd (R.rnd (R.rnd (Real.sqrt (R.rnd (2 * R.rnd (H - v)))) *
      T.sin (R.rnd (R.rnd (2 * R.rnd Real.pi) * r))) - R.rnd (b.alphay * y)) / R.rnd (Real.sqrt b.betax))) - _| ≤ _
  generalize R.rnd (R.rnd (Real.sqrt (R.rnd (2 * R.rnd (H - v)))) * T.cos (R.rnd (R.rnd (2 * R.rnd Real.pi) * r))) = P at *
  generalize R.rnd (R.rnd (Real.sqrt (R.rnd (2 * R.rnd (H - v)))) * T.sin (R.rnd (R.rnd (2 * R.rnd Real.pi) * r))) = Q at *
  generalize cs b.betax b.alphax _ _ = cx at *
  generalize cs b.betax b.alphay _ _ = cy at *
  have hA0 : 0 ≤ A := (abs_nonneg _).trans hx
  have hd : 0 < 2 * (H - v) := by linarith
  have hx2 := sq_nonneg x
  have hy2 := sq_nonneg y
  generalize x ^ 2 = X at *
  generalize y ^ 2 = Y at *
  generalize 2 * (H - v) = D at *
  have hB : (1 : ℝ) ≤ 1 + A := by linarith
  generalize 1 + A = B at *
  rw [abs_le] at kx ky hK ⊢
  have s : P ^ 2 + Q ^ 2 ≤ 2 * D := by
    have := hK.2
    norm_num at this
    linarith
  have m1 : B * (X + P ^ 2) + B * (Y + Q ^ 2) ≤ 2 * (B * (X + Y + D)) := by
    have : B * (X + P ^ 2 + (Y + Q ^ 2)) ≤ B * (2 * (X + Y + D)) := mul_le_mul_of_nonneg_left (by linarith) (by linarith)
    linarith
  have m2 : D ≤ B * (X + Y + D) := by
    have : 1 * (X + Y + D) ≤ B * (X + Y + D) := mul_le_mul_of_nonneg_right hB (by linarith)
    linarith
  simp only [mul_assoc] at kx ky ⊢
  generalize B * (X + P ^ 2) = g1 at *
  generalize B * (Y + Q ^ 2) = g2 at *
  generalize B * (X + Y + D) = g3 at *
  norm_num at kx ky hK ⊢
  constructor <;> linarith [kx.1, kx.2, ky.1, ky.2, hK.1, hK.2]

/-- One particle of a waterbag distribution from four drawn numbers. -/
example : ∃ (T : Trig) (F : Arc) (log : ℝ → ℝ) (newton : Newton) (draws : List ℝ) (b b' : NBunch) (E : ℝ → Prop),
    (∀ t, |T.cos t ^ 2 + T.sin t ^ 2 - 1| ≤ 2 ^ (-51 : ℤ)) ∧ 0 < b.betax ∧ |b.alphax| ≤ 1 ∧ |b.alphay| ≤ 1 ∧ b.quiet = false ∧
    b'.particles.length = 1 ∧ Fills R T F log newton draws b b' E := by
  have hp : rPot R ⟨fun _ => 0, fun _ => 0⟩ 0 1 (rTrialCoord R (1 / 2) 1) (rTrialCoord R (1 / 2) 2) = .ok (some 0) := by
    simp [rPot, rPotential, rTrialCoord]
  have h4 : R.rnd (4 * R.rnd (Real.sqrt 1)) = 4 := by
    rw [Real.sqrt_one, R.rnd_one, mul_one]
    exact R.fixed (by exact_mod_cast isFloat_int (n := 4) (by norm_num))
  have hc : ¬((3 : ℝ) ≤ 0 ∨ (3 : ℝ) ≤ 0) := by norm_num
  have hc' : ¬((4 : ℝ) < 0 ∨ (10 : ℝ) ^ 10 < 4) := by norm_num
  have h1 : ¬((1 : ℝ) ≤ 0) := by norm_num
  have h2 : ¬((4 : ℝ) ≤ 0) := by norm_num
  have key : ∃ b' : NBunch, rNDistributeWaterbag R ⟨Real.cos, Real.sin⟩ ⟨fun _ => 0, fun _ => 0⟩ (fun _ _ => .ok 2) [1, 1 / 2, 1 / 2, 1 / 4]
      ⟨⟨1, "waterbag", 1, 1, 4, 3, 1, 3, -1, 0, 0, 0, 0, false, List.replicate 1 0⟩, 0, 1, 4⟩ = (b', none) ∧ b'.particles.length = 1 := by
    simp only [rNDistributeWaterbag, NBunch.lift, Bunch.shape, Bunch.readBetax, Bunch.readBetay, if_neg hc, List.length_cons,
      List.length_nil, rWaterbagLoop, firstPositive, if_neg h1, rOneParticle, h4, if_neg hc', rFindPosition, hp, if_neg h2, Bunch.finish, assign]
    exact ⟨_, rfl, rfl⟩
  obtain ⟨b', hb, hl⟩ := key
  refine ⟨⟨Real.cos, Real.sin⟩, _, fun _ => 0, _, _, _, b', _, fun t => ?_, ?_, ?_, ?_, ?_, hl, .waterbag hb⟩
  · simp only [Real.cos_sq_add_sin_sq, sub_self, abs_zero]
    positivity
  · norm_num
  · norm_num
  · norm_num
  · rfl

end Verif.Bunch
