import Verif.Ptcls.RoundedDistrib
import Verif.Ptcls.PropsClean

/-!
# Property C167: uniform and Gaussian distributions in double precision
-/

namespace Verif.Ptcls

open Verif.Py Verif.Stats6d

variable (R : Rounding)

/-- What `numpy.random.uniform(0.0, 1.0, 1)` can give: multiples of `2 ^ -53` from `0` to below `1`. -/
def Unif53 (a : ℝ) : Prop := ∃ k : ℕ, k < 2 ^ 53 ∧ a = k * (2 : ℝ) ^ (-53 : ℤ)

theorem rCoord_eq {a : ℝ} (h : Unif53 a) : rCoord R a = 2 * a - 1 := by
  obtain ⟨k, hk, rfl⟩ := h
  have e1 : (2 : ℝ) * (k * 2 ^ (-53 : ℤ)) = ((k : ℤ) : ℝ) * 2 ^ (-52 : ℤ) := by
    push_cast; norm_num; ring
  have f1 : IsFloat ((2 : ℝ) * (k * 2 ^ (-53 : ℤ))) := ⟨k, -52, by rw [abs_of_nonneg (by positivity)]; exact_mod_cast hk.le, e1⟩
  have f2 : IsFloat ((2 : ℝ) * (k * 2 ^ (-53 : ℤ)) - 1) := by
    refine ⟨(k : ℤ) - 2 ^ 52, -52, ?_, ?_⟩
    · rw [abs_le]; constructor <;> omega
    · rw [e1]; push_cast; norm_num; ring
  rw [rCoord, R.fixed f1, R.fixed f2]

/-- Sums below one are sums of squares below `1 + 2 ^ -51`, and the other way round. -/
theorem testSum_lt {x y z : ℝ} (h : rTestSum R x y z < 1) : x ^ 2 + y ^ 2 + z ^ 2 < 1 + 2 ^ (-51 : ℤ) := by
  unfold rTestSum at h
  have h1 : R.rnd (R.rnd (x * x) + R.rnd (y * y)) + R.rnd (z * z) < 1 := by
    by_contra hc
    exact absurd (R.ge_of_ge isFloat_one (not_lt.1 hc)) (not_le.2 h)
  have ex := abs_le.1 (R.error (x * x))
  have ey := abs_le.1 (R.error (y * y))
  have ez := abs_le.1 (R.error (z * z))
  have px := R.nonneg (mul_self_nonneg x)
  have py := R.nonneg (mul_self_nonneg y)
  have es := abs_le.1 (R.error (R.rnd (x * x) + R.rnd (y * y)))
  rw [abs_of_nonneg (mul_self_nonneg x)] at ex
  rw [abs_of_nonneg (mul_self_nonneg y)] at ey
  rw [abs_of_nonneg (mul_self_nonneg z)] at ez
  rw [abs_of_nonneg (add_nonneg px py)] at es
  have hx := mul_self_nonneg x
  have hy := mul_self_nonneg y
  have hz := mul_self_nonneg z
  generalize R.rnd (R.rnd (x * x) + R.rnd (y * y)) = s at *
  generalize R.rnd (x * x) = X at *
  generalize R.rnd (y * y) = Y at *
  generalize R.rnd (z * z) = Z at *
  rw [pow_two, pow_two, pow_two]
  generalize x * x = p at *
  generalize y * y = q at *
  generalize z * z = r at *
  norm_num at *
  nlinarith

theorem testSum_ge {x y z : ℝ} (h : 1 ≤ rTestSum R x y z) : 1 - 2 ^ (-51 : ℤ) < x ^ 2 + y ^ 2 + z ^ 2 := by
  unfold rTestSum at h
  have px := R.nonneg (mul_self_nonneg x)
  have py := R.nonneg (mul_self_nonneg y)
  have pz := R.nonneg (mul_self_nonneg z)
  have ex := abs_le.1 (R.error (x * x))
  have ey := abs_le.1 (R.error (y * y))
  have ez := abs_le.1 (R.error (z * z))
  have es := abs_le.1 (R.error (R.rnd (x * x) + R.rnd (y * y)))
  have ps := R.nonneg (add_nonneg px py)
  have et := abs_le.1 (R.error (R.rnd (R.rnd (x * x) + R.rnd (y * y)) + R.rnd (z * z)))
  rw [abs_of_nonneg (mul_self_nonneg x)] at ex
  rw [abs_of_nonneg (mul_self_nonneg y)] at ey
  rw [abs_of_nonneg (mul_self_nonneg z)] at ez
  rw [abs_of_nonneg (add_nonneg px py)] at es
  rw [abs_of_nonneg (add_nonneg ps pz)] at et
  have hx := mul_self_nonneg x
  have hy := mul_self_nonneg y
  have hz := mul_self_nonneg z
  generalize R.rnd (R.rnd (R.rnd (x * x) + R.rnd (y * y)) + R.rnd (z * z)) = t at *
  generalize R.rnd (R.rnd (x * x) + R.rnd (y * y)) = s at *
  generalize R.rnd (x * x) = X at *
  generalize R.rnd (y * y) = Y at *
  generalize R.rnd (z * z) = Z at *
  rw [pow_two, pow_two, pow_two]
  generalize x * x = p at *
  generalize y * y = q at *
  generalize z * z = r at *
  norm_num at *
  linarith

/-- What a loop leaves of the drawn numbers, and how its points come from them. -/
theorem rFillBall_spec : ∀ (draws : List ℝ) (n : Nat) (ps : List (ℝ × ℝ × ℝ)) (s : List ℝ), rFillBall R n draws = .ok (ps, s) →
    s ⊆ draws ∧ ps.length = n ∧ ∀ q ∈ ps, (∃ a ∈ draws, q.1 = rCoord R a) ∧ (∃ a ∈ draws, q.2.1 = rCoord R a) ∧
      (∃ a ∈ draws, q.2.2 = rCoord R a) ∧ rTestSum R q.1 q.2.1 q.2.2 < 1
  | draws, 0, ps, s, h => by
    unfold rFillBall at h
    simp only [Except.ok.injEq, Prod.mk.injEq] at h
    rw [← h.1, ← h.2]
    simp
  | [], n + 1, ps, s, h => by unfold rFillBall at h; simp at h
  | [_], n + 1, ps, s, h => by unfold rFillBall at h; simp at h
  | [_, _], n + 1, ps, s, h => by unfold rFillBall at h; simp at h
  | a :: b :: c :: l, n + 1, ps, s, h => by
    unfold rFillBall at h
    simp only at h
    have sub : l ⊆ a :: b :: c :: l := fun _ hx => by simp [hx]
    by_cases ht : rTestSum R (rCoord R a) (rCoord R b) (rCoord R c) < 1
    · rw [if_pos ht] at h
      cases hr : rFillBall R n l with
      | error e => rw [hr] at h; simp at h
      | ok v =>
        obtain ⟨qs, s'⟩ := v
        rw [hr] at h
        simp only [Except.ok.injEq, Prod.mk.injEq] at h
        obtain ⟨h1, h2, h3⟩ := rFillBall_spec l n qs s' hr
        rw [← h.1, ← h.2]
        refine ⟨fun _ hx => sub (h1 hx), by simp [h2], fun q hq => ?_⟩
        rcases List.mem_cons.1 hq with rfl | hq
        · exact ⟨⟨a, by simp, rfl⟩, ⟨b, by simp, rfl⟩, ⟨c, by simp, rfl⟩, ht⟩
        · obtain ⟨⟨x, hx, e1⟩, ⟨y, hy, e2⟩, ⟨z, hz, e3⟩, e4⟩ := h3 q hq
          exact ⟨⟨x, sub hx, e1⟩, ⟨y, sub hy, e2⟩, ⟨z, sub hz, e3⟩, e4⟩
    · rw [if_neg ht] at h
      obtain ⟨h1, h2, h3⟩ := rFillBall_spec l (n + 1) ps s h
      refine ⟨fun _ hx => sub (h1 hx), h2, fun q hq => ?_⟩
      obtain ⟨⟨x, hx, e1⟩, ⟨y, hy, e2⟩, ⟨z, hz, e3⟩, e4⟩ := h3 q hq
      exact ⟨⟨x, sub hx, e1⟩, ⟨y, sub hy, e2⟩, ⟨z, sub hz, e3⟩, e4⟩

/-- **C167, uniform.** There are as many particles as requested. Every coordinate is exactly `2 a - 1` for a drawn number `a`. Position and
momentum are inside the unit ball up to `2 ^ -51`. Partial: a radius a little above one is possible, see `rounded_uniform_fails`. -/
theorem rounded_uniform_partial (n : Nat) (draws : List ℝ) (hd : ∀ a ∈ draws, Unif53 a) (p : Arr) (h : rMakeUniform R n draws = .ok p) :
    p.length = n ∧ ∀ v ∈ p, v 0 ^ 2 + v 2 ^ 2 + v 4 ^ 2 < 1 + 2 ^ (-51 : ℤ) ∧ v 1 ^ 2 + v 3 ^ 2 + v 5 ^ 2 < 1 + 2 ^ (-51 : ℤ) ∧
      ∀ i, ∃ a ∈ draws, v i = 2 * a - 1 := by
  unfold rMakeUniform at h
  cases hq : rFillBall R n draws with
  | error e => rw [hq] at h; simp at h
  | ok w =>
    obtain ⟨qs, s⟩ := w
    rw [hq] at h
    simp only at h
    cases hp : rFillBall R n s with
    | error e => rw [hp] at h; simp at h
    | ok w =>
      obtain ⟨ps, s'⟩ := w
      rw [hp] at h
      simp only [Except.ok.injEq] at h
      obtain ⟨a1, a2, a3⟩ := rFillBall_spec R _ _ _ _ hq
      obtain ⟨b1, b2, b3⟩ := rFillBall_spec R _ _ _ _ hp
      rw [← h]
      refine ⟨by rw [joinBall_length _ _ (a2.trans b2.symm), a2], fun v hv => ?_⟩
      obtain ⟨q, hq', r, hr', rfl⟩ := joinBall_mem hv
      obtain ⟨⟨x, hx, e1⟩, ⟨y, hy, e2⟩, ⟨z, hz, e3⟩, e4⟩ := a3 q hq'
      obtain ⟨⟨x', hx', e1'⟩, ⟨y', hy', e2'⟩, ⟨z', hz', e3'⟩, e4'⟩ := b3 r hr'
      refine ⟨testSum_lt R e4, testSum_lt R e4', fun i => ?_⟩
      rw [rCoord_eq R (hd _ hx)] at e1
      rw [rCoord_eq R (hd _ hy)] at e2
      rw [rCoord_eq R (hd _ hz)] at e3
      rw [rCoord_eq R (hd _ (a1 hx'))] at e1'
      rw [rCoord_eq R (hd _ (a1 hy'))] at e2'
      rw [rCoord_eq R (hd _ (a1 hz'))] at e3'
      fin_cases i
      exacts [⟨x, hx, e1⟩, ⟨x', a1 hx', e1'⟩, ⟨y, hy, e2⟩, ⟨y', a1 hy', e2'⟩, ⟨z, hz, e3⟩, ⟨z', a1 hz', e3'⟩]

/-- The points of a loop are those of exact arithmetic when no sum of squares is within `2 ^ -51` of one. -/
theorem rFillBall_same (draws : List ℝ) (hd : ∀ a ∈ draws, Unif53 a)
    (hs : ∀ a ∈ draws, ∀ b ∈ draws, ∀ c ∈ draws, 2 ^ (-51 : ℤ) ≤ |(2 * a - 1) ^ 2 + (2 * b - 1) ^ 2 + (2 * c - 1) ^ 2 - 1|) :
    ∀ (l : List ℝ) (n : Nat), l ⊆ draws → rFillBall R n l = fillBall n l
  | l, 0, _ => by unfold rFillBall fillBall; rfl
  | [], n + 1, _ => by unfold rFillBall fillBall; rfl
  | [_], n + 1, _ => by unfold rFillBall fillBall; rfl
  | [_, _], n + 1, _ => by unfold rFillBall fillBall; rfl
  | a :: b :: c :: l, n + 1, h => by
    have ha := h (by simp : a ∈ a :: b :: c :: l)
    have hb := h (by simp : b ∈ a :: b :: c :: l)
    have hc := h (by simp : c ∈ a :: b :: c :: l)
    have hl : l ⊆ draws := fun _ hx => h (by simp [hx])
    have key : rTestSum R (2 * a - 1) (2 * b - 1) (2 * c - 1) < 1 ↔ (2 * a - 1) ^ 2 + (2 * b - 1) ^ 2 + (2 * c - 1) ^ 2 < 1 := by
      have hk := hs a ha b hb c hc
      constructor
      · intro ht
        have := testSum_lt R ht
        by_contra hc'
        rw [abs_of_nonneg (by linarith)] at hk
        linarith
      · intro ht
        by_contra hc'
        have := testSum_ge R (not_lt.1 hc')
        rw [abs_of_neg (by linarith)] at hk
        linarith
    unfold rFillBall fillBall
    simp only [rCoord_eq R (hd a ha), rCoord_eq R (hd b hb), rCoord_eq R (hd c hc), rFillBall_same draws hd hs l n hl,
      rFillBall_same draws hd hs l (n + 1) hl]
    by_cases ht : (2 * a - 1) ^ 2 + (2 * b - 1) ^ 2 + (2 * c - 1) ^ 2 < 1
    · rw [if_pos ht, if_pos (key.2 ht)]
      cases fillBall n l <;> rfl
    · rw [if_neg ht, if_neg (fun hx => ht (key.1 hx))]

/-- **C167, uniform.** When no sum of squares is within `2 ^ -51` of one, double precision makes the particles of exact arithmetic. -/
theorem rounded_uniform_same (n : Nat) (draws : List ℝ) (hd : ∀ a ∈ draws, Unif53 a)
    (hs : ∀ a ∈ draws, ∀ b ∈ draws, ∀ c ∈ draws, 2 ^ (-51 : ℤ) ≤ |(2 * a - 1) ^ 2 + (2 * b - 1) ^ 2 + (2 * c - 1) ^ 2 - 1|) :
    rMakeUniform R n draws = makeUniform n draws := by
  unfold rMakeUniform makeUniform
  rw [rFillBall_same R draws hd hs draws n (List.Subset.refl _)]
  cases hq : fillBall n draws with
  | error e => rfl
  | ok w =>
    obtain ⟨qs, s⟩ := w
    simp only
    rw [rFillBall_same R draws hd hs s n (fillBall_draws _ _ _ _ hq).1]
    cases fillBall n s <;> rfl

/-! ## A point outside -/

/-- Three drawn numbers whose point is outside the unit ball and accepted. -/
noncomputable def outA : ℝ := 9007199134776178 * (2 : ℝ) ^ (-53 : ℤ)
noncomputable def outB : ℝ := 4504639120947319 * (2 : ℝ) ^ (-53 : ℤ)
noncomputable def outC : ℝ := 4503599896829419 * (2 : ℝ) ^ (-53 : ℤ)

theorem out_unif : Unif53 outA ∧ Unif53 outB ∧ Unif53 outC :=
  ⟨⟨9007199134776178, by norm_num, by rw [outA]; norm_num⟩, ⟨4504639120947319, by norm_num, by rw [outB]; norm_num⟩,
    ⟨4503599896829419, by norm_num, by rw [outC]; norm_num⟩⟩

theorem out_outside : 1 < (2 * outA - 1) ^ 2 + (2 * outB - 1) ^ 2 + (2 * outC - 1) ^ 2 := by
  norm_num [outA, outB, outC]

theorem out_accepted : rTestSum R (rCoord R outA) (rCoord R outB) (rCoord R outC) < 1 := by
  rw [rCoord_eq R out_unif.1, rCoord_eq R out_unif.2.1, rCoord_eq R out_unif.2.2, rTestSum]
  have h1 : R.rnd ((2 * outA - 1) * (2 * outA - 1)) = ((9007198774881742 : ℤ) : ℝ) * 2 ^ (-53 : ℤ) :=
    R.absorb (by norm_num) (by norm_num) (by rw [abs_lt]; constructor <;> norm_num [outA])
  have h2 : R.rnd ((2 * outB - 1) * (2 * outB - 1)) = ((8050701739313261 : ℤ) : ℝ) * 2 ^ (-77 : ℤ) :=
    R.absorb (by norm_num) (by norm_num) (by rw [abs_lt]; constructor <;> norm_num [outB])
  have h3 : R.rnd ((2 * outC - 1) * (2 * outC - 1)) = ((4538006949019996 : ℤ) : ℝ) * 2 ^ (-100 : ℤ) :=
    R.absorb (by norm_num) (by norm_num) (by rw [abs_lt]; constructor <;> norm_num [outC])
  rw [h1, h2, h3]
  have h4 : R.rnd (((9007198774881742 : ℤ) : ℝ) * 2 ^ (-53 : ℤ) + ((8050701739313261 : ℤ) : ℝ) * 2 ^ (-77 : ℤ)) =
      ((9007199254740959 : ℤ) : ℝ) * 2 ^ (-53 : ℤ) :=
    R.absorb (by norm_num) (by norm_num) (by rw [abs_lt]; constructor <;> norm_num)
  rw [h4]
  have h5 : R.rnd (((9007199254740959 : ℤ) : ℝ) * 2 ^ (-53 : ℤ) + ((4538006949019996 : ℤ) : ℝ) * 2 ^ (-100 : ℤ)) =
      ((9007199254740991 : ℤ) : ℝ) * 2 ^ (-53 : ℤ) :=
    R.absorb (by norm_num) (by norm_num) (by rw [abs_lt]; constructor <;> norm_num)
  rw [h5]
  norm_num

/-- The three numbers drawn `n` times. -/
noncomputable def outDraws : Nat → List ℝ
  | 0 => []
  | n + 1 => outA :: outB :: outC :: outDraws n

theorem mem_outDraws {a : ℝ} : ∀ {n : Nat}, a ∈ outDraws n → a = outA ∨ a = outB ∨ a = outC
  | 0, h => by simp [outDraws] at h
  | n + 1, h => by
    simp only [outDraws, List.mem_cons] at h
    rcases h with h | h | h | h
    exacts [.inl h, .inr (.inl h), .inr (.inr h), mem_outDraws h]

theorem rFillBall_out (m : Nat) : ∀ n : Nat, rFillBall R n (outDraws (n + m)) =
    .ok (List.replicate n (2 * outA - 1, 2 * outB - 1, 2 * outC - 1), outDraws m)
  | 0 => by unfold rFillBall; simp
  | n + 1 => by
    rw [show n + 1 + m = (n + m) + 1 by omega, outDraws]
    have h := out_accepted R
    rw [rCoord_eq R out_unif.1, rCoord_eq R out_unif.2.1, rCoord_eq R out_unif.2.2] at h
    unfold rFillBall
    simp only [h, if_true, rFillBall_out m n, List.replicate_succ, rCoord_eq R out_unif.1, rCoord_eq R out_unif.2.1,
      rCoord_eq R out_unif.2.2]

/-- **C167, uniform, false in general.** For any number of particles there are drawn numbers for which no particle is inside the unit ball, neither
its position nor its momentum, whatever the rounding of ties. -/
theorem rounded_uniform_fails (n : Nat) : ∃ draws : List ℝ, (∀ a ∈ draws, Unif53 a) ∧ ∃ p, rMakeUniform R n draws = .ok p ∧ p.length = n ∧
    ∀ v ∈ p, 1 < v 0 ^ 2 + v 2 ^ 2 + v 4 ^ 2 ∧ 1 < v 1 ^ 2 + v 3 ^ 2 + v 5 ^ 2 := by
  have e : rMakeUniform R n (outDraws (n + (n + 0))) = .ok (joinBall (List.replicate n (2 * outA - 1, 2 * outB - 1, 2 * outC - 1))
      (List.replicate n (2 * outA - 1, 2 * outB - 1, 2 * outC - 1))) := by
    unfold rMakeUniform
    simp only [rFillBall_out R (n + 0) n, rFillBall_out R 0 n]
  refine ⟨_, fun a ha => ?_, _, e, by rw [joinBall_length _ _ rfl]; simp, fun v hv => ?_⟩
  · rcases mem_outDraws ha with rfl | rfl | rfl
    exacts [out_unif.1, out_unif.2.1, out_unif.2.2]
  · obtain ⟨q, hq, r, hr, rfl⟩ := joinBall_mem hv
    rw [List.eq_of_mem_replicate hq, List.eq_of_mem_replicate hr]
    exact ⟨out_outside, out_outside⟩

/-! ## Gaussian distributions -/

theorem gauss_test {x fac : ℝ} (hf : IsFloat fac) (h : R.rnd (x * x) < fac) : x * x < fac := by
  by_contra hc
  exact absurd (R.ge_of_ge hf (not_lt.1 hc)) (not_le.2 h)

theorem gauss_test' {x fac : ℝ} (h : fac ≤ R.rnd (x * x)) : fac * (1 - 2 ^ (-53 : ℤ)) ≤ x * x := by
  have e := (abs_le.1 (R.error (x * x))).2
  rw [abs_of_nonneg (mul_self_nonneg x)] at e
  have := mul_self_nonneg x
  generalize x * x = p at *
  norm_num at *
  linarith

theorem rFillRow_spec {fac : ℝ} (hf : IsFloat fac) : ∀ (draws : List ℝ) (n : Nat) (xs s : List ℝ), rFillRow R fac n draws = .ok (xs, s) →
    s ⊆ draws ∧ xs.length = n ∧ ∀ x ∈ xs, x ∈ draws ∧ x * x < fac
  | draws, 0, xs, s, h => by
    unfold rFillRow at h
    simp only [Except.ok.injEq, Prod.mk.injEq] at h
    rw [← h.1, ← h.2]
    simp
  | [], n + 1, xs, s, h => by unfold rFillRow at h; simp at h
  | a :: l, n + 1, xs, s, h => by
    unfold rFillRow at h
    have sub : l ⊆ a :: l := fun _ hx => by simp [hx]
    by_cases ht : R.rnd (a * a) < fac
    · rw [if_pos ht] at h
      cases hr : rFillRow R fac n l with
      | error e => rw [hr] at h; simp at h
      | ok v =>
        obtain ⟨ys, s'⟩ := v
        rw [hr] at h
        simp only [Except.ok.injEq, Prod.mk.injEq] at h
        obtain ⟨h1, h2, h3⟩ := rFillRow_spec hf l n ys s' hr
        rw [← h.1, ← h.2]
        refine ⟨fun _ hx => sub (h1 hx), by simp [h2], fun x hx => ?_⟩
        rcases List.mem_cons.1 hx with rfl | hx
        · exact ⟨by simp, gauss_test R hf ht⟩
        · exact ⟨sub (h3 x hx).1, (h3 x hx).2⟩
    · rw [if_neg ht] at h
      obtain ⟨h1, h2, h3⟩ := rFillRow_spec hf l (n + 1) xs s h
      exact ⟨fun _ hx => sub (h1 hx), h2, fun x hx => ⟨sub (h3 x hx).1, (h3 x hx).2⟩⟩

theorem rFillRows_spec {fac : ℝ} (hf : IsFloat fac) (n : Nat) : ∀ (m : Nat) (draws : List ℝ) (rows : List (List ℝ)),
    rFillRows R fac n m draws = .ok rows → rows.length = m ∧ ∀ row ∈ rows, row.length = n ∧ ∀ x ∈ row, x ∈ draws ∧ x * x < fac
  | 0, draws, rows, h => by
    unfold rFillRows at h
    simp only [Except.ok.injEq] at h
    rw [← h]
    simp
  | m + 1, draws, rows, h => by
    unfold rFillRows at h
    cases hr : rFillRow R fac n draws with
    | error e => rw [hr] at h; simp at h
    | ok w =>
      obtain ⟨row, s⟩ := w
      rw [hr] at h
      simp only at h
      cases hs : rFillRows R fac n m s with
      | error e => rw [hs] at h; simp at h
      | ok rows' =>
        rw [hs] at h
        simp only [Except.ok.injEq] at h
        obtain ⟨a1, a2, a3⟩ := rFillRow_spec R hf _ _ _ _ hr
        obtain ⟨b1, b2⟩ := rFillRows_spec hf n m s rows' hs
        rw [← h]
        refine ⟨by simp [b1], fun r hr => ?_⟩
        rcases List.mem_cons.1 hr with rfl | hr
        · exact ⟨a2, a3⟩
        · exact ⟨(b2 r hr).1, fun x hx => ⟨a1 ((b2 r hr).2 x hx).1, ((b2 r hr).2 x hx).2⟩⟩

/-- **C167, Gaussian.** There are as many particles as requested, every coordinate is a drawn number, and its exact square is below `max_rms_fac`:
rounding the square lets no number pass that exact arithmetic would reject. -/
theorem rounded_gauss (fac : ℝ) (hf : IsFloat fac) (n : Nat) (draws : List ℝ) (p : Arr) (h : rMakeGauss R fac n draws = .ok p) :
    p.length = n ∧ ∀ v ∈ p, ∀ i, v i ∈ draws ∧ v i ^ 2 < fac := by
  unfold rMakeGauss at h
  cases hr : rFillRows R fac n 6 draws with
  | error e => rw [hr] at h; simp at h
  | ok rows =>
    rw [hr] at h
    simp only [Except.ok.injEq] at h
    obtain ⟨h1, h2⟩ := rFillRows_spec R hf n 6 draws rows hr
    rw [← h]
    refine ⟨by simp, fun v hv i => ?_⟩
    obtain ⟨k, hk, rfl⟩ := List.mem_map.1 hv
    have hi : i.1 < rows.length := by rw [h1]; exact i.2
    obtain ⟨h3, h4⟩ := h2 _ (List.getElem_mem hi)
    have hk' : k < (rows[i.1]).length := by rw [h3]; exact List.mem_range.1 hk
    have e : (rows.getD i.1 []).getD k 0 = (rows[i.1])[k] := by simp [hi, hk']
    simp only [e, pow_two]
    exact h4 _ (List.getElem_mem hk')

theorem rFillRow_same {fac : ℝ} (hf : IsFloat fac) (draws : List ℝ)
    (hs : ∀ x ∈ draws, x ^ 2 < fac → x ^ 2 < fac * (1 - 2 ^ (-53 : ℤ))) :
    ∀ (l : List ℝ) (n : Nat), l ⊆ draws → rFillRow R fac n l = fillRow fac n l
  | l, 0, _ => by unfold rFillRow fillRow; rfl
  | [], n + 1, _ => by unfold rFillRow fillRow; rfl
  | a :: l, n + 1, h => by
    have hl : l ⊆ draws := fun _ hx => h (by simp [hx])
    unfold rFillRow fillRow
    rw [rFillRow_same hf draws hs l n hl, rFillRow_same hf draws hs l (n + 1) hl]
    by_cases ht : a * a < fac
    · have : R.rnd (a * a) < fac := by
        by_contra hc
        have h1 := gauss_test' R (not_lt.1 hc)
        have h2 := hs a (h (by simp)) (by rw [pow_two]; exact ht)
        rw [pow_two] at h2
        exact absurd h2 (not_lt.2 h1)
      rw [if_pos ht, if_pos this]
      cases fillRow fac n l <;> rfl
    · rw [if_neg ht, if_neg fun hx => ht (gauss_test R hf hx)]

theorem fillRow_sub (fac : ℝ) : ∀ (draws : List ℝ) (n : Nat) (xs s : List ℝ), fillRow fac n draws = .ok (xs, s) → s ⊆ draws
  | draws, 0, xs, s, h => by
    unfold fillRow at h
    simp only [Except.ok.injEq, Prod.mk.injEq] at h
    rw [← h.2]
    exact List.Subset.refl _
  | [], n + 1, xs, s, h => by unfold fillRow at h; simp at h
  | a :: l, n + 1, xs, s, h => by
    unfold fillRow at h
    by_cases ht : a * a < fac
    · rw [if_pos ht] at h
      cases hr : fillRow fac n l with
      | error e => rw [hr] at h; simp at h
      | ok v =>
        obtain ⟨ys, s'⟩ := v
        rw [hr] at h
        simp only [Except.ok.injEq, Prod.mk.injEq] at h
        rw [← h.2]
        exact fun _ hx => by simp [fillRow_sub fac l n ys s' hr hx]
    · rw [if_neg ht] at h
      exact fun _ hx => by simp [fillRow_sub fac l (n + 1) xs s h hx]

theorem rFillRows_same {fac : ℝ} (hf : IsFloat fac) (draws : List ℝ)
    (hs : ∀ x ∈ draws, x ^ 2 < fac → x ^ 2 < fac * (1 - 2 ^ (-53 : ℤ))) (n : Nat) :
    ∀ (m : Nat) (l : List ℝ), l ⊆ draws → rFillRows R fac n m l = fillRows fac n m l
  | 0, l, _ => by unfold rFillRows fillRows; rfl
  | m + 1, l, h => by
    unfold rFillRows fillRows
    rw [rFillRow_same R hf draws hs l n h]
    cases hr : fillRow fac n l with
    | error e => rfl
    | ok w =>
      obtain ⟨row, s⟩ := w
      simp only
      rw [rFillRows_same hf draws hs n m s fun _ hx => h (fillRow_sub fac _ _ _ _ hr hx)]
      cases fillRows fac n m s <;> rfl

/-- **C167, Gaussian.** When no square is in the last `2 ^ -53` below `max_rms_fac`, double precision makes the particles of exact arithmetic. -/
theorem rounded_gauss_same (fac : ℝ) (hf : IsFloat fac) (n : Nat) (draws : List ℝ)
    (hs : ∀ x ∈ draws, x ^ 2 < fac → x ^ 2 < fac * (1 - 2 ^ (-53 : ℤ))) :
    rMakeGauss R fac n draws = makeGauss fac n draws := by
  unfold rMakeGauss makeGauss
  rw [rFillRows_same R hf draws hs n 6 draws (List.Subset.refl _)]
  cases fillRows fac n 6 draws <;> rfl

/-! ## The hypotheses can be met -/

theorem unif_half : Unif53 (1 / 2) := ⟨2 ^ 52, by norm_num, by norm_num⟩
theorem unif_quarter : Unif53 (3 / 4) := ⟨3 * 2 ^ 51, by norm_num, by norm_num⟩

example : rMakeUniform R 1 [1 / 2, 1 / 2, 3 / 4, 3 / 4, 1 / 2, 3 / 4] = makeUniform 1 [1 / 2, 1 / 2, 3 / 4, 3 / 4, 1 / 2, 3 / 4] := by
  have m : ∀ a ∈ ([1 / 2, 1 / 2, 3 / 4, 3 / 4, 1 / 2, 3 / 4] : List ℝ), a = 1 / 2 ∨ a = 3 / 4 := fun a ha => by
    simp only [List.mem_cons, List.not_mem_nil, or_false] at ha; tauto
  refine rounded_uniform_same R 1 _ (fun a ha => ?_) fun a ha b hb c hc => ?_
  · rcases m a ha with rfl | rfl
    exacts [unif_half, unif_quarter]
  · rcases m a ha with rfl | rfl <;> rcases m b hb with rfl | rfl <;> rcases m c hc with rfl | rfl <;> norm_num

example : ∃ draws : List ℝ, (∀ a ∈ draws, Unif53 a) ∧ ∃ p, rMakeUniform R 7 draws = .ok p ∧ p.length = 7 := by
  obtain ⟨d, h1, p, h2, h3, _⟩ := rounded_uniform_fails R 7
  exact ⟨d, h1, p, h2, h3⟩

example : rMakeGauss R 4 1 [0, 1, -1, 3, 1 / 2, 0, 1] = makeGauss 4 1 [0, 1, -1, 3, 1 / 2, 0, 1] := by
  refine rounded_gauss_same R 4 ⟨4, 0, by norm_num, by norm_num⟩ 1 _ fun x hx => ?_
  simp only [List.mem_cons, List.not_mem_nil, or_false] at hx
  rcases hx with rfl | rfl | rfl | rfl | rfl | rfl | rfl <;> norm_num

example : ∃ p, rMakeGauss R 4 1 [0, 1, -1, 3, 1 / 2, 0, 1] = .ok p := by
  have : rMakeGauss R 4 1 [0, 1, -1, 3, 1 / 2, 0, 1] = makeGauss 4 1 [0, 1, -1, 3, 1 / 2, 0, 1] := by
    refine rounded_gauss_same R 4 ⟨4, 0, by norm_num, by norm_num⟩ 1 _ fun x hx => ?_
    simp only [List.mem_cons, List.not_mem_nil, or_false] at hx
    rcases hx with rfl | rfl | rfl | rfl | rfl | rfl | rfl <;> norm_num
  rw [this]
  unfold makeGauss
  norm_num [fillRows, fillRow]

end Verif.Ptcls
