import Verif.Bunch.Lemmas
import Verif.Bunch.PropsSetters
import Mathlib.Analysis.Complex.ExponentialBounds

/-!
# Properties C56, C57, C88 to C92: distributions of bunches
-/

namespace Verif.Bunch

/-! ## Kapchinskij-Vladimirskij distributions -/

theorem kvRun_made {newton pot xMax draws} {b : Bunch} {l : List P4} (h : kvRun newton pot xMax draws b = .ok l) :
    0 < b.betax ∧ Made pot b.shape b.quiet b.npart (· = b.emit) l := by
  unfold kvRun at h
  by_cases h0 : b.emit < 0 ∨ b.shape.bx ≤ 0 ∨ b.shape.byy ≤ 0
  · rw [if_pos h0] at h; cases h
  · rw [if_neg h0] at h
    push Not at h0
    cases hn : newton (whatsleft pot b.emit) (Real.sqrt b.emit) with
    | error e => rw [hn] at h; cases h
    | ok yMax =>
      rw [hn] at h
      exact ⟨h0.2.1, kvLoop_made _ _ _ _ _ _ _ _ _ _ h⟩

/-- What a successful call of `StandardBunch.distribute_KV` leaves. -/
theorem distributeKV_ok {newton draws} {b b' : Bunch} (hp : b.particles.length = b.npart) (h : b.distributeKV newton draws = (b', none)) :
    b.emitx = b.emity ∧ 0 < b.betax ∧ b'.emit = 4 * b.emitx ∧ 0 < b.npart ∧ (b.quiet = true → 4 ∣ b.npart) ∧
    Made (fun x y => .ok (some (quadratic x y))) b.shape b.quiet b.npart (· = 4 * b.emitx) (b'.particles.map trans) := by
  unfold Bunch.distributeKV at h
  by_cases he : b.emitx ≠ b.emity
  · rw [if_pos he] at h; simp at h
  · rw [if_neg he] at h
    simp only at h
    cases hr : kvRun newton (fun x y => .ok (some (quadratic x y))) none draws { b with emit := 4 * b.emitx } with
    | error e => rw [hr] at h; simp [Bunch.finish] at h
    | ok l =>
      rw [hr] at h
      obtain ⟨hβ, hm⟩ := kvRun_made hr
      obtain ⟨f1, _, f3⟩ := finish_made (b := { b with emit := 4 * b.emitx }) hp hm
      rw [h] at f1 f3
      obtain ⟨ps, g1, g2, _⟩ := f3 rfl
      simp only at g1
      obtain ⟨c1, c2⟩ := f1.1 rfl
      refine ⟨not_not.1 he, hβ, by rw [g1], c1, c2, ?_⟩
      rw [g1, g2]
      exact hm

/-- Halved sum of the invariants of a particle made by the loop, in the shape that was used. -/
theorem place_cs {sh : Shape} (hx : 0 < sh.bx) (hy : 0 < sh.byy) {h v x y r : ℝ} (hv : v < h) (hp : v = quadratic x y) :
    1 / 2 * (cs sh.bx sh.ax (place sh h v x y r 0) (place sh h v x y r 1) +
      cs sh.byy sh.ay (place sh h v x y r 2) (place sh h v x y r 3)) = h := by
  obtain ⟨h1, h2, h3⟩ := place_norm hx hy h v x y r hv
  rw [cs_norm hx, cs_norm hy, h1, h2]
  unfold quadratic at hp
  linarith

theorem cs_mirror (β x p s : ℝ) (s' : ℝ) (hs : s ^ 2 = 1) (hs' : s' ^ 2 = 1) : cs β 0 (x * s) (p * s') = cs β 0 x p := by
  unfold cs
  rw [mul_pow, mul_pow, hs, hs']
  ring

/-- Invariants of all particles, with the beta function that the code uses for both planes. -/
theorem kv_used {newton draws} {b b' : Bunch} (hp : b.particles.length = b.npart) (h : b.distributeKV newton draws = (b', none))
    (hq : b.quiet = false ∨ (b.alphax = 0 ∧ b.alphay = 0)) :
    ∀ p ∈ b'.particles, 1 / 2 * (cs b.betax b.alphax (p 0) (p 1) + cs b.betax b.alphay (p 2) (p 3)) = 4 * b.emitx := by
  obtain ⟨_, hβ, _, _, _, qs, h1, _, h3⟩ := distributeKV_ok hp h
  intro p hpm
  have hm : trans p ∈ qs.flatMap (group b.quiet) := by rw [← h1]; exact List.mem_map_of_mem hpm
  obtain ⟨q, hqm, hg⟩ := List.mem_flatMap.1 hm
  obtain ⟨e, x, y, v, r, rfl, hv, hlt, rfl⟩ := h3 q hqm
  simp only [Except.ok.injEq, Option.some.injEq] at hv
  have hcs := place_cs (sh := b.shape) hβ hβ (r := r) hlt hv.symm
  have t0 : p 0 = trans p 0 := rfl
  have t1 : p 1 = trans p 1 := rfl
  have t2 : p 2 = trans p 2 := rfl
  have t3 : p 3 = trans p 3 := rfl
  rw [t0, t1, t2, t3]
  generalize hqd : place b.shape (4 * b.emitx) v x y r = q at *
  change 1 / 2 * (cs b.betax b.alphax (q 0) (q 1) + cs b.betax b.alphay (q 2) (q 3)) = 4 * b.emitx at hcs
  rcases hq with hq | ⟨ha, hb⟩
  · rw [hq] at hg
    simp only [group, Bool.false_eq_true, if_false, List.mem_singleton] at hg
    rw [hg]
    exact hcs
  · rw [ha, hb] at hcs ⊢
    unfold group at hg
    rcases List.mem_cons.1 hg with hg | hg
    · rw [hg]
      exact hcs
    · cases hqq : b.quiet with
      | false => rw [hqq] at hg; simp at hg
      | true =>
        rw [hqq] at hg
        simp only [if_true, mirrors, List.mem_cons, List.not_mem_nil, or_false] at hg
        rcases hg with hg | hg | hg
        · have e : cs b.betax 0 (trans p 0) (trans p 1) = cs b.betax 0 (q 0) (q 1) := by
            rw [hg]; exact cs_mirror _ _ _ (-1) 1 (by norm_num) (by norm_num)
          have e' : cs b.betax 0 (trans p 2) (trans p 3) = cs b.betax 0 (q 2) (q 3) := by
            rw [hg]; exact cs_mirror _ _ _ (-1) 1 (by norm_num) (by norm_num)
          rw [e, e', hcs]
        · have e : cs b.betax 0 (trans p 0) (trans p 1) = cs b.betax 0 (q 0) (q 1) := by
            rw [hg]; exact cs_mirror _ _ _ (-1) (-1) (by norm_num) (by norm_num)
          have e' : cs b.betax 0 (trans p 2) (trans p 3) = cs b.betax 0 (q 2) (q 3) := by
            rw [hg]; exact cs_mirror _ _ _ (-1) (-1) (by norm_num) (by norm_num)
          rw [e, e', hcs]
        · have e : cs b.betax 0 (trans p 0) (trans p 1) = cs b.betax 0 (q 0) (q 1) := by
            rw [hg]; exact cs_mirror _ _ _ 1 (-1) (by norm_num) (by norm_num)
          have e' : cs b.betax 0 (trans p 2) (trans p 3) = cs b.betax 0 (q 2) (q 3) := by
            rw [hg]; exact cs_mirror _ _ _ 1 (-1) (by norm_num) (by norm_num)
          rw [e, e', hcs]

/-- **C56.** Every particle made by `distribute_KV` has half the sum of the Courant-Snyder invariants equal to
the attribute `emit`, which is four times the planar emittance. Proved for equal beta functions, and for a quiet
start without alpha. -/
theorem kv_shell_partial {newton draws} {b b' : Bunch} (hp : b.particles.length = b.npart)
    (h : b.distributeKV newton draws = (b', none)) (hb : b.betay = b.betax)
    (hq : b.quiet = false ∨ (b.alphax = 0 ∧ b.alphay = 0)) :
    b'.emit = 4 * b.emitx ∧
    ∀ p ∈ b'.particles, 1 / 2 * (cs b.betax b.alphax (p 0) (p 1) + cs b.betay b.alphay (p 2) (p 3)) = b'.emit := by
  obtain ⟨_, _, h1, _⟩ := distributeKV_ok hp h
  refine ⟨h1, fun p hpm => ?_⟩
  rw [h1, hb]
  exact kv_used hp h hq p hpm

/-- **C56, refused.** With different planar emittances nothing is changed and AssertionError is raised. -/
theorem kv_refuses (newton draws) (b : Bunch) (n : NBunch) (h : b.emitx ≠ b.emity) (hn : n.emitx ≠ n.emity) :
    b.distributeKV newton draws = (b, some .assertionError) ∧ n.distributeKV newton draws = (n, some .assertionError) := by
  refine ⟨if_pos h, ?_⟩
  unfold NBunch.distributeKV NBunch.lift
  simp only [if_pos hn]

/-- A bunch with one particle (or four) for the witnesses. -/
noncomputable def witness (n : Nat) (quiet : Bool) (betax betay alphax : ℝ) : Bunch :=
  { npart := n, dist := "KV", emitx := 1, emity := 1, emit := 2, betax := betax, alphax := alphax, betay := betay, alphay := 0,
    gammax := (1 + alphax ^ 2) / betax, gammay := 1 / betay, stdz := 1, dpop := 0, quiet := quiet,
    particles := List.replicate n fun _ => 0 }

theorem witness_run {n : Nat} {quiet : Bool} {betax betay alphax a c r : ℝ} (hβ : 0 < betax) (hn : (n = 1 ∧ quiet = false) ∨ (n = 4 ∧ quiet = true))
    (hin : quadratic (trialCoord a 2) (trialCoord c 2) < 4) :
    kvRun (fun _ _ => .ok 2) (fun x y => .ok (some (quadratic x y))) none [a, c, r] { witness n quiet betax betay alphax with emit := 4 } =
      .ok (group quiet (place ⟨betax, betax, alphax, 0⟩ 4 (quadratic (trialCoord a 2) (trialCoord c 2)) (trialCoord a 2) (trialCoord c 2) r)) := by
  unfold kvRun
  rw [if_neg (by
    push Not
    exact ⟨by norm_num, hβ, hβ⟩)]
  simp only [Option.getD_none, List.length_cons, List.length_nil]
  rcases hn with ⟨rfl, rfl⟩ | ⟨rfl, rfl⟩
  · simp only [witness]
    rw [kvLoop.eq_def]
    simp only [if_pos hin, Bool.false_eq_true, if_false]
    rw [kvLoop.eq_def]
    simp only [List.append_nil, group, Bool.false_eq_true, if_false]
    rfl
  · simp only [witness]
    rw [kvLoop.eq_def]
    simp only [if_pos hin, if_true]
    rw [kvLoop.eq_def]
    simp only [List.append_nil, group, if_true]
    rfl

theorem witness_kv {n : Nat} {quiet : Bool} {betax betay alphax a c r : ℝ} (hβ : 0 < betax)
    (hn : (n = 1 ∧ quiet = false) ∨ (n = 4 ∧ quiet = true)) (hin : quadratic (trialCoord a 2) (trialCoord c 2) < 4) :
    ∃ b', (witness n quiet betax betay alphax).distributeKV (fun _ _ => .ok 2) [a, c, r] = (b', none) ∧
      b'.particles.map trans = group quiet
        (place ⟨betax, betax, alphax, 0⟩ 4 (quadratic (trialCoord a 2) (trialCoord c 2)) (trialCoord a 2) (trialCoord c 2) r) := by
  have hr := witness_run (betay := betay) (alphax := alphax) (r := r) hβ hn hin
  obtain ⟨_, hm⟩ := kvRun_made hr
  obtain ⟨f1, _, f3⟩ := finish_made (b := { witness n quiet betax betay alphax with emit := 4 }) (by simp [witness]) hm
  have hok := f1.2 (by
    rcases hn with ⟨rfl, rfl⟩ | ⟨rfl, rfl⟩
    · exact ⟨by simp [witness], by simp [witness]⟩
    · exact ⟨by simp [witness], fun _ => by simp [witness]⟩)
  obtain ⟨ps, g1, g2, _⟩ := f3 hok
  have hd : (witness n quiet betax betay alphax).distributeKV (fun _ _ => .ok 2) [a, c, r] =
      Bunch.finish { witness n quiet betax betay alphax with emit := 4 } (.ok (group quiet
        (place ⟨betax, betax, alphax, 0⟩ 4 (quadratic (trialCoord a 2) (trialCoord c 2)) (trialCoord a 2) (trialCoord c 2) r))) := by
    unfold Bunch.distributeKV
    rw [if_neg (by simp [witness])]
    simp only [show (4 : ℝ) * (witness n quiet betax betay alphax).emitx = 4 by simp [witness]]
    rw [hr]
  exact ⟨_, hd.trans (Prod.ext rfl hok), (congrArg (fun b : Bunch => b.particles.map trans) g1).trans g2⟩

theorem trial_half : trialCoord (1 / 2) 2 = 0 := by norm_num [trialCoord]

theorem trial_quarter : trialCoord (1 / 4) 2 = 1 := by norm_num [trialCoord]

theorem quadratic_one : quadratic 0 1 = 1 / 2 ∧ quadratic 1 0 = 1 / 2 := by constructor <;> norm_num [quadratic]

theorem place_all (sh : Shape) (h v x y r : ℝ) :
    place sh h v x y r 0 = x * Real.sqrt sh.bx ∧
    place sh h v x y r 1 = (Real.sqrt (2 * (h - v)) * Real.cos (2 * Real.pi * r) - sh.ax * x) / Real.sqrt sh.bx ∧
    place sh h v x y r 2 = y * Real.sqrt sh.byy ∧
    place sh h v x y r 3 = (Real.sqrt (2 * (h - v)) * Real.sin (2 * Real.pi * r) - sh.ay * y) / Real.sqrt sh.byy :=
  ⟨rfl, rfl, rfl, rfl⟩

/-- **C56 is false for different beta functions.** For all of them there are draws with which a particle of the
bunch is off the shell. -/
theorem kv_betay_fails {betax betay : ℝ} (hx : 0 < betax) (hy : 0 < betay) (hne : betay ≠ betax) :
    ∃ b', (witness 1 false betax betay 0).distributeKV (fun _ _ => .ok 2) [1 / 2, 1 / 4, 0] = (b', none) ∧
      ∃ p ∈ b'.particles, 1 / 2 * (cs betax 0 (p 0) (p 1) + cs betay 0 (p 2) (p 3)) ≠ 4 := by
  have hin : quadratic (trialCoord (1 / 2) 2) (trialCoord (1 / 4) 2) < 4 := by norm_num [quadratic, trialCoord]
  obtain ⟨b', h1, h2⟩ := witness_kv (n := 1) (quiet := false) (betay := betay) (alphax := 0) (r := 0) hx (Or.inl ⟨rfl, rfl⟩) hin
  refine ⟨b', h1, ?_⟩
  match hps : b'.particles with
  | [] => rw [hps] at h2; simp [group] at h2
  | p :: ps =>
    refine ⟨p, by simp, ?_⟩
    rw [hps] at h2
    simp only [group, Bool.false_eq_true, if_false, List.map_cons, List.cons.injEq] at h2
    have hh := h2.1
    rw [trial_half, trial_quarter, quadratic_one.1] at hh
    obtain ⟨q0, q1, q2, q3⟩ := place_all ⟨betax, betax, 0, 0⟩ 4 (1 / 2) 0 1 0
    rw [← hh] at q0 q1 q2 q3
    rw [show (2 : ℝ) * (4 - 1 / 2) = 7 by norm_num, mul_zero] at q1 q3
    rw [Real.cos_zero] at q1
    rw [Real.sin_zero] at q3
    have t0 : p 0 = 0 := q0.trans (zero_mul _)
    have t1 : p 1 = Real.sqrt 7 / Real.sqrt betax := q1.trans (by simp)
    have t2 : p 2 = Real.sqrt betax := q2.trans (one_mul _)
    have t3 : p 3 = 0 := q3.trans (by simp)
    rw [t0, t1, t2, t3]
    unfold cs
    rw [div_pow, Real.sq_sqrt hx.le, Real.sq_sqrt (by norm_num : (0 : ℝ) ≤ 7)]
    intro he
    apply hne
    have e1 : betax * (7 / betax) = 7 := by field_simp
    have e2 : (1 + (0 : ℝ) ^ 2) / betay * betax = betax / betay := by ring
    have e3 : betax / betay = 1 := by linarith
    rw [div_eq_one_iff_eq hy.ne'] at e3
    exact e3.symm

/-- **C56 is false for a quiet start with alpha.** For every alpha except zero, a mirrored particle is off the
shell. -/
theorem kv_quiet_fails {betax alphax : ℝ} (hx : 0 < betax) (ha : alphax ≠ 0) :
    ∃ b', (witness 4 true betax betax alphax).distributeKV (fun _ _ => .ok 2) [1 / 4, 1 / 2, 1 / 4] = (b', none) ∧
      ∃ p ∈ b'.particles, 1 / 2 * (cs betax alphax (p 0) (p 1) + cs betax 0 (p 2) (p 3)) ≠ 4 := by
  have hin : quadratic (trialCoord (1 / 4) 2) (trialCoord (1 / 2) 2) < 4 := by norm_num [quadratic, trialCoord]
  obtain ⟨b', h1, h2⟩ := witness_kv (n := 4) (quiet := true) (betay := betax) (alphax := alphax) (r := 1 / 4) hx (Or.inr ⟨rfl, rfl⟩) hin
  refine ⟨b', h1, ?_⟩
  match hps : b'.particles with
  | [] => rw [hps] at h2; simp [group] at h2
  | [_] => rw [hps] at h2; simp [group, mirrors] at h2
  | p' :: p :: ps =>
    refine ⟨p, by simp, ?_⟩
    rw [hps] at h2
    simp only [group, if_true, mirrors, List.map_cons, List.cons.injEq] at h2
    have hh := h2.2.1
    rw [trial_half, trial_quarter, quadratic_one.2] at hh
    obtain ⟨q0, q1, q2, q3⟩ := place_all ⟨betax, betax, alphax, 0⟩ 4 (1 / 2) 1 0 (1 / 4)
    rw [show (2 : ℝ) * (4 - 1 / 2) = 7 by norm_num, show 2 * Real.pi * (1 / 4) = Real.pi / 2 by ring] at q1 q3
    rw [Real.cos_pi_div_two] at q1
    rw [Real.sin_pi_div_two] at q3
    have t0 : p 0 = -Real.sqrt betax := (congrFun hh 0).trans ((congrArg (· * (-1)) q0).trans (by simp))
    have t1 : p 1 = -alphax / Real.sqrt betax := (congrFun hh 1).trans ((congrArg (· * 1) q1).trans (by simp))
    have t2 : p 2 = 0 := (congrFun hh 2).trans ((congrArg (· * (-1)) q2).trans (by simp))
    have t3 : p 3 = Real.sqrt 7 / Real.sqrt betax := (congrFun hh 3).trans ((congrArg (· * 1) q3).trans (by simp))
    rw [cs_norm hx, cs_norm hx, t0, t1, t2, t3]
    have hs := (Real.sqrt_pos.2 hx).ne'
    have e1 : -Real.sqrt betax / Real.sqrt betax = -1 := by field_simp
    have e2 : Real.sqrt betax * (-alphax / Real.sqrt betax) + alphax * -Real.sqrt betax / Real.sqrt betax = -2 * alphax := by
      field_simp
      ring
    have e3 : Real.sqrt betax * (Real.sqrt 7 / Real.sqrt betax) + 0 * 0 / Real.sqrt betax = Real.sqrt 7 := by
      field_simp
      ring
    rw [e1, e2, e3, Real.sq_sqrt (by norm_num : (0 : ℝ) ≤ 7)]
    intro he
    have : 0 < alphax ^ 2 := by positivity
    nlinarith

/-- **C88.** The planar emittance of a KV bunch is the attribute `emitx`. This is false: if the bunch is matched,
its emittance is twice as large, for all Twiss parameters and draws. -/
theorem kv_emittance_fails {newton draws} {b b' : Bunch} (hp : b.particles.length = b.npart)
    (h : b.distributeKV newton draws = (b', none)) (hb : b.betay = b.betax)
    (hq : b.quiet = false ∨ (b.alphax = 0 ∧ b.alphay = 0)) {ε : ℝ}
    (m1 : (b'.particles.map fun p => p 0 * p 0).sum / b'.particles.length = ε * b.betax)
    (m2 : (b'.particles.map fun p => p 0 * p 1).sum / b'.particles.length = -(ε * b.alphax))
    (m3 : (b'.particles.map fun p => p 1 * p 1).sum / b'.particles.length = ε * ((1 + b.alphax ^ 2) / b.betax))
    (m4 : (b'.particles.map fun p => p 2 * p 2).sum / b'.particles.length = ε * b.betay)
    (m5 : (b'.particles.map fun p => p 2 * p 3).sum / b'.particles.length = -(ε * b.alphay))
    (m6 : (b'.particles.map fun p => p 3 * p 3).sum / b'.particles.length = ε * ((1 + b.alphay ^ 2) / b.betay)) :
    ε = 2 * b.emitx := by
  obtain ⟨_, hβ, h1, hn, _, hm⟩ := distributeKV_ok hp h
  have hl := made_length hm
  rw [List.length_map] at hl
  have hpos : 0 < b'.particles.length := by
    rw [hl]
    cases b.quiet <;> simp <;> omega
  obtain ⟨_, hs⟩ := kv_shell_partial hp h hb hq
  rw [h1] at hs
  have hβy : 0 < b.betay := by rw [hb]; exact hβ
  have hsum : (b'.particles.map fun p => 1 / 2 * (cs b.betax b.alphax (p 0) (p 1) + cs b.betay b.alphay (p 2) (p 3))).sum =
      b'.particles.length * (4 * b.emitx) := by
    rw [List.map_congr_left hs, List.map_const', List.sum_replicate, nsmul_eq_mul]
  have hexp : ∀ l : List Row, (l.map fun p => 1 / 2 * (cs b.betax b.alphax (p 0) (p 1) + cs b.betay b.alphay (p 2) (p 3))).sum =
      1 / 2 * ((1 + b.alphax ^ 2) / b.betax * (l.map fun p => p 0 * p 0).sum + 2 * b.alphax * (l.map fun p => p 0 * p 1).sum +
        b.betax * (l.map fun p => p 1 * p 1).sum + (1 + b.alphay ^ 2) / b.betay * (l.map fun p => p 2 * p 2).sum +
        2 * b.alphay * (l.map fun p => p 2 * p 3).sum + b.betay * (l.map fun p => p 3 * p 3).sum) := by
    intro l
    induction l with
    | nil => simp
    | cons p l ih =>
      simp only [List.map_cons, List.sum_cons]
      rw [ih]
      unfold cs
      ring
  rw [hexp] at hsum
  have hn0 : (b'.particles.length : ℝ) ≠ 0 := by positivity
  rw [div_eq_iff hn0] at m1 m2 m3 m4 m5 m6
  rw [m1, m2, m3, m4, m5, m6] at hsum
  have : (b'.particles.length : ℝ) * (2 * ε) = b'.particles.length * (4 * b.emitx) := by
    rw [← hsum]
    field_simp
    ring
  have := mul_left_cancel₀ hn0 this
  linarith

/-! ## Quiet start -/

theorem group_sum (q : P4) (i : Fin 4) : ((group true q).map (· i)).sum = 0 := by
  fin_cases i <;> simp [group, mirrors]

theorem groups_sum (qs : List P4) (i : Fin 4) : ((qs.flatMap (group true)).map (· i)).sum = 0 := by
  induction qs with
  | nil => simp
  | cons q qs ih => rw [List.flatMap_cons, List.map_append, List.sum_append, ih, group_sum, add_zero]

/-- **C57, centred.** After a quiet start with `distribute_KV` the sum of each transverse coordinate is zero and
the number of particles is a multiple of four. -/
theorem quiet_centred {newton draws} {b b' : Bunch} (hp : b.particles.length = b.npart) (hq : b.quiet = true)
    (h : b.distributeKV newton draws = (b', none)) :
    4 ∣ b.npart ∧ ∀ i : Fin 4, (b'.particles.map fun p => trans p i).sum = 0 := by
  obtain ⟨_, _, _, _, h4, qs, h1, _, _⟩ := distributeKV_ok hp h
  refine ⟨h4 hq, fun i => ?_⟩
  rw [hq] at h1
  have := groups_sum qs i
  rw [← h1, List.map_map] at this
  exact this

/-- **C57, exact condition.** A run of `distribute_KV` that makes its list of particles stores it exactly when the
number of particles is a positive multiple of four; otherwise it raises ValueError and the array is unchanged. -/
theorem quiet_exact {newton draws} {b : Bunch} {l : List P4} (hp : b.particles.length = b.npart) (hq : b.quiet = true)
    (he : b.emitx = b.emity) (h : kvRun newton (fun x y => .ok (some (quadratic x y))) none draws { b with emit := 4 * b.emitx } = .ok l) :
    ((b.distributeKV newton draws).2 = none ↔ 0 < b.npart ∧ 4 ∣ b.npart) ∧
    (¬ (0 < b.npart ∧ 4 ∣ b.npart) → b.distributeKV newton draws = ({ b with emit := 4 * b.emitx }, some .valueError)) := by
  obtain ⟨_, hm⟩ := kvRun_made h
  obtain ⟨f1, f2, _⟩ := finish_made (b := { b with emit := 4 * b.emitx }) hp hm
  have hd : b.distributeKV newton draws = Bunch.finish { b with emit := 4 * b.emitx } (.ok l) := by
    unfold Bunch.distributeKV
    rw [if_neg (not_not.2 he)]
    simp only [h]
  rw [hd]
  have hiff : (Bunch.finish { b with emit := 4 * b.emitx } (.ok l)).2 = none ↔ 0 < b.npart ∧ 4 ∣ b.npart := by
    rw [f1]
    simp [hq]
  exact ⟨hiff, fun hn => f2.resolve_left fun h => hn (hiff.1 h)⟩

/-- One particle with different Twiss parameters in the two planes meets the hypotheses of C56. -/
example : ∃ b b' : Bunch, b.particles.length = b.npart ∧ b.quiet = false ∧ b.betay = b.betax ∧ b.alphax = 3 ∧
    b.distributeKV (fun _ _ => .ok 2) [1 / 2, 1 / 4, 0] = (b', none) := by
  have hin : quadratic (trialCoord (1 / 2) 2) (trialCoord (1 / 4) 2) < 4 := by norm_num [quadratic, trialCoord]
  obtain ⟨b', h1, _⟩ := witness_kv (n := 1) (quiet := false) (betax := 5) (betay := 5) (alphax := 3) (r := 0) (by norm_num) (Or.inl ⟨rfl, rfl⟩) hin
  exact ⟨_, b', rfl, rfl, rfl, rfl, h1⟩

/-- Four particles of a quiet start meet the hypotheses of C57. -/
example : ∃ b b' : Bunch, b.particles.length = b.npart ∧ b.quiet = true ∧ b.npart = 4 ∧
    b.distributeKV (fun _ _ => .ok 2) [1 / 4, 1 / 2, 1 / 4] = (b', none) := by
  have hin : quadratic (trialCoord (1 / 4) 2) (trialCoord (1 / 2) 2) < 4 := by norm_num [quadratic, trialCoord]
  obtain ⟨b', h1, _⟩ := witness_kv (n := 4) (quiet := true) (betax := 5) (betay := 5) (alphax := 3) (r := 1 / 4) (by norm_num) (Or.inr ⟨rfl, rfl⟩) hin
  exact ⟨_, b', rfl, rfl, rfl, h1⟩

/-- Four particles that are matched with emittance 2 for `emitx = 1` (C88). -/
example : ∃ b' : Bunch, (witness 4 true 1 1 0).distributeKV (fun _ _ => .ok 2) [1 / 2 - Real.sqrt 2 / 4, 1 / 2 - Real.sqrt 2 / 4, 1 / 8] = (b', none) ∧
    (b'.particles.map fun p => p 0 * p 0).sum / b'.particles.length = 2 ∧ (b'.particles.map fun p => p 0 * p 1).sum / b'.particles.length = 0 ∧
    (b'.particles.map fun p => p 1 * p 1).sum / b'.particles.length = 2 ∧ (b'.particles.map fun p => p 2 * p 2).sum / b'.particles.length = 2 ∧
    (b'.particles.map fun p => p 2 * p 3).sum / b'.particles.length = 0 ∧ (b'.particles.map fun p => p 3 * p 3).sum / b'.particles.length = 2 := by
  have ht : trialCoord (1 / 2 - Real.sqrt 2 / 4) 2 = Real.sqrt 2 := by
    unfold trialCoord
    ring
  have h2 : Real.sqrt 2 * Real.sqrt 2 = 2 := Real.mul_self_sqrt (by norm_num)
  have hq : quadratic (Real.sqrt 2) (Real.sqrt 2) = 2 := by
    unfold quadratic
    nlinarith
  have hin : quadratic (trialCoord (1 / 2 - Real.sqrt 2 / 4) 2) (trialCoord (1 / 2 - Real.sqrt 2 / 4) 2) < 4 := by
    rw [ht, hq]
    norm_num
  obtain ⟨b', h1, hb⟩ := witness_kv (n := 4) (quiet := true) (betax := 1) (betay := 1) (alphax := 0) (r := 1 / 8) (by norm_num) (Or.inr ⟨rfl, rfl⟩) hin
  refine ⟨b', h1, ?_⟩
  rw [ht, hq] at hb
  have h4 : Real.sqrt (2 * (4 - 2)) = 2 := by
    rw [show (2 : ℝ) * (4 - 2) = 2 ^ 2 by norm_num, Real.sqrt_sq (by norm_num)]
  obtain ⟨q0, q1, q2, q3⟩ := place_all ⟨1, 1, 0, 0⟩ 4 2 (Real.sqrt 2) (Real.sqrt 2) (1 / 8)
  rw [h4, show 2 * Real.pi * (1 / 8) = Real.pi / 4 by ring] at q1 q3
  rw [Real.cos_pi_div_four] at q1
  rw [Real.sin_pi_div_four] at q3
  generalize hqq : place ⟨1, 1, 0, 0⟩ 4 2 (Real.sqrt 2) (Real.sqrt 2) (1 / 8) = q at *
  simp only [Real.sqrt_one, mul_one, zero_mul, sub_zero, div_one] at q0 q1 q2 q3
  have hl : b'.particles.length = 4 := by
    have := congrArg List.length hb
    rw [List.length_map] at this
    rw [this]
    rfl
  have hm : ∀ (i j : Fin 4) (i' j' : Fin 7), i'.1 = i.1 → j'.1 = j.1 →
      (b'.particles.map fun p => p i' * p j').sum = ((group true q).map fun p => p i * p j).sum := by
    intro i j i' j' hi hj
    rw [← hb, List.map_map]
    congr 1
    refine List.map_congr_left fun p _ => ?_
    have e1 : i' = ⟨i.1, by omega⟩ := Fin.ext hi
    have e2 : j' = ⟨j.1, by omega⟩ := Fin.ext hj
    rw [e1, e2]
    rfl
  rw [hl, hm 0 0 0 0 rfl rfl, hm 0 1 0 1 rfl rfl, hm 1 1 1 1 rfl rfl, hm 2 2 2 2 rfl rfl, hm 2 3 2 3 rfl rfl, hm 3 3 3 3 rfl rfl]
  simp only [group, mirrors, if_true, List.map_cons, List.map_nil, List.sum_cons, List.sum_nil]
  simp only [Matrix.cons_val_zero, Matrix.cons_val_one, Matrix.cons_val, q0, q1, q2, q3]
  push_cast
  refine ⟨?_, ?_, ?_, ?_, ?_, ?_⟩ <;> nlinarith

/-! ## Nonlinear bunches -/

theorem lift_ok {f : Bunch → Bunch × Option PyErr} {b b' : NBunch} (h : b.lift f = (b', none)) :
    f b.toBunch = (b'.toBunch, none) := by
  unfold NBunch.lift at h
  simp only [Prod.mk.injEq] at h
  rw [← h.1]
  exact Prod.ext rfl h.2

theorem place_energy {sh : Shape} {t c : ℝ} (hc : 0 < c) (hx : 0 < sh.bx) (hy : 0 < sh.byy) {h v x y r : ℝ} (hv : v < h)
    (hp : potential t c x y = .ok (some v)) :
    energy t c sh.bx sh.byy sh.ax sh.ay (place sh h v x y r 0) (place sh h v x y r 1) (place sh h v x y r 2) (place sh h v x y r 3) = h := by
  obtain ⟨h1, h2, h3⟩ := place_norm hx hy h v x y r hv
  unfold energy
  rw [h1, h2, h3, ← potential_val hc hp]
  ring

/-- Energies of all particles of a list made without quiet start, by the shape that was used. -/
theorem made_energy {sh : Shape} {t c : ℝ} (hc : 0 < c) (hx : 0 < sh.bx) (hy : 0 < sh.byy) {n : Nat} {E : ℝ → Prop} {ps : List Row}
    (h : Made (potential t c) sh false n E (ps.map trans)) :
    ∀ p ∈ ps, E (energy t c sh.bx sh.byy sh.ax sh.ay (p 0) (p 1) (p 2) (p 3)) := by
  obtain ⟨qs, h1, _, h3⟩ := h
  intro p hp
  have hm : trans p ∈ qs.flatMap (group false) := by rw [← h1]; exact List.mem_map_of_mem hp
  obtain ⟨q, hqm, hg⟩ := List.mem_flatMap.1 hm
  simp only [group, Bool.false_eq_true, if_false, List.mem_singleton] at hg
  obtain ⟨e, x, y, v, r, hE, hv, hlt, hq⟩ := h3 q hqm
  rw [hq] at hg
  have t0 : p 0 = place sh e v x y r 0 := congrFun hg 0
  have t1 : p 1 = place sh e v x y r 1 := congrFun hg 1
  have t2 : p 2 = place sh e v x y r 2 := congrFun hg 2
  have t3 : p 3 = place sh e v x y r 3 := congrFun hg 3
  rw [t0, t1, t2, t3, place_energy hc hx hy hlt hv]
  exact hE

/-- **C90, KV.** Every particle of a generalised KV bunch has the energy `emitx` in the elliptic potential. -/
theorem nonlinear_kv {newton draws} {b b' : NBunch} (hc : 0 < b.c) (hp : b.particles.length = b.npart) (hq : b.quiet = false)
    (hb : b.betay = b.betax) (h : b.distributeKV newton draws = (b', none)) :
    b'.emit = b.emitx ∧ b.emitx = b.emity ∧
    ∀ p ∈ b'.particles, energy b.t b.c b.betax b.betay b.alphax b.alphay (p 0) (p 1) (p 2) (p 3) = b.emitx := by
  have h := lift_ok h
  by_cases he : b.emitx ≠ b.emity
  · rw [if_pos he] at h; simp at h
  · rw [if_neg he] at h
    simp only at h
    cases hr : kvRun newton (potential b.t b.c) (some b.c) draws { b.toBunch with emit := b.emitx } with
    | error e => rw [hr] at h; simp [Bunch.finish] at h
    | ok l =>
      rw [hr] at h
      obtain ⟨hβ, hm⟩ := kvRun_made hr
      obtain ⟨_, _, f3⟩ := finish_made (b := { b.toBunch with emit := b.emitx }) hp hm
      rw [h] at f3
      obtain ⟨ps, g1, g2, _⟩ := f3 rfl
      simp only at g1
      rw [g1]
      refine ⟨rfl, not_not.1 he, ?_⟩
      rw [← g2] at hm
      simp only [hq] at hm
      rw [hb]
      exact made_energy (sh := b.shape) hc hβ hβ hm

/-- **C90, waterbag.** With random numbers below one, the energies of a waterbag bunch are between zero and the
attribute `emit`, which is not changed. -/
theorem nonlinear_waterbag {newton} {draws : List ℝ} {b b' : NBunch} (hc : 0 < b.c) (hp : b.particles.length = b.npart)
    (hq : b.quiet = false) (hb : b.betay = b.betax) (hd : ∀ u ∈ draws, 0 ≤ u ∧ u < 1) (h : b.distributeWaterbag newton draws = (b', none)) :
    b'.emit = b.emit ∧ ∀ p ∈ b'.particles, 0 ≤ energy b.t b.c b.betax b.betay b.alphax b.alphay (p 0) (p 1) (p 2) (p 3) ∧
      energy b.t b.c b.betax b.betay b.alphax b.alphay (p 0) (p 1) (p 2) (p 3) ≤ b.emit := by
  have h := lift_ok h
  by_cases hβ : b.shape.bx ≤ 0 ∨ b.shape.byy ≤ 0
  · rw [if_pos hβ] at h; simp [Bunch.finish] at h
  · rw [if_neg hβ] at h
    push Not at hβ
    cases hr : waterbagLoop newton (potential b.t b.c) b.shape b.quiet b.emit b.c draws.length b.npart draws with
    | error e => rw [hr] at h; simp [Bunch.finish] at h
    | ok l =>
      rw [hr] at h
      have hm := waterbagLoop_made _ _ _ _ _ _ draws _ _ _ _ (List.Subset.refl _) hr
      obtain ⟨_, _, f3⟩ := finish_made (b := b.toBunch) hp hm
      rw [h] at f3
      obtain ⟨ps, g1, g2, _⟩ := f3 rfl
      simp only at g1
      rw [g1]
      refine ⟨rfl, fun p hpm => ?_⟩
      rw [← g2] at hm
      simp only [hq] at hm
      rw [hb]
      obtain ⟨h0, u, hu, hu0, he⟩ := made_energy (sh := b.shape) hc hβ.1 hβ.2 hm p hpm
      change 0 ≤ energy b.t b.c b.betax b.betax b.alphax b.alphay (p 0) (p 1) (p 2) (p 3) at h0
      change energy b.t b.c b.betax b.betax b.alphax b.alphay (p 0) (p 1) (p 2) (p 3) = _ at he
      refine ⟨h0, ?_⟩
      rw [he] at h0 ⊢
      have s0 : 0 < Real.sqrt u := Real.sqrt_pos.2 hu0
      have s1 : Real.sqrt u ≤ 1 := by rw [Real.sqrt_le_one]; exact (hd u hu).2.le
      have : 0 ≤ b.emit := by
        by_contra hneg
        push Not at hneg
        nlinarith
      nlinarith

/-- **C90, Gaussian.** The energies of a truncated Gaussian bunch are between zero and the cutoff times the
attribute `emit`, which is restored. -/
theorem nonlinear_gaussian {newton} {draws : List ℝ} {b b' : NBunch} (hc : 0 < b.c) (hp : b.particles.length = b.npart)
    (hq : b.quiet = false) (hb : b.betay = b.betax) (he : 0 ≤ b.emit) (h : b.distributeGaussian newton draws = (b', none)) :
    b'.emit = b.emit ∧ ∀ p ∈ b'.particles, 0 ≤ energy b.t b.c b.betax b.betay b.alphax b.alphay (p 0) (p 1) (p 2) (p 3) ∧
      energy b.t b.c b.betax b.betay b.alphax b.alphay (p 0) (p 1) (p 2) (p 3) ≤ b.cutoff * b.emit := by
  have h := lift_ok h
  by_cases hβ : b.shape.bx ≤ 0 ∨ b.shape.byy ≤ 0 ∨ 10 ^ 10 ≤ b.cutoff
  · rw [if_pos hβ] at h; simp at h
  · rw [if_neg hβ] at h
    push Not at hβ
    cases hr : gaussLoop newton (potential b.t b.c) b.shape b.quiet b.emit b.c b.cutoff draws.length b.npart b.emit draws with
    | error e => rw [hr] at h; simp at h
    | ok l =>
      rw [hr] at h
      simp only at h
      have hm := gaussLoop_made _ _ _ _ _ _ _ draws _ _ _ _ _ (List.Subset.refl _) hr
      obtain ⟨_, _, f3⟩ := finish_made (b := b.toBunch) hp hm
      rw [h] at f3
      obtain ⟨ps, g1, g2, _⟩ := f3 rfl
      simp only at g1
      rw [g1]
      refine ⟨rfl, fun p hpm => ?_⟩
      rw [← g2] at hm
      simp only [hq] at hm
      rw [hb]
      obtain ⟨h0, u, hu, w, hw, _, hcut, hen⟩ := made_energy (sh := b.shape) hc hβ.1 hβ.2.1 hm p hpm
      change 0 ≤ energy b.t b.c b.betax b.betax b.alphax b.alphay (p 0) (p 1) (p 2) (p 3) at h0
      change energy b.t b.c b.betax b.betax b.alphax b.alphay (p 0) (p 1) (p 2) (p 3) = _ at hen
      refine ⟨h0, ?_⟩
      rw [hen, mul_comm]
      exact mul_le_mul_of_nonneg_right hcut he

/-- A nonlinear bunch with one particle for the examples. -/
noncomputable def nwitness (e : ℝ) : NBunch :=
  { npart := 1, dist := "waterbag", emitx := e, emity := e, emit := e, betax := 3, alphax := 1, betay := 3, alphay := 2,
    gammax := 2 / 3, gammay := 5 / 3, stdz := 1, dpop := 0, quiet := false, particles := [fun _ => 0], t := 0, c := 2, cutoff := 4 }

theorem potential_zero (c x y : ℝ) : potential 0 c x y = .ok (some (quadratic x y)) := if_pos rfl

/-- A generalised KV bunch. -/
theorem nwitness_kv : ((nwitness 4).distributeKV (fun _ _ => .ok 2) [1 / 2, 1 / 4, 0]).2 = none := by
  unfold NBunch.distributeKV NBunch.lift
  simp only
  rw [if_neg (by simp [nwitness])]
  have hr : kvRun (fun _ _ => .ok 2) (potential (nwitness 4).t (nwitness 4).c) (some (nwitness 4).c) [1 / 2, 1 / 4, 0]
      { (nwitness 4).toBunch with emit := (nwitness 4).emitx } = .ok [place (nwitness 4).shape 4 (1 / 2) 0 1 0] := by
    unfold kvRun
    rw [if_neg (by norm_num [nwitness, Bunch.shape, Bunch.readBetax, Bunch.readBetay])]
    simp only [nwitness, Option.getD_some, List.length_cons, List.length_nil]
    rw [kvLoop.eq_def]
    simp only [potential_zero, trial_half, trial_quarter, quadratic_one]
    rw [if_pos (by norm_num)]
    rw [kvLoop.eq_def]
    rfl
  rw [hr]
  rfl

theorem nwitness_particle (e : ℝ) (he : 1 / 2 < e) (he' : e ≤ 10 ^ 10) (s : Shape) (m : ℝ) :
    oneParticle (fun _ _ => .ok 2) (potential 0 2) s m 2 e [1 / 2, 1 / 4, 0] = .ok (some (place s e (1 / 2) 0 1 0), []) := by
  unfold oneParticle
  rw [if_neg (by push Not; exact ⟨by linarith, he'⟩)]
  simp only
  unfold findPosition
  simp only [potential_zero, trial_half, trial_quarter, quadratic_one]
  rw [if_neg (by push Not; exact he)]

/-- A waterbag bunch. -/
example : ((nwitness 8).distributeWaterbag (fun _ _ => .ok 2) [1 / 4, 1 / 2, 1 / 4, 0]).2 = none := by
  have hs : (8 : ℝ) * Real.sqrt (1 / 4) = 4 := by
    rw [show (1 / 4 : ℝ) = (1 / 2) ^ 2 by norm_num, Real.sqrt_sq (by norm_num)]
    norm_num
  unfold NBunch.distributeWaterbag NBunch.lift
  simp only
  rw [if_neg (by norm_num [nwitness, Bunch.shape, Bunch.readBetax, Bunch.readBetay])]
  simp only [nwitness, List.length_cons, List.length_nil]
  rw [waterbagLoop.eq_def]
  simp only [firstPositive]
  rw [if_neg (by norm_num)]
  simp only
  rw [hs, nwitness_particle 4 (by norm_num) (by norm_num)]
  simp only
  rw [waterbagLoop.eq_def]
  rfl

/-- A truncated Gaussian bunch. -/
example : ((nwitness 4).distributeGaussian (fun _ _ => .ok 2) [1 / 2, 1 / 2, 1 / 2, 1 / 4, 0]).2 = none := by
  have hl : -1 * Real.log (1 / 2 * (1 / 2)) = 2 * Real.log 2 := by
    rw [show (1 / 2 * (1 / 2) : ℝ) = (2 ^ 2)⁻¹ by norm_num, Real.log_inv, Real.log_pow]
    push_cast
    ring
  have l1 := Real.log_two_gt_d9
  have l2 := Real.log_two_lt_d9
  have he : erlang 4 [1 / 2, 1 / 2, 1 / 2, 1 / 4, 0] = some (2 * Real.log 2, [1 / 2, 1 / 4, 0]) := by
    unfold erlang
    rw [if_neg (by norm_num), hl, if_neg (by push Not; linarith)]
  unfold NBunch.distributeGaussian NBunch.lift
  simp only
  rw [if_neg (by norm_num [nwitness, Bunch.shape, Bunch.readBetax, Bunch.readBetay])]
  simp only [nwitness, List.length_cons, List.length_nil]
  rw [gaussLoop.eq_def]
  simp only [he]
  rw [nwitness_particle _ (by linarith) (by linarith)]
  simp only
  rw [gaussLoop.eq_def]
  rfl

theorem lift_congr {b : NBunch} {f g : Bunch → Bunch × Option PyErr} (h : f b.toBunch = g b.toBunch) : b.lift f = b.lift g := by
  unfold NBunch.lift
  rw [h]

theorem finish_emittance (b : Bunch) (x y : ℝ) (r : Except PyErr (List P4)) :
    (Bunch.finish { b with emitx := x, emity := y } r).1.particles = (b.finish r).1.particles ∧
    (Bunch.finish { b with emitx := x, emity := y } r).2 = (b.finish r).2 := by
  unfold Bunch.finish
  cases r with
  | error e => exact ⟨rfl, rfl⟩
  | ok l =>
    simp only
    cases assign b.particles l <;> exact ⟨rfl, rfl⟩

theorem gaussian_emittance (newton : Newton) (draws : List ℝ) (b : NBunch) (x y : ℝ) :
    (NBunch.distributeGaussian newton draws { b with emitx := x, emity := y }).1.particles = (b.distributeGaussian newton draws).1.particles ∧
    (NBunch.distributeGaussian newton draws { b with emitx := x, emity := y }).2 = (b.distributeGaussian newton draws).2 := by
  by_cases hβ : b.betax ≤ 0 ∨ b.betax ≤ 0 ∨ 10 ^ 10 ≤ b.cutoff
  · have e : ∀ b' : NBunch, (b'.betax ≤ 0 ∨ b'.betax ≤ 0 ∨ 10 ^ 10 ≤ b'.cutoff) → b'.distributeGaussian newton draws = (b', some .notModelled) := by
      intro b' h'
      exact lift_congr (g := fun s => (s, some .notModelled)) (if_pos h')
    rw [e b hβ, e { b with emitx := x, emity := y } hβ]
    exact ⟨rfl, rfl⟩
  · have e : ∀ b' : NBunch, ¬ (b'.betax ≤ 0 ∨ b'.betax ≤ 0 ∨ 10 ^ 10 ≤ b'.cutoff) → b'.distributeGaussian newton draws =
        b'.lift fun s => match gaussLoop newton (potential b'.t b'.c) ⟨b'.betax, b'.betax, b'.alphax, b'.alphay⟩ b'.quiet b'.emit b'.c b'.cutoff
          draws.length b'.npart b'.emit draws with
          | .error (e, cur) => ({ s with emit := cur }, some e)
          | .ok l => s.finish (.ok l) := by
      intro b' h'
      exact lift_congr (if_neg h')
    rw [e b hβ, e { b with emitx := x, emity := y } hβ]
    unfold NBunch.lift
    simp only
    cases gaussLoop newton (potential b.t b.c) ⟨b.betax, b.betax, b.alphax, b.alphay⟩ b.quiet b.emit b.c b.cutoff draws.length
        b.npart b.emit draws with
    | error e => exact ⟨rfl, rfl⟩
    | ok l => exact finish_emittance b.toBunch x y _

theorem waterbag_emittance (newton : Newton) (draws : List ℝ) (b : NBunch) (x y : ℝ) :
    (NBunch.distributeWaterbag newton draws { b with emitx := x, emity := y }).1.particles = (b.distributeWaterbag newton draws).1.particles ∧
    (NBunch.distributeWaterbag newton draws { b with emitx := x, emity := y }).2 = (b.distributeWaterbag newton draws).2 :=
  finish_emittance b.toBunch x y _

/-- **C91 is false.** The emittances given to `NonlinearBunch.set_transverse_coordinates` have no influence on
the particles of waterbag and Gaussian bunches: whatever they are, the array is the same. -/
theorem emittance_ignored_fails (newton : Newton) (a : NArgs) (draws : List ℝ) (b : NBunch) (hd : b.dist = "waterbag" ∨ b.dist = "Gaussian")
    (ex ey : Option ℝ) :
    (b.setTransverse newton { a with emitx := ex, emity := ey } draws).1.particles = (b.setTransverse newton a draws).1.particles ∧
    (b.setTransverse newton { a with emitx := ex, emity := ey } draws).2 = (b.setTransverse newton a draws).2 := by
  obtain ⟨aex, aey, abx, aax, acut⟩ := a
  unfold NBunch.setTransverse NBunch.assignArgs
  simp only
  cases h1 : ifGiven abx NBunch.setBetax b with
  | mk b1 e1 =>
    cases e1 with
    | some e => exact ⟨rfl, rfl⟩
    | none =>
      have d1 : b1.dist = b.dist := by
        cases abx with
        | none => simp only [ifGiven, Prod.mk.injEq, and_true] at h1; rw [← h1]
        | some v =>
          simp only [ifGiven, NBunch.setBetax] at h1
          split_ifs at h1 <;> simp only [Prod.mk.injEq] at h1 <;> rw [← h1.1]
      cases h2 : ifGiven aax (fun b v => b.lift fun s => s.setAlphax v) b1 with
      | mk b2 e2 =>
        cases e2 with
        | some e =>
          simp only [andThen, h2]
          exact ⟨trivial, trivial⟩
        | none =>
          have d2 : b2.dist = b1.dist := by
            cases aax with
            | none => simp only [ifGiven, Prod.mk.injEq, and_true] at h2; rw [← h2]
            | some v =>
              simp only [ifGiven, NBunch.lift, Bunch.setAlphax] at h2
              split_ifs at h2 <;> simp only [Prod.mk.injEq] at h2 <;> rw [← h2.1]
          cases acut with
          | some v =>
            simp only [andThen, h2]
            exact ⟨rfl, rfl⟩
          | none =>
            simp only [andThen, h2]
            simp only [ifGiven]
            rw [← d1, ← d2] at hd
            have hkv : b2.dist ≠ "KV" := by
              rcases hd with h | h <;> rw [h] <;> decide
            rw [if_neg hkv, if_neg hkv]
            by_cases hw : b2.dist = "waterbag"
            · rw [if_pos hw, if_pos hw]
              obtain ⟨w1, w2⟩ := waterbag_emittance newton draws b2 (ex.getD b2.emitx) (ey.getD b2.emity)
              obtain ⟨v1, v2⟩ := waterbag_emittance newton draws b2 (aex.getD b2.emitx) (aey.getD b2.emity)
              exact ⟨w1.trans v1.symm, w2.trans v2.symm⟩
            · rw [if_neg hw, if_neg hw, if_pos (hd.resolve_left hw), if_pos (hd.resolve_left hw)]
              obtain ⟨w1, w2⟩ := gaussian_emittance newton draws b2 (ex.getD b2.emitx) (ey.getD b2.emity)
              obtain ⟨v1, v2⟩ := gaussian_emittance newton draws b2 (aex.getD b2.emitx) (aey.getD b2.emity)
              exact ⟨w1.trans v1.symm, w2.trans v2.symm⟩

/-- **C92 is false.** The quiet start cannot be selected for a NonlinearBunch: the argument changes nothing. -/
theorem nonlinear_quiet_fails (npart dist emitx emity betax alphax betay alphay stdz dpop quiet t c cutoff) :
    newNBunch npart dist emitx emity betax alphax betay alphay stdz dpop quiet t c cutoff =
      newNBunch npart dist emitx emity betax alphax betay alphay stdz dpop false t c cutoff ∧
    ∀ b, newNBunch npart dist emitx emity betax alphax betay alphay stdz dpop quiet t c cutoff = .ok b → b.quiet = false := by
  refine ⟨rfl, fun b h => ?_⟩
  unfold newNBunch at h
  cases hn : newBunch npart dist emitx emity betax alphax betay alphay stdz dpop false with
  | error e => rw [hn] at h; cases h
  | ok b0 =>
    rw [hn] at h
    simp only [Except.ok.injEq] at h
    obtain ⟨_, _, _, rfl⟩ := newBunch_ok hn
    rw [← h]

/-! The theorems above at concrete values. -/

example : ∃ b', (witness 1 false 3 3 2).distributeKV (fun _ _ => .ok 2) [1 / 2, 1 / 4, 0] = (b', none) ∧ b'.emit = 4 ∧
    ∀ p ∈ b'.particles, 1 / 2 * (cs 3 2 (p 0) (p 1) + cs 3 0 (p 2) (p 3)) = b'.emit := by
  obtain ⟨b', h, _⟩ := witness_kv (n := 1) (quiet := false) (betax := 3) (betay := 3) (alphax := 2) (a := 1 / 2) (c := 1 / 4) (r := 0)
    (by norm_num) (Or.inl ⟨rfl, rfl⟩) (by rw [trial_half, trial_quarter, quadratic_one.1]; norm_num)
  have := kv_shell_partial (by simp [witness]) h rfl (Or.inl rfl)
  exact ⟨b', h, this.1.trans (by norm_num [witness]), this.2⟩

example : ∃ b', (witness 4 true 3 5 2).distributeKV (fun _ _ => .ok 2) [1 / 4, 1 / 2, 1 / 4] = (b', none) ∧
    ∀ i : Fin 4, (b'.particles.map fun p => trans p i).sum = 0 := by
  obtain ⟨b', h, _⟩ := witness_kv (n := 4) (quiet := true) (betax := 3) (betay := 5) (alphax := 2) (a := 1 / 4) (c := 1 / 2) (r := 1 / 4)
    (by norm_num) (Or.inr ⟨rfl, rfl⟩) (by rw [trial_half, trial_quarter, quadratic_one.2]; norm_num)
  exact ⟨b', h, (quiet_centred (by simp [witness]) rfl h).2⟩

example : ({ witness 1 false 3 3 2 with emity := 7 } : Bunch).distributeKV (fun _ _ => .ok 2) [] =
    ({ witness 1 false 3 3 2 with emity := 7 }, some .assertionError) :=
  (kv_refuses _ [] _ { nwitness 4 with emity := 7, emitx := 2 } (by norm_num [witness]) (by norm_num)).1

example : ∃ b', (witness 1 false 3 5 0).distributeKV (fun _ _ => .ok 2) [1 / 2, 1 / 4, 0] = (b', none) ∧
    ∃ p ∈ b'.particles, 1 / 2 * (cs 3 0 (p 0) (p 1) + cs 5 0 (p 2) (p 3)) ≠ 4 :=
  kv_betay_fails (by norm_num) (by norm_num) (by norm_num)

example : ∃ b', (witness 4 true 3 3 2).distributeKV (fun _ _ => .ok 2) [1 / 4, 1 / 2, 1 / 4] = (b', none) ∧
    ∃ p ∈ b'.particles, 1 / 2 * (cs 3 2 (p 0) (p 1) + cs 3 0 (p 2) (p 3)) ≠ 4 :=
  kv_quiet_fails (by norm_num) (by norm_num)

example : (NBunch.setTransverse (fun _ _ => .ok 2) ⟨none, none, none, none, none⟩ [1 / 4, 1 / 2, 1 / 4, 0]
      { nwitness 8 with dist := "waterbag" }).1.particles =
    (NBunch.setTransverse (fun _ _ => .ok 2) ⟨some 5, some 6, none, none, none⟩ [1 / 4, 1 / 2, 1 / 4, 0]
      { nwitness 8 with dist := "waterbag" }).1.particles :=
  (emittance_ignored_fails _ ⟨none, none, none, none, none⟩ _ _ (Or.inl rfl) (some 5) (some 6)).1.symm

end Verif.Bunch
