import Verif.Bunch.Hamiltonian
import Verif.Bunch.PropsShell

/-!
# Property C126: the Hamiltonian and the printed Twiss parameters
-/

namespace Verif.Bunch

/-- Momentum in normalised coordinates. -/
noncomputable def normP (β α x p : ℝ) : ℝ := Real.sqrt β * p + α * x / Real.sqrt β

/-- **C126, standard bunches.** In normalised coordinates the Hamiltonian is half the sum of the Courant-Snyder invariants. -/
theorem hamiltonian_invariants (b : Bunch) {βx βy : ℝ} (hx : 0 < βx) (hy : 0 < βy) (αx αy x p y q : ℝ) :
    b.hamiltonian (x / Real.sqrt βx) (normP βx αx x p) (y / Real.sqrt βy) (normP βy αy y q) =
      (cs βx αx x p + cs βy αy y q) / 2 := by
  have hx' := Real.sqrt_pos.2 hx
  have hy' := Real.sqrt_pos.2 hy
  have ex := Real.sq_sqrt hx.le
  have ey := Real.sq_sqrt hy.le
  unfold Bunch.hamiltonian normP cs
  rw [← ex, ← ey]
  simp only [Real.sqrt_sq hx'.le, Real.sqrt_sq hy'.le]
  field_simp
  ring

/-- **C126, standard bunches.** The Hamiltonian does not change along the lattice: it is the same after any phase advances. -/
theorem hamiltonian_rotation (b : Bunch) (μ ν x p y q : ℝ) :
    b.hamiltonian (Real.cos μ * x + Real.sin μ * p) (-Real.sin μ * x + Real.cos μ * p)
      (Real.cos ν * y + Real.sin ν * q) (-Real.sin ν * y + Real.cos ν * q) = b.hamiltonian x p y q := by
  have h1 := Real.sin_sq_add_cos_sq μ
  have h2 := Real.sin_sq_add_cos_sq ν
  unfold Bunch.hamiltonian
  linear_combination (1 / 2 * (x ^ 2 + p ^ 2)) * h1 + (1 / 2 * (y ^ 2 + q ^ 2)) * h2

/-- **C126, nonlinear bunches.** Outside of the two poles the Hamiltonian is the kinetic energy and the elliptic potential; at a pole it
is not a number; without aperture parameter ZeroDivisionError is raised. Without nonlinear strength it is the one of the base class. -/
theorem hamiltonian_nonlinear (b : NBunch) (x p y q : ℝ) :
    (0 < b.c → b.t = 0 ∨ (¬ (x = b.c ∧ y = 0) ∧ ¬ (x = -b.c ∧ y = 0)) →
      b.hamiltonian x p y q = .ok (some (1 / 2 * (p ^ 2 + q ^ 2) + ellU b.t b.c x y))) ∧
    (b.t ≠ 0 → b.c ≠ 0 → b.hamiltonian b.c p 0 q = .ok none ∧ b.hamiltonian (-b.c) p 0 q = .ok none) ∧
    (b.t ≠ 0 → b.c = 0 → b.hamiltonian x p y q = .error .zeroDivisionError) ∧
    (b.t = 0 → b.hamiltonian x p y q = .ok (some (b.toBunch.hamiltonian x p y q))) := by
  unfold NBunch.hamiltonian
  refine ⟨fun hc h => ?_, fun ht hc => ?_, fun ht hc => ?_, fun ht => ?_⟩
  · rw [potential_defined b.t b.c x y hc h]
  · obtain ⟨h, -⟩ := potential_singular b.t b.c ht
    rw [(h hc).1, (h hc).2]
    exact ⟨rfl, rfl⟩
  · rw [(potential_singular b.t b.c ht).2 hc x y]
  · rw [ht, potential_linear]
    unfold Bunch.hamiltonian
    simp only [Except.ok.injEq, Option.some.injEq]
    ring

/-- The method evaluated on all particles of a list made without quiet start. -/
theorem made_hamiltonian {b : NBunch} {sh : Shape} (hx : 0 < sh.bx) (hy : 0 < sh.byy) {n : Nat} {E : ℝ → Prop} {ps : List Row}
    (h : Made (potential b.t b.c) sh false n E (ps.map trans)) :
    ∀ p ∈ ps, ∃ e, E e ∧ b.hamiltonian (p 0 / Real.sqrt sh.bx) (normP sh.bx sh.ax (p 0) (p 1)) (p 2 / Real.sqrt sh.byy)
      (normP sh.byy sh.ay (p 2) (p 3)) = .ok (some e) := by
  obtain ⟨qs, h1, _, h3⟩ := h
  intro p hp
  have hm : trans p ∈ qs.flatMap (group false) := by rw [← h1]; exact List.mem_map_of_mem hp
  obtain ⟨q, hqm, hg⟩ := List.mem_flatMap.1 hm
  simp only [group, Bool.false_eq_true, if_false, List.mem_singleton] at hg
  obtain ⟨e, x, y, v, r, hE, hv, hlt, hq⟩ := h3 q hqm
  rw [hq] at hg
  have t0 : p 0 = place sh e v x y r 0 := congrFun hg 0
  have t1 : p 1 = place sh e v x y r 1 := congrFun hg 1
  have t2 : p 2 = place sh e v x y r 2 := congrFun hg 2
  have t3 : p 3 = place sh e v x y r 3 := congrFun hg 3
  obtain ⟨n1, n2, n3⟩ := place_norm hx hy e v x y r hlt
  refine ⟨e, hE, ?_⟩
  unfold NBunch.hamiltonian
  rw [t0, t1, t2, t3, n1, n2, hv]
  simp only [Except.ok.injEq, Option.some.injEq]
  unfold normP
  linarith

/-- **C126, the particles.** For every particle of a generalised KV bunch the method returns the emittance. -/
theorem hamiltonian_kv {newton draws} {b b' : NBunch} (hp : b.particles.length = b.npart) (hq : b.quiet = false)
    (hb : b.betay = b.betax) (h : b.distributeKV newton draws = (b', none)) :
    ∀ p ∈ b'.particles, b'.hamiltonian (p 0 / Real.sqrt b.betax) (normP b.betax b.alphax (p 0) (p 1)) (p 2 / Real.sqrt b.betay)
      (normP b.betay b.alphay (p 2) (p 3)) = .ok (some b.emitx) := by
  have h0 : b'.t = b.t ∧ b'.c = b.c := by
    have := congrArg Prod.fst h
    unfold NBunch.distributeKV NBunch.lift at this
    simp only at this
    rw [← this]
    exact ⟨rfl, rfl⟩
  have h := lift_ok h
  by_cases he : b.emitx ≠ b.emity
  · rw [if_pos he] at h; simp at h
  · rw [if_neg he] at h
    simp only at h
    cases hr : kvRun newton (potential b.t b.c) (some b.c) draws { b.toBunch with emit := b.emitx } with
    | error e => rw [hr] at h; simp [Bunch.finish] at h
    | ok l =>
      rw [hr] at h
      obtain ⟨hβ, hm⟩ := kvRun_made hr
      obtain ⟨_, _, f3⟩ := finish_made (b := { b.toBunch with emit := b.emitx }) hp hm
      rw [h] at f3
      obtain ⟨ps, g1, g2, _⟩ := f3 rfl
      simp only at g1
      have g3 : b'.particles = ps := by rw [g1]
      rw [g3]
      rw [← g2] at hm
      simp only [hq] at hm
      rw [← h0.1, ← h0.2] at hm
      intro p hpm
      obtain ⟨e, rfl, hH⟩ := made_hamiltonian (sh := b.shape) hβ hβ hm p hpm
      rw [hb]
      exact hH

/-- **C126, printed Twiss parameters.** After any assignments to a new bunch, the printed gamma belongs to the printed beta and alpha. -/
theorem printed_consistent {npart dist emitx emity betax alphax betay alphay stdz dpop quiet b}
    (h : newBunch npart dist emitx emity betax alphax betay alphay stdz dpop quiet = .ok b) (l : List Assign) :
    ∃ βx βy αx αy γx γy, (history b l).printTwiss =
      [("betax", βx), ("betay", βy), ("alphax", αx), ("alphay", αy), ("gammax", γx), ("gammay", γy)] ∧
      (βx ≠ 0 → γx * βx - αx ^ 2 = 1) ∧ (βy ≠ 0 → γy * βy - αy ^ 2 = 1) := by
  obtain ⟨hx, hy⟩ := standard_consistent h l
  refine ⟨_, _, _, _, _, _, rfl, fun hn => ?_, fun hn => ?_⟩
  · rw [hx hn]
    field_simp
    ring
  · rw [hy hn]
    field_simp
    ring

/-- **C126, the vertical beta function.** A value assigned to `betay` is printed, also if reading the property gives `betax`. -/
theorem printed_betay (b : Bunch) (v : ℝ) (hv : 0 < v) :
    ("betay", v) ∈ (b.setBetay v).1.printTwiss ∧ ("betax", (b.setBetay v).1.readBetay) ∈ (b.setBetay v).1.printTwiss := by
  obtain ⟨-, h, -⟩ := read_betay_fails b v hv
  unfold Bunch.printTwiss
  rw [h]
  exact ⟨by simp, by simp [Bunch.readBetay]⟩

/-- **C126, false for nonlinear bunches.** After `betax` is assigned, the printed vertical gamma belongs to the printed beta and alpha only
if the two alphas agree up to sign. -/
theorem printed_nonlinear_fails (b : NBunch) (v : ℝ) (hv : 0 < v) :
    ∃ γx γy, (b.setBetax v).1.printTwiss =
      [("betax", v), ("betay", v), ("alphax", b.alphax), ("alphay", b.alphay), ("gammax", γx), ("gammay", γy)] ∧
      γx * v - b.alphax ^ 2 = 1 ∧ (γy * v - b.alphay ^ 2 = 1 ↔ b.alphax ^ 2 = b.alphay ^ 2) := by
  unfold NBunch.setBetax
  rw [if_neg (not_lt.2 hv.le), if_neg hv.ne']
  refine ⟨_, _, rfl, ?_, ?_⟩
  · field_simp
    ring
  · rw [div_mul_cancel₀ _ hv.ne']
    constructor <;> intro h <;> linarith

/-- A particle of a KV bunch with alpha one and two. -/
example : ∃ b' : NBunch, (nwitness 4).distributeKV (fun _ _ => .ok 2) [1 / 2, 1 / 4, 0] = (b', none) ∧
    ∀ p ∈ b'.particles, b'.hamiltonian (p 0 / Real.sqrt 3) (normP 3 1 (p 0) (p 1)) (p 2 / Real.sqrt 3) (normP 3 2 (p 2) (p 3)) =
      .ok (some 4) :=
  ⟨_, Prod.ext rfl nwitness_kv, hamiltonian_kv (b := nwitness 4) rfl rfl rfl (Prod.ext rfl nwitness_kv)⟩

/-- The phase space ellipse of beta two and alpha one. -/
example (b : Bunch) : b.hamiltonian (4 / Real.sqrt 2) (normP 2 1 4 (-1)) (0 / Real.sqrt 1) (normP 1 0 0 3) = 13 / 2 + 3 := by
  rw [hamiltonian_invariants b (by norm_num) (by norm_num)]
  norm_num [cs]

/-- A bunch whose printed parameters are consistent. -/
example : ∃ b, newBunch 1 "KV" 1 1 2 1 3 0 1 0 false = .ok b ∧ ∃ βx βy αx αy γx γy,
    (history b [.betax 5, .alphay 2]).printTwiss =
      [("betax", βx), ("betay", βy), ("alphax", αx), ("alphay", αy), ("gammax", γx), ("gammay", γy)] ∧
    (βx ≠ 0 → γx * βx - αx ^ 2 = 1) ∧ (βy ≠ 0 → γy * βy - αy ^ 2 = 1) := by
  have h : ∃ b, newBunch 1 "KV" 1 1 2 1 3 0 1 0 false = .ok b := by
    unfold newBunch
    rw [if_neg (by norm_num), if_neg (by norm_num)]
    exact ⟨_, rfl⟩
  obtain ⟨b, hb⟩ := h
  exact ⟨b, hb, printed_consistent hb _⟩

end Verif.Bunch
