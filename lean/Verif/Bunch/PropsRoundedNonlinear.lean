import Verif.Bunch.RoundedNonlinear
import Verif.Bunch.PropsRoundedKV
import Verif.Bunch.PropsRoundedPotential

/-!
# Property C169: nonlinear bunches in double precision
-/

namespace Verif.Bunch

open Verif.Py Verif.Sample Verif.Kinematic Verif.Nonlinear

variable (R : Rounding)

/-! ## The potential is never infinite -/

theorem elliptic_no_inf (F : Arc) (u v : ℝ) : (∃ p, rElliptic R F u v = .num p) ∨ rElliptic R F u v = .nan := by
  unfold rElliptic
  by_cases hu : R.rnd (R.rnd (u * u) - 1) < 0
  · right; simp [rsqrt, hu]
  by_cases hv : R.rnd (1 - R.rnd (v * v)) < 0
  · right; simp [rsqrt, hv]
  simp only [rsqrt, if_neg hu, if_neg hv]
  by_cases hd : u < 1 ∨ 1 < |v|
  · right; rw [if_pos hd]
  rw [if_neg hd]
  rw [not_or, not_lt, not_lt] at hd
  unfold fdiv
  by_cases h0 : R.rnd (R.rnd (u * u) - R.rnd (v * v)) = 0
  · right
    have h1 : 1 ≤ R.rnd (u * u) := R.ge_of_ge isFloat_one (by nlinarith [hd.1])
    have h2 : R.rnd (v * v) ≤ 1 := R.le_of_le isFloat_one (by rw [← abs_mul_abs_self]; nlinarith [hd.2, abs_nonneg v])
    have h3 := R.eq_zero h0
    have e1 : R.rnd (u * u) = 1 := by linarith
    have e2 : R.rnd (v * v) = 1 := by linarith
    simp [e1, e2]
  · left
    rw [if_neg h0]
    exact ⟨_, rfl⟩

/-- **C169, potential.** For a pole that is not zero the potential is a number or nan, never infinite. -/
theorem potential_no_inf (F : Arc) {t c : ℝ} (hc : c ≠ 0) (x y : ℝ) :
    (∃ p, rPotential R F t c x y = .ok (.num p)) ∨ rPotential R F t c x y = .ok .nan := by
  unfold rPotential
  by_cases ht : t = 0
  · left; exact ⟨_, if_pos ht⟩
  simp only [if_neg ht, if_neg hc]
  rcases elliptic_no_inf R F (rU R (R.rnd (x / c)) (R.rnd (y / c))) (rV R (R.rnd (x / c)) (R.rnd (y / c))) with ⟨p, hp⟩ | hp
  · left; rw [hp]; exact ⟨_, rfl⟩
  · right; rw [hp]; rfl

/-! ## The loops -/

/-- The list of particles was made from accepted trials with the pole `c` and energies in `E`, with three more each in a quiet start. -/
def RMade (T : Trig) (newton : Newton) (pot : ℝ → ℝ → Except PyErr (Option ℝ)) (sh : Shape) (quiet : Bool) (c : ℝ) (E : ℝ → Prop) (d : List ℝ) (n : Nat)
    (l : List P4) : Prop :=
  ∃ qs : List P4, l = qs.flatMap (group quiet) ∧ qs.length = (if quiet then (n + 3) / 4 else n) ∧
    ∀ q ∈ qs, ∃ f z m, newton f z = .ok m ∧ ∃ a ∈ d, ∃ b ∈ d, ∃ r ∈ d, ∃ h v, E h ∧ pot (rTrialCoord R a c) (rTrialCoord R b m) = .ok (some v) ∧
      v < h ∧ q = rPlace R T sh h v (rTrialCoord R a c) (rTrialCoord R b m) r

variable {R}

theorem RMade.nil {T newton pot sh quiet c E d} : RMade R T newton pot sh quiet c E d 0 [] := ⟨[], rfl, by cases quiet <;> simp, by simp⟩

theorem RMade.mono {T newton pot sh quiet c E d d' n l} (h : RMade R T newton pot sh quiet c E d n l) (hd : d ⊆ d') :
    RMade R T newton pot sh quiet c E d' n l := by
  obtain ⟨qs, h1, h2, h3⟩ := h
  refine ⟨qs, h1, h2, fun q hq => ?_⟩
  obtain ⟨f, z, m, hm, a, ha, b, hb, r, hr, h4⟩ := h3 q hq
  exact ⟨f, z, m, hm, a, hd ha, b, hd hb, r, hd hr, h4⟩

theorem RMade.cons {T newton pot sh quiet c E d n l} {f z m a b r h v} (hl : RMade R T newton pot sh quiet c E d (if quiet then n - 3 else n) l)
    (hm : newton f z = .ok m) (hE : E h) (ha : a ∈ d) (hb : b ∈ d) (hr : r ∈ d) (hp : pot (rTrialCoord R a c) (rTrialCoord R b m) = .ok (some v)) (hv : v < h) :
    RMade R T newton pot sh quiet c E d (n + 1) (rPlace R T sh h v (rTrialCoord R a c) (rTrialCoord R b m) r ::
      ((if quiet then mirrors (rPlace R T sh h v (rTrialCoord R a c) (rTrialCoord R b m) r) else []) ++ l)) := by
  obtain ⟨qs, h1, h2, h3⟩ := hl
  refine ⟨rPlace R T sh h v (rTrialCoord R a c) (rTrialCoord R b m) r :: qs, ?_, ?_, fun q hq => ?_⟩
  · rw [List.flatMap_cons, h1]; rfl
  · rw [List.length_cons, h2]
    cases quiet
    · simp
    · simp only [if_true]; omega
  · rcases List.mem_cons.mp hq with rfl | hq
    · exact ⟨f, z, m, hm, a, ha, b, hb, r, hr, h, v, hE, hp, hv, rfl⟩
    · exact h3 q hq

variable (R)

theorem rNKvLoop_made (T : Trig) {newton : Newton} (pot) (sh : Shape) (quiet : Bool) (h c : ℝ) {E : ℝ → Prop} (hE : E h) {f z yMax} (hm : newton f z = .ok yMax) :
    ∀ (fuel n : Nat) (s : List ℝ) (l : List P4), rNKvLoop R T pot sh quiet h c yMax fuel n s = .ok l →
      RMade R T newton pot sh quiet c E s n l := by
  intro fuel
  induction fuel with
  | zero =>
    intro n s l e
    cases n with
    | zero => rw [rNKvLoop] at e; cases e; exact RMade.nil
    | succ n => rw [rNKvLoop] at e; cases e
  | succ fuel ih =>
    intro n s l e
    cases n with
    | zero => rw [rNKvLoop] at e; cases e; exact RMade.nil
    | succ n =>
      match s with
      | [] => simp [rNKvLoop] at e
      | [a] => simp [rNKvLoop] at e
      | a :: b :: s =>
        unfold rNKvLoop at e
        simp only at e
        split at e
        · cases e
        · exact (ih _ _ _ e).mono fun _ hx => by simp [hx]
        · next v hv =>
          by_cases hlt : v < h
          · rw [if_pos hlt] at e
            match s with
            | [] => cases e
            | r :: s =>
              simp only at e
              split at e
              · cases e
              · next l' hl =>
                cases e
                exact ((ih _ _ _ hl).mono fun _ hx => by simp [hx]).cons hm hE (by simp) (by simp) (by simp) hv hlt
          · rw [if_neg hlt] at e
            exact (ih _ _ _ e).mono fun _ hx => by simp [hx]

theorem rFindPosition_ok {pot : ℝ → ℝ → Except PyErr (Option ℝ)} {h c yMax : ℝ} : ∀ {s : List ℝ} {x y v s'},
    rFindPosition R pot h c yMax s = .ok (x, y, v, s') → s' ⊆ s ∧ ∃ a ∈ s, ∃ b ∈ s, x = rTrialCoord R a c ∧ y = rTrialCoord R b yMax ∧
      pot x y = .ok v ∧ ∀ w, v = some w → w < h
  | [], _, _, _, _, e => by simp [rFindPosition] at e
  | [_], _, _, _, _, e => by simp [rFindPosition] at e
  | a :: b :: s, x, y, v, s', e => by
    unfold rFindPosition at e
    split at e
    · cases e
    · next hv =>
      simp only [Except.ok.injEq, Prod.mk.injEq] at e
      obtain ⟨rfl, rfl, rfl, rfl⟩ := e
      exact ⟨fun _ hx => by simp [hx], a, by simp, b, by simp, rfl, rfl, hv, by simp⟩
    · next w hv =>
      by_cases hl : h ≤ w
      · rw [if_pos hl] at e
        obtain ⟨h1, a', ha, b', hb, h2⟩ := rFindPosition_ok e
        exact ⟨fun _ hx => by simp [h1 hx], a', by simp [ha], b', by simp [hb], h2⟩
      · rw [if_neg hl] at e
        simp only [Except.ok.injEq, Prod.mk.injEq] at e
        obtain ⟨rfl, rfl, rfl, rfl⟩ := e
        refine ⟨fun _ hx => by simp [hx], a, by simp, b, by simp, rfl, rfl, hv, fun w' hw => ?_⟩
        cases hw
        exact not_le.1 hl

theorem rOneParticle_ok {T : Trig} {newton : Newton} {pot sh emit c h s q s'} (e : rOneParticle R T newton pot sh emit c h s = .ok (q, s')) :
    s' ⊆ s ∧ ∀ p, q = some p → ∃ f z m, newton f z = .ok m ∧ ∃ a ∈ s, ∃ b ∈ s, ∃ r ∈ s, ∃ v,
      pot (rTrialCoord R a c) (rTrialCoord R b m) = .ok (some v) ∧ v < h ∧ p = rPlace R T sh h v (rTrialCoord R a c) (rTrialCoord R b m) r := by
  unfold rOneParticle at e
  by_cases hc : h < 0 ∨ 10 ^ 10 < h
  · rw [if_pos hc] at e; cases e
  rw [if_neg hc] at e
  split at e
  · cases e
  · next m hm =>
    split at e
    · cases e
    · next x y s1 hf =>
      simp only [Except.ok.injEq, Prod.mk.injEq] at e
      obtain ⟨rfl, rfl⟩ := e
      exact ⟨(rFindPosition_ok R hf).1, by simp⟩
    · next x y v s1 hf =>
      match s1 with
      | [] => cases e
      | r :: s2 =>
        simp only [Except.ok.injEq, Prod.mk.injEq] at e
        obtain ⟨rfl, rfl⟩ := e
        obtain ⟨h1, a, ha, b, hb, rfl, rfl, h2, h3⟩ := rFindPosition_ok R hf
        refine ⟨fun _ hx => h1 (by simp [hx]), fun p hp => ?_⟩
        cases hp
        exact ⟨_, _, m, hm, a, ha, b, hb, r, h1 (by simp), v, h2, h3 v rfl, rfl⟩

theorem rFirstPositive_sub : ∀ {s : List ℝ} {u s'}, firstPositive s = some (u, s') → s' ⊆ s ∧ u ∈ s ∧ 0 < u
  | [], _, _, e => by simp [firstPositive] at e
  | a :: s, u, s', e => by
    unfold firstPositive at e
    by_cases h : a ≤ 0
    · rw [if_pos h] at e
      have k := rFirstPositive_sub e
      exact ⟨fun _ hx => by simp [k.1 hx], by simp [k.2.1], k.2.2⟩
    · rw [if_neg h] at e
      cases e
      exact ⟨fun _ hx => by simp [hx], by simp, not_le.1 h⟩

theorem rErlang_sub {log : ℝ → ℝ} {cutoff : ℝ} : ∀ {s : List ℝ} {u s'}, rErlang R log cutoff s = some (u, s') → s' ⊆ s ∧ u ≤ cutoff
  | [], _, _, e => by simp [rErlang] at e
  | [_], _, _, e => by simp [rErlang] at e
  | a :: b :: s, u, s', e => by
    unfold rErlang at e
    by_cases h : R.rnd (a * b) ≤ 0
    · rw [if_pos h] at e
      exact ⟨fun _ hx => by simp [(rErlang_sub e).1 hx], (rErlang_sub e).2⟩
    · rw [if_neg h] at e
      by_cases h' : cutoff < R.rnd (-1 * log (R.rnd (a * b)))
      · rw [if_pos h'] at e
        exact ⟨fun _ hx => by simp [(rErlang_sub e).1 hx], (rErlang_sub e).2⟩
      · rw [if_neg h'] at e
        cases e
        exact ⟨fun _ hx => by simp [hx], not_lt.1 h'⟩

theorem rWaterbagLoop_made (T : Trig) {newton : Newton} (pot) (sh : Shape) (quiet : Bool) (emit c : ℝ) {E : ℝ → Prop} :
    ∀ (fuel n : Nat) (s : List ℝ) (l : List P4), (∀ u ∈ s, 0 < u → E (R.rnd (emit * R.rnd (Real.sqrt u)))) →
      rWaterbagLoop R T newton pot sh quiet emit c fuel n s = .ok l →
      RMade R T newton pot sh quiet c E s n l := by
  intro fuel
  induction fuel with
  | zero =>
    intro n s l hE e
    cases n with
    | zero => rw [rWaterbagLoop] at e; cases e; exact RMade.nil
    | succ n => rw [rWaterbagLoop] at e; cases e
  | succ fuel ih =>
    intro n s l hE e
    cases n with
    | zero => rw [rWaterbagLoop] at e; cases e; exact RMade.nil
    | succ n =>
      unfold rWaterbagLoop at e
      split at e
      · cases e
      · next u s1 h1 =>
        have k1 := rFirstPositive_sub h1
        split at e
        · cases e
        · next s2 h2 =>
          have k2 := (rOneParticle_ok R h2).1
          exact (ih _ _ _ (fun u hu => hE u (k1.1 (k2 hu))) e).mono fun _ hx => k1.1 (k2 hx)
        · next q s2 h2 =>
          obtain ⟨k2, k3⟩ := rOneParticle_ok R h2
          split at e
          · cases e
          · next l' hl =>
            cases e
            obtain ⟨f, z, m, hm, a, ha, b, hb, r, hr, v, hp, hv, rfl⟩ := k3 q rfl
            exact ((ih _ _ _ (fun u hu => hE u (k1.1 (k2 hu))) hl).mono fun _ hx => k1.1 (k2 hx)).cons hm (hE _ k1.2.1 k1.2.2) (k1.1 ha) (k1.1 hb) (k1.1 hr) hp hv

theorem rGaussLoop_made (T : Trig) (log : ℝ → ℝ) {newton : Newton} (pot) (sh : Shape) (quiet : Bool) (emit c cutoff : ℝ) {E : ℝ → Prop} (hE : ∀ th ≤ cutoff, E (R.rnd (emit * th))) :
    ∀ (fuel n : Nat) (cur : ℝ) (s : List ℝ) (l : List P4), rGaussLoop R T log newton pot sh quiet emit c cutoff fuel n cur s = .ok l →
      RMade R T newton pot sh quiet c E s n l := by
  intro fuel
  induction fuel with
  | zero =>
    intro n cur s l e
    cases n with
    | zero => rw [rGaussLoop] at e; cases e; exact RMade.nil
    | succ n => rw [rGaussLoop] at e; cases e
  | succ fuel ih =>
    intro n cur s l e
    cases n with
    | zero => rw [rGaussLoop] at e; cases e; exact RMade.nil
    | succ n =>
      unfold rGaussLoop at e
      split at e
      · cases e
      · next u s1 h1 =>
        have k1 := (rErlang_sub R h1).1
        have k0 := (rErlang_sub R h1).2
        split at e
        · cases e
        · next s2 h2 =>
          have k2 := (rOneParticle_ok R h2).1
          exact (ih _ _ _ _ e).mono fun _ hx => k1 (k2 hx)
        · next q s2 h2 =>
          obtain ⟨k2, k3⟩ := rOneParticle_ok R h2
          split at e
          · cases e
          · next l' hl =>
            cases e
            obtain ⟨f, z, m, hm, a, ha, b, hb, r, hr, v, hp, hv, rfl⟩ := k3 q rfl
            exact ((ih _ _ _ _ hl).mono fun _ hx => k1 (k2 hx)).cons hm (hE _ k0) (k1 ha) (k1 hb) (k1 hr) hp hv

/-- One of the three ways to fill a nonlinear bunch, with the energies of its particles: the emittance for a KV distribution, the emittance times the
root of a drawn number for a waterbag distribution, and at most the cutoff times the emittance for a Gaussian one. -/
inductive Fills (T : Trig) (F : Arc) (log : ℝ → ℝ) (newton : Newton) (draws : List ℝ) (b b' : NBunch) : (ℝ → Prop) → Prop
  | kv (h : rNDistributeKV R T F newton draws b = (b', none)) : Fills T F log newton draws b b' fun h => h = b.emitx
  | waterbag (h : rNDistributeWaterbag R T F newton draws b = (b', none)) :
    Fills T F log newton draws b b' fun h => ∃ u ∈ draws, 0 < u ∧ h = R.rnd (b.emit * R.rnd (Real.sqrt u))
  | gaussian (h : rNDistributeGaussian R T F log newton draws b = (b', none)) :
    Fills T F log newton draws b b' fun h => ∃ th ≤ b.cutoff, h = R.rnd (b.emit * th)

theorem rFinish_ok {b b' : Bunch} {l : Except PyErr (List P4)} (h : b.finish l = (b', none)) :
    ∃ l', l = .ok l' ∧ assign b.particles l' = .ok b'.particles ∧ b'.emit = b.emit := by
  unfold Bunch.finish at h
  split at h
  · simp at h
  · next l' =>
    split at h
    · simp at h
    · next ps hps =>
      simp only [Prod.mk.injEq, and_true] at h
      subst h
      exact ⟨l', rfl, hps, rfl⟩

theorem rLift_ok {b b' : NBunch} {f : Bunch → Bunch × Option PyErr} (h : b.lift f = (b', none)) : f b.toBunch = (b'.toBunch, none) := by
  unfold NBunch.lift at h
  simp only [Prod.mk.injEq] at h
  obtain ⟨rfl, h⟩ := h
  exact Prod.ext rfl h

theorem fills_made {T : Trig} {F : Arc} {log : ℝ → ℝ} {newton : Newton} {draws : List ℝ} {b b' : NBunch} {E : ℝ → Prop}
    (h : Fills R T F log newton draws b b' E) :
    ∃ l, RMade R T newton (rPot R F b.t b.c) b.shape b.quiet b.c E draws b.npart l ∧ assign b.particles l = .ok b'.particles := by
  cases h with
  | kv h =>
    have h := rLift_ok h
    by_cases he : b.emitx ≠ b.emity
    · rw [if_pos he] at h; simp at h
    rw [if_neg he] at h
    obtain ⟨l, h1, h2, _⟩ := rFinish_ok h
    refine ⟨l, ?_, h2⟩
    split at h1
    · cases h1
    · split at h1
      · cases h1
      · next m hm => exact rNKvLoop_made R T _ _ _ _ _ (E := fun h => h = b.emitx) rfl hm _ _ _ _ h1
  | waterbag h =>
    have h := rLift_ok h
    obtain ⟨l, h1, h2, _⟩ := rFinish_ok h
    refine ⟨l, ?_, h2⟩
    split at h1
    · cases h1
    · exact rWaterbagLoop_made R T _ _ _ _ _ _ _ _ _ (fun u hu h0 => ⟨u, hu, h0, rfl⟩) h1
  | gaussian h =>
    have h := rLift_ok h
    split at h
    · simp at h
    · split at h
      · simp at h
      · next l h1 =>
        obtain ⟨l', h2, h3, _⟩ := rFinish_ok h
        cases h2
        exact ⟨l, rGaussLoop_made R T log _ _ _ _ _ _ (fun th h => ⟨th, h, rfl⟩) _ _ _ _ _ h1, h3⟩

/-- **C169, emittance.** A waterbag or a Gaussian distribution leaves the emittance as it was; a KV distribution sets it to that of x. -/
theorem nonlinear_emit {T : Trig} {F : Arc} {log : ℝ → ℝ} {newton : Newton} {draws : List ℝ} {b b' : NBunch} :
    (rNDistributeKV R T F newton draws b = (b', none) → b'.emit = b.emitx ∧ b.emitx = b.emity) ∧
    (rNDistributeWaterbag R T F newton draws b = (b', none) → b'.emit = b.emit) ∧
    (rNDistributeGaussian R T F log newton draws b = (b', none) → b'.emit = b.emit) := by
  refine ⟨fun h => ?_, fun h => ?_, fun h => ?_⟩
  · have h := rLift_ok h
    by_cases he : b.emitx ≠ b.emity
    · rw [if_pos he] at h; simp at h
    rw [if_neg he] at h
    obtain ⟨l, _, _, h2⟩ := rFinish_ok h
    exact ⟨h2, not_not.1 he⟩
  · obtain ⟨l, _, _, h2⟩ := rFinish_ok (rLift_ok h)
    exact h2
  · have h := rLift_ok h
    split at h
    · simp at h
    · split at h
      · simp at h
      · exact (rFinish_ok h).choose_spec.2.2

/-- **C169, quiet start.** After a quiet start of any of the three kinds the sum of each transverse coordinate is exactly zero, added one particle
after the other or as `np.sum` does. -/
theorem nonlinear_quiet {T : Trig} {F : Arc} {log : ℝ → ℝ} {newton : Newton} {draws : List ℝ} {b b' : NBunch} {E : ℝ → Prop} (hq : b.quiet = true)
    (h : Fills R T F log newton draws b b' E) (i : Fin 4) :
    addAll R 0 (b'.particles.map fun p => trans p i) = 0 ∧ npSum R (b'.particles.map fun p => trans p i) = 0 := by
  obtain ⟨l, ⟨qs, h1, _, h2⟩, ha⟩ := fills_made R h
  rw [hq] at h1
  have hlen : l.length ≠ 1 := by
    rw [h1, group_length]
    simp only [if_true]
    omega
  have hcol : (b'.particles.map fun p => trans p i) = (qs.map fun q => q i).flatMap (four (i.1 % 2 = 0)) := by
    rw [← group_four, ← h1, ← assign_trans ha hlen, List.map_map]
    rfl
  have hf : ∀ x ∈ qs.map (fun q => q i), IsFloat x := by
    intro x hx
    obtain ⟨q, hq', rfl⟩ := List.mem_map.mp hx
    obtain ⟨_, _, _, _, a, _, b2, _, r, _, _, _, _, _, _, rfl⟩ := h2 q hq'
    exact rPlace_isFloat R T _ _ _ _ _ _ i
  rw [hcol]
  exact ⟨addAll_fours R _ hf, npSum_fours R _ _ _ le_rfl hf⟩

/-- **C169, extent.** With drawn numbers between 0 and 1, no particle of any of the three kinds is beyond the pole, scaled with the root of the beta
function, and each is within a point at which the root finder stopped. -/
theorem nonlinear_extent {T : Trig} {F : Arc} {log : ℝ → ℝ} {newton : Newton} {draws : List ℝ} {b b' : NBunch} {E : ℝ → Prop}
    (hd : ∀ a ∈ draws, 0 ≤ a ∧ a ≤ 1) (hc : IsFloat b.c) (hn : ∀ f x m, newton f x = .ok m → IsFloat m)
    (h : Fills R T F log newton draws b b' E) :
    ∀ p ∈ b'.particles, |p 0| ≤ R.rnd (|b.c| * R.rnd (Real.sqrt b.betax)) ∧
      ∃ f z m, newton f z = .ok m ∧ |p 2| ≤ R.rnd (|m| * R.rnd (Real.sqrt b.betax)) := by
  obtain ⟨l, ⟨qs, h1, _, h2⟩, ha⟩ := fills_made R h
  intro p hp
  have hpl := assign_mem ha p hp
  rw [h1, List.mem_flatMap] at hpl
  obtain ⟨q, hq, hpq⟩ := hpl
  obtain ⟨f, z, m, hm, a, ha', c, hc', r, _, _, _, _, _, _, hqe⟩ := h2 q hq
  have hB : 0 ≤ R.rnd (Real.sqrt b.betax) := R.nonneg (Real.sqrt_nonneg _)
  have key : ∀ a ∈ draws, ∀ k, IsFloat k → |R.rnd (rTrialCoord R a k * R.rnd (Real.sqrt b.betax))| ≤ R.rnd (|k| * R.rnd (Real.sqrt b.betax)) := by
    intro a ha k hk
    rw [rnd_abs, abs_mul, abs_of_nonneg hB]
    exact R.mono (mul_le_mul_of_nonneg_right (rTrialCoord_le R (hd a ha).1 (hd a ha).2 hk) hB)
  have k0 : |q 0| ≤ R.rnd (|b.c| * R.rnd (Real.sqrt b.betax)) := by rw [hqe]; exact key a ha' _ hc
  have k2 : |q 2| ≤ R.rnd (|m| * R.rnd (Real.sqrt b.betax)) := by rw [hqe]; exact key c hc' _ (hn _ _ _ hm)
  have t0 : p 0 = trans p 0 := rfl
  have t2 : p 2 = trans p 2 := rfl
  rw [t0, t2]
  have hcase : (trans p 0 = q 0 ∨ trans p 0 = -q 0) ∧ (trans p 2 = q 2 ∨ trans p 2 = -q 2) := by
    cases hqu : b.quiet with
    | false =>
      rw [hqu] at hpq
      simp only [group, List.mem_cons, Bool.false_eq_true, if_false, List.not_mem_nil, or_false] at hpq
      rw [hpq]
      exact ⟨Or.inl rfl, Or.inl rfl⟩
    | true =>
      rw [hqu] at hpq
      simp only [group, mirrors, List.mem_cons, if_true, List.not_mem_nil, or_false] at hpq
      rcases hpq with e | e | e | e <;> rw [e] <;> simp
  refine ⟨?_, f, z, m, hm, ?_⟩
  · rcases hcase.1 with e | e <;> rw [e]
    · exact k0
    · rw [abs_neg]; exact k0
  · rcases hcase.2 with e | e <;> rw [e]
    · exact k2
    · rw [abs_neg]; exact k2

/-- **C169, momentum.** A particle of any of the three kinds is where the potential is a number below its energy, so the root of its momentum is
that of a positive number. -/
theorem nonlinear_momentum {T : Trig} {F : Arc} {log : ℝ → ℝ} {newton : Newton} {draws : List ℝ} {b b' : NBunch} {E : ℝ → Prop}
    (hq : b.quiet = false) (h : Fills R T F log newton draws b b' E) :
    ∀ p ∈ b'.particles, ∃ x y v h r, E h ∧ rPotential R F b.t b.c x y = .ok (.num v) ∧ 0 < R.rnd (2 * R.rnd (h - v)) ∧
      p 0 = R.rnd (x * R.rnd (Real.sqrt b.betax)) ∧ p 2 = R.rnd (y * R.rnd (Real.sqrt b.betax)) ∧
      p 1 = R.rnd (R.rnd (R.rnd (R.rnd (Real.sqrt (R.rnd (2 * R.rnd (h - v)))) * T.cos r) - R.rnd (b.alphax * x)) / R.rnd (Real.sqrt b.betax)) ∧
      p 3 = R.rnd (R.rnd (R.rnd (R.rnd (Real.sqrt (R.rnd (2 * R.rnd (h - v)))) * T.sin r) - R.rnd (b.alphay * y)) / R.rnd (Real.sqrt b.betax)) := by
  obtain ⟨l, ⟨qs, h1, _, h2⟩, ha⟩ := fills_made R h
  intro p hp
  have hpl := assign_mem ha p hp
  rw [h1, List.mem_flatMap] at hpl
  obtain ⟨q, hq', hpq⟩ := hpl
  rw [hq] at hpq
  simp only [group, List.mem_cons, Bool.false_eq_true, if_false, List.not_mem_nil, or_false] at hpq
  obtain ⟨f, z, m, hm, a, ha', c, hc', r, _, H, v, hH, hv, hlt, hqe⟩ := h2 q hq'
  have hv' : rPotential R F b.t b.c (rTrialCoord R a b.c) (rTrialCoord R c m) = .ok (.num v) := by
    unfold rPot at hv
    split at hv
    · cases hv
    · next w hw => simp only [Except.ok.injEq, Option.some.injEq] at hv; rw [← hv]; exact hw
    · cases hv
  have e : ∀ i, trans p i = rPlace R T b.shape H v (rTrialCoord R a b.c) (rTrialCoord R c m) r i := fun i => by rw [hpq, hqe]
  exact ⟨_, _, v, H, _, hH, hv', R.pos (by linarith [R.pos (x := H - v) (by linarith)]), e 0, e 2, e 1, e 3⟩

/-- Four particles of a quiet waterbag distribution from four drawn numbers. -/
example : ∃ (T : Trig) (F : Arc) (log : ℝ → ℝ) (newton : Newton) (draws : List ℝ) (b b' : NBunch) (E : ℝ → Prop), b.quiet = true ∧
    (∀ a ∈ draws, 0 ≤ a ∧ a ≤ 1) ∧ IsFloat b.c ∧ (∀ f x m, newton f x = .ok m → IsFloat m) ∧ b.npart = 4 ∧
    rNDistributeWaterbag R T F newton draws b = (b', none) ∧ Fills R T F log newton draws b b' E := by
  have hp : rPot R ⟨fun _ => 0, fun _ => 0⟩ 0 1 (rTrialCoord R (1 / 2) 1) (rTrialCoord R (1 / 2) 2) = .ok (some 0) := by
    simp [rPot, rPotential, rTrialCoord]
  have h4 : R.rnd (4 * R.rnd (Real.sqrt 1)) = 4 := by
    rw [Real.sqrt_one, R.rnd_one, mul_one]
    exact R.fixed (by exact_mod_cast isFloat_int (n := 4) (by norm_num))
  have key : rNDistributeWaterbag R ⟨Real.cos, Real.sin⟩ ⟨fun _ => 0, fun _ => 0⟩ (fun _ _ => .ok 2) [1, 1 / 2, 1 / 2, 1 / 4]
      ⟨⟨4, "waterbag", 1, 1, 4, 3, 0, 3, 0, 0, 0, 0, 0, true, List.replicate 4 0⟩, 0, 1, 4⟩ =
      ((rNDistributeWaterbag R ⟨Real.cos, Real.sin⟩ ⟨fun _ => 0, fun _ => 0⟩ (fun _ _ => .ok 2) [1, 1 / 2, 1 / 2, 1 / 4]
      ⟨⟨4, "waterbag", 1, 1, 4, 3, 0, 3, 0, 0, 0, 0, 0, true, List.replicate 4 0⟩, 0, 1, 4⟩).1, none) := by
    refine Prod.ext rfl ?_
    have hc : ¬((3 : ℝ) ≤ 0 ∨ (3 : ℝ) ≤ 0) := by norm_num
    have hc' : ¬((4 : ℝ) < 0 ∨ (10 : ℝ) ^ 10 < 4) := by norm_num
    have h1 : ¬((1 : ℝ) ≤ 0) := by norm_num
    have h2 : ¬((4 : ℝ) ≤ 0) := by norm_num
    simp only [rNDistributeWaterbag, NBunch.lift, Bunch.shape, Bunch.readBetax, Bunch.readBetay, if_neg hc, List.length_cons,
      List.length_nil, rWaterbagLoop, firstPositive, if_neg h1, rOneParticle, h4, if_neg hc', rFindPosition, hp, if_neg h2, Bunch.finish, assign]
    rfl
  refine ⟨_, _, fun _ => 0, _, _, _, _, _, ?_, ?_, ?_, ?_, ?_, key, .waterbag key⟩
  · rfl
  · intro a ha
    simp only [List.mem_cons, List.not_mem_nil, or_false] at ha
    rcases ha with rfl | rfl | rfl | rfl <;> norm_num
  · exact isFloat_one
  · intro f x m h
    cases h
    exact_mod_cast isFloat_int (n := 2) (by norm_num)
  · rfl

/-- At the pole the potential is nan. -/
example (F : Arc) : (1 : ℝ) ≠ 0 ∧ rPotential R F 1 1 1 0 = .ok .nan := by
  have h4' : R.rnd 4 = 4 := R.fixed (by exact_mod_cast isFloat_int (n := 4) (by norm_num))
  have h2' : R.rnd 2 = 2 := R.fixed (by exact_mod_cast isFloat_int (n := 2) (by norm_num))
  have hs : Real.sqrt 4 = 2 := by rw [show (4 : ℝ) = 2 ^ 2 by norm_num]; exact Real.sqrt_sq (by norm_num)
  have h2 : R.rnd (1 + 1) = 2 := by rw [one_add_one_eq_two, h2']
  have h4 : R.rnd (2 * 2) = 4 := by rw [show (2 : ℝ) * 2 = 4 by norm_num, h4']
  refine ⟨one_ne_zero, potential_nan R F one_ne_zero one_ne_zero ?_⟩
  simp [rU, rV, rRadius, rElliptic, rsqrt, fdiv, h2, h4, h4', h2', hs]

end Verif.Bunch
