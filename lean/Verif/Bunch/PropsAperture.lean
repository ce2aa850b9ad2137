import Verif.Bunch.PropsShell

/-!
# Properties C138 and C90: extent of nonlinear bunches, and energies by the functions that are used

C138: the particles of a nonlinear bunch are inside the aperture `c`, and not higher than the point of the
vertical axis with the energy of the bunch, whatever numbers are drawn and whichever root is found.
-/

namespace Verif.Bunch

/-- As `Made`, with a condition on the energy and the position. -/
def MadeIn (pot : ℝ → ℝ → Except PyErr (Option ℝ)) (sh : Shape) (quiet : Bool) (B : ℝ → ℝ → ℝ → Prop) (l : List P4) : Prop :=
  ∃ qs : List P4, l = qs.flatMap (group quiet) ∧ ∀ q ∈ qs, ∃ h x y v r, B h x y ∧ pot x y = .ok (some v) ∧ v < h ∧ q = place sh h v x y r

theorem madeIn_zero (pot sh quiet B) : MadeIn pot sh quiet B [] := ⟨[], rfl, by simp⟩

theorem madeIn_cons {pot sh quiet} {B : ℝ → ℝ → ℝ → Prop} {l : List P4} {h x y v r : ℝ} (hB : B h x y) (hp : pot x y = .ok (some v))
    (hv : v < h) (hl : MadeIn pot sh quiet B l) :
    MadeIn pot sh quiet B (place sh h v x y r :: ((if quiet then mirrors (place sh h v x y r) else []) ++ l)) := by
  obtain ⟨qs, h1, h3⟩ := hl
  refine ⟨place sh h v x y r :: qs, ?_, ?_⟩
  · rw [List.flatMap_cons, h1]
    rfl
  · intro q hq
    rcases List.mem_cons.1 hq with rfl | hq
    · exact ⟨h, x, y, v, r, hB, hp, hv, rfl⟩
    · exact h3 q hq

/-- The numbers that `random.random()` returns. -/
def Drawn (s : List ℝ) : Prop := ∀ u ∈ s, 0 ≤ u ∧ u < 1

theorem trial_le {a : ℝ} (h : 0 ≤ a ∧ a < 1) (m : ℝ) : |trialCoord a m| ≤ |m| := by
  unfold trialCoord
  rw [abs_mul]
  have : |2 * (1 / 2 - a)| ≤ 1 := abs_le.2 ⟨by linarith, by linarith⟩
  nlinarith [abs_nonneg m]

theorem kvLoop_in (pot sh quiet h xMax yMax) : ∀ (fuel n : Nat) (s : List ℝ) (l : List P4), Drawn s →
    kvLoop pot sh quiet h xMax yMax fuel n s = .ok l →
    MadeIn pot sh quiet (fun e x y => e = h ∧ |x| ≤ |xMax| ∧ |y| ≤ |yMax|) l := by
  intro fuel
  induction fuel with
  | zero =>
    intro n s l _ hl
    cases n with
    | zero => unfold kvLoop at hl; simp only [Except.ok.injEq] at hl; rw [← hl]; exact madeIn_zero _ _ _ _
    | succ n => unfold kvLoop at hl; cases hl
  | succ fuel ih =>
    intro n s l hs hl
    cases n with
    | zero => unfold kvLoop at hl; simp only [Except.ok.injEq] at hl; rw [← hl]; exact madeIn_zero _ _ _ _
    | succ n =>
      match s with
      | [] => unfold kvLoop at hl; cases hl
      | [_] => unfold kvLoop at hl; cases hl
      | a :: b :: s =>
        unfold kvLoop at hl
        have ha := hs a (by simp)
        have hb := hs b (by simp)
        have hs : Drawn s := fun u hu => hs u (by simp [hu])
        cases hp : pot (trialCoord a xMax) (trialCoord b yMax) with
        | error e => rw [hp] at hl; cases hl
        | ok o =>
          rw [hp] at hl
          cases o with
          | none => exact ih (n + 1) s l hs hl
          | some v =>
            simp only at hl
            by_cases hv : v < h
            · rw [if_pos hv] at hl
              match s with
              | [] => cases hl
              | r :: s' =>
                simp only at hl
                cases hr : kvLoop pot sh quiet h xMax yMax fuel (if quiet then n - 3 else n) s' with
                | error e => rw [hr] at hl; cases hl
                | ok l' =>
                  rw [hr] at hl
                  simp only [Except.ok.injEq] at hl
                  rw [← hl]
                  exact madeIn_cons ⟨rfl, trial_le ha _, trial_le hb _⟩ hp hv (ih _ _ _ (fun u hu => hs u (by simp [hu])) hr)
            · rw [if_neg hv] at hl
              exact ih (n + 1) s l hs hl

theorem findPosition_in (pot : ℝ → ℝ → Except PyErr (Option ℝ)) (h xMax yMax : ℝ) : ∀ (k : Nat) (s : List ℝ), s.length ≤ k → Drawn s →
    ∀ x y o s', findPosition pot h xMax yMax s = .ok (x, y, o, s') → |x| ≤ |xMax| ∧ |y| ≤ |yMax| := by
  intro k
  induction k with
  | zero =>
    intro s hs _ x y o s' hf
    match s with
    | [] => unfold findPosition at hf; cases hf
    | _ :: _ => simp at hs
  | succ k ih =>
    intro s hs hd x y o s' hf
    match s with
    | [] => unfold findPosition at hf; cases hf
    | [_] => unfold findPosition at hf; cases hf
    | a :: b :: s =>
      unfold findPosition at hf
      have ha := hd a (by simp)
      have hb := hd b (by simp)
      cases hp : pot (trialCoord a xMax) (trialCoord b yMax) with
      | error e => rw [hp] at hf; cases hf
      | ok o' =>
        rw [hp] at hf
        cases o' with
        | none =>
          simp only [Except.ok.injEq, Prod.mk.injEq] at hf
          obtain ⟨rfl, rfl, rfl, rfl⟩ := hf
          exact ⟨trial_le ha _, trial_le hb _⟩
        | some v =>
          simp only at hf
          by_cases hv : h ≤ v
          · rw [if_pos hv] at hf
            exact ih s (by simp at hs; omega) (fun u hu => hd u (by simp [hu])) x y o s' hf
          · rw [if_neg hv] at hf
            simp only [Except.ok.injEq, Prod.mk.injEq] at hf
            obtain ⟨rfl, rfl, rfl, rfl⟩ := hf
            exact ⟨trial_le ha _, trial_le hb _⟩

theorem oneParticle_in {newton : Newton} {pot : ℝ → ℝ → Except PyErr (Option ℝ)} {sh : Shape} {emit c h : ℝ} {s : List ℝ} (hd : Drawn s)
    {o : Option P4} {s' : List ℝ} (hp : oneParticle newton pot sh emit c h s = .ok (o, s')) :
    s' ⊆ s ∧ 0 ≤ h ∧ ∀ q, o = some q → ∃ x y v r Y, pot x y = .ok (some v) ∧ v < h ∧ q = place sh h v x y r ∧ |x| ≤ |c| ∧
      newton (whatsleft pot emit) (Real.sqrt h) = .ok Y ∧ |y| ≤ |Y| := by
  refine ⟨(oneParticle_spec hp).1, (oneParticle_spec hp).2.1, ?_⟩
  unfold oneParticle at hp
  by_cases h0 : h < 0 ∨ 10 ^ 10 < h
  · rw [if_pos h0] at hp; cases hp
  · rw [if_neg h0] at hp
    cases hn : newton (whatsleft pot emit) (Real.sqrt h) with
    | error e => rw [hn] at hp; cases hp
    | ok yMax =>
      rw [hn] at hp
      simp only at hp
      cases hf : findPosition pot h c yMax s with
      | error e => rw [hf] at hp; cases hp
      | ok r =>
        obtain ⟨x, y, ov, s1⟩ := r
        rw [hf] at hp
        obtain ⟨h1, h2, h3⟩ := findPosition_spec pot h c yMax s.length s le_rfl _ _ _ _ hf
        obtain ⟨i1, i2⟩ := findPosition_in pot h c yMax s.length s le_rfl hd _ _ _ _ hf
        cases ov with
        | none =>
          simp only [Except.ok.injEq, Prod.mk.injEq] at hp
          obtain ⟨rfl, rfl⟩ := hp
          simp
        | some v =>
          match s1 with
          | [] => cases hp
          | r :: s2 =>
            simp only [Except.ok.injEq, Prod.mk.injEq] at hp
            obtain ⟨rfl, rfl⟩ := hp
            intro q hq
            simp only [Option.some.injEq] at hq
            exact ⟨x, y, v, r, yMax, h1, h2 v rfl, hq.symm, i1, rfl, i2⟩

theorem waterbagLoop_in (newton pot sh quiet emit c) (d : List ℝ) (hd : Drawn d) : ∀ (fuel n : Nat) (s : List ℝ) (l : List P4), s ⊆ d →
    waterbagLoop newton pot sh quiet emit c fuel n s = .ok l →
    MadeIn pot sh quiet (fun h x y => WaterbagEnergy d emit h ∧ |x| ≤ |c| ∧ ∃ Y, newton (whatsleft pot emit) (Real.sqrt h) = .ok Y ∧ |y| ≤ |Y|) l := by
  intro fuel
  induction fuel with
  | zero =>
    intro n s l _ hl
    cases n with
    | zero => unfold waterbagLoop at hl; simp only [Except.ok.injEq] at hl; rw [← hl]; exact madeIn_zero _ _ _ _
    | succ n => unfold waterbagLoop at hl; cases hl
  | succ fuel ih =>
    intro n s l hs hl
    cases n with
    | zero => unfold waterbagLoop at hl; simp only [Except.ok.injEq] at hl; rw [← hl]; exact madeIn_zero _ _ _ _
    | succ n =>
      unfold waterbagLoop at hl
      cases hf : firstPositive s with
      | none => rw [hf] at hl; cases hl
      | some us =>
        obtain ⟨u, s1⟩ := us
        rw [hf] at hl
        obtain ⟨hu, hus, hs1⟩ := firstPositive_spec s u s1 hf
        simp only at hl
        cases ho : oneParticle newton pot sh emit c (emit * Real.sqrt u) s1 with
        | error e => rw [ho] at hl; cases hl
        | ok r =>
          obtain ⟨o, s2⟩ := r
          rw [ho] at hl
          obtain ⟨hs2, h0, hq⟩ := oneParticle_in (fun z hz => hd z (hs (hs1 hz))) ho
          have hsub : s2 ⊆ d := fun z hz => hs (hs1 (hs2 hz))
          cases o with
          | none => exact ih (n + 1) s2 l hsub hl
          | some q =>
            simp only at hl
            obtain ⟨x, y, v, r, Y, h1, h2, rfl, h4, h5, h6⟩ := hq q rfl
            cases hr : waterbagLoop newton pot sh quiet emit c fuel (if quiet then n - 3 else n) s2 with
            | error e => rw [hr] at hl; cases hl
            | ok l' =>
              rw [hr] at hl
              simp only [Except.ok.injEq] at hl
              rw [← hl]
              exact madeIn_cons ⟨⟨h0, u, hs hus, hu, rfl⟩, h4, Y, h5, h6⟩ h1 h2 (ih _ _ _ hsub hr)

theorem gaussLoop_in (newton pot sh quiet emit c cutoff) (d : List ℝ) (hd : Drawn d) : ∀ (fuel n : Nat) (cur : ℝ) (s : List ℝ) (l : List P4), s ⊆ d →
    gaussLoop newton pot sh quiet emit c cutoff fuel n cur s = .ok l →
    MadeIn pot sh quiet (fun h x y => GaussEnergy d emit cutoff h ∧ |x| ≤ |c| ∧ ∃ Y, newton (whatsleft pot h) (Real.sqrt h) = .ok Y ∧ |y| ≤ |Y|) l := by
  intro fuel
  induction fuel with
  | zero =>
    intro n cur s l _ hl
    cases n with
    | zero => unfold gaussLoop at hl; simp only [Except.ok.injEq] at hl; rw [← hl]; exact madeIn_zero _ _ _ _
    | succ n => unfold gaussLoop at hl; cases hl
  | succ fuel ih =>
    intro n cur s l hs hl
    cases n with
    | zero => unfold gaussLoop at hl; simp only [Except.ok.injEq] at hl; rw [← hl]; exact madeIn_zero _ _ _ _
    | succ n =>
      unfold gaussLoop at hl
      cases hf : erlang cutoff s with
      | none => rw [hf] at hl; cases hl
      | some us =>
        obtain ⟨th, s1⟩ := us
        rw [hf] at hl
        obtain ⟨hc, ⟨a, ha, b, hb, hab, hth⟩, hs1⟩ := erlang_spec cutoff s.length s le_rfl th s1 hf
        simp only at hl
        cases ho : oneParticle newton pot sh (emit * th) c (emit * th) s1 with
        | error e => rw [ho] at hl; cases hl
        | ok r =>
          obtain ⟨o, s2⟩ := r
          rw [ho] at hl
          obtain ⟨hs2, h0, hq⟩ := oneParticle_in (fun z hz => hd z (hs (hs1 hz))) ho
          have hsub : s2 ⊆ d := fun z hz => hs (hs1 (hs2 hz))
          cases o with
          | none => exact ih (n + 1) _ s2 l hsub hl
          | some q =>
            simp only at hl
            obtain ⟨x, y, v, r, Y, h1, h2, rfl, h4, h5, h6⟩ := hq q rfl
            cases hr : gaussLoop newton pot sh quiet emit c cutoff fuel (if quiet then n - 3 else n) (emit * th) s2 with
            | error e => rw [hr] at hl; cases hl
            | ok l' =>
              rw [hr] at hl
              simp only [Except.ok.injEq] at hl
              rw [← hl]
              refine madeIn_cons ⟨⟨h0, a, hs ha, b, hs hb, hab, ?_, ?_⟩, h4, Y, h5, h6⟩ h1 h2 (ih _ _ _ _ hsub hr)
              · rw [← hth]; exact hc
              · rw [← hth]

/-- The root finder returns roots. -/
def FindsRoots (newton : Newton) : Prop := ∀ f y0 y, newton f y0 = .ok y → f y = .ok (some 0)

theorem root_energy {newton : Newton} (hn : FindsRoots newton) {t c : ℝ} (hc : 0 < c) {e y0 Y : ℝ}
    (h : newton (whatsleft (potential t c) e) y0 = .ok Y) : ellU t c 0 Y = e := by
  have := hn _ _ _ h
  unfold whatsleft at this
  cases hp : potential t c 0 Y with
  | error e => rw [hp] at this; cases this
  | ok o =>
    cases o with
    | none => rw [hp] at this; cases this
    | some v =>
      rw [hp] at this
      simp only [Option.map_some, Except.ok.injEq, Option.some.injEq] at this
      rw [← potential_val hc hp]
      linarith

/-- A particle with a position inside `X` and `Y`, or one of its mirror images. -/
theorem group_le {sh : Shape} {quiet : Bool} {h v x y r X Y : ℝ} (hx : |x| ≤ X) (hy : |y| ≤ Y) {p : P4}
    (hp : p ∈ group quiet (place sh h v x y r)) : |p 0| ≤ X * Real.sqrt sh.bx ∧ |p 2| ≤ Y * Real.sqrt sh.byy := by
  obtain ⟨q0, _, q2, _⟩ := place_all sh h v x y r
  generalize place sh h v x y r = q at *
  have e0 : |q 0| ≤ X * Real.sqrt sh.bx := by
    rw [q0, abs_mul, abs_of_nonneg (Real.sqrt_nonneg _)]
    exact mul_le_mul_of_nonneg_right hx (Real.sqrt_nonneg _)
  have e2 : |q 2| ≤ Y * Real.sqrt sh.byy := by
    rw [q2, abs_mul, abs_of_nonneg (Real.sqrt_nonneg _)]
    exact mul_le_mul_of_nonneg_right hy (Real.sqrt_nonneg _)
  have : |p 0| = |q 0| ∧ |p 2| = |q 2| := by
    unfold group mirrors at hp
    cases quiet with
    | false =>
      simp only [Bool.false_eq_true, if_false, List.mem_singleton] at hp
      rw [hp]; exact ⟨rfl, rfl⟩
    | true =>
      simp only [if_true, List.mem_cons, List.not_mem_nil, or_false] at hp
      rcases hp with rfl | rfl | rfl | rfl <;> simp
  rw [this.1, this.2]
  exact ⟨e0, e2⟩

theorem madeIn_le {pot sh quiet} {B : ℝ → ℝ → ℝ → Prop} {ps : List Row} (h : MadeIn pot sh quiet B (ps.map trans)) {X : ℝ} {L : ℝ → Prop}
    (hB : ∀ e x y, B e x y → |x| ≤ X ∧ ∃ Y, L Y ∧ |y| ≤ |Y|) :
    ∀ p ∈ ps, |p 0| ≤ X * Real.sqrt sh.bx ∧ ∃ Y, L Y ∧ |p 2| ≤ |Y| * Real.sqrt sh.byy := by
  obtain ⟨qs, h1, h3⟩ := h
  intro p hp
  have hm : trans p ∈ qs.flatMap (group quiet) := by rw [← h1]; exact List.mem_map_of_mem hp
  obtain ⟨q, hqm, hg⟩ := List.mem_flatMap.1 hm
  obtain ⟨e, x, y, v, r, hE, hv, hlt, rfl⟩ := h3 q hqm
  obtain ⟨b1, Y, b2, b3⟩ := hB _ _ _ hE
  obtain ⟨g1, g2⟩ := group_le b1 b3 hg
  exact ⟨g1, Y, b2, g2⟩

theorem finish_list {b b' : Bunch} {l : List P4} {pot sh} {E : ℝ → Prop} (hp : b.particles.length = b.npart)
    (hm : Made pot sh b.quiet b.npart E l) (h : b.finish (.ok l) = (b', none)) :
    ∃ ps, b' = { b with particles := ps } ∧ ps.map trans = l := by
  obtain ⟨_, _, f3⟩ := finish_made hp hm
  rw [h] at f3
  obtain ⟨ps, g1, g2, _⟩ := f3 rfl
  exact ⟨ps, g1, g2⟩

theorem kvRun_in {newton pot} {c : ℝ} {draws} {b : Bunch} {l : List P4} (hd : Drawn draws) (h : kvRun newton pot (some c) draws b = .ok l) :
    MadeIn pot b.shape b.quiet (fun e x y => e = b.emit ∧ |x| ≤ |c| ∧
      ∃ Y, newton (whatsleft pot b.emit) (Real.sqrt b.emit) = .ok Y ∧ |y| ≤ |Y|) l := by
  unfold kvRun at h
  by_cases h0 : b.emit < 0 ∨ b.shape.bx ≤ 0 ∨ b.shape.byy ≤ 0
  · rw [if_pos h0] at h; cases h
  · rw [if_neg h0] at h
    cases hn : newton (whatsleft pot b.emit) (Real.sqrt b.emit) with
    | error e => rw [hn] at h; cases h
    | ok yMax =>
      rw [hn] at h
      obtain ⟨qs, q1, q3⟩ := kvLoop_in _ _ _ _ _ _ _ _ _ _ hd h
      refine ⟨qs, q1, fun q hq => ?_⟩
      obtain ⟨e, x, y, v, r, ⟨h1, h2, h3⟩, h4⟩ := q3 q hq
      exact ⟨e, x, y, v, r, ⟨h1, h2, yMax, rfl, h3⟩, h4⟩

theorem kv_made {newton draws} {b b' : NBunch} (hp : b.particles.length = b.npart) (h : b.distributeKV newton draws = (b', none)) :
    0 < b.betax ∧ b'.emit = b.emitx ∧ b.emitx = b.emity ∧ Made (potential b.t b.c) b.shape b.quiet b.npart (· = b.emitx) (b'.particles.map trans) ∧
    (Drawn draws → MadeIn (potential b.t b.c) b.shape b.quiet (fun e x y => e = b.emitx ∧ |x| ≤ |b.c| ∧
      ∃ Y, newton (whatsleft (potential b.t b.c) b.emitx) (Real.sqrt b.emitx) = .ok Y ∧ |y| ≤ |Y|) (b'.particles.map trans)) := by
  have h := lift_ok h
  by_cases he : b.emitx ≠ b.emity
  · rw [if_pos he] at h; simp at h
  · rw [if_neg he] at h
    simp only at h
    cases hr : kvRun newton (potential b.t b.c) (some b.c) draws { b.toBunch with emit := b.emitx } with
    | error e => rw [hr] at h; simp [Bunch.finish] at h
    | ok l =>
      rw [hr] at h
      obtain ⟨hβ, hm⟩ := kvRun_made hr
      obtain ⟨ps, g1, g2⟩ := finish_list (b := { b.toBunch with emit := b.emitx }) hp hm h
      rw [g1, g2]
      refine ⟨hβ, rfl, not_not.1 he, hm, fun hd => ?_⟩
      exact kvRun_in hd hr

theorem waterbag_made {newton draws} {b b' : NBunch} (hp : b.particles.length = b.npart) (h : b.distributeWaterbag newton draws = (b', none)) :
    0 < b.betax ∧ b'.emit = b.emit ∧ Made (potential b.t b.c) b.shape b.quiet b.npart (WaterbagEnergy draws b.emit) (b'.particles.map trans) ∧
    (Drawn draws → MadeIn (potential b.t b.c) b.shape b.quiet (fun e x y => WaterbagEnergy draws b.emit e ∧ |x| ≤ |b.c| ∧
      ∃ Y, newton (whatsleft (potential b.t b.c) b.emit) (Real.sqrt e) = .ok Y ∧ |y| ≤ |Y|) (b'.particles.map trans)) := by
  have h := lift_ok h
  by_cases hβ : b.shape.bx ≤ 0 ∨ b.shape.byy ≤ 0
  · rw [if_pos hβ] at h; simp [Bunch.finish] at h
  · rw [if_neg hβ] at h
    push Not at hβ
    cases hr : waterbagLoop newton (potential b.t b.c) b.shape b.quiet b.emit b.c draws.length b.npart draws with
    | error e => rw [hr] at h; simp [Bunch.finish] at h
    | ok l =>
      rw [hr] at h
      have hm := waterbagLoop_made _ _ _ _ _ _ draws _ _ _ _ (List.Subset.refl _) hr
      obtain ⟨ps, g1, g2⟩ := finish_list (b := b.toBunch) hp hm h
      rw [g1, g2]
      exact ⟨hβ.1, rfl, hm, fun hd => waterbagLoop_in _ _ _ _ _ _ draws hd _ _ _ _ (List.Subset.refl _) hr⟩

theorem gaussian_made {newton draws} {b b' : NBunch} (hp : b.particles.length = b.npart) (h : b.distributeGaussian newton draws = (b', none)) :
    0 < b.betax ∧ b'.emit = b.emit ∧ Made (potential b.t b.c) b.shape b.quiet b.npart (GaussEnergy draws b.emit b.cutoff) (b'.particles.map trans) ∧
    (Drawn draws → MadeIn (potential b.t b.c) b.shape b.quiet (fun e x y => GaussEnergy draws b.emit b.cutoff e ∧ |x| ≤ |b.c| ∧
      ∃ Y, newton (whatsleft (potential b.t b.c) e) (Real.sqrt e) = .ok Y ∧ |y| ≤ |Y|) (b'.particles.map trans)) := by
  have h := lift_ok h
  by_cases hβ : b.shape.bx ≤ 0 ∨ b.shape.byy ≤ 0 ∨ 10 ^ 10 ≤ b.cutoff
  · rw [if_pos hβ] at h; simp at h
  · rw [if_neg hβ] at h
    push Not at hβ
    cases hr : gaussLoop newton (potential b.t b.c) b.shape b.quiet b.emit b.c b.cutoff draws.length b.npart b.emit draws with
    | error e => rw [hr] at h; simp at h
    | ok l =>
      rw [hr] at h
      have hm := gaussLoop_made _ _ _ _ _ _ _ draws _ _ _ _ _ (List.Subset.refl _) hr
      obtain ⟨ps, g1, g2⟩ := finish_list (b := b.toBunch) hp hm h
      rw [g1, g2]
      exact ⟨hβ.1, rfl, hm, fun hd => gaussLoop_in _ _ _ _ _ _ _ draws hd _ _ _ _ _ (List.Subset.refl _) hr⟩

/-- **C138, KV.** The particles are inside the aperture and not higher than a point of the vertical axis with the energy of the bunch. -/
theorem kv_aperture {newton} {draws : List ℝ} {b b' : NBunch} (hn : FindsRoots newton) (hd : ∀ u ∈ draws, 0 ≤ u ∧ u < 1) (hc : 0 < b.c)
    (hp : b.particles.length = b.npart) (h : b.distributeKV newton draws = (b', none)) :
    ∀ p ∈ b'.particles, |p 0| ≤ b.c * Real.sqrt b.betax ∧ ∃ Y, ellU b.t b.c 0 Y = b.emitx ∧ |p 2| ≤ |Y| * Real.sqrt b.betax := by
  obtain ⟨_, _, _, _, hm⟩ := kv_made hp h
  refine madeIn_le (sh := b.shape) (hm hd) (L := fun Y => ellU b.t b.c 0 Y = b.emitx) fun e x y hB => ?_
  obtain ⟨_, h1, Y, h2, h3⟩ := hB
  exact ⟨by rwa [abs_of_pos hc] at h1, Y, root_energy hn hc h2, h3⟩

/-- **C138, waterbag.** -/
theorem waterbag_aperture {newton} {draws : List ℝ} {b b' : NBunch} (hn : FindsRoots newton) (hd : ∀ u ∈ draws, 0 ≤ u ∧ u < 1) (hc : 0 < b.c)
    (hp : b.particles.length = b.npart) (h : b.distributeWaterbag newton draws = (b', none)) :
    ∀ p ∈ b'.particles, |p 0| ≤ b.c * Real.sqrt b.betax ∧ ∃ Y, ellU b.t b.c 0 Y = b.emit ∧ |p 2| ≤ |Y| * Real.sqrt b.betax := by
  obtain ⟨_, _, _, hm⟩ := waterbag_made hp h
  refine madeIn_le (sh := b.shape) (hm hd) (L := fun Y => ellU b.t b.c 0 Y = b.emit) fun e x y hB => ?_
  obtain ⟨_, h1, Y, h2, h3⟩ := hB
  exact ⟨by rwa [abs_of_pos hc] at h1, Y, root_energy hn hc h2, h3⟩

/-- **C138, Gaussian.** The height is that of an energy of at most the cutoff times the emittance. -/
theorem gaussian_aperture {newton} {draws : List ℝ} {b b' : NBunch} (hn : FindsRoots newton) (hd : ∀ u ∈ draws, 0 ≤ u ∧ u < 1) (hc : 0 < b.c)
    (he : 0 ≤ b.emit) (hp : b.particles.length = b.npart) (h : b.distributeGaussian newton draws = (b', none)) :
    ∀ p ∈ b'.particles, |p 0| ≤ b.c * Real.sqrt b.betax ∧
      ∃ Y, (0 ≤ ellU b.t b.c 0 Y ∧ ellU b.t b.c 0 Y ≤ b.cutoff * b.emit) ∧ |p 2| ≤ |Y| * Real.sqrt b.betax := by
  obtain ⟨_, _, _, hm⟩ := gaussian_made hp h
  refine madeIn_le (sh := b.shape) (hm hd) (L := fun Y => 0 ≤ ellU b.t b.c 0 Y ∧ ellU b.t b.c 0 Y ≤ b.cutoff * b.emit) fun e x y hB => ?_
  obtain ⟨⟨h0, _, _, _, _, _, hcut, hen⟩, h1, Y, h2, h3⟩ := hB
  refine ⟨by rwa [abs_of_pos hc] at h1, Y, ?_, h3⟩
  rw [root_energy hn hc h2]
  refine ⟨h0, ?_⟩
  rw [hen, mul_comm]
  exact mul_le_mul_of_nonneg_right hcut he

/-! ## Energies with the beta function that is used -/

theorem ellU_neg (t c x y : ℝ) : ellU t c (-x) (-y) = ellU t c x y := by
  have h1 : dist (-c) (-x) (-y) = dist c x y := by rw [dist_neg_x, dist_neg_y, neg_neg]
  have h2 : dist c (-x) (-y) = dist (-c) x y := by rw [dist_neg_x, dist_neg_y]
  unfold ellU
  simp only [h1, h2]
  have e1 : (dist c x y + dist (-c) x y) / (2 * c) = (dist (-c) x y + dist c x y) / (2 * c) := by ring
  have e2 : (dist c x y - dist (-c) x y) / (2 * c) = -((dist (-c) x y - dist c x y) / (2 * c)) := by ring
  rw [e1, e2, Real.arccos_neg, neg_sq]
  ring_nf

theorem made_energy_all {sh : Shape} {t c : ℝ} (hc : 0 < c) (hx : 0 < sh.bx) (hy : 0 < sh.byy) {quiet : Bool} (hq : quiet = true → sh.ax = 0 ∧ sh.ay = 0)
    {n : Nat} {E : ℝ → Prop} {ps : List Row} (h : Made (potential t c) sh quiet n E (ps.map trans)) :
    ∀ p ∈ ps, E (energy t c sh.bx sh.byy sh.ax sh.ay (p 0) (p 1) (p 2) (p 3)) := by
  obtain ⟨qs, h1, _, h3⟩ := h
  intro p hp
  have hm : trans p ∈ qs.flatMap (group quiet) := by rw [← h1]; exact List.mem_map_of_mem hp
  obtain ⟨q, hqm, hg⟩ := List.mem_flatMap.1 hm
  obtain ⟨e, x, y, v, r, hE, hv, hlt, hqe⟩ := h3 q hqm
  have hen := place_energy hc hx hy (r := r) hlt hv
  rw [← hqe] at hen
  have : energy t c sh.bx sh.byy sh.ax sh.ay (trans p 0) (trans p 1) (trans p 2) (trans p 3) = energy t c sh.bx sh.byy sh.ax sh.ay (q 0) (q 1) (q 2) (q 3) := by
    generalize trans p = p at hg
    unfold group mirrors at hg
    cases quiet with
    | false =>
      simp only [Bool.false_eq_true, if_false, List.mem_singleton] at hg
      rw [hg]
    | true =>
      obtain ⟨a1, a2⟩ := hq rfl
      have hU : ellU t c (q 0 * -1 / Real.sqrt sh.bx) (q 2 * -1 / Real.sqrt sh.byy) = ellU t c (q 0 / Real.sqrt sh.bx) (q 2 / Real.sqrt sh.byy) := by
        rw [mul_neg_one, mul_neg_one, neg_div, neg_div, ellU_neg]
      simp only [if_true, List.mem_cons, List.not_mem_nil, or_false] at hg
      unfold energy
      rw [a1, a2]
      rcases hg with rfl | rfl | rfl | rfl
      · rfl
      · simp only [Matrix.cons_val_zero, Matrix.cons_val_one, Matrix.cons_val, hU]
        ring_nf
      · simp only [Matrix.cons_val_zero, Matrix.cons_val_one, Matrix.cons_val, hU]
        ring_nf
      · simp only [Matrix.cons_val_zero, Matrix.cons_val_one, Matrix.cons_val]
        ring_nf
  have e4 : energy t c sh.bx sh.byy sh.ax sh.ay (p 0) (p 1) (p 2) (p 3) =
    energy t c sh.bx sh.byy sh.ax sh.ay (trans p 0) (trans p 1) (trans p 2) (trans p 3) := rfl
  rw [e4, this, hen]
  exact hE

/-- **C90, any beta functions.** With the horizontal beta function in both planes the energies are as claimed, for quiet starts if the alpha functions are zero. -/
theorem nonlinear_used {newton} {draws : List ℝ} {b b' : NBunch} (hc : 0 < b.c) (hp : b.particles.length = b.npart)
    (hq : b.quiet = true → b.alphax = 0 ∧ b.alphay = 0) :
    (b.distributeKV newton draws = (b', none) → ∀ p ∈ b'.particles,
      energy b.t b.c b.betax b.betax b.alphax b.alphay (p 0) (p 1) (p 2) (p 3) = b.emitx) ∧
    ((∀ u ∈ draws, 0 ≤ u ∧ u < 1) → 0 ≤ b.emit → b.distributeWaterbag newton draws = (b', none) → ∀ p ∈ b'.particles,
      energy b.t b.c b.betax b.betax b.alphax b.alphay (p 0) (p 1) (p 2) (p 3) ≤ b.emit) ∧
    (0 ≤ b.emit → b.distributeGaussian newton draws = (b', none) → ∀ p ∈ b'.particles,
      energy b.t b.c b.betax b.betax b.alphax b.alphay (p 0) (p 1) (p 2) (p 3) ≤ b.cutoff * b.emit) := by
  refine ⟨fun h => ?_, fun hd he h p hpm => ?_, fun he h p hpm => ?_⟩
  · obtain ⟨hβ, _, _, hm, _⟩ := kv_made hp h
    exact made_energy_all (sh := b.shape) hc hβ hβ hq hm
  · obtain ⟨hβ, _, hm, _⟩ := waterbag_made hp h
    obtain ⟨_, u, hu, hu0, hen⟩ := made_energy_all (sh := b.shape) hc hβ hβ hq hm p hpm
    refine le_of_eq_of_le hen ?_
    have s1 : Real.sqrt u ≤ 1 := by rw [Real.sqrt_le_one]; exact (hd u hu).2.le
    nlinarith
  · obtain ⟨hβ, _, hm, _⟩ := gaussian_made hp h
    obtain ⟨_, _, _, _, _, _, hcut, hen⟩ := made_energy_all (sh := b.shape) hc hβ hβ hq hm p hpm
    refine le_of_eq_of_le hen ?_
    rw [mul_comm]
    exact mul_le_mul_of_nonneg_right hcut he

/-! ## Examples -/

open Classical in
/-- A root finder that finds the root 2 or none. -/
noncomputable def findTwo : Newton := fun f _ => if f 2 = .ok (some 0) then .ok 2 else .error .valueError

theorem findTwo_roots : FindsRoots findTwo := by
  intro f y0 y h
  unfold findTwo at h
  by_cases hf : f 2 = .ok (some 0)
  · rw [if_pos hf] at h
    simp only [Except.ok.injEq] at h
    rw [← h]; exact hf
  · rw [if_neg hf] at h; cases h

theorem findTwo_two (y0 : ℝ) : findTwo (whatsleft (potential 0 2) 2) y0 = .ok 2 := by
  unfold findTwo
  rw [if_pos]
  unfold whatsleft
  rw [potential_zero]
  simp only [quadratic, Option.map_some]
  norm_num

-- a KV bunch with the particle at the horizontal position 0 and the height sqrt 3
example : ∃ b', (nwitness 2).distributeKV findTwo [1 / 2, 1 / 4, 0] = (b', none) ∧
    ∀ p ∈ b'.particles, |p 0| ≤ 2 * Real.sqrt 3 ∧ ∃ Y, ellU 0 2 0 Y = 2 ∧ |p 2| ≤ |Y| * Real.sqrt 3 := by
  have h : ((nwitness 2).distributeKV findTwo [1 / 2, 1 / 4, 0]).2 = none := by
    unfold NBunch.distributeKV NBunch.lift
    simp only
    rw [if_neg (by simp [nwitness])]
    have hr : kvRun findTwo (potential (nwitness 2).t (nwitness 2).c) (some (nwitness 2).c) [1 / 2, 1 / 4, 0]
        { (nwitness 2).toBunch with emit := (nwitness 2).emitx } = .ok [place (nwitness 2).shape 2 (1 / 2) 0 1 0] := by
      unfold kvRun
      rw [if_neg (by norm_num [nwitness, Bunch.shape, Bunch.readBetax, Bunch.readBetay])]
      simp only [nwitness, Option.getD_some, List.length_cons, List.length_nil, findTwo_two]
      rw [kvLoop.eq_def]
      simp only [potential_zero, trial_half, trial_quarter, quadratic_one]
      rw [if_pos (by norm_num)]
      rw [kvLoop.eq_def]
      rfl
    rw [hr]
    rfl
  have e : (nwitness 2).distributeKV findTwo [1 / 2, 1 / 4, 0] = (((nwitness 2).distributeKV findTwo [1 / 2, 1 / 4, 0]).1, none) := Prod.ext rfl h
  exact ⟨_, e, kv_aperture findTwo_roots (by norm_num) (by norm_num [nwitness]) rfl e⟩

-- a waterbag bunch of energy 2 from the random number 1/4
example : ∃ b', (nwitness 2).distributeWaterbag findTwo [1 / 4, 1 / 2, 1 / 4, 0] = (b', none) ∧
    ∀ p ∈ b'.particles, |p 0| ≤ 2 * Real.sqrt 3 ∧ ∃ Y, ellU 0 2 0 Y = 2 ∧ |p 2| ≤ |Y| * Real.sqrt 3 := by
  have hs : (2 : ℝ) * Real.sqrt (1 / 4) = 1 := by
    rw [show (1 / 4 : ℝ) = (1 / 2) ^ 2 by norm_num, Real.sqrt_sq (by norm_num)]
    norm_num
  have h : ((nwitness 2).distributeWaterbag findTwo [1 / 4, 1 / 2, 1 / 4, 0]).2 = none := by
    unfold NBunch.distributeWaterbag NBunch.lift
    simp only
    rw [if_neg (by norm_num [nwitness, Bunch.shape, Bunch.readBetax, Bunch.readBetay])]
    simp only [nwitness, List.length_cons, List.length_nil]
    rw [waterbagLoop.eq_def]
    simp only [firstPositive]
    rw [if_neg (by norm_num)]
    simp only
    rw [hs]
    unfold oneParticle
    rw [if_neg (by norm_num)]
    simp only [findTwo_two]
    unfold findPosition
    simp only [potential_zero, trial_half, trial_quarter, quadratic_one]
    rw [if_neg (by norm_num)]
    simp only
    rw [waterbagLoop.eq_def]
    rfl
  have e : (nwitness 2).distributeWaterbag findTwo [1 / 4, 1 / 2, 1 / 4, 0] = (((nwitness 2).distributeWaterbag findTwo [1 / 4, 1 / 2, 1 / 4, 0]).1, none) :=
    Prod.ext rfl h
  exact ⟨_, e, waterbag_aperture findTwo_roots (by norm_num) (by norm_num [nwitness]) rfl e⟩

-- the energy of the KV bunch of `nwitness_kv`
example : ∀ p ∈ ((nwitness 4).distributeKV (fun _ _ => .ok 2) [1 / 2, 1 / 4, 0]).1.particles, energy 0 2 3 3 1 2 (p 0) (p 1) (p 2) (p 3) = 4 :=
  (nonlinear_used (b := nwitness 4) (newton := fun _ _ => .ok 2) (draws := [1 / 2, 1 / 4, 0]) (by norm_num [nwitness]) rfl (by simp [nwitness])).1 (Prod.ext rfl nwitness_kv)

end Verif.Bunch
