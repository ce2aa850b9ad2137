import Verif.Bunch.PropsElliptic
import Verif.Bunch.PropsSetters

/-!
# Lemmas on the loops that make particles
-/

namespace Verif.Bunch

/-- Courant-Snyder invariant. -/
noncomputable def cs (β α x p : ℝ) : ℝ := (1 + α ^ 2) / β * x ^ 2 + 2 * α * x * p + β * p ^ 2

/-- Energy in normalised coordinates with the elliptic potential. -/
noncomputable def energy (t c βx βy αx αy x p y q : ℝ) : ℝ :=
  ellU t c (x / Real.sqrt βx) (y / Real.sqrt βy) +
    1 / 2 * ((Real.sqrt βx * p + αx * x / Real.sqrt βx) ^ 2 + (Real.sqrt βy * q + αy * y / Real.sqrt βy) ^ 2)

/-- A particle and its mirror images. -/
def group (quiet : Bool) (q : P4) : List P4 := q :: if quiet then mirrors q else []

/-- The list `l` of `n` particles (or a multiple of four for a quiet start) was made with energies in `E`. -/
def Made (pot : ℝ → ℝ → Except PyErr (Option ℝ)) (sh : Shape) (quiet : Bool) (n : Nat) (E : ℝ → Prop) (l : List P4) : Prop :=
  ∃ qs : List P4, l = qs.flatMap (group quiet) ∧ qs.length = (if quiet then (n + 3) / 4 else n) ∧
    ∀ q ∈ qs, ∃ h x y v r, E h ∧ pot x y = .ok (some v) ∧ v < h ∧ q = place sh h v x y r

theorem made_zero (pot sh quiet) (E : ℝ → Prop) : Made pot sh quiet 0 E [] :=
  ⟨[], rfl, by cases quiet <;> rfl, by simp⟩

theorem made_cons {pot sh quiet n} {E : ℝ → Prop} {l : List P4} {h x y v r : ℝ} (hE : E h) (hp : pot x y = .ok (some v))
    (hv : v < h) (hl : Made pot sh quiet (if quiet then n - 3 else n) E l) :
    Made pot sh quiet (n + 1) E (place sh h v x y r :: ((if quiet then mirrors (place sh h v x y r) else []) ++ l)) := by
  obtain ⟨qs, h1, h2, h3⟩ := hl
  refine ⟨place sh h v x y r :: qs, ?_, ?_, ?_⟩
  · rw [List.flatMap_cons, h1]
    rfl
  · cases quiet with
    | false => simpa using h2
    | true =>
      simp only [if_true, List.length_cons] at h2 ⊢
      omega
  · intro q hq
    rcases List.mem_cons.1 hq with rfl | hq
    · exact ⟨h, x, y, v, r, hE, hp, hv, rfl⟩
    · exact h3 q hq

theorem kvLoop_made (pot sh quiet h xMax yMax) : ∀ (fuel n : Nat) (s : List ℝ) (l : List P4),
    kvLoop pot sh quiet h xMax yMax fuel n s = .ok l → Made pot sh quiet n (· = h) l := by
  intro fuel
  induction fuel with
  | zero =>
    intro n s l hl
    cases n with
    | zero => unfold kvLoop at hl; simp only [Except.ok.injEq] at hl; rw [← hl]; exact made_zero _ _ _ _
    | succ n => unfold kvLoop at hl; cases hl
  | succ fuel ih =>
    intro n s l hl
    cases n with
    | zero => unfold kvLoop at hl; simp only [Except.ok.injEq] at hl; rw [← hl]; exact made_zero _ _ _ _
    | succ n =>
      match s with
      | [] => unfold kvLoop at hl; cases hl
      | [_] => unfold kvLoop at hl; cases hl
      | a :: b :: s =>
        unfold kvLoop at hl
        cases hp : pot (trialCoord a xMax) (trialCoord b yMax) with
        | error e => rw [hp] at hl; cases hl
        | ok o =>
          rw [hp] at hl
          cases o with
          | none => exact ih (n + 1) s l hl
          | some v =>
            simp only at hl
            by_cases hv : v < h
            · rw [if_pos hv] at hl
              match s with
              | [] => cases hl
              | r :: s' =>
                simp only at hl
                cases hr : kvLoop pot sh quiet h xMax yMax fuel (if quiet then n - 3 else n) s' with
                | error e => rw [hr] at hl; cases hl
                | ok l' =>
                  rw [hr] at hl
                  simp only [Except.ok.injEq] at hl
                  rw [← hl]
                  exact made_cons rfl hp hv (ih _ _ _ hr)
            · rw [if_neg hv] at hl
              exact ih (n + 1) s l hl

theorem findPosition_spec (pot : ℝ → ℝ → Except PyErr (Option ℝ)) (h xMax yMax : ℝ) : ∀ (k : Nat) (s : List ℝ), s.length ≤ k →
    ∀ x y o s', findPosition pot h xMax yMax s = .ok (x, y, o, s') → pot x y = .ok o ∧ (∀ v, o = some v → v < h) ∧ s' ⊆ s := by
  intro k
  induction k with
  | zero =>
    intro s hs x y o s' hf
    match s with
    | [] => unfold findPosition at hf; cases hf
    | _ :: _ => simp at hs
  | succ k ih =>
    intro s hs x y o s' hf
    match s with
    | [] => unfold findPosition at hf; cases hf
    | [_] => unfold findPosition at hf; cases hf
    | a :: b :: s =>
      unfold findPosition at hf
      cases hp : pot (trialCoord a xMax) (trialCoord b yMax) with
      | error e => rw [hp] at hf; cases hf
      | ok o' =>
        rw [hp] at hf
        cases o' with
        | none =>
          simp only [Except.ok.injEq, Prod.mk.injEq] at hf
          obtain ⟨rfl, rfl, rfl, rfl⟩ := hf
          exact ⟨hp, by simp, fun z hz => List.mem_cons_of_mem _ (List.mem_cons_of_mem _ hz)⟩
        | some v =>
          simp only at hf
          by_cases hv : h ≤ v
          · rw [if_pos hv] at hf
            obtain ⟨h1, h2, h3⟩ := ih s (by simp at hs; omega) x y o s' hf
            exact ⟨h1, h2, fun z hz => List.mem_cons_of_mem _ (List.mem_cons_of_mem _ (h3 hz))⟩
          · rw [if_neg hv] at hf
            simp only [Except.ok.injEq, Prod.mk.injEq] at hf
            obtain ⟨rfl, rfl, rfl, rfl⟩ := hf
            refine ⟨hp, fun w hw => ?_, fun z hz => List.mem_cons_of_mem _ (List.mem_cons_of_mem _ hz)⟩
            simp only [Option.some.injEq] at hw
            rw [← hw]
            exact not_le.1 hv

theorem oneParticle_spec {newton : Newton} {pot : ℝ → ℝ → Except PyErr (Option ℝ)} {sh : Shape} {emit c h : ℝ} {s : List ℝ}
    {o : Option P4} {s' : List ℝ} (hp : oneParticle newton pot sh emit c h s = .ok (o, s')) :
    s' ⊆ s ∧ 0 ≤ h ∧ ∀ q, o = some q → ∃ x y v r, pot x y = .ok (some v) ∧ v < h ∧ q = place sh h v x y r := by
  unfold oneParticle at hp
  by_cases h0 : h < 0 ∨ 10 ^ 10 < h
  · rw [if_pos h0] at hp; cases hp
  · rw [if_neg h0] at hp
    push Not at h0
    cases hn : newton (whatsleft pot emit) (Real.sqrt h) with
    | error e => rw [hn] at hp; cases hp
    | ok yMax =>
      rw [hn] at hp
      simp only at hp
      cases hf : findPosition pot h c yMax s with
      | error e => rw [hf] at hp; cases hp
      | ok r =>
        obtain ⟨x, y, ov, s1⟩ := r
        rw [hf] at hp
        obtain ⟨h1, h2, h3⟩ := findPosition_spec pot h c yMax s.length s le_rfl _ _ _ _ hf
        cases ov with
        | none =>
          simp only [Except.ok.injEq, Prod.mk.injEq] at hp
          obtain ⟨rfl, rfl⟩ := hp
          exact ⟨h3, h0.1, by simp⟩
        | some v =>
          match s1 with
          | [] => cases hp
          | r :: s2 =>
            simp only [Except.ok.injEq, Prod.mk.injEq] at hp
            obtain ⟨rfl, rfl⟩ := hp
            refine ⟨fun z hz => h3 (List.mem_cons_of_mem _ hz), h0.1, fun q hq => ?_⟩
            simp only [Option.some.injEq] at hq
            exact ⟨x, y, v, r, h1, h2 v rfl, hq.symm⟩

theorem firstPositive_spec : ∀ (s : List ℝ) (u : ℝ) (s' : List ℝ), firstPositive s = some (u, s') → 0 < u ∧ u ∈ s ∧ s' ⊆ s := by
  intro s
  induction s with
  | nil => intro u s' h; unfold firstPositive at h; cases h
  | cons a s ih =>
    intro u s' h
    unfold firstPositive at h
    by_cases ha : a ≤ 0
    · rw [if_pos ha] at h
      obtain ⟨h1, h2, h3⟩ := ih u s' h
      exact ⟨h1, List.mem_cons_of_mem _ h2, fun z hz => List.mem_cons_of_mem _ (h3 hz)⟩
    · rw [if_neg ha] at h
      simp only [Option.some.injEq, Prod.mk.injEq] at h
      obtain ⟨rfl, rfl⟩ := h
      exact ⟨not_le.1 ha, List.mem_cons_self, fun z hz => List.mem_cons_of_mem _ hz⟩

/-- Energies of a waterbag distribution made from the drawn numbers `d`. -/
def WaterbagEnergy (d : List ℝ) (emit h : ℝ) : Prop := 0 ≤ h ∧ ∃ u ∈ d, 0 < u ∧ h = emit * Real.sqrt u

theorem waterbagLoop_made (newton pot sh quiet emit c) (d : List ℝ) : ∀ (fuel n : Nat) (s : List ℝ) (l : List P4), s ⊆ d →
    waterbagLoop newton pot sh quiet emit c fuel n s = .ok l → Made pot sh quiet n (WaterbagEnergy d emit) l := by
  intro fuel
  induction fuel with
  | zero =>
    intro n s l _ hl
    cases n with
    | zero => unfold waterbagLoop at hl; simp only [Except.ok.injEq] at hl; rw [← hl]; exact made_zero _ _ _ _
    | succ n => unfold waterbagLoop at hl; cases hl
  | succ fuel ih =>
    intro n s l hs hl
    cases n with
    | zero => unfold waterbagLoop at hl; simp only [Except.ok.injEq] at hl; rw [← hl]; exact made_zero _ _ _ _
    | succ n =>
      unfold waterbagLoop at hl
      cases hf : firstPositive s with
      | none => rw [hf] at hl; cases hl
      | some us =>
        obtain ⟨u, s1⟩ := us
        rw [hf] at hl
        obtain ⟨hu, hus, hs1⟩ := firstPositive_spec s u s1 hf
        simp only at hl
        cases ho : oneParticle newton pot sh emit c (emit * Real.sqrt u) s1 with
        | error e => rw [ho] at hl; cases hl
        | ok r =>
          obtain ⟨o, s2⟩ := r
          rw [ho] at hl
          obtain ⟨hs2, h0, hq⟩ := oneParticle_spec ho
          have hsub : s2 ⊆ d := fun z hz => hs (hs1 (hs2 hz))
          cases o with
          | none => exact ih (n + 1) s2 l hsub hl
          | some q =>
            simp only at hl
            obtain ⟨x, y, v, r, h1, h2, rfl⟩ := hq q rfl
            cases hr : waterbagLoop newton pot sh quiet emit c fuel (if quiet then n - 3 else n) s2 with
            | error e => rw [hr] at hl; cases hl
            | ok l' =>
              rw [hr] at hl
              simp only [Except.ok.injEq] at hl
              rw [← hl]
              exact made_cons ⟨h0, u, hs hus, hu, rfl⟩ h1 h2 (ih _ _ _ hsub hr)

theorem erlang_spec (cutoff : ℝ) : ∀ (k : Nat) (s : List ℝ), s.length ≤ k → ∀ th s', erlang cutoff s = some (th, s') →
    th ≤ cutoff ∧ (∃ a ∈ s, ∃ b ∈ s, 0 < a * b ∧ th = -Real.log (a * b)) ∧ s' ⊆ s := by
  intro k
  induction k with
  | zero =>
    intro s hs th s' h
    match s with
    | [] => unfold erlang at h; cases h
    | _ :: _ => simp at hs
  | succ k ih =>
    intro s hs th s' h
    have up : ∀ (a b : ℝ) (s : List ℝ) (z : ℝ), z ∈ s → z ∈ a :: b :: s :=
      fun _ _ _ _ hz => List.mem_cons_of_mem _ (List.mem_cons_of_mem _ hz)
    match s with
    | [] => unfold erlang at h; cases h
    | [_] => unfold erlang at h; cases h
    | a :: b :: s =>
      unfold erlang at h
      have hrec : erlang cutoff s = some (th, s') → th ≤ cutoff ∧ (∃ a' ∈ a :: b :: s, ∃ b' ∈ a :: b :: s, 0 < a' * b' ∧
          th = -Real.log (a' * b')) ∧ s' ⊆ a :: b :: s := by
        intro h
        obtain ⟨h1, ⟨a', ha, b', hb, h2⟩, h3⟩ := ih s (by simp at hs; omega) th s' h
        exact ⟨h1, ⟨a', up _ _ _ _ ha, b', up _ _ _ _ hb, h2⟩, fun z hz => up _ _ _ _ (h3 hz)⟩
      by_cases h1 : a * b ≤ 0
      · rw [if_pos h1] at h
        exact hrec h
      · rw [if_neg h1] at h
        by_cases h2 : cutoff < -1 * Real.log (a * b)
        · rw [if_pos h2] at h
          exact hrec h
        · rw [if_neg h2] at h
          simp only [Option.some.injEq, Prod.mk.injEq] at h
          obtain ⟨rfl, rfl⟩ := h
          refine ⟨not_lt.1 h2, ⟨a, List.mem_cons_self, b, List.mem_cons_of_mem _ List.mem_cons_self, not_le.1 h1, by ring⟩, fun z hz => up _ _ _ _ hz⟩

/-- Energies of a truncated Gaussian distribution. -/
def GaussEnergy (d : List ℝ) (emit cutoff h : ℝ) : Prop :=
  0 ≤ h ∧ ∃ a ∈ d, ∃ b ∈ d, 0 < a * b ∧ -Real.log (a * b) ≤ cutoff ∧ h = emit * -Real.log (a * b)

theorem gaussLoop_made (newton pot sh quiet emit c cutoff) (d : List ℝ) : ∀ (fuel n : Nat) (cur : ℝ) (s : List ℝ) (l : List P4), s ⊆ d →
    gaussLoop newton pot sh quiet emit c cutoff fuel n cur s = .ok l → Made pot sh quiet n (GaussEnergy d emit cutoff) l := by
  intro fuel
  induction fuel with
  | zero =>
    intro n cur s l _ hl
    cases n with
    | zero => unfold gaussLoop at hl; simp only [Except.ok.injEq] at hl; rw [← hl]; exact made_zero _ _ _ _
    | succ n => unfold gaussLoop at hl; cases hl
  | succ fuel ih =>
    intro n cur s l hs hl
    cases n with
    | zero => unfold gaussLoop at hl; simp only [Except.ok.injEq] at hl; rw [← hl]; exact made_zero _ _ _ _
    | succ n =>
      unfold gaussLoop at hl
      cases hf : erlang cutoff s with
      | none => rw [hf] at hl; cases hl
      | some us =>
        obtain ⟨th, s1⟩ := us
        rw [hf] at hl
        obtain ⟨hc, ⟨a, ha, b, hb, hab, hth⟩, hs1⟩ := erlang_spec cutoff s.length s le_rfl th s1 hf
        simp only at hl
        cases ho : oneParticle newton pot sh (emit * th) c (emit * th) s1 with
        | error e => rw [ho] at hl; cases hl
        | ok r =>
          obtain ⟨o, s2⟩ := r
          rw [ho] at hl
          obtain ⟨hs2, h0, hq⟩ := oneParticle_spec ho
          have hsub : s2 ⊆ d := fun z hz => hs (hs1 (hs2 hz))
          cases o with
          | none => exact ih (n + 1) _ s2 l hsub hl
          | some q =>
            simp only at hl
            obtain ⟨x, y, v, r, h1, h2, rfl⟩ := hq q rfl
            cases hr : gaussLoop newton pot sh quiet emit c cutoff fuel (if quiet then n - 3 else n) (emit * th) s2 with
            | error e => rw [hr] at hl; cases hl
            | ok l' =>
              rw [hr] at hl
              simp only [Except.ok.injEq] at hl
              rw [← hl]
              refine made_cons ⟨h0, a, hs ha, b, hs hb, hab, ?_, ?_⟩ h1 h2 (ih _ _ _ _ hsub hr)
              · rw [← hth]; exact hc
              · rw [← hth]

/-! ## Assignment to the array -/

/-- Transverse coordinates of a row. -/
def trans (p : Row) : P4 := fun i => p ⟨i.1, by omega⟩

theorem trans_setRow (p : Row) (q : P4) : trans (setRow p q) = q := by
  funext i
  unfold trans setRow
  rw [dif_pos i.2]

theorem setRow_other (p : Row) (q : P4) (i : Fin 7) (h : 4 ≤ i.1) : setRow p q i = p i := dif_neg (by omega)

theorem zip_trans : ∀ (ps : List Row) (l : List P4), l.length = ps.length →
    (List.zipWith setRow ps l).map trans = l ∧ ∀ i : Fin 7, 4 ≤ i.1 → (List.zipWith setRow ps l).map (· i) = ps.map (· i) := by
  intro ps
  induction ps with
  | nil =>
    intro l h
    have : l = [] := by simpa using h
    subst this
    simp
  | cons p ps ih =>
    intro l h
    match l with
    | [] => simp at h
    | q :: l =>
      obtain ⟨h1, h2⟩ := ih l (by simpa using h)
      refine ⟨by simp [trans_setRow, h1], fun i hi => ?_⟩
      simp only [List.zipWith_cons_cons, List.map_cons, setRow_other p q i hi, h2 i hi]

/-- The assignment when the lengths agree. -/
theorem assign_ok (ps : List Row) (l : List P4) (h : l.length = ps.length) (hn : l ≠ []) :
    ∃ ps', assign ps l = .ok ps' ∧ ps'.map trans = l ∧ ∀ i : Fin 7, 4 ≤ i.1 → ps'.map (· i) = ps.map (· i) := by
  obtain ⟨h1, h2⟩ := zip_trans ps l h
  refine ⟨List.zipWith setRow ps l, ?_, h1, h2⟩
  match l, hn with
  | [q], _ =>
    match ps with
    | [p] => rfl
  | q :: q' :: l, _ => exact if_pos h

theorem assign_error (ps : List Row) (l : List P4) (h : l.length ≠ 1) (hn : l = [] ∨ l.length ≠ ps.length) :
    assign ps l = .error .valueError := by
  match l with
  | [] => rfl
  | [_] => simp at h
  | q :: q' :: l =>
    rcases hn with hn | hn
    · cases hn
    · exact if_neg hn

theorem group_length (quiet : Bool) (qs : List P4) : (qs.flatMap (group quiet)).length = (if quiet then 4 else 1) * qs.length := by
  induction qs with
  | nil => cases quiet <;> rfl
  | cons q qs ih =>
    rw [List.flatMap_cons, List.length_append, ih]
    cases quiet <;> simp [group, mirrors] <;> ring

theorem made_length {pot sh quiet n} {E : ℝ → Prop} {l : List P4} (h : Made pot sh quiet n E l) :
    l.length = if quiet then 4 * ((n + 3) / 4) else n := by
  obtain ⟨qs, h1, h2, _⟩ := h
  rw [h1, group_length, h2]
  cases quiet <;> simp

/-- The end of a method that made the list `l`: exactly when it succeeds, and the array afterwards. -/
theorem finish_made {b : Bunch} {pot sh} {E : ℝ → Prop} {l : List P4} (hp : b.particles.length = b.npart)
    (h : Made pot sh b.quiet b.npart E l) :
    ((b.finish (.ok l)).2 = none ↔ 0 < b.npart ∧ (b.quiet = true → 4 ∣ b.npart)) ∧
    ((b.finish (.ok l)).2 = none ∨ b.finish (.ok l) = (b, some .valueError)) ∧
    ((b.finish (.ok l)).2 = none → ∃ ps, (b.finish (.ok l)).1 = { b with particles := ps } ∧ ps.map trans = l ∧
      ∀ i : Fin 7, 4 ≤ i.1 → ps.map (· i) = b.particles.map (· i)) := by
  have hl := made_length h
  by_cases hc : 0 < b.npart ∧ (b.quiet = true → 4 ∣ b.npart)
  · have hlen : l.length = b.particles.length := by
      rw [hl, hp]
      cases hq : b.quiet with
      | false => rfl
      | true =>
        obtain ⟨k, hk⟩ := hc.2 hq
        simp only [if_true]
        omega
    have hn : l ≠ [] := by
      intro he
      rw [he, hp] at hlen
      simp at hlen
      omega
    obtain ⟨ps, h1, h2, h3⟩ := assign_ok b.particles l hlen hn
    have hf : b.finish (.ok l) = ({ b with particles := ps }, none) := by
      unfold Bunch.finish
      simp only [h1]
    rw [hf]
    exact ⟨⟨fun _ => hc, fun _ => rfl⟩, Or.inl rfl, fun _ => ⟨ps, rfl, h2, h3⟩⟩
  · have herr : assign b.particles l = .error .valueError := by
      apply assign_error
      · cases hq : b.quiet with
        | false =>
          rw [hq] at hl hc
          simp at hl hc
          omega
        | true =>
          rw [hq] at hl
          simp only [if_true] at hl
          omega
      · cases hq : b.quiet with
        | false =>
          rw [hq] at hl hc
          simp at hl hc
          left
          rw [← List.length_eq_zero_iff, hl, hc]
        | true =>
          rw [hq] at hl hc
          simp only [if_true, forall_const] at hl hc
          by_cases h0 : b.npart = 0
          · left
            rw [← List.length_eq_zero_iff, hl, h0]
          · right
            rw [hl, hp]
            intro he
            exact hc ⟨by omega, ⟨_, he.symm⟩⟩
    have hf : b.finish (.ok l) = (b, some .valueError) := by
      unfold Bunch.finish
      simp only [herr]
    rw [hf]
    refine ⟨⟨fun h => (by cases h), fun h => absurd h hc⟩, Or.inr rfl, fun h => (by cases h)⟩

/-! ## Coordinates of a particle -/

theorem place_norm {sh : Shape} (hx : 0 < sh.bx) (hy : 0 < sh.byy) (h v x y r : ℝ) (hv : v < h) :
    place sh h v x y r 0 / Real.sqrt sh.bx = x ∧ place sh h v x y r 2 / Real.sqrt sh.byy = y ∧
    (Real.sqrt sh.bx * place sh h v x y r 1 + sh.ax * place sh h v x y r 0 / Real.sqrt sh.bx) ^ 2 +
    (Real.sqrt sh.byy * place sh h v x y r 3 + sh.ay * place sh h v x y r 2 / Real.sqrt sh.byy) ^ 2 = 2 * (h - v) := by
  have h1 := (Real.sqrt_pos.2 hx).ne'
  have h2 := (Real.sqrt_pos.2 hy).ne'
  have p0 : place sh h v x y r 0 = x * Real.sqrt sh.bx := rfl
  have p1 : place sh h v x y r 1 = (Real.sqrt (2 * (h - v)) * Real.cos (2 * Real.pi * r) - sh.ax * x) / Real.sqrt sh.bx := rfl
  have p2 : place sh h v x y r 2 = y * Real.sqrt sh.byy := rfl
  have p3 : place sh h v x y r 3 = (Real.sqrt (2 * (h - v)) * Real.sin (2 * Real.pi * r) - sh.ay * y) / Real.sqrt sh.byy := rfl
  rw [p0, p1, p2, p3]
  refine ⟨by field_simp, by field_simp, ?_⟩
  have e1 : Real.sqrt sh.bx * ((Real.sqrt (2 * (h - v)) * Real.cos (2 * Real.pi * r) - sh.ax * x) / Real.sqrt sh.bx) +
      sh.ax * (x * Real.sqrt sh.bx) / Real.sqrt sh.bx = Real.sqrt (2 * (h - v)) * Real.cos (2 * Real.pi * r) := by
    field_simp
    ring
  have e2 : Real.sqrt sh.byy * ((Real.sqrt (2 * (h - v)) * Real.sin (2 * Real.pi * r) - sh.ay * y) / Real.sqrt sh.byy) +
      sh.ay * (y * Real.sqrt sh.byy) / Real.sqrt sh.byy = Real.sqrt (2 * (h - v)) * Real.sin (2 * Real.pi * r) := by
    field_simp
    ring
  rw [e1, e2, mul_pow, mul_pow, Real.sq_sqrt (by linarith)]
  linear_combination 2 * (h - v) * Real.cos_sq_add_sin_sq (2 * Real.pi * r)

theorem cs_norm {β : ℝ} (hβ : 0 < β) (α x p : ℝ) :
    cs β α x p = (x / Real.sqrt β) ^ 2 + (Real.sqrt β * p + α * x / Real.sqrt β) ^ 2 := by
  have h1 := (Real.sqrt_pos.2 hβ).ne'
  have h2 := Real.sq_sqrt hβ.le
  unfold cs
  rw [show (Real.sqrt β * p + α * x / Real.sqrt β) ^ 2 = Real.sqrt β ^ 2 * p ^ 2 + 2 * α * x * p + α ^ 2 * x ^ 2 / Real.sqrt β ^ 2 by
    field_simp
    ring, div_pow, h2]
  field_simp
  ring

/-- A value of the potential is that of the paper. -/
theorem potential_val {t c x y v : ℝ} (hc : 0 < c) (h : potential t c x y = .ok (some v)) : v = ellU t c x y := by
  by_cases hs : t = 0 ∨ (¬ (x = c ∧ y = 0) ∧ ¬ (x = -c ∧ y = 0))
  · rw [potential_defined t c x y hc hs] at h
    simp only [Except.ok.injEq, Option.some.injEq] at h
    exact h.symm
  · push Not at hs
    obtain ⟨ht, hs⟩ := hs
    obtain ⟨h1, h2⟩ := (potential_singular t c ht).1 hc.ne'
    by_cases hx : x = c ∧ y = 0
    · rw [hx.1, hx.2, h1] at h
      simp at h
    · have := hs (fun hxc => fun hy => hx ⟨hxc, hy⟩)
      rw [this.1, this.2, h2] at h
      simp at h

end Verif.Bunch
