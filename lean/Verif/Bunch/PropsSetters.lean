import Verif.Bunch.Model

/-!
# Properties C55, C86 and C87: Twiss functions of bunches under assignments
-/

namespace Verif.Bunch

/-- An assignment to one of the properties. -/
inductive Assign where
  | betax (v : ℝ)
  | betay (v : ℝ)
  | alphax (v : ℝ)
  | alphay (v : ℝ)

/-- Effect of an assignment on a `StandardBunch`. -/
noncomputable def Assign.apply (b : Bunch) : Assign → Bunch × Option PyErr
  | .betax v => b.setBetax v
  | .betay v => b.setBetay v
  | .alphax v => b.setAlphax v
  | .alphay v => b.setAlphay v

/-- Effect of an assignment on a `NonlinearBunch`. -/
noncomputable def Assign.applyN (b : NBunch) : Assign → NBunch × Option PyErr
  | .betax v => b.setBetax v
  | .betay v => b.setBetay v
  | .alphax v => b.lift fun s => s.setAlphax v
  | .alphay v => b.lift fun s => s.setAlphay v

/-- A history of assignments; the caller catches the exceptions. -/
noncomputable def history (b : Bunch) (l : List Assign) : Bunch := l.foldl (fun b a => (a.apply b).1) b

/-- The same for a `NonlinearBunch`. -/
noncomputable def historyN (b : NBunch) (l : List Assign) : NBunch := l.foldl (fun b a => (a.applyN b).1) b

/-- `gamma = (1 + alpha²) / beta` in the horizontal plane. -/
def ConsistentX (b : Bunch) : Prop := b.betax ≠ 0 → b.gammax = (1 + b.alphax ^ 2) / b.betax

/-- `gamma = (1 + alpha²) / beta` in the vertical plane. -/
def ConsistentY (b : Bunch) : Prop := b.betay ≠ 0 → b.gammay = (1 + b.alphay ^ 2) / b.betay

theorem newBunch_ok {npart dist emitx emity betax alphax betay alphay stdz dpop quiet b}
    (h : newBunch npart dist emitx emity betax alphax betay alphay stdz dpop quiet = .ok b) :
    betax ≠ 0 ∧ betay ≠ 0 ∧ 0 ≤ npart ∧ b =
    { npart := npart.toNat, dist := dist, emitx := emitx, emity := emity, emit := emitx + emity, betax := betax, alphax := alphax,
      betay := betay, alphay := alphay, gammax := (1 + alphax ^ 2) / betax, gammay := (1 + alphay ^ 2) / betay, stdz := stdz,
      dpop := dpop, quiet := quiet, particles := (List.range npart.toNat).map fun (n : Nat) i => if i = 6 then (n : ℝ) else 0 } := by
  unfold newBunch at h
  by_cases h1 : betax = 0 ∨ betay = 0
  · rw [if_pos h1] at h; cases h
  · rw [if_neg h1] at h
    by_cases h2 : npart < 0
    · rw [if_pos h2] at h; cases h
    · rw [if_neg h2] at h
      simp only [Except.ok.injEq] at h
      push Not at h1
      exact ⟨h1.1, h1.2, by omega, h.symm⟩

theorem setBetax_consistent {b : Bunch} (hx : ConsistentX b) (hy : ConsistentY b) (v : ℝ) :
    ConsistentX (b.setBetax v).1 ∧ ConsistentY (b.setBetax v).1 := by
  unfold Bunch.setBetax
  split_ifs with h1 h2
  · exact ⟨hx, hy⟩
  · exact ⟨fun h => absurd h2 h, hy⟩
  · exact ⟨fun _ => rfl, hy⟩

theorem setBetay_consistent {b : Bunch} (hx : ConsistentX b) (hy : ConsistentY b) (v : ℝ) :
    ConsistentX (b.setBetay v).1 ∧ ConsistentY (b.setBetay v).1 := by
  unfold Bunch.setBetay
  split_ifs with h1 h2
  · exact ⟨hx, hy⟩
  · exact ⟨hx, fun h => absurd h2 h⟩
  · exact ⟨hx, fun _ => rfl⟩

theorem setAlphax_consistent {b : Bunch} (hy : ConsistentY b) (v : ℝ) :
    ConsistentX (b.setAlphax v).1 ∧ ConsistentY (b.setAlphax v).1 := by
  unfold Bunch.setAlphax
  split_ifs with h1
  · exact ⟨fun h => absurd h1 h, hy⟩
  · exact ⟨fun _ => rfl, hy⟩

theorem setAlphay_consistent {b : Bunch} (hx : ConsistentX b) (v : ℝ) :
    ConsistentX (b.setAlphay v).1 ∧ ConsistentY (b.setAlphay v).1 := by
  unfold Bunch.setAlphay
  split_ifs with h1
  · exact ⟨hx, fun h => absurd h1 h⟩
  · exact ⟨hx, fun _ => rfl⟩

/-- **C55, gamma of a StandardBunch.** After any history of assignments, including those that raise, gamma
is consistent with alpha and beta in both planes (where beta is not zero). -/
theorem standard_consistent {npart dist emitx emity betax alphax betay alphay stdz dpop quiet b}
    (h : newBunch npart dist emitx emity betax alphax betay alphay stdz dpop quiet = .ok b) (l : List Assign) :
    ConsistentX (history b l) ∧ ConsistentY (history b l) := by
  have h0 : ConsistentX b ∧ ConsistentY b := by
    obtain ⟨_, _, _, rfl⟩ := newBunch_ok h
    exact ⟨fun _ => rfl, fun _ => rfl⟩
  clear h
  induction l generalizing b with
  | nil => exact h0
  | cons a l ih =>
    apply ih
    obtain ⟨hx, hy⟩ := h0
    cases a with
    | betax v => exact setBetax_consistent hx hy v
    | betay v => exact setBetay_consistent hx hy v
    | alphax v => exact setAlphax_consistent hy v
    | alphay v => exact setAlphay_consistent hx v

/-- **C55, reading.** An assigned positive `betax` is read back, and so are `alphax` and `alphay`. -/
theorem read_partial (b : Bunch) (v : ℝ) (hv : 0 < v) :
    (b.setBetax v).2 = none ∧ (b.setBetax v).1.readBetax = v ∧
    (b.setAlphax v).1.alphax = v ∧ (b.setAlphay v).1.alphay = v := by
  refine ⟨?_, ?_, ?_, ?_⟩
  · simp [Bunch.setBetax, hv.le.not_gt, hv.ne']
  · simp [Bunch.setBetax, Bunch.readBetax, hv.le.not_gt, hv.ne']
  · unfold Bunch.setAlphax; split_ifs <;> rfl
  · unfold Bunch.setAlphay; split_ifs <;> rfl

/-- **C55, reading betay is false.** After the assignment of `betay`, reading it gives the value that was
assigned only if `betax` has that value by chance. -/
theorem read_betay_fails (b : Bunch) (v : ℝ) (hv : 0 < v) :
    (b.setBetay v).2 = none ∧ (b.setBetay v).1.betay = v ∧ ((b.setBetay v).1.readBetay = v ↔ b.betax = v) := by
  have h : b.setBetay v = ({ b with betay := v, gammay := (1 + b.alphay ^ 2) / v }, none) := by
    simp [Bunch.setBetay, hv.le.not_gt, hv.ne']
  rw [h]
  exact ⟨rfl, rfl, Iff.rfl⟩

/-- **C55, NonlinearBunch.** The horizontal gamma is consistent after any history; the vertical gamma is
after any history without assignments to `betax`. -/
theorem nonlinear_consistent_partial {npart dist emitx emity betax alphax betay alphay stdz dpop quiet t c cutoff b}
    (h : newNBunch npart dist emitx emity betax alphax betay alphay stdz dpop quiet t c cutoff = .ok b) (l : List Assign) :
    ConsistentX (historyN b l).toBunch ∧ ((∀ v, Assign.betax v ∉ l) → ConsistentY (historyN b l).toBunch) := by
  have h0 : ConsistentX b.toBunch ∧ ConsistentY b.toBunch := by
    unfold newNBunch at h
    cases hn : newBunch npart dist emitx emity betax alphax betay alphay stdz dpop false with
    | error e => rw [hn] at h; cases h
    | ok b0 =>
      rw [hn] at h
      simp only [Except.ok.injEq] at h
      subst h
      exact standard_consistent hn []
  clear h
  have hstep : ∀ (b : NBunch) (a : Assign), ConsistentX b.toBunch → ConsistentX (a.applyN b).1.toBunch := by
    intro b a hx
    cases a with
    | betax v =>
      simp only [Assign.applyN, NBunch.setBetax]
      split_ifs with h1 h2
      · exact hx
      · exact fun h => absurd h2 h
      · exact fun _ => rfl
    | betay v =>
      simp only [Assign.applyN, NBunch.setBetay]
      split_ifs with h1 h2
      · exact hx
      · exact hx
      · exact fun _ => rfl
    | alphax v =>
      simp only [Assign.applyN, NBunch.lift, Bunch.setAlphax]
      split_ifs with h1
      · exact fun h => absurd h1 h
      · exact fun _ => rfl
    | alphay v =>
      simp only [Assign.applyN, NBunch.lift, Bunch.setAlphay]
      split_ifs with h1
      · exact hx
      · exact hx
  have hstepY : ∀ (b : NBunch) (a : Assign), (∀ v, a ≠ .betax v) → ConsistentY b.toBunch → ConsistentY (a.applyN b).1.toBunch := by
    intro b a ha hy
    cases a with
    | betax v => exact absurd rfl (ha v)
    | betay v =>
      simp only [Assign.applyN, NBunch.setBetay]
      split_ifs with h1 h2
      · exact hy
      · exact fun h => absurd h2 h
      · exact fun _ => rfl
    | alphax v =>
      simp only [Assign.applyN, NBunch.lift, Bunch.setAlphax]
      split_ifs with h1
      · exact hy
      · exact hy
    | alphay v =>
      simp only [Assign.applyN, NBunch.lift, Bunch.setAlphay]
      split_ifs with h1
      · exact fun h => absurd h1 h
      · exact fun _ => rfl
  constructor
  · induction l generalizing b with
    | nil => exact h0.1
    | cons a l ih =>
      have aux : ∀ (l : List Assign) (b : NBunch), ConsistentX b.toBunch → ConsistentX (historyN b l).toBunch := by
        intro l
        induction l with
        | nil => intro b hb; exact hb
        | cons a l ih => intro b hb; exact ih _ (hstep b a hb)
      exact aux _ b h0.1
  · have aux : ∀ (l : List Assign) (b : NBunch), (∀ v, Assign.betax v ∉ l) → ConsistentY b.toBunch →
        ConsistentY (historyN b l).toBunch := by
      intro l
      induction l with
      | nil => intro b _ hb; exact hb
      | cons a l ih =>
        intro b hl hb
        refine ih _ (fun v hv => hl v (List.mem_cons_of_mem _ hv)) (hstepY b a (fun v hv => hl v ?_) hb)
        rw [hv]
        exact List.mem_cons_self
    exact fun hl => aux l b hl h0.2

/-- **C55 is false for NonlinearBunch.** The assignment of `betax` computes the vertical gamma with the
horizontal alpha, so it is consistent exactly when the two have equal squares. -/
theorem nonlinear_gamma_fails (b : NBunch) (v : ℝ) (hv : 0 < v) :
    (b.setBetax v).2 = none ∧ (ConsistentY (b.setBetax v).1.toBunch ↔ b.alphax ^ 2 = b.alphay ^ 2) := by
  have h : b.setBetax v =
      ({ b with betax := v, gammax := (1 + b.alphax ^ 2) / v, betay := v, gammay := (1 + b.alphax ^ 2) / v }, none) := by
    simp [NBunch.setBetax, hv.le.not_gt, hv.ne']
  rw [h]
  refine ⟨rfl, fun hc => ?_, fun he _ => ?_⟩
  · have h1 : (1 + b.alphax ^ 2) / v = (1 + b.alphay ^ 2) / v := hc hv.ne'
    rw [div_left_inj' hv.ne'] at h1
    linarith
  · show (1 + b.alphax ^ 2) / v = (1 + b.alphay ^ 2) / v
    rw [he]

/-- In a NonlinearBunch an assigned positive `betay` is read back, because `betax` is set as well. -/
theorem nonlinear_betay_read (b : NBunch) (v : ℝ) (hv : 0 < v) :
    (b.setBetay v).2 = none ∧ (b.setBetay v).1.readBetay = v ∧ (b.setBetay v).1.readBetax = v := by
  have h : b.setBetay v =
      ({ b with betay := v, gammay := (1 + b.alphay ^ 2) / v, betax := v, gammax := (1 + b.alphax ^ 2) / v }, none) := by
    simp [NBunch.setBetay, hv.le.not_gt, hv.ne']
  rw [h]
  exact ⟨rfl, rfl, rfl⟩

/-! ## Sign of beta -/

/-- **C87.** Negative values are refused by all four beta setters and nothing is changed. -/
theorem beta_sign_partial (b : Bunch) (n : NBunch) (v : ℝ) (hv : v < 0) :
    b.setBetax v = (b, some .valueError) ∧ b.setBetay v = (b, some .valueError) ∧
    n.setBetax v = (n, some .valueError) ∧ n.setBetay v = (n, some .valueError) :=
  ⟨if_pos hv, if_pos hv, if_pos hv, if_pos hv⟩

/-- **C87 is false for the constructor**, which accepts all negative values. -/
theorem beta_sign_fails (npart : Nat) (dist : String) (emitx emity betax alphax betay alphay stdz dpop : ℝ) (quiet : Bool)
    (hx : betax < 0) (hy : betay < 0) :
    ∃ b, newBunch npart dist emitx emity betax alphax betay alphay stdz dpop quiet = .ok b ∧ b.readBetax = betax ∧ b.betay = betay := by
  refine ⟨_, by unfold newBunch; rw [if_neg, if_neg (by omega)]; push Not; exact ⟨hx.ne, hy.ne⟩, rfl, rfl⟩

/-- **C87 is false for zero**, which raises but is stored; gamma keeps its value. -/
theorem beta_zero_fails (b : Bunch) : (b.setBetax 0).2 = some .zeroDivisionError ∧ (b.setBetax 0).1.betax = 0 ∧
    (b.setBetax 0).1.gammax = b.gammax := by
  unfold Bunch.setBetax
  rw [if_neg (lt_irrefl _), if_pos rfl]
  exact ⟨rfl, rfl, rfl⟩

/-! ## Arguments of `set_transverse_coordinates` -/

theorem andThen_none {B : Type} {r : B × Option PyErr} {f : B → B × Option PyErr} {x : B} (h : andThen r f = (x, none)) :
    ∃ y, r = (y, none) ∧ f y = (x, none) := by
  obtain ⟨b, e⟩ := r
  cases e with
  | some e => simp [andThen] at h
  | none => exact ⟨b, rfl, h⟩

theorem setBetax_none {b x : Bunch} {v : ℝ} (h : b.setBetax v = (x, none)) :
    0 < v ∧ x = { b with betax := v, gammax := (1 + b.alphax ^ 2) / v } := by
  unfold Bunch.setBetax at h
  split_ifs at h with h1 h2
  · simp at h
  · simp at h
  · simp only [Prod.mk.injEq, and_true] at h
    exact ⟨lt_of_le_of_ne (not_lt.1 h1) (Ne.symm h2), h.symm⟩

theorem setAlphax_none {b x : Bunch} {v : ℝ} (h : b.setAlphax v = (x, none)) :
    x = { b with alphax := v, gammax := (1 + v ^ 2) / b.betax } := by
  unfold Bunch.setAlphax at h
  split_ifs at h with h1
  · simp at h
  · simp only [Prod.mk.injEq, and_true] at h
    exact h.symm

theorem setAlphay_none {b x : Bunch} {v : ℝ} (h : b.setAlphay v = (x, none)) :
    x = { b with alphay := v, gammay := (1 + v ^ 2) / b.betay } := by
  unfold Bunch.setAlphay at h
  split_ifs at h with h1
  · simp at h
  · simp only [Prod.mk.injEq, and_true] at h
    exact h.symm

/-- All attributes after the assignments of `set_transverse_coordinates`. -/
theorem assignArgs_spec {a : TArgs} {b x : Bunch} (h : b.assignArgs a = (x, none)) :
    x.betax = (a.betay.or a.betax).getD b.betax ∧ x.alphax = a.alphax.getD b.alphax ∧ x.betay = b.betay ∧
    x.alphay = a.alphay.getD b.alphay ∧ x.emitx = a.emitx.getD b.emitx ∧ x.emity = a.emity.getD b.emity ∧
    x.emit = b.emit ∧ x.npart = b.npart ∧ x.dist = b.dist ∧ x.quiet = b.quiet ∧ x.particles = b.particles ∧
    (ConsistentX b → ConsistentX x) ∧ (ConsistentY b → ConsistentY x) := by
  unfold Bunch.assignArgs at h
  obtain ⟨b1, h1, h⟩ := andThen_none h
  obtain ⟨b2, h2, h⟩ := andThen_none h
  obtain ⟨b3, h3, h⟩ := andThen_none h
  obtain ⟨b4, h4, h⟩ := andThen_none h
  simp only [Prod.mk.injEq, and_true] at h
  subst h
  obtain ⟨ex, ey, bx, ax, by', ay⟩ := a
  have g1 : b1.betax = bx.getD b.betax ∧ b1.alphax = b.alphax ∧ b1.betay = b.betay ∧ b1.alphay = b.alphay ∧ b1.emitx = b.emitx ∧
      b1.emity = b.emity ∧ b1.emit = b.emit ∧ b1.npart = b.npart ∧ b1.dist = b.dist ∧ b1.quiet = b.quiet ∧ b1.particles = b.particles ∧
      (ConsistentX b → ConsistentX b1) ∧ (ConsistentY b → ConsistentY b1) := by
    cases bx with
    | none => simp only [ifGiven, Prod.mk.injEq, and_true] at h1; subst h1; simp
    | some v => obtain ⟨_, rfl⟩ := setBetax_none h1; simp [ConsistentX, ConsistentY]
  have g2 : b2.betax = b1.betax ∧ b2.alphax = ax.getD b1.alphax ∧ b2.betay = b1.betay ∧ b2.alphay = b1.alphay ∧ b2.emitx = b1.emitx ∧
      b2.emity = b1.emity ∧ b2.emit = b1.emit ∧ b2.npart = b1.npart ∧ b2.dist = b1.dist ∧ b2.quiet = b1.quiet ∧ b2.particles = b1.particles ∧
      (ConsistentX b1 → ConsistentX b2) ∧ (ConsistentY b1 → ConsistentY b2) := by
    cases ax with
    | none => simp only [ifGiven, Prod.mk.injEq, and_true] at h2; subst h2; simp
    | some v => have := setAlphax_none h2; subst this; simp [ConsistentX, ConsistentY]
  have g3 : b3.betax = by'.getD b2.betax ∧ b3.alphax = b2.alphax ∧ b3.betay = b2.betay ∧ b3.alphay = b2.alphay ∧ b3.emitx = b2.emitx ∧
      b3.emity = b2.emity ∧ b3.emit = b2.emit ∧ b3.npart = b2.npart ∧ b3.dist = b2.dist ∧ b3.quiet = b2.quiet ∧ b3.particles = b2.particles ∧
      (ConsistentX b2 → ConsistentX b3) ∧ (ConsistentY b2 → ConsistentY b3) := by
    cases by' with
    | none => simp only [ifGiven, Prod.mk.injEq, and_true] at h3; subst h3; simp
    | some v => obtain ⟨_, rfl⟩ := setBetax_none h3; simp [ConsistentX, ConsistentY]
  have g4 : b4.betax = b3.betax ∧ b4.alphax = b3.alphax ∧ b4.betay = b3.betay ∧ b4.alphay = ay.getD b3.alphay ∧ b4.emitx = b3.emitx ∧
      b4.emity = b3.emity ∧ b4.emit = b3.emit ∧ b4.npart = b3.npart ∧ b4.dist = b3.dist ∧ b4.quiet = b3.quiet ∧ b4.particles = b3.particles ∧
      (ConsistentX b3 → ConsistentX b4) ∧ (ConsistentY b3 → ConsistentY b4) := by
    cases ay with
    | none => simp only [ifGiven, Prod.mk.injEq, and_true] at h4; subst h4; simp
    | some v => have := setAlphay_none h4; subst this; simp [ConsistentX, ConsistentY]
  obtain ⟨a1, a2, a3, a4, a5, a6, a7, a8, a9, a10, a11, a12, a13⟩ := g1
  obtain ⟨c1, c2, c3, c4, c5, c6, c7, c8, c9, c10, c11, c12, c13⟩ := g2
  obtain ⟨d1, d2, d3, d4, d5, d6, d7, d8, d9, d10, d11, d12, d13⟩ := g3
  obtain ⟨e1, e2, e3, e4, e5, e6, e7, e8, e9, e10, e11, e12, e13⟩ := g4
  refine ⟨?_, ?_, ?_, ?_, ?_, ?_, ?_, ?_, ?_, ?_, ?_, fun h => e12 (d12 (c12 (a12 h))), fun h => e13 (d13 (c13 (a13 h)))⟩
  · show b4.betax = _
    rw [e1, d1, c1, a1]
    cases by' <;> rfl
  · show b4.alphax = _
    rw [e2, d2, c2, a2]
  · show b4.betay = _
    rw [e3, d3, c3, a3]
  · show b4.alphay = _
    rw [e4, d4, c4, a4]
  · show ex.getD b4.emitx = _
    rw [e5, d5, c5, a5]
  · show ey.getD b4.emity = _
    rw [e6, d6, c6, a6]
  · show b4.emit = _
    rw [e7, d7, c7, a7]
  · show b4.npart = _
    rw [e8, d8, c8, a8]
  · show b4.dist = _
    rw [e9, d9, c9, a9]
  · show b4.quiet = _
    rw [e10, d10, c10, a10]
  · show b4.particles = _
    rw [e11, d11, c11, a11]

/-- **C86.** Without `betay`, the values given to `set_transverse_coordinates` are those of the bunch when
the particles are made; the others are kept. -/
theorem args_partial {a : TArgs} {b x : Bunch} (hn : a.betay = none) (h : b.assignArgs a = (x, none)) :
    x.betax = a.betax.getD b.betax ∧ x.alphax = a.alphax.getD b.alphax ∧ x.betay = b.betay ∧
    x.alphay = a.alphay.getD b.alphay ∧ x.emitx = a.emitx.getD b.emitx ∧ x.emity = a.emity.getD b.emity := by
  obtain ⟨h1, h2, h3, h4, h5, h6, _⟩ := assignArgs_spec h
  rw [hn, Option.none_or] at h1
  exact ⟨h1, h2, h3, h4, h5, h6⟩

/-- **C86 is false for betay.** The value becomes `betax`, in place of a given `betax`, and `betay` is kept. -/
theorem args_betay_fails {a : TArgs} {b x : Bunch} {v : ℝ} (hv : a.betay = some v) (h : b.assignArgs a = (x, none)) :
    x.betax = v ∧ x.betay = b.betay := by
  obtain ⟨h1, _, h3, _⟩ := assignArgs_spec h
  rw [hv] at h1
  exact ⟨h1, h3⟩

/-- **C86, errors.** The assignments raise exactly when a given beta is not positive, or an alpha is given
while the beta it needs is zero. For a bunch with beta different from zero: exactly for a given beta that is
not positive. -/
theorem args_error (a : TArgs) (b : Bunch) (hx : b.betax ≠ 0) (hy : b.betay ≠ 0) :
    (b.assignArgs a).2 = none ↔ (∀ v, a.betax = some v → 0 < v) ∧ (∀ v, a.betay = some v → 0 < v) := by
  obtain ⟨ex, ey, bx, ax, by', ay⟩ := a
  have pos : ∀ v : ℝ, v = 0 → ¬ 0 < v := fun v h => by rw [h]; exact lt_irrefl _
  have key : ∀ (b : Bunch) (v : ℝ), 0 < v → b.setBetax v = ({ b with betax := v, gammax := (1 + b.alphax ^ 2) / v }, none) := by
    intro b v hv
    simp [Bunch.setBetax, hv.le.not_gt, hv.ne']
  have key' : ∀ (b : Bunch) (v : ℝ), ¬ 0 < v → ∃ y e, b.setBetax v = (y, some e) := by
    intro b v hv
    unfold Bunch.setBetax
    split_ifs with h1 h2
    · exact ⟨_, _, rfl⟩
    · exact ⟨_, _, rfl⟩
    · exact absurd (lt_of_le_of_ne (not_lt.1 h1) (Ne.symm h2)) hv
  have kax : ∀ (b : Bunch) (v : ℝ), b.betax ≠ 0 → b.setAlphax v = ({ b with alphax := v, gammax := (1 + v ^ 2) / b.betax }, none) := by
    intro b v hv
    simp [Bunch.setAlphax, hv]
  have kay : ∀ (b : Bunch) (v : ℝ), b.betay ≠ 0 → b.setAlphay v = ({ b with alphay := v, gammay := (1 + v ^ 2) / b.betay }, none) := by
    intro b v hv
    simp [Bunch.setAlphay, hv]
  -- first step
  have s1 : (∃ y e, ifGiven bx Bunch.setBetax b = (y, some e) ∧ ¬ ∀ v, bx = some v → 0 < v) ∨
      ∃ y, ifGiven bx Bunch.setBetax b = (y, none) ∧ y.betax ≠ 0 ∧ y.betay ≠ 0 ∧ ∀ v, bx = some v → 0 < v := by
    cases bx with
    | none => exact Or.inr ⟨b, rfl, hx, hy, by simp⟩
    | some v =>
      by_cases hv : 0 < v
      · exact Or.inr ⟨_, key b v hv, hv.ne', hy, by simpa using hv⟩
      · obtain ⟨y, e, h⟩ := key' b v hv
        exact Or.inl ⟨y, e, h, by simpa using hv⟩
  unfold Bunch.assignArgs
  rcases s1 with ⟨y, e, h, hn⟩ | ⟨b1, h, hx1, hy1, hp1⟩
  · simp only [h, andThen]
    constructor
    · intro h; cases h
    · intro h; exact absurd h.1 hn
  · simp only [h, andThen]
    have s2 : ∃ y, ifGiven ax Bunch.setAlphax b1 = (y, none) ∧ y.betax ≠ 0 ∧ y.betay ≠ 0 := by
      cases ax with
      | none => exact ⟨b1, rfl, hx1, hy1⟩
      | some v => exact ⟨_, kax b1 v hx1, hx1, hy1⟩
    obtain ⟨b2, h2, hx2, hy2⟩ := s2
    simp only [h2]
    cases by' with
    | none =>
      simp only [ifGiven]
      cases ay with
      | none => simpa using hp1
      | some v => simp only [kay b2 v hy2]; simpa using hp1
    | some v =>
      simp only [ifGiven]
      by_cases hv : 0 < v
      · simp only [key b2 v hv]
        cases ay with
        | none => simp only [true_iff]; exact ⟨hp1, by simpa using hv⟩
        | some w =>
          simp only [kay { b2 with betax := v, gammax := (1 + b2.alphax ^ 2) / v } w hy2, true_iff]
          exact ⟨hp1, by simpa using hv⟩
      · obtain ⟨y, e, h3⟩ := key' b2 v hv
        simp only [h3]
        constructor
        · intro h; cases h
        · intro h; exact absurd (h.2 v rfl) hv

/-- **C86, NonlinearBunch.** Without a cutoff the given values are those of the bunch; both beta functions are
set. -/
theorem nonlinear_args_partial {a : NArgs} {b x : NBunch} (h : b.assignArgs a = (x, none)) :
    a.cutoff = none ∧ x.betax = a.betax.getD b.betax ∧ x.betay = a.betax.getD b.betay ∧ x.alphax = a.alphax.getD b.alphax ∧
    x.alphay = b.alphay ∧ x.emitx = a.emitx.getD b.emitx ∧ x.emity = a.emity.getD b.emity ∧ x.emit = b.emit ∧
    x.t = b.t ∧ x.c = b.c ∧ x.cutoff = b.cutoff ∧ x.npart = b.npart ∧ x.dist = b.dist ∧ x.quiet = b.quiet ∧
    x.particles = b.particles := by
  obtain ⟨ex, ey, bx, ax, cut⟩ := a
  unfold NBunch.assignArgs at h
  obtain ⟨b1, h1, h⟩ := andThen_none h
  obtain ⟨b2, h2, h⟩ := andThen_none h
  cases cut with
  | some v => simp [ifGiven, NBunch.setCutoff] at h
  | none =>
    simp only [ifGiven, Prod.mk.injEq, and_true] at h
    subst h
    have g1 : b1 = b ∧ bx = none ∨ ∃ v, bx = some v ∧ b1 =
        { b with betax := v, gammax := (1 + b.alphax ^ 2) / v, betay := v, gammay := (1 + b.alphax ^ 2) / v } := by
      cases bx with
      | none => simp only [ifGiven, Prod.mk.injEq, and_true] at h1; exact Or.inl ⟨h1.symm, rfl⟩
      | some v =>
        simp only [ifGiven, NBunch.setBetax] at h1
        split_ifs at h1 with g1 g2
        · simp at h1
        · simp at h1
        · simp only [Prod.mk.injEq, and_true] at h1
          exact Or.inr ⟨v, rfl, h1.symm⟩
    have g2 : b2 = b1 ∧ ax = none ∨ ∃ v g, ax = some v ∧ b2 = { b1 with alphax := v, gammax := g } := by
      cases ax with
      | none => simp only [ifGiven, Prod.mk.injEq, and_true] at h2; exact Or.inl ⟨h2.symm, rfl⟩
      | some v =>
        simp only [ifGiven, NBunch.lift, Bunch.setAlphax] at h2
        split_ifs at h2 with g1
        · simp at h2
        · simp only [Prod.mk.injEq, and_true] at h2
          exact Or.inr ⟨v, _, rfl, h2.symm⟩
    rcases g1 with ⟨rfl, rfl⟩ | ⟨v, rfl, rfl⟩ <;> rcases g2 with ⟨rfl, rfl⟩ | ⟨w, g, rfl, rfl⟩ <;> simp

/-- **C86 is false for the cutoff.** A call with a cutoff never succeeds, whatever the value, and never makes
particles. -/
theorem nonlinear_cutoff_fails (newton : Newton) (a : NArgs) (draws : List ℝ) (b : NBunch) (hc : a.cutoff ≠ none) :
    ∃ x e, b.setTransverse newton a draws = (x, some e) := by
  unfold NBunch.setTransverse
  cases h : b.assignArgs a with
  | mk x e =>
    cases e with
    | none => exact absurd (nonlinear_args_partial h).1 hc
    | some e => exact ⟨x, e, rfl⟩

/-- The direct assignment raises NameError and changes nothing. -/
theorem cutoff_setter_fails (b : NBunch) (v : ℝ) : b.setCutoff v = (b, some .nameError) := rfl

/-- A bunch for the examples. -/
noncomputable def sampleBunch : Bunch :=
  { npart := 1, dist := "KV", emitx := 1, emity := 1, emit := 2, betax := 2, alphax := 1, betay := 4, alphay := 3, gammax := 1,
    gammay := 5 / 2, stdz := 1, dpop := 0, quiet := false, particles := [fun _ => 0] }

example : newBunch 1 "KV" 1 1 2 1 4 3 1 0 false = .ok { sampleBunch with particles := [fun i => if i = 6 then 0 else 0] } := by
  norm_num [newBunch, sampleBunch]

example : (sampleBunch.setBetay 7).1.readBetay = 2 := by
  norm_num [Bunch.setBetay, sampleBunch, Bunch.readBetay]

example : ¬ ConsistentY (NBunch.setBetax { toBunch := sampleBunch, t := 1, c := 1, cutoff := 4 } 3).1.toBunch := by
  rw [(nonlinear_gamma_fails _ 3 (by norm_num)).2]
  norm_num [sampleBunch]

example : ∃ x, sampleBunch.assignArgs ⟨none, some 2, some 5, some 0, some 7, none⟩ = (x, none) ∧ x.betax = 7 ∧ x.betay = 4 := by
  have h := (args_error ⟨none, some 2, some 5, some 0, some 7, none⟩ sampleBunch (by norm_num [sampleBunch])
    (by norm_num [sampleBunch])).2 ⟨by simp, by simp⟩
  refine ⟨(sampleBunch.assignArgs ⟨none, some 2, some 5, some 0, some 7, none⟩).1, Prod.ext rfl h, ?_⟩
  have := args_betay_fails (v := 7) rfl (Prod.ext rfl h : sampleBunch.assignArgs ⟨none, some 2, some 5, some 0, some 7, none⟩ = (_, none))
  exact ⟨this.1, this.2⟩

example : ∃ x, NBunch.assignArgs ⟨some 2, none, some 5, some 0, none⟩ { toBunch := sampleBunch, t := 1, c := 1, cutoff := 4 } = (x, none) := by
  norm_num [NBunch.assignArgs, andThen, ifGiven, NBunch.setBetax, NBunch.lift, Bunch.setAlphax]

/-! The theorems above at concrete values. -/

example : ∃ b, newBunch 1 "KV" 1 1 2 1 4 3 1 0 false = .ok b ∧
    ConsistentX (history b [.betax 3, .alphay 2, .betay (-1)]) ∧ ConsistentY (history b [.betax 3, .alphay 2, .betay (-1)]) :=
  have h : newBunch 1 "KV" 1 1 2 1 4 3 1 0 false = .ok { sampleBunch with particles := [fun i => if i = 6 then 0 else 0] } := by
    norm_num [newBunch, sampleBunch]
  ⟨_, h, standard_consistent h _⟩

example : (sampleBunch.setBetax 3).2 = none ∧ (sampleBunch.setBetax 3).1.readBetax = 3 :=
  ⟨(read_partial sampleBunch 3 (by norm_num)).1, (read_partial sampleBunch 3 (by norm_num)).2.1⟩

example : (sampleBunch.setBetay 7).1.readBetay ≠ 7 := by
  rw [Ne, (read_betay_fails sampleBunch 7 (by norm_num)).2.2]
  norm_num [sampleBunch]

/-- A nonlinear bunch for the examples. -/
noncomputable def sampleNBunch : NBunch := { toBunch := sampleBunch, t := 1, c := 1, cutoff := 4 }

example : ∃ b, newNBunch 1 "KV" 1 1 2 1 4 3 1 0 true 1 1 4 = .ok b ∧ ConsistentX (historyN b [.betay 3, .alphax 2]).toBunch ∧
    ConsistentY (historyN b [.betay 3, .alphax 2]).toBunch := by
  have h : newNBunch 1 "KV" 1 1 2 1 4 3 1 0 true 1 1 4 = .ok
      { toBunch := { sampleBunch with particles := [fun i => if i = 6 then 0 else 0] }, t := 1, c := 1, cutoff := 4 } := by
    norm_num [newNBunch, newBunch, sampleBunch]
  exact ⟨_, h, (nonlinear_consistent_partial h _).1, (nonlinear_consistent_partial h _).2 (by simp)⟩

example : (sampleNBunch.setBetay 3).1.readBetay = 3 := (nonlinear_betay_read sampleNBunch 3 (by norm_num)).2.1

example : sampleBunch.setBetay (-2) = (sampleBunch, some .valueError) := (beta_sign_partial sampleBunch sampleNBunch (-2) (by norm_num)).2.1

example : ∃ b, newBunch 5 "KV" 1 1 (-2) 1 (-3) 3 1 0 false = .ok b ∧ b.readBetax = -2 ∧ b.betay = -3 :=
  beta_sign_fails 5 "KV" 1 1 (-2) 1 (-3) 3 1 0 false (by norm_num) (by norm_num)

example : ∃ x, sampleBunch.assignArgs ⟨none, some 2, some 5, some 0, none, none⟩ = (x, none) ∧ x.betax = 5 ∧ x.emity = 2 := by
  have h := (args_error ⟨none, some 2, some 5, some 0, none, none⟩ sampleBunch (by norm_num [sampleBunch])
    (by norm_num [sampleBunch])).2 ⟨by simp, by simp⟩
  have := args_partial rfl (Prod.ext rfl h : sampleBunch.assignArgs ⟨none, some 2, some 5, some 0, none, none⟩ = (_, none))
  exact ⟨_, Prod.ext rfl h, this.1, this.2.2.2.2.2⟩

example : ∃ x, sampleNBunch.assignArgs ⟨some 2, none, some 5, some 0, none⟩ = (x, none) ∧ x.betay = 5 ∧ x.alphay = 3 := by
  obtain ⟨x, h⟩ : ∃ x, sampleNBunch.assignArgs ⟨some 2, none, some 5, some 0, none⟩ = (x, none) := by
    norm_num [NBunch.assignArgs, andThen, ifGiven, NBunch.setBetax, NBunch.lift, Bunch.setAlphax]
  have := nonlinear_args_partial h
  exact ⟨x, h, this.2.2.1, this.2.2.2.2.1⟩

example : ∃ x e, sampleNBunch.setTransverse (fun _ _ => .ok 1) ⟨none, none, none, none, some 3⟩ [] = (x, some e) :=
  nonlinear_cutoff_fails _ _ _ _ (by simp)

end Verif.Bunch
