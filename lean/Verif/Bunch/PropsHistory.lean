import Verif.Bunch.PropsSetters

/-!
C87 over histories: the beta functions after any sequence of assignments, with the errors caught (bunch.py:116-151, 394-439).
-/

namespace Verif.Bunch

/-- The value is not negative. -/
noncomputable def notNeg (v : ℝ) : Option ℝ := if v < 0 then none else some v

/-- The value is positive. -/
noncomputable def pos (v : ℝ) : Option ℝ := if 0 < v then some v else none

/-- What an assignment stores as beta of the first plane, for a standard bunch. -/
noncomputable def Assign.storesX : Assign → Option ℝ
  | .betax v => notNeg v
  | _ => none

/-- Of the second plane. -/
noncomputable def Assign.storesY : Assign → Option ℝ
  | .betay v => notNeg v
  | _ => none

/-- For a nonlinear bunch a positive value is stored for both planes, zero for one. -/
noncomputable def Assign.storesNX : Assign → Option ℝ
  | .betax v => notNeg v
  | .betay v => pos v
  | _ => none

/-- Of the second plane. -/
noncomputable def Assign.storesNY : Assign → Option ℝ
  | .betay v => notNeg v
  | .betax v => pos v
  | _ => none

/-- A fold of steps that store a value or keep the old one ends with the last value stored. -/
theorem last_stored {β : Type} (step : β → Assign → β) (get : β → ℝ) (st : Assign → Option ℝ)
    (h : ∀ b o, get (step b o) = (st o).getD (get b)) : ∀ (ops : List Assign) (b : β),
    get (ops.foldl step b) = ((ops.filterMap st).getLast?).getD (get b) := by
  intro ops
  induction ops with
  | nil => intro b; rfl
  | cons o ops ih =>
    intro b
    rw [List.foldl_cons, ih, h, List.filterMap_cons]
    cases st o with
    | none => rfl
    | some v =>
      rw [Option.getD_some, List.getLast?_cons]
      rfl

/-- **C87, histories of a standard bunch.** After any assignments the beta of a plane is the last value assigned to it that was not
negative, or the one of the constructor. -/
theorem beta_history (ops : List Assign) (b : Bunch) :
    (history b ops).betax = ((ops.filterMap Assign.storesX).getLast?).getD b.betax ∧
    (history b ops).betay = ((ops.filterMap Assign.storesY).getLast?).getD b.betay := by
  refine ⟨last_stored (fun b a => (Assign.apply b a).1) (·.betax) _ ?_ ops b, last_stored (fun b a => (Assign.apply b a).1) (·.betay) _ ?_ ops b⟩
  · intro b o
    cases o with
    | betax v =>
      simp only [Assign.apply, Bunch.setBetax, Assign.storesX, notNeg]
      split_ifs <;> simp_all
    | betay v => simp only [Assign.apply, Bunch.setBetay, Assign.storesX]; split_ifs <;> rfl
    | alphax v => simp only [Assign.apply, Bunch.setAlphax, Assign.storesX]; split_ifs <;> rfl
    | alphay v => simp only [Assign.apply, Bunch.setAlphay, Assign.storesX]; split_ifs <;> rfl
  · intro b o
    cases o with
    | betay v =>
      simp only [Assign.apply, Bunch.setBetay, Assign.storesY, notNeg]
      split_ifs <;> simp_all
    | betax v => simp only [Assign.apply, Bunch.setBetax, Assign.storesY]; split_ifs <;> rfl
    | alphax v => simp only [Assign.apply, Bunch.setAlphax, Assign.storesY]; split_ifs <;> rfl
    | alphay v => simp only [Assign.apply, Bunch.setAlphay, Assign.storesY]; split_ifs <;> rfl

/-- **C87, histories of a nonlinear bunch.** -/
theorem nonlinear_beta_history (ops : List Assign) (b : NBunch) :
    (historyN b ops).betax = ((ops.filterMap Assign.storesNX).getLast?).getD b.betax ∧
    (historyN b ops).betay = ((ops.filterMap Assign.storesNY).getLast?).getD b.betay := by
  refine ⟨last_stored (fun b a => (Assign.applyN b a).1) (·.betax) _ ?_ ops b, last_stored (fun b a => (Assign.applyN b a).1) (·.betay) _ ?_ ops b⟩
  · intro b o
    cases o with
    | betax v =>
      simp only [Assign.applyN, NBunch.setBetax, Assign.storesNX, notNeg]
      split_ifs <;> simp_all
    | betay v =>
      simp only [Assign.applyN, NBunch.setBetay, Assign.storesNX, pos]
      rcases lt_trichotomy v 0 with h | h | h
      · simp [h, not_lt.mpr h.le]
      · simp [h]
      · simp [h, not_lt.mpr h.le, h.ne']
    | alphax v => simp only [Assign.applyN, NBunch.lift, Bunch.setAlphax, Assign.storesNX]; split_ifs <;> rfl
    | alphay v => simp only [Assign.applyN, NBunch.lift, Bunch.setAlphay, Assign.storesNX]; split_ifs <;> rfl
  · intro b o
    cases o with
    | betay v =>
      simp only [Assign.applyN, NBunch.setBetay, Assign.storesNY, notNeg]
      split_ifs <;> simp_all
    | betax v =>
      simp only [Assign.applyN, NBunch.setBetax, Assign.storesNY, pos]
      rcases lt_trichotomy v 0 with h | h | h
      · simp [h, not_lt.mpr h.le]
      · simp [h]
      · simp [h, not_lt.mpr h.le, h.ne']
    | alphax v => simp only [Assign.applyN, NBunch.lift, Bunch.setAlphax, Assign.storesNY]; split_ifs <;> rfl
    | alphay v => simp only [Assign.applyN, NBunch.lift, Bunch.setAlphay, Assign.storesNY]; split_ifs <;> rfl

theorem stored_pos {l : List ℝ} {d : ℝ} (h : ∀ v ∈ l, 0 ≤ v) (hd : 0 < d) : 0 ≤ (l.getLast?).getD d ∧ ((l.getLast?).getD d ≤ 0 ↔ l.getLast? = some 0) := by
  cases hl : l.getLast? with
  | none => simp [hd.le, hd]
  | some v =>
    have := h v (List.mem_of_getLast? hl)
    simp only [Option.getD_some, Option.some.injEq]
    exact ⟨this, fun h' => le_antisymm h' this, fun h' => h'.le⟩

theorem filterMap_nonneg {st : Assign → Option ℝ} (h : ∀ o v, st o = some v → 0 ≤ v) (ops : List Assign) : ∀ v ∈ ops.filterMap st, 0 ≤ v := by
  intro v hv
  obtain ⟨o, _, ho⟩ := List.mem_filterMap.1 hv
  exact h o v ho

theorem notNeg_nonneg {v w : ℝ} (h : notNeg v = some w) : 0 ≤ w := by
  unfold notNeg at h
  split at h
  · cases h
  · rename_i hn
    injection h with h
    rw [← h]
    exact not_lt.mp hn

/-- **C87, exactly, for a standard bunch made with positive beta functions.** No assignments make a beta function negative; it is zero if and only if
the last value assigned that was not negative is zero. In particular it stays positive if no assignment raises. -/
theorem beta_positive_iff (ops : List Assign) (b : Bunch) (hx : 0 < b.betax) (hy : 0 < b.betay) :
    0 ≤ (history b ops).betax ∧ 0 ≤ (history b ops).betay ∧
    ((history b ops).betax ≤ 0 ↔ (ops.filterMap Assign.storesX).getLast? = some 0) ∧
    ((history b ops).betay ≤ 0 ↔ (ops.filterMap Assign.storesY).getLast? = some 0) := by
  obtain ⟨h1, h2⟩ := beta_history ops b
  have a1 := stored_pos (filterMap_nonneg (st := Assign.storesX) (fun o v h => by
    cases o with
    | betax w => exact notNeg_nonneg h
    | betay w => cases h
    | alphax w => cases h
    | alphay w => cases h) ops) hx
  have a2 := stored_pos (filterMap_nonneg (st := Assign.storesY) (fun o v h => by
    cases o with
    | betay w => exact notNeg_nonneg h
    | betax w => cases h
    | alphax w => cases h
    | alphay w => cases h) ops) hy
  rw [h1, h2]
  exact ⟨a1.1, a2.1, a1.2, a2.2⟩

/-- Non-vacuity: zero is stored and stays when the next values are negative. -/
example (b : Bunch) : (history b [.betax 2, .betax 0, .betax (-1)]).betax = 0 := by
  rw [(beta_history _ b).1]
  norm_num [Assign.storesX, notNeg]

end Verif.Bunch
