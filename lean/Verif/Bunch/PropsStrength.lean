import Verif.Bunch.PropsSetters

/-!
# Property C98: strength and aperture parameter of a nonlinear bunch under assignments
-/

namespace Verif.Bunch

/-- An assignment to `t` or `c`, or to one of the Twiss functions. -/
inductive AssignE where
  | t (v : ℝ)
  | c (v : ℝ)
  | twiss (a : Assign)

/-- Effect of an assignment. -/
noncomputable def AssignE.apply (b : NBunch) : AssignE → NBunch × Option PyErr
  | .t v => b.setT v
  | .c v => b.setC v
  | .twiss a => a.applyN b

/-- A history of assignments; the caller catches the exceptions. -/
noncomputable def historyE (b : NBunch) (l : List AssignE) : NBunch := l.foldl (fun b a => (a.apply b).1) b

theorem lift_tc (b : NBunch) (f : Bunch → Bunch × Option PyErr) : (b.lift f).1.t = b.t ∧ (b.lift f).1.c = b.c := ⟨rfl, rfl⟩

theorem twiss_tc (b : NBunch) (a : Assign) : (a.applyN b).1.t = b.t ∧ (a.applyN b).1.c = b.c := by
  cases a with
  | betax v => simp only [Assign.applyN, NBunch.setBetax]; split_ifs <;> exact ⟨rfl, rfl⟩
  | betay v => simp only [Assign.applyN, NBunch.setBetay]; split_ifs <;> exact ⟨rfl, rfl⟩
  | alphax v => exact lift_tc b _
  | alphay v => exact lift_tc b _

/-- The last value in the history that is not negative, or the value at the start. -/
noncomputable def lastValue (start : ℝ) (l : List ℝ) : ℝ := ((l.filter fun v => decide (0 ≤ v)).getLast?).getD start

/-- The values given to `t`. -/
def givenT : List AssignE → List ℝ
  | [] => []
  | .t v :: l => v :: givenT l
  | _ :: l => givenT l

/-- The values given to `c`. -/
def givenC : List AssignE → List ℝ
  | [] => []
  | .c v :: l => v :: givenC l
  | _ :: l => givenC l

theorem lastValue_cons (s v : ℝ) (l : List ℝ) : lastValue s (v :: l) = lastValue (if 0 ≤ v then v else s) l := by
  unfold lastValue
  by_cases h : 0 ≤ v
  · rw [List.filter_cons_of_pos (by simpa using h), if_pos h, List.getLast?_cons]
    rfl
  · rw [List.filter_cons_of_neg (by simpa using h), if_neg h]

theorem setT_t (b : NBunch) (v : ℝ) : (b.setT v).1.t = (if 0 ≤ v then v else b.t) ∧ (b.setT v).1.c = b.c := by
  unfold NBunch.setT
  by_cases h : v < 0
  · rw [if_pos h, if_neg (not_le.2 h)]; exact ⟨rfl, rfl⟩
  · rw [if_neg h, if_pos (not_lt.1 h)]; exact ⟨rfl, rfl⟩

theorem setC_c (b : NBunch) (v : ℝ) : (b.setC v).1.c = (if 0 ≤ v then v else b.c) ∧ (b.setC v).1.t = b.t := by
  unfold NBunch.setC
  by_cases h : v < 0
  · rw [if_pos h, if_neg (not_le.2 h)]; exact ⟨rfl, rfl⟩
  · rw [if_neg h, if_pos (not_lt.1 h)]; exact ⟨rfl, rfl⟩

/-- **C98, values.** After any history of assignments the strength and the aperture parameter are the last values given to them that
were not negative. -/
theorem elliptic_history (l : List AssignE) : ∀ b : NBunch,
    (historyE b l).t = lastValue b.t (givenT l) ∧ (historyE b l).c = lastValue b.c (givenC l) := by
  induction l with
  | nil => intro b; exact ⟨rfl, rfl⟩
  | cons a l ih =>
    intro b
    have h := ih (a.apply b).1
    rw [show historyE b (a :: l) = historyE (a.apply b).1 l from rfl, h.1, h.2]
    cases a with
    | t v => simp only [AssignE.apply, givenT, givenC, lastValue_cons, (setT_t b v).1, (setT_t b v).2]; exact ⟨trivial, trivial⟩
    | c v => simp only [AssignE.apply, givenT, givenC, lastValue_cons, (setC_c b v).1, (setC_c b v).2]; exact ⟨trivial, trivial⟩
    | twiss a => simp only [AssignE.apply, givenT, givenC, (twiss_tc b a).1, (twiss_tc b a).2]; exact ⟨trivial, trivial⟩

/-- **C98, refusal.** A negative value raises ValueError and changes nothing; other values raise nothing. -/
theorem elliptic_refuses (b : NBunch) (v : ℝ) :
    (v < 0 → b.setT v = (b, some .valueError) ∧ b.setC v = (b, some .valueError)) ∧ (0 ≤ v → (b.setT v).2 = none ∧ (b.setC v).2 = none) := by
  refine ⟨fun h => ⟨if_pos h, if_pos h⟩, fun h => ?_⟩
  unfold NBunch.setT NBunch.setC
  rw [if_neg (not_lt.2 h), if_neg (not_lt.2 h)]
  exact ⟨rfl, rfl⟩

/-- **C98, sign.** A bunch that starts with strength and aperture parameter not negative never has negative ones. -/
theorem elliptic_sign_partial (l : List AssignE) (b : NBunch) (ht : 0 ≤ b.t) (hc : 0 ≤ b.c) : 0 ≤ (historyE b l).t ∧ 0 ≤ (historyE b l).c := by
  have hl : ∀ (l : List ℝ) (s : ℝ), 0 ≤ s → 0 ≤ lastValue s l := by
    intro l
    induction l with
    | nil => intro s hs; exact hs
    | cons v l ih =>
      intro s hs
      rw [lastValue_cons]
      apply ih
      by_cases h : 0 ≤ v
      · rw [if_pos h]; exact h
      · rw [if_neg h]; exact hs
  rw [(elliptic_history l b).1, (elliptic_history l b).2]
  exact ⟨hl _ _ ht, hl _ _ hc⟩

/-- **C98 is false.** The constructor stores any strength and aperture parameter, and the setters accept zero although their
messages say larger than 0. -/
theorem elliptic_sign_fails (t c cutoff : ℝ) :
    (∃ b, newNBunch 1 "KV" 1 1 1 0 1 0 0 0 false t c cutoff = .ok b ∧ b.t = t ∧ b.c = c) ∧
    (∀ b : NBunch, (b.setT 0).2 = none ∧ (b.setT 0).1.t = 0 ∧ (b.setC 0).2 = none ∧ (b.setC 0).1.c = 0) := by
  refine ⟨?_, fun b => ?_⟩
  · unfold newNBunch newBunch
    rw [if_neg (by norm_num), if_neg (by decide)]
    exact ⟨_, rfl, rfl, rfl⟩
  · simp [NBunch.setT, NBunch.setC]

example : lastValue 5 (givenT [.t 3, .c 2, .t (-1), .twiss (.betax 2)]) = 3 := by
  simp [givenT, lastValue]

theorem assign_emit (b : Bunch) (a : Assign) : (a.apply b).1.emit = b.emit ∧ (a.apply b).1.emitx = b.emitx ∧ (a.apply b).1.emity = b.emity := by
  cases a with
  | betax v => simp only [Assign.apply, Bunch.setBetax]; split_ifs <;> exact ⟨rfl, rfl, rfl⟩
  | betay v => simp only [Assign.apply, Bunch.setBetay]; split_ifs <;> exact ⟨rfl, rfl, rfl⟩
  | alphax v => simp only [Assign.apply, Bunch.setAlphax]; split_ifs <;> exact ⟨rfl, rfl, rfl⟩
  | alphay v => simp only [Assign.apply, Bunch.setAlphay]; split_ifs <;> exact ⟨rfl, rfl, rfl⟩

/-- **C99, construction.** The total emittance of a new bunch is the sum of the emittances of the planes, and stays so under any
history of assignments to Twiss functions. -/
theorem total_emittance_partial {npart dist emitx emity betax alphax betay alphay stdz dpop quiet b}
    (h : newBunch npart dist emitx emity betax alphax betay alphay stdz dpop quiet = .ok b) (l : List Assign) :
    (history b l).emit = emitx + emity ∧ (history b l).emitx = emitx ∧ (history b l).emity = emity := by
  have h0 : b.emit = emitx + emity ∧ b.emitx = emitx ∧ b.emity = emity := by
    obtain ⟨_, _, _, rfl⟩ := newBunch_ok h
    exact ⟨rfl, rfl, rfl⟩
  clear h
  induction l generalizing b with
  | nil => exact h0
  | cons a l ih =>
    apply ih
    obtain ⟨e, ex, ey⟩ := assign_emit b a
    rw [e, ex, ey]
    exact h0

/-- **C99 is false.** `set_transverse_coordinates` of a Gaussian bunch changes the emittances of the planes and keeps the total: the
total is their sum afterwards only if the sum did not change. -/
theorem total_emittance_fails (newton : Newton) (a : TArgs) (gx gxp gy gyp draws : List ℝ) (b x : Bunch) (hd : b.dist = "Gaussian")
    (h : b.setTransverse newton a gx gxp gy gyp draws = (x, none)) :
    x.emit = b.emit ∧ x.emitx = a.emitx.getD b.emitx ∧ x.emity = a.emity.getD b.emity ∧
    (x.emit = x.emitx + x.emity ↔ b.emit = a.emitx.getD b.emitx + a.emity.getD b.emity) := by
  unfold Bunch.setTransverse at h
  obtain ⟨b1, h1, h⟩ := andThen_none h
  obtain ⟨_, _, _, _, ex, ey, e, _, d, _⟩ := assignArgs_spec h1
  rw [if_pos (by rw [d, hd])] at h
  have hx : x.emit = b1.emit ∧ x.emitx = b1.emitx ∧ x.emity = b1.emity := by
    unfold Bunch.distributeGaussian at h
    by_cases hn : b1.emitx * b1.betax < 0 ∨ b1.emitx * b1.gammax < 0 ∨ b1.emity * b1.betay < 0 ∨ b1.emity * b1.gammay < 0
    · rw [if_pos hn] at h; cases h
    · rw [if_neg hn] at h
      split at h
      · cases h; exact ⟨rfl, rfl, rfl⟩
      · cases h
  obtain ⟨k, kx, ky⟩ := hx
  rw [k, kx, ky, e, ex, ey]
  exact ⟨rfl, rfl, rfl, Iff.rfl⟩

/-! The theorems above at concrete values. -/

example : 0 ≤ (historyE { toBunch := sampleBunch, t := 1, c := 1, cutoff := 4 } [.t 3, .c 2, .t (-1)]).t :=
  (elliptic_sign_partial [.t 3, .c 2, .t (-1)] { toBunch := sampleBunch, t := 1, c := 1, cutoff := 4 } (by norm_num) (by norm_num)).1

example : ∃ b, newBunch 1 "KV" 1 5 2 1 4 3 1 0 false = .ok b ∧ (history b [.betax 3, .alphay 2, .betay (-1)]).emit = 6 := by
  have h : newBunch 1 "KV" 1 5 2 1 4 3 1 0 false = .ok
      { sampleBunch with emity := 5, emit := 6, particles := [fun i => if i = 6 then 0 else 0] } := by
    norm_num [newBunch, sampleBunch]
  refine ⟨_, h, ?_⟩
  rw [(total_emittance_partial h _).1]
  norm_num

example : ∃ x, Bunch.setTransverse (fun _ _ => .ok 1) ⟨some 3, none, none, none, none, none⟩ [1] [1] [1] [1] []
    { sampleBunch with dist := "Gaussian" } = (x, none) ∧ x.emit ≠ x.emitx + x.emity := by
  have h : ∃ x, Bunch.setTransverse (fun _ _ => .ok 1) ⟨some 3, none, none, none, none, none⟩ [1] [1] [1] [1] []
      { sampleBunch with dist := "Gaussian" } = (x, none) := by
    norm_num [Bunch.setTransverse, Bunch.assignArgs, andThen, ifGiven, Bunch.distributeGaussian, Bunch.column, sampleBunch]
  obtain ⟨x, h⟩ := h
  refine ⟨x, h, ?_⟩
  rw [Ne, (total_emittance_fails _ _ _ _ _ _ _ _ _ rfl h).2.2.2]
  norm_num [sampleBunch]

end Verif.Bunch
