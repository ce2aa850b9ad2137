import Verif.Switch.Lemmas

/-!
# Property C17: writing for elegant and reading back
-/

namespace Verif.Switch

open Verif.Sdds

variable {K : Type} [Field K]

/-- The file read back, with the numbers stored as doubles. -/
theorem elegant_file (env : Env) (num : Num K) (s : Species K) {q : K} (hq : s.totalCharge = some q)
    (hn : s.coords.length < 2147483648) {fuel : Nat} (hf : 10 ≤ fuel) :
    (writeElegant env num s).2 = none ∧
    readElegant env.ft num fuel (writeElegant env num s).1 =
      some (match s.coords with
        | [] => .error .indexError
        | [_] => .error .indexError
        | ps => .ok ⟨ps.map (storedPart num), -1, 511000, some (num.dec (num.enc q))⟩) := by
  have hok := fullWriter_ok env.ft num q s.coords hn
  have hw : writeElegant env num s = saveBinary env (fullWriter num q s.coords) := by
    unfold writeElegant
    rw [elegantWriter_eq num s hq]
  have hfuel : (fullWriter num q s.coords).params.length + (fullWriter num q s.coords).cols.length + 3 ≤ fuel := by
    exact hf
  rw [hw]
  refine ⟨by rw [saveBinary_ok hok], ?_⟩
  obtain ⟨r, h1, _, h3, h4⟩ := save_open_read hok hfuel true 100 (by simp)
  have hasc : r.ascii = false := by
    rw [saveBinary_ok hok] at h1
    simp only at h1
    rw [open_header hok.header _ hfuel true 100] at h1
    simp only [Option.some.injEq, Except.ok.injEq] at h1
    rw [← h1]
  unfold readElegant
  rw [h1]
  simp only [hasc, Bool.false_eq_true, if_false]
  rw [h4]
  have hc : r.cols ≠ [] := by rw [h3]; simp [fullWriter]
  have hw' : (fullWriter num q s.coords).cols ≠ [] := by simp [fullWriter]
  have hq' : chargeOf num [[savedParams (fullWriter num q s.coords) s.coords.length]] = .ok (some (num.dec (num.enc q))) := by
    have hb : BitVec.ofNat 64 (num.enc q).toNat = num.enc q := by simp
    have : fieldOf num "Charge".toList (savedParams (fullWriter num q s.coords) s.coords.length) =
        .ok (num.dec (num.enc q)) := by
      simp (decide := true) only [fieldOf, savedParams, fullWriter, List.find?_cons, List.filterMap_cons, dataVal,
        Option.map_some, decide_true, decide_false, hb]
    unfold chargeOf
    simp only [this]
  simp only [hw', or_false, if_neg hc, savedRows_full, hq', Option.some.injEq]
  match hps : s.coords with
  | [] => simp [squeeze, column, bind, Except.bind, pure, Except.pure]
  | [p] =>
    obtain ⟨hx, _⟩ := fieldOf_row num p
    simp only [List.length_cons, List.length_nil, Nat.zero_add, Nat.one_ne_zero, if_false, List.map_cons, List.map_nil, squeeze, column,
      bind, Except.bind, pure, Except.pure, hx]
  | p1 :: p2 :: ps =>
    have hne : (p1 :: p2 :: ps).length ≠ 0 := by simp
    have hcol : ∀ (n : Str) (g : Part K → K), (∀ p, fieldOf num n (storedRow num p) = .ok (g p)) →
        column num (.rows ((p1 :: p2 :: ps).map (storedRow num))) n = .ok ((p1 :: p2 :: ps).map g) := by
      intro n g hg
      unfold column
      simp only
      rw [mapM_ok _ (fun r => match fieldOf num n r with | .ok v => v | .error _ => 0), List.map_map]
      · congr 1
        apply List.map_congr_left
        intro p _
        simp only [Function.comp, hg]
      · intro r hr
        obtain ⟨p, _, rfl⟩ := List.mem_map.1 hr
        simp only [hg]
    rw [if_neg hne, squeeze_page (by simp)]
    rw [hcol _ _ fun p => (fieldOf_row num p).1, hcol _ _ fun p => (fieldOf_row num p).2.1,
      hcol _ _ fun p => (fieldOf_row num p).2.2.1, hcol _ _ fun p => (fieldOf_row num p).2.2.2.1,
      hcol _ _ fun p => (fieldOf_row num p).2.2.2.2.1, hcol _ _ fun p => (fieldOf_row num p).2.2.2.2.2]
    simp only [bind, Except.bind, pure, Except.pure, particles_map]
    rfl

/-- All numbers that reach the file are exactly doubles: the coordinates x, y and pt, the angles,
the time and the charge. This is "exact arithmetic" for the stored numbers. -/
structure Storable (num : Num K) (s : Species K) (q : K) : Prop where
  charge : num.dec (num.enc q) = q
  x : ∀ p ∈ s.coords, num.dec (num.enc p.x) = p.x
  y : ∀ p ∈ s.coords, num.dec (num.enc p.y) = p.y
  pt : ∀ p ∈ s.coords, num.dec (num.enc p.pt) = p.pt
  xp : ∀ p ∈ s.coords, num.dec (num.enc (p.ux / p.pt)) = p.ux / p.pt
  yp : ∀ p ∈ s.coords, num.dec (num.enc (p.uy / p.pt)) = p.uy / p.pt
  t : ∀ p ∈ s.coords, num.dec (num.enc (p.ct / num.c)) = p.ct / num.c

/-- **C17.** A species with at least two particles, none with zero total momentum, comes back from
the file with the same coordinates and the same total charge. Not true for fewer particles
(`elegant_single_fails`). -/
theorem elegant_round_partial (env : Env) (num : Num K) (hc : num.c ≠ 0) (s : Species K) {q : K}
    (hq : s.totalCharge = some q) (h : Storable num s q) (hp : ∀ p ∈ s.coords, p.pt ≠ 0)
    (h2 : 2 ≤ s.coords.length) (hn : s.coords.length < 2147483648) {fuel : Nat} (hf : 10 ≤ fuel) :
    (writeElegant env num s).2 = none ∧
    ∃ s', readElegant env.ft num fuel (writeElegant env num s).1 = some (.ok s') ∧
      s'.coords = s.coords ∧ s'.totalCharge = some q := by
  obtain ⟨h1, h3⟩ := elegant_file env num s hq hn hf
  have hid : ∀ ps : List (Part K), (∀ p ∈ ps, p ∈ s.coords) → ps.map (storedPart num) = ps := by
    intro ps hps
    conv_rhs => rw [← List.map_id ps]
    apply List.map_congr_left
    intro p hp'
    have hm := hps p hp'
    simp only [storedPart, h.x p hm, h.y p hm, h.pt p hm, h.xp p hm, h.yp p hm, h.t p hm, id,
      div_mul_cancel₀ _ (hp p hm), div_mul_cancel₀ _ hc]
  refine ⟨h1, ?_⟩
  rw [h3]
  match hs : s.coords with
  | [] => simp [hs] at h2
  | [_] => simp [hs] at h2
  | p1 :: p2 :: ps =>
    refine ⟨_, rfl, ?_, ?_⟩
    · exact hid _ (by rw [hs]; exact fun p hp => hp)
    · simp only [h.charge]

/-- A file with one particle, or none, cannot be read back, whatever the particle. -/
theorem elegant_single_fails (env : Env) (num : Num K) (s : Species K) {q : K} (hq : s.totalCharge = some q)
    (h1 : s.coords.length ≤ 1) {fuel : Nat} (hf : 10 ≤ fuel) :
    (writeElegant env num s).2 = none ∧
    readElegant env.ft num fuel (writeElegant env num s).1 = some (.error .indexError) := by
  obtain ⟨h2, h3⟩ := elegant_file env num s hq (by omega) hf
  refine ⟨h2, ?_⟩
  rw [h3]
  match hs : s.coords with
  | [] => rfl
  | [_] => rfl
  | p1 :: p2 :: ps => simp [hs] at h1

/-- Numbers for the examples: whole numbers are stored as integers, and `c` is 3. -/
def exNum : Num ℚ := ⟨fun q => BitVec.ofInt 64 q.num, fun b => b.toInt, 3⟩

/-- Two particles. -/
def exSpecies : Species ℚ :=
  ⟨[⟨1, 4, -2, 6, 9, 2⟩, ⟨0, -8, 5, 0, -3, 4⟩], -1, 511000, some 7⟩

theorem exSpecies_ok : Storable exNum exSpecies 7 := by
  constructor <;> decide +kernel

example : ∃ s', readElegant exText exNum 10 (writeElegant exEnv exNum exSpecies).1 = some (.ok s') ∧
    s'.coords = exSpecies.coords ∧ s'.totalCharge = some 7 :=
  (elegant_round_partial exEnv exNum (by decide +kernel) exSpecies rfl exSpecies_ok (by decide +kernel)
    (by decide) (by decide) (Nat.le_refl 10)).2

example : readElegant exText exNum 10 (writeElegant exEnv exNum ⟨[⟨1, 4, -2, 6, 9, 2⟩], -1, 511000, some 7⟩).1 =
    some (.error .indexError) :=
  (elegant_single_fails exEnv exNum ⟨[⟨1, 4, -2, 6, 9, 2⟩], -1, 511000, some 7⟩ rfl (by decide) (Nat.le_refl 10)).2

end Verif.Switch
