import Mathlib.Analysis.Real.Sqrt
import Mathlib.Tactic.Linarith
import Mathlib.Tactic.LinearCombination
import Verif.Switch.PropsOpal

/-!
# Properties C76 and C78: conventions of the coordinates, and the kind of particle
-/

namespace Verif.Switch

open Verif.Sdds

/-- **C78.** After writing for elegant and reading back, the kind of particle is the same. Proved
for electrons. -/
theorem elegant_kind_partial {K : Type} [Field K] (env : Env) (num : Num K) (s : Species K) {q : K}
    (hq : s.totalCharge = some q) (h2 : 2 ≤ s.coords.length) (hn : s.coords.length < 2147483648)
    (he : s.charge = -1) (hm : s.mass = 511000) {fuel : Nat} (hf : 10 ≤ fuel) :
    ∃ s', readElegant env.ft num fuel (writeElegant env num s).1 = some (.ok s') ∧
      s'.charge = s.charge ∧ s'.mass = s.mass := by
  obtain ⟨_, h3⟩ := elegant_file env num s hq hn hf
  rw [h3, he, hm]
  match hs : s.coords with
  | [] => simp [hs] at h2
  | [_] => simp [hs] at h2
  | p1 :: p2 :: ps => exact ⟨_, rfl, rfl, rfl⟩

/-- Any other kind of particle comes back as electrons. -/
theorem elegant_kind_fails {K : Type} [Field K] (env : Env) (num : Num K) (s : Species K) {q : K}
    (hq : s.totalCharge = some q) (h2 : 2 ≤ s.coords.length) (hn : s.coords.length < 2147483648)
    (he : s.charge ≠ -1 ∨ s.mass ≠ 511000) {fuel : Nat} (hf : 10 ≤ fuel) :
    ∃ s', readElegant env.ft num fuel (writeElegant env num s).1 = some (.ok s') ∧
      (s'.charge ≠ s.charge ∨ s'.mass ≠ s.mass) := by
  obtain ⟨_, h3⟩ := elegant_file env num s hq hn hf
  rw [h3]
  match hs : s.coords with
  | [] => simp [hs] at h2
  | [_] => simp [hs] at h2
  | p1 :: p2 :: ps => exact ⟨_, rfl, he.imp (fun h h' => h h'.symm) fun h h' => h h'.symm⟩

example : ∃ s', readElegant exText exNum 10 (writeElegant exEnv exNum { exSpecies with charge := 1, mass := 938272088 }).1 =
    some (.ok s') ∧ (s'.charge ≠ 1 ∨ s'.mass ≠ 938272088) :=
  elegant_kind_fails exEnv exNum { exSpecies with charge := 1, mass := 938272088 } rfl (by decide) (by decide)
    (by decide) (Nat.le_refl 10)

example : ∃ s', readElegant exText exNum 10 (writeElegant exEnv exNum exSpecies).1 = some (.ok s') ∧
    s'.charge = -1 ∧ s'.mass = 511000 :=
  elegant_kind_partial exEnv exNum exSpecies rfl (by decide) (by decide) rfl rfl (Nat.le_refl 10)

/-- **C81.** A file without a parameter `Charge` is read with total charge zero. -/
theorem elegant_no_charge {K : Type} [Field K] (ft : FloatText) (num : Num K) {fuel : Nat} {file : Bytes} {r : Reader}
    {pg : Pages} {rec : Record} (ho : openSdds ft fuel true 100 file = some (.ok r)) (ha : r.ascii = false)
    (hr : r.read fuel none = some (.ok pg)) (hc : r.cols ≠ []) (hp : pg.params = [[rec]])
    (hn : ∀ f ∈ rec, f.1 ≠ "Charge".toList) {rows : List Record} (h2 : 2 ≤ rows.length) (hrows : pg.cols = [rows])
    {xs xps ys yps ts ps : List K}
    (hx : rows.mapM (fieldOf num "x".toList) = .ok xs) (hxp : rows.mapM (fieldOf num "xp".toList) = .ok xps)
    (hy : rows.mapM (fieldOf num "y".toList) = .ok ys) (hyp : rows.mapM (fieldOf num "yp".toList) = .ok yps)
    (ht : rows.mapM (fieldOf num "t".toList) = .ok ts) (hpp : rows.mapM (fieldOf num "p".toList) = .ok ps) :
    ∃ s, readElegant ft num fuel file = some (.ok s) ∧ s.totalCharge = some 0 := by
  have hf : fieldOf num "Charge".toList rec = .error .valueError := by
    unfold fieldOf
    rw [List.find?_eq_none.2 (fun f hf => by simpa using hn f hf)]
  have hq : chargeOf num pg.params = .ok (some 0) := by
    rw [hp]
    unfold chargeOf
    simp only [hf]
  have hs : squeeze pg.cols = .rows rows := by
    rw [hrows]
    match rows, h2 with
    | r1 :: r2 :: rs, _ => rfl
  unfold readElegant
  rw [ho]
  simp only [ha, Bool.false_eq_true, if_false]
  rw [hr]
  simp only [if_neg hc, hq, hs, column, hx, hxp, hy, hyp, ht, hpp, bind, Except.bind, pure, Except.pure]
  exact ⟨_, rfl, rfl⟩

example : (readElegant exText exNum 10 (saveBinary exEnv { fullWriter exNum 0 exSpecies.coords with params := [] }).1).map
    (fun r => match r with
      | .ok s => s.totalCharge
      | .error _ => none) = some (some 0) := by decide +kernel

/-- A row of the file has the angles `xp`, `yp` and the momentum `p`. -/
structure RowHas {K : Type} [Field K] (num : Num K) (r : Record) (x xp y yp t p : K) : Prop where
  x : fieldOf num "x".toList r = .ok x
  xp : fieldOf num "xp".toList r = .ok xp
  y : fieldOf num "y".toList r = .ok y
  yp : fieldOf num "yp".toList r = .ok yp
  t : fieldOf num "t".toList r = .ok t
  p : fieldOf num "p".toList r = .ok p

theorem mapM_cons_ok {α β : Type} {f : α → Except PyErr β} {a : α} {l : List α} {bs : List β}
    (h : (a :: l).mapM f = .ok bs) : ∃ b bs', f a = .ok b ∧ l.mapM f = .ok bs' ∧ bs = b :: bs' := by
  rw [List.mapM_cons] at h
  cases ha : f a with
  | error e => rw [ha] at h; cases h
  | ok b =>
    rw [ha] at h
    cases hl : l.mapM f with
    | error e => rw [hl] at h; cases h
    | ok bs' =>
      rw [hl] at h
      cases h
      exact ⟨b, bs', rfl, rfl, rfl⟩

theorem particles_rows {K : Type} [Field K] (num : Num K) (rs : List Record) :
    ∀ {xs xps ys yps ts ps : List K},
    rs.mapM (fieldOf num "x".toList) = .ok xs → rs.mapM (fieldOf num "xp".toList) = .ok xps →
    rs.mapM (fieldOf num "y".toList) = .ok ys → rs.mapM (fieldOf num "yp".toList) = .ok yps →
    rs.mapM (fieldOf num "t".toList) = .ok ts → rs.mapM (fieldOf num "p".toList) = .ok ps →
    List.Forall₂ (fun r c => ∃ x xp y yp t p, RowHas num r x xp y yp t p ∧
      c = ⟨x, xp * p, y, yp * p, t * num.c, p⟩) rs (particles num xs xps ys yps ts ps) := by
  induction rs with
  | nil =>
    intro xs xps ys yps ts ps h1 h2 h3 h4 h5 h6
    cases h1
    exact .nil
  | cons r rs ih =>
    intro xs xps ys yps ts ps h1 h2 h3 h4 h5 h6
    obtain ⟨x, xs, a1, b1, rfl⟩ := mapM_cons_ok h1
    obtain ⟨xp, xps, a2, b2, rfl⟩ := mapM_cons_ok h2
    obtain ⟨y, ys, a3, b3, rfl⟩ := mapM_cons_ok h3
    obtain ⟨yp, yps, a4, b4, rfl⟩ := mapM_cons_ok h4
    obtain ⟨t, ts, a5, b5, rfl⟩ := mapM_cons_ok h5
    obtain ⟨p, ps, a6, b6, rfl⟩ := mapM_cons_ok h6
    exact .cons ⟨x, xp, y, yp, t, p, ⟨a1, a2, a3, a4, a5, a6⟩, rfl⟩ (ih b1 b2 b3 b4 b5 b6)

theorem bind_ok' {α β : Type} {a : Except PyErr α} {f : α → Except PyErr β} {b : β} (h : (a >>= f) = .ok b) :
    ∃ x, a = .ok x ∧ f x = .ok b := by
  cases a with
  | error e => cases h
  | ok x => exact ⟨x, rfl, h⟩

/-- Any file that `read_elegant` accepts has rows, and each particle is made of one row. -/
theorem readElegant_rows {K : Type} [Field K] {ft : FloatText} {num : Num K} {fuel : Nat} {file : Bytes} {s : Species K}
    (h : readElegant ft num fuel file = some (.ok s)) :
    ∃ (r : Reader) (pg : Pages), openSdds ft fuel true 100 file = some (.ok r) ∧ r.read fuel none = some (.ok pg) ∧
      List.Forall₂ (fun r c => ∃ x xp y yp t p, RowHas num r x xp y yp t p ∧
        c = ⟨x, xp * p, y, yp * p, t * num.c, p⟩) pg.cols.flatten s.coords := by
  unfold readElegant at h
  cases ho : openSdds ft fuel true 100 file with
  | none => rw [ho] at h; cases h
  | some e =>
    cases e with
    | error e => rw [ho] at h; cases h
    | ok r =>
      rw [ho] at h
      simp only at h
      by_cases ha : r.ascii = true
      · rw [if_pos ha] at h; cases h
      · rw [if_neg ha] at h
        cases hr : r.read fuel none with
        | none => rw [hr] at h; cases h
        | some e =>
          cases e with
          | error e => rw [hr] at h; cases h
          | ok pg =>
            rw [hr] at h
            simp only [Option.some.injEq] at h
            refine ⟨r, pg, rfl, hr, ?_⟩
            by_cases hc : r.cols = []
            · rw [if_pos hc] at h; cases h
            · rw [if_neg hc] at h
              obtain ⟨q, _, h⟩ := bind_ok' h
              obtain ⟨xs, h1, h⟩ := bind_ok' h
              obtain ⟨xps, h2, h⟩ := bind_ok' h
              obtain ⟨ys, h3, h⟩ := bind_ok' h
              obtain ⟨yps, h4, h⟩ := bind_ok' h
              obtain ⟨ts, h5, h⟩ := bind_ok' h
              obtain ⟨ps, h6, h⟩ := bind_ok' h
              cases q with
              | none => cases h
              | some q =>
              cases h
              have hsq : squeeze pg.cols = .rows pg.cols.flatten := by
                match hp : pg.cols with
                | [] => rw [hp] at h1; cases h1
                | [[]] => rfl
                | [[r]] =>
                  rw [hp] at h1
                  simp only [squeeze, column] at h1
                  obtain ⟨_, _, h1⟩ := bind_ok' h1
                  cases h1
                | [r1 :: r2 :: rs] => simp [squeeze]
                | p1 :: p2 :: ps =>
                  rw [hp] at h1
                  by_cases hall : ((p1 :: p2 :: ps).all fun pg => pg.length = 1) = true
                  · simp only [squeeze, if_pos hall]
                  · simp only [squeeze, if_neg hall, column] at h1
                    cases h1
              rw [hsq] at h1 h2 h3 h4 h5 h6
              exact particles_rows num _ h1 h2 h3 h4 h5 h6

/-- The convention for momenta: the angles are the ratios of the transverse momenta to the
longitudinal momentum `pz`, and `pt` is the total momentum. -/
def Consistent (xp yp : ℝ) (c : Part ℝ) : Prop :=
  ∃ pz : ℝ, c.ux = xp * pz ∧ c.uy = yp * pz ∧ c.pt ^ 2 = c.ux ^ 2 + c.uy ^ 2 + pz ^ 2

theorem consistent_iff (x xp y yp t p c : ℝ) (hp : p ≠ 0) :
    Consistent xp yp ⟨x, xp * p, y, yp * p, t * c, p⟩ ↔ xp = 0 ∧ yp = 0 := by
  constructor
  · rintro ⟨pz, h1, h2, h3⟩
    simp only at h1 h2 h3
    by_cases hx : xp = 0
    · refine ⟨hx, ?_⟩
      by_contra hy
      have hz : p = pz := mul_left_cancel₀ hy h2
      rw [← hz] at h3
      have : (yp * p) ^ 2 = 0 := by nlinarith [sq_nonneg (xp * p), sq_nonneg (yp * p)]
      exact mul_ne_zero hy hp (pow_eq_zero_iff (by norm_num) |>.1 this)
    · exfalso
      have hz : p = pz := mul_left_cancel₀ hx h1
      rw [← hz] at h3
      have : (xp * p) ^ 2 = 0 := by nlinarith [sq_nonneg (xp * p), sq_nonneg (yp * p)]
      exact mul_ne_zero hx hp (pow_eq_zero_iff (by norm_num) |>.1 this)
  · rintro ⟨rfl, rfl⟩
    exact ⟨p, by simp, by simp, by simp⟩

/-- **C76.** The particles read from an elegant file follow the conventions of the class: angles
are slopes, and `pt` is the total momentum. True exactly for particles without transverse
momentum; all others are inconsistent, whatever the meaning of the column `p`. -/
theorem elegant_momentum_fails {ft : FloatText} {num : Num ℝ} {fuel : Nat} {file : Bytes} {s : Species ℝ}
    (h : readElegant ft num fuel file = some (.ok s)) :
    ∃ (r : Reader) (pg : Pages), openSdds ft fuel true 100 file = some (.ok r) ∧ r.read fuel none = some (.ok pg) ∧
      List.Forall₂ (fun r c => ∃ x xp y yp t p, RowHas num r x xp y yp t p ∧
        (p ≠ 0 → (Consistent xp yp c ↔ xp = 0 ∧ yp = 0))) pg.cols.flatten s.coords := by
  obtain ⟨r, pg, h1, h2, h3⟩ := readElegant_rows h
  refine ⟨r, pg, h1, h2, h3.imp ?_⟩
  rintro row c ⟨x, xp, y, yp, t, p, h4, rfl⟩
  exact ⟨x, xp, y, yp, t, p, h4, consistent_iff x xp y yp t p num.c⟩

/-- The OPAL reader stores the longitudinal momentum as total momentum: the same for particles
without transverse momentum, and wrong for all others. -/
theorem opal_momentum_fails {f : H5 ℝ} (hn : (f.map (·.1)).Nodup) {n : Int} (h0 : n ≠ 0) {g : Group ℝ}
    (hg : (stepName n, g) ∈ f) {px py pz : List ℝ} {x y z : List ℝ} {q : ℝ} (hq0 : g.totalCharge ≠ some 0)
    (hq : g.totalCharge.or g.charge = some q)
    (hl : px.length = z.length ∧ py.length = z.length ∧ pz.length = z.length ∧ x.length = z.length ∧ y.length = z.length)
    (hd : g.data "x".toList = some x ∧ g.data "px".toList = some px ∧ g.data "y".toList = some y ∧
      g.data "py".toList = some py ∧ g.data "z".toList = some z ∧ g.data "pz".toList = some pz) :
    ∃ s, readOpal f (some n) = .ok s ∧ s.coords.length = z.length ∧
      ∀ i : Nat, ∀ hi : i < s.coords.length, ∀ a b c, px[i]? = some a → py[i]? = some b → pz[i]? = some c →
        s.coords[i].ux = a ∧ s.coords[i].uy = b ∧
        (s.coords[i].pt = √(a ^ 2 + b ^ 2 + c ^ 2) ↔ a = 0 ∧ b = 0 ∧ 0 ≤ c) := by
  have hm : ∀ (x px y py z pz : List ℝ), px.length = z.length → py.length = z.length → pz.length = z.length →
      x.length = z.length → y.length = z.length →
      ∃ ps : List (Part ℝ), ps.map (·.x) = x ∧ ps.map (·.ux) = px ∧ ps.map (·.y) = y ∧ ps.map (·.uy) = py ∧
        ps.map (·.ct) = z ∧ ps.map (·.pt) = pz := by
    intro x px y py z
    induction z generalizing x px y py with
    | nil =>
      intro pz h1 h2 h3 h4 h5
      refine ⟨[], ?_⟩
      simp only [List.length_nil, List.length_eq_zero_iff] at h1 h2 h3 h4 h5
      subst h1 h2 h3 h4 h5
      simp
    | cons a z ih =>
      intro pz h1 h2 h3 h4 h5
      match x, px, y, py, pz with
      | x0 :: x, px0 :: px, y0 :: y, py0 :: py, pz0 :: pz =>
        simp only [List.length_cons, Nat.add_right_cancel_iff] at h1 h2 h3 h4 h5
        obtain ⟨ps, e1, e2, e3, e4, e5, e6⟩ := ih x px y py pz h1 h2 h3 h4 h5
        exact ⟨⟨x0, px0, y0, py0, a, pz0⟩ :: ps, by simp [e1], by simp [e2], by simp [e3], by simp [e4], by simp [e5],
          by simp [e6]⟩
  obtain ⟨ps, e1, e2, e3, e4, e5, e6⟩ := hm x px y py z pz hl.1 hl.2.1 hl.2.2.1 hl.2.2.2.1 hl.2.2.2.2
  obtain ⟨d1, d2, d3, d4, d5, d6⟩ := hd
  have hp : g.Holds ps := ⟨by rw [d1, e1], by rw [d2, e2], by rw [d3, e3], by rw [d4, e4], by rw [d5, e5], by rw [d6, e6]⟩
  obtain ⟨s, hs, hc, _⟩ := opal_step_partial hn h0 hg hp hq0 hq
  refine ⟨s, hs, by rw [hc, ← e5, List.length_map], ?_⟩
  intro i hi a b c ha hb hcc
  have hi' : i < ps.length := hc ▸ hi
  have hget : s.coords[i] = ps[i] := by simp only [hc]
  rw [hget]
  rw [← e2, List.getElem?_map, List.getElem?_eq_getElem hi', Option.map_some, Option.some.injEq] at ha
  rw [← e4, List.getElem?_map, List.getElem?_eq_getElem hi', Option.map_some, Option.some.injEq] at hb
  rw [← e6, List.getElem?_map, List.getElem?_eq_getElem hi', Option.map_some, Option.some.injEq] at hcc
  refine ⟨ha, hb, ?_⟩
  rw [hcc]
  constructor
  · intro h
    have hc0 : 0 ≤ c := h ▸ Real.sqrt_nonneg _
    have h2 : c ^ 2 = a ^ 2 + b ^ 2 + c ^ 2 := by
      conv_lhs => rw [h]
      exact Real.sq_sqrt (by positivity)
    have ha2 : a ^ 2 = 0 := by nlinarith [sq_nonneg a, sq_nonneg b]
    have hb2 : b ^ 2 = 0 := by nlinarith [sq_nonneg a, sq_nonneg b]
    exact ⟨pow_eq_zero_iff (by norm_num) |>.1 ha2, pow_eq_zero_iff (by norm_num) |>.1 hb2, hc0⟩
  · rintro ⟨rfl, rfl, h⟩
    rw [show (0 : ℝ) ^ 2 + 0 ^ 2 + c ^ 2 = c ^ 2 by ring, Real.sqrt_sq h]

/-- Numbers over the reals for the example. -/
noncomputable def exReal : Num ℝ := ⟨fun _ => 1#64, fun _ => 1, 3⟩

/-- A file with two particles at angle one. -/
example : ∃ s, readElegant exText exReal 10 (writeElegant exEnv exReal
    ⟨[⟨1, 1, 1, 1, 3, 1⟩, ⟨1, 1, 1, 1, 3, 1⟩], -1, 511000, some 1⟩).1 = some (.ok s) :=
  ⟨_, (elegant_file exEnv exReal _ rfl (by simp) (Nat.le_refl 10)).2⟩

/-- A group with one particle with momenta (3, 0, 4). -/
noncomputable def exGroupR : Group ℝ where
  data k := if k = "px".toList then some [3] else if k = "pz".toList then some [4] else some [0]
  totalCharge := some 1
  charge := none

example : ∃ s, readOpal [(stepName 1, exGroupR)] (some 1) = .ok s ∧ s.coords.length = 1 ∧
    ∀ i : Nat, ∀ hi : i < s.coords.length, ∀ a b c, [(3 : ℝ)][i]? = some a → [(0 : ℝ)][i]? = some b → [(4 : ℝ)][i]? = some c →
      s.coords[i].ux = a ∧ s.coords[i].uy = b ∧ (s.coords[i].pt = √(a ^ 2 + b ^ 2 + c ^ 2) ↔ a = 0 ∧ b = 0 ∧ 0 ≤ c) :=
  opal_momentum_fails (x := [0]) (y := [0]) (z := [0]) (by simp) (by decide) (List.mem_singleton.2 rfl)
    (by simp [exGroupR]) rfl ⟨rfl, rfl, rfl, rfl, rfl⟩
    ⟨by simp (decide := true) only [exGroupR, if_false], by simp (decide := true) only [exGroupR, if_true],
      by simp (decide := true) only [exGroupR, if_false], by simp (decide := true) only [exGroupR, if_false],
      by simp (decide := true) only [exGroupR, if_false],
      by simp (decide := true) only [exGroupR, if_false, if_true]⟩

end Verif.Switch
