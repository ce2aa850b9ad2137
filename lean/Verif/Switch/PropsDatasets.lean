import Verif.Switch.PropsOpal
import Verif.Switch.PropsConvention

/-!
# Properties C134, C135: pages of elegant files and datasets of OPAL files

C134: the particles of all pages of an elegant file are read. It is false for every file with two or
more pages of two or more rows (`elegant_pages_fails`).

C135: an OPAL step can be read when its six datasets hold one value for each particle. It is true
(`opal_datasets_exact`), and a dataset with a single value is accepted as well: the value is given to
all particles. Other lengths raise ValueError (`opal_lengths`), missing datasets KeyError
(`opal_missing_dataset`).
-/

namespace Verif.Switch

open Verif.Sdds

/-- **C134.** A file with several pages, not all of one row, cannot be read, with or without a
parameter `Charge`. -/
theorem elegant_pages_fails {K : Type} [Field K] (ft : FloatText) (num : Num K) {fuel : Nat} {file : Bytes} {r : Reader}
    {pg : Pages} (ho : openSdds ft fuel true 100 file = some (.ok r)) (ha : r.ascii = false)
    (hr : r.read fuel none = some (.ok pg)) (hc : r.cols ≠ []) {p1 p2 : Record} {ps : List (List Record)}
    (hp : pg.params = [p1] :: [p2] :: ps)
    (hq : (∀ f ∈ p1, f.1 ≠ "Charge".toList) ∨ ∃ b, p1.find? (fun f => f.1 = "Charge".toList) = some ("Charge".toList, .num .double b))
    {r1 r2 : List Record} {rs : List (List Record)} (hrows : pg.cols = r1 :: r2 :: rs) (h2 : 2 ≤ r1.length) :
    readElegant ft num fuel file = some (.error .valueError) := by
  have hq' : ∃ q, chargeOf num pg.params = .ok q := by
    rw [hp]
    unfold chargeOf
    rcases hq with hq | ⟨b, hq⟩
    · have hf : fieldOf num "Charge".toList p1 = .error .valueError := by
        unfold fieldOf
        rw [List.find?_eq_none.2 (fun f hf => by simpa using hq f hf)]
      refine ⟨some 0, ?_⟩
      simp only [List.headD_cons, hf]
    · have hf : fieldOf num "Charge".toList p1 = .ok (num.dec (BitVec.ofNat 64 b)) := by
        unfold fieldOf
        rw [hq]
      refine ⟨none, ?_⟩
      simp only [List.headD_cons, hf]
  obtain ⟨q, hq'⟩ := hq'
  have hs : ∃ x, squeeze pg.cols = .table x := by
    rw [hrows]
    have : ((r1 :: r2 :: rs).all fun pg => pg.length = 1) = false := by
      simp only [List.all_cons, Bool.and_eq_false_iff, decide_eq_false_iff_not]
      left; omega
    refine ⟨((r1 :: r2 :: rs).headD []).headD [], ?_⟩
    simp only [squeeze, this, Bool.false_eq_true, if_false]
  obtain ⟨x, hs⟩ := hs
  unfold readElegant
  rw [ho]
  simp only [ha, Bool.false_eq_true, if_false]
  rw [hr]
  simp only [if_neg hc, hq', hs, column, bind, Except.bind]

/-- A file with the page of `exSpecies` twice. -/
def exTwice : Bytes :=
  let f := (writeElegant exEnv exNum exSpecies).1
  match openSdds exText 10 true 100 f with
  | some (.ok r) => f ++ f.drop r.headerEnd
  | _ => []

example : readElegant exText exNum 10 exTwice = some (.error .valueError) := by decide +kernel

example : (match openSdds exText 10 true 100 exTwice with
    | some (.ok r) => match r.read 10 none with
      | some (.ok pg) => some (pg.params.map List.length, pg.cols.map List.length)
      | _ => none
    | _ => none) = some ([1, 1], [2, 2]) := by decide +kernel

section
variable {K : Type}

/-- A dataset with the values `vs` for `m` particles: one value each, or a single value for all. -/
def Fits (g : Group K) (m : Nat) (name : String) (vs : List K) : Prop :=
  vs.length = m ∧ ∃ ds, g.data name.toList = some ds ∧ (vs = ds ∨ ∃ v, ds = [v] ∧ ∀ x ∈ vs, x = v)

theorem opalColumn_iff (g : Group K) (m : Nat) (name : String) (vs : List K) :
    opalColumn g m name = .ok vs ↔ Fits g m name vs := by
  unfold opalColumn Fits
  cases hd : g.data name.toList with
  | none => simp
  | some ds =>
    match ds with
    | [v] =>
      simp only [Except.ok.injEq, Option.some.injEq]
      constructor
      · rintro rfl
        exact ⟨List.length_replicate, [v], rfl, .inr ⟨v, rfl, fun x hx => List.eq_of_mem_replicate hx⟩⟩
      · rintro ⟨hl, ds, rfl, rfl | ⟨w, hw, h⟩⟩
        · simp only [List.length_cons, List.length_nil, Nat.zero_add] at hl
          subst hl; rfl
        · cases hw
          exact (List.eq_replicate_iff.2 ⟨hl, h⟩).symm
    | [] =>
      simp only [List.length_nil, Option.some.injEq]
      constructor
      · intro h
        by_cases hm : 0 = m
        · rw [if_pos hm] at h; cases h; exact ⟨hm, [], rfl, .inl rfl⟩
        · rw [if_neg hm] at h; cases h
      · rintro ⟨hl, ds, rfl, rfl | ⟨w, hw, _⟩⟩
        · rw [if_pos (show 0 = m from hl)]
        · cases hw
    | a :: b :: l =>
      simp only [Option.some.injEq]
      constructor
      · intro h
        by_cases hm : (a :: b :: l).length = m
        · rw [if_pos hm] at h; cases h; exact ⟨hm, _, rfl, .inl rfl⟩
        · rw [if_neg hm] at h; cases h
      · rintro ⟨hl, ds, rfl, rfl | ⟨w, hw, _⟩⟩
        · rw [if_pos hl]
        · cases hw

theorem zip6_maps (zs : List K) : ∀ xs pxs ys pys pzs : List K, xs.length = zs.length → pxs.length = zs.length → ys.length = zs.length →
    pys.length = zs.length → pzs.length = zs.length →
    (zip6 xs pxs ys pys zs pzs).map (·.x) = xs ∧ (zip6 xs pxs ys pys zs pzs).map (·.ux) = pxs ∧
    (zip6 xs pxs ys pys zs pzs).map (·.y) = ys ∧ (zip6 xs pxs ys pys zs pzs).map (·.uy) = pys ∧
    (zip6 xs pxs ys pys zs pzs).map (·.ct) = zs ∧ (zip6 xs pxs ys pys zs pzs).map (·.pt) = pzs := by
  induction zs with
  | nil =>
    intro xs pxs ys pys pzs h1 h2 h3 h4 h5
    rw [List.length_nil, List.length_eq_zero_iff] at h1 h2 h3 h4 h5
    subst h1 h2 h3 h4 h5
    exact ⟨rfl, rfl, rfl, rfl, rfl, rfl⟩
  | cons z zs ih =>
    intro xs pxs ys pys pzs h1 h2 h3 h4 h5
    obtain ⟨x, xs, rfl⟩ := List.exists_cons_of_length_eq_add_one h1
    obtain ⟨px, pxs, rfl⟩ := List.exists_cons_of_length_eq_add_one h2
    obtain ⟨y, ys, rfl⟩ := List.exists_cons_of_length_eq_add_one h3
    obtain ⟨py, pys, rfl⟩ := List.exists_cons_of_length_eq_add_one h4
    obtain ⟨pz, pzs, rfl⟩ := List.exists_cons_of_length_eq_add_one h5
    obtain ⟨a, b, c, d, e, f⟩ := ih xs pxs ys pys pzs (Nat.succ.inj h1) (Nat.succ.inj h2) (Nat.succ.inj h3)
      (Nat.succ.inj h4) (Nat.succ.inj h5)
    simp only [zip6, List.map_cons, a, b, c, d, e, f, and_self]

/-- The values of the coordinates of a species come from the datasets of the group. -/
structure Read (g : Group K) (s : Species K) : Prop where
  z : g.data "z".toList = some (s.coords.map (·.ct))
  x : Fits g s.coords.length "x" (s.coords.map (·.x))
  px : Fits g s.coords.length "px" (s.coords.map (·.ux))
  y : Fits g s.coords.length "y" (s.coords.map (·.y))
  py : Fits g s.coords.length "py" (s.coords.map (·.uy))
  pz : Fits g s.coords.length "pz" (s.coords.map (·.pt))

theorem find_step {f : H5 K} (hn : (f.map (·.1)).Nodup) {k : Str} {g : Group K} (hg : (k, g) ∈ f) :
    f.find? (fun g => g.1 = k) = some (k, g) := by
  induction f with
  | nil => cases hg
  | cons e f ih =>
    simp only [List.map_cons, List.nodup_cons] at hn
    rcases List.mem_cons.1 hg with rfl | hg
    · simp
    · rw [List.find?_cons_of_neg, ih hn.2 hg]
      simp only [decide_eq_true_eq]
      intro he
      exact hn.1 (he ▸ List.mem_map.2 ⟨_, hg, rfl⟩)

theorem fits_z {g : Group K} {zs : List K} (h : g.data "z".toList = some zs) : Fits g zs.length "z" zs :=
  ⟨rfl, zs, h, .inl rfl⟩

variable [Zero K] [DecidableEq K]

/-- **C135.** Exactly what is read from a step: the datasets, of which all but `z` may be a single
value for all particles. -/
theorem opal_datasets_exact {f : H5 K} (hn : (f.map (·.1)).Nodup) {n : Int} (h0 : n ≠ 0) {g : Group K}
    (hg : (stepName n, g) ∈ f) (s : Species K) :
    readOpal f (some n) = .ok s ↔ Read g s ∧ s.charge = -1 ∧ s.mass = 511000 ∧ s.totalCharge.isSome = true ∧
      s.totalCharge = if g.totalCharge = none ∨ g.totalCharge = some 0 then g.charge else g.totalCharge := by
  have hc : chooseStep (f.map (·.1)) (some n) = .ok n := by unfold chooseStep; simp [h0]
  have hq : ∀ g : Group K, groupCharge g = if g.totalCharge = none ∨ g.totalCharge = some 0 then g.charge else g.totalCharge := by
    intro g
    unfold groupCharge
    cases g.totalCharge with
    | none => simp
    | some q => by_cases h : q = 0 <;> simp [h]
  rw [← hq g]
  unfold readOpal
  rw [hc]
  simp only [bind, Except.bind]
  rw [find_step hn hg]
  simp only
  constructor
  · intro h
    cases hz : g.data "z".toList with
    | none => rw [hz] at h; cases h
    | some zs =>
      rw [hz] at h
      simp only at h
      have hzc : opalColumn g zs.length "z" = .ok zs := (opalColumn_iff _ _ _ _).2 (fits_z hz)
      cases h1 : opalColumn g zs.length "x" with
      | error e => rw [h1] at h; cases h
      | ok xs =>
      cases h2 : opalColumn g zs.length "px" with
      | error e => rw [h1, h2] at h; cases h
      | ok pxs =>
      cases h3 : opalColumn g zs.length "y" with
      | error e => rw [h1, h2, h3] at h; cases h
      | ok ys =>
      cases h4 : opalColumn g zs.length "py" with
      | error e => rw [h1, h2, h3, h4] at h; cases h
      | ok pys =>
      cases h6 : opalColumn g zs.length "pz" with
      | error e => rw [h1, h2, h3, h4, hzc, h6] at h; cases h
      | ok pzs =>
      rw [h1, h2, h3, h4, hzc, h6] at h
      simp only at h
      change (if (groupCharge g).isNone = true then _ else Except.ok (⟨zip6 xs pxs ys pys zs pzs, -1, 511000, groupCharge g⟩ : Species K)) = _ at h
      by_cases hN : (groupCharge g).isNone = true
      · rw [if_pos hN] at h; cases h
      · rw [if_neg hN] at h
        cases h
        have f1 := (opalColumn_iff _ _ _ _).1 h1
        have f2 := (opalColumn_iff _ _ _ _).1 h2
        have f3 := (opalColumn_iff _ _ _ _).1 h3
        have f4 := (opalColumn_iff _ _ _ _).1 h4
        have f6 := (opalColumn_iff _ _ _ _).1 h6
        obtain ⟨a, b, c, d, e, q⟩ := zip6_maps zs xs pxs ys pys pzs f1.1 f2.1 f3.1 f4.1 f6.1
        have hl : (zip6 xs pxs ys pys zs pzs).length = zs.length := by rw [← List.length_map (f := (·.ct)), e]
        refine ⟨⟨?_, ?_, ?_, ?_, ?_, ?_⟩, rfl, rfl, ?_, rfl⟩
        · simp only [e, hz]
        · simp only [hl, a]; exact f1
        · simp only [hl, b]; exact f2
        · simp only [hl, c]; exact f3
        · simp only [hl, d]; exact f4
        · simp only [hl, q]; exact f6
        · cases hh : groupCharge g with
          | none => rw [hh] at hN; exact absurd rfl hN
          | some _ => rfl
  · rintro ⟨hr, hch, hm, hs, ht⟩
    obtain ⟨ps, ch, m, t⟩ := s
    simp only at hr hch hm hs ht
    subst hch hm ht
    rw [hr.z]
    simp only [List.length_map]
    have hz := (opalColumn_iff _ _ _ _).2 (fits_z hr.z)
    simp only [List.length_map] at hz
    rw [(opalColumn_iff _ _ _ _).2 hr.x, (opalColumn_iff _ _ _ _).2 hr.px, (opalColumn_iff _ _ _ _).2 hr.y,
      (opalColumn_iff _ _ _ _).2 hr.py, (opalColumn_iff _ _ _ _).2 hr.pz, hz]
    simp only [zip6_map]
    change (if (groupCharge g).isNone = true then _ else Except.ok (⟨ps, -1, 511000, groupCharge g⟩ : Species K)) = _
    rw [if_neg]
    cases hh : groupCharge g with
    | none => rw [hh] at hs; cases hs
    | some _ => simp

/-- The names of the datasets, in the order in which they are read. -/
def coordNames : List String := ["x", "px", "y", "py", "z", "pz"]

/-- A dataset that is neither of the length of `z` nor a single value raises ValueError, when all
datasets are there. -/
theorem opal_lengths {f : H5 K} (hn : (f.map (·.1)).Nodup) {n : Int} (h0 : n ≠ 0) {g : Group K}
    (hg : (stepName n, g) ∈ f) {zs : List K} (hz : g.data "z".toList = some zs)
    (hd : ∀ c ∈ coordNames, ∃ ds, g.data c.toList = some ds)
    {c : String} (hc : c ∈ coordNames) {ds : List K} (hcd : g.data c.toList = some ds) (h1 : ds.length ≠ 1) (hl : ds.length ≠ zs.length) :
    readOpal f (some n) = .error .valueError := by
  have hs : chooseStep (f.map (·.1)) (some n) = .ok n := by unfold chooseStep; simp [h0]
  have hbad : opalColumn g zs.length c = .error .valueError := by
    unfold opalColumn
    rw [hcd]
    match ds, h1, hl with
    | [], _, hl => simp only [if_neg hl]
    | [v], h1, _ => exact absurd rfl h1
    | a :: b :: l, _, hl => simp only [if_neg hl]
  have hor : ∀ c ∈ coordNames, (∃ vs, opalColumn g zs.length c = .ok vs) ∨ opalColumn g zs.length c = .error .valueError := by
    intro c hc
    obtain ⟨ds, hds⟩ := hd c hc
    unfold opalColumn
    rw [hds]
    match ds with
    | [v] => exact .inl ⟨_, rfl⟩
    | [] =>
      by_cases h : ([] : List K).length = zs.length
      · exact .inl ⟨[], by simp only [if_pos h]⟩
      · exact .inr (by simp only [if_neg h])
    | a :: b :: l =>
      by_cases h : (a :: b :: l).length = zs.length
      · exact .inl ⟨a :: b :: l, by simp only [if_pos h]⟩
      · exact .inr (by simp only [if_neg h])
  unfold readOpal
  rw [hs]
  simp only [bind, Except.bind]
  rw [find_step hn hg]
  simp only [hz]
  rcases hor "x" (by decide) with ⟨v1, e1⟩ | e1
  swap; · rw [e1]
  rcases hor "px" (by decide) with ⟨v2, e2⟩ | e2
  swap; · rw [e1, e2]
  rcases hor "y" (by decide) with ⟨v3, e3⟩ | e3
  swap; · rw [e1, e2, e3]
  rcases hor "py" (by decide) with ⟨v4, e4⟩ | e4
  swap; · rw [e1, e2, e3, e4]
  rcases hor "z" (by decide) with ⟨v5, e5⟩ | e5
  swap; · rw [e1, e2, e3, e4, e5]
  rcases hor "pz" (by decide) with ⟨v6, e6⟩ | e6
  swap; · rw [e1, e2, e3, e4, e5, e6]
  exfalso
  simp only [coordNames, List.mem_cons, List.not_mem_nil, or_false] at hc
  rcases hc with rfl | rfl | rfl | rfl | rfl | rfl <;> simp_all

/-- A step without one of the datasets raises KeyError, when the others can be read. -/
theorem opal_missing_dataset {f : H5 K} (hn : (f.map (·.1)).Nodup) {n : Int} (h0 : n ≠ 0) {g : Group K}
    (hg : (stepName n, g) ∈ f) {c : String} (hc : c ∈ coordNames) (hm : g.data c.toList = none)
    (hd : ∀ c ∈ coordNames, ∀ ds zs, g.data c.toList = some ds → g.data "z".toList = some zs → ds.length = zs.length) :
    readOpal f (some n) = .error .keyError := by
  have hs : chooseStep (f.map (·.1)) (some n) = .ok n := by unfold chooseStep; simp [h0]
  unfold readOpal
  rw [hs]
  simp only [bind, Except.bind]
  rw [find_step hn hg]
  simp only
  cases hz : g.data "z".toList with
  | none => rfl
  | some zs =>
    simp only
    have hbad : opalColumn g zs.length c = .error .keyError := by unfold opalColumn; rw [hm]
    have hor : ∀ c ∈ coordNames, (∃ vs, opalColumn g zs.length c = .ok vs) ∨ opalColumn g zs.length c = .error .keyError := by
      intro c hc
      cases hds : g.data c.toList with
      | none => right; unfold opalColumn; rw [hds]
      | some ds => exact .inl ⟨ds, (opalColumn_iff _ _ _ _).2 ⟨hd c hc ds zs hds hz, ds, hds, .inl rfl⟩⟩
    rcases hor "x" (by decide) with ⟨v1, e1⟩ | e1
    swap; · rw [e1]
    rcases hor "px" (by decide) with ⟨v2, e2⟩ | e2
    swap; · rw [e1, e2]
    rcases hor "y" (by decide) with ⟨v3, e3⟩ | e3
    swap; · rw [e1, e2, e3]
    rcases hor "py" (by decide) with ⟨v4, e4⟩ | e4
    swap; · rw [e1, e2, e3, e4]
    rcases hor "z" (by decide) with ⟨v5, e5⟩ | e5
    swap; · rw [e1, e2, e3, e4, e5]
    rcases hor "pz" (by decide) with ⟨v6, e6⟩ | e6
    swap; · rw [e1, e2, e3, e4, e5, e6]
    exfalso
    simp only [coordNames, List.mem_cons, List.not_mem_nil, or_false] at hc
    rcases hc with rfl | rfl | rfl | rfl | rfl | rfl <;> simp_all

end

/-- A group with two particles and one value of `x`; `y` has the values `ys`, or is missing. -/
def exMixed (ys : Option (List ℚ)) : Group ℚ where
  data k := if k = "x".toList then some [7] else if k = "y".toList then ys
    else if k ∈ ["px".toList, "py".toList, "z".toList, "pz".toList] then some [1, 2] else none
  totalCharge := some 5
  charge := none

example : readOpal [(stepName 1, exMixed (some [3, 4]))] (some 1) =
    .ok ⟨[⟨7, 1, 3, 1, 1, 1⟩, ⟨7, 2, 4, 2, 2, 2⟩], -1, 511000, some 5⟩ := by
  refine (opal_datasets_exact (by simp) (by decide) (List.mem_singleton.2 rfl) _).2 ⟨⟨?_, ?_, ?_, ?_, ?_, ?_⟩, rfl, rfl, rfl, ?_⟩
  · decide +kernel
  · exact ⟨rfl, [7], by decide +kernel, .inr ⟨7, rfl, by decide +kernel⟩⟩
  · exact ⟨rfl, [1, 2], by decide +kernel, .inl rfl⟩
  · exact ⟨rfl, [3, 4], by decide +kernel, .inl rfl⟩
  · exact ⟨rfl, [1, 2], by decide +kernel, .inl rfl⟩
  · exact ⟨rfl, [1, 2], by decide +kernel, .inl rfl⟩
  · decide +kernel

example : readOpal [(stepName 1, exMixed (some [3, 4, 5]))] (some 1) = .error .valueError :=
  opal_lengths (g := exMixed (some [3, 4, 5])) (zs := [1, 2]) (c := "y") (ds := [3, 4, 5]) (by simp) (by decide)
    (List.mem_singleton.2 rfl) (by decide +kernel) (by
      intro c hc
      simp only [coordNames, List.mem_cons, List.not_mem_nil, or_false] at hc
      rcases hc with rfl | rfl | rfl | rfl | rfl | rfl
      · exact ⟨[7], by decide +kernel⟩
      · exact ⟨[1, 2], by decide +kernel⟩
      · exact ⟨[3, 4, 5], by decide +kernel⟩
      · exact ⟨[1, 2], by decide +kernel⟩
      · exact ⟨[1, 2], by decide +kernel⟩
      · exact ⟨[1, 2], by decide +kernel⟩) (by decide) (by decide +kernel) (by decide) (by decide)

example : readOpal [(stepName 1, { exGroup 2 none none with data := fun k => if k = "z".toList then some [] else none })] (some 1) =
    .error .keyError :=
  opal_missing_dataset (c := "px") (by simp) (by decide) (List.mem_singleton.2 rfl) (by decide) (by decide +kernel) (by
    intro c hc ds zs h1 h2
    by_cases h : c.toList = "z".toList
    · rw [h] at h1; rw [h1] at h2; cases h2; rfl
    · have h1 : (if c.toList = "z".toList then some [] else none : Option (List ℚ)) = some ds := h1
      rw [if_neg h] at h1; cases h1)

end Verif.Switch
