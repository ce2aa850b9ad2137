import Verif.Switch.Props
import Verif.Lte.PropsRpn

/-!
# Properties C20, C75 and C77: reading and writing OPAL files
-/

namespace Verif.Switch

variable {K : Type}

theorem afterLast?_none {s : Str} (h : 'S' ∉ s) : afterLast? "Step#".toList s = none := by
  induction s with
  | nil => rfl
  | cons c cs ih =>
    simp only [List.mem_cons, not_or] at h
    unfold afterLast?
    rw [ih h.2]
    simp only
    rw [if_neg]
    show ¬ (List.isPrefixOf ['S', 't', 'e', 'p', '#'] (c :: cs) = true)
    simp [List.isPrefixOf, h.1]

theorem intStr_noS (n : Int) : 'S' ∉ intStr n := by
  intro h
  cases n with
  | ofNat n => exact absurd (natStr_digits n _ h) (by decide)
  | negSucc n =>
    simp only [intStr, List.mem_cons] at h
    rcases h with h | h
    · exact absurd h (by decide)
    · exact absurd (natStr_digits _ _ h) (by decide)

theorem getStepNumber_stepName (n : Int) : getStepNumber (stepName n) = intStr n := by
  have h : afterLast? "Step#".toList ('S' :: 't' :: 'e' :: 'p' :: '#' :: intStr n) = some (intStr n) := by
    unfold afterLast?
    rw [afterLast?_none (by simp only [List.mem_cons, not_or]; exact ⟨by decide, by decide, by decide, by decide, intStr_noS n⟩)]
    simp only
    rw [if_pos]
    · rfl
    · show List.isPrefixOf ['S', 't', 'e', 'p', '#'] _ = true
      simp [List.isPrefixOf]
  show (afterLast? "Step#".toList ('S' :: 't' :: 'e' :: 'p' :: '#' :: intStr n)).getD _ = _
  rw [h]
  rfl

theorem afterLast?_suffix (sep : Str) {s t : Str} (h : afterLast? sep s = some t) : t <:+ s := by
  induction s with
  | nil => cases h
  | cons c cs ih =>
    unfold afterLast? at h
    cases h1 : afterLast? sep cs with
    | some u =>
      rw [h1] at h
      cases h
      exact (ih h1).trans (List.suffix_cons c cs)
    | none =>
      rw [h1] at h
      simp only at h
      split_ifs at h
      cases h
      exact List.drop_suffix _ _

theorem digitsVal_all {s : Str} : ∀ {acc n : Nat}, digitsVal acc s = some n → ∀ c ∈ s, c.isDigit = true := by
  induction s with
  | nil => intro _ _ _ c hc; cases hc
  | cons d s ih =>
    intro acc n h c hc
    unfold digitsVal at h
    split_ifs at h with hd
    rcases List.mem_cons.1 hc with rfl | hc
    · exact hd
    · exact ih h c hc

theorem parseInt_last {s : Str} {n : Int} (h : parseInt s = .ok n) : ∃ c, s.getLast? = some c ∧ c.isDigit = true := by
  unfold parseInt at h
  match s with
  | [] => cases h
  | c :: cs =>
    simp only at h
    split at h
    · match cs with
      | [] => cases h
      | d :: ds =>
        simp only at h
        cases hd : digitsVal 0 (d :: ds) with
        | none => rw [hd] at h; cases h
        | some m =>
          refine ⟨(d :: ds).getLast (by simp), ?_, digitsVal_all hd _ (List.getLast_mem _)⟩
          rw [List.getLast?_eq_some_getLast (by simp), List.getLast_cons (by simp)]
    · cases hd : digitsVal 0 (c :: cs) with
      | none => rw [hd] at h; cases h
      | some m =>
        exact ⟨(c :: cs).getLast (by simp), List.getLast?_eq_some_getLast (by simp), digitsVal_all hd _ (List.getLast_mem _)⟩

/-- Names of groups that are steps, or do not end in a digit. -/
def KeyOk (k : Str) : Prop := (∃ n : Int, k = stepName n) ∨ ∀ c, k.getLast? = some c → c.isDigit = false

theorem step_of_key {k : Str} (hk : KeyOk k) {n : Int} (h : parseInt (getStepNumber k) = .ok n) : k = stepName n := by
  rcases hk with ⟨m, rfl⟩ | hk
  · rw [getStepNumber_stepName, parseInt_intStr] at h
    cases h
    rfl
  · exfalso
    obtain ⟨c, hc, hd⟩ := parseInt_last h
    have hs : getStepNumber k <:+ k := by
      unfold getStepNumber
      cases ha : afterLast? "Step#".toList k with
      | none => exact List.suffix_refl _
      | some t => exact afterLast?_suffix _ ha
    obtain ⟨a, ha⟩ := hs
    have : k.getLast? = some c := by
      rw [← ha, List.getLast?_append, hc]
      rfl
    rw [hk c this] at hd
    cases hd

theorem foldl_max_spec (l : List Int) : ∀ a : Int, (l.foldl max a = a ∨ l.foldl max a ∈ l) ∧ a ≤ l.foldl max a ∧ ∀ x ∈ l, x ≤ l.foldl max a := by
  induction l with
  | nil => intro a; simp
  | cons b l ih =>
    intro a
    obtain ⟨h1, h2, h3⟩ := ih (max a b)
    refine ⟨?_, ?_, ?_⟩
    · rcases h1 with h | h
      · simp only [List.foldl_cons, List.mem_cons]
        rw [h]
        rcases max_choice a b with h | h <;> rw [h]
        · exact Or.inl rfl
        · exact Or.inr (Or.inl rfl)
      · right; simp only [List.foldl_cons, List.mem_cons]; exact Or.inr h
    · exact le_trans (le_max_left a b) h2
    · intro x hx
      rcases List.mem_cons.1 hx with rfl | hx
      · exact le_trans (le_max_right a x) h2
      · exact h3 x hx

theorem npMax_eq {l : List Int} {n : Int} (h : n ∈ l) (hm : ∀ x ∈ l, x ≤ n) : npMax l = .ok n := by
  match l with
  | [] => cases h
  | a :: l =>
    obtain ⟨h1, h2, h3⟩ := foldl_max_spec l a
    unfold npMax
    refine congrArg Except.ok ?_
    apply le_antisymm
    · rcases h1 with h1 | h1
      · rw [h1]; exact hm a (by simp)
      · exact hm _ (by simp [h1])
    · rcases List.mem_cons.1 h with rfl | h
      · exact h2
      · exact h3 n h

theorem mem_allSteps {keys : List Str} (hk : ∀ k ∈ keys, KeyOk k) (n : Int) :
    n ∈ allSteps keys ↔ stepName n ∈ keys := by
  unfold allSteps
  rw [List.mem_filterMap]
  constructor
  · rintro ⟨k, h1, h2⟩
    cases hp : parseInt (getStepNumber k) with
    | error e => rw [hp] at h2; cases h2
    | ok m =>
      rw [hp] at h2
      cases h2
      rw [← step_of_key (hk k h1) hp]
      exact h1
  · intro h
    refine ⟨_, h, ?_⟩
    rw [getStepNumber_stepName, parseInt_intStr]

/-- Group `g` holds the particles `ps`. -/
structure Group.Holds (g : Group K) (ps : List (Part K)) : Prop where
  x : g.data "x".toList = some (ps.map (·.x))
  px : g.data "px".toList = some (ps.map (·.ux))
  y : g.data "y".toList = some (ps.map (·.y))
  py : g.data "py".toList = some (ps.map (·.uy))
  z : g.data "z".toList = some (ps.map (·.ct))
  pz : g.data "pz".toList = some (ps.map (·.pt))

theorem opalColumn_ok {g : Group K} {ps : List (Part K)} {n : String} {f : Part K → K} (h : g.data n.toList = some (ps.map f)) :
    opalColumn g ps.length n = .ok (ps.map f) := by
  unfold opalColumn
  rw [h]
  match ps with
  | [] => rfl
  | [p] => rfl
  | p :: q :: ps => simp

theorem zip6_map (ps : List (Part K)) :
    zip6 (ps.map (·.x)) (ps.map (·.ux)) (ps.map (·.y)) (ps.map (·.uy)) (ps.map (·.ct)) (ps.map (·.pt)) = ps := by
  induction ps with
  | nil => rfl
  | cons p ps ih => simp only [List.map_cons, zip6, ih]

section
variable [Zero K] [DecidableEq K]

/-- The charge of a group (switchyard.py:89). -/
def groupCharge (g : Group K) : Option K :=
  match g.totalCharge with
  | some q => if q = 0 then g.charge else some q
  | none => g.charge

theorem groupCharge_eq {g : Group K} (hq0 : g.totalCharge ≠ some 0) {q : K} (hq : g.totalCharge.or g.charge = some q) :
    groupCharge g = some q := by
  cases ht : g.totalCharge with
  | none => rw [ht] at hq; simp only [Option.none_or] at hq; simp [groupCharge, ht, hq]
  | some p =>
    rw [ht] at hq hq0
    simp only [Option.some_or, Option.some.injEq] at hq
    subst hq
    simp only [ne_eq, Option.some.injEq] at hq0
    simp [groupCharge, ht, hq0]

theorem readOpal_step {f : H5 K} {step : Option Int} {n : Int} (hs : chooseStep (f.map (·.1)) step = .ok n)
    (hn : (f.map (·.1)).Nodup) {g : Group K} (hg : (stepName n, g) ∈ f) {ps : List (Part K)} (hp : g.Holds ps) :
    readOpal f step = match groupCharge g with
      | none => .error .assertionError
      | some q => .ok ⟨ps, -1, 511000, some q⟩ := by
  have hfind : f.find? (fun g => g.1 = stepName n) = some (stepName n, g) := by
    clear hs
    induction f with
    | nil => cases hg
    | cons e f ih =>
      simp only [List.map_cons, List.nodup_cons] at hn
      rcases List.mem_cons.1 hg with rfl | hg
      · simp
      · rw [List.find?_cons_of_neg, ih hn.2 hg]
        simp only [decide_eq_true_eq]
        intro he
        exact hn.1 (he ▸ List.mem_map.2 ⟨_, hg, rfl⟩)
  unfold readOpal
  rw [hs]
  simp only [bind, Except.bind]
  rw [hfind]
  simp only [hp.z, List.length_map, opalColumn_ok hp.x, opalColumn_ok hp.px, opalColumn_ok hp.y, opalColumn_ok hp.py,
    opalColumn_ok hp.z, opalColumn_ok hp.pz, zip6_map]
  change (if (groupCharge g).isNone = true then _ else Except.ok (⟨ps, -1, 511000, groupCharge g⟩ : Species K)) = _
  cases groupCharge g <;> simp

/-- **C20, C75.** With a step number other than zero, that step is read; for zero see
`opal_zero_fails`. The total charge is the attribute `TotalCharge` when it is there, otherwise
`CHARGE`; for `TotalCharge` zero see `opal_charge_fails`. -/
theorem opal_step_partial {f : H5 K} (hn : (f.map (·.1)).Nodup) {n : Int} (h0 : n ≠ 0) {g : Group K}
    (hg : (stepName n, g) ∈ f) {ps : List (Part K)} (hp : g.Holds ps) {q : K} (hq0 : g.totalCharge ≠ some 0)
    (hq : g.totalCharge.or g.charge = some q) :
    ∃ s, readOpal f (some n) = .ok s ∧ s.coords = ps ∧ s.totalCharge = some q := by
  rw [readOpal_step (n := n) (by unfold chooseStep; simp [h0]) hn hg hp]
  refine ⟨⟨ps, -1, 511000, some q⟩, ?_, rfl, rfl⟩
  rw [groupCharge_eq hq0 hq]

/-- Without a step number the largest step is read, in a file whose other names do not end in a
digit. -/
theorem opal_last_partial {f : H5 K} (hn : (f.map (·.1)).Nodup) (hk : ∀ k ∈ f.map (·.1), KeyOk k) {n : Int}
    {g : Group K} (hg : (stepName n, g) ∈ f) (hm : ∀ m : Int, stepName m ∈ f.map (·.1) → m ≤ n)
    {ps : List (Part K)} (hp : g.Holds ps) {q : K} (hq0 : g.totalCharge ≠ some 0)
    (hq : g.totalCharge.or g.charge = some q) :
    ∃ s, readOpal f none = .ok s ∧ s.coords = ps ∧ s.totalCharge = some q := by
  have hc : chooseStep (f.map (·.1)) none = .ok n := by
    apply npMax_eq
    · exact (mem_allSteps hk n).2 (List.mem_map.2 ⟨_, hg, rfl⟩)
    · exact fun m hm' => hm m ((mem_allSteps hk m).1 hm')
  rw [readOpal_step hc hn hg hp]
  refine ⟨⟨ps, -1, 511000, some q⟩, ?_, rfl, rfl⟩
  rw [groupCharge_eq hq0 hq]

/-- Step 0 cannot be selected: when the file has a larger step, that one is read. -/
theorem opal_zero_fails {f : H5 K} (hn : (f.map (·.1)).Nodup) (hk : ∀ k ∈ f.map (·.1), KeyOk k) {n : Int}
    {g : Group K} (hg : (stepName n, g) ∈ f) (hm : ∀ m : Int, stepName m ∈ f.map (·.1) → m ≤ n)
    {ps : List (Part K)} (hp : g.Holds ps) {q : K} (hq0 : g.totalCharge ≠ some 0)
    (hq : g.totalCharge.or g.charge = some q) :
    ∃ s, readOpal f (some 0) = .ok s ∧ s.coords = ps ∧ s.totalCharge = some q :=
  opal_last_partial hn hk hg hm hp hq0 hq

/-- A step that is not in the file raises KeyError. -/
theorem opal_missing {f : H5 K} {n : Int} (h0 : n ≠ 0) (h : stepName n ∉ f.map (·.1)) :
    readOpal f (some n) = .error .keyError := by
  have hfind : f.find? (fun g => g.1 = stepName n) = none := by
    rw [List.find?_eq_none]
    intro e he hc
    exact h (List.mem_map.2 ⟨e, he, of_decide_eq_true hc⟩)
  unfold readOpal
  have : chooseStep (f.map (·.1)) (some n) = .ok n := by unfold chooseStep; simp [h0]
  rw [this]
  simp only [bind, Except.bind]
  rw [hfind]

/-- A monitor with total charge zero cannot be read: AssertionError, or the charge of the other
attribute. -/
theorem opal_charge_fails {f : H5 K} (hn : (f.map (·.1)).Nodup) {n : Int} (h0 : n ≠ 0) {g : Group K}
    (hg : (stepName n, g) ∈ f) {ps : List (Part K)} (hp : g.Holds ps) (hq0 : g.totalCharge = some 0) :
    (g.charge = none → readOpal f (some n) = .error .assertionError) ∧
    ∀ q, g.charge = some q → ∃ s, readOpal f (some n) = .ok s ∧ s.totalCharge = some q := by
  rw [readOpal_step (n := n) (by unfold chooseStep; simp [h0]) hn hg hp]
  constructor
  · intro hc; simp [groupCharge, hq0, hc]
  · intro q hc
    exact ⟨⟨ps, -1, 511000, some q⟩, by simp [groupCharge, hq0, hc], rfl⟩

end

/-- A group with one particle at `v`, for the examples. -/
def exGroup (v : ℚ) (t c : Option ℚ) : Group ℚ where
  data k := if k ∈ ["x".toList, "px".toList, "y".toList, "py".toList, "z".toList, "pz".toList] then some [v] else none
  totalCharge := t
  charge := c

theorem exGroup_holds (v : ℚ) (t c : Option ℚ) : (exGroup v t c).Holds [⟨v, v, v, v, v, v⟩] := by
  have h : ∀ k ∈ ["x".toList, "px".toList, "y".toList, "py".toList, "z".toList, "pz".toList],
      (exGroup v t c).data k = some [v] := fun k hk => if_pos hk
  exact ⟨h _ (by decide), h _ (by decide), h _ (by decide), h _ (by decide), h _ (by decide), h _ (by decide)⟩

/-- A file with steps 0 and 12. -/
def exFile : H5 ℚ :=
  [("Step#0".toList, exGroup 1 (some 5) none), ("Step#12".toList, exGroup 2 (some 6) none),
   ("info".toList, exGroup 3 none none)]

theorem exFile_keys : ∀ k ∈ exFile.map (·.1), KeyOk k := by
  intro k hk
  simp only [exFile, List.map_cons, List.map_nil, List.mem_cons, List.not_mem_nil, or_false] at hk
  rcases hk with rfl | rfl | rfl
  · exact Or.inl ⟨0, by decide +kernel⟩
  · exact Or.inl ⟨12, by decide +kernel⟩
  · refine Or.inr fun c hc => ?_
    have h : "info".toList.getLast? = some 'o' := by decide
    rw [h] at hc
    cases hc
    decide

theorem stepName_inj {m n : Int} (h : stepName m = stepName n) : m = n := by
  have h1 := congrArg getStepNumber h
  rw [getStepNumber_stepName, getStepNumber_stepName] at h1
  have h2 := congrArg parseInt h1
  rw [parseInt_intStr, parseInt_intStr] at h2
  cases h2
  rfl

theorem exFile_max : ∀ m : Int, stepName m ∈ exFile.map (·.1) → m ≤ 12 := by
  intro m hm
  simp only [exFile, List.map_cons, List.map_nil, List.mem_cons, List.not_mem_nil, or_false] at hm
  have h0 : "Step#0".toList = stepName 0 := by decide +kernel
  have h12 : "Step#12".toList = stepName 12 := by decide +kernel
  rw [h0, h12] at hm
  rcases hm with h | h | h
  · rw [stepName_inj h]; decide
  · rw [stepName_inj h]
  · exact absurd (congrArg List.head? h) (by show some 'S' ≠ some 'i'; decide)

theorem exFile_mem : (stepName 12, exGroup 2 (some 6) none) ∈ exFile := by
  have h12 : stepName 12 = "Step#12".toList := by decide +kernel
  rw [h12]
  simp [exFile]

theorem exFile_nodup : (exFile.map (·.1)).Nodup := by
  show ["Step#0".toList, "Step#12".toList, "info".toList].Nodup
  decide

example : ∃ s, readOpal exFile none = .ok s ∧ s.coords = [⟨2, 2, 2, 2, 2, 2⟩] ∧ s.totalCharge = some 6 :=
  opal_last_partial exFile_nodup exFile_keys exFile_mem exFile_max (exGroup_holds 2 _ _) (by decide +kernel) rfl

/-- Asking for step 0 of this file gives step 12. -/
example : ∃ s, readOpal exFile (some 0) = .ok s ∧ s.coords = [⟨2, 2, 2, 2, 2, 2⟩] ∧ s.totalCharge = some 6 :=
  opal_zero_fails exFile_nodup exFile_keys exFile_mem exFile_max (exGroup_holds 2 _ _) (by decide +kernel) rfl

example : readOpal exFile (some 3) = .error .keyError :=
  opal_missing (by decide) (by
    show stepName 3 ∉ ["Step#0".toList, "Step#12".toList, "info".toList]
    decide +kernel)

example : readOpal [(stepName 1, exGroup 2 (some 0) none)] (some 1) = .error .assertionError :=
  (opal_charge_fails (by simp) (by decide) (List.mem_singleton.2 rfl) (exGroup_holds 2 _ _) rfl).1 rfl

example : ∃ s, readOpal [(stepName 1, exGroup 2 none (some 4))] (some 1) = .ok s ∧ s.coords = [⟨2, 2, 2, 2, 2, 2⟩] ∧
    s.totalCharge = some 4 :=
  opal_step_partial (by simp) (by decide) (List.mem_singleton.2 rfl) (exGroup_holds 2 _ _)
    (by show (none : Option ℚ) ≠ some 0; simp) rfl

theorem splitChar_lines {α : Type} (line : α → Str) (h : ∀ a, '\n' ∉ line a) (l : List α) :
    splitChar '\n' ((l.map fun a => line a ++ ['\n']).flatten) = l.map line ++ [[]] := by
  induction l with
  | nil => rfl
  | cons a l ih =>
    simp only [List.map_cons, List.flatten_cons, List.append_assoc, List.singleton_append, List.cons_append]
    rw [Verif.Lte.splitChar_append (h a), List.nil_append, ih]

theorem natStr_noNl (n : Nat) : '\n' ∉ natStr n := fun h => absurd (natStr_digits n _ h) (by decide)

/-- **C77.** The OPAL text export: the first line is the number of particles, then one line per
particle, in order. -/
theorem opal_export (fmt : K → Str) (hfmt : ∀ v, '\n' ∉ fmt v) (s : Species K) :
    splitChar '\n' (writeOpal fmt s) =
      natStr s.coords.length :: s.coords.map (fun p => fmt p.x ++ ' ' :: fmt p.ux ++ ' ' :: fmt p.y ++ ' ' :: fmt p.uy ++
        ' ' :: fmt p.ct ++ ' ' :: fmt p.pt) ++ [[]] := by
  unfold writeOpal
  rw [List.append_assoc, List.singleton_append, Verif.Lte.splitChar_append (natStr_noNl _)]
  have := splitChar_lines (fun p : Part K => fmt p.x ++ ' ' :: fmt p.ux ++ ' ' :: fmt p.y ++ ' ' :: fmt p.uy ++
        ' ' :: fmt p.ct ++ ' ' :: fmt p.pt) (by
    intro p
    simp only [List.mem_append, List.mem_cons, not_or]
    simp (decide := true) [hfmt]) s.coords
  rw [List.cons_append, ← this]
  rfl

example : splitChar '\n' (writeOpal (fun v : ℚ => intStr v.num) exSpecies) =
    ["2".toList, "1 4 -2 6 9 2".toList, "0 -8 5 0 -3 4".toList, []] := by decide +kernel

end Verif.Switch
