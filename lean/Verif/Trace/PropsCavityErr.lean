import Verif.Trace.PropsCavities

/-!
# Which beamlines of TRACE 3-D with cavities can be converted (C37)
-/

namespace Verif.Trace

open Verif.Lattice

variable {R : Type}

/-- A parameter of an element. -/
def paramOf (h : Heap R) (e : Nat) (key : Str) : Except PyErr R :=
  match Params.getItem (h.elem e).params key with
  | none => .error .keyError
  | some (.str _) => .error .typeError
  | some (.num x) => .ok x

theorem paramAt_nat {h : Heap R} {es : List Nat} (hs : (h.line 0).seq = es.map Item.elem) (n : Nat) (key : Str) :
    paramAt h (n : Int) key = match es[n]? with | none => .error .indexError | some e => paramOf h e key := by
  unfold paramAt pyIndex
  rw [if_pos (by omega), hs, Int.toNat_natCast, List.getElem?_map]
  cases es[n]? <;> rfl

theorem paramAt_last {h : Heap R} {es : List Nat} (hs : (h.line 0).seq = es.map Item.elem) (key : Str) {l : Nat} (hl : es.getLast? = some l) :
    paramAt h (-1) key = paramOf h l key := by
  have hlen : 0 < es.length := by
    cases es with
    | nil => cases hl
    | cons _ _ => simp
  unfold paramAt pyIndex
  rw [if_neg (by omega), hs, List.length_map, if_pos (by omega), List.getElem?_map, show ((es.length : Int) + -1).toNat = es.length - 1 by omega]
  rw [List.getLast?_eq_getElem?] at hl
  rw [hl]
  rfl

/-- What happens at the cavities behind a position: `first` says that it is the first position. -/
def cavSpec (lastCav : Bool) : Bool → List Bool → Option PyErr
  | _, [] => none
  | _, false :: l => cavSpec lastCav false l
  | first, true :: l => if first && lastCav then some .keyError else match l with
    | [] => some .indexError
    | true :: _ => some .keyError
    | false :: _ => cavSpec lastCav false l

/-- Lengths and phases as the parser makes them, when the positions before `k` have been handled. -/
structure CavInv (es : List Nat) (k : Nat) (h : Heap R) : Prop where
  seq : (h.line 0).seq = es.map Item.elem
  phase : ∀ e ∈ es, (h.elem e).type = cavType → ∃ p, Params.getItem (h.elem e).params "phase".toList = some (.num p)
  len : ∀ e ∈ es, (h.elem e).type ≠ cavType → ∃ x, Params.getItem (h.elem e).params "L".toList = some (.num x)
  before : ∀ i e, es[i]? = some e → i < k → ∃ x, Params.getItem (h.elem e).params "L".toList = some (.num x)
  after : ∀ i e, es[i]? = some e → k ≤ i → (h.elem e).type = cavType → Params.getItem (h.elem e).params "L".toList = none

theorem setLen_L (h : Heap R) (e : Nat) (x : R) (k : Nat) :
    Params.getItem ((setLen h e x).elem k).params "L".toList = if k = e then some (.num x) else Params.getItem (h.elem k).params "L".toList := by
  rw [setLen_getItem]
  by_cases hk : k = e
  · rw [if_pos ⟨hk, by decide⟩, if_pos hk]
  · rw [if_neg (fun hh => hk hh.1), if_neg hk]

theorem cavityLoop_spec [Zero R] [Add R] [Sub R] (ninety : R) (es : List Nat) (hn : es.Nodup) (l : Nat) (hl : es.getLast? = some l) (ty : Nat → Bool)
    (m : Nat) : ∀ (k : Nat) (h : Heap R) (cavs : List Nat) (phases : List R), CavInv es k h → (∀ e, (h.elem e).type = cavType ↔ ty e = true) →
    k + m = es.length →
    match cavSpec (ty l) (k == 0) ((es.drop k).map ty) with
    | none => ∃ r, cavityLoop ninety (List.range' k m) h cavs phases = .ok r
    | some e => cavityLoop ninety (List.range' k m) h cavs phases = .error e := by
  induction m with
  | zero =>
    intro k h cavs phases _ _ hk
    rw [List.drop_eq_nil_of_le (by omega)]
    exact ⟨_, rfl⟩
  | succ m ih =>
    intro k h cavs phases hi ht hk
    have hlt : k < es.length := by omega
    have hdrop : es.drop k = es[k] :: es.drop (k + 1) := List.drop_eq_getElem_cons hlt
    have hc : es[k]? = some es[k] := List.getElem?_eq_getElem hlt
    generalize es[k] = c at hdrop hc
    have hcm : c ∈ es := List.mem_of_getElem? hc
    have hsq : (h.line 0).seq[k]? = some (.elem c) := by rw [hi.seq, List.getElem?_map, hc]; rfl
    rw [hdrop, List.map_cons, List.range'_succ, cavityLoop, hsq]
    simp only
    cases htc : ty c with
    | false =>
      have hnt : ¬ (h.elem c).type = cavType := fun hh => by rw [(ht c).1 hh] at htc; cases htc
      have hnt' := hnt
      rw [cavType] at hnt'
      rw [if_neg hnt']
      have := ih (k + 1) h cavs phases ⟨hi.seq, hi.phase, hi.len, ?_, fun i e he hki => hi.after i e he (by omega)⟩ ht (by omega)
      · simpa [cavSpec] using this
      · intro i e he hik
        by_cases hik' : i = k
        · subst hik'
          rw [hc] at he
          cases he
          exact hi.len c hcm hnt
        · exact hi.before i e he (by omega)
    | true =>
      have htt := (ht c).2 htc
      have htt' := htt
      rw [cavType] at htt'
      rw [if_pos htt']
      obtain ⟨p, hp⟩ := hi.phase c hcm htt
      have hph : paramAt h (k : Int) "phase".toList = .ok p := by
        rw [paramAt_nat hi.seq, hc]
        simp only [paramOf, hp]
      rw [hph]
      simp only
      -- the left neighbour
      by_cases hwrap : k = 0 ∧ ty l = true
      · obtain ⟨rfl, hlt'⟩ := hwrap
        have hll := List.getLast?_eq_getElem? (l := es) ▸ hl
        have hno := hi.after _ l hll (by omega) ((ht l).2 hlt')
        have hleft : paramAt h (((0 : Nat) : Int) - 1) "L".toList = .error .keyError := by
          rw [show (((0 : Nat) : Int) - 1) = -1 by omega, paramAt_last hi.seq _ hl]
          simp only [paramOf, hno]
        unfold mergeDrifts
        rw [hleft]
        simp [cavSpec, hlt']
      · have hleft : ∃ ea a, pyIndex (h.line 0).seq ((k : Int) - 1) = some (.elem ea) ∧ paramAt h ((k : Int) - 1) "L".toList = .ok a ∧
            (k = 0 → ea = l) ∧ (∀ j, k = j + 1 → es[j]? = some ea) := by
          by_cases hk0 : k = 0
          · subst hk0
            have hl0 : ty l ≠ true := fun hh => hwrap ⟨rfl, hh⟩
            have hll := List.getLast?_eq_getElem? (l := es) ▸ hl
            obtain ⟨x, hx⟩ := hi.len l (List.mem_of_getElem? hll) (fun hh => hl0 ((ht l).1 hh))
            refine ⟨l, x, ?_, ?_, fun _ => rfl, fun j hj => by omega⟩
            · rw [hi.seq]
              unfold pyIndex
              rw [if_neg (by omega), List.length_map, if_pos (by omega), List.getElem?_map, show ((es.length : Int) + (((0 : Nat) : Int) - 1)).toNat = es.length - 1 by omega, hll]
              rfl
            · rw [show (((0 : Nat) : Int) - 1) = -1 by omega, paramAt_last hi.seq _ hl]
              simp only [paramOf, hx]
          · obtain ⟨j, rfl⟩ : ∃ j, k = j + 1 := ⟨k - 1, by omega⟩
            have hj : es[j]? = some es[j] := List.getElem?_eq_getElem (by omega)
            obtain ⟨x, hx⟩ := hi.before j _ hj (by omega)
            refine ⟨es[j], x, ?_, ?_, fun h0 => by omega, fun j' hj' => by rw [show j' = j by omega]; exact hj⟩
            · rw [hi.seq]
              unfold pyIndex
              rw [if_pos (by omega), List.getElem?_map, show (((j + 1 : Nat) : Int) - 1).toNat = j by omega, hj]
              rfl
            · rw [show (((j + 1 : Nat) : Int) - 1) = (j : Int) by omega, paramAt_nat hi.seq, hj]
              simp only [paramOf, hx]
        obtain ⟨ea, a, hia, hpa, hea0, hea1⟩ := hleft
        have hfirst : (k == 0 && ty l) = false := by
          by_cases hk0 : k = 0
          · have : ty l ≠ true := fun hh => hwrap ⟨hk0, hh⟩
            simp [this]
          · simp [hk0]
        have hright : paramAt h ((k : Int) + 1) "L".toList = match es[k + 1]? with | none => .error .indexError | some e => paramOf h e "L".toList := by
          rw [show ((k : Int) + 1) = ((k + 1 : Nat) : Int) by omega, paramAt_nat hi.seq]
        unfold mergeDrifts
        rw [hpa, hright]
        cases hd : es[k + 1]? with
        | none =>
          have : es.drop (k + 1) = [] := List.drop_eq_nil_of_le (List.getElem?_eq_none_iff.1 hd)
          simp [this, cavSpec, hfirst]
        | some d =>
          have hkd : k + 1 < es.length := by
            by_contra hh
            rw [List.getElem?_eq_none (by omega)] at hd
            cases hd
          have hdd : es.drop (k + 1) = d :: es.drop (k + 2) := by
            rw [List.drop_eq_getElem_cons hkd]
            rw [List.getElem?_eq_getElem hkd] at hd
            injection hd with hd
            rw [hd]
          rw [hdd, List.map_cons]
          cases htd : ty d with
          | true =>
            have hno := hi.after _ d hd (by omega) ((ht d).2 htd)
            simp only [paramOf, hno]
            simp [cavSpec, hfirst]
          | false =>
            obtain ⟨b, hb⟩ := hi.len d (List.mem_of_getElem? hd) (fun hh => by rw [(ht d).1 hh] at htd; cases htd)
            simp only [paramOf, hb]
            have hid : pyIndex (h.line 0).seq ((k : Int) + 1) = some (.elem d) := by
              rw [hi.seq]
              unfold pyIndex
              rw [if_pos (by omega), List.getElem?_map, show ((k : Int) + 1).toNat = k + 1 by omega, hd]
              rfl
            have hic : pyIndex (h.line 0).seq (k : Int) = some (.elem c) := by
              rw [hi.seq]
              unfold pyIndex
              rw [if_pos (by omega), Int.toNat_natCast, List.getElem?_map, hc]
              rfl
            rw [editIndex_len hia, editIndex_len (h := setLen h ea 0) hid, editIndex_len (h := setLen (setLen h ea 0) d 0) hic]
            have hsame : SameButLength h (setLen (setLen (setLen h ea 0) d 0) c (a + b)) :=
              ((SameButLength.setLen _ _ _).trans (.setLen _ _ _)).trans (.setLen _ _ _)
            have hL : ∀ e, Params.getItem ((setLen (setLen (setLen h ea 0) d 0) c (a + b)).elem e).params "L".toList =
                if e = c then some (.num (a + b)) else if e = d then some (.num 0) else if e = ea then some (.num 0) else Params.getItem (h.elem e).params "L".toList := by
              intro e
              rw [setLen_L, setLen_L, setLen_L]
            generalize setLen (setLen (setLen h ea 0) d 0) c (a + b) = h1 at hsame hL
            have hkeep : ∀ e, (∃ x, Params.getItem (h.elem e).params "L".toList = some (.num x)) →
                ∃ x, Params.getItem (h1.elem e).params "L".toList = some (.num x) := by
              intro e he
              rw [hL]
              by_cases e1 : e = c
              · exact ⟨_, by rw [if_pos e1]⟩
              by_cases e2 : e = d
              · exact ⟨_, by rw [if_neg e1, if_pos e2]⟩
              by_cases e3 : e = ea
              · exact ⟨_, by rw [if_neg e1, if_neg e2, if_pos e3]⟩
              rw [if_neg e1, if_neg e2, if_neg e3]
              exact he
            have := ih (k + 1) h1 (cavs ++ [k]) (phases ++ [ninety - p]) ⟨by rw [hsame.line]; exact hi.seq, ?_, ?_, ?_, ?_⟩
              (fun e => by rw [hsame.type]; exact ht e) (by omega)
            · rw [hdd, List.map_cons, htd] at this
              simpa [cavSpec, hfirst] using this
            · intro e he hty
              rw [hsame.type] at hty
              rw [hsame.get _ _ (by decide)]
              exact hi.phase e he hty
            · intro e he hty
              rw [hsame.type] at hty
              exact hkeep e (hi.len e he hty)
            · intro i e he hik
              by_cases hik' : i = k
              · subst hik'
                rw [hc] at he
                cases he
                exact ⟨_, by rw [hL, if_pos rfl]⟩
              · exact hkeep e (hi.before i e he (by omega))
            · intro i e he hki hty
              rw [hsame.type] at hty
              have uniq : ∀ j, es[j]? = some e → j = i := fun j hj =>
                (List.getElem?_inj (List.getElem?_eq_some_iff.1 hj).1 hn).1 (hj.trans he.symm)
              have n1 : e ≠ c := fun hh => by
                have := uniq k (by rw [hh]; exact hc)
                omega
              have n2 : e ≠ d := fun hh => by
                rw [hh] at hty
                rw [(ht d).1 hty] at htd
                cases htd
              have n3 : e ≠ ea := fun hh => by
                by_cases hk0 : k = 0
                · have h1 := hea0 hk0
                  rw [hh, h1] at hty
                  exact hwrap ⟨hk0, (ht l).1 hty⟩
                · obtain ⟨j, rfl⟩ : ∃ j, k = j + 1 := ⟨k - 1, by omega⟩
                  have := uniq j (by rw [hh]; exact hea1 j rfl)
                  omega
              rw [hL, if_neg n1, if_neg n2, if_neg n3]
              exact hi.after i e he (by omega) hty

theorem cavSpec_none : ∀ (f : Bool) (l : List Bool), (∀ i : Nat, l[i]? = some true → l[i + 1]? = some false) → cavSpec false f l = none
  | _, [], _ => rfl
  | _, false :: l, h => cavSpec_none false l fun i hi => h (i + 1) hi
  | f, [true], h => absurd (h 0 rfl) (by simp)
  | f, true :: true :: l, h => absurd (h 0 rfl) (by simp)
  | f, true :: false :: l, h => by
    rw [cavSpec, Bool.and_false]
    exact cavSpec_none false (false :: l) fun i hi => h (i + 1) hi

theorem cavSpec_pair (c : Bool) : ∀ (f : Bool) (l : List Bool), (∃ i : Nat, l[i]? = some true ∧ l[i + 1]? = some true) → cavSpec c f l = some .keyError
  | _, [], ⟨i, hi, _⟩ => by simp at hi
  | _, false :: l, ⟨i, h1, h2⟩ => by
    cases i with
    | zero => simp at h1
    | succ i => exact cavSpec_pair c false l ⟨i, h1, h2⟩
  | f, [true], ⟨i, h1, h2⟩ => by simp at h2
  | f, true :: true :: l, _ => by
    rw [cavSpec]
    cases f && c <;> rfl
  | f, true :: false :: l, ⟨i, h1, h2⟩ => by
    rw [cavSpec]
    cases hfc : f && c with
    | true => rfl
    | false =>
      cases i with
      | zero => simp at h2
      | succ i => exact cavSpec_pair c false (false :: l) ⟨i, h1, h2⟩

theorem cavSpec_last (c : Bool) : ∀ (f : Bool) (l : List Bool), l.getLast? = some true → (¬ ∃ i : Nat, l[i]? = some true ∧ l[i + 1]? = some true) →
    (f = true → l.head? = some false) → cavSpec c f l = some .indexError
  | _, [], h, _, _ => by simp at h
  | _, [false], h, _, _ => by simp at h
  | _, false :: b :: l, h, hn, _ => cavSpec_last c false (b :: l) (by simpa [List.getLast?_cons_cons] using h) (fun ⟨i, hi⟩ => hn ⟨i + 1, hi⟩) (by simp)
  | f, [true], h, _, hf => by
    cases f with
    | true => exact absurd (hf rfl) (by simp)
    | false => rfl
  | f, true :: true :: l, _, hn, _ => absurd ⟨0, rfl, rfl⟩ hn
  | f, true :: false :: l, h, hn, hf => by
    cases f with
    | true => exact absurd (hf rfl) (by simp)
    | false => exact cavSpec_last c false (false :: l) (by simpa [List.getLast?_cons_cons] using h) (fun ⟨i, hi⟩ => hn ⟨i + 1, hi⟩) (by simp)

/-- **C37, which beamlines can be converted.** For beamlines as the parser makes them (cavities have a phase and no length, all other elements have a length,
no element is used twice): the conversion works if every cavity is followed by another element that is not a cavity. It raises KeyError if there are two
cavities next to each other, or a cavity at the start and one at the end. It raises IndexError in all other cases, which have a cavity at the end. -/
theorem cavities_converted [Zero R] [Add R] [Sub R] (ninety : R) (h : Heap R) (es : List Nat) (hs : (h.line 0).seq = es.map Item.elem) (hn : es.Nodup)
    (hphase : ∀ e ∈ es, Cavity h e → (∃ p, Params.getItem (h.elem e).params "phase".toList = some (.num p)) ∧
      Params.getItem (h.elem e).params "L".toList = none)
    (hlen : ∀ e ∈ es, ¬ Cavity h e → ∃ x, Params.getItem (h.elem e).params "L".toList = some (.num x)) :
    ((∀ i c, es[i]? = some c → Cavity h c → ∃ d, es[i + 1]? = some d ∧ ¬ Cavity h d) → ∃ h', handleCavities ninety h = .ok h') ∧
    ((∃ i c d, es[i]? = some c ∧ es[i + 1]? = some d ∧ Cavity h c ∧ Cavity h d) ∨
        (∃ c d, es.head? = some c ∧ es.getLast? = some d ∧ Cavity h c ∧ Cavity h d) → handleCavities ninety h = .error .keyError) ∧
    ((∃ d, es.getLast? = some d ∧ Cavity h d) → (∀ c, es.head? = some c → ¬ Cavity h c) →
        (¬ ∃ i c d, es[i]? = some c ∧ es[i + 1]? = some d ∧ Cavity h c ∧ Cavity h d) → handleCavities ninety h = .error .indexError) := by
  classical
  have hrange : List.range (h.line 0).seq.length = List.range' 0 es.length := by rw [hs, List.length_map, List.range_eq_range']
  cases hl : es.getLast? with
  | none =>
    have : es = [] := by simpa using hl
    subst this
    refine ⟨fun _ => ?_, by simp, by simp⟩
    unfold handleCavities
    rw [hrange]
    exact ⟨_, rfl⟩
  | some l =>
    have key := cavityLoop_spec ninety es hn l hl (fun e => decide (Cavity h e)) es.length 0 h [] []
      ⟨hs, fun e he ht => (hphase e he ht).1, hlen, fun _ _ _ h0 => absurd h0 (by omega), fun i e he _ ht => (hphase e (List.mem_of_getElem? he) ht).2⟩
      (fun e => (decide_eq_true_iff (p := Cavity h e)).symm) (by omega)
    rw [List.drop_zero, show ((0 : Nat) == 0) = true from rfl] at key
    have hget : ∀ (i : Nat) (b : Bool), (es.map fun e => decide (Cavity h e))[i]? = some b ↔ ∃ c, es[i]? = some c ∧ decide (Cavity h c) = b := by
      intro i b
      rw [List.getElem?_map, Option.map_eq_some_iff]
    have hll := List.getLast?_eq_getElem? (l := es) ▸ hl
    unfold handleCavities
    rw [hrange]
    refine ⟨fun hok => ?_, fun hbad => ?_, fun ⟨d, hd, hdc⟩ hfirst hpair => ?_⟩
    · have hlc : decide (Cavity h l) = false := by
        rw [decide_eq_false_iff_not]
        intro hc
        obtain ⟨d, hd, -⟩ := hok _ l hll hc
        rw [List.getElem?_eq_none (by omega)] at hd
        cases hd
      rw [hlc, cavSpec_none true _ (by
        intro i hi
        obtain ⟨c, hc, hcc⟩ := (hget i true).1 hi
        obtain ⟨d, hd, hdd⟩ := hok i c hc (of_decide_eq_true hcc)
        exact (hget (i + 1) false).2 ⟨d, hd, decide_eq_false hdd⟩)] at key
      obtain ⟨r, hr⟩ := key
      rw [hr]
      exact ⟨_, rfl⟩
    · have : cavSpec (decide (Cavity h l)) true (es.map fun e => decide (Cavity h e)) = some .keyError := by
        rcases hbad with ⟨i, c, d, h1, h2, h3, h4⟩ | ⟨c, d, h1, h2, h3, h4⟩
        · exact cavSpec_pair _ _ _ ⟨i, (hget i true).2 ⟨c, h1, decide_eq_true h3⟩, (hget (i + 1) true).2 ⟨d, h2, decide_eq_true h4⟩⟩
        · cases h2
          cases es with
          | nil => cases h1
          | cons e es =>
            cases h1
            rw [List.map_cons, decide_eq_true h3, decide_eq_true h4]
            rfl
      rw [this] at key
      rw [key]
    · cases hd
      rw [cavSpec_last _ true _ (by rw [List.getLast?_map, hl, Option.map_some, decide_eq_true hdc])
        (fun ⟨i, h1, h2⟩ => by
          obtain ⟨c, hc, hcc⟩ := (hget i true).1 h1
          obtain ⟨d, hd, hdd⟩ := (hget (i + 1) true).1 h2
          exact hpair ⟨i, c, d, hc, hd, of_decide_eq_true hcc, of_decide_eq_true hdd⟩)
        (fun _ => by
          cases es with
          | nil => cases hl
          | cons e es => rw [List.map_cons, List.head?_cons, decide_eq_false (hfirst e rfl)])] at key
      rw [key]

theorem exCavities_types : Cavity exCavities 1 ∧ Cavity exCavities 3 ∧ ¬ Cavity exCavities 0 ∧ ¬ Cavity exCavities 2 ∧ ¬ Cavity exCavities 4 := by
  unfold Cavity
  decide +kernel

/-- A beamline that can be converted. -/
example : ∃ h', handleCavities 90 exCavities = .ok h' := by
  obtain ⟨t1, t3, t0, t2, t4⟩ := exCavities_types
  refine (cavities_converted 90 exCavities [0, 1, 2, 3, 4] (by decide +kernel) (by decide) ?_ ?_).1 ?_
  · intro e he hc
    simp only [List.mem_cons, List.not_mem_nil, or_false] at he
    rcases he with rfl | rfl | rfl | rfl | rfl
    · exact absurd hc t0
    · exact ⟨⟨30, by decide +kernel⟩, by decide +kernel⟩
    · exact absurd hc t2
    · exact ⟨⟨50, by decide +kernel⟩, by decide +kernel⟩
    · exact absurd hc t4
  · intro e he hc
    simp only [List.mem_cons, List.not_mem_nil, or_false] at he
    rcases he with rfl | rfl | rfl | rfl | rfl
    · exact ⟨10, by decide +kernel⟩
    · exact absurd t1 hc
    · exact ⟨20, by decide +kernel⟩
    · exact absurd t3 hc
    · exact ⟨40, by decide +kernel⟩
  · intro i c hi hc
    match i with
    | 0 => cases hi; exact absurd hc t0
    | 1 => exact ⟨2, rfl, t2⟩
    | 2 => cases hi; exact absurd hc t2
    | 3 => exact ⟨4, rfl, t4⟩
    | 4 => cases hi; exact absurd hc t4
    | i + 5 => simp at hi

/-- A beamline that ends with a cavity. -/
example : handleCavities 90 (runOps (some "b".toList)
    [.addElement 0 "d1".toList "drift".toList [("L".toList, .num (10 : Int))] false,
     .addElement 0 "c1".toList "rfca".toList [("PHASE".toList, .num 30)] false]) = .error .indexError := by
  refine (cavities_converted 90 _ [0, 1] (by decide +kernel) (by decide) ?_ ?_).2.2 ⟨1, rfl, by unfold Cavity; decide +kernel⟩ ?_ ?_
  · intro e he hc
    simp only [List.mem_cons, List.not_mem_nil, or_false] at he
    rcases he with rfl | rfl
    · exact absurd hc (by unfold Cavity; decide +kernel)
    · exact ⟨⟨30, by decide +kernel⟩, by decide +kernel⟩
  · intro e he hc
    simp only [List.mem_cons, List.not_mem_nil, or_false] at he
    rcases he with rfl | rfl
    · exact ⟨10, by decide +kernel⟩
    · exact absurd (by unfold Cavity; decide +kernel) hc
  · intro c hc
    cases hc
    unfold Cavity
    decide +kernel
  · rintro ⟨i, c, d, h1, h2, h3, -⟩
    match i with
    | 0 => cases h1; revert h3; unfold Cavity; decide +kernel
    | i + 1 => simp at h2

end Verif.Trace
