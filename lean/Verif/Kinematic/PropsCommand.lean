import Verif.Kinematic.CommandLine
import Verif.Kinematic.Props
import Mathlib.Data.List.Basic

/-! # Property C137: the command line of the converter -/

namespace Verif.Kinematic

/-! ## What the arguments mean -/

/-- The names of an argument. -/
def namesOf : Opt → List String
  | .help => ["-h", "--help"]
  | .q .momentum => ["-p", "--momentum"]
  | .q .velocity => ["-v", "--velocity"]
  | .q .energy => ["-E", "--energy"]
  | .q .kenergy => ["-KE", "--kenergy"]
  | .q .betagamma => ["-bg", "--betagamma"]
  | .q .brho => ["-r", "--brho"]
  | .q .beta => ["-b", "--beta"]
  | .q .gamma => ["-g", "--gamma"]
  | .mass => ["-m", "--mass"]
  | .massUnit => ["--mass_unit"]
  | .inputUnit => ["--unit"]
  | .outputUnit => ["--output_unit"]

/-- The text `n` is a name of the argument, or the beginning of one name only. -/
def Called (o : Opt) (n : Str) : Prop :=
  n ∈ (namesOf o).map String.toList ∨
    3 ≤ n.length ∧ "--".toList <+: n ∧ ∃ f ∈ (namesOf o).map String.toList, n <+: f ∧ ∀ o', ∀ f' ∈ (namesOf o').map String.toList, n <+: f' → f' = f

/-- A text that is not mistaken for an option: it does not start with a minus sign, or is a negative number without exponent. -/
def Plain (v : Str) : Prop :=
  v.head? ≠ some '-' ∨ ∃ a b : Str, (∀ c ∈ a, c.isDigit = true) ∧ (∀ c ∈ b, c.isDigit = true) ∧
    (v = '-' :: a ∧ a ≠ [] ∨ v = '-' :: a ++ '.' :: b ∧ b ≠ [])

/-- How argument `o` can be given the value `v`: as a second argument, behind an equal sign, or directly behind a name of one letter. -/
inductive Writes : Opt → Str → List Str → Prop
  | apart {o n v} : Called o n → Plain v → Writes o v [n, v]
  | equals {o n v} : Called o n → Writes o v [n ++ '=' :: v]
  | attached {o c v} : ['-', c] ∈ (namesOf o).map String.toList → v ≠ [] → v.head? ≠ some '=' → (c = 'b' → v ≠ ['g'] ∧ ¬ ['g', '='] <+: v) →
      Writes o v ['-' :: c :: v]

/-- The last value given for an argument. -/
def lastOf (ss : List (Opt × Str)) (o : Opt) : Option Str := ((ss.filter fun s => s.1 = o).getLast?).map Prod.snd

/-- Numbers can be read, units are SI or eV, and no two quantities are given. -/
def Sound (parse : Str → Option ℝ) (ss : List (Opt × Str)) : Prop :=
  (∀ s ∈ ss, (s.1 = .mass ∨ ∃ x, s.1 = .q x) → (parse s.2).isSome) ∧
  (∀ s ∈ ss, s.1 ∈ [Opt.massUnit, .inputUnit, .outputUnit] → s.2 = "SI".toList ∨ s.2 = "eV".toList) ∧
  ∀ x y v w, (Opt.q x, v) ∈ ss → (Opt.q y, w) ∈ ss → x = y

/-- The unit given last, or eV. -/
def unitGiven (ss : List (Opt × Str)) (o : Opt) : String := ((lastOf ss o).map String.ofList).getD "eV"

/-- The arguments of the converter: for each the last value given. -/
def given (parse : Str → Option ℝ) (ss : List (Opt × Str)) : Args :=
  { quantity := fun x => (lastOf ss (.q x)).bind parse
    mass := (lastOf ss .mass).bind parse
    massUnit := unitGiven ss .massUnit
    inputUnit := unitGiven ss .inputUnit
    outputUnit := unitGiven ss .outputUnit }

/-! ## Recognizing arguments -/

def allOpts : List Opt :=
  [.help, .q .momentum, .q .velocity, .q .energy, .q .kenergy, .q .betagamma, .q .brho, .q .beta, .q .gamma, .mass, .massUnit, .inputUnit, .outputUnit]

theorem mem_allOpts (o : Opt) : o ∈ allOpts := by
  cases o with
  | q x => cases x <;> decide
  | _ => decide

theorem table_names : ∀ o ∈ allOpts, ∀ f ∈ (namesOf o).map String.toList, (f, o) ∈ optionStrings ∧ '=' ∉ f ∧
    parseOptional f = .ok (.option o none) ∧ f ≠ "--".toList ∧ 2 ≤ f.length ∧ f.head? = some '-' := by decide +kernel

theorem table_back : ∀ x ∈ optionStrings, x.1 ∈ (namesOf x.2).map String.toList := by decide +kernel

theorem table_nodup : (optionStrings.map Prod.fst).Nodup := by decide +kernel

theorem lookup_of_mem {f : Str} {o : Opt} (h : (f, o) ∈ optionStrings) : optionStrings.lookup f = some o := by
  have key : ∀ x ∈ optionStrings, optionStrings.lookup x.1 = some x.2 := by decide +kernel
  exact key (f, o) h

theorem mem_of_lookup {f : Str} {o : Opt} (h : optionStrings.lookup f = some o) : (f, o) ∈ optionStrings := by
  by_contra hn
  have : ∀ l : List (Str × Opt), l.lookup f = some o → (f, o) ∈ l := by
    intro l
    induction l with
    | nil => intro h; cases h
    | cons x l ih =>
      intro h
      rw [List.lookup_cons] at h
      by_cases he : f == x.1
      · rw [he] at h
        simp only [Option.some.injEq] at h
        have : f = x.1 := by simpa using he
        simp [this, ← h]
      · have : (f == x.1) = false := by simpa using he
        rw [this] at h
        exact List.mem_cons_of_mem _ (ih h)
  exact hn (this _ h)

theorem splitEq_append {n v : Str} (hn : '=' ∉ n) : splitEq (n ++ '=' :: v) = some (n, v) := by
  unfold splitEq
  rw [if_pos (by simp)]
  have h1 : ∀ c ∈ n, (decide (c ≠ '=')) = true := fun c hc => by
    have : c ≠ '=' := fun h => hn (h ▸ hc)
    simpa using this
  rw [List.takeWhile_append_of_pos h1, List.dropWhile_append_of_pos h1]
  simp

theorem filterMap_one {β : Type} (l : List (Str × Opt)) (hn : (l.map Prod.fst).Nodup) (P : Str → Bool) (g : Opt → β) {f : Str} {o : Opt}
    (hm : (f, o) ∈ l) (hp : P f = true) (hu : ∀ x ∈ l, P x.1 = true → x.1 = f) :
    l.filterMap (fun x => if P x.1 = true then some (g x.2) else none) = [g o] := by
  induction l with
  | nil => cases hm
  | cons x l ih =>
    rw [List.map_cons, List.nodup_cons] at hn
    rw [List.filterMap_cons]
    rcases List.mem_cons.1 hm with rfl | hm
    · simp only [if_pos hp]
      congr 1
      rw [List.filterMap_eq_nil_iff]
      intro y hy
      have : ¬ P y.1 = true := fun h => hn.1 (by
        have := hu y (by simp [hy]) h
        show f ∈ l.map Prod.fst
        rw [← this]
        exact List.mem_map.2 ⟨y, hy, rfl⟩)
      rw [if_neg this]
    · have : ¬ P x.1 = true := fun h => hn.1 (by
        have := hu x (by simp) h
        rw [this]
        exact List.mem_map_of_mem (f := Prod.fst) hm)
      simp only [if_neg this]
      exact ih hn.2 hm fun y hy => hu y (by simp [hy])

theorem prefix_no_eq {n f : Str} (h : n <+: f) (hf : '=' ∉ f) : '=' ∉ n := fun hn => hf (h.mem hn)

theorem names_noEq {o : Opt} {n : Str} (h : Called o n) : '=' ∉ n := by
  rcases h with h | ⟨_, _, f, hf, hp, _⟩
  · exact (table_names o (mem_allOpts o) n h).2.1
  · exact prefix_no_eq hp (table_names o (mem_allOpts o) f hf).2.1

theorem splitEq_none {n : Str} (h : '=' ∉ n) : splitEq n = none := if_neg h

theorem tuples_abbrev {o : Opt} {n f : Str} (hf : f ∈ (namesOf o).map String.toList) (hp : n <+: f)
    (hu : ∀ o', ∀ f' ∈ (namesOf o').map String.toList, n <+: f' → f' = f) (e : Option Str) :
    optionStrings.filterMap (fun x => if n.isPrefixOf x.1 then some (x.2, e) else none) = [(o, e)] := by
  refine filterMap_one optionStrings table_nodup (fun x => n.isPrefixOf x) (fun o => (o, e)) (f := f) (o := o)
    (table_names o (mem_allOpts o) f hf).1 (List.isPrefixOf_iff_prefix.2 hp) ?_
  intro x hx hxp
  exact hu x.2 x.1 (table_back x hx) (List.isPrefixOf_iff_prefix.1 hxp)

theorem head_dash {n s : Str} (h : "--".toList <+: n) : (n ++ s).head? = some '-' ∧ n ≠ [] := by
  obtain ⟨t, rfl⟩ := h
  exact ⟨rfl, by simp⟩

theorem parse_name {o : Opt} {n : Str} (h : Called o n) : parseOptional n = .ok (.option o none) := by
  have hne := names_noEq h
  rcases h with h | ⟨hl, hd, f, hf, hp, hu⟩
  · exact (table_names o (mem_allOpts o) n h).2.2.1
  · cases hk : optionStrings.lookup n with
    | some o' =>
      have hm := mem_of_lookup hk
      have hb := table_back _ hm
      have : n = f := hu o' n hb (List.prefix_refl _)
      subst this
      exact (table_names o (mem_allOpts o) n hf).2.2.1
    | none =>
      unfold parseOptional
      have h1 : n ≠ "--".toList := by
        intro h; rw [h] at hl; revert hl; decide
      have h2 : n.head? = some '-' := by have := (head_dash (s := []) hd).1; rwa [List.append_nil] at this
      rw [if_neg h1, if_neg (by rw [h2]; simp), hk]
      simp only
      rw [if_neg (by omega), splitEq_none hne]
      simp only [Option.bind]
      have h3 : optionTuples n = [(o, none)] := by
        unfold optionTuples
        rw [if_pos (List.isPrefixOf_iff_prefix.2 hd), splitEq_none hne]
        exact tuples_abbrev hf hp hu none
      rw [h3]

theorem parse_equals {o : Opt} {n v : Str} (h : Called o n) : parseOptional (n ++ '=' :: v) = .ok (.option o (some v)) := by
  have hne := names_noEq h
  have hlk : optionStrings.lookup (n ++ '=' :: v) = none := by
    cases hk : optionStrings.lookup (n ++ '=' :: v) with
    | none => rfl
    | some o' =>
      have hm := mem_of_lookup hk
      have := (table_names o' (mem_allOpts o') _ (table_back _ hm)).2.1
      exact absurd (by simp) this
  have hne2 : n ++ '=' :: v ≠ "--".toList := by
    intro h
    have : '=' ∈ "--".toList := h ▸ (by simp)
    revert this
    decide
  have hbasic : n.head? = some '-' ∧ 2 ≤ n.length := by
    rcases h with h | ⟨hl, hd, _⟩
    · have := (table_names o (mem_allOpts o) n h)
      exact ⟨this.2.2.2.2.2, this.2.2.2.2.1⟩
    · refine ⟨?_, by omega⟩
      have := (head_dash (s := []) hd).1
      rwa [List.append_nil] at this
  have hhead : (n ++ '=' :: v).head? = some '-' := by
    cases n with
    | nil => simp at hbasic
    | cons c n => exact hbasic.1
  unfold parseOptional
  rw [if_neg hne2, if_neg (by rw [hhead]; simp), hlk]
  simp only
  rw [if_neg (by simp; omega), splitEq_append hne]
  simp only [Option.bind]
  cases hk : optionStrings.lookup n with
  | some o' =>
    have hm := mem_of_lookup hk
    have : o' = o := by
      rcases h with h | ⟨_, _, f, hf, hp, hu⟩
      · have := lookup_of_mem (table_names o (mem_allOpts o) n h).1
        rw [hk] at this
        cases this
        rfl
      · have : n = f := hu o' n (table_back _ hm) (List.prefix_refl _)
        subst this
        have := lookup_of_mem (table_names o (mem_allOpts o) n hf).1
        rw [hk] at this
        cases this
        rfl
    rw [this]
    rfl
  | none =>
    simp only [Option.map]
    rcases h with h | ⟨hl, hd, f, hf, hp, hu⟩
    · have := lookup_of_mem (table_names o (mem_allOpts o) n h).1
      rw [hk] at this
      cases this
    · have h3 : optionTuples (n ++ '=' :: v) = [(o, some v)] := by
        unfold optionTuples
        rw [if_pos (List.isPrefixOf_iff_prefix.2 (hd.trans (List.prefix_append _ _))), splitEq_append hne]
        exact tuples_abbrev hf hp hu (some v)
      rw [h3]

theorem parse_attached {o : Opt} {c : Char} {v : Str} (h : ['-', c] ∈ (namesOf o).map String.toList) (hv : v ≠ []) (he : v.head? ≠ some '=')
    (hb : c = 'b' → v ≠ ['g'] ∧ ¬ ['g', '='] <+: v) : parseOptional ('-' :: c :: v) = .ok (.option o (some v)) := by
  obtain ⟨a, w, rfl⟩ := List.exists_cons_of_ne_nil hv
  have hmem := (table_names o (mem_allOpts o) _ h).1
  have hcd : c ≠ '-' := by
    have key : ∀ x ∈ optionStrings, x.1 ≠ "--".toList := by decide +kernel
    intro hc
    subst hc
    exact key _ hmem rfl
  have hce : c ≠ '=' := by
    have := (table_names o (mem_allOpts o) _ h).2.1
    intro hc
    subst hc
    simp at this
  have hae : a ≠ '=' := by simpa using he
  have hc : ∀ x ∈ optionStrings, x.1.take 2 = ['-', c] → x.1 = ['-', c] ∨ x.1 = "-bg".toList := by
    have key : ∀ x ∈ optionStrings, x.1.length = 2 ∨ x.1 = "-bg".toList ∨ (x.1 = "-KE".toList) ∨ x.1.take 2 = "--".toList := by decide +kernel
    intro x hx ht
    rcases key x hx with h1 | h1 | h1 | h1
    · left; rw [← ht, List.take_of_length_le (by omega)]
    · exact .inr h1
    · rw [h1] at ht
      have : c = 'K' := by simpa using ht.symm
      subst this
      have key : ∀ x ∈ optionStrings, x.1 ≠ ['-', 'K'] := by decide +kernel
      exact absurd rfl (key _ hmem)
    · rw [ht] at h1
      exact absurd (by simpa using h1) hcd
  have hno : ∀ x ∈ optionStrings, ¬ ('-' :: c :: a :: w) <+: x.1 := by
    intro x hx hp
    have h1 : x.1.take 2 = ['-', c] := by
      obtain ⟨t, ht⟩ := hp
      rw [← ht]; rfl
    rcases hc x hx h1 with h2 | h2
    · have := hp.length_le; rw [h2] at this; simp at this
    · rw [h2] at hp h1
      have hcb : c = 'b' := by simpa using h1.symm
      have hlen := hp.length_le
      obtain ⟨t, ht⟩ := hp
      have h3 : '-' :: c :: a :: (w ++ t) = ['-', 'b', 'g'] := ht
      simp only [List.cons.injEq, List.append_eq_nil_iff] at h3
      exact (hb hcb).1 (by rw [h3.2.2.1, h3.2.2.2.1])
  have hlk : optionStrings.lookup ('-' :: c :: a :: w) = none := by
    cases hk : optionStrings.lookup ('-' :: c :: a :: w) with
    | none => rfl
    | some o' => exact absurd (List.prefix_refl _) (hno _ (mem_of_lookup hk))
  have hbind : ((splitEq ('-' :: c :: a :: w)).bind fun pe => (optionStrings.lookup pe.1).map fun o => (o, pe.2)) = none := by
    unfold splitEq
    by_cases hm : '=' ∈ '-' :: c :: a :: w
    · rw [if_pos hm]
      simp only [Option.bind]
      have ht : ('-' :: c :: a :: w).takeWhile (fun x => decide (x ≠ '=')) = '-' :: c :: a :: w.takeWhile (fun x => decide (x ≠ '=')) := by
        rw [List.takeWhile_cons_of_pos (by decide), List.takeWhile_cons_of_pos (by simpa using hce), List.takeWhile_cons_of_pos (by simpa using hae)]
      rw [ht]
      cases hk : optionStrings.lookup ('-' :: c :: a :: w.takeWhile (fun x => decide (x ≠ '='))) with
      | none => rfl
      | some o' =>
        have hx := mem_of_lookup hk
        have h1 := hc _ hx rfl
        rcases h1 with h1 | h1
        · cases h1
        · have h3 : '-' :: c :: a :: w.takeWhile (fun x => decide (x ≠ '=')) = ['-', 'b', 'g'] := h1
          simp only [List.cons.injEq, true_and] at h3
          obtain ⟨h4, h5⟩ := hb h3.1
          have hm' : '=' ∈ w := by
            simp only [List.mem_cons] at hm
            rcases hm with hm | hm | hm | hm
            · exact absurd hm (by decide)
            · exact absurd hm.symm hce
            · exact absurd hm.symm hae
            · exact hm
          cases w with
          | nil => cases hm'
          | cons f w =>
            by_cases hf : f = '='
            · exact absurd ⟨w, by rw [h3.2.1, hf]; rfl⟩ h5
            · rw [List.takeWhile_cons_of_pos (by simpa using hf)] at h3
              cases h3.2.2
    · rw [if_neg hm]; rfl
  have htu : optionTuples ('-' :: c :: a :: w) = [(o, some (a :: w))] := by
    unfold optionTuples
    have hnp : ¬ ("--".toList.isPrefixOf ('-' :: c :: a :: w)) = true := by
      rw [List.isPrefixOf_iff_prefix]
      rintro ⟨t, ht⟩
      have h3 : '-' :: '-' :: t = '-' :: c :: a :: w := ht
      simp only [List.cons.injEq] at h3
      exact hcd h3.2.1.symm
    rw [if_neg hnp]
    have : ∀ x ∈ optionStrings, (if x.1 = ('-' :: c :: a :: w).take 2 then some (x.2, some (('-' :: c :: a :: w).drop 2))
        else if ('-' :: c :: a :: w).isPrefixOf x.1 = true then some (x.2, none) else none) =
        if decide (x.1 = ['-', c]) = true then some (x.2, some (a :: w)) else none := by
      intro x hx
      show (if x.1 = ['-', c] then some (x.2, some (a :: w)) else if ('-' :: c :: a :: w).isPrefixOf x.1 = true then some (x.2, none) else none) = _
      by_cases h1 : x.1 = ['-', c]
      · rw [if_pos h1, if_pos (by simpa using h1)]
      · have h2 : ¬ ('-' :: c :: a :: w).isPrefixOf x.1 = true := by
          rw [List.isPrefixOf_iff_prefix]
          exact hno x hx
        rw [if_neg h1, if_neg h2, if_neg (by simpa using h1)]
    rw [List.filterMap_congr this]
    exact filterMap_one optionStrings table_nodup (fun x => decide (x = ['-', c])) (fun o => (o, some (a :: w))) (f := ['-', c]) (o := o) hmem
      (by simp) (fun x _ hp => by simpa using hp)
  unfold parseOptional
  rw [if_neg, if_neg (by simp), hlk]
  · simp only
    rw [if_neg (by simp), hbind]
    simp only [htu]
  · intro h
    have := congrArg List.length h
    simp at this

theorem negNumber_iff {a b : Str} (ha : ∀ c ∈ a, c.isDigit = true) (hb : ∀ c ∈ b, c.isDigit = true) :
    (a ≠ [] → isNegNumber ('-' :: a) = true) ∧ (b ≠ [] → isNegNumber ('-' :: a ++ '.' :: b) = true) := by
  constructor
  · intro h
    unfold isNegNumber
    simp only
    have h2 : a.dropWhile Char.isDigit = [] := by
      have := List.dropWhile_append_of_pos (l₂ := []) ha
      simpa using this
    rw [h2]
    obtain ⟨d, a, rfl⟩ := List.exists_cons_of_ne_nil h
    rw [List.takeWhile_cons_of_pos (ha d (by simp))]
    rfl
  · intro h
    show isNegNumber ('-' :: (a ++ '.' :: b)) = true
    unfold isNegNumber
    simp only
    have h2 : (a ++ '.' :: b).dropWhile Char.isDigit = '.' :: b := by
      rw [List.dropWhile_append_of_pos ha, List.dropWhile_cons_of_neg (by decide)]
    rw [h2]
    have hall : b.all Char.isDigit = true := List.all_eq_true.2 hb
    simp [h, hall]

theorem number_no_option {d : Char} {w : Str} (hd : d.isDigit = true ∨ d = '.') : optionStrings.lookup ('-' :: d :: w) = none ∧
    optionTuples ('-' :: d :: w) = [] ∧ ∀ t : Str, optionStrings.lookup ('-' :: d :: t) = none := by
  have key : ∀ x ∈ optionStrings, ∃ c s, x.1 = '-' :: c :: s ∧ c.isDigit = false ∧ c ≠ '.' := by
    have h : ∀ x ∈ optionStrings, x.1.head? = some '-' ∧ 2 ≤ x.1.length ∧ (x.1.getD 1 ' ').isDigit = false ∧ x.1.getD 1 ' ' ≠ '.' := by decide +kernel
    intro x hx
    obtain ⟨h1, h2, h3, h4⟩ := h x hx
    match hx1 : x.1, h1, h2, h3, h4 with
    | c :: c' :: s, h1, _, h3, h4 =>
      simp only [List.head?_cons, Option.some.injEq] at h1
      subst h1
      exact ⟨c', s, rfl, h3, h4⟩
  have hn : ∀ t : Str, optionStrings.lookup ('-' :: d :: t) = none := by
    intro t
    cases hk : optionStrings.lookup ('-' :: d :: t) with
    | none => rfl
    | some o =>
      obtain ⟨c, s, h1, h2, h3⟩ := key _ (mem_of_lookup hk)
      simp only [List.cons.injEq, true_and] at h1
      rcases hd with hd | hd
      · rw [h1.1, h2] at hd; cases hd
      · exact absurd (h1.1.symm.trans hd) h3
  have hcne : ∀ c, c.isDigit = false → c ≠ '.' → d ≠ c := by
    intro c h2 h3 he
    rcases hd with hd | hd
    · rw [he, h2] at hd; cases hd
    · exact h3 (he ▸ hd)
  refine ⟨hn w, ?_, hn⟩
  unfold optionTuples
  rw [if_neg, List.filterMap_eq_nil_iff]
  · intro x hx
    obtain ⟨c, s, h1, h2, h3⟩ := key x hx
    rw [if_neg, if_neg]
    · rw [List.isPrefixOf_iff_prefix, h1]
      rintro ⟨t, ht⟩
      simp only [List.cons_append, List.cons.injEq, true_and] at ht
      exact hcne c h2 h3 ht.1
    · rw [h1]
      intro he
      simp only [List.take_succ_cons, List.take_zero, List.cons.injEq, true_and] at he
      exact hcne c h2 h3 he.1.symm
  · rw [List.isPrefixOf_iff_prefix]
    rintro ⟨t, ht⟩
    have h3 : '-' :: '-' :: t = '-' :: d :: w := ht
    simp only [List.cons.injEq, true_and] at h3
    rw [← h3.1] at hd
    revert hd
    decide

theorem parse_number {d : Char} {w : Str} (hd : d.isDigit = true ∨ d = '.') :
    parseOptional ('-' :: d :: w) = .ok (if isNegNumber ('-' :: d :: w) || ('-' :: d :: w).contains ' ' then .value ('-' :: d :: w) else .unknown) := by
  obtain ⟨h1, h2, h3⟩ := number_no_option (w := w) hd
  unfold parseOptional
  rw [if_neg, if_neg (by simp), h1]
  · simp only
    rw [if_neg (by simp)]
    have hb : ((splitEq ('-' :: d :: w)).bind fun pe => (optionStrings.lookup pe.1).map fun o => (o, pe.2)) = none := by
      unfold splitEq
      by_cases hm : '=' ∈ '-' :: d :: w
      · rw [if_pos hm]
        simp only [Option.bind]
        rw [List.takeWhile_cons_of_pos (by decide), List.takeWhile_cons_of_pos (by
          rcases hd with hd | hd
          · have : d ≠ '=' := by intro h; rw [h] at hd; revert hd; decide
            simpa using this
          · rw [hd]; decide), h3]
        rfl
      · rw [if_neg hm]; rfl
    rw [hb]
    simp only [h2]
  · intro h
    have h4 : '-' :: d :: w = ['-', '-'] := h
    simp only [List.cons.injEq, true_and] at h4
    rw [h4.1] at hd
    revert hd
    decide

theorem parse_plain {v : Str} (h : Plain v) : parseOptional v = .ok (.value v) := by
  rcases h with h | ⟨a, b, ha, hb, h⟩
  · unfold parseOptional
    rw [if_neg, if_pos h]
    intro hv
    rw [hv] at h
    exact h rfl
  · rcases h with ⟨rfl, hne⟩ | ⟨rfl, hne⟩
    · have hn := (negNumber_iff ha hb).1 hne
      obtain ⟨d, w, rfl⟩ := List.exists_cons_of_ne_nil hne
      rw [parse_number (.inl (ha d (by simp))), hn]
      rfl
    · have hn := (negNumber_iff ha hb).2 hne
      cases a with
      | nil =>
        have hn : isNegNumber ('-' :: '.' :: b) = true := hn
        show parseOptional ('-' :: '.' :: b) = _
        rw [parse_number (.inr rfl), hn]
        rfl
      | cons d a =>
        have hn : isNegNumber ('-' :: d :: (a ++ '.' :: b)) = true := hn
        show parseOptional ('-' :: d :: (a ++ '.' :: b)) = _
        rw [parse_number (.inl (ha d (by simp))), hn]
        rfl

/-! ## Reading a list of settings -/

theorem lastOf_snoc (ss : List (Opt × Str)) (o o' : Opt) (v : Str) : lastOf (ss ++ [(o, v)]) o' = if o = o' then some v else lastOf ss o' := by
  unfold lastOf
  rw [List.filter_append]
  by_cases h : o = o'
  · rw [if_pos h, List.filter_cons_of_pos (by simpa using h)]
    simp
  · rw [if_neg h, List.filter_cons_of_neg (by simpa using h)]
    simp

theorem lastOf_mem {ss : List (Opt × Str)} {o : Opt} {v : Str} (h : lastOf ss o = some v) : (o, v) ∈ ss := by
  unfold lastOf at h
  obtain ⟨⟨o', v'⟩, h1, h2⟩ := Option.map_eq_some_iff.1 h
  have hm := List.mem_of_mem_getLast? (by rw [h1]; rfl)
  simp only [List.mem_filter, decide_eq_true_eq] at hm
  simp only at h2
  obtain ⟨hm, rfl⟩ := hm
  exact h2 ▸ hm

theorem lastOf_isSome {ss : List (Opt × Str)} {o : Opt} {v : Str} (h : (o, v) ∈ ss) : (lastOf ss o).isSome = true := by
  unfold lastOf
  rw [Option.isSome_map, List.getLast?_isSome]
  intro he
  have : (o, v) ∈ ss.filter fun s => s.1 = o := List.mem_filter.2 ⟨h, by simp⟩
  rw [he] at this
  cases this

/-- The namespace after the settings. -/
noncomputable def spaceOf (parse : Str → Option ℝ) (ss : List (Opt × Str)) : Space :=
  { quantity := (given parse ss).quantity, mass := (given parse ss).mass, massUnit := (given parse ss).massUnit,
    inputUnit := (given parse ss).inputUnit, outputUnit := (given parse ss).outputUnit, extra := false }

theorem spaceOf_nil (parse : Str → Option ℝ) : spaceOf parse [] = {} := rfl

theorem quantity_isSome {parse : Str → Option ℝ} {ss : List (Opt × Str)} (hs : Sound parse ss) (x : Quantity) :
    ((spaceOf parse ss).quantity x).isSome = true ↔ ∃ v, (Opt.q x, v) ∈ ss := by
  show ((lastOf ss (.q x)).bind parse).isSome = true ↔ _
  constructor
  · intro h
    cases hl : lastOf ss (.q x) with
    | none => rw [hl] at h; cases h
    | some v => exact ⟨v, lastOf_mem hl⟩
  · rintro ⟨v, hv⟩
    obtain ⟨w, hw⟩ := Option.isSome_iff_exists.1 (lastOf_isSome hv)
    rw [hw]
    exact hs.1 _ (lastOf_mem hw) (.inr ⟨x, rfl⟩)

theorem mem_allQuantities (x : Quantity) : x ∈ allQuantities := by cases x <;> decide

theorem Sound.init {parse : Str → Option ℝ} {ss ts : List (Opt × Str)} (h : Sound parse (ss ++ ts)) : Sound parse ss :=
  ⟨fun s hs => h.1 s (List.mem_append_left _ hs), fun s hs => h.2.1 s (List.mem_append_left _ hs),
    fun x y v w hx hy => h.2.2 x y v w (List.mem_append_left _ hx) (List.mem_append_left _ hy)⟩

theorem unitOf_spec (v : Str) : (v = "SI".toList ∨ v = "eV".toList) ∧ unitOf v = .ok (String.ofList v) ∨
    ¬ (v = "SI".toList ∨ v = "eV".toList) ∧ unitOf v = .error .usage := by
  unfold unitOf
  by_cases h1 : v = "SI".toList
  · exact .inl ⟨.inl h1, by rw [if_pos h1, h1, String.ofList_toList]⟩
  · by_cases h2 : v = "eV".toList
    · exact .inl ⟨.inr h2, by rw [if_neg h1, if_pos h2, h2, String.ofList_toList]⟩
    · exact .inr ⟨by rintro (h | h) <;> contradiction, by rw [if_neg h1, if_neg h2]⟩

theorem spaceOf_snoc (parse : Str → Option ℝ) (ss : List (Opt × Str)) (o : Opt) (v : Str) :
    spaceOf parse (ss ++ [(o, v)]) =
      { quantity := fun x => if o = .q x then parse v else (spaceOf parse ss).quantity x
        mass := if o = .mass then parse v else (spaceOf parse ss).mass
        massUnit := if o = .massUnit then String.ofList v else (spaceOf parse ss).massUnit
        inputUnit := if o = .inputUnit then String.ofList v else (spaceOf parse ss).inputUnit
        outputUnit := if o = .outputUnit then String.ofList v else (spaceOf parse ss).outputUnit
        extra := false } := by
  have hu : ∀ o', unitGiven (ss ++ [(o, v)]) o' = if o = o' then String.ofList v else unitGiven ss o' := by
    intro o'
    unfold unitGiven
    rw [lastOf_snoc]
    by_cases h : o = o'
    · rw [if_pos h, if_pos h]; rfl
    · rw [if_neg h, if_neg h]
  have hp : ∀ o', (lastOf (ss ++ [(o, v)]) o').bind parse = if o = o' then parse v else (lastOf ss o').bind parse := by
    intro o'
    rw [lastOf_snoc]
    by_cases h : o = o'
    · rw [if_pos h, if_pos h]; rfl
    · rw [if_neg h, if_neg h]
  unfold spaceOf given
  simp only [hu, hp]

theorem store_spec {parse : Str → Option ℝ} {ss : List (Opt × Str)} (hs : Sound parse ss) {o : Opt} (ho : o ≠ .help) (v : Str) :
    Sound parse (ss ++ [(o, v)]) ∧ store parse (spaceOf parse ss) o v = .ok (spaceOf parse (ss ++ [(o, v)])) ∨
    ¬ Sound parse (ss ++ [(o, v)]) ∧ store parse (spaceOf parse ss) o v = .error .usage := by
  have hmem : (o, v) ∈ ss ++ [(o, v)] := by simp
  rw [spaceOf_snoc]
  have hunit : ∀ o' ∈ [Opt.massUnit, .inputUnit, .outputUnit], o = o' → (v = "SI".toList ∨ v = "eV".toList) → Sound parse (ss ++ [(o, v)]) := by
    rintro o' ho' rfl hv
    have hq : ∀ x, o ≠ .q x := by
      rintro x rfl; simp at ho'
    have hm : o ≠ .mass := by
      rintro rfl; simp at ho'
    refine ⟨?_, ?_, ?_⟩
    · intro s hs' h
      rcases List.mem_append.1 hs' with h' | h'
      · exact hs.1 s h' h
      · rw [List.mem_singleton.1 h'] at h
        rcases h with h | ⟨x, h⟩
        · exact absurd h hm
        · exact absurd h (hq x)
    · intro s hs' h
      rcases List.mem_append.1 hs' with h' | h'
      · exact hs.2.1 s h' h
      · rw [List.mem_singleton.1 h']; exact hv
    · intro x y a b hx hy
      rcases List.mem_append.1 hx with hx | hx
      · rcases List.mem_append.1 hy with hy | hy
        · exact hs.2.2 x y a b hx hy
        · simp only [List.mem_singleton, Prod.mk.injEq] at hy
          exact absurd hy.1.symm (hq y)
      · simp only [List.mem_singleton, Prod.mk.injEq] at hx
        exact absurd hx.1.symm (hq x)
  cases o with
  | help => exact absurd rfl ho
  | q x =>
    unfold store
    cases hp : parse v with
    | none =>
      refine .inr ⟨fun h => ?_, rfl⟩
      have := h.1 _ hmem (.inr ⟨x, rfl⟩)
      rw [hp] at this
      cases this
    | some r =>
      simp only
      by_cases hany : allQuantities.any (fun y => y ≠ x && ((spaceOf parse ss).quantity y).isSome) = true
      · refine .inr ⟨fun h => ?_, if_pos hany⟩
        obtain ⟨y, _, hy⟩ := List.any_eq_true.1 hany
        simp only [Bool.and_eq_true, decide_eq_true_eq] at hy
        obtain ⟨w, hw⟩ := (quantity_isSome hs y).1 hy.2
        exact hy.1 (h.2.2 y x w v (List.mem_append_left _ hw) hmem)
      · refine .inl ⟨⟨?_, ?_, ?_⟩, ?_⟩
        · intro s hs' h
          rcases List.mem_append.1 hs' with h' | h'
          · exact hs.1 s h' h
          · rw [List.mem_singleton.1 h', hp]; rfl
        · intro s hs' h
          rcases List.mem_append.1 hs' with h' | h'
          · exact hs.2.1 s h' h
          · rw [List.mem_singleton.1 h'] at h
            simp at h
        · have hx : ∀ y a, (Opt.q y, a) ∈ ss ++ [(.q x, v)] → y = x := by
            intro y a hy
            rcases List.mem_append.1 hy with hy | hy
            · by_contra hne
              refine hany (List.any_eq_true.2 ⟨y, mem_allQuantities y, ?_⟩)
              simp only [Bool.and_eq_true, decide_eq_true_eq]
              exact ⟨hne, (quantity_isSome hs y).2 ⟨a, hy⟩⟩
            · simp only [List.mem_singleton, Prod.mk.injEq, Opt.q.injEq] at hy
              exact hy.1
          intro y z a b hy hz
          rw [hx y a hy, hx z b hz]
        · rw [if_neg hany]
          congr 1
          have : (fun y => if y = x then some r else (spaceOf parse ss).quantity y) =
              fun y => if Opt.q x = Opt.q y then some r else (spaceOf parse ss).quantity y := by
            funext y
            by_cases h : y = x
            · rw [if_pos h, if_pos (by rw [h])]
            · rw [if_neg h, if_neg (by simpa using fun h' => h h'.symm)]
          rw [this]
          simp [spaceOf]
  | mass =>
    unfold store
    cases hp : parse v with
    | none =>
      refine .inr ⟨fun h => ?_, rfl⟩
      have := h.1 _ hmem (.inl rfl)
      rw [hp] at this
      cases this
    | some r =>
      refine .inl ⟨⟨?_, ?_, ?_⟩, ?_⟩
      · intro s hs' h
        rcases List.mem_append.1 hs' with h' | h'
        · exact hs.1 s h' h
        · rw [List.mem_singleton.1 h', hp]; rfl
      · intro s hs' h
        rcases List.mem_append.1 hs' with h' | h'
        · exact hs.2.1 s h' h
        · rw [List.mem_singleton.1 h'] at h
          simp at h
      · intro x y a b hx hy
        refine hs.2.2 x y a b ?_ ?_
        · simpa using hx
        · simpa using hy
      · simp [spaceOf]
  | massUnit =>
    unfold store
    rcases unitOf_spec v with ⟨h1, h2⟩ | ⟨h1, h2⟩
    · exact .inl ⟨hunit .massUnit (by simp) rfl h1, by rw [h2]; simp [spaceOf, Except.map]⟩
    · exact .inr ⟨fun h => h1 (h.2.1 _ hmem (by simp)), by rw [h2]; rfl⟩
  | inputUnit =>
    unfold store
    rcases unitOf_spec v with ⟨h1, h2⟩ | ⟨h1, h2⟩
    · exact .inl ⟨hunit .inputUnit (by simp) rfl h1, by rw [h2]; simp [spaceOf, Except.map]⟩
    · exact .inr ⟨fun h => h1 (h.2.1 _ hmem (by simp)), by rw [h2]; rfl⟩
  | outputUnit =>
    unfold store
    rcases unitOf_spec v with ⟨h1, h2⟩ | ⟨h1, h2⟩
    · exact .inl ⟨hunit .outputUnit (by simp) rfl h1, by rw [h2]; simp [spaceOf, Except.map]⟩
    · exact .inr ⟨fun h => h1 (h.2.1 _ hmem (by simp)), by rw [h2]; rfl⟩

theorem writes_toks {o : Opt} {v : Str} {t : List Str} (h : Writes o v t) :
    ∃ ts, t.mapM parseOptional = .ok ts ∧ (ts = [.option o none, .value v] ∨ ts = [.option o (some v)]) := by
  cases h with
  | apart hn hv => exact ⟨_, by rw [List.mapM_cons, parse_name hn, List.mapM_cons, parse_plain hv]; rfl, .inl rfl⟩
  | equals hn => exact ⟨_, by rw [List.mapM_cons, parse_equals hn]; rfl, .inr rfl⟩
  | attached hm hv he hb => exact ⟨_, by rw [List.mapM_cons, parse_attached hm hv he hb]; rfl, .inr rfl⟩

theorem consume_step (parse : Str → Option ℝ) {o : Opt} (ho : o ≠ .help) {v : Str} {ts : List Tok}
    (h : ts = [.option o none, .value v] ∨ ts = [.option o (some v)]) (us : List Tok) (n : Space) :
    consume parse (ts ++ us) n = match store parse n o v with
      | .error x => .error x
      | .ok n' => consume parse us n' := by
  rcases h with rfl | rfl
  · cases o with
    | help => exact absurd rfl ho
    | _ => rfl
  · cases o with
    | help => exact absurd rfl ho
    | _ => rfl

theorem consume_settings (parse : Str → Option ℝ) {ss : List (Opt × Str)} {tt : List (List Str)}
    (hw : List.Forall₂ (fun s t => s.1 ≠ .help ∧ Writes s.1 s.2 t) ss tt) :
    ∃ ts, tt.flatten.mapM parseOptional = .ok ts ∧ ∀ pre, Sound parse pre →
      (Sound parse (pre ++ ss) ∧ consume parse ts (spaceOf parse pre) = .ok (spaceOf parse (pre ++ ss)) ∨
        ¬ Sound parse (pre ++ ss) ∧ consume parse ts (spaceOf parse pre) = .error .usage) := by
  induction hw with
  | nil => exact ⟨[], rfl, fun pre hp => .inl ⟨by simpa using hp, by rw [List.append_nil]; rfl⟩⟩
  | @cons s t ss tt h hw ih =>
    obtain ⟨us, hu, ih⟩ := ih
    obtain ⟨ts, ht, hts⟩ := writes_toks h.2
    refine ⟨ts ++ us, ?_, ?_⟩
    · rw [List.flatten_cons, List.mapM_append, ht, hu]; rfl
    · intro pre hp
      rw [consume_step parse h.1 hts]
      have happ : pre ++ s :: ss = (pre ++ [s]) ++ ss := by simp
      rw [happ]
      rcases store_spec hp h.1 s.2 with ⟨h1, h2⟩ | ⟨h1, h2⟩
      · rw [h2]
        exact ih _ h1
      · rw [h2]
        exact .inr ⟨fun h => h1 h.init, rfl⟩

/-- **C137.** A command line of settings is accepted exactly if numbers can be read, units are SI or eV, and one quantity is given; the
converter then gets for each argument the last value given. Otherwise the program stops with a usage message. -/
theorem command_line (parse : Str → Option ℝ) {ss : List (Opt × Str)} {tt : List (List Str)}
    (hw : List.Forall₂ (fun s t => s.1 ≠ .help ∧ Writes s.1 s.2 t) ss tt) :
    (Sound parse ss ∧ (∃ x v, (Opt.q x, v) ∈ ss) → parseArgs parse tt.flatten = .ok (given parse ss)) ∧
    (¬ (Sound parse ss ∧ ∃ x v, (Opt.q x, v) ∈ ss) → parseArgs parse tt.flatten = .error .usage) := by
  obtain ⟨ts, ht, h⟩ := consume_settings parse hw
  have h0 : Sound parse [] := ⟨by simp, by simp, by simp⟩
  have h := h [] h0
  rw [List.nil_append, spaceOf_nil] at h
  unfold parseArgs
  rw [ht]
  simp only
  rcases h with ⟨hs, hc⟩ | ⟨hs, hc⟩
  · rw [hc]
    simp only
    have hex : (∃ x v, (Opt.q x, v) ∈ ss) ↔ (allQuantities.any fun x => ((spaceOf parse ss).quantity x).isSome) = true := by
      rw [List.any_eq_true]
      constructor
      · rintro ⟨x, v, hv⟩
        exact ⟨x, mem_allQuantities x, (quantity_isSome hs x).2 ⟨v, hv⟩⟩
      · rintro ⟨x, _, hx⟩
        exact ⟨x, (quantity_isSome hs x).1 hx⟩
    constructor
    · rintro ⟨_, he⟩
      rw [hex.1 he]
      rfl
    · intro hn
      have : (allQuantities.any fun x => ((spaceOf parse ss).quantity x).isSome) = false := by
        rw [Bool.eq_false_iff]
        exact fun h => hn ⟨hs, hex.2 h⟩
      rw [this]
      rfl
  · rw [hc]
    exact ⟨fun h => absurd h.1 hs, fun _ => rfl⟩

/-! ## Every command line -/

/-- The namespace never holds two quantities or other units. -/
def Space.Fine (n : Space) : Prop :=
  (∀ x y, (n.quantity x).isSome = true → (n.quantity y).isSome = true → x = y) ∧
  (n.massUnit = "eV" ∨ n.massUnit = "SI") ∧ (n.inputUnit = "eV" ∨ n.inputUnit = "SI") ∧ (n.outputUnit = "eV" ∨ n.outputUnit = "SI")

theorem unitOf_ok {s : Str} {u : String} (h : unitOf s = .ok u) : u = "eV" ∨ u = "SI" := by
  unfold unitOf at h
  by_cases h1 : s = "SI".toList
  · rw [if_pos h1] at h; cases h; exact .inr rfl
  · rw [if_neg h1] at h
    by_cases h2 : s = "eV".toList
    · rw [if_pos h2] at h; cases h; exact .inl rfl
    · rw [if_neg h2] at h; cases h

theorem store_fine {parse : Str → Option ℝ} {n n' : Space} {o : Opt} {s : Str} (h : store parse n o s = .ok n') :
    n'.extra = n.extra ∧ (n.Fine → n'.Fine) := by
  cases o with
  | help => cases h
  | q x =>
    simp only [store] at h
    cases hp : parse s with
    | none => rw [hp] at h; cases h
    | some v =>
      rw [hp] at h
      simp only at h
      by_cases hany : allQuantities.any (fun y => y ≠ x && (n.quantity y).isSome) = true
      · rw [if_pos hany] at h; cases h
      · rw [if_neg hany] at h
        cases h
        refine ⟨rfl, fun hf => ⟨?_, hf.2⟩⟩
        have key : ∀ y, ((if y = x then some v else n.quantity y) : Option ℝ).isSome = true → y = x := by
          intro y hy
          by_contra hne
          rw [if_neg hne] at hy
          exact hany (List.any_eq_true.2 ⟨y, mem_allQuantities y, by
            simp only [Bool.and_eq_true, decide_eq_true_eq]; exact ⟨hne, hy⟩⟩)
        intro a b ha hb
        rw [key a ha, key b hb]
  | mass =>
    simp only [store] at h
    cases hp : parse s with
    | none => rw [hp] at h; cases h
    | some v => rw [hp] at h; cases h; exact ⟨rfl, fun hf => hf⟩
  | massUnit =>
    simp only [store] at h
    cases hu : unitOf s with
    | error e => rw [hu] at h; cases h
    | ok u => rw [hu] at h; cases h; exact ⟨rfl, fun hf => ⟨hf.1, unitOf_ok hu, hf.2.2⟩⟩
  | inputUnit =>
    simp only [store] at h
    cases hu : unitOf s with
    | error e => rw [hu] at h; cases h
    | ok u => rw [hu] at h; cases h; exact ⟨rfl, fun hf => ⟨hf.1, hf.2.1, unitOf_ok hu, hf.2.2.2⟩⟩
  | outputUnit =>
    simp only [store] at h
    cases hu : unitOf s with
    | error e => rw [hu] at h; cases h
    | ok u => rw [hu] at h; cases h; exact ⟨rfl, fun hf => ⟨hf.1, hf.2.1, hf.2.2.1, unitOf_ok hu⟩⟩

theorem consume_fine (parse : Str → Option ℝ) (ts : List Tok) (n n' : Space) (h : consume parse ts n = .ok n') :
    (n.Fine → n'.Fine) ∧ (n.extra = true ∨ Tok.unknown ∈ ts → n'.extra = true) := by
  fun_induction consume parse ts n with
  | case1 n => cases h; exact ⟨id, fun h => h.elim id (fun h => by cases h)⟩
  | case2 n s ts ih =>
    obtain ⟨h1, h2⟩ := ih h
    exact ⟨fun hf => h1 hf, fun _ => h2 (.inl rfl)⟩
  | case3 n ts ih =>
    obtain ⟨h1, h2⟩ := ih h
    exact ⟨fun hf => h1 hf, fun _ => h2 (.inl rfl)⟩
  | case4 => cases h
  | case5 => cases h
  | case6 n o e ts n' hs ih =>
    obtain ⟨h1, h2⟩ := ih h
    obtain ⟨h3, h4⟩ := store_fine hs
    refine ⟨fun hf => h1 (h4 hf), fun hx => h2 ?_⟩
    rcases hx with hx | hx
    · exact .inl (h3.trans hx)
    · exact .inr (by simpa using hx)
  | case7 => cases h
  | case8 n o s ts _ n' hs ih =>
    obtain ⟨h1, h2⟩ := ih h
    obtain ⟨h3, h4⟩ := store_fine hs
    refine ⟨fun hf => h1 (h4 hf), fun hx => h2 ?_⟩
    rcases hx with hx | hx
    · exact .inl (h3.trans hx)
    · exact .inr (by simpa using hx)
  | case9 => cases h

theorem init_initParsed {k : Consts} {a : Args} {cv : Converter} (h : init k a = .ok cv) : cv = initParsed k a := by
  unfold init at h
  by_cases h1 : ¬ ((a.massUnit = "eV" ∨ a.massUnit = "SI") ∧ (a.inputUnit = "eV" ∨ a.inputUnit = "SI")
      ∧ (a.outputUnit = "eV" ∨ a.outputUnit = "SI"))
  · rw [if_pos h1] at h; cases h
  · rw [if_neg h1] at h
    by_cases h2 : declaration a ≠ 1
    · rw [if_pos h2] at h; cases h
    · rw [if_neg h2] at h
      cases h
      rfl

/-- **C137.** Whatever the arguments are: if the parser accepts them, the constructor would accept the same values as keywords, and the
program prints what it would return then. -/
theorem command_same (k : Consts) (parse : Str → Option ℝ) (argv : List Str) {a : Args} (h : parseArgs parse argv = .ok a) :
    ∃ out, run k a = .ok out ∧ main k parse argv = .ok out := by
  have hm : main k parse argv = .ok (call k (initParsed k a)).outputs := by unfold main; rw [h]
  refine ⟨_, ?_, hm⟩
  unfold parseArgs at h
  cases ht : argv.mapM parseOptional with
  | error e => rw [ht] at h; cases h
  | ok ts =>
    rw [ht] at h
    simp only at h
    cases hc : consume parse ts {} with
    | error e => rw [hc] at h; cases h
    | ok n =>
      rw [hc] at h
      simp only at h
      obtain ⟨hf, _⟩ := consume_fine parse ts _ _ hc
      have hf := hf ⟨fun x y hx => (by cases hx), .inl rfl, .inl rfl, .inl rfl⟩
      by_cases hx : (!(allQuantities.any fun x => (n.quantity x).isSome) || n.extra) = true
      · rw [if_pos hx] at h; cases h
      · rw [if_neg hx] at h
        cases h
        have hany : (allQuantities.any fun x => (n.quantity x).isSome) = true := by
          by_contra hn
          rw [Bool.not_eq_true] at hn
          rw [hn] at hx
          exact hx rfl
        obtain ⟨x, _, hq⟩ := List.any_eq_true.1 hany
        obtain ⟨cv, hcv⟩ := (init_ok_iff k ⟨n.quantity, n.mass, n.massUnit, n.inputUnit, n.outputUnit⟩).1.2 ⟨by
          intro u hu
          simp only [List.mem_cons, List.not_mem_nil, or_false] at hu
          rcases hu with rfl | rfl | rfl
          · exact hf.2.1
          · exact hf.2.2.1
          · exact hf.2.2.2, x, by
            refine ⟨fun h => ?_, fun y hy => hf.1 y x ?_ hq⟩
            · have h : n.quantity x = none := h
              rw [h] at hq
              cases hq
            · cases hy' : n.quantity y with
              | none => exact absurd hy' hy
              | some _ => rfl⟩
        unfold run
        rw [hcv]
        show Except.ok (call k cv).outputs = _
        rw [init_initParsed hcv]

/-- **C137.** A number with a minus sign and an exponent is taken for an unknown option: such an argument is never accepted. -/
theorem command_negative_fails (parse : Str → Option ℝ) (argv : List Str) {d c : Char} {w : Str} (hm : ('-' :: d :: w) ∈ argv)
    (hd : d.isDigit = true ∨ d = '.') (hc : c ∈ w) (hc' : c.isDigit = false ∧ c ≠ '.') (hb : ' ' ∉ w) (a : Args) :
    parseArgs parse argv ≠ .ok a := by
  intro h
  have hneg : isNegNumber ('-' :: d :: w) = false := by
    rw [Bool.eq_false_iff]
    intro hn
    have hdig : ∀ s : Str, isNegNumber ('-' :: s) = true → ∀ c ∈ s, c.isDigit = true ∨ c = '.' := by
      intro s hs e he
      unfold isNegNumber at hs
      simp only at hs
      rw [← List.takeWhile_append_dropWhile (p := Char.isDigit) (l := s)] at he
      rcases List.mem_append.1 he with he | he
      · exact .inl (List.all_eq_true.1 List.all_takeWhile e he)
      · cases hr : s.dropWhile Char.isDigit with
        | nil => rw [hr] at he; cases he
        | cons f r =>
          rw [hr] at hs he
          simp only [List.isEmpty_cons, Bool.and_false, Bool.false_or, List.head?_cons, List.tail_cons, Bool.and_eq_true, beq_iff_eq,
            Option.some.injEq] at hs
          rcases List.mem_cons.1 he with he | he
          · exact .inr (he.trans hs.1.1)
          · exact .inl (List.all_eq_true.1 hs.2 e he)
    rcases hdig _ hn c (List.mem_cons_of_mem _ hc) with h1 | h1
    · rw [hc'.1] at h1; cases h1
    · exact hc'.2 h1
  have hsp : ('-' :: d :: w).contains ' ' = false := by
    rw [Bool.eq_false_iff]
    intro hcn
    have : ' ' ∈ '-' :: d :: w := by simpa using hcn
    rcases List.mem_cons.1 this with h1 | h1
    · revert h1; decide
    · rcases List.mem_cons.1 h1 with h1 | h1
      · rw [← h1] at hd; revert hd; decide
      · exact hb h1
  have htok : parseOptional ('-' :: d :: w) = .ok .unknown := by
    rw [parse_number hd, hneg, hsp]
    rfl
  unfold parseArgs at h
  cases ht : argv.mapM parseOptional with
  | error e => rw [ht] at h; cases h
  | ok ts =>
    rw [ht] at h
    simp only at h
    have hts : Tok.unknown ∈ ts := by
      clear h
      induction argv generalizing ts with
      | nil => cases hm
      | cons s argv ih =>
        rw [List.mapM_cons] at ht
        cases hs : parseOptional s with
        | error e => rw [hs] at ht; cases ht
        | ok t =>
          cases hr : argv.mapM parseOptional with
          | error e => rw [hs, hr] at ht; cases ht
          | ok us =>
            rw [hs, hr] at ht
            cases ht
            rcases List.mem_cons.1 hm with hm | hm
            · rw [← hm, htok] at hs
              cases hs
              exact List.mem_cons_self
            · exact List.mem_cons_of_mem _ (ih hm us hr)
    cases hcn : consume parse ts {} with
    | error e => rw [hcn] at h; cases h
    | ok n =>
      rw [hcn] at h
      simp only at h
      rw [(consume_fine parse ts _ _ hcn).2 (.inr hts), if_pos (by simp)] at h
      cases h

theorem consume_parsed (parse : Str → Option ℝ) (ts : List Tok) (n n' : Space) (h : consume parse ts n = .ok n') {x : Quantity} {e : Str}
    (hx : Tok.option (.q x) (some e) ∈ ts) : (parse e).isSome = true := by
  fun_induction consume parse ts n with
  | case1 n => cases hx
  | case2 n s ts ih => exact ih h (by simpa using hx)
  | case3 n ts ih => exact ih h (by simpa using hx)
  | case4 => cases h
  | case5 => cases h
  | case6 n o f ts n' hs ih =>
    rcases List.mem_cons.1 hx with hx | hx
    · cases hx
      simp only [store] at hs
      cases hp : parse e with
      | none => rw [hp] at hs; cases hs
      | some v => rfl
    · exact ih h hx
  | case7 => cases h
  | case8 n o s ts _ n' hs ih => exact ih h (by simpa using hx)
  | case9 => cases h

theorem parseArgs_tokens {parse : Str → Option ℝ} {argv : List Str} {a : Args} (h : parseArgs parse argv = .ok a) :
    ∃ ts n, consume parse ts {} = .ok n ∧ n.extra = false ∧ ∀ s ∈ argv, ∃ t ∈ ts, parseOptional s = .ok t := by
  unfold parseArgs at h
  cases ht : argv.mapM parseOptional with
  | error e => rw [ht] at h; cases h
  | ok ts =>
    rw [ht] at h
    simp only at h
    cases hcn : consume parse ts {} with
    | error e => rw [hcn] at h; cases h
    | ok n =>
      rw [hcn] at h
      simp only at h
      refine ⟨ts, n, hcn, ?_, ?_⟩
      · by_contra hx
        have : n.extra = true := by simpa using hx
        rw [this, if_pos (by simp)] at h
        cases h
      · clear h hcn
        induction argv generalizing ts with
        | nil => intro s hs; cases hs
        | cons s argv ih =>
          rw [List.mapM_cons] at ht
          cases hs : parseOptional s with
          | error e => rw [hs] at ht; cases ht
          | ok t =>
            cases hr : argv.mapM parseOptional with
            | error e => rw [hs, hr] at ht; cases ht
            | ok us =>
              rw [hs, hr] at ht
              cases ht
              intro s' hs'
              rcases List.mem_cons.1 hs' with rfl | hs'
              · exact ⟨t, List.mem_cons_self, hs⟩
              · obtain ⟨t', h1, h2⟩ := ih us hr s' hs'
                exact ⟨t', List.mem_cons_of_mem _ h1, h2⟩

theorem kenergy_unknown {v : Str} (hv : v ≠ []) (he : v.head? ≠ some '=') (hb : ' ' ∉ v) : parseOptional ("-KE".toList ++ v) = .ok .unknown := by
  obtain ⟨a, w, rfl⟩ := List.exists_cons_of_ne_nil hv
  have hae : a ≠ '=' := by simpa using he
  show parseOptional ('-' :: 'K' :: 'E' :: a :: w) = _
  have key : ∀ x ∈ optionStrings, x.1.take 2 = ['-', 'K'] → x.1 = ['-', 'K', 'E'] := by decide +kernel
  have hl : ∀ t : Str, optionStrings.lookup ('-' :: 'K' :: 'E' :: a :: t) = none := by
    intro t
    cases hk : optionStrings.lookup ('-' :: 'K' :: 'E' :: a :: t) with
    | none => rfl
    | some o => exact absurd (key _ (mem_of_lookup hk) rfl) (by simp)
  have htu : optionTuples ('-' :: 'K' :: 'E' :: a :: w) = [] := by
    unfold optionTuples
    rw [if_neg, List.filterMap_eq_nil_iff]
    · intro x hx
      have h1 : x.1 ≠ ('-' :: 'K' :: 'E' :: a :: w).take 2 := by
        have key : ∀ x ∈ optionStrings, x.1 ≠ ['-', 'K'] := by decide +kernel
        exact key x hx
      rw [if_neg h1, if_neg]
      rw [List.isPrefixOf_iff_prefix]
      intro hp
      have h2 : x.1.take 2 = ['-', 'K'] := by
        obtain ⟨t, ht⟩ := hp
        rw [← ht]; rfl
      have h3 := hp.length_le
      rw [key x hx h2] at h3
      simp at h3
      omega
    · rw [List.isPrefixOf_iff_prefix]
      rintro ⟨t, ht⟩
      have h3 : '-' :: '-' :: t = '-' :: 'K' :: 'E' :: a :: w := ht
      simp at h3
  unfold parseOptional
  rw [if_neg, if_neg (by simp), hl]
  · simp only
    rw [if_neg (by simp)]
    have hbind : ((splitEq ('-' :: 'K' :: 'E' :: a :: w)).bind fun pe => (optionStrings.lookup pe.1).map fun o => (o, pe.2)) = none := by
      unfold splitEq
      by_cases hm : '=' ∈ '-' :: 'K' :: 'E' :: a :: w
      · rw [if_pos hm]
        simp only [Option.bind]
        rw [List.takeWhile_cons_of_pos (by decide), List.takeWhile_cons_of_pos (by decide), List.takeWhile_cons_of_pos (by decide),
          List.takeWhile_cons_of_pos (by simpa using hae), hl]
        rfl
      · rw [if_neg hm]; rfl
    rw [hbind]
    simp only [htu]
    have h1 : isNegNumber ('-' :: 'K' :: 'E' :: a :: w) = false := by
      unfold isNegNumber
      simp only
      rw [List.takeWhile_cons_of_neg (by decide), List.dropWhile_cons_of_neg (by decide)]
      rfl
    have h2 : ('-' :: 'K' :: 'E' :: a :: w).contains ' ' = false := by
      rw [Bool.eq_false_iff]
      intro hcn
      have : ' ' ∈ '-' :: 'K' :: 'E' :: a :: w := by simpa using hcn
      simp only [List.mem_cons] at this
      rcases this with h | h | h | h
      · revert h; decide
      · revert h; decide
      · revert h; decide
      · exact hb (by simpa using h)
    rw [h1, h2]
    rfl
  · intro h
    have := congrArg List.length h
    simp at this

/-- **C137.** Values cannot be attached to the two names of two letters: `-bg5` is taken for a value `g5` of beta and `-KE5` for an unknown
option. Such command lines are never accepted. -/
theorem command_attached_fails (parse : Str → Option ℝ) (hg : ∀ s, parse ('g' :: s) = none) (argv : List Str) {v : Str} (hv : v ≠ [])
    (he : v.head? ≠ some '=') (hb : ' ' ∉ v) (hm : ("-bg".toList ++ v) ∈ argv ∨ ("-KE".toList ++ v) ∈ argv) (a : Args) :
    parseArgs parse argv ≠ .ok a := by
  intro h
  obtain ⟨ts, n, h1, h2, h3⟩ := parseArgs_tokens h
  rcases hm with hm | hm
  · obtain ⟨t, ht, h4⟩ := h3 _ hm
    have h5 : parseOptional ('-' :: 'b' :: ('g' :: v)) = .ok (.option (.q .beta) (some ('g' :: v))) :=
      parse_attached (o := .q .beta) (by decide +kernel) (by simp) (by simp) (fun _ => by
        refine ⟨by simpa using hv, ?_⟩
        rintro ⟨u, hu⟩
        have : v = '=' :: u := by simpa using hu.symm
        rw [this] at he
        exact he rfl)
    have h6 : parseOptional ('-' :: 'b' :: ('g' :: v)) = .ok t := h4
    rw [h5] at h6
    cases h6
    have := consume_parsed parse ts _ _ h1 ht
    rw [hg] at this
    cases this
  · obtain ⟨t, ht, h4⟩ := h3 _ hm
    rw [kenergy_unknown hv he hb] at h4
    cases h4
    have := (consume_fine parse ts _ _ h1).2 (.inr ht)
    rw [h2] at this
    cases this

/-! ## Examples -/

/-- A parser of numbers that knows three texts. -/
noncomputable def exParse (s : Str) : Option ℝ :=
  if s = "5".toList then some 5 else if s = "-5.5".toList then some (-5.5) else if s = "1e6".toList then some 1000000 else none

/-- `kinematic --ken=5 -m1e6 -KE 1e6 --uni SI`. -/
noncomputable def exSettings : List (Opt × Str) :=
  [(.q .kenergy, "5".toList), (.mass, "1e6".toList), (.q .kenergy, "1e6".toList), (.inputUnit, "SI".toList)]

theorem exSettings_written : List.Forall₂ (fun s t => s.1 ≠ .help ∧ Writes s.1 s.2 t) exSettings
    [["--ken=5".toList], ["-m1e6".toList], ["-KE".toList, "1e6".toList], ["--uni".toList, "SI".toList]] := by
  have hk : Called (.q .kenergy) "--ken".toList := by
    refine .inr ⟨by decide +kernel, by decide +kernel, "--kenergy".toList, by decide +kernel, by decide +kernel, ?_⟩
    have key : ∀ o ∈ allOpts, ∀ f ∈ (namesOf o).map String.toList, "--ken".toList <+: f → f = "--kenergy".toList := by decide +kernel
    exact fun o => key o (mem_allOpts o)
  have hu : Called .inputUnit "--uni".toList := by
    refine .inr ⟨by decide +kernel, by decide +kernel, "--unit".toList, by decide +kernel, by decide +kernel, ?_⟩
    have key : ∀ o ∈ allOpts, ∀ f ∈ (namesOf o).map String.toList, "--uni".toList <+: f → f = "--unit".toList := by decide +kernel
    exact fun o => key o (mem_allOpts o)
  refine .cons ⟨by decide, ?_⟩ (.cons ⟨by decide, ?_⟩ (.cons ⟨by decide, ?_⟩ (.cons ⟨by decide, ?_⟩ .nil)))
  · exact Writes.equals (v := "5".toList) hk
  · exact Writes.attached (c := 'm') (v := "1e6".toList) (by decide +kernel) (by decide +kernel) (by decide +kernel) (by decide)
  · exact Writes.apart (.inl (by decide +kernel)) (.inl (by decide +kernel))
  · exact Writes.apart hu (.inl (by decide +kernel))

theorem exSettings_sound : Sound exParse exSettings ∧ ∃ x v, (Opt.q x, v) ∈ exSettings := by
  refine ⟨⟨?_, ?_, ?_⟩, .kenergy, "5".toList, by simp [exSettings]⟩
  · intro s hs h
    simp only [exSettings, List.mem_cons, List.not_mem_nil, or_false] at hs
    rcases hs with rfl | rfl | rfl | rfl
    · simp [exParse]
    · show (exParse "1e6".toList).isSome = true
      unfold exParse
      rw [if_neg (by decide +kernel), if_neg (by decide +kernel), if_pos rfl]
      rfl
    · show (exParse "1e6".toList).isSome = true
      unfold exParse
      rw [if_neg (by decide +kernel), if_neg (by decide +kernel), if_pos rfl]
      rfl
    · rcases h with h | ⟨x, h⟩ <;> cases h
  · intro s hs h
    simp only [exSettings, List.mem_cons, List.not_mem_nil, or_false] at hs
    rcases hs with rfl | rfl | rfl | rfl
    · simp at h
    · simp at h
    · simp at h
    · exact .inl rfl
  · intro x y v w hx hy
    simp only [exSettings, List.mem_cons, List.not_mem_nil, or_false, Prod.mk.injEq, Opt.q.injEq, reduceCtorEq, false_and, false_or] at hx hy
    rcases hx with hx | hx <;> rcases hy with hy | hy <;> rw [hx.1, hy.1]

-- the settings are accepted, with the last of the two energies
example : parseArgs exParse ["--ken=5".toList, "-m1e6".toList, "-KE".toList, "1e6".toList, "--uni".toList, "SI".toList] =
    .ok (given exParse exSettings) ∧ (given exParse exSettings).quantity .kenergy = exParse "1e6".toList :=
  ⟨(command_line exParse exSettings_written).1 exSettings_sound, rfl⟩

-- without arguments nothing is given
example (parse : Str → Option ℝ) : parseArgs parse [] = .error .usage :=
  (command_line parse (ss := []) (tt := []) .nil).2 (by rintro ⟨_, x, v, h⟩; cases h)

example (k : Consts) : ∃ out, run k (given exParse exSettings) = .ok out ∧
    main k exParse [["--ken=5".toList], ["-m1e6".toList], ["-KE".toList, "1e6".toList], ["--uni".toList, "SI".toList]].flatten = .ok out :=
  command_same k exParse _ ((command_line exParse exSettings_written).1 exSettings_sound)

-- a negative number without exponent can be given apart from the name, and one with exponent cannot
example : Plain "-5.5".toList := .inr ⟨['5'], ['5'], by decide, by decide, .inr ⟨by decide +kernel, by decide⟩⟩

example (a : Args) : parseArgs exParse ["-p".toList, "-1e6".toList] ≠ .ok a :=
  command_negative_fails exParse _ (d := '1') (c := 'e') (w := ['e', '6']) (by decide +kernel) (.inl (by decide)) (by decide) (by decide) (by decide) a

example (a : Args) : parseArgs exParse ["-bg5".toList] ≠ .ok a ∧ parseArgs exParse ["-KE5".toList] ≠ .ok a := by
  have hg : ∀ s, exParse ('g' :: s) = none := by
    intro s
    unfold exParse
    rw [if_neg, if_neg, if_neg]
    all_goals
      intro h
      have h := congrArg List.head? h
      revert h
      show ¬ some 'g' = _
      decide +kernel
  exact ⟨command_attached_fails exParse hg _ (v := ['5']) (by decide) (by decide) (by decide) (.inl (by decide +kernel)) a,
    command_attached_fails exParse hg _ (v := ['5']) (by decide) (by decide) (by decide) (.inr (by decide +kernel)) a⟩

end Verif.Kinematic
