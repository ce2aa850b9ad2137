import Mathlib.Data.List.Basic
import Verif.Switch.Model

/-!
# Properties C18, C19 and C74: the registry of species and the formats
-/

namespace Verif.Switch

variable {K : Type}

/-- The formats that have a reader. -/
def readable : List Str := ["elegant".toList, "opal".toList]

/-- **C19.** `read` knows a format exactly when it is elegant or OPAL; the error for the others
comes before the file is opened, whatever the file. -/
theorem formats (fmt : Str) :
    (fmt ∈ readable → ∃ r, getReader fmt = .ok r ∧ (r = .elegant ↔ fmt = "elegant".toList) ∧
      ∀ (s : Registry K) (name : Option Str) (outcome : ReaderFn → Except PyErr (Species K)) (sp : Species K),
        outcome r = .ok sp → (s.read ⟨fmt, name, outcome⟩).2 = none) ∧
    (fmt ∉ readable → ∀ (s : Registry K) (name : Option Str) (outcome : ReaderFn → Except PyErr (Species K)),
      s.read ⟨fmt, name, outcome⟩ = (s, some .lookupError)) := by
  unfold readable
  simp only [List.mem_cons, List.not_mem_nil, or_false, not_or]
  have hne : ("opal".toList : Str) ≠ "elegant".toList := by decide
  constructor
  · intro h
    unfold Registry.read getReader
    rcases h with h | h
    · simp only [if_pos h]
      exact ⟨_, rfl, ⟨fun _ => h, fun _ => rfl⟩, fun s name outcome sp ho => by simp only [ho]⟩
    · have h1 : fmt ≠ "elegant".toList := by rw [h]; exact hne
      simp only [if_neg h1, if_pos h]
      exact ⟨_, rfl, ⟨fun h => by simp at h, fun h => absurd h h1⟩, fun s name outcome sp ho => by simp only [ho]⟩
  · rintro ⟨h1, h2⟩ s name outcome
    unfold Registry.read getReader
    simp only [if_neg h1, if_neg h2]

/-- Every supported format other than genesis can be read, and formats that are not supported
cannot. -/
theorem supported_formats_partial (fmt : Str) (hg : fmt ≠ "genesis".toList) :
    isSupported fmt = true ↔ fmt ∈ readable := by
  unfold isSupported supportedCodes readable
  simp only [List.contains_iff_mem, List.mem_cons, List.not_mem_nil, or_false]
  constructor
  · rintro (h | h)
    · exact absurd h hg
    · exact h
  · exact Or.inr

/-- Genesis is advertised as supported, but reading it fails with LookupError, and the message
names it as available. -/
theorem genesis_fails (s : Registry K) (name : Option Str) (outcome : ReaderFn → Except PyErr (Species K)) :
    isSupported "genesis".toList = true ∧ s.read ⟨"genesis".toList, name, outcome⟩ = (s, some .lookupError) :=
  ⟨by decide, (formats _).2 (by decide) s name outcome⟩

/-- Every supported format, and no other, can be written. -/
theorem writable (code : Str) : (∃ w, getWriter code = .ok w) ↔ isSupported code = true := by
  unfold getWriter isSupported supportedCodes
  simp only [List.contains_iff_mem, List.mem_cons, List.not_mem_nil, or_false]
  split_ifs with h1 h2 h3
  · exact ⟨fun _ => Or.inr (Or.inl h1), fun _ => ⟨_, rfl⟩⟩
  · exact ⟨fun _ => Or.inl h2, fun _ => ⟨_, rfl⟩⟩
  · exact ⟨fun _ => Or.inr (Or.inr h3), fun _ => ⟨_, rfl⟩⟩
  · constructor
    · rintro ⟨w, hw⟩; cases hw
    · rintro (h | h | h)
      · exact absurd h h2
      · exact absurd h h1
      · exact absurd h h3

/-! ## Histories of reads -/

/-- The call succeeds and registers under the name `n`. -/
def Call.Gives (c : Call K) (n : Str) (sp : Species K) : Prop :=
  (c.name = some n ∧ n ≠ [] ∨ (c.name = none ∨ c.name = some []) ∧ n = "species_0".toList) ∧
  ∃ r, getReader c.fmt = .ok r ∧ c.outcome r = .ok sp

theorem nameOr_iff (name : Option Str) (n : Str) :
    nameOr name = n ↔ (name = some n ∧ n ≠ [] ∨ (name = none ∨ name = some []) ∧ n = "species_0".toList) := by
  unfold nameOr
  generalize "species_0".toList = d
  cases name with
  | none =>
    constructor
    · intro h
      exact Or.inr ⟨Or.inl rfl, h.symm⟩
    · rintro (⟨h, _⟩ | ⟨_, h⟩)
      · cases h
      · exact h.symm
  | some m =>
    by_cases hm : m = []
    · subst hm
      constructor
      · intro h
        exact Or.inr ⟨Or.inr rfl, h.symm⟩
      · rintro (⟨h, h'⟩ | ⟨_, h⟩)
        · simp only [Option.some.injEq] at h
          exact absurd h.symm h'
        · exact h.symm
    · simp only [if_neg hm]
      constructor
      · intro h
        subst h
        exact Or.inl ⟨rfl, hm⟩
      · rintro (⟨h, h'⟩ | ⟨h, _⟩)
        · simpa using h
        · simp [hm] at h

theorem get_insert (s : Registry K) (n m : Str) (sp : Species K) :
    (s.insert n sp).get m = if (s.get m).isSome then s.get m else if m = n then some sp else none := by
  unfold Registry.insert
  by_cases h : (s.get n).isSome
  · rw [if_pos h]
    by_cases h' : (s.get m).isSome
    · rw [if_pos h']
    · rw [if_neg h', if_neg]
      · simpa using h'
      · rintro rfl; exact h' h
  · rw [if_neg h]
    unfold Registry.get at *
    rw [List.find?_append]
    cases hf : s.find? (fun e => e.1 = m) with
    | some e => simp
    | none =>
      simp only [Option.none_or, Option.map_none, Option.isSome_none, Bool.false_eq_true, if_false, List.find?_cons, List.find?_nil]
      by_cases hmn : m = n
      · simp [hmn]
      · have : ¬ n = m := fun h => hmn h.symm
        simp [this, hmn]

/-- A failed read changes nothing. -/
theorem failed_read (s : Registry K) (c : Call K) (h : (s.read c).2 ≠ none) : (s.read c).1 = s := by
  unfold Registry.read at *
  cases hr : getReader c.fmt with
  | error e => rfl
  | ok r =>
    rw [hr] at h
    simp only at h ⊢
    cases ho : c.outcome r with
    | error e => rfl
    | ok sp => rw [ho] at h; exact absurd rfl h

theorem read_get (s : Registry K) (c : Call K) (n : Str) :
    (∃ sp, c.Gives n sp ∧ (s.read c).1.get n = some ((s.get n).getD sp)) ∨
    (¬ (∃ sp, c.Gives n sp) ∧ (s.read c).1.get n = s.get n) := by
  unfold Registry.read
  cases hr : getReader c.fmt with
  | error e =>
    right
    refine ⟨?_, rfl⟩
    rintro ⟨sp, _, r, h, _⟩
    rw [hr] at h
    cases h
  | ok r =>
    cases ho : c.outcome r with
    | error e =>
      right
      refine ⟨?_, by simp [ho]⟩
      rintro ⟨sp, _, r', h, h'⟩
      rw [hr] at h
      cases h
      rw [ho] at h'
      cases h'
    | ok sp =>
      simp only [ho]
      rw [get_insert]
      by_cases hn : nameOr c.name = n
      · left
        refine ⟨sp, ⟨(nameOr_iff _ _).1 hn, r, hr, ho⟩, ?_⟩
        cases hg : s.get n with
        | none => simp [hn]
        | some x => simp
      · right
        refine ⟨?_, ?_⟩
        · rintro ⟨_, h, _⟩
          exact hn ((nameOr_iff _ _).2 h)
        · cases hg : s.get n with
          | none =>
            have : ¬ n = nameOr c.name := fun h => hn h.symm
            simp only [Option.isSome_none, Bool.false_eq_true, if_false, if_neg this]
          | some x => simp

/-- **C18.** What is registered under a name stays registered, through any sequence of later
reads. -/
theorem first_stays (s : Registry K) (n : Str) (sp : Species K) (h : s.get n = some sp) (cs : List (Call K)) :
    (s.readAll cs).get n = some sp := by
  induction cs generalizing s with
  | nil => exact h
  | cons c cs ih =>
    refine ih _ ?_
    rcases read_get s c n with ⟨sp', _, h'⟩ | ⟨_, h'⟩
    · rw [h', h]; rfl
    · rw [h', h]

/-- After any sequence of reads, a name refers to the species of the first read that succeeded
under that name, and to nothing if there was none. -/
theorem first_wins (cs : List (Call K)) (n : Str) :
    (∀ sp, Registry.get (Registry.readAll [] cs) n = some sp ↔
      ∃ before c after, cs = before ++ c :: after ∧ c.Gives n sp ∧ ∀ b ∈ before, ∀ sp', ¬ b.Gives n sp') ∧
    (Registry.get (Registry.readAll [] cs) n = none ↔ ∀ c ∈ cs, ∀ sp, ¬ c.Gives n sp) := by
  have main : ∀ (cs : List (Call K)) (s : Registry K), s.get n = none →
      (∃ sp before c after, cs = before ++ c :: after ∧ c.Gives n sp ∧ (∀ b ∈ before, ∀ sp', ¬ b.Gives n sp') ∧
        (s.readAll cs).get n = some sp) ∨
      ((∀ c ∈ cs, ∀ sp, ¬ c.Gives n sp) ∧ (s.readAll cs).get n = none) := by
    intro cs
    induction cs with
    | nil => intro s hs; right; exact ⟨by simp, hs⟩
    | cons c cs ih =>
      intro s hs
      rcases read_get s c n with ⟨sp, hg, h⟩ | ⟨hg, h⟩
      · left
        refine ⟨sp, [], c, cs, rfl, hg, by simp, ?_⟩
        rw [hs] at h
        exact first_stays _ n sp h cs
      · rw [hs] at h
        rcases ih _ h with ⟨sp, before, d, after, h1, h2, h3, h4⟩ | ⟨h1, h2⟩
        · left
          refine ⟨sp, c :: before, d, after, by rw [h1]; rfl, h2, ?_, h4⟩
          intro b hb sp' hb'
          rcases List.mem_cons.1 hb with rfl | hb
          · exact hg ⟨sp', hb'⟩
          · exact h3 b hb sp' hb'
        · right
          refine ⟨?_, h2⟩
          intro d hd sp hd'
          rcases List.mem_cons.1 hd with rfl | hd
          · exact hg ⟨sp, hd'⟩
          · exact h1 d hd sp hd'
  have uniq : ∀ (c : Call K) (a b : Species K), c.Gives n a → c.Gives n b → a = b := by
    rintro c a b ⟨_, r, h1, h2⟩ ⟨_, r', h3, h4⟩
    rw [h1] at h3
    cases h3
    rw [h2] at h4
    cases h4
    rfl
  have first : ∀ (b1 : List (Call K)) (c1 : Call K) (a1 : List (Call K)) (x : Species K), c1.Gives n x →
      (∀ b ∈ b1, ∀ sp', ¬ b.Gives n sp') → ∀ (b2 : List (Call K)) (c2 : Call K) (a2 : List (Call K)) (y : Species K),
      c2.Gives n y → (∀ b ∈ b2, ∀ sp', ¬ b.Gives n sp') → b1 ++ c1 :: a1 = b2 ++ c2 :: a2 → x = y := by
    intro b1
    induction b1 with
    | nil =>
      intro c1 a1 x hx _ b2 c2 a2 y hy hb2 he
      match b2 with
      | [] =>
        simp only [List.nil_append, List.cons.injEq] at he
        rw [he.1] at hx
        exact uniq _ _ _ hx hy
      | d :: b2 =>
        simp only [List.nil_append, List.cons_append, List.cons.injEq] at he
        rw [he.1] at hx
        exact absurd hx (hb2 d (by simp) x)
    | cons d b1 ih =>
      intro c1 a1 x hx hb1 b2 c2 a2 y hy hb2 he
      match b2 with
      | [] =>
        simp only [List.nil_append, List.cons_append, List.cons.injEq] at he
        rw [← he.1] at hy
        exact absurd hy (hb1 d (by simp) y)
      | d' :: b2 =>
        simp only [List.cons_append, List.cons.injEq] at he
        exact ih c1 a1 x hx (fun b hb => hb1 b (by simp [hb])) b2 c2 a2 y hy (fun b hb => hb2 b (by simp [hb])) he.2
  rcases main cs [] rfl with ⟨x, before, c, after, h1, h2, h3, h4⟩ | ⟨h1, h2⟩
  · refine ⟨fun sp => ?_, ?_⟩
    · rw [h4]
      constructor
      · intro h
        cases h
        exact ⟨before, c, after, h1, h2, h3⟩
      · rintro ⟨b2, c2, a2, h5, h6, h7⟩
        rw [first before c after x h2 h3 b2 c2 a2 sp h6 h7 (h1 ▸ h5)]
    · rw [h4]
      constructor
      · intro h; cases h
      · intro h
        exact absurd h2 (h c (by rw [h1]; simp) x)
  · refine ⟨fun sp => ?_, ?_⟩
    · rw [h2]
      constructor
      · intro h; cases h
      · rintro ⟨b2, c2, a2, h5, h6, _⟩
        exact absurd h6 (h1 c2 (by rw [h5]; simp) sp)
    · exact ⟨fun _ => h1, fun _ => h2⟩

/-- Species for the examples. -/
def spec (q : Int) : Species Int := ⟨[], q, 511000, some q⟩

/-- Three reads under one name: the first fails, the second counts. -/
def exCalls : List (Call Int) :=
  [⟨"elegant".toList, some "a".toList, fun _ => .error .valueError⟩,
   ⟨"opal".toList, some "a".toList, fun _ => .ok (spec 1)⟩,
   ⟨"elegant".toList, none, fun _ => .ok (spec 2)⟩,
   ⟨"elegant".toList, some "a".toList, fun _ => .ok (spec 3)⟩]

example : Registry.get (Registry.readAll [] exCalls) "a".toList = some (spec 1) := by decide +kernel

example : Registry.get (Registry.readAll [] exCalls) "a".toList = some (spec 1) :=
  ((first_wins exCalls _).1 _).2 ⟨[exCalls[0]], exCalls[1], [exCalls[2], exCalls[3]], rfl,
    ⟨Or.inl ⟨rfl, by decide⟩, .opal, rfl, rfl⟩, by
      intro b hb sp' h
      simp only [List.mem_singleton] at hb
      subst hb
      obtain ⟨_, r, _, h⟩ := h
      cases h⟩

/-- The read with an error of the reader. -/
example : ((Registry.readAll [] exCalls).read exCalls[0]).1 = Registry.readAll [] exCalls :=
  failed_read _ _ (by decide +kernel)

/-! ## Writing without a name -/

/-- **C74.** `write` without a name: "defaults to first registered species". Proved when the first
species was registered without a name. -/
theorem write_default_partial (s : Registry K) (sp : Species K) {code : Str} {w : WriterFn}
    (hw : getWriter code = .ok w) :
    Registry.write (("species_0".toList, sp) :: s) code none = .ok (w, sp) := by
  have hn : nameOr none = "species_0".toList := rfl
  unfold Registry.write Registry.get
  rw [hw, hn]
  generalize "species_0".toList = d
  simp only [bind, Except.bind, List.find?_cons, decide_true, Option.map_some]

/-- When all species have other names, `write` without a name raises KeyError. -/
theorem write_default_fails (s : Registry K) (h : ∀ e ∈ s, e.1 ≠ "species_0".toList) (code : Str) :
    Registry.write s code none = .error .keyError := by
  have hg : s.get "species_0".toList = none := by
    unfold Registry.get
    rw [List.find?_eq_none.2]
    · rfl
    · intro e he hc
      exact h e he (of_decide_eq_true hc)
  have hn : nameOr none = "species_0".toList := rfl
  unfold Registry.write
  rw [hn, hg]
  cases hw : getWriter code with
  | error e =>
    unfold getWriter at hw
    split_ifs at hw
    cases hw
    rfl
  | ok w =>
    rfl

/-- When the first species has another name and a later one has the default name, the later one is
written. -/
theorem write_default_other_fails :
    ∃ (s : Registry Int) (first other : Species Int), s = [("a".toList, first), ("species_0".toList, other)] ∧
      first ≠ other ∧ Registry.write s "elegant".toList none = .ok (.elegant, other) :=
  ⟨_, spec 1, spec 2, rfl, by decide, by decide +kernel⟩

example : Registry.write [("a".toList, spec 1)] "elegant".toList none = .error .keyError :=
  write_default_fails _ (by decide) _

example : Registry.write [("species_0".toList, spec 1)] "opal".toList none = .ok (.opal, spec 1) :=
  write_default_partial [] (spec 1) (by decide)

end Verif.Switch
