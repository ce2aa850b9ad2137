import Verif.Switch.PropsRegistry

/-!
C74 exactly: writing without a name writes the species read first (switchyard.py:104-125).
-/

namespace Verif.Switch

variable {K : Type}

/-- **C74, exactly.** Without a name the first species of the registry is written if and only if it was registered under the default
name, or an equal species was registered later under it. -/
theorem write_default_iff (s : Registry K) (n : Str) (sp : Species K) {code : Str} {w : WriterFn} (hw : getWriter code = .ok w) :
    Registry.write ((n, sp) :: s) code none = .ok (w, sp) ↔
      n = "species_0".toList ∨ n ≠ "species_0".toList ∧ Registry.get s "species_0".toList = some sp := by
  have hn : nameOr none = "species_0".toList := rfl
  unfold Registry.write Registry.get
  rw [hw, hn]
  generalize "species_0".toList = d
  simp only [bind, Except.bind, List.find?_cons]
  by_cases h : n = d
  · simp [h]
  · simp only [h, decide_false, false_or, ne_eq, not_false_eq_true, true_and]
    cases (List.find? (fun e => decide (e.1 = d)) s).map (·.2) with
    | none => simp
    | some t => simp

/-- In general: without a name the species of the default name is written, whatever its place; with an empty name too. -/
theorem write_default_species (s : Registry K) {code : Str} {w : WriterFn} (hw : getWriter code = .ok w) (sp : Species K) (name : Option Str)
    (h0 : name = none ∨ name = some []) :
    Registry.write s code name = .ok (w, sp) ↔ ∃ a b : Registry K, s = a ++ ("species_0".toList, sp) :: b ∧ ∀ e ∈ a, e.1 ≠ "species_0".toList := by
  have hn : nameOr name = "species_0".toList := by rcases h0 with h | h <;> rw [h] <;> rfl
  unfold Registry.write Registry.get
  rw [hw, hn]
  generalize "species_0".toList = d
  simp only [bind, Except.bind]
  induction s with
  | nil => simp
  | cons e s ih =>
    by_cases h : e.1 = d
    · simp only [List.find?_cons, h, decide_true, Option.map_some, Except.ok.injEq, Prod.mk.injEq, true_and]
      constructor
      · intro he
        exact ⟨[], s, by rw [← h, ← he]; rfl, by simp⟩
      · rintro ⟨a, b, hs, ha⟩
        cases a with
        | nil => rw [List.nil_append, List.cons.injEq] at hs; rw [hs.1]
        | cons x a =>
          rw [List.cons_append, List.cons.injEq] at hs
          exact absurd (hs.1 ▸ h) (ha x (by simp))
    · simp only [List.find?_cons, h, decide_false]
      refine Iff.trans ih ?_
      constructor
      · rintro ⟨a, b, hs, ha⟩
        refine ⟨e :: a, b, by rw [hs]; rfl, ?_⟩
        intro x hx
        rcases List.mem_cons.1 hx with hx | hx
        · rw [hx]; exact h
        · exact ha x hx
      · rintro ⟨a, b, hs, ha⟩
        cases a with
        | nil => rw [List.nil_append, List.cons.injEq] at hs; exact absurd (by rw [hs.1]) h
        | cons x a =>
          rw [List.cons_append, List.cons.injEq] at hs
          exact ⟨a, b, hs.2, fun y hy => ha y (by simp [hy])⟩

example : Registry.write [("a".toList, spec 1), ("species_0".toList, spec 2)] "elegant".toList none = .ok (.elegant, spec 2) :=
  (write_default_species _ rfl _ none (Or.inl rfl)).2 ⟨[("a".toList, spec 1)], [], rfl, by decide⟩

example : Registry.write [("a".toList, spec 1), ("species_0".toList, spec 1)] "elegant".toList none = .ok (.elegant, spec 1) :=
  (write_default_iff _ _ _ rfl).2 (Or.inr ⟨by decide, by decide +kernel⟩)

end Verif.Switch
