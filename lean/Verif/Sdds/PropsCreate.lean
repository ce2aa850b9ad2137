import Verif.Sdds.PropsWrite

/-!
# C147: the parameters and columns a writer takes

`create_parameter` and `create_column` (SDDS.py:546-622), called in any order. A call that raises AssertionError is caught by the caller, who goes on.
-/

namespace Verif.Sdds

/-- A call of `create_parameter` or `create_column`. -/
inductive CreateCall
  | parameter (p : WParam)
  | column (c : WCol)
  deriving DecidableEq, Repr

/-- The writer after a call (SDDS.py:581, 622): a call that raises leaves it as it was, as both assertions come before `append`. -/
def Writer.afterCreate (w : Writer) (call : CreateCall) : Writer :=
  match (match call with | .parameter p => w.createParameter p | .column c => w.createColumn c) with
  | .ok w' => w'
  | .error _ => w

/-- The types the writer knows. -/
def Storable (type : Str) : Prop := ∃ t ∈ ["double", "short", "long", "string"], type = t.toList

/-- A fixed value that Python takes for false: no number but zero, no text but the empty one. -/
def Blank : PyVal → Prop
  | .int i => i = 0
  | .float x => x = 0#64 ∨ x = 0x8000000000000000#64
  | .str s => s = []

/-- Parameters without both a fixed value and data. -/
def OneValue (p : WParam) : Prop := (∀ v, p.fixed = some v → Blank v) ∨ p.data = none

theorem storable_iff (t : Str) : Storable t ↔ t ∈ writeTypes := by
  unfold Storable writeTypes
  simp

theorem blank_iff (v : PyVal) : Blank v ↔ v.truthy = false := by
  cases v with
  | int i => simp [Blank, PyVal.truthy]
  | float x =>
    unfold Blank PyVal.truthy
    rw [Bool.and_eq_false_iff, bne_eq_false_iff_eq, bne_eq_false_iff_eq]
  | str s => simp [Blank, PyVal.truthy]

/-- **C147, one parameter.** A parameter is taken exactly if its type is one of four and it does not have both data and a fixed value that counts as true; otherwise
AssertionError is raised. -/
theorem create_parameter_iff (w : Writer) (p : WParam) :
    (Storable p.type ∧ OneValue p → w.createParameter p = .ok { w with params := w.params ++ [p] }) ∧
    (¬ (Storable p.type ∧ OneValue p) → w.createParameter p = .error .assertionError) := by
  rw [storable_iff]
  unfold Writer.createParameter
  constructor
  · rintro ⟨h1, h2⟩
    rw [if_neg (not_not.2 h1)]
    cases hf : p.fixed with
    | none => rfl
    | some v =>
      simp only
      rw [if_neg]
      intro hc
      rw [Bool.and_eq_true] at hc
      rcases h2 with h2 | h2
      · have := (blank_iff v).1 (h2 v hf)
        rw [hc.1] at this
        cases this
      · rw [h2] at hc
        cases hc.2
  · intro h
    by_cases h1 : p.type ∈ writeTypes
    · rw [if_neg (not_not.2 h1)]
      have h2 : ¬ OneValue p := fun h2 => h ⟨h1, h2⟩
      unfold OneValue at h2
      rw [not_or] at h2
      obtain ⟨h2, h3⟩ := h2
      cases hf : p.fixed with
      | none =>
        exfalso
        apply h2
        intro v hv
        rw [hf] at hv
        cases hv
      | some v =>
        simp only
        rw [if_pos]
        rw [Bool.and_eq_true]
        constructor
        · by_contra hv
          apply h2
          intro v' hv'
          rw [hf] at hv'
          cases hv'
          exact (blank_iff v).2 (by simpa using hv)
        · exact Option.isSome_iff_ne_none.2 h3
    · rw [if_pos h1]

/-- **C147, one column.** -/
theorem create_column_iff (w : Writer) (c : WCol) :
    (Storable c.type → w.createColumn c = .ok { w with cols := w.cols ++ [c] }) ∧ (¬ Storable c.type → w.createColumn c = .error .assertionError) := by
  rw [storable_iff]
  unfold Writer.createColumn
  exact ⟨fun h => by rw [if_neg (not_not.2 h)], fun h => by rw [if_pos h]⟩

open Classical in
/-- **C147, histories.** After any calls in any order, caught exceptions included, the writer holds the parameters and columns that were taken, in the order of the
calls, each with all that was given. -/
theorem create_history (w : Writer) (calls : List CreateCall) :
    (calls.foldl Writer.afterCreate w).params = w.params ++ calls.filterMap (fun
      | .parameter p => if Storable p.type ∧ OneValue p then some p else none
      | .column _ => none) ∧
    (calls.foldl Writer.afterCreate w).cols = w.cols ++ calls.filterMap (fun
      | .parameter _ => none
      | .column c => if Storable c.type then some c else none) := by
  induction calls generalizing w with
  | nil => simp
  | cons call calls ih =>
    rw [List.foldl_cons]
    obtain ⟨h1, h2⟩ := ih (w.afterCreate call)
    rw [h1, h2, List.filterMap_cons, List.filterMap_cons]
    cases call with
    | parameter p =>
      by_cases h : Storable p.type ∧ OneValue p
      · have : w.afterCreate (.parameter p) = { w with params := w.params ++ [p] } := by
          unfold Writer.afterCreate
          simp only [(create_parameter_iff w p).1 h]
        rw [this]
        simp [h]
      · have : w.afterCreate (.parameter p) = w := by
          unfold Writer.afterCreate
          simp only [(create_parameter_iff w p).2 h]
        rw [this]
        simp [h]
    | column c =>
      by_cases h : Storable c.type
      · have : w.afterCreate (.column c) = { w with cols := w.cols ++ [c] } := by
          unfold Writer.afterCreate
          simp only [(create_column_iff w c).1 h]
        rw [this]
        simp [h]
      · have : w.afterCreate (.column c) = w := by
          unfold Writer.afterCreate
          simp only [(create_column_iff w c).2 h]
        rw [this]
        simp [h]

/-- **C147 is false for characters.** The description of the class lists `character` (SDDS.py:518-523); no parameter and no column of this type is ever taken. -/
theorem character_fails (w : Writer) (p : WParam) (c : WCol) (hp : p.type = "character".toList) (hc : c.type = "character".toList) :
    w.createParameter p = .error .assertionError ∧ w.createColumn c = .error .assertionError := by
  have h : ¬ Storable "character".toList := by
    rw [storable_iff]
    decide
  exact ⟨(create_parameter_iff w p).2 fun hs => h (hp ▸ hs.1), (create_column_iff w c).2 fun hs => h (hc ▸ hs)⟩

/-- **C147 is false for fixed values that count as false.** "If given then parData must be None" (SDDS.py:605-606): with a fixed value of zero or an empty text
the data are taken as well, and the fixed value is not written. -/
theorem fixed_blank_fails (ft : FloatText) (w : Writer) (p : WParam) (hp : Storable p.type) {v : PyVal} (hv : p.fixed = some v) (hb : Blank v) :
    w.createParameter p = .ok { w with params := w.params ++ [p] } ∧ fixedText ft p.fixed = [] := by
  refine ⟨(create_parameter_iff w p).1 ⟨hp, Or.inl fun v' hv' => ?_⟩, ?_⟩
  · rw [hv] at hv'
    cases hv'
    exact hb
  · rw [hv]
    unfold fixedText
    simp only [(blank_iff v).1 hb]
    rfl

/-! ## Examples -/

/-- A parameter with data and a fixed value. -/
def exBoth (type : String) (v : PyVal) : WParam := { name := "n".toList, type := type.toList, data := some (.int 3), fixed := some v }

example : (Writer.createParameter {} (exBoth "long" (.int 5))) = .error .assertionError :=
  (create_parameter_iff {} (exBoth "long" (.int 5))).2 fun h => by
    rcases h.2 with h | h
    · exact absurd (h (.int 5) rfl) (by simp [Blank])
    · cases h

example (ft : FloatText) : (Writer.createParameter {} (exBoth "long" (.int 0))) = .ok { params := [exBoth "long" (.int 0)] } ∧
    fixedText ft (exBoth "long" (.int 0)).fixed = [] :=
  fixed_blank_fails ft {} (exBoth "long" (.int 0)) ⟨"long", by decide, rfl⟩ rfl rfl

open Classical in
example : ([.parameter (exBoth "float" (.int 0)), .column ⟨"x".toList, "double".toList, .f64, [], [], [], [], [], 0⟩,
      .parameter (exBoth "long" (.int 0))].foldl Writer.afterCreate {}).params.length = 1 := by
  have h1 : ¬ (Storable (exBoth "float" (.int 0)).type ∧ OneValue (exBoth "float" (.int 0))) := fun h => absurd ((storable_iff _).1 h.1) (by decide)
  have h2 : Storable (exBoth "long" (.int 0)).type ∧ OneValue (exBoth "long" (.int 0)) := ⟨⟨"long", by decide, rfl⟩, Or.inl fun v hv => by cases hv; rfl⟩
  rw [(create_history {} _).1]
  simp [h1, h2]

end Verif.Sdds
