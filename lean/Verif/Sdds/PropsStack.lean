import Verif.Sdds.PropsWrite

/-!
# Property C04: the type of a stacked table
-/

namespace Verif.Sdds

/-- Whether the dtype is a float type. -/
def ADType.isFloat : ADType → Bool
  | .f64 => true
  | .f32 => true
  | _ => false

/-- `np.can_cast(d, e, 'safe')`: to a type of the same kind that is not smaller, or from an integer to a larger float; the
largest float is allowed for every integer. -/
def Safe (d e : ADType) : Prop :=
  (d.isFloat = e.isFloat ∧ d.size ≤ e.size) ∨ (d.isFloat = false ∧ e.isFloat = true ∧ (d.size < e.size ∨ e.size = 8))

instance (d e : ADType) : Decidable (Safe d e) := by unfold Safe; infer_instance

theorem join_least (d e t : ADType) : Safe (d.join e) t ↔ Safe d t ∧ Safe e t := by
  cases d <;> cases e <;> cases t <;> decide

/-- The type of the table can be reached from the types of all columns, and is the first such type: a type can be
reached from it exactly if it can be reached from every column. -/
theorem stack_type_least (cols : List WCol) (hne : cols ≠ []) (t : ADType) :
    Safe (stackType cols) t ↔ ∀ c ∈ cols, Safe c.dtype t := by
  induction cols with
  | nil => exact absurd rfl hne
  | cons c cs ih =>
    cases cs with
    | nil => simp [stackType]
    | cons a l =>
      change Safe (c.dtype.join (stackType (a :: l))) t ↔ _
      rw [join_least, ih (by simp)]
      simp

/-- **C04, the type of the table.** A table of at least one column is written with the one type `d` such that exactly the
types reached from `d` are reached from all columns; with it, the length of the table. -/
theorem stacked_bytes (env : Env) (cols : List WCol) (hne : cols ≠ []) (d : ADType)
    (h : ∀ t, Safe d t ↔ ∀ c ∈ cols, Safe c.dtype t) (rows : Nat) :
    (tableBytes env cols rows).length = rows * (cols.length * d.size) := by
  have hd : stackType cols = d := by
    have h1 : ∀ t, Safe (stackType cols) t ↔ Safe d t := fun t => by rw [h, stack_type_least cols hne]
    generalize stackType cols = e at h1
    have a := (h1 e).1 (by cases e <;> decide)
    have b := (h1 d).2 (by cases d <;> decide)
    revert a b
    clear h h1
    cases d <;> cases e <;> decide
  have hrow : ∀ i, (rowBytes env cols i).length = cols.length * d.size := by
    intro i
    unfold rowBytes
    rw [hd, List.length_flatMap]
    simp [leBytes_length, Function.comp_def]
  unfold tableBytes
  rw [List.length_flatMap]
  simp [hrow, Function.comp_def]

/-- A `long` and a `float` column, written as doubles. -/
def exPair : List WCol :=
  [{ name := "n".toList, type := "long".toList, dtype := .i32, data := [5] },
   { name := "x".toList, type := "float".toList, dtype := .f32, data := [7] }]

example : (tableBytes exEnv exPair 1).length = 1 * (2 * 8) :=
  stacked_bytes exEnv exPair (by decide) .f64 (by intro t; cases t <;> decide +kernel) 1

end Verif.Sdds
