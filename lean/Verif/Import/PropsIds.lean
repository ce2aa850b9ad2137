import Verif.Import.PropsErrors
import Verif.Lattice.LemmasYaml
import Mathlib.Algebra.Order.Group.Unbundled.Int

/-! # Property C38: which definition belongs to a number -/

namespace Verif.Import

open Verif.Lattice

variable {R : Type}

/-- The last entry of a list with the number `i`. -/
def lastWith {α : Type} (vs : List (Int × α)) (i : Int) : Option α := ((vs.filter fun v => v.1 = i).getLast?).map Prod.snd

theorem byId_snoc {α : Type} (vs : List (Int × α)) (v : Int × α) : byId (vs ++ [v]) = dset (byId vs) v.1 v.2 := by
  unfold byId
  rw [List.foldl_append]
  rfl

theorem dget_byId {α : Type} (vs : List (Int × α)) (i : Int) : dget (byId vs) i = lastWith vs i := by
  induction vs using List.reverseRecOn with
  | nil => rfl
  | append_singleton vs v ih =>
    rw [byId_snoc]
    unfold lastWith at ih ⊢
    rw [List.filter_append]
    by_cases h : v.1 = i
    · rw [List.filter_cons_of_pos (by simpa using h)]
      subst h
      rw [dget_dset, if_pos rfl]
      simp
    · rw [List.filter_cons_of_neg (by simpa using h), dget_dset, if_neg (Ne.symm h), ih]
      simp

/-- **C38.** Of several lines or elements with one number the last one is used. A negative item stands for the line with the opposite number
but never for an element. -/
theorem import_numbers (J : Json R) (i : Int) :
    J.line? i = lastWith J.lines (i.natAbs : Int) ∧ J.elem? i = lastWith J.elems i := by
  exact ⟨dget_byId _ _, dget_byId _ _⟩

theorem byId_nodup {α : Type} (vs : List (Int × α)) (h : (vs.map Prod.fst).Nodup) : byId vs = vs := by
  induction vs using List.reverseRecOn with
  | nil => rfl
  | append_singleton vs v ih =>
    rw [List.map_append, List.nodup_append] at h
    rw [byId_snoc, ih h.1]
    apply dset_new
    exact fun hk => h.2.2 v.1 hk v.1 (by simp) rfl

/-- **C38.** If every number is used for one line only, the imported line is the first one with the given name. -/
theorem import_first (J : Json R) (h : (J.lines.map Prod.fst).Nodup) (d : Nat) (name : Str) :
    parseJson J d name = match J.lines.find? fun kv => kv.2.name = name with
      | none => .error .valueError
      | some kv => generate J d kv.2.items 0 (Heap.init (some kv.2.name)) := by
  unfold parseJson Json.lineDict
  rw [byId_nodup _ h]
  rfl

-- two definitions of one number, and a negative item
example : exJson.line? (-1) = lastWith exJson.lines 1 ∧ exJson.elem? (-10) = none := by
  refine ⟨(import_numbers exJson (-1)).1, ?_⟩
  rw [(import_numbers exJson (-10)).2]
  decide +kernel

example : (exJson.lines.map Prod.fst).Nodup := by decide +kernel

end Verif.Import
