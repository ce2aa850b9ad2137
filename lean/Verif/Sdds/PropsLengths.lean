import Verif.Sdds.Read

/-!
# Property C09: lengths of strings given in the header
-/

namespace Verif.Sdds

/-- **C09, lengths from the header.** A field of a length known from the header is never given another length, whatever was read before
it (also after a parameter that is itself named `record_length`). -/
theorem fixed_length_kept (varLen : Bool) (prev : Option Arr) (name : Str) (n : Nat) (ks : Dtype) :
    resolve varLen prev ((name, .strN n) :: ks) = .ok ((name, .strN n) :: ks) := by
  unfold resolve
  cases varLen with
  | false => rfl
  | true =>
    cases prev with
    | none => rfl
    | some a =>
      simp only [Bool.not_true, Bool.false_eq_true, if_false]
      by_cases h : (a.dt.map Prod.fst).contains recLenName = true
      · rw [if_pos h]
        cases a.rows.head?.bind (recField recLenName) with
        | none => rfl
        | some v => cases v <;> rfl
      · rw [if_neg h]

example : resolve true (some { dt := [(recLenName, .num .long)], rows := [[(recLenName, .num .long 7)]] }) [("id".toList, .strN 3)] =
    .ok [("id".toList, .strN 3)] := fixed_length_kept _ _ _ _ _

end Verif.Sdds
