import Mathlib.Analysis.Real.Pi.Bounds
import Verif.Lte.PropsRpn

/-! The word `pi` of RPN expressions is replaced by a text that is as near to π as a double can be (C29). -/

namespace Verif.Lte

variable {R : Type}

/-- The value of a row of decimal digits, read from the left. -/
def digitsValue (t : Str) : ℕ := t.foldl (fun n c => 10 * n + (c.toNat - '0'.toNat)) 0

/-- The number written by `digits . digits`. -/
noncomputable def decimalValue (t : Str) : ℝ :=
  digitsValue (t.filter (· ≠ '.')) / 10 ^ (t.dropWhile (· ≠ '.')).tail.length

/-- **C29, pi.** Whatever the rounding of `float(…)` is (an error of at most `δ` for a text of digits with a point), the expression `pi` has a
value that is not farther than `δ + 3·10⁻¹⁶` from π. -/
theorem rpn_pi_near (N : Nums R) (val : R → ℝ) {δ : ℝ}
    (hN : ∀ t x, (∀ c ∈ t, c.isDigit = true ∨ c = '.') → N.parse t = some x → |val x - decimalValue t| ≤ δ) {x : R}
    (h : parseRpn N "pi".toList = .ok x) : |val x - Real.pi| ≤ δ + 3 / 10 ^ 16 := by
  have hp : N.parse piText = some x := by
    have h1 : parseRpn N "pi".toList = (Expr.value N .pi) := by
      exact rpn_value N .pi trivial _ Spaced.last
    rw [h1] at h
    unfold Expr.value at h
    cases hq : N.parse piText with
    | none => rw [hq] at h; cases h
    | some y => rw [hq] at h; cases h; rfl
  have h2 := hN _ _ (by decide) hp
  have h3 : decimalValue piText = 3141592653589793 / 10 ^ 15 := by
    unfold decimalValue
    rw [show digitsValue (piText.filter (· ≠ '.')) = 3141592653589793 by decide +kernel,
      show (piText.dropWhile (· ≠ '.')).tail.length = 15 by decide +kernel]
    norm_num
  rw [h3] at h2
  have a1 := Real.pi_gt_d20
  have a2 := Real.pi_lt_d20
  rw [abs_le] at h2 ⊢
  constructor <;> norm_num at * <;> linarith [h2.1, h2.2]

/-- Real numbers with exact reading of decimals. -/
noncomputable def realNums : Nums ℝ where
  parse t := if ∀ c ∈ t, c.isDigit = true ∨ c = '.' then some (decimalValue t) else none
  toText _ := []
  add := (· + ·)
  sub := (· - ·)
  mul := (· * ·)
  div x y := .ok (x / y)
  sqrt := Real.sqrt

example : ∃ x, parseRpn realNums "pi".toList = .ok x ∧ |x - Real.pi| ≤ 3 / 10 ^ 16 := by
  have h : parseRpn realNums "pi".toList = .ok (decimalValue piText) := by
    rw [rpn_value realNums .pi trivial "pi".toList Spaced.last]
    unfold Expr.value
    rw [show realNums.parse piText = some (decimalValue piText) from by
      show (if ∀ c ∈ piText, c.isDigit = true ∨ c = '.' then some (decimalValue piText) else none) = _
      rw [if_pos (by decide)]]
  refine ⟨_, h, ?_⟩
  have := rpn_pi_near realNums id (δ := 0) (by
    intro t x ht hx
    have : realNums.parse t = some (decimalValue t) := by
      show (if ∀ c ∈ t, c.isDigit = true ∨ c = '.' then some (decimalValue t) else none) = _
      rw [if_pos ht]
    rw [this] at hx
    cases hx
    simp) h
  simpa using this

end Verif.Lte
