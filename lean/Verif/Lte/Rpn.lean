import Verif.Py.TextFind

/-!
# Model of `parse_rpn` (`rsbeams/rslattice/lte_parser.py:329-373`)

Floating point numbers have an arbitrary type `R` with arbitrary operations; `Nums` collects
what the code uses.
-/

namespace Verif.Lte

/-- Floating point numbers as used by the parser. -/
structure Nums (R : Type) where
  /-- `float(s)`, `none` for ValueError. -/
  parse : Str → Option R
  /-- `str(x)`. -/
  toText : R → Str
  add : R → R → R
  sub : R → R → R
  mul : R → R → R
  /-- `/` can raise ZeroDivisionError. -/
  div : R → R → Except PyErr R
  /-- `np.sqrt`. -/
  sqrt : R → R

variable {R : Type}

/-- `str(np.pi)`. -/
def piText : Str := "3.141592653589793".toList

/-- Cleaning of one token (lte_parser.py:343-346). -/
def cleanToken (w : Str) : Str := strip (replaceAll "pi".toList piText (dropQuotes w))

/-- One token (lte_parser.py:348-371). -/
def rpnStep (N : Nums R) (stack : List R) (val : Str) : Except PyErr (List R) :=
  if val = "-".toList ∨ val = "+".toList ∨ val = "*".toList ∨ val = "/".toList ∨ val = "mult".toList then
    match stack with
    | token1 :: token2 :: rest =>
      if val = "-".toList then .ok (N.sub token2 token1 :: rest)
      else if val = "+".toList then .ok (N.add token2 token1 :: rest)
      else if val = "*".toList ∨ val = "mult".toList then .ok (N.mul token2 token1 :: rest)
      else match N.div token2 token1 with
        | .ok x => .ok (x :: rest)
        | .error e => .error e
    | _ => .error .indexError
  else if val = "sqrt".toList then
    match stack with
    | token1 :: rest => .ok (N.sqrt token1 :: rest)
    | [] => .error .indexError
  else if val = [] then .ok stack
  else match N.parse val with
    | some x => .ok (x :: stack)
    | none => .error .valueError

/-- The loop over the tokens. -/
def rpnLoop (N : Nums R) : List Str → List R → Except PyErr (List R)
  | [], stack => .ok stack
  | w :: ws, stack => match rpnStep N stack (cleanToken w) with
    | .ok stack' => rpnLoop N ws stack'
    | .error e => .error e

/-- `parse_rpn` (lte_parser.py:329-373). -/
def parseRpn (N : Nums R) (expression : Str) : Except PyErr R :=
  match rpnLoop N (splitChar ' ' expression) [] with
  | .ok (x :: _) => .ok x
  | .ok [] => .error .indexError
  | .error e => .error e

end Verif.Lte
