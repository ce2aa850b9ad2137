import Verif.Py.Text

/-! # Searching and splitting text (`str.find`, `replace`, `partition`, `split`) -/

namespace Verif

/-- `s.find(sub)`, `none` for -1. -/
def findSub (sub : Str) : Str → Option Nat
  | [] => if sub.isEmpty then some 0 else none
  | c :: cs => if sub.isPrefixOf (c :: cs) then some 0 else (findSub sub cs).map (· + 1)

/-- `s.find(c)` for one character. -/
def findChar (c : Char) : Str → Option Nat
  | [] => none
  | d :: cs => if d = c then some 0 else (findChar c cs).map (· + 1)

/-- Loop of `replaceAll`; `skip` characters of the text belong to the last match. -/
def replaceFrom (old new : Str) : Nat → Str → Str
  | _, [] => []
  | skip + 1, _ :: cs => replaceFrom old new skip cs
  | 0, c :: cs =>
    if old.isPrefixOf (c :: cs) then new ++ replaceFrom old new (old.length - 1) cs
    else c :: replaceFrom old new 0 cs

/-- `s.replace(old, new)` for non-empty `old`. -/
def replaceAll (old new s : Str) : Str := replaceFrom old new 0 s

/-- `s.partition(c)` for one character: `none` if `c` does not occur. -/
def partitionChar (c : Char) (s : Str) : Option (Str × Str) :=
  if c ∈ s then some (s.takeWhile (· ≠ c), (s.dropWhile (· ≠ c)).tail) else none

/-- `s.split(c)` for one character. -/
def splitChar (c : Char) : Str → List Str
  | [] => [[]]
  | d :: cs =>
    if d = c then [] :: splitChar c cs
    else match splitChar c cs with
      | [] => [[d]]
      | w :: ws => (d :: w) :: ws

/-- Loop of `splitWs`; `w` is the current word, reversed. -/
def splitWsFrom (w : Str) : Str → List Str
  | [] => if w = [] then [] else [w.reverse]
  | c :: cs =>
    if isSpace c then (if w = [] then splitWsFrom [] cs else w.reverse :: splitWsFrom [] cs)
    else splitWsFrom (c :: w) cs

/-- `s.split()`. -/
def splitWs (s : Str) : List Str := splitWsFrom [] s

/-- `' '.join(ws)`. -/
def joinBlank : List Str → Str
  | [] => []
  | [w] => w
  | w :: ws => w ++ ' ' :: joinBlank ws

/-- `s.rstrip()`. -/
def rstrip (s : Str) : Str := (s.reverse.dropWhile isSpace).reverse

/-- `s.strip(c)` for one character. -/
def stripChar (c : Char) (s : Str) : Str := ((s.dropWhile (· == c)).reverse.dropWhile (· == c)).reverse

/-- `s.replace('"', '').replace("'", '')`. -/
def dropQuotes (s : Str) : Str := s.filter fun c => c ≠ '"' ∧ c ≠ '\''

end Verif
