import Verif.Py.Basic

/-!
# Model of the symbol formatter of `rsplot/util.py`

Strings are lists of characters. The message printed for an unknown letter is left out.
-/

namespace Verif.Plot

/-- `_greek_map` (util.py:16-51), without the backslash of the values. -/
def greekNames : List (Char × List Char) :=
  [('a', ['a', 'l', 'p', 'h', 'a']), ('b', ['b', 'e', 't', 'a']), ('g', ['g', 'a', 'm', 'm', 'a']), ('d', ['d', 'e', 'l', 't', 'a']),
   ('e', ['v', 'a', 'r', 'e', 'p', 's', 'i', 'l', 'o', 'n']), ('z', ['z', 'e', 't', 'a']), ('c', ['e', 't', 'a']),
   ('G', ['G', 'a', 'm', 'm', 'a']), ('D', ['D', 'e', 'l', 't', 'a']), ('Q', ['T', 'h', 'e', 't', 'a']), ('q', ['t', 'h', 'e', 't', 'a']),
   ('i', ['i', 'o', 't', 'a']), ('k', ['k', 'a', 'p', 'p', 'a']), ('l', ['l', 'a', 'm', 'b', 'd', 'a']), ('m', ['m', 'u']), ('n', ['n', 'u']),
   ('x', ['x', 'i']), ('L', ['L', 'a', 'm', 'b', 'd', 'a']), ('X', ['X', 'i']), ('P', ['P', 'i']), ('p', ['p', 'i']), ('r', ['r', 'h', 'o']),
   ('s', ['s', 'i', 'g', 'm', 'a']), ('t', ['t', 'a', 'u']), ('S', ['S', 'i', 'g', 'm', 'a']), ('U', ['U', 'p', 's', 'i', 'l', 'o', 'n']),
   ('F', ['P', 'h', 'i']), ('u', ['u', 'p', 's', 'i', 'l', 'o', 'n']), ('f', ['p', 'h', 'i']), ('v', ['c', 'h', 'i']), ('y', ['p', 's', 'i']),
   ('w', ['o', 'm', 'e', 'g', 'a']), ('Y', ['P', 's', 'i']), ('W', ['O', 'm', 'e', 'g', 'a'])]

/-- `_special_map` (util.py:52-54), without the backslash. -/
def specialNames : List (Char × List Char) := [('a', ['p', 'm'])]

/-- The values of `processing`: `False`, `_greek_map` or `_special_map`. -/
inductive Mapping where
  | off
  | greek
  | special
deriving DecidableEq

/-- `mapping[char]`. -/
def Mapping.get : Mapping → Char → Option (List Char)
  | .off, _ => none
  | .greek, c => greekNames.lookup c
  | .special, c => specialNames.lookup c

/-- `MODE[char]` (util.py:132-136). -/
def modeText : Char → Option (List Char)
  | 'a' => some ['^', '{']
  | 'n' => some ['}']
  | 'b' => some ['_', '{']
  | _ => none

/-- `PROCESS[char]` (util.py:138-143). -/
def process : Char → Option Mapping
  | 'g' => some .greek
  | 's' => some .special
  | 'r' => some .off
  | 'e' => some .off
  | _ => none

/-- The loop of `format_symbol` (util.py:157-171). `process_character` (util.py:146-150) returns `None` for an unknown letter, which
cannot be added to a string. -/
def formatLoop : List Char → Bool → Mapping → List Char → Except PyErr (List Char)
  | [], _, _, out => .ok out
  | c :: s, true, p, out =>
    match modeText c with
    | some t => formatLoop s false p (out ++ t)
    | none =>
      match process c with
      | some p' => formatLoop s false p' out
      | none => .error .keyError
  | c :: s, false, p, out =>
    if c = '$' then formatLoop s true p out
    else if p = .off then formatLoop s false p (out ++ [c])
    else match p.get c with
      | some name => formatLoop s false p (out ++ '\\' :: name)
      | none => .error .typeError

/-- `format_symbol` (util.py:153-173). -/
def formatSymbol (description : List Char) (matplotlib : Bool) : Except PyErr (List Char) :=
  match formatLoop description false .off (if matplotlib then ['$'] else []) with
  | .error e => .error e
  | .ok out => .ok (out ++ if matplotlib then ['$'] else [])

end Verif.Plot
