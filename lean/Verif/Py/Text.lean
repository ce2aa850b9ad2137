import Verif.Py.Basic

/-!
# Python text operations used by several modelled modules

Text is a list of characters, bytes are a list of `UInt8`.
-/

namespace Verif

/-- Python `str`. -/
abbrev Str := List Char

/-- Python `bytes`. -/
abbrev Bytes := List UInt8

/-- `sub in s` for non-empty or empty `sub`. -/
def hasSub (sub : Str) : Str → Bool
  | [] => sub.isEmpty
  | c :: cs => sub.isPrefixOf (c :: cs) || hasSub sub cs

/-- `s.rstrip(c)` for one character. -/
def rstripChar (c : Char) (s : Str) : Str := (s.reverse.dropWhile (· == c)).reverse

/-- White space as seen by `str.split()`, `str.strip()` and `bytes.strip()`, restricted to
ASCII. -/
def isSpace (c : Char) : Bool :=
  c == ' ' || c == '\t' || c == '\n' || c == '\r' || c == Char.ofNat 11 || c == Char.ofNat 12

/-- `s.lstrip()`. -/
def lstrip (s : Str) : Str := s.dropWhile isSpace

/-- `s.strip()`. -/
def strip (s : Str) : Str := ((s.dropWhile isSpace).reverse.dropWhile isSpace).reverse

/-- `s.split(maxsplit=1)[0]`, the first word. The empty string stands for the IndexError of
a blank line; callers never pass one. -/
def firstWord (s : Str) : Str := (lstrip s).takeWhile fun c => !isSpace c

/-- `str.encode()`: UTF-8. -/
def utf8 (s : Str) : Bytes := s.flatMap String.utf8EncodeChar

/-- `str(b, 'latin-1')`. -/
def latin1 (b : Bytes) : Str := b.map fun x => Char.ofNat x.toNat

/-- Decimal digits of a natural number, most significant first. -/
def natStr (n : Nat) : Str :=
  if n < 10 then [Char.ofNat (48 + n)] else natStr (n / 10) ++ [Char.ofNat (48 + n % 10)]
termination_by n
decreasing_by omega

/-- `str(i)` for a Python int. -/
def intStr : Int → Str
  | .ofNat n => natStr n
  | .negSucc n => '-' :: natStr (n + 1)

/-- Value of a digit string, left to right. -/
def digitsVal (acc : Nat) : Str → Option Nat
  | [] => some acc
  | c :: cs => if c.isDigit then digitsVal (acc * 10 + (c.toNat - 48)) cs else none

/-- `int(s)` for text without underscores, surrounding white space and non-ASCII digits (for
those, Python accepts more than this function; they do not occur in the theorems). -/
def parseInt : Str → Except PyErr Int
  | [] => .error .valueError
  | c :: cs =>
    if c == '-' || c == '+' then
      match cs with
      | [] => .error .valueError
      | _ => match digitsVal 0 cs with
        | some n => .ok (if c == '-' then -(n : Int) else n)
        | none => .error .valueError
    else match digitsVal 0 (c :: cs) with
      | some n => .ok n
      | none => .error .valueError

/-- `n` little-endian bytes of a natural number. -/
def leBytes : Nat → Nat → Bytes
  | 0, _ => []
  | n + 1, x => UInt8.ofNat x :: leBytes n (x / 256)

/-- Natural number from little-endian bytes. -/
def leNat : Bytes → Nat
  | [] => 0
  | b :: bs => b.toNat + 256 * leNat bs

/-- Two's complement bit pattern of an integer in `n` bytes. -/
def toBits (n : Nat) (i : Int) : Nat := (i % (256 ^ n : Nat)).toNat

/-- Integer with the given two's complement bit pattern in `n` bytes. -/
def ofBits (n : Nat) (x : Nat) : Int := if 2 * x < 256 ^ n then (x : Int) else (x : Int) - (256 ^ n : Nat)

/-- `f.readline()` on the rest of a binary file: the line with its newline, and what follows. -/
def readline : Bytes → Bytes × Bytes
  | [] => ([], [])
  | b :: bs => if b = 10 then ([b], bs) else let r := readline bs; (b :: r.1, r.2)

end Verif
