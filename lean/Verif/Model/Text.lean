/-!
# Text primitives

Python `str` as a list of characters; the few `str` methods the modelled code uses.
-/
namespace Acltk

/-- `s.split(c)` for a one-character separator: the pieces between the separators, at least
one piece.  (Used at ipaddress.py:157-160, 1210, 1673, aclObjects.py:850-865, iosSemantics.py.) -/
def splitOn (c : Char) : List Char → List (List Char)
  | [] => [[]]
  | x :: xs =>
    if x = c then [] :: splitOn c xs
    else match splitOn c xs with
      | [] => [[x]]
      | p :: ps => (x :: p) :: ps

/-- `c.join(pieces)` for a one-character separator. -/
def joinWith (c : Char) : List (List Char) → List Char
  | [] => []
  | [p] => p
  | p :: q :: ps => p ++ c :: joinWith c (q :: ps)

/-- `str(n)` for a non-negative integer. -/
def decText (n : Nat) : List Char := Nat.toDigits 10 n

/-- `s.isascii() and s.isdigit()`: non-empty and only `0`-`9`. -/
def isDigits (s : List Char) : Bool := !s.isEmpty && s.all Char.isDigit

/-- `int(s)` for a text of ASCII digits.  CPython refuses more than 4300 digits
(`sys.int_info.default_max_str_digits`) with a ValueError. -/
def intOfDigits (s : List Char) : Option Nat :=
  if isDigits s ∧ s.length ≤ 4300 then some (Nat.ofDigitChars 10 s 0) else none

/-- `n.bit_length()`. -/
def bitLength (n : Nat) : Nat := if n = 0 then 0 else n.log2 + 1

end Acltk
