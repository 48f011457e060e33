import Verif.Spec.PortSpec
/-!
# Specification: the texts Python's `int()` reads (ASCII part)
-/
namespace Acltk

/-- One ASCII blank: space, tab, line feed, vertical tab, form feed, carriage return, or one of the
four separators 28 to 31. -/
def Blank (c : Char) : Prop := c.toNat ∈ [32, 9, 10, 11, 12, 13, 28, 29, 30, 31]

/-- Digits with at most one underscore between two of them, the number of digits and the value.  (Read
from the left: the value so far, then one more digit.) -/
inductive Digits : List Char → Nat → Nat → Prop
  | one (c : Char) : c.isDigit = true → Digits [c] 1 (c.toNat - '0'.toNat)
  | digit (s : List Char) (k n : Nat) (c : Char) : Digits s k n → c.isDigit = true →
      Digits (s ++ [c]) (k + 1) (10 * n + (c.toNat - '0'.toNat))
  | underscore (s : List Char) (k n : Nat) (c : Char) : Digits s k n → c.isDigit = true →
      Digits (s ++ ['_', c]) (k + 1) (10 * n + (c.toNat - '0'.toNat))

/-- The text of an integer: blanks, an optional sign, at most 4300 digits, blanks. -/
inductive IntText : List Char → Int → Prop
  | plain (a s b : List Char) (k n : Nat) : (∀ c ∈ a, Blank c) → (∀ c ∈ b, Blank c) → Digits s k n → k ≤ 4300 →
      IntText (a ++ s ++ b) n
  | plus (a s b : List Char) (k n : Nat) : (∀ c ∈ a, Blank c) → (∀ c ∈ b, Blank c) → Digits s k n → k ≤ 4300 →
      IntText (a ++ '+' :: s ++ b) n
  | minus (a s b : List Char) (k n : Nat) : (∀ c ∈ a, Blank c) → (∀ c ∈ b, Blank c) → Digits s k n → k ≤ 4300 →
      IntText (a ++ '-' :: s ++ b) (- (n : Int))

end Acltk
