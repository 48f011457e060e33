import Verif.Spec.NetSpec
/-!
# Specification: the texts of IPv6 addresses (RFC 4291, section 2.2)
-/
namespace Acltk

/-- `c` is the hexadecimal digit `d`, in lower or upper case. -/
def HexDigit (c : Char) (d : Nat) : Prop :=
  d < 16 ∧ (c = "0123456789abcdef".toList.getD d ' ' ∨ c = "0123456789ABCDEF".toList.getD d ' ')

/-- One to four hexadecimal digits and the number they stand for. -/
inductive Group16 : List Char → Nat → Prop
  | one (c d) : HexDigit c d → Group16 [c] d
  | more (s n c d) : Group16 s n → s.length < 4 → HexDigit c d → Group16 (s ++ [c]) (16 * n + d)

/-- One or more groups separated by single colons, and their numbers.  If `quad`, the last two
groups may be written as a dotted quad. -/
inductive Groups (quad : Bool) : List Char → List Nat → Prop
  | one (s n) : Group16 s n → Groups quad s [n]
  | quad (q) : quad = true → q < 2 ^ 32 → Groups quad (Dotted q) [q / 65536, q % 65536]
  | cons (s n t ns) : Group16 s n → Groups quad t ns → Groups quad (s ++ ':' :: t) (n :: ns)

/-- The number made of 16-bit groups, most significant first. -/
def groupsValue : List Nat → Nat
  | [] => 0
  | n :: ns => n * 65536 ^ ns.length + groupsValue ns

/-- The text of an IPv6 address: eight groups, or groups around one `::`, which stands for at least
one group of zeros. -/
inductive V6Text (s : List Char) (n : Nat) : Prop
  | full (ns : List Nat) : Groups true s ns → ns.length = 8 → n = groupsValue ns → V6Text s n
  | short (a b : List Char) (hs ls : List Nat) :
      s = a ++ ':' :: ':' :: b →
      (a = [] ∧ hs = [] ∨ Groups false a hs) → (b = [] ∧ ls = [] ∨ Groups true b ls) →
      hs.length + ls.length ≤ 7 →
      n = groupsValue (hs ++ List.replicate (8 - (hs.length + ls.length)) 0 ++ ls) → V6Text s n

end Acltk
