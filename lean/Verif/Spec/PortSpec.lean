import Verif.Model.Port
/-!
# Specification of ports
-/
namespace Acltk

/-- The operator text, empty if there is none. -/
def Port.operator (p : Port) : String := p.op.getD ""

/-- Lexicographic order of (operator, number text). -/
def PortBefore (p q : Port) : Prop :=
  p.operator < q.operator ∨ (p.operator = q.operator ∧ ∃ a b, p.num = some a ∧ q.num = some b ∧ a < b)

/-- Same operator and same number text. -/
def SamePort (p q : Port) : Prop := p.operator = q.operator ∧ p.num = q.num

/-- Non-empty and only ASCII digits, as the grammar's `[0-9]+`. -/
def DigitText (s : List Char) : Prop := s ≠ [] ∧ ∀ c ∈ s, c.isDigit = true

/-- The number a digit text denotes in base ten. -/
def digitValue (s : List Char) : Nat := Nat.ofDigitChars 10 s 0

end Acltk
