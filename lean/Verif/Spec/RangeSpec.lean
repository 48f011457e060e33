import Verif.Spec.AddrSpec
/-!
# Specification: the blocks of an address range
-/
namespace Acltk

/-- The networks a range is written with: the largest aligned block that begins at the first address and ends
within the range, then the blocks of what is left. -/
inductive RangeBlocks (v : Ver) : Nat → Nat → List Net → Prop
  | nil (a b : Nat) : b < a → RangeBlocks v a b []
  | cons (a b k : Nat) (l : List Net) : a ≤ b → k ≤ v.width → 2 ^ k ∣ a → a + 2 ^ k ≤ b + 1 →
      (∀ j, j ≤ v.width → 2 ^ j ∣ a → a + 2 ^ j ≤ b + 1 → j ≤ k) → RangeBlocks v (a + 2 ^ k) b l →
      RangeBlocks v a b (⟨v, a, v.width - k⟩ :: l)

end Acltk
