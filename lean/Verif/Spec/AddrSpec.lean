import Verif.Model.Addr
/-!
# Specification: which addresses a network or wildcard denotes

Written with plain intervals and single bits, not with masks.
-/
namespace Acltk

/-- The network `addr/plen` denotes the `2^(width-plen)` consecutive addresses of its
version starting at `addr`. -/
def Net.Denotes (n : Net) (x : Addr) : Prop :=
  x.ver = n.ver ∧ n.addr ≤ x.ip ∧ x.ip < n.addr + 2 ^ (n.ver.width - n.plen)

/-- An IPv4 address agrees with `a` on every bit position that is not set in the wildcard `w`. -/
def AgreesOff (a w x : Nat) : Prop := ∀ i, w.testBit i = false → x.testBit i = a.testBit i

end Acltk
