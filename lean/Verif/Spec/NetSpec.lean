import Verif.Spec.AddrSpec
/-!
# Specification: masks and address texts
-/
namespace Acltk

/-- Dotted decimal notation of a 32-bit number, written with Lean's own number printing. -/
def Dotted (q : Nat) : List Char :=
  (toString (q / 2 ^ 24) ++ "." ++ toString (q / 2 ^ 16 % 256) ++ "." ++
    toString (q / 2 ^ 8 % 256) ++ "." ++ toString (q % 256)).toList

/-- The mask text `s` stands for the prefix length `n` in an address of version `v`:
a decimal prefix length, or (IPv4 only) the dotted netmask of `n` ones followed by zeros, or the
dotted hostmask of `n` zeros followed by ones.  The texts `0.0.0.0` and `255.255.255.255` have a
netmask reading only (`/0` and `/32`).  CPython converts at most 4300 digits. -/
inductive MaskText (v : Ver) (s : List Char) (n : Nat) : Prop
  | prefixLen : s ≠ [] → (∀ c ∈ s, c.isDigit = true) → s.length ≤ 4300 →
      Nat.ofDigitChars 10 s 0 = n → n ≤ v.width → MaskText v s n
  | netmask : v = .v4 → n ≤ 32 → s = Dotted (2 ^ 32 - 2 ^ (32 - n)) → MaskText v s n
  | hostmask : v = .v4 → 1 ≤ n → n ≤ 31 → s = Dotted (2 ^ (32 - n) - 1) → MaskText v s n

/-- Addresses `x` and `y` have the same version and agree on the `n` most significant bits. -/
def AgreeTop (n : Nat) (x y : Addr) : Prop :=
  x.ver = y.ver ∧ ∀ i, y.ver.width - n ≤ i → x.ip.testBit i = y.ip.testBit i

/-- The 32-bit number is a netmask: `p` ones followed by zeros. -/
def NetmaskShaped (w : Nat) : Prop := ∃ p, p ≤ 32 ∧ w = 2 ^ 32 - 2 ^ (32 - p)

/-- `x` lies in the range from `a` to `b`, both inclusive. -/
def InRange (a b x : Addr) : Prop := x.ver = a.ver ∧ a.ip ≤ x.ip ∧ x.ip ≤ b.ip

/-- `x` belongs to one of the networks. -/
def CoversNets (l : List Net) (x : Addr) : Prop := ∃ n ∈ l, n.Denotes x

/-- The last address of `n` is below the first address of `m`. -/
def Below (n m : Net) : Prop := n.addr + 2 ^ (n.ver.width - n.plen) ≤ m.addr

/-- No aggregation is missed: every network whose addresses are all covered by the list lies within
a single member of the list. -/
def Aggregated (v : Ver) (l : List Net) : Prop :=
  ∀ b : Net, b.Valid → b.ver = v → (∀ x, b.Denotes x → CoversNets l x) →
    ∃ n ∈ l, ∀ x, b.Denotes x → n.Denotes x

end Acltk
