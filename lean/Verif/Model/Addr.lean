import Verif.Model.Py
/-!
# Addresses and networks

The part of CPython 3.11 `ipaddress` that acltk relies on, at the level of integers
(`ipaddress.py` is the standard library module; acltk calls it from
aclObjects.py:33, 42, 364, 388, 410, 418, 434-435, 477-481, 567, 634).
-/
namespace Acltk

/-- IP version. -/
inductive Ver where
  | v4 | v6
  deriving DecidableEq, Repr

/-- `_max_prefixlen`: 32 or 128 (ipaddress.py:1256, 1852 `IPV4LENGTH`, `IPV6LENGTH`). -/
def Ver.width : Ver → Nat
  | .v4 => 32
  | .v6 => 128

/-- `_ALL_ONES = (2**IPV4LENGTH) - 1` (ipaddress.py `_BaseV4._ALL_ONES`, `_BaseV6._ALL_ONES`). -/
def Ver.allOnes (v : Ver) : Nat := 2 ^ v.width - 1

/-- `IPv4Address` / `IPv6Address`: the version and the integer `_ip`.
IPv6 scope ids are not modelled. -/
structure Addr where
  ver : Ver
  ip : Nat
  deriving DecidableEq, Repr

/-- The invariant every constructed `IPv4Address`/`IPv6Address` has
(`_check_int_address`, ipaddress.py). -/
def Addr.Valid (a : Addr) : Prop := a.ip < 2 ^ a.ver.width

instance (a : Addr) : Decidable a.Valid := inferInstanceAs (Decidable (_ < _))

/-- `_ip_int_from_prefix`: `cls._ALL_ONES ^ (cls._ALL_ONES >> prefixlen)` (ipaddress.py). -/
def Ver.maskOf (v : Ver) (plen : Nat) : Nat := v.allOnes ^^^ (v.allOnes >>> plen)

/-- `IPv4Network` / `IPv6Network`: version, integer network address, prefix length. -/
structure Net where
  ver : Ver
  addr : Nat
  plen : Nat
  deriving DecidableEq, Repr

/-- `network.netmask` as integer. -/
def Net.netmask (n : Net) : Nat := n.ver.maskOf n.plen

/-- `network.hostmask`: `int(self.netmask) ^ self._ALL_ONES`. -/
def Net.hostmask (n : Net) : Nat := n.netmask ^^^ n.ver.allOnes

/-- `network.broadcast_address`: `int(self.network_address) | int(self.hostmask)`. -/
def Net.broadcast (n : Net) : Addr := ⟨n.ver, n.addr ||| n.hostmask⟩

/-- `network.network_address`. -/
def Net.networkAddress (n : Net) : Addr := ⟨n.ver, n.addr⟩

/-- The invariant of every constructed network: prefix length within bounds, address within
bounds, host bits clear (`strict=False` clears them, `strict=True` rejects them). -/
def Net.Valid (n : Net) : Prop :=
  n.plen ≤ n.ver.width ∧ n.addr < 2 ^ n.ver.width ∧ n.addr &&& n.netmask = n.addr

instance (n : Net) : Decidable n.Valid := inferInstanceAs (Decidable (_ ∧ _ ∧ _))

/-- `_BaseNetwork.__contains__` for an address argument:
version check, then `other._ip & self.netmask._ip == self.network_address._ip`. -/
def Net.containsAddr (n : Net) (a : Addr) : Bool :=
  if n.ver ≠ a.ver then false else (a.ip &&& n.netmask) == n.addr

/-- `_BaseNetwork.overlaps`. -/
def Net.overlaps (self other : Net) : Bool :=
  other.containsAddr self.networkAddress ||
  (other.containsAddr self.broadcast ||
  (self.containsAddr other.networkAddress ||
   self.containsAddr other.broadcast))

/-- Python's `x & ~w` for non-negative integers: the bits of `x` not in `w`. -/
def andNot (x w : Nat) : Nat := x ^^^ (x &&& w)

end Acltk
