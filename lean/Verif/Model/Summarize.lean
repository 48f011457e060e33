import Verif.Model.Mask
import Verif.Model.Host
/-!
# Range objects and wildcard enumeration
-/
namespace Acltk

/-- The prefix-size exponent of one step of `summarize_address_range`, ipaddress.py:243-244. -/
def stepBits (v : Ver) (first last : Nat) : Nat :=
  min (countRightZeros first v.width) (bitLength (last - first + 1) - 1)

/-- The loop of `summarize_address_range`, ipaddress.py:239-250: `ip((first_int, ip_bits - nbits))`
is a strict constructor and raises ValueError when host bits are set. -/
def summarizeFrom (v : Ver) (first last : Nat) : Py (List Net) :=
  if first ≤ last then
    let nbits := stepBits v first last
    let net : Net := ⟨v, first, v.width - nbits⟩
    if net.addr &&& net.netmask ≠ net.addr then .error .value
    else if first + 2 ^ nbits - 1 = v.allOnes then .ok [net]
    else match summarizeFrom v (first + 2 ^ nbits) last with
      | .error e => .error e
      | .ok l => .ok (net :: l)
  else .ok []
termination_by last + 1 - first
decreasing_by
  have := Nat.two_pow_pos (stepBits v first last)
  omega

/-- `summarize_address_range`, ipaddress.py:200-252. -/
def summarizeRange (first last : Addr) : Py (List Net) :=
  if first.ver ≠ last.ver then .error .type
  else if first.ip > last.ip then .error .value
  else summarizeFrom first.ver first.ip last.ip

/-- `[Network(i.network_address, i.prefixlen) for i in nets]`, aclObjects.py:364-365. -/
def rebuildNets : List Net → Py (List Host)
  | [] => .ok []
  | n :: ns =>
    match mkNetwork n.networkAddress.text (decText n.plen) with
    | .error e => .error e
    | .ok m =>
      match rebuildNets ns with
      | .error e => .error e
      | .ok l => .ok (.net m :: l)

/-- The constructor arguments of `NetworkObject` (aclObjects.py:347-349) by type. Addresses are
texts (`str` of the address objects the parser hands over). -/
inductive ObjArgs where
  | empty                                    -- type None
  | nat                                      -- "nat"
  | host (address : List Char)
  | subnet (address mask : List Char)
  | range (start stop : List Char)
  | fqdn (limit : Option String)
  | other                                    -- any other type

/-- `NetworkObject.__init__`, aclObjects.py:347-374: the `addresses` attribute.  `limit` other than
v4/v6 leaves the attribute unset, so every later use raises AttributeError. -/
def objAddresses : ObjArgs → Py (List Host)
  | .empty => .ok []
  | .nat => .ok []
  | .host a =>
    match ipAddress a with
    | .ok x => .ok [.host x]
    | .error e => .error e
  | .subnet a m =>
    match mkNetwork a m with
    | .ok n => .ok [.net n]
    | .error e => .error e
  | .range start stop =>
    match ipAddress start with
    | .error e => .error e
    | .ok a =>
      match ipAddress stop with
      | .error e => .error e
      | .ok b =>
        match summarizeRange a b with
        | .error e => .error e
        | .ok l => rebuildNets l
  | .fqdn none => .ok [.any]
  | .fqdn (some l) =>
    if l = "v4" then .ok [.any4] else if l = "v6" then .ok [.any6] else .error .attribute
  | .other => .error .value

/-- An element of the set `NetworkWildcard._addresses` returns: an address or a network. -/
inductive WItem where
  | addr (a : Addr)
  | net (n : Net)
  deriving DecidableEq, Repr

/-- `ip_network(f"{ip_address(addr0)}/{p}")`, aclObjects.py:456: strict, so host bits raise. -/
def strictNet (address : List Char) (mask : List Char) : Py Net :=
  match mkNetwork address mask with
  | .error e => .error e
  | .ok n =>
    match ipAddress address with
    | .error e => .error e
    | .ok a => if a.ip = n.addr then .ok n else .error .value

/-- `ipaddress.ip_address(int)`, ipaddress.py:28-54 with an integer: IPv4 below 2^32, IPv6 below
2^128, else ValueError. -/
def intAddress (n : Nat) : Py Addr :=
  if n < 2 ^ 32 then .ok ⟨.v4, n⟩ else if n < 2 ^ 128 then .ok ⟨.v6, n⟩ else .error .value

/-- One pass of the `while` body of `NetworkWildcard._addresses`, aclObjects.py:447-472: the items
added and the entries appended to `todo`.  `math.floor(math.log(wild0, 2))` is taken to be the
exact integer logarithm (it is for every 32-bit number). -/
def wildStep (addr0 wild0 : Nat) : Py (List WItem × List (Nat × Nat)) :=
  if wild0 > 0 then
    let bit := wild0.log2
    if wild0 = 2 ^ (bit + 1) - 1 then
      match intAddress addr0 with
      | .error e => .error e
      | .ok a =>
        match strictNet a.text (decText (31 - bit)) with
        | .error e => .error e
        | .ok m => .ok ([.net m], [])
    else
      let addr1 := addr0 ||| (1 <<< bit)
      let wild1 := andNot wild0 (1 <<< bit)
      let t0 := if wild0 ≠ wild1 then [(addr0, wild1)] else []
      if (addr0, wild0) ≠ (addr1, wild1) then
        match intAddress addr0 with
        | .error e => .error e
        | .ok a0 =>
          match intAddress addr1 with
          | .error e => .error e
          | .ok a1 => .ok ([.addr a0, .addr a1], t0 ++ [(addr1, wild1)])
      else .ok ([], t0)
  else .ok ([], [])

/-- The `while len(todo)` loop with at most `fuel` passes; `none` means more were needed. -/
def wildLoop : Nat → List (Nat × Nat) → List WItem → Option (Py (List WItem))
  | _, [], acc => some (.ok acc)
  | 0, _ :: _, _ => none
  | fuel + 1, (a, w) :: todo, acc =>
    match wildStep a w with
    | .error e => some (.error e)
    | .ok (items, more) => wildLoop fuel (todo ++ more) (acc ++ items)

/-- `NetworkWildcard._addresses`, aclObjects.py:437-473, with at most `fuel` loop passes. The result
set is represented by a list (duplicates and order are irrelevant in a set). -/
def wildAddresses (fuel : Nat) (address wildcard : Nat) : Option (Py (List WItem)) :=
  let start := andNot address wildcard
  let wild := wildcard
  if andNot start wild = start then
    match intAddress start with
    | .error e => some (.error e)
    | .ok a => wildLoop fuel [(start, wild)] [.addr a]
  else wildLoop fuel [(start, wild)] []

end Acltk
