import Verif.Model.Addr
/-!
# Hosts and host matching (`a & b`)

Every class that can be the `host` of an `ACLNode` (aclObjects.py:1021-1041), with its
`__and__` method.  `meet fuel a b` is `a & b` with `fuel` stack frames left; a call with no
frame left raises `RecursionError`, as CPython does.  Each Python-level `__and__` call
costs one frame.
-/
namespace Acltk

/-- The host classes.
* `net` — `Network` (aclObjects.py:386-429); the `target` back reference is not needed for
  matching and is left out (it is in the model of `resolve`).
* `host` — `NetworkHost` (565-580)
* `wild` — `NetworkWildcard` (432-486) with the integers of address and wildcard
* `any` — `NetworkAny` (489-497); also `iosObjects.Webtype`-like subclasses without own `__and__`
* `any4`, `any6` — 511-562
* `iface` — `NetworkInterface` (500-508)
* `obj` — `NetworkObject` (346-383) with its list of addresses
* `group` — `NetworkGroup` (583-678) with its list of members
* `cafAny`, `cafAny4`, `cafAny6` — cafObjects.py:125-173 -/
inductive Host where
  | net (n : Net)
  | host (a : Addr)
  | wild (addr wildcard : Nat)
  | any
  | any4
  | any6
  | iface (name : String)
  | obj (name : String) (addresses : List Host)
  | group (name : String) (members : List Host)
  | cafAny
  | cafAny4
  | cafAny6
  deriving Repr

/-- `isinstance(x, NetworkAny)` (`cafNetworkAny` is a subclass, cafObjects.py:125). -/
def Host.isNetworkAny : Host → Bool
  | .any => true
  | .cafAny => true
  | _ => false

/-- `isinstance(x, NetworkAny4)` (cafObjects.py:142). -/
def Host.isNetworkAny4 : Host → Bool
  | .any4 => true
  | .cafAny4 => true
  | _ => false

/-- `isinstance(x, NetworkAny6)` (cafObjects.py:159). -/
def Host.isNetworkAny6 : Host → Bool
  | .any6 => true
  | .cafAny6 => true
  | _ => false

/-- `NetworkWildcard.__and__` on a host, aclObjects.py:476-477. No version check. -/
def wildHost (addr wildcard : Nat) (a : Addr) : Bool :=
  andNot a.ip wildcard == andNot addr wildcard

/-- `NetworkWildcard.__and__` on a network, aclObjects.py:478-481. No version check. -/
def wildNet (addr wildcard : Nat) (n : Net) : Bool :=
  andNot n.addr wildcard == andNot (addr &&& n.netmask) wildcard

/-- `a & b`, dispatched on the class of the left operand. -/
def meet : Nat → Host → Host → Py Bool
  | 0, _, _ => .error .recursion
  | fuel + 1, a, b =>
    match a with
    -- Network.__and__, aclObjects.py:394-426
    | .net n =>
      match b with
      | .host x => .ok (n.containsAddr x)
      | .any | .cafAny => meet fuel b a
      | .any4 | .cafAny4 => meet fuel b a
      | .any6 | .cafAny6 => meet fuel b a
      | .net m => .ok (n.overlaps m || m.overlaps n)
      | .group .. => meet fuel b a
      | .obj .. => meet fuel b a
      | .wild .. => meet fuel b a
      | .iface _ => meet fuel b a
    -- NetworkWildcard.__and__, aclObjects.py:475-483
    | .wild x w =>
      match b with
      | .host y => .ok (wildHost x w y)
      | .net m => .ok (wildNet x w m)
      | _ => meet fuel b a
    -- NetworkAny.__and__, aclObjects.py:493-494
    | .any => .ok true
    -- NetworkInterface.__and__, aclObjects.py:504-505
    | .iface _ => .ok true
    -- NetworkAny4.__and__, aclObjects.py:514-532
    | .any4 =>
      match b with
      | .host y => .ok (decide (y.ver = .v4))
      | .net m => .ok (decide (m.ver = .v4))
      | .wild .. => .ok true
      | .any6 | .cafAny6 => .ok false
      | .any4 | .cafAny4 | .any | .cafAny => .ok true
      | _ => meet fuel b a
    -- NetworkAny6.__and__, aclObjects.py:541-559
    | .any6 =>
      match b with
      | .host y => .ok (decide (y.ver = .v6))
      | .net m => .ok (decide (m.ver = .v6))
      | .wild .. => .ok false
      | .any4 | .cafAny4 => .ok false
      | .any6 | .cafAny6 | .any | .cafAny => .ok true
      | _ => meet fuel b a
    -- NetworkHost.__and__, aclObjects.py:573-577
    | .host x =>
      match b with
      | .host y => .ok (decide (x = y))
      | _ => meet fuel b a
    -- NetworkObject.__and__, aclObjects.py:376-380
    | .obj _ l => loopAny (fun i => meet fuel i b) l
    -- NetworkGroup.__and__, aclObjects.py:669-673
    | .group _ l => loopAny (fun i => meet fuel i b) l
    -- cafNetworkAny.__and__, cafObjects.py:129-136
    | .cafAny =>
      if b.isNetworkAny then .ok true
      else match b with
        | .group _ l => loopAny (fun i => meet fuel a i) l
        | _ => .ok false
    -- cafNetworkAny4.__and__, cafObjects.py:146-153
    | .cafAny4 =>
      if b.isNetworkAny4 then .ok true
      else match b with
        | .group _ l => loopAny (fun i => meet fuel a i) l
        | _ => .ok false
    -- cafNetworkAny6.__and__, cafObjects.py:163-170
    | .cafAny6 =>
      if b.isNetworkAny6 then .ok true
      else match b with
        | .group _ l => loopAny (fun i => meet fuel a i) l
        | _ => .ok false

end Acltk
