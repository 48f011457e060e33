import Verif.Model.Group
import Verif.Model.Port
/-!
# Sorting groups

`sorted(l, key=f)` of CPython: all keys are computed first, then the items are arranged by a stable
sort on the keys.  `List.mergeSort` is a stable sort, and a stable sort is unique.
-/
namespace Acltk

/-- All keys, in order; the first exception propagates. -/
def keysOf {α κ : Type} (key : α → Py κ) : List α → Py (List (κ × α))
  | [] => .ok []
  | x :: t =>
    match key x with
    | .error e => .error e
    | .ok k =>
      match keysOf key t with
      | .error e => .error e
      | .ok r => .ok ((k, x) :: r)

/-- `sorted(l, key=key)` (CPython), used at aclObjects.py:317, 665, 738, 964. -/
def pySorted {α κ : Type} (key : α → Py κ) (le : κ → κ → Bool) (l : List α) : Py (List α) :=
  match keysOf key l with
  | .error e => .error e
  | .ok ps => .ok ((ps.mergeSort (fun p q => le p.1 q.1)).map (·.2))

/-- `nstrsum`, aclObjects.py:13-15, with the index of the first character. -/
def nstrsumFrom : Nat → List Char → Int
  | _, [] => 0
  | i, c :: t => ((c.toNat : Int) - 255) * 2 ^ i + nstrsumFrom (i + 1) t

/-- `nstrsum(x)`, aclObjects.py:13-15. -/
def nstrsum (s : String) : Int := nstrsumFrom 0 s.toList

/-- `NetworkGroup.key_of`, aclObjects.py:644-657.  (`Webtype`, a `NetworkAny` subclass, is not a
`Host` of the model; the CAF keywords are, and have their own class names.) -/
def netKey : Host → Py Int
  | .net n => .ok n.addr
  | .host a => .ok a.ip
  | .group nm _ => .ok (nstrsum nm)
  | .any => .ok (nstrsum "NetworkAny")
  | .any4 => .ok (nstrsum "NetworkAny4")
  | .any6 => .ok (nstrsum "NetworkAny6")
  | .cafAny => .ok (nstrsum "cafNetworkAny")
  | .cafAny4 => .ok (nstrsum "cafNetworkAny4")
  | .cafAny6 => .ok (nstrsum "cafNetworkAny6")
  | .obj nm _ => .ok (nstrsum nm)
  | .wild _ _ => .error .value
  | .iface _ => .error .value

/-- Python's `<=` on integers. -/
def intLe (a b : Int) : Bool := decide (a ≤ b)

/-- `NetworkGroup.sort(insitu)`, aclObjects.py:659-667: members of the group itself afterwards and
the members of the returned group or the exception.  With `insitu=False` the method first calls
`self.collapse(insitu=False)` and then overwrites the members of the result by the sorted members of
`self`.  When `collapse` works on `self` (every member a Network or NetworkObject) the returned
group is `self`. -/
def netSort (insitu : Bool) (objs : List Host) : List Host × Py (List Host) :=
  if insitu then
    match pySorted netKey intLe objs with
    | .error e => (objs, .error e)
    | .ok l => (l, .ok l)
  else
    match collapse false objs with
    | (after, .error e) => (after, .error e)
    | (after, .ok _) =>
      match pySorted netKey intLe after with
      | .error e => (after, .error e)
      | .ok l => (if objs.any (fun o => !o.isNetOrObj) then after else l, .ok l)

/-- `Protocol`, aclObjects.py:282-290: just the text. -/
abbrev Protocol := String

/-- `ProtocolGroup.key_of`, aclObjects.py:299-309. -/
def protoKey : GTree Protocol → Py Int
  | .leaf p => .ok (match pyInt p.toList with | some n => n | none => nstrsum p)
  | .group nm _ => .ok (nstrsum nm)

/-- `PortGroup.key_of`'s `_key`, aclObjects.py:938-947; `getserv` is the operating system's
`socket.getservbyname`, `none` for OSError.  `int(None)` raises TypeError. -/
def portTextKey (getserv : String → Option Nat) : Option String → Py Int
  | none => .error .type
  | some x =>
    match pyInt x.toList with
    | some n => .ok n
    | none =>
      match getserv x with
      | some n => .ok n
      | none => .ok (nstrsum x)

/-- `PortGroup.key_of`, aclObjects.py:936-956. -/
def portKey (getserv : String → Option Nat) : GTree PortLeaf → Py Int
  | .leaf (.port p) => portTextKey getserv p.num
  | .leaf (.range start _) => portTextKey getserv (some start)
  | .group nm _ => .ok (nstrsum nm)

/-- The key tuple of `ServiceGroup.key_of`. -/
structure SvcKey where
  proto : String
  src : Int
  dst : Int
  code : String
  typ : String
  deriving DecidableEq

/-- The port key of a service, aclObjects.py:719-720 (`0` if there is none).  The port of a service
may be a port, a range or a port group. -/
def svcPortKey (getserv : String → Option Nat) : Option (GTree PortLeaf) → Py Int
  | none => .ok 0
  | some p => portKey getserv p

/-- The service inside a member (a ServiceObject is a Service, aclObjects.py:700). -/
def svcOf {P : Type} : SvcLeaf P → Service P
  | .service s => s
  | .object _ _ s => s

/-- `ServiceGroup.key_of`, aclObjects.py:715-730.  (The `Protocol` branch is dead: `add` rejects a
bare Protocol.) -/
def svcKey (getserv : String → Option Nat) : GTree (SvcLeaf (GTree PortLeaf)) → Py SvcKey
  | .leaf s =>
    match svcPortKey getserv (svcOf s).src with
    | .error e => .error e
    | .ok a =>
      match svcPortKey getserv (svcOf s).dst with
      | .error e => .error e
      | .ok b => .ok ⟨(svcOf s).protocol, a, b, (svcOf s).icmpCode.getD "", (svcOf s).icmpType.getD ""⟩
  | .group nm _ => .ok ⟨nm, 0, 0, "", ""⟩

/-- Python's `<=` on the key tuples: the first differing component decides. -/
def svcLe (a b : SvcKey) : Bool :=
  if a.proto ≠ b.proto then decide (a.proto < b.proto)
  else if a.src ≠ b.src then decide (a.src < b.src)
  else if a.dst ≠ b.dst then decide (a.dst < b.dst)
  else if a.code ≠ b.code then decide (a.code < b.code)
  else decide (a.typ ≤ b.typ)

/-- `ProtocolGroup.sort` (311-319) and `ServiceGroup.sort` (732-739): with `insitu=False` they call
`self.collapse`, which these classes do not have. -/
def collapseSort {α κ : Type} (key : GTree α → Py κ) (le : κ → κ → Bool) (insitu : Bool)
    (objs : List (GTree α)) : List (GTree α) × Py (List (GTree α)) :=
  if insitu then
    match pySorted key le objs with
    | .error e => (objs, .error e)
    | .ok l => (l, .ok l)
  else (objs, .error .attribute)

/-- `PortGroup.sort`, aclObjects.py:958-965. -/
def portSort (getserv : String → Option Nat) (insitu : Bool) (objs : List (GTree PortLeaf)) :
    List (GTree PortLeaf) × Py (List (GTree PortLeaf)) :=
  if insitu then
    match pySorted (portKey getserv) intLe objs with
    | .error e => (objs, .error e)
    | .ok l => (l, .ok l)
  else
    match portExpand false objs with
    | (after, copy) =>
      match pySorted (portKey getserv) intLe copy with
      | .error e => (after, .error e)
      | .ok l => (after, .ok l)

end Acltk
