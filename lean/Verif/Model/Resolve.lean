import Verif.Model.Dict
import Verif.Model.Rule
/-!
# `ACLConfig.resolve`

The elements of the sets are strings, None and objects.  Objects hash by identity (the only class
with `__eq__` among them, `Port`, hashes by `id`, aclObjects.py:898-899).  The order in which a set is
iterated is not determined; it is given by an arbitrary schedule.
-/
namespace Acltk.Resolve
open Acltk

/-- An element of the set. -/
inductive El where
  | none
  | str (s : String)
  | obj (o : Oid)
  deriving DecidableEq, Repr

/-- What `resolve` reads of an `ACLRule` (aclObjects.py:1293-1311).  `protoName` is None when
`protocol.name` is an AttributeError (protocol None, or a `Service`, which has no name); `timeRanges`
are the option values that are `TimeRange` objects. -/
structure RuleInfo where
  protocol : El
  protoName : Option String
  srcHost : El
  srcPort : El
  dstPort : El
  dstHost : El
  id : Option String
  icmp : Option El
  timeRanges : List El
  deriving DecidableEq, Repr

/-- One side of a NAT object as `resolve` reads it (aclObjects.py:1313-1325): `node` of `src` and
`dst` if there is one, the interface and the service. -/
structure SideInfo where
  src : Option El
  dst : Option El
  iface : El
  service : El
  deriving DecidableEq, Repr

/-- The classes `resolve` distinguishes. -/
inductive Info where
  /-- `NetworkGroup`, `PortGroup`, `ServiceGroup`, `ProtocolGroup`, `ICMPGroup` -/
  | group (cls : String) (members : List El)
  /-- `Network`, `NetworkHost` -/
  | host (target : Option El)
  /-- `NetworkObject`, `ServiceObject`, `TimeRange` -/
  | named (cls : String)
  /-- `InterfaceAccessGroup` -/
  | accessGroup (iface : El)
  /-- `NATObject`; a missing side is None -/
  | nat (real mapped : Option SideInfo)
  | rule (r : RuleInfo)
  /-- anything else: protocols, ports, interfaces, any-networks, names, ... -/
  | plain
  deriving DecidableEq, Repr

/-- `r.add(x)` -/
def add (r : List El) (x : El) : List El := if x ∈ r then r else r ++ [x]

/-- `r.union(l)`, or a sequence of `r.add` -/
def addAll (r : List El) (l : List El) : List El := l.foldl add r

/-- The fields of one rule, aclObjects.py:1294-1311, in the order in which they are added.  Reading
`protocol.name` comes after the hosts, ports and the id; `access_groups[id]` is a list, so adding it
is a TypeError. -/
def ruleFields (accessGroups : List String) (i : RuleInfo) : Py (List El) :=
  match i.protoName with
  | .none => .error .attribute
  | some p =>
    let base := [i.protocol, i.srcHost, i.srcPort, i.dstPort, i.dstHost,
      match i.id with | some s => El.str s | .none => El.none]
    let icmp := if p = "icmp" ∨ p = "icmp6" then i.icmp.toList else []
    match i.id with
    | some s => if s ∈ accessGroups then .error .type else .ok (base ++ icmp ++ i.timeRanges)
    | .none => .ok (base ++ icmp ++ i.timeRanges)

/-- The fields of one side of a NAT object, aclObjects.py:1313-1318 / 1320-1325. -/
def sideFields : Option SideInfo → Py (List El)
  | .none => .error .attribute
  | some s => .ok (s.src.toList ++ s.dst.toList ++ [s.iface, s.service])

/-- One round of the first loop, aclObjects.py:1292-1325. -/
def fields (info : Oid → Info) (accessGroups : List String) : El → Py (List El)
  | .obj o =>
    match info o with
    | .rule r => ruleFields accessGroups r
    | .nat real mapped =>
      match sideFields real with
      | .error e => .error e
      | .ok a =>
        match sideFields mapped with
        | .error e => .error e
        | .ok b => .ok (a ++ b)
    | _ => .ok []
  | _ => .ok []

/-- The first loop over `list(r)` in some order, aclObjects.py:1292-1325. -/
def seed (info : Oid → Info) (accessGroups : List String) : List El → List El → Py (List El)
  | [], r => .ok r
  | x :: xs, r =>
    match fields info accessGroups x with
    | .error e => .error e
    | .ok l => seed info accessGroups xs (addAll r l)

/-- What processing one element adds, and whether the `for` loop is left, aclObjects.py:1334-1350. -/
def process (info : Oid → Info) : El → List El × Bool
  | .obj o =>
    match info o with
    | .group cls members => (.str cls :: members, true)
    | .host target =>
      match target with
      | some t => ([t, .str "Names"], true)
      | .none => ([], true)
    | .named cls => ([.str cls], true)
    | .accessGroup iface => ([iface, .str "Interface"], true)
    | .nat .. => ([.str "NAT"], false)
    | .rule .. => ([], false)
    | .plain => ([], false)
  | _ => ([], false)

/-- The `for` loop over `list(r)`, aclObjects.py:1329-1350; the flag is "left by break". -/
def scan (info : Oid → Info) : List El → List El → List El → List El × List El × Bool
  | [], r, done => (r, done, false)
  | x :: xs, r, done =>
    if x ∈ done then scan info xs r done
    else
      let p := process info x
      if p.2 then (addAll r p.1, x :: done, true)
      else scan info xs (addAll r p.1) (x :: done)

/-- The `while` loop, aclObjects.py:1328-1352.  `order n r` is the order in which the set `r` is
iterated in round `n`; `none` means that the rounds are used up. -/
def loop (info : Oid → Info) (order : Nat → List El → List El) :
    Nat → Nat → List El → List El → Option (List El)
  | 0, _, _, _ => .none
  | fuel + 1, n, r, done =>
    match scan info (order n r) r done with
    | (r', done', true) => loop info order fuel (n + 1) r' done'
    | (r', _, false) => some r'

/-- `ACLConfig.resolve(r)`, aclObjects.py:1291-1354, with at most `fuel` rounds of the `while` loop.
`accessGroups` are the keys of `config.access_groups`; `order0` is the order in which the selection is
iterated first. -/
def resolve (info : Oid → Info) (accessGroups : List String) (fuel : Nat)
    (order0 : List El → List El) (order : Nat → List El → List El) (sel : List El) :
    Py (Option (List El)) :=
  match seed info accessGroups (order0 sel) sel with
  | .error e => .error e
  | .ok r => .ok (loop info order fuel 0 r [])

end Acltk.Resolve
