import Verif.Model.FwsmText
import Verif.Spec.ConfigSpec
/-!
# Specification for C107: what references stand for

An element of a parse result refers to definitions: by the object itself (hosts, which carry their name and contents) or by its identity.
-/
namespace Acltk.FwsmText
open Acltk

/-- The hosts of some sides of a NAT entry. -/
def nodeHosts (l : List (Option NatCmd.Node')) : List Host :=
  l.filterMap fun
    | some (.host h) => some h
    | _ => none

/-- The hosts an element was written with: source and destination of a rule, members of a network group, the nodes of a NAT entry.
The real source of the NAT entry of a network object is not written, it is the object. -/
def hostsOf : Item → List Host
  | .rule r => [r.src.host, r.dst.host]
  | .netGroup _ l _ => l
  | .nat n => nodeHosts [n.real.src, n.real.dst, n.mapped.src, n.mapped.dst]
  | .netObj _ _ (some n) _ => nodeHosts [n.real.dst, n.mapped.src, n.mapped.dst]
  | _ => []

/-- The port group of a side of a rule. -/
def portIds : Option AclText.PortVal → List (Config.Kind × Nat)
  | some (.group o) => [(.portGroup, o)]
  | _ => []

/-- The group or object that stands for the protocol of a rule. -/
def protoIds : AclText.Proto → List (Config.Kind × Nat)
  | .name _ => []
  | .svcGroup o => [(.svcGroup, o)]
  | .protoGroup o => [(.protoGroup, o)]
  | .svcObj o => [(.svcObj, o)]

/-- The ICMP group of a rule. -/
def icmpIds : Option AclText.IcmpVal → List (Config.Kind × Nat)
  | some (.group o) => [(.icmpGroup, o)]
  | _ => []

/-- The time range of an option. -/
def optIds : AclText.Opt → List (Config.Kind × Nat)
  | .timeRange o => [(.timeRange, o)]
  | _ => []

/-- The objects an element refers to by identity, with their kind. -/
def idsOf : Item → List (Config.Kind × Nat)
  | .rule r => protoIds r.protocol ++ portIds r.src.port ++ portIds r.dst.port ++ icmpIds r.icmp ++ r.options.flatMap fun p => optIds p.2
  | .portGroup _ _ _ l _ => l.flatMap fun | .group o => [(.portGroup, o)] | _ => []
  | .svcGroup _ _ l _ => l.flatMap fun | .group o => [(.svcGroup, o)] | .obj o => [(.svcObj, o)] | _ => []
  | .icmpGroup _ _ l _ => l.flatMap fun | .group o => [(.icmpGroup, o)] | _ => []
  | .protoGroup _ _ l _ => l.flatMap fun | .group o => [(.protoGroup, o)] | _ => []
  | _ => []

/-- The services of a NAT command. -/
def servicesOf : Item → List NatCmd.Svc
  | .nat n => n.real.service.toList ++ n.mapped.service.toList
  | _ => []

/-- Name and addresses of a network object. -/
def netObjDef : Item → Option (String × List Host)
  | .netObj n l _ _ => some (n, l)
  | _ => none

/-- Name and members of a network group. -/
def netGroupDef : Item → Option (String × List Host)
  | .netGroup n l _ => some (n, l)
  | _ => none

/-- Name and contents of a service object. -/
def svcDef : Item → Option (String × Svc)
  | .svcObj _ n v _ => some (n, v)
  | _ => none

/-- Name and identity of a definition of the other kinds. -/
def idDef : Config.Kind → Item → Option (String × Nat)
  | .timeRange, .timeRange o n _ => some (n, o)
  | .svcObj, .svcObj o n _ _ => some (n, o)
  | .portGroup, .portGroup o n _ _ _ => some (n, o)
  | .svcGroup, .svcGroup o n _ _ => some (n, o)
  | .icmpGroup, .icmpGroup o n _ _ => some (n, o)
  | .protoGroup, .protoGroup o n _ _ => some (n, o)
  | _, _ => none

/-- The first definition of a name. -/
def firstOf {α : Type} (f : Item → Option (String × α)) (l : List Item) (n : String) : Option α :=
  ((l.filterMap f).find? fun p => p.1 == n).map (·.2)

/-- The last definition of a name. -/
def lastOf {α : Type} (f : Item → Option (String × α)) (l : List Item) (n : String) : Option α := firstOf f l.reverse n

/-- The definition that a name stands for behind these elements: for objects the first one, for groups and time ranges the last one. -/
def inForce (c : Config.Kind) (l : List Item) (n : String) : Option Nat :=
  match c with
  | .svcObj => firstOf (idDef .svcObj) l n
  | c => lastOf (idDef c) l n

/-- A network object or group is the one in force; an address, network, interface or any stands for itself. -/
def HostInForce (before : List Item) : Host → Prop
  | .obj n l => firstOf netObjDef before n = some l
  | .group n l => lastOf netGroupDef before n = some l
  | _ => True

/-- A service object as a NAT entry has it. -/
def natService (n : String) (v : Svc) : NatCmd.Svc :=
  { name := some n, protocol := v.protocol, src := v.src.map .cond, dst := v.dst.map .cond, icmpType := v.icmpType, icmpCode := v.icmpCode }

/-- The identity an element defines. -/
def identOf : Item → Option Nat
  | .timeRange o _ _ => some o
  | .svcObj o _ _ _ => some o
  | .portGroup o _ _ _ _ => some o
  | .svcGroup o _ _ _ => some o
  | .icmpGroup o _ _ _ => some o
  | .protoGroup o _ _ _ => some o
  | _ => none

end Acltk.FwsmText
