import Verif.Model.Config
import Verif.Spec.AddrSpec
/-!
# Specification vocabulary for C35, C36, C38, C39, C42

Everything is defined on the list of items of the parse result; nothing refers to the state built
by the constructors.
-/
namespace Acltk.Config
open Acltk

/-- The kinds of named definitions. -/
inductive Kind where
  | timeRange | netObj | svcObj | portGroup | svcGroup | protoGroup | icmpGroup | netGroup
  deriving DecidableEq, Repr

/-- The name and the object an item defines, if it defines one of this kind. -/
def definesOf : Kind → Item → Option (String × Oid)
  | .timeRange, .timeRange n o => some (n, o)
  | .netObj, .netObj n o _ => some (n, o)
  | .svcObj, .svcObj n o => some (n, o)
  | .portGroup, .portGroup n o => some (n, o)
  | .svcGroup, .svcGroup n o => some (n, o)
  | .protoGroup, .protoGroup n o => some (n, o)
  | .icmpGroup, .icmpGroup n o => some (n, o)
  | .netGroup, .netGroup n o => some (n, o)
  | _, _ => none

/-- All definitions of `name`, in file order. -/
def defsOf (k : Kind) (items : List Item) (name : String) : List Oid :=
  ((items.filterMap (definesOf k)).filter (fun p => p.1 == name)).map (·.2)

/-- The configuration table of this kind (`config.objects.*`, `config.groups.*`). -/
def tableOf : Kind → Cfg → Dict String Oid
  | .timeRange, c => c.time
  | .netObj, c => c.network
  | .svcObj, c => c.service
  | .portGroup, c => c.gPort
  | .svcGroup, c => c.gService
  | .protoGroup, c => c.gProtocol
  | .icmpGroup, c => c.gIcmp
  | .netGroup, c => c.gNetwork

/-- The single access rule an item is. -/
def ruleOf : Item → Option Oid
  | .rule o => some o
  | _ => none

/-- The access rules an IOS item contributes: itself, or the contents of a named list. -/
def rulesIn : Item → List Oid
  | .rule o => [o]
  | .rules _ l => l
  | _ => []

/-- The NAT entry of an item with its section: 1 twice NAT, 2 object NAT, 3 twice NAT after auto. -/
def natOf : Item → Option (Nat × Oid)
  | .netObj _ _ (some o) => some (2, o)
  | .nat o options =>
    if "after-auto" ∈ options ∨ "after-object" ∈ options then some (3, o) else some (1, o)
  | _ => none

/-- The NAT entries of one section, in file order. -/
def natSection (n : Nat) (items : List Item) : List Oid :=
  ((items.filterMap natOf).filter (fun p => p.1 == n)).map (·.2)

/-- The interface an item defines. -/
def ifaceOf : Item → Option Iface
  | .iface i => some i
  | _ => none

/-- The interfaces in force after a part of the file: a later definition of the same alias
replaces the earlier one and takes its place. -/
def inForce (items : List Item) : List Iface :=
  let l := items.filterMap ifaceOf
  (l.map (·.alias)).eraseDups.filterMap (fun a => l.reverse.find? (fun i => i.alias == a))

/-- The interface with this nameif, the first one in force. -/
def named (items : List Item) (nameif : String) : Option Iface :=
  (inForce items).find? (fun i => i.nameif == some nameif)

/-- The `k`-th item is an access-group command `g` for direction `d`, and the interface of that
name, at that point of the file, is the object `j`. -/
def Binds (items : List Item) (k : Nat) (g : Oid) (j : Oid) (d : String) : Prop :=
  ∃ nameif i, items[k]? = some (.accessGroup g nameif d) ∧
    named (items.take k) nameif = some i ∧ i.oid = j

/-- The static routes, in file order. -/
def routeOf : Item → Option (Oid × Gw)
  | .route o g => some (o, g)
  | _ => none

/-- A gateway reaches an interface object: it is the object, or an address inside one of the
networks of the object. -/
def Reaches (ifs : List Iface) (g : Gw) (x : Oid) : Prop :=
  match g with
  | .iface o => o = x
  | .addr a => ∃ j ∈ ifs, j.oid = x ∧ ∃ n ∈ j.nets, n.Denotes a

/-- The addresses and networks `ipaddress` constructs: within bounds, host bits clear. -/
def WellFormed : Item → Prop
  | .iface i => ∀ n ∈ i.nets, n.Valid
  | .route _ (.addr a) => a.Valid
  | _ => True

end Acltk.Config
