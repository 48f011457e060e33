import Verif.Model.Dict
import Verif.Model.Rule
/-!
# `ACLConfig.__init__` and `iosConfig.__init__`

The parse result is a list of items (objects, `AST` dictionaries, `None`).  Every object is
represented by its identity (`Oid`); the attributes the constructors look at are in the item.
`Interface` objects are mutable: the `access_groups` dictionaries and the `routes` sets live in the
state, keyed by the identity of the interface.
-/
namespace Acltk.Config
open Acltk

/-- The attributes of an `Interface` (aclObjects.py:58-66) the configuration constructors read:
identity, alias, nameif and the networks of its addresses (`ifaddr.interface.network`). -/
structure Iface where
  oid : Oid
  alias : String
  nameif : Option String
  nets : List Net
  deriving DecidableEq, Repr

/-- The gateway of a `Route` (iosObjects.py:8-18): an interface object or an address. -/
inductive Gw where
  | iface (o : Oid)
  | addr (a : Addr)
  deriving DecidableEq, Repr

/-- One element of the parse result.  One constructor per branch of aclObjects.py:1202-1247;
`rules` is an `ACLRules` object (IOS named list) given by its contents, `route` an IOS `Route`,
`other` anything else (None, ignored lines), numbered to be distinguishable. -/
inductive Item where
  | hostname (s : String)
  | domain (s : String)
  | rule (o : Oid)
  | rules (o : Oid) (l : List Oid)
  | name (o : Oid)
  | iface (i : Iface)
  | timeRange (name : String) (o : Oid)
  | netObj (name : String) (o : Oid) (nat : Option Oid)
  | svcObj (name : String) (o : Oid)
  | portGroup (name : String) (o : Oid)
  | svcGroup (name : String) (o : Oid)
  | protoGroup (name : String) (o : Oid)
  | icmpGroup (name : String) (o : Oid)
  | netGroup (name : String) (o : Oid)
  | version (v : String)
  | accessGroup (o : Oid) (iface : String) (direction : String)
  | nat (o : Oid) (options : List String)
  | route (o : Oid) (gw : Gw)
  | other (n : Nat)
  deriving DecidableEq, Repr

/-- The state built by `ACLConfig.__init__` (aclObjects.py:1191-1201), with the heap parts it
mutates: `ifAg j` is `access_groups` of the interface object `j`, `agIface g` the interface object
stored in `iface` of access group `g`, `ast` the list items are removed from. -/
structure Cfg where
  hostname : String := ""
  domainname : String := ""
  names : List Oid := []
  interfaces : Dict String Iface := []
  time : Dict String Oid := []
  network : Dict String Oid := []
  service : Dict String Oid := []
  gPort : Dict String Oid := []
  gService : Dict String Oid := []
  gProtocol : Dict String Oid := []
  gIcmp : Dict String Oid := []
  gNetwork : Dict String Oid := []
  rules : List Oid := []
  accessGroups : Dict String (List Oid) := []
  nat1 : List Oid := []
  nat2 : List Oid := []
  nat3 : List Oid := []
  version : Option String := none
  ifAg : Oid → Dict String Oid
  agIface : Oid → Option Oid := fun _ => none
  ast : List Item

/-- Updating one cell of a heap. -/
def upd {β : Type} (f : Oid → β) (o : Oid) (v : β) : Oid → β := fun x => if x = o then v else f x

/-- `self.access_groups[name].append(v)` on a `defaultdict(list)` (aclObjects.py:1213-1214). -/
def agAppend (agName : Oid → String) (d : Dict String (List Oid)) (v : Oid) : Dict String (List Oid) :=
  dSet d (agName v) ((dGet d (agName v)).getD [] ++ [v])

/-- `for j in self.interfaces.values(): if j.nameif == i.iface: ...; break` (aclObjects.py:1238-1242):
the interface the loop stops at. -/
def findIface (d : Dict String Iface) (ifname : String) : Option Iface :=
  (dVals d).find? (fun j => j.nameif == some ifname)

/-- One round of the loop aclObjects.py:1202-1248.  `("after-auto", "after-object") &
i.options.keys()` is non-empty iff one of the two is a key.  An item that is not handled is left
in `ast` (`continue`), every other one is removed from it. -/
def step (agName : Oid → String) (c : Cfg) (i : Item) : Cfg :=
  match i with
  | .hostname s => { c with hostname := s, ast := c.ast.erase i }
  | .domain s => { c with domainname := s, ast := c.ast.erase i }
  | .rule o => { c with rules := c.rules ++ [o], ast := c.ast.erase i }
  | .name o => { c with names := c.names ++ [o], ast := c.ast.erase i }
  | .iface j =>
    { c with
      interfaces := dSet c.interfaces j.alias j
      accessGroups := (dVals (c.ifAg j.oid)).foldl (agAppend agName) c.accessGroups
      ast := c.ast.erase i }
  | .timeRange n o => { c with time := dSet c.time n o, ast := c.ast.erase i }
  | .netObj n o nat =>
    { c with
      nat2 := c.nat2 ++ nat.toList
      network := if (dGet c.network n).isSome then c.network else dSet c.network n o
      ast := c.ast.erase i }
  | .svcObj n o => { c with service := dSet c.service n o, ast := c.ast.erase i }
  | .portGroup n o => { c with gPort := dSet c.gPort n o, ast := c.ast.erase i }
  | .svcGroup n o => { c with gService := dSet c.gService n o, ast := c.ast.erase i }
  | .protoGroup n o => { c with gProtocol := dSet c.gProtocol n o, ast := c.ast.erase i }
  | .icmpGroup n o => { c with gIcmp := dSet c.gIcmp n o, ast := c.ast.erase i }
  | .netGroup n o => { c with gNetwork := dSet c.gNetwork n o, ast := c.ast.erase i }
  | .version v => { c with version := some v, ast := c.ast.erase i }
  | .accessGroup o ifname dir =>
    match findIface c.interfaces ifname with
    | some j =>
      { c with
        agIface := upd c.agIface o (some j.oid)
        ifAg := upd c.ifAg j.oid (dSet (c.ifAg j.oid) dir o)
        ast := c.ast.erase i }
    | none => { c with ast := c.ast.erase i }
  | .nat o options =>
    if options.contains "after-auto" || options.contains "after-object" then
      { c with nat3 := c.nat3 ++ [o], ast := c.ast.erase i }
    else { c with nat1 := c.nat1 ++ [o], ast := c.ast.erase i }
  | .rules .. | .route .. | .other .. => c

/-- `ACLConfig.__init__` (aclObjects.py:1191-1248).  `agName g` is `name` of access group `g`,
`ifAg j` the `access_groups` the interface `j` was constructed with (aclObjects.py:86-97).
The timestamp is not modelled. -/
def build (agName : Oid → String) (ifAg : Oid → Dict String Oid) (ast : List Item) : Cfg :=
  ast.foldl (step agName) { ifAg := ifAg, ast := ast }

/-- `ACLConfig.name` (aclObjects.py:1251-1253): `f"{self.hostname}.{self.domainname}"`. -/
def Cfg.name (c : Cfg) : String := c.hostname ++ "." ++ c.domainname

/-- The state added by `iosConfig.__init__`; `ifRoutes j` is the set `routes` of interface `j`. -/
structure IosCfg where
  base : Cfg
  routes : List (Oid × Gw)
  ifRoutes : Oid → List Oid

/-- iosObjects.py:45-48: the loop over the interfaces and their addresses for one route. -/
def attachAddr (r : Oid) (gw : Addr) (ifs : List Iface) (h : Oid → List Oid) : Oid → List Oid :=
  ifs.foldl (fun h j =>
    j.nets.foldl (fun h n => if n.containsAddr gw then upd h j.oid (setAdd (h j.oid) r) else h) h) h

/-- iosObjects.py:41-48: attach one route. -/
def attach (ifs : List Iface) (h : Oid → List Oid) (r : Oid × Gw) : Oid → List Oid :=
  match r.2 with
  | .iface o => upd h o (setAdd (h o) r.1)
  | .addr a => attachAddr r.1 a ifs h

/-- iosObjects.py:23 and 25-33: rules of the filtered item list, lists inlined. -/
def iosRules : List Item → List Oid
  | [] => []
  | .rules _ l :: t => l ++ iosRules t
  | .rule o :: t => o :: iosRules t
  | _ :: t => iosRules t

/-- iosObjects.py:35-39 -/
def iosRoutes : List Item → List (Oid × Gw)
  | [] => []
  | .route o g :: t => (o, g) :: iosRoutes t
  | _ :: t => iosRoutes t

/-- `isinstance(x, (ACLRule, ACLRules))`, iosObjects.py:23. -/
def isRuleItem : Item → Bool
  | .rule _ => true
  | .rules _ _ => true
  | _ => false

/-- `iosConfig.__init__` (iosObjects.py:21-48).  The rules are collected before the base
constructor removes items; the routes are collected from what the base constructor left in the
list. -/
def buildIos (agName : Oid → String) (ifAg : Oid → Dict String Oid) (ifRoutes : Oid → List Oid)
    (ast : List Item) : IosCfg :=
  let rules := ast.filter isRuleItem
  let c := build agName ifAg ast
  let c := { c with rules := iosRules rules }
  let routes := iosRoutes c.ast
  { base := c, routes := routes, ifRoutes := routes.foldl (attach (dVals c.interfaces)) ifRoutes }

end Acltk.Config
