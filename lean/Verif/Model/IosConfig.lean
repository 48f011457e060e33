import Verif.Model.CafFilter
import Verif.Model.IosText
/-!
# From an IOS text to the configuration object, and to the selected rules

`iosConfig._parse` (iosObjects.py:56-78) and `iosConfig.__init__` (iosObjects.py:21-50) on the parse result, and the filter run of
examples/caf-filter.py:8-15 on it.  Objects are identified by numbers: a rule by its position among the rules of the
configuration, an access group by its position among the access groups of the interfaces, everything else by its position
in the parse result.
-/
namespace Acltk.IosConfig
open Acltk Acltk.Lookup
open Acltk.IosText (Item IRule Route Gateway)

/-- The rule object the parser built (aclObjects.py:1067-1101), with the attributes the filter looks at. -/
def entry (r : IRule) : Rule :=
  { id := some r.id, extended := r.extended, mode := some r.mode, src := ⟨r.src.host, none⟩, dst := ⟨r.dst.host, none⟩ }

/-- How many rules an element of the parse result holds. -/
def ruleCount : Item → Nat
  | .rule _ => 1
  | .rules l => l.length
  | _ => 0

/-- The interface objects in front of an element, by what they were constructed from. -/
def learn (k : Oid) (d : Dict Ifc.Intf Oid) : Item → Dict Ifc.Intf Oid
  | .base (.iface i) => dSet d i k
  | _ => d

/-- The gateway of a route (iosSemantics.py:208-217, aclSemantics.py:65-71): the interface object that was registered last under
the name written.  The parse result holds its attributes; of several objects with the same attributes, and so the same
names, the last one is the one registered. -/
def gateway (d : Dict Ifc.Intf Oid) : Gateway → Config.Gw
  | .addr a => .addr a
  | .iface i => .iface ((dGet d i).getD 0)

/-- The `k`-th element of the parse result as the constructors see it (aclObjects.py:1202-1247, iosObjects.py:23-39); `r` rules
are in front of it. -/
def link (k r : Nat) (d : Dict Ifc.Intf Oid) : Item → Config.Item
  | .base i => CafFilter.link k i
  | .rule _ => .rule r
  | .rules l => .rules k ((List.range l.length).map (r + ·))
  | .route x => .route k (gateway d x.gw)

/-- The parse result with identities. -/
def number : Nat → Nat → Dict Ifc.Intf Oid → List Item → List Config.Item
  | _, _, _, [] => []
  | k, r, d, i :: is => link k r d i :: number (k + 1) (r + ruleCount i) (learn k d i) is

/-- The access groups of the interfaces: interface, key, name of the list and direction (aclObjects.py:86-97). -/
def accessGroups : Nat → List Item → List (Oid × String × String × String)
  | _, [] => []
  | k, .base (.iface i) :: is => i.accessGroups.map (fun e => (k, e.1, e.2.1, e.2.2)) ++ accessGroups (k + 1) is
  | k, _ :: is => accessGroups (k + 1) is

/-- The `access_groups` an interface was constructed with. -/
def ifAg (items : List Item) (k : Oid) : Dict String Oid :=
  ((accessGroups 0 items).zipIdx.filter (fun e => e.1.1 == k)).map (fun e => (e.1.2.1, e.2))

/-- The name of the list behind an access group. -/
def agName (items : List Item) (o : Oid) : String :=
  match (accessGroups 0 items)[o]? with
  | some e => e.2.2.1
  | none => ""

/-- `iosConfig(ast)` (iosObjects.py:21-50) -/
def build (items : List Item) : Config.IosCfg :=
  Config.buildIos (agName items) (ifAg items) (fun _ => []) (number 0 0 [] items)

/-- `iosConfig._parse` (iosObjects.py:51-74): `none` is a text that is refused. -/
def parse (g : Guard) (text : Text) : Option (Py (List Item × Config.IosCfg)) :=
  match IosText.parseFile g text with
  | .fail => none
  | .raise x => some (.error x)
  | .ok items _ => some (.ok (items, build items))

/-- The entry behind an identity. -/
def heap (items : List Item) (o : Oid) : Entry :=
  match (IosText.rulesOf items)[o]? with
  | some r => .rule (entry r)
  | _ => .rule { src := ⟨.any, none⟩, dst := ⟨.any, none⟩ }

/-- examples/caf-filter.py:8-12 for an IOS configuration: `none` is a text that is refused. -/
def main (g : Guard) (n fuel : Nat) (filter config : Text) : Option (Py (List Oid)) :=
  match CafText.parse g n filter with
  | .fail => none
  | .raise e => some (.error e)
  | .ok e _ =>
    match parse g config with
    | none => none
    | some (.error x) => some (.error x)
    | some (.ok (items, c)) => some (Caf.run fuel (heap items) c.base.rules e)

end Acltk.IosConfig
