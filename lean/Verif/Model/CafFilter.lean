import Verif.Model.CafText
import Verif.Model.FwsmText
import Verif.Model.Config
/-!
# From two texts to the selected rules

examples/caf-filter.py:8-15: the filter text and the configuration text are parsed, and the filter is run on the rules of the
configuration.  The objects of the configuration are identified by their position in the parse result.
-/
namespace Acltk.CafFilter
open Acltk Acltk.Lookup

/-- The rule object the parser built (aclObjects.py:1067-1101), with the attributes the filter looks at; the others are left out
(matching does not look at them: C07). -/
def entry (r : AclText.PRule) : Rule :=
  { id := some r.id, extended := some r.extended, mode := some r.mode, src := ⟨r.src.host, none⟩, dst := ⟨r.dst.host, none⟩ }

/-- The `k`-th element of the parse result as `ACLConfig.__init__` sees it (aclObjects.py:1202-1247).  The NAT entry of a network
object has the identity of the object. -/
def link (k : Oid) : FwsmText.Item → Config.Item
  | .version s => .version (String.ofList s)
  | .hostname s => .hostname s
  | .domain s => .domain s
  | .iface i => .iface ⟨k, i.alias, i.nameif, i.addresses.map (·.2)⟩
  | .name _ _ _ => .name k
  | .timeRange _ n _ => .timeRange n k
  | .netObj n _ nat _ => .netObj n k (nat.map (fun _ => k))
  | .svcObj _ n _ _ => .svcObj n k
  | .netGroup n _ _ => .netGroup n k
  | .portGroup _ n _ _ _ => .portGroup n k
  | .svcGroup _ n _ _ => .svcGroup n k
  | .icmpGroup _ n _ _ => .icmpGroup n k
  | .protoGroup _ n _ _ => .protoGroup n k
  | .rule _ => .rule k
  | .accessGroup _ d i => .accessGroup k i d
  | .nat n => .nat k n.options
  | .remarks _ | .nothing => .other k

/-- The parse result with identities. -/
def number : Nat → List FwsmText.Item → List Config.Item
  | _, [] => []
  | k, i :: is => link k i :: number (k + 1) is

/-- The entry behind an identity. -/
def heap (items : List FwsmText.Item) (o : Oid) : Entry :=
  match items[o]? with
  | some (.rule r) => .rule (entry r)
  | _ => .rule { src := ⟨.any, none⟩, dst := ⟨.any, none⟩ }

/-- The name of the access list behind an access group. -/
def agName (items : List FwsmText.Item) (o : Oid) : String :=
  match items[o]? with
  | some (.accessGroup n _ _) => n
  | _ => ""

/-- The NAT entry behind an identity. -/
def natEntry (items : List FwsmText.Item) (o : Oid) : Option NatCmd.Nat' :=
  match items[o]? with
  | some (.nat n) => some n
  | some (.netObj _ _ nat _) => nat
  | _ => none

/-- `fwsmConfig._parse(config).nat` (fwsmObjects.py:22-33, aclObjects.py:1201, 1218-1221, 1243-1245): the three sections of the
NAT table; `none` is a text that is refused. -/
def natTable (g : Guard) (config : Text) : Option (Py (List NatCmd.Nat' × List NatCmd.Nat' × List NatCmd.Nat')) :=
  match FwsmText.parseFile g config with
  | .fail => none
  | .raise x => some (.error x)
  | .ok items _ =>
    let c := Config.build (agName items) (fun _ => []) (number 0 items)
    some (.ok (c.nat1.filterMap (natEntry items), c.nat2.filterMap (natEntry items), c.nat3.filterMap (natEntry items)))

/-- examples/caf-filter.py:8-12 for an FWSM configuration: `none` is a text that is refused. -/
def main (g : Guard) (n fuel : Nat) (filter config : Text) : Option (Py (List Oid)) :=
  match CafText.parse g n filter with
  | .fail => none
  | .raise e => some (.error e)
  | .ok e _ =>
    match FwsmText.parseFile g config with
    | .fail => none
    | .raise x => some (.error x)
    | .ok items _ =>
      some (Caf.run fuel (heap items) (Config.build (agName items) (fun _ => []) (number 0 items)).rules e)

end Acltk.CafFilter
