import Verif.Model.DetectText
/-!
# `ACLConfig.filter` on a configuration text

examples/render/static.py:37-51: the configuration is loaded with its kind detected, the filter is loaded, and `aclconfig.filter(caf)`
is run.
-/
namespace Acltk.ConfigFilter
open Acltk Acltk.Lookup

/-- `rm.src`/`rm.dst` of a NAT entry and its `node` (aclObjects.py:128-180), as `NATObject.__and__` (aclObjects.py:212-227) looks at
them.  Simplification: the string "interface" is taken as a missing node; `host_nodes` (Props/ConfigFilter) shows that the parser
leaves none. -/
def node : Option NatCmd.Node' → Option (Option Host)
  | none => none
  | some (.host h) => some (some h)
  | some .interface => some none

/-- `NATObject` (aclObjects.py:192-205) as the parser built it, with the attributes the filter looks at. -/
def natObj (n : NatCmd.Nat') : NatObj :=
  { real := some ⟨node n.real.src, node n.real.dst⟩, mapped := some ⟨node n.mapped.src, node n.mapped.dst⟩,
    description := n.description, options := n.options }

/-- The entry behind an identity: a rule or a NAT entry. -/
def heap (items : List FwsmText.Item) (o : Oid) : Entry :=
  match CafFilter.natEntry items o with
  | some n => .nat (natObj n)
  | none => CafFilter.heap items o

/-- `fwsmConfig._parse(config).filter(caf)` (fwsmObjects.py:18-37, aclObjects.py:1368-1380) -/
def ofFwsm (fuel : Nat) (items : List FwsmText.Item) (e : Caf.Expr) : Py (List Oid) :=
  let c := Config.build (CafFilter.agName items) (fun _ => []) (CafFilter.number 0 items)
  Caf.configFilter fuel (heap items) c.rules (c.nat1, c.nat2, c.nat3) e

/-- `iosConfig._parse(config).filter(caf)` (iosObjects.py:51-74, aclObjects.py:1368-1380) -/
def ofIos (fuel : Nat) (items : List IosText.Item) (e : Caf.Expr) : Py (List Oid) :=
  let c := (IosConfig.build items).base
  Caf.configFilter fuel (IosConfig.heap items) c.rules (c.nat1, c.nat2, c.nat3) e

/-- examples/render/static.py:37, 48-49: load the configuration, then the filter, then run it; `P` gives the result for a
configuration of the kind that is not modelled here.  `none` is a text that is refused. -/
def select {C : Type} (g : Guard) (pfsense : String → Detect.Outcome C Unit) (P : C → Caf.Expr → Py (List Oid)) (n fuel : Nat)
    (filter : Text) (config : String) : Option (Py (List Oid)) :=
  match DetectText.detect g pfsense config with
  | .exception _ => none
  | .baseException _ => none
  | .config c =>
    match CafText.parse g n filter with
    | .fail => none
    | .raise e => some (.error e)
    | .ok e _ =>
      match c with
      | .fwsm items => some (ofFwsm fuel items e)
      | .ios items => some (ofIos fuel items e)
      | .pfsense c => some (P c e)

end Acltk.ConfigFilter
