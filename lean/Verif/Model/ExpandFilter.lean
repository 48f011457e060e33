import Verif.Model.PfFilter
/-!
# Expanding, then filtering

examples/render/static.py:37-49 with `--expand`: the configuration is loaded, its groups are expanded in place, the filter is run.
-/
namespace Acltk.ExpandFilter
open Acltk Acltk.Lookup Acltk.Detect Acltk.DetectText

variable {T : Type}

/-- `self.rules` and the three sections of `self.nat` (aclObjects.py:1178-1205) of a configuration of each kind. -/
def ids : Cfg (Nat × Pf.Parsed T) → List Oid × List Oid × List Oid × List Oid
  | .fwsm items =>
    let c := Config.build (CafFilter.agName items) (fun _ => []) (CafFilter.number 0 items)
    (c.rules, c.nat1, c.nat2, c.nat3)
  | .ios items =>
    let c := (IosConfig.build items).base
    (c.rules, c.nat1, c.nat2, c.nat3)
  | .pfsense p =>
    let c := PfFilter.build p.1 p.2
    (c.rules, c.nat1, c.nat2, c.nat3)

/-- The entries behind the identities of a configuration as it was loaded (aclObjects.py:1178-1205). -/
def heapOf : Cfg (Nat × Pf.Parsed T) → Oid → Entry
  | .fwsm items => ConfigFilter.heap items
  | .ios items => IosConfig.heap items
  | .pfsense c => PfFilter.heap c.2

/-- `aclconfig.filter(caf)` (aclObjects.py:1368-1380) when the objects of the configuration are those of `heap`. -/
def filterOn (fuel : Nat) (heap : Oid → Entry) (cfg : Cfg (Nat × Pf.Parsed T)) (e : Caf.Expr) : Py (List Oid) :=
  Caf.configFilter fuel heap (ids cfg).1 (ids cfg).2 e

end Acltk.ExpandFilter
