import Verif.Model.ConfigFilter
import Verif.Model.PfFilter
import Verif.Model.Resolve
/-!
# `aclconfig.resolve(aclconfig.filter(caf))` on texts

examples/render/static.py:37, 48-51: the selection of the filter is completed to what the page has to show.
-/
namespace Acltk.Render
open Acltk Acltk.Lookup

/-- The keys of `aclconfig.access_groups` (aclObjects.py:1198, 1213-1214) of an FWSM configuration. -/
def fwsmKeys (items : List FwsmText.Item) : List String :=
  dKeys (Config.build (CafFilter.agName items) (fun _ => []) (CafFilter.number 0 items)).accessGroups

/-- The keys of `aclconfig.access_groups` (aclObjects.py:1198, 1213-1214) of an IOS configuration. -/
def iosKeys (items : List IosText.Item) : List String := dKeys (IosConfig.build items).base.accessGroups

/-- The objects of a configuration as `resolve` finds them: what is behind an identity, for each parse result.  The rules and NAT
entries have the identities `ConfigFilter` gives them, the other objects any. -/
structure Heaps where
  fwsm : List FwsmText.Item → Oid → Resolve.Info
  ios : List IosText.Item → Oid → Resolve.Info

/-- examples/render/static.py:37, 48-51: load the configuration, load and run the filter, complete the selection.  `rounds` bounds the
rounds of the loop of `resolve`, `order0` and `order` are the orders in which the sets are iterated, `P` gives the result for a
configuration of the kind that is not modelled here.  `none` is a text that is refused. -/
def selection {C : Type} (g : Guard) (pfsense : String → Detect.Outcome C Unit) (P : C → Caf.Expr → Py (List Oid))
    (P' : C → List Oid → Py (Option (List Resolve.El))) (heaps : Heaps) (n fuel rounds : Nat)
    (order0 : List Resolve.El → List Resolve.El) (order : Nat → List Resolve.El → List Resolve.El)
    (filter : Text) (config : String) : Option (Py (Option (List Resolve.El))) :=
  match DetectText.detect g pfsense config with
  | .exception _ => none
  | .baseException _ => none
  | .config c =>
    match ConfigFilter.select g pfsense P n fuel filter config with
    | none => none
    | some (.error e) => some (.error e)
    | some (.ok r) =>
      match c with
      | .fwsm items => some (Resolve.resolve (heaps.fwsm items) (fwsmKeys items) rounds order0 order (r.map .obj))
      | .ios items => some (Resolve.resolve (heaps.ios items) (iosKeys items) rounds order0 order (r.map .obj))
      | .pfsense c => some (P' c r)

/-- The keys of `aclconfig.access_groups` (aclObjects.py:1198, 1213-1214) of a pfSense configuration. -/
def pfKeys {T : Type} (c : Nat × Pf.Parsed T) : List String := dKeys (PfFilter.build c.1 c.2).accessGroups

/-- `aclconfig.resolve(r)` (examples/render/static.py:49-51) of a pfSense configuration: what stands for `P'` in `selection`. -/
def pfPage {T : Type} (heap : Nat × Pf.Parsed T → Oid → Resolve.Info) (rounds : Nat) (order0 : List Resolve.El → List Resolve.El)
    (order : Nat → List Resolve.El → List Resolve.El) (c : Nat × Pf.Parsed T) (r : List Oid) : Py (Option (List Resolve.El)) :=
  Resolve.resolve (heap c) (pfKeys c) rounds order0 order (r.map .obj)

/-- The keys of `aclconfig.access_groups` (aclObjects.py:1198, 1213-1214) of a configuration of any kind. -/
def keys {T : Type} : DetectText.Cfg (Nat × Pf.Parsed T) → List String
  | .fwsm items => fwsmKeys items
  | .ios items => iosKeys items
  | .pfsense c => pfKeys c

end Acltk.Render
