import Verif.Model.Web
import Verif.Model.Page
/-!
# The program examples/render/static.py

From the files and options on the command line to the page that is written.  Simplifications: the templates and files are there;
the text of the filter that is shown on the page (`open(args.caf).read()`) is not modelled, a locale with UTF-8 reads it whenever the
filter was read; rendering does not raise.
-/
namespace Acltk.Static
open Acltk Acltk.Lookup Acltk.Detect Acltk.DetectText Acltk.Resolve
open Acltk.Web (Conf)

variable {T : Type}

/-- What surrounds the program: that of the web application, the objects of a configuration before (`false`) and after (`true`)
`expand`, the keys of the members of groups, which rules are inactive, and `lower` of strings. -/
structure Site (T : Type) extends Web.App T where
  objs : Bool → Conf T → Oid → Page.Obj
  keys : Bool → Conf T → Page.Keys
  inactive : Conf T → Oid → Bool
  lower : String → String

/-- The command line (examples/render/static.py:23-30), without the name of the output; `caf` has the bytes of the file. -/
structure Args where
  caf : Option (List UInt8) := none
  sns : Bool := false
  expand : Bool := false
  sort : Bool := false

/-- The page: rows of the access control list, entries of the sections, NAT entries, and the objects as they are when it is rendered. -/
structure Written where
  rows : List Page.Row
  sections : Page.Sect → List Page.Item
  nat : List Oid
  objs : Oid → Page.Obj

/-- The page is written, or an exception ends the program before the output is opened; `hangs` is a `resolve` that does not come to an end within
the rounds. -/
inductive Outcome where
  | written (w : Written)
  | raises
  | hangs

/-- The network object of a block with a NAT line is an object of its own, beside the NAT entry (`CafFilter.link` gives it no identity of its own). -/
def place (n : Nat) : Config.Item → Config.Item
  | .netObj m k (some x) => .netObj m (n + k) (some x)
  | i => i

/-- In an IOS configuration the rules are numbered from 0 (`IosConfig.number`); whatever else has an identity gets one behind the `r` rules, so that distinct
objects have distinct numbers. -/
def shift (r : Nat) : Config.Item → Config.Item
  | .iface f => .iface { f with oid := r + f.oid }
  | .name k => .name (r + k)
  | .timeRange n k => .timeRange n (r + k)
  | .netObj n k x => .netObj n (r + k) x
  | .svcObj n k => .svcObj n (r + k)
  | .portGroup n k => .portGroup n (r + k)
  | .svcGroup n k => .svcGroup n (r + k)
  | .protoGroup n k => .protoGroup n (r + k)
  | .icmpGroup n k => .icmpGroup n (r + k)
  | .netGroup n k => .netGroup n (r + k)
  | i => i

/-- The elements of an IOS configuration with identities of their own. -/
def iosLinked (items : List IosText.Item) : List Config.Item := (IosConfig.number 0 0 [] items).map (shift (IosText.rulesOf items).length)

/-- The tables of a configuration of any kind, as the template reads them (aclObjects.py:1191-1248); the access groups of
interfaces are in none of them. -/
def tables : Conf T → Page.Tables
  | .fwsm items => Page.tablesOf (Config.build (CafFilter.agName items) (fun _ => []) ((CafFilter.number 0 items).map (place items.length)))
  | .ios items => Page.tablesOf (Config.buildIos (IosConfig.agName items) (fun _ => []) (fun _ => []) (iosLinked items)).base
  | .pfsense c => Page.tablesOf (PfFilter.build c.1 c.2)

/-- `rule.id` -/
def idOf (objs : Oid → Page.Obj) (o : Oid) : Option String :=
  match objs o with
  | .rule id _ _ _ _ _ _ _ => id
  | _ => none

/-- `selection` (examples/render/static.py:44-51); `none` when `resolve` hangs. -/
def selection (s : Site T) (args : Args) (heap : Oid → Entry) (c : Conf T) : Option (Py Page.Sel) :=
  match args.caf with
  | none => some (.ok none)
  | some bs =>
    match FileText.cafFromFile s.guard s.nest bs with
    | .fail => some (.error .value)
    | .raise e => some (.error e)
    | .ok e _ =>
      match ExpandFilter.filterOn s.fuel heap c e with
      | .error err => some (.error err)
      | .ok r =>
        match resolve (Page.info (s.objs args.expand c)) (Render.keys c) s.rounds s.order0 s.order (r.map .obj) with
        | .error err => some (.error err)
        | .ok none => none
        | .ok (some r) => some (.ok (some r))

/-- The template (examples/render/static.py:61-62). -/
def render (s : Site T) (args : Args) (c : Conf T) (sel : Page.Sel) (objs : Oid → Page.Obj) : Written where
  rows := Page.rows (idOf objs) (s.inactive c) sel args.sns (tables c).rules
  sections := Page.entries s.lower objs (tables c) sel args.sns
  nat := Page.natRows (tables c) sel args.sns
  objs := objs

/-- `--sort` and the rest (examples/render/static.py:53-62). -/
def finish (s : Site T) (args : Args) (c : Conf T) (sel : Page.Sel) : Outcome :=
  if args.sort then
    match Page.sortAll (s.keys args.expand c) (s.objs args.expand c) (tables c) with
    | (_, .error _) => .raises
    | (objs, .ok _) => .written (render s args c sel objs)
  else .written (render s args c sel (s.objs args.expand c))

/-- `main` (examples/render/static.py:20-62) -/
def main (s : Site T) (args : Args) (file : List UInt8) : Outcome :=
  match FileText.configFromFile s.guard (PfFilter.parser s.xml s.env) file with
  | .exception _ => .raises
  | .baseException _ => .raises
  | .config c =>
    match (if args.expand then s.expand c else .ok (ExpandFilter.heapOf c)) with
    | .error _ => .raises
    | .ok heap =>
      match selection s args heap c with
      | none => .hangs
      | some (.error _) => .raises
      | some (.ok sel) =>
        finish s args c sel

end Acltk.Static
