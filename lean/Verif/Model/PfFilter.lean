import Verif.Model.ConfigFilter
import Verif.Model.Pfsense
/-!
# From a pfSense text to the selected rules

`pfsenseConfig._parse` (pfsenseObjects.py:20-30) with `pfsenseParser.parse` (pfsenseSemantics.py:45-59): reading the XML
(`ET.fromstring`) is a parameter, `none` is its ParseError.
-/
namespace Acltk.PfFilter
open Acltk Acltk.Lookup

variable {T : Type}

/-- The rule object the parser built (aclObjects.py:1067-1101, pfsenseSemantics.py:349-358), with the attributes the filter
looks at. -/
def entry (r : Pf.PfRule T) : Rule :=
  { id := r.id, mode := some r.mode, src := ⟨r.src.host, none⟩, dst := ⟨r.dst.host, none⟩ }

/-- A group as `ACLConfig.__init__` sees it. -/
def linkGroup (k : Nat) : Pf.AliasGroup → Config.Item
  | .net n _ _ => .netGroup (n.getD "None") k
  | .port n _ _ => .portGroup (n.getD "None") k

/-- The list handed to `pfsenseConfig` (pfsenseSemantics.py:45-59): the key of each revision, the groups, the interfaces,
the rules, the host name.  A rule is identified by its position among the rules; the groups follow the rules, the interfaces follow the
groups.  Simplifications: a group without a name is entered under "None", of several host names only the last one is
there. -/
def items (revisions : Nat) (p : Pf.Parsed T) : List Config.Item :=
  List.replicate revisions (.other 0) ++ (p.groups.zipIdx p.rules.length).map (fun x => linkGroup x.2 x.1) ++
  (p.interfaces.zipIdx (p.rules.length + p.groups.length)).map (fun x => .iface ⟨x.2, x.1.alias, x.1.nameif, x.1.addresses.map (·.2)⟩) ++
  (List.range p.rules.length).map .rule ++ p.hostname.toList.map .hostname

/-- `pfsenseConfig(ast)` (pfsenseObjects.py:16-17); the interfaces have no access groups. -/
def build (revisions : Nat) (p : Pf.Parsed T) : Config.Cfg := Config.build (fun _ => "") (fun _ => []) (items revisions p)

/-- `pfsenseConfig._parse` (pfsenseObjects.py:19-29): the number of revisions and the parse result. -/
def parser (xml : String → Option Pf.Elem) (v : Pf.Env T) (text : String) : Detect.Outcome (Nat × Pf.Parsed T) Unit :=
  match xml text with
  | none => .exception ()
  | some root =>
    match Pf.parse v root with
    | .error _ => .exception ()
    | .ok p => .config ((Pf.findall root "revision").length, p)

/-- The entry behind an identity. -/
def heap (p : Pf.Parsed T) (o : Oid) : Entry :=
  match p.rules[o]? with
  | some r => .rule (entry r)
  | none => .rule { src := ⟨.any, none⟩, dst := ⟨.any, none⟩ }

/-- `aclConfig.rules` -/
def rules (c : Nat × Pf.Parsed T) : List Oid × (Oid → Entry) := ((build c.1 c.2).rules, heap c.2)

/-- `ACLConfig.filter` (aclObjects.py:1368-1380) -/
def filter (fuel : Nat) (c : Nat × Pf.Parsed T) (e : Caf.Expr) : Py (List Oid) :=
  let b := build c.1 c.2
  Caf.configFilter fuel (heap c.2) b.rules (b.nat1, b.nat2, b.nat3) e

end Acltk.PfFilter
