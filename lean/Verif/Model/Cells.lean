import Verif.Model.Port
import Verif.Model.Mask
import Verif.Model.Host
/-!
# Cells of a page

The macros `host` and `port` of examples/render/tpl/static.jinja2 and the printing of addresses they use.  White space around a cell is left out: browsers do not show it.
-/
namespace Acltk.Cells
open Acltk

/-- The contents of a cell: text, or a link (`href="#…"`) with a text. -/
inductive Cell where
  | text (s : List Char)
  | link (href : String) (s : List Char)
  deriving DecidableEq

/-- `str(network)` (ipaddress.py:705-706). -/
def netText (n : Net) : List Char := n.networkAddress.text ++ '/' :: decText n.plen

/-- `str(ip_address(n))` of an IPv4 number. -/
def v4Text (n : Nat) : List Char := (Addr.mk .v4 n).text

/-- An address or network: a link if it was written as a name (`obj.target`), static.jinja2:2-17. -/
def named (target : Option String) (s : List Char) : Cell :=
  match target with
  | some t => .link ("name_alias_" ++ t) s
  | none => .text s

/-- The macro `host` (static.jinja2:1-34).  The wildcard of the model is an IPv4 wildcard.  The keyword classes of filters are in no configuration; they would get the text of the last branch. -/
def hostCell (target : Option String) : Host → Cell
  | .host a => named target a.text
  | .net n => named target (netText n)
  | .group n _ => .link ("network_group_" ++ n) n.toList
  | .obj n _ => .link ("network_object_" ++ n) n.toList
  | .any => .text "any".toList
  | .any4 => .text "any4".toList
  | .any6 => .text "any6".toList
  | .wild a w => .text ("VERIFY ".toList ++ v4Text a ++ '/' :: v4Text w)
  | .iface n => .link ("interface_" ++ n) n.toList
  | .cafAny => .text "FIXME cafNetworkAny".toList
  | .cafAny4 => .text "FIXME cafNetworkAny4".toList
  | .cafAny6 => .text "FIXME cafNetworkAny6".toList

/-- `{{ x }}` of a text or None. -/
def printed (x : Option String) : List Char := (x.getD "None").toList

/-- The macro `port` (static.jinja2:36-46); no port prints nothing. -/
def portCell : Option PortLeaf → Cell
  | none => .text []
  | some (.port p) => .text (printed p.op ++ ' ' :: printed p.num)
  | some (.range a b) => .text (a.toList ++ '-' :: b.toList)

end Acltk.Cells
