import Verif.Model.Row
import Verif.Model.Pfsense
/-!
# The row of a pfSense rule

The table of rules of examples/render/tpl/static.jinja2:846-864 for the rules the pfSense parser builds.
-/
namespace Acltk.Cells
open Acltk Acltk.Pf

/-- The macro `port` (static.jinja2:36-46) for the port of a node. -/
def pfPortCell : Option PortRef → Cell
  | none => .text []
  | some (.leaf p) => portCell (some p)
  | some (.group n _) => .link ("port_group_" ++ n.getD "None") (printed n)

/-- `i.interfaces|join(',')` -/
def joined (l : List String) : List Char := joinWith ',' (l.map String.toList)

/-- One option in the macro `options` (static.jinja2:79-104); white space is left out.  A rule without tracker has the number -1 as `xref`. -/
def pfOptionCell : OptVal → Cell
  | .xref none => .text "xref:-1".toList
  | .xref (some t) => .text ("xref:".toList ++ printed t)
  | .inactive => .text "inactive".toList
  | .log => .text "log".toList
  | .statetype s => .text ("statetype:".toList ++ printed s)
  | .floating l d =>
    if d = some "in" then .text ('>' :: joined l)
    else if d = some "out" then .text (joined l ++ ['>'])
    else if d = some "any" then .text ('>' :: joined l ++ ['>'])
    else .text ('?' :: joined l ++ ['?'])

/-- `for k in obj.keys()|sort` (static.jinja2:80); these are all the keys there are (pfsenseSemantics.py:322-340). -/
def pfOptionCells (d : Dict String OptVal) : List Cell :=
  ["floating", "inactive", "log", "statetype", "xref"].flatMap (fun k => match dGet d k with
    | some o => [pfOptionCell o]
    | none => [])

/-- The macro `icmp` (static.jinja2:62-72) for the icmp type of a rule. -/
def pfIcmpCell : Option (Option String) → Cell
  | none => .text []
  | some ty => .text (printed ty)

/-- The row of a rule (static.jinja2:852-864); no address is written as a name. -/
def pfRow {T : Type} (r : PfRule T) : RowCells where
  mode := r.mode.toList
  protocol := .text (printed r.protocol)
  src := hostCell none r.src.host
  sport := pfPortCell r.src.port
  dst := hostCell none r.dst.host
  last := if r.protocol = some "icmp" then pfIcmpCell r.icmp else pfPortCell r.dst.port
  options := pfOptionCells r.options

end Acltk.Cells
