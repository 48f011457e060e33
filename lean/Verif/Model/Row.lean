import Verif.Model.Cells
import Verif.Model.AclText
/-!
# The row of a rule

The table of rules of examples/render/tpl/static.jinja2:846-864 with the macros `port`, `protocol`, `icmp` and `options`, for the rules the FWSM/ASA parser builds.  The index of the row, its colour and the rows of
the remarks are in `Acltk.Page`.  The number of an object is its identity, `nm` gives the name of each object.
-/
namespace Acltk.Cells
open Acltk Acltk.AclText

/-- The cells of a row. -/
structure RowCells where
  mode : List Char
  protocol : Cell
  src : Cell
  sport : Cell
  dst : Cell
  last : Cell
  options : List Cell
  deriving DecidableEq

variable (nm : Nat → String)

/-- The macro `port` (static.jinja2:36-46) for the port of a node.  `ACLNode` refuses a service group (its last branch). -/
def portValCell : Option PortVal → Cell
  | none => .text []
  | some (.port op num) => .text (op.toList ++ ' ' :: num.toList)
  | some (.range a b) => .text (a.toList ++ '-' :: b.toList)
  | some (.group o) => .link ("port_group_" ++ nm o) (nm o).toList
  | some (.service o) => .text (nm o).toList

/-- The macro `protocol` (static.jinja2:48-60). -/
def protocolCell : Proto → Cell
  | .name s => .text s.toList
  | .protoGroup o => .link ("protocol_group_" ++ nm o) (nm o).toList
  | .svcGroup o => .link ("service_group_" ++ nm o) (nm o).toList
  | .svcObj o => .link ("service_object_" ++ nm o) (nm o).toList

/-- The macro `icmp` (static.jinja2:62-72): the code is not printed. -/
def icmpCell : Option IcmpVal → Cell
  | none => .text []
  | some (.icmp ty _) => .text ty.toList
  | some (.group o) => .link ("icmp_group_" ++ nm o) (nm o).toList

/-- One option in the macro `options` (static.jinja2:79-101).  The arguments of `log` are not modelled; the clock in front of a time range is left out. -/
def optionCell : Opt → List Cell
  | .inactive => [.text "inactive".toList]
  | .log _ => [.text "log".toList]
  | .timeRange o => [.link ("time_range_" ++ nm o) (nm o).toList]
  | .none => []

/-- `for k in obj.keys()|sort` (static.jinja2:80); these are all the keys there are (`Opt.key`). -/
def optionCells (d : Dict String Opt) : List Cell :=
  ["inactive", "log", "time-range"].flatMap (fun k => match dGet d k with
    | some o => optionCell nm o
    | none => [])

/-- The row of a rule (static.jinja2:852-864).  `s` and `t` are the names the addresses were written as. -/
def row (s t : Option String) (r : PRule) : RowCells where
  mode := r.mode.toList
  protocol := protocolCell nm r.protocol
  src := hostCell s r.src.host
  sport := portValCell nm r.src.port
  dst := match r.url with
    | some u => .text u
    | none => hostCell t r.dst.host
  last := if r.protocol = .name "icmp" then icmpCell nm r.icmp else portValCell nm r.dst.port
  options := optionCells nm r.options

end Acltk.Cells
