import Verif.Model.Row
import Verif.Model.FwsmText
/-!
# The sections of services, ports, icmp types and protocols

The tables of examples/render/tpl/static.jinja2:416-640 for the definitions of the FWSM/ASA and IOS parsers.  Which definitions have a section and their order are in `Acltk.Page`.  Left out: descriptions, the headings of
the columns and how cells are put on lines (`batch`).  The number of an object is its identity, `nm` gives the name of each object.
-/
namespace Acltk.Cells
open Acltk Acltk.AclText Acltk.FwsmText

/-- The columns of a service: protocol, source and destination, or protocol and a cell over two columns. -/
inductive SvcCells where
  | wide (protocol : Cell) (s : List Char)
  | two (protocol src dst : Cell)
  deriving DecidableEq

/-- The row of a member of a service group: a service or a link in the column `Name`. -/
inductive MemberRow where
  | service (c : SvcCells)
  | link (c : Cell)
  deriving DecidableEq

inductive SectionBody where
  | service (c : SvcCells)
  | services (l : List MemberRow)
  | ports (protocol : Cell) (l : List Cell)
  | icmp (l : List Cell)
  | protocols (l : List Cell)
  deriving DecidableEq

/-- A section: its anchor (`id="…"`), its heading and its rows. -/
structure Section where
  anchor : String
  heading : List Char
  body : SectionBody
  deriving DecidableEq

/-- The macro `icmp_type_and_code` (static.jinja2:74-76). -/
def icmpTypeAndCode (ty code : Option String) : List Char :=
  (ty.getD "").toList ++ (if code.getD "" = "" then [] else '/' :: (code.getD "").toList)

variable (nm : Nat → String)

/-- The columns of a service (static.jinja2:444-450, 487-493). -/
def svcCells (s : Svc) : SvcCells :=
  if s.protocol ∈ ["icmp", "icmp6"] then .wide (protocolCell nm (.name s.protocol)) (icmpTypeAndCode s.icmpType s.icmpCode)
  else .two (protocolCell nm (.name s.protocol)) (portValCell nm s.src) (portValCell nm s.dst)

/-- The row of a member (static.jinja2:484-508); the parsers put nothing else into a group. -/
def memberRow : SvcMember → MemberRow
  | .svc s => .service (svcCells nm s)
  | .obj o => .link (.link ("service_object_" ++ nm o) (nm o).toList)
  | .group o => .link (.link ("service_group_" ++ nm o) (nm o).toList)

/-- The macro `port` (static.jinja2:36-46) for a member of a port group. -/
def portMemberCell : PortMember → Cell
  | .port op num => .text (op.toList ++ ' ' :: printed num)
  | .range a b => .text (a.toList ++ '-' :: b.toList)
  | .group o => .link ("port_group_" ++ nm o) (nm o).toList

/-- The macro `icmp` (static.jinja2:62-72) for a member of an icmp group. -/
def icmpMemberCell : IcmpMember → Cell
  | .icmp ty => .text ty.toList
  | .group o => .link ("icmp_group_" ++ nm o) (nm o).toList

/-- The macro `protocol` (static.jinja2:48-60) for a member of a protocol group. -/
def protoMemberCell : ProtoMember → Cell
  | .protocol s => .text s.toList
  | .group o => .link ("protocol_group_" ++ nm o) (nm o).toList

/-- The section of a definition (static.jinja2:435-452, 462-512, 536-560, 583-600, 624-641); networks have `hostCell`. -/
def sectionOf : Item → Option Section
  | .svcObj _ n s _ => some ⟨"service_object_" ++ n, n.toList, .service (svcCells nm s)⟩
  | .svcGroup _ n l _ => some ⟨"service_group_" ++ n, n.toList, .services (l.map (memberRow nm))⟩
  | .portGroup _ n p l _ => some ⟨"port_group_" ++ n, n.toList, .ports (protocolCell nm (.name p)) (l.map (portMemberCell nm))⟩
  | .icmpGroup _ n l _ => some ⟨"icmp_group_" ++ n, n.toList, .icmp (l.map (icmpMemberCell nm))⟩
  | .protoGroup _ n l _ => some ⟨"protocol_group_" ++ n, n.toList, .protocols (l.map (protoMemberCell nm))⟩
  | _ => none

end Acltk.Cells
