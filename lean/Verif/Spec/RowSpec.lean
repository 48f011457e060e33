import Verif.Model.Row
import Verif.Spec.CellsSpec
import Verif.Spec.AclTextSpec
/-!
# Specification for C116: what somebody who sees the row of a rule takes the rule for
-/
namespace Acltk.Cells
open Acltk Acltk.AclText

/-- A port condition. -/
inductive PortShown where
  | nothing
  | single (op num : String)
  | range (a b : String)
  | group (name : String)

inductive ProtoShown where
  | name (s : String)
  | protocolGroup (name : String)
  | serviceGroup (name : String)
  | serviceObject (name : String)
  deriving DecidableEq

inductive IcmpShown where
  | nothing
  | type (s : String) (code : Option String)
  | group (name : String)

/-- What a row says. -/
structure RowShown where
  mode : String
  protocol : ProtoShown
  src : Shown
  sport : PortShown
  dst : Shown
  dport : PortShown
  icmp : IcmpShown
  inactive : Bool
  time : Option String
  log : Bool

/-- A port: the name of a service or a number. -/
def PortText (w : String) : Prop := w ∈ Words.ports ∨ (w ≠ "" ∧ ∀ c ∈ w.toList, c.isDigit = true)

/-- A cell of a port is empty, an operator and a port, two ports with a hyphen, or a link to the groups of ports. -/
inductive ReadsPortVal : Cell → PortShown → Prop
  | nothing : ReadsPortVal (.text []) .nothing
  | single (op num : String) : op ∈ ["gt", "lt", "eq", "neq"] → ReadsPortVal (.text (op.toList ++ ' ' :: num.toList)) (.single op num)
  | range (a b : String) : PortText a → PortText b → ReadsPortVal (.text (a.toList ++ '-' :: b.toList)) (.range a b)
  | group (n : String) : ReadsPortVal (.link ("port_group_" ++ n) n.toList) (.group n)

/-- A cell of a protocol is a text or a link to the groups of protocols, the groups of services or the services. -/
inductive ReadsProto : Cell → ProtoShown → Prop
  | name (s : String) : ReadsProto (.text s.toList) (.name s)
  | protocolGroup (n : String) : ReadsProto (.link ("protocol_group_" ++ n) n.toList) (.protocolGroup n)
  | serviceGroup (n : String) : ReadsProto (.link ("service_group_" ++ n) n.toList) (.serviceGroup n)
  | serviceObject (n : String) : ReadsProto (.link ("service_object_" ++ n) n.toList) (.serviceObject n)

/-- A cell of icmp is empty, a type, or a link to the groups of types. -/
inductive ReadsIcmp : Cell → IcmpShown → Prop
  | nothing : ReadsIcmp (.text []) .nothing
  | type (s : String) : s ≠ "" → ReadsIcmp (.text s.toList) (.type s none)
  | group (n : String) : ReadsIcmp (.link ("icmp_group_" ++ n) n.toList) (.group n)

/-- The cells of a row, read one by one; the last column is that of icmp in rows of the protocol icmp and that of the destination port in the others. -/
structure RowReads (r : RowCells) (x : RowShown) : Prop where
  mode : r.mode = x.mode.toList
  protocol : ReadsProto r.protocol x.protocol
  src : Reads r.src x.src
  sport : ReadsPortVal r.sport x.sport
  dst : Reads r.dst x.dst
  icmp : x.protocol = .name "icmp" → x.dport = .nothing ∧ ReadsIcmp r.last x.icmp
  port : x.protocol ≠ .name "icmp" → x.icmp = .nothing ∧ ReadsPortVal r.last x.dport
  inactive : x.inactive = true ↔ Cell.text "inactive".toList ∈ r.options
  time : ∀ n, x.time = some n ↔ Cell.link ("time_range_" ++ n) n.toList ∈ r.options
  log : x.log = true ↔ Cell.text "log".toList ∈ r.options

variable (nm : Nat → String)

inductive PortIs : Option PortVal → PortShown → Prop
  | nothing : PortIs none .nothing
  | single (op num) : PortIs (some (.port op num)) (.single op num)
  | range (a b) : PortIs (some (.range a b)) (.range a b)
  | group (o) : PortIs (some (.group o)) (.group (nm o))

inductive ProtoIs : Proto → ProtoShown → Prop
  | name (s) : ProtoIs (.name s) (.name s)
  | protocolGroup (o) : ProtoIs (.protoGroup o) (.protocolGroup (nm o))
  | serviceGroup (o) : ProtoIs (.svcGroup o) (.serviceGroup (nm o))
  | serviceObject (o) : ProtoIs (.svcObj o) (.serviceObject (nm o))

inductive IcmpIs : Option IcmpVal → IcmpShown → Prop
  | nothing : IcmpIs none .nothing
  | type (s code) : IcmpIs (some (.icmp s code)) (.type s code)
  | group (o) : IcmpIs (some (.group o)) (.group (nm o))

/-- The rule is what is shown; objects by name. -/
structure RowIs (r : PRule) (x : RowShown) : Prop where
  mode : r.mode = x.mode
  protocol : ProtoIs nm r.protocol x.protocol
  src : Is r.src.host x.src
  sport : PortIs nm r.src.port x.sport
  dst : Is r.dst.host x.dst
  dport : PortIs nm r.dst.port x.dport
  icmp : IcmpIs nm r.icmp x.icmp
  inactive : x.inactive = true ↔ ("inactive", Opt.inactive) ∈ r.options
  time : ∀ n, x.time = some n ↔ ∃ o, ("time-range", Opt.timeRange o) ∈ r.options ∧ nm o = n
  log : x.log = true ↔ ∃ l, ("log", Opt.log l) ∈ r.options

/-- Nothing of the rule is left out by the columns: a rule of the protocol icmp has no destination port and no icmp code, any other one no icmp type, and the destination is no URL. -/
structure NothingLost (r : PRule) : Prop where
  icmp : r.protocol = .name "icmp" → r.dst.port = none ∧ ∀ ty c, r.icmp = some (.icmp ty c) → c = none
  other : r.protocol ≠ .name "icmp" → r.icmp = none
  url : r.url = none

end Acltk.Cells
