import Verif.Model.IosRow
import Verif.Spec.RowSpec
/-!
# Specification for C117: what somebody who sees the row of an IOS rule takes the rule for
-/
namespace Acltk.Cells
open Acltk Acltk.AclText

/-- What the columns but the last one show. -/
structure ColumnsShown where
  mode : String
  protocol : ProtoShown
  src : Shown
  sport : PortShown
  dst : Shown
  dport : PortShown
  icmp : IcmpShown

/-- The columns of a row, and its options: lines `keyword:value`. -/
structure IosReads (r : RowCells) (x : ColumnsShown) (o : String → List Char → Prop) : Prop where
  mode : r.mode = x.mode.toList
  protocol : ReadsProto r.protocol x.protocol
  src : Reads r.src x.src
  sport : ReadsPortVal r.sport x.sport
  dst : Reads r.dst x.dst
  icmp : x.protocol = .name "icmp" → x.dport = .nothing ∧ ReadsIcmp r.last x.icmp
  port : x.protocol ≠ .name "icmp" → x.icmp = .nothing ∧ ReadsPortVal r.last x.dport
  options : ∀ k v, o k v ↔ ':' ∉ k.toList ∧ Cell.text (k.toList ++ ':' :: v) ∈ r.options

/-- The rule is what is shown; an option without a value has the value `None`. -/
structure IosIs (nm : Nat → String) (r : IosText.IRule) (x : ColumnsShown) (o : String → List Char → Prop) : Prop where
  mode : r.mode = x.mode
  protocol : ProtoIs nm r.protocol x.protocol
  src : Is r.src.host x.src
  sport : PortIs nm r.src.port x.sport
  dst : Is r.dst.host x.dst
  dport : PortIs nm r.dst.port x.dport
  icmp : IcmpIs nm r.icmp x.icmp
  options : ∀ k v, o k v ↔ (k, none) ∈ r.options ∧ v = "None".toList ∨ ∃ w, (k, some w) ∈ r.options ∧ v = w.toList

/-- Nothing of the rule is left out by the columns. -/
structure IosNothingLost (r : IosText.IRule) : Prop where
  icmp : r.protocol = .name "icmp" → r.dst.port = none ∧ ∀ ty c, r.icmp = some (.icmp ty c) → c = none
  other : r.protocol ≠ .name "icmp" → r.icmp = none

end Acltk.Cells
