import Verif.Model.PfRow
import Verif.Spec.RowSpec
/-!
# Specification for C119: what somebody who sees the row of a pfSense rule takes the rule for
-/
namespace Acltk.Cells
open Acltk Acltk.Pf

/-- What a row says. -/
structure PfShown where
  mode : String
  protocol : String
  src : Shown
  sport : PortShown
  dst : Shown
  dport : PortShown
  icmp : IcmpShown
  inactive : Bool
  log : Bool
  tracker : String

/-- A cell of a port is empty, `eq` and a port, two ports with a hyphen, or a link to the aliases of ports. -/
inductive ReadsPfPort : Cell → PortShown → Prop
  | nothing : ReadsPfPort (.text []) .nothing
  | single (num : String) : '-' ∉ num.toList → ReadsPfPort (.text ("eq ".toList ++ num.toList)) (.single "eq" num)
  | range (a b : String) : '-' ∉ a.toList → '-' ∉ b.toList → ReadsPfPort (.text (a.toList ++ '-' :: b.toList)) (.range a b)
  | group (n : String) : ReadsPfPort (.link ("port_group_" ++ n) n.toList) (.group n)

/-- The cells of a row, read one by one; the last column is that of icmp in rows of the protocol icmp and that of the destination port in the others. -/
structure PfReads (r : RowCells) (x : PfShown) : Prop where
  mode : r.mode = x.mode.toList
  protocol : r.protocol = .text x.protocol.toList
  src : Reads r.src x.src
  sport : ReadsPfPort r.sport x.sport
  dst : Reads r.dst x.dst
  icmp : x.protocol = "icmp" → x.dport = .nothing ∧ ReadsIcmp r.last x.icmp
  port : x.protocol ≠ "icmp" → x.icmp = .nothing ∧ ReadsPfPort r.last x.dport
  inactive : x.inactive = true ↔ Cell.text "inactive".toList ∈ r.options
  log : x.log = true ↔ Cell.text "log".toList ∈ r.options
  tracker : r.options.getLast? = some (.text ("xref:".toList ++ x.tracker.toList))

/-- Aliases by name; a missing name is shown as the word None. -/
inductive PfPortIs : Option PortRef → PortShown → Prop
  | nothing : PfPortIs none .nothing
  | single (op num) : PfPortIs (some (.leaf (.port ⟨some op, some num⟩))) (.single op num)
  | range (a b) : PfPortIs (some (.leaf (.range a b))) (.range a b)
  | group (n l) : PfPortIs (some (.group (some n) l)) (.group n)
  | unnamed (l) : PfPortIs (some (.group none l)) (.group "None")

inductive PfIcmpIs : Option (Option String) → IcmpShown → Prop
  | nothing : PfIcmpIs none .nothing
  | type (s) : PfIcmpIs (some (some s)) (.type s none)
  | empty : PfIcmpIs (some none) (.type "None" none)

/-- The tracker; a missing one is -1, an empty one None. -/
inductive TrackerIs : Option OptVal → String → Prop
  | missing : TrackerIs (some (.xref none)) "-1"
  | empty : TrackerIs (some (.xref (some none))) "None"
  | tracker (s) : TrackerIs (some (.xref (some (some s)))) s

/-- The rule is what is shown. -/
structure PfIs {T : Type} (r : PfRule T) (x : PfShown) : Prop where
  mode : r.mode = x.mode
  protocol : r.protocol.getD "None" = x.protocol
  src : Is r.src.host x.src
  sport : PfPortIs r.src.port x.sport
  dst : Is r.dst.host x.dst
  dport : PfPortIs r.dst.port x.dport
  icmp : PfIcmpIs r.icmp x.icmp
  inactive : x.inactive = true ↔ dGet r.options "inactive" = some .inactive
  log : x.log = true ↔ dGet r.options "log" = some .log
  tracker : TrackerIs (dGet r.options "xref") x.tracker

/-- Nothing of the rule is left out by the columns: a rule of the protocol icmp has no destination port, any other one no icmp type. -/
structure PfNothingLost {T : Type} (r : PfRule T) : Prop where
  icmp : r.protocol = some "icmp" → r.dst.port = none
  other : r.protocol ≠ some "icmp" → r.icmp = none
  text : r.icmp ≠ some (some "")

end Acltk.Cells
