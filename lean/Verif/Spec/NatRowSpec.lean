import Verif.Model.NatRow
import Verif.Spec.RowSpec
import Verif.Model.FwsmText
/-!
# Specification for C120: what somebody who sees the rows of a NAT entry takes it for
-/
namespace Acltk.Cells
open Acltk Acltk.NatCmd

/-- A port of a service: the word of an object NAT line, or a condition. -/
inductive NatPortShown where
  | word (w : String)
  | cond (x : PortShown)

/-- What the rows say: interfaces, nodes (a missing one is `none`), the kind of translation, the fallback, the options, the service (protocol, real ports, mapped ports) and the description. -/
structure NatShown where
  iface : String
  src : Option Shown
  dst : Option Shown
  miface : String
  type : String
  msrc : Option Shown
  fallback : Option String
  ipv6 : Bool
  mdst : Option Shown
  options : List String
  service : Option (String × NatPortShown × NatPortShown × NatPortShown × NatPortShown)
  description : Option String

/-- An empty cell is a missing node. -/
inductive ReadsNode : Cell → Option Shown → Prop
  | missing : ReadsNode (.text []) none
  | host {c x} : Reads c x → ReadsNode c (some x)

/-- A fallback is an interface between parentheses. -/
inductive ReadsFallback : Option Cell → Option String → Prop
  | none : ReadsFallback none none
  | interface (n : String) : ReadsFallback (some (.link ("interface_" ++ n) n.toList)) (some n)

/-- A port alone, or what a cell of a rule can be. -/
inductive ReadsNatPort : Cell → NatPortShown → Prop
  | word (w : String) : PortText w → ReadsNatPort (.text w.toList) (.word w)
  | cond {c x} : ReadsPortVal c x → ReadsNatPort c (.cond x)

/-- The row of the service. -/
inductive ReadsNatSvc : Option (List Char × Cell × Cell × Cell × Cell) → Option (String × NatPortShown × NatPortShown × NatPortShown × NatPortShown) → Prop
  | none : ReadsNatSvc none none
  | some (p : String) {a b c d w x y z} : ReadsNatPort a w → ReadsNatPort b x → ReadsNatPort c y → ReadsNatPort d z → ReadsNatSvc (some (p.toList, a, b, c, d)) (some (p, w, x, y, z))

structure NatReads (r : NatCells) (x : NatShown) : Prop where
  iface : Reads r.iface (.interface x.iface)
  src : ReadsNode r.src x.src
  dst : ReadsNode r.dst x.dst
  miface : Reads r.miface (.interface x.miface)
  type : r.type = x.type.toList
  msrc : ReadsNode r.msrc x.msrc
  fallback : ReadsFallback r.fallback x.fallback
  ipv6 : r.ipv6 = x.ipv6
  mdst : ReadsNode r.mdst x.mdst
  options : r.options = x.options.map String.toList
  service : ReadsNatSvc r.service x.service
  description : r.description = x.description.map String.toList

variable (nm : Nat → String)

/-- The node of an entry is what is shown. -/
inductive NodeIs : Option Node' → Option Shown → Prop
  | missing : NodeIs none none
  | host {h x} : Is h x → NodeIs (some (.host h)) (some x)

inductive FallbackIs : Option Fallback → Option String → Bool → Prop
  | none : FallbackIs none none false
  | noInterface (v) : FallbackIs (some ⟨none, v⟩) none v
  | interface (n v) : FallbackIs (some ⟨some (some n), v⟩) (some n) v

inductive NatPortIs : Option PortRef → NatPortShown → Prop
  | none : NatPortIs none (.cond .nothing)
  | word (w) : NatPortIs (some (.word w)) (.word w)
  | cond {v x} : PortIs nm (some v) x → NatPortIs (some (.cond v)) (.cond x)

/-- The services of both sides: none, or the protocol of the real side with its ports and those of the mapped side. -/
inductive NatSvcIs : Option Svc → Option Svc → Option (String × NatPortShown × NatPortShown × NatPortShown × NatPortShown) → Prop
  | none (m) : NatSvcIs none m none
  | some {s m w x y z} : NatPortIs nm s.src w → NatPortIs nm s.dst x → NatPortIs nm m.src y → NatPortIs nm m.dst z → NatSvcIs (some s) (some m) (some (s.protocol, w, x, y, z))

/-- The entry is what is shown.  The words of the section (`auto`, `after-auto`) are in the heading of the table, not in the rows; an empty description is none. -/
structure NatIs (n : Nat') (x : NatShown) : Prop where
  iface : n.real.iface = x.iface
  src : NodeIs n.real.src x.src
  dst : NodeIs n.real.dst x.dst
  miface : n.mapped.iface = x.miface
  type : n.mapped.type = some x.type
  msrc : NodeIs n.mapped.src x.msrc
  fallback : FallbackIs n.mapped.fallback x.fallback x.ipv6
  mdst : NodeIs n.mapped.dst x.mdst
  options : x.options = n.options.filter (fun k => decide (k ∉ ["auto", "after-auto", "after-object"]))
  service : NatSvcIs nm n.real.service n.mapped.service x.service
  description : x.description = n.description.filter (fun d => decide (d ≠ ""))

/-- The entry of an element of the parse result: a NAT command or the NAT line of a network object. -/
inductive NatIn (n : Nat') : FwsmText.Item → Prop
  | command : NatIn n (.nat n)
  | object (name l d) : NatIn n (.netObj name l (some n) d)

end Acltk.Cells
