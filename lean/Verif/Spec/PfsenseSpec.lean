import Verif.Model.Pfsense
import Verif.Spec.NetSpec
/-!
# Specification: what a pfSense rule element says

`children` of an element are read as a record: the last child with a tag counts.
-/
namespace Acltk.Pf
open Acltk

/-- The last child with a tag. -/
def lastChild (e : Elem) (tag : String) : Option Elem :=
  (e.children.filter (fun c => c.tag == tag)).getLast?

/-- There is a child with the tag. -/
def HasChild (e : Elem) (tag : String) : Prop := ∃ c ∈ e.children, c.tag = tag

/-- A child that says where a packet comes from or goes to. -/
def isAddr (c : Elem) : Bool := c.tag == "any" || c.tag == "address" || c.tag == "network"

/-- The host an address child stands for: any; the alias of that name; else an address; else a network
in the notation `address/mask`; or the network of an interface known under that name. -/
inductive AddrMeans (t : Tables) (c : Elem) : Host → Prop
  | any : c.tag = "any" → AddrMeans t c .any
  | alias (g : Host) : c.tag = "address" → dGet t.nets c.text = some g → AddrMeans t c g
  | host (s : String) (a : Addr) : c.tag = "address" → dGet t.nets c.text = none → c.text = some s →
      '/' ∉ s.toList → ipAddress s.toList = .ok a → AddrMeans t c (.host a)
  | net (s : String) (a m : List Char) (x : Addr) (n : Nat) (net : Net) : c.tag = "address" →
      dGet t.nets c.text = none → c.text = some s → s.toList = a ++ '/' :: m →
      '/' ∉ a → '/' ∉ m → ipAddress a = .ok x → MaskText x.ver m n →
      (∀ y, net.Denotes y ↔ AgreeTop n y x) → AddrMeans t c (.net net)
  | iface (s : String) (o : Ifc.Intf) : c.tag = "network" → c.text = some s → dGet t.ifaces s = some o →
      AddrMeans t c (.iface o.alias)

/-- The port a port child stands for: the alias of that name; else a range `a-b`; else one port. -/
inductive PortMeans (t : Tables) (c : Elem) : PortRef → Prop
  | alias (g : PortRef) : dGet t.ports c.text = some g → PortMeans t c g
  | one (s : String) : dGet t.ports c.text = none → c.text = some s → '-' ∉ s.toList →
      PortMeans t c (.leaf (.port ⟨some "eq", some s⟩))
  | range (s : String) (a b : List Char) : dGet t.ports c.text = none → c.text = some s →
      s.toList = a ++ '-' :: b → '-' ∉ a → '-' ∉ b →
      (∀ i j, pyInt a = some i → pyInt b = some j → String.ofList a < String.ofList b) →
      PortMeans t c (.leaf (.range (String.ofList a) (String.ofList b)))

/-- The node a source or destination element stands for. -/
structure NodeMeans (t : Tables) (e : Elem) (n : PNode) : Prop where
  known : ∀ c ∈ e.children, isAddr c = true ∨ c.tag = "port"
  addrs : ∀ c ∈ e.children, isAddr c = true → ∃ h, AddrMeans t c h
  ports : ∀ c ∈ e.children, c.tag = "port" → ∃ p, PortMeans t c p
  host : ∃ c, (e.children.filter isAddr).getLast? = some c ∧ AddrMeans t c n.host
  port : match lastChild e "port" with
    | none => n.port = none
    | some c => ∃ p, n.port = some p ∧ PortMeans t c p

/-- The tags a rule may have. -/
def ruleTags : List String :=
  ["tracker", "type", "interface", "floating", "direction", "quick", "protocol", "descr", "disabled",
   "statetype", "log", "source", "destination", "created", "updated", "icmptype", "id", "ipprotocol",
   "tag", "tagged", "max", "max-src-nodes", "max-src-conn", "max-src-states", "statetimeout", "os"]

/-- The rule is a floating rule. -/
def Floating (e : Elem) : Prop := ∃ c, lastChild e "floating" = some c ∧ c.text = some "yes"

/-- A rule element that has everything a rule needs, and nothing unknown. -/
structure WellFormedRule {T : Type} (v : Env T) (t : Tables) (e : Elem) : Prop where
  tags : ∀ c ∈ e.children, c.tag ∈ ruleTags
  nodes : ∀ c ∈ e.children, c.tag = "source" ∨ c.tag = "destination" → ∃ n, NodeMeans t c n
  stamps : ∀ c ∈ e.children, c.tag = "created" ∨ c.tag = "updated" →
    ∀ x ∈ c.children, x.tag = "time" → ∃ y, v.stamp x.text = .ok y
  type : HasChild e "type"
  descr : HasChild e "descr"
  interface : HasChild e "interface"
  floating : Floating e → HasChild e "direction" ∧ ∃ c s, lastChild e "interface" = some c ∧ c.text = some s

/-- Two lists of the same length whose elements are related pair by pair. -/
inductive All2 {α β : Type} (R : α → β → Prop) : List α → List β → Prop
  | nil : All2 R [] []
  | cons {x : α} {y : β} {l : List α} {m : List β} : R x y → All2 R l m → All2 R (x :: l) (y :: m)

end Acltk.Pf
