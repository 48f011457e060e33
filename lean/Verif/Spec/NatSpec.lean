import Verif.Model.Nat
import Verif.Spec.HostSpec
/-!
# Specification: NAT commands
-/
namespace Acltk.NatCmd
open Acltk

/-- The service carries the port, as source or as destination. -/
def Svc.Carries (s : Svc) (port : String) : Prop := s.src = some (.word port) ∨ s.dst = some (.word port)

/-- `service protocol real mapped`: the real side carries the real port and the mapped side the mapped
port, both with the protocol. -/
def PortsKept (a : ObjNat) (n : Nat') : Prop :=
  ∀ p r m, a.service = some (.service p r m) →
    (∃ s, n.real.service = some s ∧ s.protocol = p ∧ s.Carries r) ∧
    (∃ s, n.mapped.service = some s ∧ s.protocol = p ∧ s.Carries m)

/-- The service object names a source port only. -/
def Svc.SourceOnly (s : Svc) : Prop := (∃ p, s.src = some p) ∧ s.dst = none

/-- The service object names a destination port only. -/
def Svc.DestOnly (s : Svc) : Prop := s.src = none ∧ ∃ p, s.dst = some p

/-- The documented meaning of `service a b` (comments in fwsm.bnf:92-156 and fwsmSemantics.py:98-110):
`real` and `mapped` service of the command; no meaning for other combinations.  Source ports are
translated by `service real mapped` (static NAT only), destination ports by `service mapped real`. -/
inductive Documented (type : String) (a b : Svc) : Svc → Svc → Prop
  | staticSource : type = "static" → a.SourceOnly → b.SourceOnly → Documented type a b a b
  | staticDest : type = "static" → a.DestOnly → b.DestOnly → Documented type a b b a
  | dynamicDest : type = "dynamic" → a.DestOnly → b.DestOnly → Documented type a b b a

/-- The definition line of the network object of that name: the first block with addresses. -/
def defined (l : List Block) (name : String) : Option (List Host) :=
  (l.filterMap (fun b => if b.name = name then b.addresses else none)).head?

/-- The NAT entry of a block translates the addresses the object of that name is defined with. -/
def TranslatesObject (l : List Block) (b : Block) : Prop :=
  ∀ n, (objectType b).2 = some n → ∀ hs, defined l b.name = some hs →
    ∃ h, n.real.src = some (.host h) ∧ ∀ x, Covers h x ↔ ∃ k ∈ hs, Covers k x

/-- A node as written, the keyword `interface` standing for the interface `label`. -/
inductive Stands (label : String) : Node' → Node' → Prop
  | keyword : Stands label .interface (.host (.iface label))
  | host (h : Host) : Stands label (.host h) (.host h)

/-- The interface of a fallback clause: the keyword stands for the interface `label`. -/
inductive FallbackStands (label : String) : Option (Option String) → Option (Option String) → Prop
  | none : FallbackStands label none none
  | keyword : FallbackStands label (some none) (some (some label))
  | named (n : String) : FallbackStands label (some (some n)) (some (some n))

/-- The name of an interface: its nameif if it has a non-empty one, else its alias. -/
inductive Named (i : IfRef) : String → Prop
  | nameif (n : String) : i.nameif = some n → n ≠ "" → Named i n
  | alias : (∀ n, i.nameif = some n → n = "") → Named i i.alias

end Acltk.NatCmd
