import Verif.Model.IfaceSection
import Verif.Spec.TimeSectionSpec
/-!
# Specification for C123: what somebody who sees the section of an interface takes it for
-/
namespace Acltk.Cells
open Acltk

/-- What a section says.  No name and an empty one, and no description and an empty one, are the same. -/
structure IfaceShown where
  alias : String
  nameif : Option String
  description : String
  addresses : List (Addr × Nat)
  mode : Option String
  trunk : Option (List Ifc.Vlan)
  groups : List (String × String)

/-- `10.0.0.1/24`: an address and a prefix length. -/
structure ReadsIfAddr (s : List Char) (x : Addr × Nat) : Prop where
  valid : x.1.Valid
  parts : ∃ p, s = x.1.text ++ '/' :: p ∧ Num p x.2

/-- `10` or `10-20` -/
inductive ReadsVlan : List Char → Ifc.Vlan → Prop
  | one {v : String} : (∀ c ∈ v.toList, c.isDigit = true) → ReadsVlan v.toList (.one v)
  | range {a b : String} : (∀ c ∈ a.toList, c.isDigit = true) → (∀ c ∈ b.toList, c.isDigit = true) → ReadsVlan (a.toList ++ '-' :: b.toList) (.range a b)

/-- `1,10-20` -/
inductive ReadsVlans : List Char → List Ifc.Vlan → Prop
  | one {s v} : ReadsVlan s v → ReadsVlans s [v]
  | more {s t v l} : ReadsVlan s v → ReadsVlans t l → ReadsVlans (s ++ ',' :: t) (v :: l)

/-- Both are there or neither is. -/
inductive Maybe {α β : Type} (R : α → β → Prop) : Option α → Option β → Prop
  | none : Maybe R none none
  | some {a b} : R a b → Maybe R (some a) (some b)

/-- The direction, and a link to the section of the group with its name. -/
structure ReadsGroupRow (s : GroupRow) (x : String × String) : Prop where
  direction : s.direction = x.1.toList
  link : s.link = "access_group_" ++ x.2
  name : s.name = x.2.toList

structure ReadsIface (s : IfaceSection) (x : IfaceShown) : Prop where
  anchor : s.anchor = "interface_" ++ x.alias
  second : Maybe (fun a n => a = "interface_" ++ n ∧ n ≠ "") s.second x.nameif
  heading : s.heading = x.alias.toList
  description : s.description = x.description.toList
  addresses : Each ReadsIfAddr s.addresses x.addresses
  mode : Maybe (fun a m => a = m.toList) s.mode x.mode
  trunk : Maybe ReadsVlans s.trunk x.trunk
  groups : Each ReadsGroupRow s.groups x.groups
  nameif : Maybe (fun a n => a = n.toList) s.nameif x.nameif

/-- The interface is what is shown. -/
structure IfaceIs (i : Ifc.Intf) (x : IfaceShown) : Prop where
  alias : x.alias = i.alias
  nameif : ∀ n, x.nameif = some n ↔ i.nameif = some n ∧ n ≠ ""
  description : x.description = i.description.getD ""
  addresses : x.addresses = i.addresses.map fun p => (p.1, p.2.plen)
  mode : x.mode = i.switchport.map (·.mode)
  trunk : x.trunk = i.switchport.bind (·.trunk)
  groups : x.groups = i.accessGroups.map fun p => (p.1, p.2.1)

end Acltk.Cells
