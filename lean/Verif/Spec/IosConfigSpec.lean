import Verif.Spec.IosSpec
import Verif.Spec.ConfigSpec
/-!
# Specification for C82 and C85: routes and access groups of an IOS text

Everything is defined on the items the commands of the text stand for.  An object is identified by the position of its item.
-/
namespace Acltk.IosConfig
open Acltk
open Acltk.IosText (Item Route Gateway)

/-- The item is a route. -/
def isRoute : Item → Bool
  | .route _ => true
  | _ => false

/-- The positions of the routes, in file order. -/
def RoutePositions (items : List Item) : List Nat := (items.zipIdx.filter (fun p => isRoute p.1)).map (·.2)

/-- An interface stands at this position. -/
abbrev IfaceAt (items : List Item) (j : Nat) (i : Ifc.Intf) : Prop := items[j]? = some (.base (.iface i))

/-- The interface at position `j` is the one the route at position `k` goes through: the interface named, as it was defined last
in front of the route; for an address the interfaces of the finished configuration with a network the address is in. -/
def Through (items : List Item) (j k : Nat) : Gateway → Prop
  | .iface i => IfaceAt items j i ∧ j < k ∧ ∀ j' i', j < j' → j' < k → IfaceAt items j' i' → i'.alias ≠ i.alias
  | .addr a => ∃ i, IfaceAt items j i ∧ (∀ j' i', j < j' → IfaceAt items j' i' → i'.alias ≠ i.alias) ∧
      ∃ p ∈ i.addresses, p.2.Denotes a

/-- The uses of access lists on the interfaces, in file order: position of the interface, key, name of the list, direction. -/
def Uses (items : List Item) : List (Nat × String × String × String) :=
  items.zipIdx.flatMap (fun p => match p.1 with
    | .base (.iface i) => i.accessGroups.map (fun e => (p.2, e.1, e.2.1, e.2.2))
    | _ => [])

end Acltk.IosConfig
