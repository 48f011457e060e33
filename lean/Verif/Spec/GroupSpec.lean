import Verif.Spec.HostSpec
import Verif.Model.Group
/-!
# Specification: the leaves of a group, depth first
-/
namespace Acltk

/-- `l` is the list of non-group members below the list of members, in depth-first order.
(`NonGroup` of a network group: network objects are replaced by their addresses.) -/
inductive NetLeaves : List Host → List Host → Prop
  | nil : NetLeaves [] []
  | group {nm ms t a b} : NetLeaves ms a → NetLeaves t b → NetLeaves (.group nm ms :: t) (a ++ b)
  | obj {nm addrs t b} : NetLeaves t b → NetLeaves (.obj nm addrs :: t) (addrs ++ b)
  | other {h t b} : (∀ nm l, h ≠ .group nm l) → (∀ nm l, h ≠ .obj nm l) → NetLeaves t b →
      NetLeaves (h :: t) (h :: b)

/-- The network objects in a group list addresses and `any` keywords, neither groups nor objects
(that is what `NetworkObject.__init__` builds). -/
def FlatObjects (g : Host) : Prop :=
  ∀ nm l, GroupLeaf g (.obj nm l) → ∀ h ∈ l, Leaf h h

/-- Depth-first list of leaves for the other kinds of group. -/
inductive TreeLeaves {α : Type} : List (GTree α) → List α → Prop
  | nil : TreeLeaves [] []
  | leaf {a t b} : TreeLeaves t b → TreeLeaves (.leaf a :: t) (a :: b)
  | group {nm ms t a b} : TreeLeaves ms a → TreeLeaves t b → TreeLeaves (.group nm ms :: t) (a ++ b)

/-- The service a member of a service group stands for. -/
def SvcLeaf.value {P : Type} : SvcLeaf P → Service P
  | .service s => s
  | .object _ _ s => s

end Acltk
