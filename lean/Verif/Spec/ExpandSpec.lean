import Verif.Spec.GroupSpec
import Verif.Spec.CafSpec
/-!
# A configuration before and after `ACLConfig.expand`

What a host, a rule or a NAT entry looks like afterwards, whichever of the groups have been visited.
-/
namespace Acltk.ExpandFilter
open Acltk

mutual
/-- `h'` is `h` after some groups have been expanded in place: a group that was expanded lists its leaves, depth first, network
objects replaced by their addresses; one that was not has the same members, expanded or not. -/
inductive Expands : Host → Host → Prop
  | same (h : Host) : Expands h h
  | expanded {nm l l'} : NetLeaves l l' → Expands (.group nm l) (.group nm l')
  | inside {nm l l'} : ExpandsL l l' → Expands (.group nm l) (.group nm l')
/-- ... member by member. -/
inductive ExpandsL : List Host → List Host → Prop
  | nil : ExpandsL [] []
  | cons {h h' l l'} : Expands h h' → ExpandsL l l' → ExpandsL (h :: l) (h' :: l')
end

/-- A node of a side of a NAT entry. -/
def NodeExpands : Option (Option Host) → Option (Option Host) → Prop
  | some (some h), some (some h') => Expands h h'
  | a, b => a = b

/-- A side of a NAT entry. -/
def SideExpands : Option NatSide → Option NatSide → Prop
  | some s, some s' => NodeExpands s.src s'.src ∧ NodeExpands s.dst s'.dst
  | a, b => a = b

/-- A rule or a NAT entry: nothing but the members of groups has changed. -/
def EntryExpands : Entry → Entry → Prop
  | .rule r, .rule r' => r'.id = r.id ∧ Expands r.src.host r'.src.host ∧ Expands r.dst.host r'.dst.host
  | .nat n, .nat n' => SideExpands n.real n'.real ∧ SideExpands n.mapped n'.mapped
  | _, _ => False

/-- A host of an entry. -/
def HostOf (h : Host) : Entry → Prop
  | .rule r => h = r.src.host ∨ h = r.dst.host
  | .nat n => ∃ s, (n.real = some s ∨ n.mapped = some s) ∧ (s.src = some (some h) ∨ s.dst = some (some h))

/-- The filter does not use the keywords `ANY`, `ANY4` and `ANY6`. -/
def NoKeyword (e : Caf.Expr) : Prop :=
  ∀ f, Caf.RuleIn f e → ∀ k ∈ [Host.cafAny, .cafAny4, .cafAny6], ¬ Leaf f.src.host k ∧ ¬ Leaf f.dst.host k

/-- No group of the host has a network object that stands for everything (as one with a domain name does). -/
def NoAnyObject (h : Host) : Prop :=
  ∀ nm l, GroupLeaf h (.obj nm l) → .any ∉ l ∧ .any4 ∉ l ∧ .any6 ∉ l ∧ .cafAny ∉ l ∧ .cafAny4 ∉ l ∧ .cafAny6 ∉ l

end Acltk.ExpandFilter
