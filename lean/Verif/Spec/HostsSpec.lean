import Verif.Spec.HostSpec
import Verif.Spec.GroupSpec
import Verif.Model.IosText
/-!
# Specification: the hosts a configuration can contain
-/
namespace Acltk

/-- A host as it stands in a configuration.  `w` says whether wildcards may occur.  Addresses and networks are well formed; a network
object lists addresses, networks and `any` keywords; a group lists such hosts and such groups, so it never contains itself. -/
inductive Configured (w : Bool) : Host → Prop
  | host (a : Addr) : a.Valid → Configured w (.host a)
  | net (n : Net) : n.Valid → Configured w (.net n)
  | wild (a m : Nat) : w = true → a < 2 ^ 32 → m < 2 ^ 32 → Configured w (.wild a m)
  | any : Configured w .any
  | any4 : Configured w .any4
  | any6 : Configured w .any6
  | iface (nm : String) : Configured w (.iface nm)
  | obj (nm : String) (l : List Host) : (∀ h ∈ l, Configured w h) → (∀ h ∈ l, Leaf h h) → Configured w (.obj nm l)
  | group (nm : String) (l : List Host) : (∀ h ∈ l, Configured w h) → Configured w (.group nm l)

/-- A host of an element of the parse result of an FWSM text: of a rule, a group, a network object or a NAT entry. -/
inductive FwsmText.HostIn : Host → FwsmText.Item → Prop
  | src (r : AclText.PRule) : HostIn r.src.host (.rule r)
  | dst (r : AclText.PRule) : HostIn r.dst.host (.rule r)
  | group (n : String) (l : List Host) (d : Option (List Char)) : HostIn (.group n l) (.netGroup n l d)
  | object (n : String) (l : List Host) (nat : Option NatCmd.Nat') (d : Option (List Char)) : HostIn (.obj n l) (.netObj n l nat d)
  | objectNat (n : String) (l : List Host) (x : NatCmd.Nat') (d : Option (List Char)) (h : Host) :
      x.real.src = some (.host h) ∨ x.real.dst = some (.host h) ∨ x.mapped.src = some (.host h) ∨ x.mapped.dst = some (.host h) →
      HostIn h (.netObj n l (some x) d)
  | nat (x : NatCmd.Nat') (h : Host) :
      x.real.src = some (.host h) ∨ x.real.dst = some (.host h) ∨ x.mapped.src = some (.host h) ∨ x.mapped.dst = some (.host h) →
      HostIn h (.nat x)

end Acltk
