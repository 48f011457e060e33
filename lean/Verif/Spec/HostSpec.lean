import Verif.Model.Host
import Verif.Spec.AddrSpec
/-!
# Specification of hosts as address sets

`Covers h x`: address `x` is denoted by host `h`.  `Leaf h l`: `l` is `h` itself or occurs at
some depth below it.  Both are inductive predicates, independent of `meet`.
-/
namespace Acltk

/-- Address `x` belongs to the address set of the host. -/
inductive Covers : Host → Addr → Prop
  | net {n x} : n.Denotes x → Covers (.net n) x
  | host {a} : Covers (.host a) a
  | wild {a w x} : AgreesOff a w x → x < 2 ^ 32 → Covers (.wild a w) ⟨.v4, x⟩
  | any {x} : x.Valid → Covers .any x
  | any4 {x} : x < 2 ^ 32 → Covers .any4 ⟨.v4, x⟩
  | any6 {x} : x < 2 ^ 128 → Covers .any6 ⟨.v6, x⟩
  | iface {nm x} : x.Valid → Covers (.iface nm) x
  | obj {nm l h x} : h ∈ l → Covers h x → Covers (.obj nm l) x
  | group {nm l h x} : h ∈ l → Covers h x → Covers (.group nm l) x

/-- `l` is a member (at any depth, through groups and network objects) of the host, and is not
itself a group or network object. -/
inductive Leaf : Host → Host → Prop
  | net {n} : Leaf (.net n) (.net n)
  | host {a} : Leaf (.host a) (.host a)
  | wild {a w} : Leaf (.wild a w) (.wild a w)
  | any : Leaf .any .any
  | any4 : Leaf .any4 .any4
  | any6 : Leaf .any6 .any6
  | cafAny : Leaf .cafAny .cafAny
  | cafAny4 : Leaf .cafAny4 .cafAny4
  | cafAny6 : Leaf .cafAny6 .cafAny6
  | iface {nm} : Leaf (.iface nm) (.iface nm)
  | obj {nm l h x} : h ∈ l → Leaf h x → Leaf (.obj nm l) x
  | group {nm l h x} : h ∈ l → Leaf h x → Leaf (.group nm l) x

/-- The invariants established by the constructors of the `ipaddress` objects inside a leaf. -/
def LeafValid : Host → Prop
  | .net n => n.Valid
  | .host a => a.Valid
  | .wild a w => a < 2 ^ 32 ∧ w < 2 ^ 32
  | _ => True

/-- A host as it occurs in a configuration: every leaf is well formed and none of the
CAF-only keywords `ANY`, `ANY4`, `ANY6` occurs. -/
def Ordinary (h : Host) : Prop :=
  ∀ l, Leaf h l → LeafValid l ∧ l ≠ .cafAny ∧ l ≠ .cafAny4 ∧ l ≠ .cafAny6

/-- Some leaf is a wildcard. -/
def HasWild (h : Host) : Prop := ∃ a w, Leaf h (.wild a w)

/-- Some leaf is an IPv6 host or network. -/
def HasV6 (h : Host) : Prop :=
  (∃ a : Addr, a.ver = .v6 ∧ Leaf h (.host a)) ∨ (∃ n : Net, n.ver = .v6 ∧ Leaf h (.net n))

/-- Some leaf denotes every address of both versions (`any` or an interface). -/
def HasAny (h : Host) : Prop := Leaf h .any ∨ ∃ nm, Leaf h (.iface nm)

/-- Reached from `h` through nested groups only (not through network objects). -/
inductive GroupLeaf : Host → Host → Prop
  | self {h} : GroupLeaf h h
  | group {nm l h x} : h ∈ l → GroupLeaf h x → GroupLeaf (.group nm l) x

mutual
/-- Nesting depth of a host: 1 for a leaf, one more than the deepest member otherwise. -/
def Host.depth : Host → Nat
  | .obj _ l => 1 + Host.depthList l
  | .group _ l => 1 + Host.depthList l
  | _ => 1
/-- Largest depth in a list of members. -/
def Host.depthList : List Host → Nat
  | [] => 0
  | h :: t => max h.depth (Host.depthList t)
end

end Acltk
