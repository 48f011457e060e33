import Verif.Spec.IosRefsSpec
import Verif.Spec.HeapSpec
/-!
# Specification for C113: the objects of an IOS text

Which objects there are when the parser has read an IOS text, and what refers to what, in terms of the elements of the text.  The rules of the text are numbered from 0 in their
order; the object of the element number `p` has the number `p` behind the rules; whatever has no name of its own has a number behind rules and elements.
-/
namespace Acltk.IosPage
open Acltk Acltk.Resolve
open Acltk.Page hiding Item
open Acltk.FwsmText (netGroupDef idDef identOf PortMember SvcMember IcmpMember ProtoMember)
open Acltk.IosText (Item IRule rulesOf defs hostsOf idsOf)

/-- The number of the element number `p`. -/
def oid (items : List Item) (p : Nat) : Oid := (rulesOf items).length + p

/-- The first number behind rules and elements. -/
def size (items : List Item) : Nat := oid items items.length

/-- The rule number `j` of the text is one of the element number `k`. -/
def InElement (items : List Item) (j k : Nat) : Prop := (rulesOf (items.take k)).length ≤ j ∧ j < (rulesOf (items.take (k + 1))).length

/-- An object without a name of its own. -/
def Part (objs : Oid → Obj) (items : List Item) (e : El) (what : Obj → Prop) : Prop := ∃ q, e = .obj q ∧ size items ≤ q ∧ what (objs q)

/-- What stands for a host in the element number `k`: the last group of that name in front of it, or an object of its own. -/
def HostAt (objs : Oid → Obj) (items : List Item) (k : Nat) (h : Host) (e : El) : Prop :=
  match h with
  | .group n _ => ∀ p, LastAt netGroupDef (defs items) k n p → e = .obj (oid items p)
  | .iface n => Part objs items e (· = .netInterface n)
  | .net _ | .host _ => Part objs items e (· = .address none)
  | _ => Part objs items e (· = .other)

/-- What stands for a reference by identity: the object that has it. -/
def IdAt (items : List Item) (o : Nat) (e : El) : Prop := ∀ (p : Nat) i, (defs items)[p]? = some i → identOf i = some o → e = .obj (oid items p)

/-- The port of a side of a rule. -/
def PortAt (objs : Oid → Obj) (items : List Item) (v : Option AclText.PortVal) (e : El) : Prop :=
  match v with
  | none => e = .none
  | some (.group o) => IdAt items o e
  | some _ => Part objs items e (· = .other)

/-- The protocol of a rule. -/
def ProtoAt (objs : Oid → Obj) (items : List Item) (v : AclText.Proto) (e : El) : Prop :=
  match v with
  | .name n => Part objs items e (· = .protocol n)
  | .svcGroup o => IdAt items o e
  | .protoGroup o => IdAt items o e
  | .svcObj o => IdAt items o e

/-- The ICMP type of a rule. -/
def IcmpAt (objs : Oid → Obj) (items : List Item) (v : Option AclText.IcmpVal) (e : Option El) : Prop :=
  match v with
  | none => e = none
  | some (.group o) => ∃ x, e = some x ∧ IdAt items o x
  | some (.icmp _ _) => ∃ x, e = some x ∧ Part objs items x (· = .other)

/-- The object of the rule number `j`, which is one of the element number `k`. -/
def RuleObj (objs : Oid → Obj) (items : List Item) (k : Nat) (j : Oid) (r : IRule) : Prop :=
  ∃ p sh sp dh dp ic, objs j = .rule (some r.id) p sh sp dh dp ic [] ∧ ProtoAt objs items r.protocol p ∧
    HostAt objs items k r.src.host sh ∧ PortAt objs items r.src.port sp ∧ HostAt objs items k r.dst.host dh ∧ PortAt objs items r.dst.port dp ∧
    IcmpAt objs items r.icmp ic

/-- A member of a port group. -/
def PortMemberAt (objs : Oid → Obj) (items : List Item) (v : PortMember) (e : El) : Prop :=
  match v with
  | .group o => IdAt items o e
  | _ => Part objs items e (· = .other)

/-- A member of a service group. -/
def SvcMemberAt (objs : Oid → Obj) (items : List Item) (v : SvcMember) (e : El) : Prop :=
  match v with
  | .group o => IdAt items o e
  | .obj o => IdAt items o e
  | .svc _ => Part objs items e (· = .other)

/-- A member of an ICMP group. -/
def IcmpMemberAt (objs : Oid → Obj) (items : List Item) (v : IcmpMember) (e : El) : Prop :=
  match v with
  | .group o => IdAt items o e
  | .icmp _ => Part objs items e (· = .other)

/-- A member of a protocol group. -/
def ProtoMemberAt (objs : Oid → Obj) (items : List Item) (v : ProtoMember) (e : El) : Prop :=
  match v with
  | .group o => IdAt items o e
  | .protocol n => Part objs items e (· = .protocol n)

/-- The object of the element number `p`; rules and routes have none. -/
def ItemAt (objs : Oid → Obj) (items : List Item) (p : Nat) : Item → Prop
  | .base (.iface i) => objs (oid items p) = .interface i.nameif
  | .base (.netGroup n l _) => ∃ ms, objs (oid items p) = .group .network n ms ∧ Each (HostAt objs items p) l ms
  | .base (.portGroup _ n _ l _) => ∃ ms, objs (oid items p) = .group .port n ms ∧ Each (PortMemberAt objs items) l ms
  | .base (.svcGroup _ n l _) => ∃ ms, objs (oid items p) = .group .service n ms ∧ Each (SvcMemberAt objs items) l ms
  | .base (.icmpGroup _ n l _) => ∃ ms, objs (oid items p) = .group .icmp n ms ∧ Each (IcmpMemberAt objs items) l ms
  | .base (.protoGroup _ n l _) => ∃ ms, objs (oid items p) = .group .protocol n ms ∧ Each (ProtoMemberAt objs items) l ms
  | _ => objs (oid items p) = .other

/-- The objects are those of the text. -/
structure ObjectsOf (objs : Oid → Obj) (items : List Item) : Prop where
  rule : ∀ (j k : Nat) r, (rulesOf items)[j]? = some r → InElement items j k → RuleObj objs items k j r
  item : ∀ (p : Nat) i, items[p]? = some i → ItemAt objs items p i
  parts : ∀ o, size items ≤ o → objs o = .other ∨ objs o = .address none ∨ (∃ n, objs o = .netInterface n) ∨ ∃ n, objs o = .protocol n
  finite : ∃ all : List Oid, ∀ o, objs o ≠ .other → o ∈ all

/-- The element number `p` is the definition of that name that the configuration keeps (C36): the last one. -/
def Kept (items : List Item) (c : Config.Kind) (n : String) (p : Nat) : Prop :=
  (∃ i, (defs items)[p]? = some i ∧ defName c i = some n) ∧ ∀ (q : Nat) j, (defs items)[q]? = some j → defName c j = some n → q ≤ p

/-- The element number `k` refers to the definition with the number `p` (C112). -/
inductive RefersTo (items : List Item) (k : Nat) : Config.Kind → String → Nat → Prop
  | group {i n l p} : items[k]? = some i → .group n l ∈ hostsOf i → LastAt netGroupDef (defs items) k n p → RefersTo items k .netGroup n p
  | id {i c o p j n} : items[k]? = some i → (c, o) ∈ idsOf i → (defs items)[p]? = some j → idDef c j = some (n, o) → RefersTo items k c n p

/-- The configuration has what the element number `k` is: rules, or a definition that is kept. -/
inductive Live (items : List Item) (k : Nat) : Prop
  | rules {i} : items[k]? = some i → IosText.itemRules i ≠ [] → Live items k
  | kept {c n} : Kept items c n k → Live items k

/-- Whatever the elements of the configuration refer to is a definition it keeps.  (So it is if no name of a kind is defined twice, but also if a group is only defined again before
anything refers to it.) -/
def Settled (items : List Item) : Prop := ∀ k c n p, Live items k → RefersTo items k c n p → Kept items c n p

/-- No name of a kind is defined twice. -/
def Once (items : List Item) : Prop :=
  ∀ c (n : String) (p q : Nat) i j, (defs items)[p]? = some i → (defs items)[q]? = some j → defName c i = some n → defName c j = some n → p = q

end Acltk.IosPage
