import Verif.Spec.RefsSpec
import Verif.Spec.PageSpec
/-!
# Specification for C108: the objects of an FWSM text

Which objects there are when the parser has read an FWSM text, and what refers to what, in terms of the elements of the text.  The identities are those
of `Static.tables`: the object of the `k`-th element is number `k`; the network object of a block with a NAT line is number `N + k` (the NAT entry is number `k`), where `N` is the
number of elements; whatever has no name of its own (addresses, ports, protocols, services written in a line) has a number from `2 N` on.
-/
namespace Acltk.Page
open Acltk Acltk.Resolve Acltk.FwsmText

/-- The element number `p` is the first definition of that name among the first `k` elements. -/
def FirstAt {α : Type} (f : FwsmText.Item → Option (String × α)) (items : List FwsmText.Item) (k : Nat) (n : String) (p : Nat) : Prop :=
  p < k ∧ (∃ i v, items[p]? = some i ∧ f i = some (n, v)) ∧ ∀ (q : Nat) i v, q < p → items[q]? = some i → f i ≠ some (n, v)

/-- The element number `p` is the last definition of that name among the first `k` elements. -/
def LastAt {α : Type} (f : FwsmText.Item → Option (String × α)) (items : List FwsmText.Item) (k : Nat) (n : String) (p : Nat) : Prop :=
  p < k ∧ (∃ i v, items[p]? = some i ∧ f i = some (n, v)) ∧ ∀ (q : Nat) i v, p < q → q < k → items[q]? = some i → f i ≠ some (n, v)

/-- The network object of the element number `p`. -/
def objOid (items : List FwsmText.Item) (p : Nat) : Oid :=
  match items[p]? with
  | some (.netObj _ _ (some _) _) => items.length + p
  | _ => p

/-- An object without a name of its own.  An address may have been written with a name; that is a `name` of the text. -/
def IsPart (objs : Oid → Obj) (items : List FwsmText.Item) (o : Oid) : Prop :=
  objs o = .other ∨ (∃ n, objs o = .netInterface n) ∨ (∃ n, objs o = .protocol n) ∨
    ∃ t, objs o = .address t ∧ ∀ q, t = some q → ∃ n a d, items[q]? = some (.name n a d)

/-- Such an object. -/
def Part (items : List FwsmText.Item) (objs : Oid → Obj) (e : El) (what : Obj → Prop) : Prop :=
  ∃ q, e = .obj q ∧ 2 * items.length ≤ q ∧ what (objs q)

/-- What stands for a host in the element number `k`: the object of the definition in force, or an object of its own. -/
def HostAt (objs : Oid → Obj) (items : List FwsmText.Item) (k : Nat) (h : Host) (e : El) : Prop :=
  match h with
  | .obj n _ => ∀ p, FirstAt netObjDef items k n p → e = .obj (objOid items p)
  | .group n _ => ∀ p, LastAt netGroupDef items k n p → e = .obj p
  | .iface n => Part items objs e (· = .netInterface n)
  | .net _ | .host _ => Part items objs e fun x => ∃ t, x = .address t
  | _ => Part items objs e (· = .other)

/-- What stands for a reference by identity: the object that has it. -/
def IdAt (items : List FwsmText.Item) (o : Nat) (e : El) : Prop := ∀ (p : Nat) i, items[p]? = some i → identOf i = some o → e = .obj p

/-- The port of a side of a rule.  (`ACLNode` takes no service group.) -/
def PortAt (objs : Oid → Obj) (items : List FwsmText.Item) (v : Option AclText.PortVal) (e : El) : Prop :=
  match v with
  | none => e = .none
  | some (.group o) => IdAt items o e
  | some _ => Part items objs e (· = .other)

/-- The protocol of a rule. -/
def ProtoAt (objs : Oid → Obj) (items : List FwsmText.Item) (v : AclText.Proto) (e : El) : Prop :=
  match v with
  | .name n => Part items objs e (· = .protocol n)
  | .svcGroup o => IdAt items o e
  | .protoGroup o => IdAt items o e
  | .svcObj o => IdAt items o e

/-- The ICMP type of a rule. -/
def IcmpAt (objs : Oid → Obj) (items : List FwsmText.Item) (v : Option AclText.IcmpVal) (e : Option El) : Prop :=
  match v with
  | none => e = none
  | some (.group o) => ∃ x, e = some x ∧ IdAt items o x
  | some (.icmp _ _) => ∃ x, e = some x ∧ Part items objs x (· = .other)

/-- The time ranges of a rule. -/
def rangesOf (r : AclText.PRule) : List Nat :=
  r.options.filterMap fun p => match p.2 with
    | .timeRange o => some o
    | _ => none

/-- The lists correspond element by element. -/
def Each {α : Type} (R : α → El → Prop) (l : List α) (es : List El) : Prop :=
  l.length = es.length ∧ ∀ (j : Nat) x e, l[j]? = some x → es[j]? = some e → R x e

/-- A node of a NAT entry: nothing, the word "interface" or a host. -/
def NodeAt (objs : Oid → Obj) (items : List FwsmText.Item) (k : Nat) (v : Option NatCmd.Node') (e : Option El) : Prop :=
  match v with
  | none => e = none
  | some .interface => e = some (.str "interface")
  | some (.host h) => ∃ x, e = some x ∧ HostAt objs items k h x

/-- The service of a NAT command: the service object of that name. -/
def ServiceAt (objs : Oid → Obj) (items : List FwsmText.Item) (k : Nat) (v : Option NatCmd.Svc) (e : El) : Prop :=
  match v with
  | none => e = .none
  | some v =>
    match v.name with
    | some n => ∀ p, FirstAt svcDef items k n p → e = .obj p
    | none => Part items objs e (· = .other)

/-- The NAT entry of a network object: its source is that object; the service is written in the line. -/
structure ObjNatAt (objs : Oid → Obj) (items : List FwsmText.Item) (k : Nat) (x : NatCmd.Nat') (r m : SideInfo) : Prop where
  src : r.src = some (.obj (items.length + k))
  dst : NodeAt objs items k x.real.dst r.dst
  mappedSrc : NodeAt objs items k x.mapped.src m.src
  mappedDst : NodeAt objs items k x.mapped.dst m.dst
  iface : Part items objs r.iface (· = .netInterface x.real.iface)
  mappedIface : Part items objs m.iface (· = .netInterface x.mapped.iface)
  service : r.service = .none ∨ Part items objs r.service (· = .other)
  mappedService : m.service = .none ∨ Part items objs m.service (· = .other)

/-- A NAT command. -/
structure NatCmdAt (objs : Oid → Obj) (items : List FwsmText.Item) (k : Nat) (x : NatCmd.Nat') (r m : SideInfo) : Prop where
  src : NodeAt objs items k x.real.src r.src
  dst : NodeAt objs items k x.real.dst r.dst
  mappedSrc : NodeAt objs items k x.mapped.src m.src
  mappedDst : NodeAt objs items k x.mapped.dst m.dst
  iface : Part items objs r.iface (· = .netInterface x.real.iface)
  mappedIface : Part items objs m.iface (· = .netInterface x.mapped.iface)
  service : ServiceAt objs items k x.real.service r.service
  mappedService : ServiceAt objs items k x.mapped.service m.service

/-- The addresses of a network object are written as numbers. -/
def Addresses (objs : Oid → Obj) (items : List FwsmText.Item) (l : List Host) (as : List El) : Prop :=
  Each (fun _ e => Part items objs e fun x => x = .address none ∨ x = .other) l as

/-- A member of a port group. -/
def PortMemberAt (objs : Oid → Obj) (items : List FwsmText.Item) (v : PortMember) (e : El) : Prop :=
  match v with
  | .group o => IdAt items o e
  | _ => Part items objs e (· = .other)

/-- A member of a service group. -/
def SvcMemberAt (objs : Oid → Obj) (items : List FwsmText.Item) (v : SvcMember) (e : El) : Prop :=
  match v with
  | .group o => IdAt items o e
  | .obj o => IdAt items o e
  | .svc _ => Part items objs e (· = .other)

/-- A member of an ICMP group. -/
def IcmpMemberAt (objs : Oid → Obj) (items : List FwsmText.Item) (v : IcmpMember) (e : El) : Prop :=
  match v with
  | .group o => IdAt items o e
  | .icmp _ => Part items objs e (· = .other)

/-- A member of a protocol group. -/
def ProtoMemberAt (objs : Oid → Obj) (items : List FwsmText.Item) (v : ProtoMember) (e : El) : Prop :=
  match v with
  | .group o => IdAt items o e
  | .protocol n => Part items objs e (· = .protocol n)

/-- The object of the element number `k`. -/
def ItemAt (objs : Oid → Obj) (items : List FwsmText.Item) (k : Nat) : FwsmText.Item → Prop
  | .iface i => objs k = .interface i.nameif
  | .name h _ _ => objs k = .name h
  | .timeRange _ n _ => objs k = .timeRange n
  | .netObj n l none _ => ∃ as, objs k = .netObject n as ∧ Addresses objs items l as
  | .netObj n l (some x) _ => (∃ as, objs (items.length + k) = .netObject n as ∧ Addresses objs items l as) ∧
      ∃ r m, objs k = .nat r m ∧ ObjNatAt objs items k x r m
  | .svcObj _ n _ _ => objs k = .svcObject n
  | .netGroup n l _ => ∃ ms, objs k = .group .network n ms ∧ Each (HostAt objs items k) l ms
  | .portGroup _ n _ l _ => ∃ ms, objs k = .group .port n ms ∧ Each (PortMemberAt objs items) l ms
  | .svcGroup _ n l _ => ∃ ms, objs k = .group .service n ms ∧ Each (SvcMemberAt objs items) l ms
  | .icmpGroup _ n l _ => ∃ ms, objs k = .group .icmp n ms ∧ Each (IcmpMemberAt objs items) l ms
  | .protoGroup _ n l _ => ∃ ms, objs k = .group .protocol n ms ∧ Each (ProtoMemberAt objs items) l ms
  | .rule r => ∃ p sh sp dh dp ic os, objs k = .rule (some r.id) p sh sp dh dp ic os ∧ ProtoAt objs items r.protocol p ∧
      HostAt objs items k r.src.host sh ∧ PortAt objs items r.src.port sp ∧ HostAt objs items k r.dst.host dh ∧ PortAt objs items r.dst.port dp ∧
      IcmpAt objs items r.icmp ic ∧ Each (IdAt items) (rangesOf r) os
  | .nat x => ∃ r m, objs k = .nat r m ∧ NatCmdAt objs items k x r m
  | _ => objs k = .other

/-- The objects are those of the text. -/
structure ObjectsOf (objs : Oid → Obj) (items : List FwsmText.Item) : Prop where
  item : ∀ (k : Nat) i, items[k]? = some i → ItemAt objs items k i
  parts : ∀ o, items.length ≤ o → (∀ (k : Nat) n l x d, items[k]? = some (.netObj n l (some x) d) → o ≠ items.length + k) → IsPart objs items o
  finite : ∃ all : List Oid, ∀ o, objs o ≠ .other → o ∈ all

/-- The name an element defines, of that kind. -/
def defName : Config.Kind → FwsmText.Item → Option String
  | .timeRange, .timeRange _ n _ => some n
  | .netObj, .netObj n _ _ _ => some n
  | .svcObj, .svcObj _ n _ _ => some n
  | .portGroup, .portGroup _ n _ _ _ => some n
  | .svcGroup, .svcGroup _ n _ _ => some n
  | .protoGroup, .protoGroup _ n _ _ => some n
  | .icmpGroup, .icmpGroup _ n _ _ => some n
  | .netGroup, .netGroup n _ _ => some n
  | _, _ => none

/-- The element number `p` is the definition of that name that the configuration keeps (C36): of network objects the first, else the last. -/
def Kept (items : List FwsmText.Item) (c : Config.Kind) (n : String) (p : Nat) : Prop :=
  (∃ i, items[p]? = some i ∧ defName c i = some n) ∧
    ∀ (q : Nat) j, items[q]? = some j → defName c j = some n → if c = .netObj then p ≤ q else q ≤ p

/-- The element number `k` refers to the definition with the number `p` (C107). -/
inductive RefersTo (items : List FwsmText.Item) (k : Nat) : Config.Kind → String → Nat → Prop
  | object {i n l p} : items[k]? = some i → .obj n l ∈ hostsOf i → FirstAt netObjDef items k n p → RefersTo items k .netObj n p
  | group {i n l p} : items[k]? = some i → .group n l ∈ hostsOf i → LastAt netGroupDef items k n p → RefersTo items k .netGroup n p
  | id {i c o p j n} : items[k]? = some i → (c, o) ∈ idsOf i → items[p]? = some j → idDef c j = some (n, o) → RefersTo items k c n p
  | service {i v n p} : items[k]? = some i → v ∈ servicesOf i → v.name = some n → FirstAt svcDef items k n p → RefersTo items k .svcObj n p
  | source {n l x d} : items[k]? = some (.netObj n l (some x) d) → RefersTo items k .netObj n k

/-- The configuration has what the element number `k` is: a rule, a NAT entry, or a definition that is kept. -/
inductive Live (items : List FwsmText.Item) (k : Nat) : Prop
  | rule {r} : items[k]? = some (.rule r) → Live items k
  | nat {x} : items[k]? = some (.nat x) → Live items k
  | objectNat {n l x d} : items[k]? = some (.netObj n l (some x) d) → Live items k
  | kept {c n} : Kept items c n k → Live items k

/-- Whatever the elements of the configuration refer to is a definition it keeps.  (So it is if no name of a kind is defined twice, but also if a group is only defined again before
anything refers to it, or if a network object without NAT is.) -/
def Settled (items : List FwsmText.Item) : Prop := ∀ k c n p, Live items k → RefersTo items k c n p → Kept items c n p

/-- No name of a kind is defined twice. -/
def Once (items : List FwsmText.Item) : Prop :=
  ∀ c (n : String) (p q : Nat) i j, items[p]? = some i → items[q]? = some j → defName c i = some n → defName c j = some n → p = q

end Acltk.Page
