import Verif.Model.Section
import Verif.Spec.RowSpec
/-!
# Specification for C118: what somebody who sees the section of a definition takes the definition for
-/
namespace Acltk.Cells
open Acltk Acltk.AclText Acltk.FwsmText

/-- The elements of the one list and those of the other, in order, one to one. -/
inductive Each {α β : Type} (R : α → β → Prop) : List α → List β → Prop
  | nil : Each R [] []
  | cons {a b l m} : R a b → Each R l m → Each R (a :: l) (b :: m)

/-- What the row of a service says. -/
structure SvcShown where
  protocol : String
  src : PortShown
  dst : PortShown
  type : Option String
  code : Option String

/-- A member of a service group. -/
inductive MemberShown where
  | service (x : SvcShown)
  | object (name : String)
  | group (name : String)

inductive BodyShown where
  | service (x : SvcShown)
  | services (l : List MemberShown)
  | ports (protocol : String) (l : List PortShown)
  | icmp (l : List IcmpShown)
  | protocols (l : List ProtoShown)

/-- What a section says: a name and the definition behind it. -/
structure SectionShown where
  name : String
  body : BodyShown

/-- The cell of an icmp service: nothing, a type, or a type, a slash and a code. -/
inductive ReadsIcmpCode : List Char → Option String → Option String → Prop
  | nothing : ReadsIcmpCode [] none none
  | type (t : String) : t ≠ "" → '/' ∉ t.toList → ReadsIcmpCode t.toList (some t) none
  | code (t c : String) : '/' ∉ t.toList → ReadsIcmpCode (t.toList ++ '/' :: c.toList) (some t) (some c)

/-- The row of a service: protocol and ports, or one of the icmp protocols and a cell for type and code. -/
inductive ReadsSvc : SvcCells → SvcShown → Prop
  | icmp {p : String} {s ty c} : p ∈ ["icmp", "icmp6"] → ReadsIcmpCode s ty c → ReadsSvc (.wide (.text p.toList) s) ⟨p, .nothing, .nothing, ty, c⟩
  | ports {p : String} {a b x y} : p ∉ ["icmp", "icmp6"] → ReadsPortVal a x → ReadsPortVal b y → ReadsSvc (.two (.text p.toList) a b) ⟨p, x, y, none, none⟩

inductive ReadsMember : MemberRow → MemberShown → Prop
  | service {c x} : ReadsSvc c x → ReadsMember (.service c) (.service x)
  | object (n : String) : ReadsMember (.link (.link ("service_object_" ++ n) n.toList)) (.object n)
  | group (n : String) : ReadsMember (.link (.link ("service_group_" ++ n) n.toList)) (.group n)

/-- A section; which table it is in is seen from its anchor, the members are one to a cell or row. -/
inductive ReadsSection : Section → SectionShown → Prop
  | service {n : String} {c x} : ReadsSvc c x → ReadsSection ⟨"service_object_" ++ n, n.toList, .service c⟩ ⟨n, .service x⟩
  | services {n : String} {l xs} : Each ReadsMember l xs → ReadsSection ⟨"service_group_" ++ n, n.toList, .services l⟩ ⟨n, .services xs⟩
  | ports {n p : String} {l xs} : Each ReadsPortVal l xs → ReadsSection ⟨"port_group_" ++ n, n.toList, .ports (.text p.toList) l⟩ ⟨n, .ports p xs⟩
  | icmp {n : String} {l xs} : Each ReadsIcmp l xs → ReadsSection ⟨"icmp_group_" ++ n, n.toList, .icmp l⟩ ⟨n, .icmp xs⟩
  | protocols {n : String} {l xs} : Each ReadsProto l xs → ReadsSection ⟨"protocol_group_" ++ n, n.toList, .protocols l⟩ ⟨n, .protocols xs⟩

variable (nm : Nat → String)

/-- The service is what is shown. -/
structure SvcIs (s : Svc) (x : SvcShown) : Prop where
  protocol : s.protocol = x.protocol
  src : PortIs nm s.src x.src
  dst : PortIs nm s.dst x.dst
  type : s.icmpType = x.type
  code : s.icmpCode = x.code

inductive MemberIs : SvcMember → MemberShown → Prop
  | service {s x} : SvcIs nm s x → MemberIs (.svc s) (.service x)
  | object (o) : MemberIs (.obj o) (.object (nm o))
  | group (o) : MemberIs (.group o) (.group (nm o))

/-- The number None is shown as that word. -/
inductive PortMemberIs : PortMember → PortShown → Prop
  | lost (op) : PortMemberIs (.port op none) (.single op "None")
  | single (op num) : PortMemberIs (.port op (some num)) (.single op num)
  | range (a b) : PortMemberIs (.range a b) (.range a b)
  | group (o) : PortMemberIs (.group o) (.group (nm o))

inductive IcmpMemberIs : IcmpMember → IcmpShown → Prop
  | type (s) : IcmpMemberIs (.icmp s) (.type s none)
  | group (o) : IcmpMemberIs (.group o) (.group (nm o))

inductive ProtoMemberIs : ProtoMember → ProtoShown → Prop
  | name (s) : ProtoMemberIs (.protocol s) (.name s)
  | group (o) : ProtoMemberIs (.group o) (.protocolGroup (nm o))

/-- The definitions with a section here. -/
inductive Sectioned : Item → Prop
  | service (o n s d) : Sectioned (.svcObj o n s d)
  | services (o n l d) : Sectioned (.svcGroup o n l d)
  | ports (o n p l d) : Sectioned (.portGroup o n p l d)
  | icmp (o n l d) : Sectioned (.icmpGroup o n l d)
  | protocols (o n l d) : Sectioned (.protoGroup o n l d)

/-- The definition is what is shown: the same name, the same members in the same order; objects by name. -/
inductive SectionIs : Item → SectionShown → Prop
  | service {o n s d x} : SvcIs nm s x → SectionIs (.svcObj o n s d) ⟨n, .service x⟩
  | services {o n l d xs} : Each (MemberIs nm) l xs → SectionIs (.svcGroup o n l d) ⟨n, .services xs⟩
  | ports {o n p l d xs} : Each (PortMemberIs nm) l xs → SectionIs (.portGroup o n p l d) ⟨n, .ports p xs⟩
  | icmp {o n l d xs} : Each (IcmpMemberIs nm) l xs → SectionIs (.icmpGroup o n l d) ⟨n, .icmp xs⟩
  | protocols {o n l d xs} : Each (ProtoMemberIs nm) l xs → SectionIs (.protoGroup o n l d) ⟨n, .protocols xs⟩

end Acltk.Cells
