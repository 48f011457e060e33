import Verif.Model.Resolve
/-!
# Specification for C43 and C44: the reference closure of a selection
-/
namespace Acltk.Resolve
open Acltk

/-- What a selected element contributes by itself: the fields of a selected rule (None for missing
ports) and of a selected NAT object. -/
inductive Field (info : Oid → Info) : Oid → El → Prop
  | protocol {o r} : info o = .rule r → Field info o r.protocol
  | srcHost {o r} : info o = .rule r → Field info o r.srcHost
  | dstHost {o r} : info o = .rule r → Field info o r.dstHost
  | srcPort {o r} : info o = .rule r → Field info o r.srcPort
  | dstPort {o r} : info o = .rule r → Field info o r.dstPort
  | id {o r s} : info o = .rule r → r.id = some s → Field info o (.str s)
  | noId {o r} : info o = .rule r → r.id = .none → Field info o .none
  | icmp {o r x} : info o = .rule r → r.protoName = some "icmp" ∨ r.protoName = some "icmp6" →
      r.icmp = some x → Field info o x
  | timeRange {o r x} : info o = .rule r → x ∈ r.timeRanges → Field info o x
  | natSrc {o a b s x} : info o = .nat a b → (a = some s ∨ b = some s) → s.src = some x → Field info o x
  | natDst {o a b s x} : info o = .nat a b → (a = some s ∨ b = some s) → s.dst = some x → Field info o x
  | natIface {o a b s} : info o = .nat a b → (a = some s ∨ b = some s) → Field info o s.iface
  | natService {o a b s} : info o = .nat a b → (a = some s ∨ b = some s) → Field info o s.service

/-- What an object of the result pulls in: group members and host targets, the interface of an access
group, and the category labels. -/
inductive Pulls (info : Oid → Info) : Oid → El → Prop
  | member {o cls l x} : info o = .group cls l → x ∈ l → Pulls info o x
  | groupLabel {o cls l} : info o = .group cls l → Pulls info o (.str cls)
  | target {o x} : info o = .host (some x) → Pulls info o x
  | names {o x} : info o = .host (some x) → Pulls info o (.str "Names")
  | label {o cls} : info o = .named cls → Pulls info o (.str cls)
  | iface {o x} : info o = .accessGroup x → Pulls info o x
  | ifaceLabel {o x} : info o = .accessGroup x → Pulls info o (.str "Interface")
  | natLabel {o a b} : info o = .nat a b → Pulls info o (.str "NAT")

/-- The closure of a selection. -/
inductive Closure (info : Oid → Info) (sel : List El) : El → Prop
  | selected {x} : x ∈ sel → Closure info sel x
  | field {o x} : .obj o ∈ sel → Field info o x → Closure info sel x
  | pull {o x} : Closure info sel (.obj o) → Pulls info o x → Closure info sel x

/-- The part of the object graph that matters is finite: some list contains the selection and is
closed under fields and references. -/
def FiniteGraph (info : Oid → Info) (sel U : List El) : Prop :=
  (∀ x ∈ sel, x ∈ U) ∧ (∀ o x, .obj o ∈ sel → Field info o x → x ∈ U) ∧
  (∀ o x, .obj o ∈ U → Pulls info o x → x ∈ U)

/-- A selected element that makes `resolve` raise: a rule whose list is bound to an interface by the
table `access_groups`, a rule whose protocol has no name, or a NAT object without one of its sides. -/
def Unresolvable (info : Oid → Info) (accessGroups : List String) (x : El) : Prop :=
  ∃ o, x = .obj o ∧
    ((∃ r, info o = .rule r ∧ (r.protoName = .none ∨ ∃ s ∈ accessGroups, r.id = some s)) ∨
     (∃ a b, info o = .nat a b ∧ (a = .none ∨ b = .none)))

end Acltk.Resolve
