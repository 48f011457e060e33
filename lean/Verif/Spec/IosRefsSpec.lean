import Verif.Model.IosText
import Verif.Spec.RefsSpec
/-!
# Specification for C112: what references of an IOS text stand for
-/
namespace Acltk.IosText
open Acltk
open Acltk.FwsmText (portIds protoIds icmpIds)

/-- The rules of an element. -/
def itemRules : Item → List IRule
  | .rule r => [r]
  | .rules l => l
  | _ => []

/-- What the elements define: definitions are elements that both grammars have. -/
def defs (l : List Item) : List FwsmText.Item := l.map fun
  | .base i => i
  | _ => .nothing

/-- The objects a rule refers to by identity. -/
def ruleIds (r : IRule) : List (Config.Kind × Nat) := protoIds r.protocol ++ portIds r.src.port ++ portIds r.dst.port ++ icmpIds r.icmp

/-- The hosts an element was written with: source and destination of its rules, the members of a network group. -/
def hostsOf (i : Item) : List Host :=
  ((itemRules i).flatMap fun r => [r.src.host, r.dst.host]) ++ match i with
  | .base (.netGroup _ l _) => l
  | _ => []

/-- The objects an element refers to by identity, with their kind. -/
def idsOf (i : Item) : List (Config.Kind × Nat) :=
  (itemRules i).flatMap ruleIds ++ match i with
  | .base (.portGroup _ _ _ l _) => l.flatMap fun | .group o => [(.portGroup, o)] | _ => []
  | .base (.svcGroup _ _ l _) => l.flatMap fun | .group o => [(.svcGroup, o)] | .obj o => [(.svcObj, o)] | _ => []
  | .base (.icmpGroup _ _ l _) => l.flatMap fun | .group o => [(.icmpGroup, o)] | _ => []
  | .base (.protoGroup _ _ l _) => l.flatMap fun | .group o => [(.protoGroup, o)] | _ => []
  | _ => []

end Acltk.IosText
