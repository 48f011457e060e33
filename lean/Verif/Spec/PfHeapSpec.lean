import Verif.Model.PfFilter
import Verif.Spec.PageSpec
/-!
# Specification for C111: the objects of a pfSense configuration

The rules are numbered from 0, the aliases follow the rules, the interfaces follow the aliases, and behind them there are the objects without a name of
their own: addresses, ports, protocols and so on.
-/
namespace Acltk.PfPage
open Acltk Acltk.Resolve Acltk.Page Acltk.Pf

variable {T : Type}

/-- The first number behind rules, aliases and interfaces. -/
def size (p : Pf.Parsed T) : Nat := p.rules.length + p.groups.length + p.interfaces.length

/-- The kind of an alias and its name. -/
def aliasName : AliasGroup → GroupClass × Option String
  | .net n _ _ => (.network, n)
  | .port n _ _ => (.port, n)

/-- The alias number `j` is the last one of that kind and name. -/
def LastAlias (p : Pf.Parsed T) (c : GroupClass) (n : Option String) (j : Nat) : Prop :=
  (∃ g, p.groups[j]? = some g ∧ aliasName g = (c, n)) ∧ ∀ (q : Nat) g, j < q → p.groups[q]? = some g → aliasName g ≠ (c, n)

/-- An object without a name of its own. -/
def Part (objs : Oid → Obj) (p : Pf.Parsed T) (e : El) (what : Obj → Prop) : Prop := ∃ q, e = .obj q ∧ size p ≤ q ∧ what (objs q)

/-- What stands for the host of a rule: the last alias of that name, or an object of its own. -/
def HostAt (objs : Oid → Obj) (p : Pf.Parsed T) (h : Host) (e : El) : Prop :=
  match h with
  | .group n _ => ∀ j, LastAlias p .network (some n) j → e = .obj (p.rules.length + j)
  | .iface n => Part objs p e (· = .netInterface n)
  | .net _ | .host _ => Part objs p e (· = .address none)
  | _ => Part objs p e (· = .other)

/-- What stands for the port of a rule. -/
def PortAt (objs : Oid → Obj) (p : Pf.Parsed T) (v : Option PortRef) (e : El) : Prop :=
  match v with
  | none => e = .none
  | some (.leaf _) => Part objs p e (· = .other)
  | some (.group n _) => ∀ j, LastAlias p .port n j → e = .obj (p.rules.length + j)

/-- The members of an alias: addresses, networks, ports. -/
def MembersAt {α : Type} (objs : Oid → Obj) (p : Pf.Parsed T) (l : List α) (es : List El) : Prop :=
  l.length = es.length ∧ ∀ e ∈ es, Part objs p e fun x => x = .address none ∨ x = .other

/-- The object of an alias. -/
def AliasAt (objs : Oid → Obj) (p : Pf.Parsed T) (o : Oid) : AliasGroup → Prop
  | .net n _ l => ∃ es, objs o = .group .network (n.getD "None") es ∧ MembersAt objs p l es
  | .port n _ l => ∃ es, objs o = .group .port (n.getD "None") es ∧ MembersAt objs p l es

/-- The object of a rule. -/
def RuleObj (objs : Oid → Obj) (p : Pf.Parsed T) (o : Oid) (r : PfRule T) : Prop :=
  ∃ pr sh sp dh dp ic, objs o = .rule r.id pr sh sp dh dp ic [] ∧ Part objs p pr (· = .protocol (r.protocol.getD "None")) ∧
    HostAt objs p r.src.host sh ∧ PortAt objs p r.src.port sp ∧ HostAt objs p r.dst.host dh ∧ PortAt objs p r.dst.port dp ∧
    (if r.icmp.isNone then ic = none else ∃ x, ic = some x ∧ Part objs p x (· = .other))

/-- The objects are those of the configuration. -/
structure ObjectsOf (objs : Oid → Obj) (p : Pf.Parsed T) : Prop where
  rule : ∀ (k : Nat) r, p.rules[k]? = some r → RuleObj objs p k r
  alias : ∀ (j : Nat) g, p.groups[j]? = some g → AliasAt objs p (p.rules.length + j) g
  iface : ∀ (j : Nat) i, p.interfaces[j]? = some i → objs (p.rules.length + p.groups.length + j) = .interface i.nameif
  parts : ∀ o, size p ≤ o → objs o = .other ∨ objs o = .address none ∨ (∃ n, objs o = .netInterface n) ∨ ∃ n, objs o = .protocol n
  finite : ∃ all : List Oid, ∀ o, objs o ≠ .other → o ∈ all

/-- Every alias has a name. -/
def Named (p : Pf.Parsed T) : Prop := ∀ g ∈ p.groups, (aliasName g).2 ≠ none

end Acltk.PfPage
