import Verif.Model.Sort
import Verif.Spec.GroupSpec
/-!
# Specification of sorting
-/
namespace Acltk

/-- `out` is `l` sorted by `k`: the same items, keys never decreasing, items of equal key in their
old order.  (At most one list satisfies this.) -/
def StableSort {α κ : Type} [DecidableEq κ] (le : κ → κ → Prop) (k : α → κ) (l out : List α) : Prop :=
  out.Perm l ∧ out.Pairwise (fun x y => le (k x) (k y)) ∧
    ∀ c : κ, out.filter (fun x => decide (k x = c)) = l.filter (fun x => decide (k x = c))

/-- The weight of a name: character number i (from 0) counts (code point - 255) * 2^i. -/
def nameWeight (s : String) : Int :=
  (s.toList.zipIdx.map (fun p => ((p.1.toNat : Int) - 255) * 2 ^ p.2)).sum

/-- The sort key of a member of a network group: the (network) address as a number, or the weight of
its name or keyword class. -/
def networkKey : Host → Int
  | .net n => n.addr
  | .host a => a.ip
  | .group nm _ | .obj nm _ => nameWeight nm
  | .any => nameWeight "NetworkAny"
  | .any4 => nameWeight "NetworkAny4"
  | .any6 => nameWeight "NetworkAny6"
  | .cafAny => nameWeight "cafNetworkAny"
  | .cafAny4 => nameWeight "cafNetworkAny4"
  | .cafAny6 => nameWeight "cafNetworkAny6"
  | .wild _ _ | .iface _ => 0

/-- Wildcards and interfaces have no sort key. -/
def Sortable (h : Host) : Prop := (∀ a w, h ≠ .wild a w) ∧ (∀ nm, h ≠ .iface nm)

/-- A member that is sorted by its name: nested group, network object, `any` keyword. -/
def SortedByName (h : Host) : Prop := (∀ n, h ≠ .net n) ∧ (∀ a, h ≠ .host a)

/-- The (first) address of a host or network member as a number. -/
inductive AddressNumber : Host → Nat → Prop
  | net {n : Net} : AddressNumber (.net n) n.addr
  | host {a : Addr} : AddressNumber (.host a) a.ip

/-- Non-empty, and all code points below 255 (in particular ASCII). -/
def PlainName (s : String) : Prop := s ≠ "" ∧ ∀ c ∈ s.toList, c.toNat < 255

/-- The names of a member, if it has one. -/
def HasPlainName : Host → Prop
  | .group nm _ | .obj nm _ => PlainName nm
  | _ => True

/-- Lexicographic order of service keys. -/
def ServiceKeyLe (a b : SvcKey) : Prop :=
  a.proto < b.proto ∨ a.proto = b.proto ∧
    (a.src < b.src ∨ a.src = b.src ∧
      (a.dst < b.dst ∨ a.dst = b.dst ∧
        (a.code < b.code ∨ a.code = b.code ∧ a.typ ≤ b.typ)))

/-- The number of a port text: an integer, else the system's service number, else the weight. -/
def portNumber (getserv : String → Option Nat) (x : String) : Int :=
  ((pyInt x.toList).orElse fun _ => (getserv x).map (fun n => (n : Int))).getD (nameWeight x)

/-- The sort key of a member of a port group: number of the port or of the start of the range; the
weight of the name of a nested group. -/
def portGroupKey (getserv : String → Option Nat) : GTree PortLeaf → Int
  | .leaf (.port p) => (p.num.map (portNumber getserv)).getD 0
  | .leaf (.range start _) => portNumber getserv start
  | .group nm _ => nameWeight nm

/-- The port has a number (`Port("eq", None)` has not). -/
def Numbered : GTree PortLeaf → Prop
  | .leaf (.port p) => p.num ≠ none
  | _ => True

/-- The ports of a service have numbers. -/
def NumberedService : GTree (SvcLeaf (GTree PortLeaf)) → Prop
  | .leaf s => (∀ p ∈ s.value.src, Numbered p) ∧ (∀ p ∈ s.value.dst, Numbered p)
  | .group _ _ => True

/-- The sort key of a member of a protocol group. -/
def protocolGroupKey : GTree Protocol → Int
  | .leaf p => (pyInt p.toList).getD (nameWeight p)
  | .group nm _ => nameWeight nm

/-- The sort key of a member of a service group: protocol, source and destination port (0 if none),
ICMP code, ICMP type (empty if none); a nested group is keyed by its name. -/
def serviceGroupKey (getserv : String → Option Nat) : GTree (SvcLeaf (GTree PortLeaf)) → SvcKey
  | .leaf s =>
    let v := s.value
    ⟨v.protocol, (v.src.map (portGroupKey getserv)).getD 0, (v.dst.map (portGroupKey getserv)).getD 0,
      v.icmpCode.getD "", v.icmpType.getD ""⟩
  | .group nm _ => ⟨nm, 0, 0, "", ""⟩

end Acltk
