import Verif.Model.PfFilter
import Verif.Model.ExpandFilter
import Verif.Model.FileText
/-!
# The program examples/acl-filter.py

From the bytes of the file to what is printed and how the program ends.  Simplifications: the texts of the rules printed at the end
(`print(i)`) are their identities; a file that cannot be opened and the option `-t` are not modelled.
-/
namespace Acltk.AclFilter
open Acltk Acltk.Lookup Acltk.DetectText

variable {T : Type}

/-- What is printed, and how the program ends. -/
structure Run where
  lines : List String
  result : Py Unit

/-- A value handed to the constructor of a rule. -/
inductive Arg where
  | str (s : String)
  | node (n : Node)

/-- `ACLRule(**kwargs)` (aclObjects.py:1067-1101): `src` and `dst` have to be nodes; unknown keywords are ignored. -/
def aclRule (kwargs : Dict String Arg) : Py Rule :=
  match dGet kwargs "src", dGet kwargs "dst" with
  | some (.node s), some (.node d) =>
    .ok { id := (match dGet kwargs "id" with | some (.str s) => some s | _ => none), src := s, dst := d }
  | _, _ => .error .assertion

/-- The two rules of a target (examples/acl-filter.py:22-25, 32-35); the network is `10.k.0.0/24`. -/
def target (k : Nat) : Py (List Rule) := do
  let net : Node := ⟨.net ⟨.v4, 10 * 2 ^ 24 + k * 2 ^ 16, 24⟩, none⟩
  let a ← aclRule [("id", .str "inside_in"), ("source", .node ⟨.any, none⟩), ("dest", .node net)]
  let b ← aclRule [("id", .str "outside_in"), ("dest", .node ⟨.any, none⟩), ("source", .node net)]
  pure [a, b]

/-- `isinstance(acl.src.host, NetworkAny) and isinstance(acl.dst.host, NetworkAny)` (examples/acl-filter.py:17) -/
def anyAny : Entry → Bool
  | .rule r => r.src.host.isNetworkAny && r.dst.host.isNetworkAny
  | .nat _ => false

/-- The rest of the program, from the first target on (examples/acl-filter.py:22-49); `lines` is printed so far. -/
def rest (fuel : Nat) (heap : Oid → Entry) (rules anyany : List Oid) (lines : List String) : Run :=
  match (do let t ← target 2; rulesFilter fuel heap rules t) with
  | .error e => ⟨lines, .error e⟩
  | .ok base =>
    let u := rules.filter fun o => decide (o ∈ anyany) || decide (o ∈ base)
    let lines := lines ++ [s!"base {base.length}", s!"union {u.length}"]
    match (do let t ← target 1; rulesFilter fuel heap rules t) with
    | .error e => ⟨lines, .error e⟩
    | .ok r =>
      let remain := r.filter fun o => decide (o ∉ u)
      ⟨lines ++ [s!"rules {r.length}", s!"remain {remain.length}"] ++ (rules.filter fun o => decide (o ∈ remain)).map (fun o => s!"{o}"), .ok ()⟩

/-- `main` (examples/acl-filter.py:5-49) on the bytes of the file. -/
def main (g : Guard) (xml : String → Option Pf.Elem) (v : Pf.Env T) (fuel : Nat) (file : List UInt8) : Run :=
  match FileText.configFromFile g (PfFilter.parser xml v) file with
  | .exception _ => ⟨[], .error .value⟩
  | .baseException _ => ⟨[], .error .value⟩
  | .config c =>
    let rules := (ExpandFilter.ids c).1
    let heap := ExpandFilter.heapOf c
    let anyany := rules.filter fun o => anyAny (heap o)
    rest fuel heap rules anyany [s!"anyany {anyany.length}"]

end Acltk.AclFilter
