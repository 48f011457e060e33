import Verif.Model.Host
import Verif.Model.Fnmatch
/-!
# Access rules, NAT objects and `ACLRules.filter`
-/
namespace Acltk

/-- `ACLNode` (aclObjects.py:1021-1049).  The port is only carried along; it is represented by
its printed form, because matching never looks at it (see C07). -/
structure Node where
  host : Host
  port : Option String := none
  deriving Repr

/-- `ACLRule` (aclObjects.py:1068-1101).  The fields that matching does not look at are
represented by their printed form. -/
structure Rule where
  line : Option String := none
  id : Option String := none
  extended : Option String := none
  mode : Option String := none
  protocol : Option String := none
  src : Node
  dst : Node
  remark : List String := []
  options : List (String × String) := []
  icmp : Option String := none
  head : Option String := none
  deriving Repr

/-- One side of a NAT object: `NATReal`/`NATMapped` (aclObjects.py:128-183).  The outer option is
"`rm.src` is None", the inner one "`rm.src.node` is None". -/
structure NatSide where
  src : Option (Option Host)
  dst : Option (Option Host)
  deriving Repr

/-- `NATObject` (aclObjects.py:192-205); `real`/`mapped` may be None. -/
structure NatObj where
  real : Option NatSide
  mapped : Option NatSide
  description : Option String := none
  options : List String := []
  deriving Repr

/-- What `ACLRules.rules` may hold: rules, or (in `ACLConfig.filter`) NAT objects. -/
inductive Entry where
  | rule (r : Rule)
  | nat (n : NatObj)
  deriving Repr

/-- `s and ...`: truthiness of an optional string. -/
def truthy : Option String → Bool
  | none => false
  | some s => !s.toList.isEmpty

/-- `s[0] == s[-1] == "/"` for a non-empty string. -/
def slashed (s : String) : Bool := s.toList.head? == some '/' && s.toList.getLast? == some '/'

/-- `s[1:-1]` -/
def inner (s : String) : String := String.ofList (s.toList.drop 1).dropLast

/-- The id part of `ACLRule.__and__`, aclObjects.py:1110-1123: `false` where the code returns
False because of the ids. -/
def idCompat (a b : Option String) : Bool :=
  match a, b with
  | some a, some b =>
    if truthy (some a) && truthy (some b) then
      -- pattern = name = None; aclObjects.py:1111-1117
      let pn : Option (String × String) :=
        if slashed a then some (inner a, b)
        else if slashed b then some (inner b, a)
        else none
      match pn with
      | some (pattern, name) =>
        -- `if name and pattern`, 1119-1121
        if truthy (some name) && truthy (some pattern) then Fnmatch.fnmatchcase name pattern
        else a == b
      | none => a == b
    else true
  | _, _ => true

/-- `ACLNode.__and__`, aclObjects.py:1043-1044. -/
def nodeAnd : Nat → Node → Node → Py Bool
  | 0, _, _ => .error .recursion
  | fuel + 1, a, b => meet fuel a.host b.host

/-- Python's `x and y` on booleans. -/
def pyAnd (x y : Py Bool) : Py Bool :=
  match x with
  | .error e => .error e
  | .ok false => .ok false
  | .ok true => y

/-- The body of the loop of `NATObject.__and__` for one side, aclObjects.py:213-225.
`rm.src` on None is an AttributeError. -/
def natSideAnd (fuel : Nat) (other : Rule) : Option NatSide → Py Bool
  | none => .error .attribute
  | some rm =>
    match rm.src.join, rm.dst.join with
    | some s, some d => pyAnd (nodeAnd fuel other.src ⟨s, none⟩) (nodeAnd fuel other.dst ⟨d, none⟩)
    | some s, none => nodeAnd fuel other.src ⟨s, none⟩
    | none, some d => nodeAnd fuel other.dst ⟨d, none⟩
    | none, none => .ok false

/-- `NATObject.__and__`, aclObjects.py:207-227: `real` first, then `mapped`. -/
def natAnd : Nat → NatObj → Rule → Py Bool
  | 0, _, _ => .error .recursion
  | fuel + 1, n, other => loopAny (natSideAnd fuel other) [n.real, n.mapped]

/-- `ACLRule.__and__`, aclObjects.py:1103-1128. -/
def ruleAnd : Nat → Rule → Entry → Py Bool
  | 0, _, _ => .error .recursion
  | fuel + 1, self, .nat n => natAnd fuel n self
  | fuel + 1, self, .rule other =>
    if idCompat self.id other.id then
      pyAnd (nodeAnd fuel self.src other.src) (nodeAnd fuel self.dst other.dst)
    else .ok false

/-! ## sets of objects

`ACLRule` and `NATObject` define neither `__eq__` nor `__hash__`, so a Python set of them is a
set of object identities.  A heap maps identities to objects; a set is a duplicate-free list of
identities (its order is never observed by the theorems). -/

/-- Object identities. -/
abbrev Oid := Nat

/-- `r.add(x)` -/
def setAdd (r : List Oid) (x : Oid) : List Oid := if x ∈ r then r else r ++ [x]

/-- `a.union(b)` -/
def setUnion (a b : List Oid) : List Oid := b.foldl setAdd a

/-- `a.intersection(b)` -/
def setInter (a b : List Oid) : List Oid := a.filter (fun x => decide (x ∈ b))

/-- `a - b` -/
def setDiff (a b : List Oid) : List Oid := a.filter (fun x => decide (x ∉ b))

/-- The loop of `ACLRules.filter`, aclObjects.py:1162-1169: for every rule, the first matching
target adds the rule and breaks the inner loop. -/
def filterLoop (fuel : Nat) (heap : Oid → Entry) (target : List Rule) :
    List Oid → List Oid → Py (List Oid)
  | [], r => .ok r
  | o :: rest, r =>
    match loopAny (fun t => ruleAnd fuel t (heap o)) target with
    | .error e => .error e
    | .ok true => filterLoop fuel heap target rest (setAdd r o)
    | .ok false => filterLoop fuel heap target rest r

/-- `ACLRules.filter(target)`, aclObjects.py:1162-1169, with `fuel` frames left for the
comparisons. -/
def rulesFilter : Nat → (Oid → Entry) → List Oid → List Rule → Py (List Oid)
  | 0, _, _, _ => .error .recursion
  | fuel + 1, heap, rules, target => filterLoop fuel heap target rules []

end Acltk
