import Verif.Model.Page
import Verif.Spec.ResolveSpec
import Verif.Spec.SortSpec
import Verif.Spec.ConfigSpec
/-!
# Specification for C100-C102: what is on a page
-/
namespace Acltk.Page
open Acltk Acltk.Resolve

/-- Position `k` begins a new run of rules of the same list. -/
def Starts (ids : List (Option String)) (k : Nat) : Prop := k < ids.length ∧ (k = 0 ∨ ids[k - 1]? ≠ ids[k]?)

instance (ids : List (Option String)) (k : Nat) : Decidable (Starts ids k) := by unfold Starts; infer_instance

/-- The rule at position `k` is number `j` of run number `i`, both counted from 1. -/
structure Number (ids : List (Option String)) (k i j : Nat) : Prop where
  run : i = ((List.range (k + 1)).filter fun m => decide (Starts ids m)).length
  pos : 1 ≤ j
  le : j ≤ k + 1
  start : Starts ids (k + 1 - j)
  same : ∀ m, k + 1 - j < m → m ≤ k → ¬ Starts ids m

/-- The rule is shown: there is no filter, or the filter selects it, or what is not selected is to be shown as well. -/
def Shown (sel : Sel) (sns : Bool) (x : El) : Prop := ∀ s, sel = some s → x ∈ s ∨ sns = true

instance (sel : Sel) (sns : Bool) (x : El) : Decidable (Shown sel sns x) := by
  cases sel with
  | none => exact .isTrue (by intro s h; cases h)
  | some s => exact decidable_of_iff (x ∈ s ∨ sns = true) ⟨by intro h _ e; cases e; exact h, fun h => h s rfl⟩

/-- The filter does not select it. -/
def NotSelected (sel : Sel) (x : El) : Prop := ∃ s, sel = some s ∧ x ∉ s

instance (sel : Sel) (x : El) : Decidable (NotSelected sel x) := by
  cases sel with
  | none => exact .isFalse (by rintro ⟨s, h, -⟩; cases h)
  | some s => exact decidable_of_iff (x ∉ s) ⟨fun h => ⟨s, rfl, h⟩, by rintro ⟨_, e, h⟩; cases e; exact h⟩

/-- What the page has for the rule at position `k`: the head of its list, if it begins a run, and the rule with its number. -/
def expected (idOf : Oid → Option String) (inactive : Oid → Bool) (sel : Sel) (sns : Bool) (ids : List (Option String)) (num : Nat → Nat × Nat)
    (p : Oid × Nat) : List Row :=
  (if Starts ids p.2 ∧ Shown sel sns (idEl (idOf p.1)) then [.head (idOf p.1)] else []) ++
  (if Shown sel sns (.obj p.1) then
    [.rule p.1 (num p.2).1 (num p.2).2
      (if NotSelected sel (.obj p.1) then .filtered else if inactive p.1 then .inactive else if (num p.2).2 % 2 = 1 then .even else .odd)]
   else [])

/-- The section and the name of an object that has a name of its own. -/
def nameOf (heap : Oid → Obj) (o : Oid) : Option Link :=
  match heap o with
  | .name h => some (.names, h)
  | .group c n _ => some (.group c, n)
  | .netObject n _ => some (.netObject, n)
  | .svcObject n => some (.svcObject, n)
  | .timeRange n => some (.time, n)
  | _ => none

/-- Something of the configuration refers to that object: a field of a rule or of a NAT entry, a member of a group, the name of
an address. -/
inductive Refers (heap : Oid → Obj) (tb : Tables) : Oid → Prop
  | field {a o} : a ∈ tb.rules ∨ a ∈ tb.nat → Field (info heap) a (.obj o) → Refers heap tb o
  | member {a o c n l} : Refers heap tb a → heap a = .group c n l → .obj o ∈ l → Refers heap tb o
  | listed {s m a o c n l} : dGet (tb.table s) m = some a → heap a = .group c n l → .obj o ∈ l → Refers heap tb o

/-- The tables belong to the objects: what is listed has the class of its list and the name it is listed under, a named object that
something refers to is the one listed under its name, and so is the name of an address. -/
structure WellFormed (heap : Oid → Obj) (tb : Tables) : Prop where
  rules : ∀ o ∈ tb.rules, ∃ id p sh sp dh dp ic os, heap o = .rule id p sh sp dh dp ic os
  nat : ∀ o ∈ tb.nat, ∃ r m, heap o = .nat r m
  nodup : ∀ s, (dKeys (tb.table s)).Nodup
  table : ∀ s n o, s ≠ .interface → dGet (tb.table s) n = some o → nameOf heap o = some (s, n)
  ifaces : ∀ n o, dGet (tb.table .interface) n = some o → ∃ m, heap o = .interface m
  members : ∀ o c n l, heap o = .group c n l → ∀ x ∈ l, ∃ q, x = .obj q
  noNames : tb.table .names = []
  names : ∀ o ∈ tb.names, ∃ h, heap o = .name h
  listed : ∀ o s n, Refers heap tb o → nameOf heap o = some (s, n) → s ≠ .names ∧ dGet (tb.table s) n = some o
  target : ∀ o t, Refers heap tb o → heap o = .address (some t) → t ∈ tb.names
  fresh : ∀ o, Refers heap tb o → o ∉ tb.rules ∧ o ∉ tb.nat
  /-- the addresses of network objects are written as numbers (aclObjects.py:360-378) -/
  addresses : ∀ o n l, heap o = .netObject n l → ∀ x ∈ l, hostLinks heap x = []

/-- The configuration lists that object under that name. -/
def Listed (heap : Oid → Obj) (tb : Tables) (s : Sect) (n : String) (o : Oid) : Prop :=
  if s = .names then o ∈ tb.names ∧ heap o = .name n else dGet (tb.table s) n = some o

/-- The selection, if there is one, is a selection of rules and NAT entries with everything it refers to (C43). -/
def Completes (heap : Oid → Obj) (tb : Tables) (chosen : List Oid) (sel : Sel) : Prop :=
  (∀ o ∈ chosen, o ∈ tb.rules ∨ o ∈ tb.nat) ∧ ∀ r, sel = some r → ∀ x, x ∈ r ↔ Closure (info heap) (chosen.map .obj) x

/-- The page has that object: as a rule, as a NAT entry, or as an entry of a section. -/
inductive OnPage (lower : String → String) (heap : Oid → Obj) (idOf : Oid → Option String) (inactive : Oid → Bool) (tb : Tables) (sel : Sel) (sns : Bool) : Oid → Prop
  | rule {o i j c} : .rule o i j c ∈ rows idOf inactive sel sns tb.rules → OnPage lower heap idOf inactive tb sel sns o
  | nat {o} : o ∈ natRows tb sel sns → OnPage lower heap idOf inactive tb sel sns o
  | entry {s e} : e ∈ entries lower heap tb sel sns s → OnPage lower heap idOf inactive tb sel sns e.obj

/-- The page has an anchor for that link: entries have one with their name, interfaces also one with their `nameif`. -/
def Anchored (lower : String → String) (heap : Oid → Obj) (tb : Tables) (sel : Sel) (sns : Bool) (l : Link) : Prop :=
  ∃ e ∈ entries lower heap tb sel sns l.1, e.name = l.2 ∨ (l.1 = .interface ∧ heap e.obj = .interface (some l.2))

/-- The order of the keys is a total order. -/
structure Keys.Total (K : Keys) : Prop where
  trans : ∀ c a b d, K.le c a b = true → K.le c b d = true → K.le c a d = true
  total : ∀ c a b, K.le c a b = true ∨ K.le c b a = true

instance (K : Keys) (c : GroupClass) : DecidableEq (K.κ c) := K.dec c

/-- `out` is `l` sorted by key (C28). -/
def SortedBy (K : Keys) (c : GroupClass) (l out : List El) : Prop :=
  StableSort (fun a b => ∃ x y, a = .ok x ∧ b = .ok y ∧ K.le c x y = true) (K.key c) l out

/-- A group that `--sort` sorts: a network, service, port or protocol group that the configuration lists. -/
def ToSort (tb : Tables) (o : Oid) : Prop := ∃ c n, c ≠ .icmp ∧ dGet (tb.table (.group c)) n = some o

/-- The section of a kind of definitions. -/
def sectOf : Config.Kind → Sect
  | .timeRange => .time
  | .netObj => .netObject
  | .svcObj => .svcObject
  | .portGroup => .group .port
  | .svcGroup => .group .service
  | .protoGroup => .group .protocol
  | .icmpGroup => .group .icmp
  | .netGroup => .group .network

/-- The definition of that name that a configuration keeps (C36): of network objects the first, else the last. -/
def keptDef (k : Config.Kind) (items : List Config.Item) (n : String) : Option Oid :=
  if k = .netObj then (Config.defsOf k items n).head? else (Config.defsOf k items n).getLast?

/-- The parse result and the objects in it: the items are of their class and have the name they define, whatever a rule, a NAT entry or a group refers to
is the definition that the configuration keeps, or has no name of its own. -/
structure Parsed (heap : Oid → Obj) (items : List Config.Item) (tb : Tables) : Prop where
  defines : ∀ k, ∀ i ∈ items, ∀ n o, Config.definesOf k i = some (n, o) → nameOf heap o = some (sectOf k, n)
  rules : ∀ o, .rule o ∈ items → ∃ id p sh sp dh dp ic os, heap o = .rule id p sh sp dh dp ic os
  nat : ∀ i ∈ items, ∀ m o, Config.natOf i = some (m, o) → ∃ r m, heap o = .nat r m
  names : ∀ o, .name o ∈ items → ∃ h, heap o = .name h
  ifaces : ∀ j, .iface j ∈ items → heap j.oid = .interface j.nameif
  members : ∀ o c n l, heap o = .group c n l → ∀ x ∈ l, ∃ q, x = .obj q
  addresses : ∀ o n l, heap o = .netObject n l → ∀ x ∈ l, hostLinks heap x = []
  refs : ∀ o s n, Refers heap tb o → nameOf heap o = some (s, n) → ∃ k, sectOf k = s ∧ keptDef k items n = some o
  target : ∀ o t, Refers heap tb o → heap o = .address (some t) → .name t ∈ items
  fresh : ∀ o, Refers heap tb o → .rule o ∉ items ∧ ∀ i ∈ items, ∀ m, Config.natOf i ≠ some (m, o)

end Acltk.Page
