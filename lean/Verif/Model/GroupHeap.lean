import Verif.Model.Host
/-!
# Groups as mutable, shared objects

`ACLConfig.expand` (aclObjects.py:1356-1366) calls `group.expand()` on one group after the other.
Groups are shared: a nested group is the same object in every parent and in the table, so the
order of the calls could matter.  The groups of one kind form a heap from identities to member
lists; nesting is always within one kind (`_Group.add`, 241-245).
-/
namespace Acltk

/-- A member of a group: a reference to another group object, or something else. -/
inductive Mem (α : Type) where
  | ref (g : Nat)
  | item (a : α)
  deriving DecidableEq, Repr

/-- The group objects of one kind: identity to `objects` list. -/
abbrev Heap (α : Type) := Nat → List (Mem α)

/-- `expand_r(l)`, aclObjects.py:249-256, in the current heap, with `fuel` stack frames. -/
def heapExpand {α : Type} (heap : Heap α) : Nat → List (Mem α) → Py (List α)
  | 0, _ => .error .recursion
  | _ + 1, [] => .ok []
  | fuel + 1, .item a :: t =>
    match heapExpand heap (fuel + 1) t with
    | .error e => .error e
    | .ok r => .ok (a :: r)
  | fuel + 1, .ref g :: t =>
    match heapExpand heap fuel (heap g) with
    | .error e => .error e
    | .ok r =>
      match heapExpand heap (fuel + 1) t with
      | .error e => .error e
      | .ok r' => .ok (r ++ r')
termination_by fuel l => (fuel, l.length)

/-- `group.expand()` in place.  `fin` is what the kind's `expand` does to a member that is no group:
a network object is replaced by its addresses (592-599), a service object by a service (744-751),
anything else stays.  On an exception the group keeps its members. -/
def expandGroup {α : Type} (fin : α → List α) (fuel : Nat) (heap : Heap α) (g : Nat) : Heap α × Py Unit :=
  match heapExpand heap fuel (heap g) with
  | .error e => (heap, .error e)
  | .ok l => (fun i => if i = g then (l.flatMap fin).map .item else heap i, .ok ())

/-- The loop of `ACLConfig.expand` over the groups of one kind, aclObjects.py:1364-1366. -/
def expandAll {α : Type} (fin : α → List α) (fuel : Nat) : Heap α → List Nat → Heap α × Py Unit
  | heap, [] => (heap, .ok ())
  | heap, g :: gs =>
    match expandGroup fin fuel heap g with
    | (h, .error e) => (h, .error e)
    | (h, .ok ()) => expandAll fin fuel h gs

/-- `fin` for network groups, aclObjects.py:592-599. -/
def finNet : Host → List Host
  | .obj _ addresses => addresses
  | h => [h]

end Acltk
