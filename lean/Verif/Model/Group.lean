import Verif.Model.Collapse
/-!
# Groups: expansion and the `collapse` method

Groups of networks are `Host` trees; groups of the other four kinds are `GTree`s over the leaf
type of the kind.  An object graph is modelled by its unfolding, so cyclic groups (on which the
code recurses without end) have no counterpart here; sharing is modelled in `Model/GroupHeap`.
-/
namespace Acltk

/-! ## network groups -/

mutual
/-- `expand_r` on one member, aclObjects.py:251-255: a nested group is replaced by its expansion. -/
def expandOne : Host → List Host
  | .group _ l => expandL l
  | h => [h]
/-- `_Group._expand`'s `expand_r`, aclObjects.py:249-256, for network groups. -/
def expandL : List Host → List Host
  | [] => []
  | h :: t => expandOne h ++ expandL t
end

/-- The replacement loop of `NetworkGroup.expand`, aclObjects.py:592-599: network objects are
replaced by their addresses. -/
def replaceObjs : List Host → List Host
  | [] => []
  | .obj _ addresses :: t => addresses ++ replaceObjs t
  | h :: t => h :: replaceObjs t

/-- `NetworkGroup.expand(insitu)`, aclObjects.py:589-600 on top of `_Group.expand`, 260-275.
Result: members of the group itself afterwards, members of the returned group.  With `insitu=True`
both are the same group.  With `insitu=False` the base method fills a new group, calls the
(overridden) `expand()` on it, and the replacement loop runs once more. -/
def netExpand (insitu : Bool) (objs : List Host) : List Host × List Host :=
  if insitu then
    let l := replaceObjs (expandL objs)
    (l, l)
  else (objs, replaceObjs (replaceObjs (expandL (expandL objs))))

/-- `isinstance(o, (Network, NetworkObject))`, aclObjects.py:612. -/
def Host.isNetOrObj : Host → Bool
  | .net _ => true
  | .obj _ _ => true
  | _ => false

/-- `NetworkGroup.collapse(insitu)`, aclObjects.py:602-618: members of the group itself afterwards,
and the members of the returned group or the exception.  When every member is a Network or a
NetworkObject the method works on the group itself whatever `insitu` says. -/
def collapse (insitu : Bool) (objs : List Host) : List Host × Py (List Host) :=
  if objs.any (fun o => !o.isNetOrObj) then
    if insitu then (objs, .error .value)
    else
      let (after, copy) := netExpand false objs
      match collapseMembers copy with
      | (_, .error e) => (after, .error e)
      | (l, .ok ()) => (after, .ok l)
  else
    match collapseMembers objs with
    | (l, .error e) => (l, .error e)
    | (l, .ok ()) => (l, .ok l)

/-! ## the other kinds -/

/-- A member of a group: a leaf or a nested group of the same class. -/
inductive GTree (α : Type) where
  | leaf (a : α)
  | group (name : String) (members : List (GTree α))

mutual
/-- `expand_r` on one member, aclObjects.py:251-255. -/
def GTree.expandOne {α : Type} : GTree α → List (GTree α)
  | .leaf a => [.leaf a]
  | .group _ l => GTree.expandL l
/-- `expand_r`, aclObjects.py:249-256. -/
def GTree.expandL {α : Type} : List (GTree α) → List (GTree α)
  | [] => []
  | h :: t => GTree.expandOne h ++ GTree.expandL t
end

/-- `_Group.expand`, aclObjects.py:260-275, for protocol and ICMP groups (not overridden there):
members of the group afterwards and members of the returned group. -/
def baseExpand {α : Type} (insitu : Bool) (objs : List (GTree α)) : List (GTree α) × List (GTree α) :=
  if insitu then (GTree.expandL objs, GTree.expandL objs)
  else (objs, GTree.expandL (GTree.expandL objs))

/-- `PortGroup.expand`, aclObjects.py:927-934. -/
def portExpand {α : Type} (insitu : Bool) (objs : List (GTree α)) : List (GTree α) × List (GTree α) :=
  if insitu then (GTree.expandL objs, GTree.expandL objs)
  else (objs, GTree.expandL objs)

/-- `Service`, aclObjects.py:681-697; ports and ICMP fields are left abstract. -/
structure Service (P : Type) where
  protocol : String
  src : Option P
  dst : Option P
  icmpType : Option String
  icmpCode : Option String
  deriving DecidableEq

/-- Members of a service group that are not groups: `Service` or `ServiceObject` (700-707). -/
inductive SvcLeaf (P : Type) where
  | service (s : Service P)
  | object (name : String) (description : String) (s : Service P)

/-- The replacement loop of `ServiceGroup.expand`, aclObjects.py:744-751. -/
def replaceSvc {P : Type} : List (GTree (SvcLeaf P)) → List (GTree (SvcLeaf P))
  | [] => []
  | .leaf (.object _ _ s) :: t =>
    .leaf (.service ⟨s.protocol, s.src, s.dst, s.icmpType, s.icmpCode⟩) :: replaceSvc t
  | h :: t => h :: replaceSvc t

/-- `ServiceGroup.expand`, aclObjects.py:741-752. -/
def svcExpand {P : Type} (insitu : Bool) (objs : List (GTree (SvcLeaf P))) :
    List (GTree (SvcLeaf P)) × List (GTree (SvcLeaf P)) :=
  if insitu then
    let l := replaceSvc (GTree.expandL objs)
    (l, l)
  else (objs, replaceSvc (replaceSvc (GTree.expandL (GTree.expandL objs))))

end Acltk
