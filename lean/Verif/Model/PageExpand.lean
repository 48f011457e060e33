import Verif.Model.Page
import Verif.Model.GroupHeap
/-!
# `ACLConfig.expand` on the objects of a page

aclObjects.py:1356-1366, called by examples/render/static.py:40-41.
-/
namespace Acltk.Page
open Acltk Acltk.Resolve

/-- A member of a group of class `c`: a group of the same class (`isinstance(obj, self.__class__)`, aclObjects.py:252), or something else. -/
def toMem (heap : Oid → Obj) (c : GroupClass) : El → Mem El
  | .obj o =>
    match heap o with
    | .group c' _ _ => if c' = c then .ref o else .item (.obj o)
    | _ => .item (.obj o)
  | x => .item x

/-- A member as an element. -/
def ofMem : Mem El → El
  | .ref g => .obj g
  | .item a => a

/-- The groups of class `c` and their members (`objects`). -/
def members (heap : Oid → Obj) (c : GroupClass) : Heap El := fun o =>
  match heap o with
  | .group c' _ l => if c' = c then l.map (toMem heap c) else []
  | _ => []

/-- What the `expand` of a class does to a member that is no group: NetworkGroup 592-599, ServiceGroup 744-751.  The `Service` made of a service object is
`svc` of it: one and the same for all groups, where the code makes one for each; nothing on a page tells them apart. -/
def finOf (svc : Oid → Oid) (heap : Oid → Obj) (c : GroupClass) : El → List El
  | .obj o =>
    match c, heap o with
    | .network, .netObject _ l => l
    | .service, .svcObject _ => [.obj (svc o)]
    | _, _ => [.obj o]
  | x => [x]

/-- The groups of class `c` with new members. -/
def put (heap : Oid → Obj) (c : GroupClass) (h : Heap El) : Oid → Obj := fun o =>
  match heap o with
  | .group c' n l => if c' = c then .group c' n ((h o).map ofMem) else .group c' n l
  | x => x

/-- `for group in l.values(): group.expand()` for one class (aclObjects.py:1364-1366). -/
def expandClass (svc : Oid → Oid) (fuel : Nat) (heap : Oid → Obj) (tb : Tables) (c : GroupClass) : Py (Oid → Obj) :=
  match expandAll (finOf svc heap c) fuel (members heap c) (dVals (tb.table (.group c))) with
  | (_, .error e) => .error e
  | (h, .ok ()) => .ok (put heap c h)

/-- One class after the other. -/
def expandClasses (svc : Oid → Oid) (fuel : Nat) (tb : Tables) : (Oid → Obj) → List GroupClass → Py (Oid → Obj)
  | heap, [] => .ok heap
  | heap, c :: cs =>
    match expandClass svc fuel heap tb c with
    | .error e => .error e
    | .ok h => expandClasses svc fuel tb h cs

/-- `ACLConfig.expand` (aclObjects.py:1356-1366) -/
def expand (svc : Oid → Oid) (fuel : Nat) (tb : Tables) (heap : Oid → Obj) : Py (Oid → Obj) :=
  expandClasses svc fuel tb heap [.network, .port, .service, .protocol, .icmp]

end Acltk.Page
