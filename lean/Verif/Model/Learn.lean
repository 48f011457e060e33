import Verif.Spec.ConfigSpec
/-!
# What the parser learns and what references bind to

While the file is parsed, definitions are entered in the parser's tables and references are looked
up in them at once.  The history of a parse is the list of definitions and references in the order
in which the semantic actions run: references inside the body of a group come before the definition
of that group, because the action of the group runs when its body is complete.

Not modelled: definitions learned in a branch the PEG parser later abandons.
-/
namespace Acltk.Config
open Acltk

/-- One semantic action: a definition or a reference. -/
inductive Event where
  | define (k : Kind) (name : String) (o : Oid)
  | refer (k : Kind) (name : String)
  deriving DecidableEq, Repr

/-- The parser's tables (`aclParser.__init__`, aclSemantics.py:505-518): one dictionary per kind. -/
abbrev Tables := Kind → Dict String Oid

/-- `object_type` learns a network or service object only if the name is not known yet
(aclSemantics.py:150-151); `object_group_type` (aclSemantics.py:193) and `time_range`
(aclSemantics.py:123) always learn.  `_learn` is aclSemantics.py:520-533. -/
def learn (t : Tables) (k : Kind) (name : String) (o : Oid) : Tables := fun k' =>
  if k' = k then
    if (k = .netObj ∨ k = .svcObj) ∧ (dGet (t k) name).isSome then t k else dSet (t k) name o
  else t k'

/-- Running the history: the reference `acl_object_*`/`acl_time_range` (aclSemantics.py:377-408)
reads the table; an unknown name is no parse (`none`). -/
def runEvents : Tables → List Event → Option (List (Kind × String × Oid))
  | _, [] => some []
  | t, .define k n o :: rest => runEvents (learn t k n o) rest
  | t, .refer k n :: rest =>
    match dGet (t k) n with
    | none => none
    | some o => (runEvents t rest).map ((k, n, o) :: ·)

/-- The parse result: the defined objects, in file order (auto NAT is C38/C54). -/
def itemOf : Event → Option Item
  | .define .timeRange n o => some (.timeRange n o)
  | .define .netObj n o => some (.netObj n o none)
  | .define .svcObj n o => some (.svcObj n o)
  | .define .portGroup n o => some (.portGroup n o)
  | .define .svcGroup n o => some (.svcGroup n o)
  | .define .protoGroup n o => some (.protoGroup n o)
  | .define .icmpGroup n o => some (.icmpGroup n o)
  | .define .netGroup n o => some (.netGroup n o)
  | .refer .. => none

/-- The references of a parsed file with the objects they are bound to, and the configuration. -/
def parseHistory (agName : Oid → String) (h : Oid → Dict String Oid) (ev : List Event) :
    Option (List (Kind × String × Oid) × Cfg) :=
  (runEvents (fun _ => []) ev).map (fun refs => (refs, build agName h (ev.filterMap itemOf)))

end Acltk.Config
