import Verif.Model.Web
/-!
# Requests that are handled at the same time

The view functions of examples/render/dynamic.py as programs that operate on the shelf, and their interleavings.  Each single operation on the
shelf (`in`, `[]`, `[]=`, `keys()`) is atomic, and what it stored is there for the next one; nothing is assumed about locks beyond that.
Between the operations, the views only look at objects of their own (the configurations are unpickled anew for each request).
-/
namespace Acltk.Web
open Acltk Acltk.Lookup Acltk.Detect Acltk.DetectText

variable {T : Type}

/-- What is left of a view function, up to its next operation on the shelf. -/
inductive Prog (T : Type) where
  | done (ans : Answer T)
  /-- `n in db` -/
  | mem (n : String) (k : Bool → Prog T)
  /-- `db[n]`, none is KeyError -/
  | get (n : String) (k : Option (Conf T) → Prog T)
  /-- `db[n] = c` -/
  | put (n : String) (c : Conf T) (k : Prog T)
  /-- iterating `db` -/
  | keys (k : List String → Prog T)

/-- `show` from `acls = db[config]` on (examples/render/dynamic.py:46-70). -/
def showRest (a : App T) (args : Args) : Option (Conf T) → Prog T
  | none => .done .serverError
  | some c =>
    match (if truthy args.exp then a.expand c else .ok (ExpandFilter.heapOf c)) with
    | .error _ => .done .serverError
    | .ok heap =>
      match runFilter a (truthy args.exp) heap c args.caf with
      | none => .done .hangs
      | some (sel, warning, caf) => .done (.page ⟨c, truthy args.exp, truthy args.sns, caf, warning, sel⟩)

/-- The view functions (examples/render/dynamic.py:15-70). -/
def progOf (a : App T) : Request → Prog T
  | .addPost none => .done .badRequest
  | .addPost (some file) =>
    match FileText.configFromFile a.guard (PfFilter.parser a.xml a.env) file with
    | .exception _ => .done .serverError
    | .baseException _ => .done .serverError
    | .config c => .put (name c) c (.done (.toShow (name c)))
  | .addGet => .done .notAllowed
  | .indexGet => .keys fun l => .done (.index l)
  | .indexPost => .done .serverError
  | .showGet args =>
    match args.config with
    | none => .done .serverError
    | some n => .mem n fun b => if b then .get n (showRest a args) else .done .notFound
  | .showPost => .done .serverError

/-- One operation. -/
def Prog.step (db : Shelf T) : Prog T → Shelf T × Prog T
  | .done ans => (db, .done ans)
  | .mem n k => (db, k (dGet db n).isSome)
  | .get n k => (db, k (dGet db n))
  | .put n c k => (dSet db n c, k)
  | .keys k => (db, k (dKeys db))

/-- The shelf, and the requests that have arrived, in the order of their arrival. -/
structure Sys (T : Type) where
  db : Shelf T
  procs : List (Request × Prog T) := []

/-- A request arrives, or the thread of the `i`-th request makes one operation. -/
inductive Event where
  | arrive (r : Request)
  | run (i : Nat)

/-- What an event does. -/
def Sys.step (a : App T) (s : Sys T) : Event → Sys T
  | .arrive r => { s with procs := s.procs ++ [(r, progOf a r)] }
  | .run i =>
    match s.procs[i]? with
    | none => s
    | some (r, p) => ⟨(p.step s.db).1, s.procs.set i (r, (p.step s.db).2)⟩

/-- The state after a sequence of events. -/
def Sys.runs (a : App T) (db : Shelf T) (evs : List Event) : Sys T := evs.foldl (Sys.step a) ⟨db, []⟩

end Acltk.Web
