import Verif.Model.ExpandFilter
import Verif.Model.FileText
import Verif.Model.Render
/-!
# The web application examples/render/dynamic.py

Requests and answers; the state that is kept between requests is the shelf.  Simplifications: storing a configuration and reading it
again (pickle) gives an equal one, so every request works on a copy of its own (`flask_shelve` opens the shelf without writeback);
requests are handled one after the other (`WebConc` drops this); of a page only what is handed to the template is modelled.
-/
namespace Acltk.Web
open Acltk Acltk.Lookup Acltk.Detect Acltk.DetectText

variable {T : Type}

/-- A configuration of any kind. -/
abbrev Conf (T : Type) := Cfg (Nat × Pf.Parsed T)

/-- `cfg.name` (aclObjects.py:1251-1253) -/
def name : Conf T → String
  | .fwsm items => (Config.build (CafFilter.agName items) (fun _ => []) (CafFilter.number 0 items)).name
  | .ios items => (IosConfig.build items).base.name
  | .pfsense c => (PfFilter.build c.1 c.2).name

/-- What surrounds the application: TatSu's name guard, the XML reader, the surroundings of the pfSense parser (with
`fetch_urltable=False`), the limits on nesting, stack and rounds, the order in which sets are iterated, the rules and NAT entries as they
are after `cfg.expand()`, and the objects `resolve` looks at before (`false`) and after (`true`) it. -/
structure App (T : Type) where
  guard : Guard
  xml : String → Option Pf.Elem
  env : Pf.Env T
  nest : Nat
  fuel : Nat
  rounds : Nat
  order0 : List Resolve.El → List Resolve.El
  order : Nat → List Resolve.El → List Resolve.El
  expand : Conf T → Py (Oid → Entry)
  info : Bool → Conf T → Oid → Resolve.Info

/-- The shelf: `db` of examples/render/dynamic.py. -/
abbrev Shelf (T : Type) := Dict String (Conf T)

/-- The arguments of `/show`. -/
structure Args where
  config : Option String := none
  exp : Option String := none
  sns : Option String := none
  caf : Option String := none

/-- A request: `/add` with the uploaded file if there is one, `/` and `/show`. -/
inductive Request where
  | addPost (file : Option (List UInt8))
  | addGet
  | indexGet
  | indexPost
  | showGet (a : Args)
  | showPost

/-- `selection`: None; what the filter delivered, with whatever `resolve` had added when it raised; what `resolve` delivered. -/
inductive Selection where
  | nothing
  | raw (r : List Oid)
  | resolved (r : List Resolve.El)

/-- What is handed to the template of `/show`. -/
structure Page (T : Type) where
  conf : Conf T
  expanded : Bool
  sns : Bool
  caf : String
  warning : Bool
  selection : Selection

/-- The answer; `hangs` is a `resolve` that does not come to an end within the rounds. -/
inductive Answer (T : Type) where
  | toShow (config : String)
  | toIndex
  | index (names : List String)
  | page (p : Page T)
  | badRequest
  | notFound
  | notAllowed
  | serverError
  | hangs

/-- A string in a condition. -/
def truthy (s : Option String) : Bool :=
  match s with
  | some s => s != ""
  | none => false

/-- `add` (examples/render/dynamic.py:15-26).  A file that is refused raises ValueError (or UnicodeDecodeError, which is one), and that is no
TypeError, so it leaves the view function. -/
def add (a : App T) (db : Shelf T) : Option (List UInt8) → Shelf T × Answer T
  | none => (db, .badRequest)
  | some file =>
    match FileText.configFromFile a.guard (PfFilter.parser a.xml a.env) file with
    | .exception _ => (db, .serverError)
    | .baseException _ => (db, .serverError)
    | .config c => (dSet db (name c) c, .toShow (name c))

/-- The part of `show` that runs the filter (examples/render/dynamic.py:51-63): the selection and whether there is a warning. -/
def runFilter (a : App T) (expanded : Bool) (heap : Oid → Entry) (c : Conf T) (caf : Option String) : Option (Selection × Bool × String) :=
  match caf with
  | none => some (.nothing, false, "")
  | some t =>
    if t = "" then some (.nothing, false, "")
    else
      match CafText.parse a.guard a.nest t.toList with
      | .fail => some (.nothing, true, t)
      | .raise _ => some (.nothing, true, t)
      | .ok e _ =>
        match ExpandFilter.filterOn a.fuel heap c e with
        | .error _ => some (.nothing, true, t)
        | .ok r =>
          match Resolve.resolve (a.info expanded c) (Render.keys c) a.rounds a.order0 a.order (r.map .obj) with
          | .error _ => some (.raw r, true, t)
          | .ok none => none
          | .ok (some s) => some (.resolved s, false, t)

/-- `show` (examples/render/dynamic.py:38-70).  Without the argument `config`, `None in db` raises AttributeError. -/
def showPage (a : App T) (db : Shelf T) (args : Args) : Answer T :=
  match args.config with
  | none => .serverError
  | some n =>
    match dGet db n with
    | none => .notFound
    | some c =>
      match (if truthy args.exp then a.expand c else .ok (ExpandFilter.heapOf c)) with
      | .error _ => .serverError
      | .ok heap =>
        match runFilter a (truthy args.exp) heap c args.caf with
        | none => .hangs
        | some (sel, warning, caf) => .page ⟨c, truthy args.exp, truthy args.sns, caf, warning, sel⟩

/-- One request.  A view function that returns None is a TypeError in Flask (examples/render/dynamic.py:29-35, 38-70: POST). -/
def handle (a : App T) (db : Shelf T) : Request → Shelf T × Answer T
  | .addPost file => add a db file
  | .addGet => (db, .notAllowed)
  | .indexGet => (db, .index (dKeys db))
  | .indexPost => (db, .serverError)
  | .showGet args => (db, showPage a db args)
  | .showPost => (db, .serverError)

/-- The shelf after a sequence of requests. -/
def serve (a : App T) (db : Shelf T) (reqs : List Request) : Shelf T := reqs.foldl (fun db r => (handle a db r).1) db

end Acltk.Web
