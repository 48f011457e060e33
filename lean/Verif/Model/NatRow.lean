import Verif.Model.Row
import Verif.Model.Nat
/-!
# The rows of a NAT entry

The table of NAT entries of examples/render/tpl/static.jinja2:713-764.  The colour of the rows and the selection are in `Acltk.Page`; the three headings of the table are the three sections of `ACLConfig.nat`.
-/
namespace Acltk.Cells
open Acltk Acltk.NatCmd

/-- The rows of an entry.  The column of the mapped source is kept in its parts: `type :: node (fallback) ipv6`. -/
structure NatCells where
  iface : Cell
  src : Cell
  dst : Cell
  miface : Cell
  type : List Char
  msrc : Cell
  fallback : Option Cell
  ipv6 : Bool
  mdst : Cell
  options : List (List Char)
  service : Option (List Char × Cell × Cell × Cell × Cell)
  description : Option (List Char)
  deriving DecidableEq

variable (nm : Nat → String)

/-- `host(side.node) if side else ''`.  The string "interface" gets the last branch of the macro.  The names of addresses (`obj.target`) are given by `t`. -/
def nodeCell (t : Option String) : Option Node' → Cell
  | none => .text []
  | some .interface => .text "FIXME str".toList
  | some (.host h) => hostCell t h

/-- The macro `port` (static.jinja2:36-46) for the ports of a service; a text is printed as it is. -/
def natPortCell : Option PortRef → Cell
  | none => .text []
  | some (.word w) => .text w.toList
  | some (.cond v) => portValCell nm (some v)

/-- `host(nat.mapped.src.fallback.interface)` under its condition. -/
def fallbackCell : Option Fallback → Option Cell
  | none => none
  | some f =>
    match f.interface with
    | none => none
    | some none => some (.text "FIXME str".toList)
    | some (some n) => some (hostCell none (.iface n))

/-- `nat.mapped.service.src` where the service of the mapped side is missing prints nothing. -/
def natSvcPort (s : Option Svc) (f : Svc → Option PortRef) : Cell :=
  match s with
  | none => .text []
  | some s => natPortCell nm (f s)

/-- The rows (static.jinja2:713-764).  `t` gives the names the addresses of the four sides were written as. -/
def natRow (t : Fin 4 → Option String) (n : Nat') : NatCells where
  iface := hostCell none (.iface n.real.iface)
  src := nodeCell (t 0) n.real.src
  dst := nodeCell (t 1) n.real.dst
  miface := hostCell none (.iface n.mapped.iface)
  type := printed n.mapped.type
  msrc := nodeCell (t 2) n.mapped.src
  fallback := fallbackCell n.mapped.fallback
  ipv6 := match n.mapped.fallback with
    | some f => f.ipv6
    | none => false
  mdst := nodeCell (t 3) n.mapped.dst
  options := (n.options.filter (fun k => decide (k ∉ ["auto", "after-auto", "after-object"]))).map String.toList
  service := n.real.service.map (fun s => (s.protocol.toList, natPortCell nm s.src, natPortCell nm s.dst, natSvcPort nm n.mapped.service Svc.src, natSvcPort nm n.mapped.service Svc.dst))
  description := match n.description with
    | some d => if d = "" then none else some d.toList
    | none => none

end Acltk.Cells
