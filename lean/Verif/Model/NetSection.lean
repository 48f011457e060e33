import Verif.Model.Cells
import Verif.Model.FwsmText
/-!
# The sections of names, network objects and network groups

The tables of examples/render/tpl/static.jinja2:318-410 for the definitions of the FWSM/ASA and IOS parsers.  Which definitions have a section and their order are in `Acltk.Page`.  Left out: the headings of the columns and how
cells are put on lines (`batch`, and the blanks between the addresses of a network object).
-/
namespace Acltk.Cells
open Acltk Acltk.FwsmText

/-- A section: its anchor (`id="…"`), its heading, its cells and its description. -/
structure NetSection where
  anchor : String
  heading : List Char
  cells : List Cell
  description : List Char
  deriving DecidableEq

/-- `{{ obj.description or '' }}`, and the row of a description that is there only when it is not empty. -/
def descriptionText (d : Option (List Char)) : List Char := d.getD []

/-- `host(i)` for each of the hosts; `names k` is the name the `k`-th address was written as. -/
def hostCells (names : Nat → Option String) : List Host → List Cell
  | [] => []
  | h :: l => hostCell (names 0) h :: hostCells (fun k => names (k + 1)) l

/-- The section of a definition (static.jinja2:333-337, 353-367, 384-409). -/
def netSection (names : Nat → Option String) : Item → Option NetSection
  | .name n a d => some ⟨"name_alias_" ++ n, n.toList, [.text a.text], descriptionText d⟩
  | .netObj n l _ d => some ⟨"network_object_" ++ n, n.toList, hostCells names l, descriptionText d⟩
  | .netGroup n l d => some ⟨"network_group_" ++ n, n.toList, hostCells names l, descriptionText d⟩
  | _ => none

end Acltk.Cells
