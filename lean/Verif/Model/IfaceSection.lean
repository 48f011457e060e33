import Verif.Model.IosText
import Verif.Model.Text
/-!
# The section of an interface

The table of examples/render/tpl/static.jinja2:222-307 with the macro `vlans` (105-118).  Which interfaces have a section and their order are in `Acltk.Page`; an interface is in the table under its alias.  Left out: the rows of
`obj.routes` and the markup between the cells.  Simplified: the words in front of the cells (`Addresses`, `SwitchPort`, `trunk`, `access-groups`, `iface`) are told by the fields, and `access` is never set by the code.
-/
namespace Acltk.Cells
open Acltk

/-- The row of an access group (static.jinja2:283): the direction, the target of the link and its text. -/
structure GroupRow where
  direction : List Char
  link : String
  name : List Char
  deriving DecidableEq

/-- A section: the anchors, the heading, the description, and the rows. -/
structure IfaceSection where
  anchor : String
  second : Option String
  heading : List Char
  description : List Char
  addresses : List (List Char)
  mode : Option (List Char)
  trunk : Option (List Char)
  groups : List GroupRow
  nameif : Option (List Char)
  deriving DecidableEq

/-- A VLAN (static.jinja2:107-110) -/
def vlanText : Ifc.Vlan → List Char
  | .one v => v.toList
  | .range a b => a.toList ++ '-' :: b.toList

/-- `vlans(obj)` (static.jinja2:105-118) -/
def vlansText : List Ifc.Vlan → List Char
  | [] => []
  | [v] => vlanText v
  | v :: l => vlanText v ++ ',' :: vlansText l

/-- `str(addr.interface)` (static.jinja2:250, aclObjects.py:40-43): the address and the prefix length of its network. -/
def ifAddrText (x : Addr × Net) : List Char := x.1.text ++ '/' :: decText x.2.plen

/-- `{% if obj.nameif %}` (static.jinja2:237, 303): no value and the empty text are the same. -/
def nonEmpty (o : Option String) : Option String := o.bind fun s => if s = "" then none else some s

/-- The section of an interface (static.jinja2:235-307). -/
def ifaceSection (i : Ifc.Intf) : IfaceSection where
  anchor := "interface_" ++ i.alias
  second := (nonEmpty i.nameif).map ("interface_" ++ ·)
  heading := i.alias.toList
  description := (i.description.getD "").toList
  addresses := i.addresses.map ifAddrText
  mode := i.switchport.map fun s => s.mode.toList
  trunk := i.switchport.bind fun s => s.trunk.map vlansText
  groups := i.accessGroups.map fun x => ⟨x.1.toList, "access_group_" ++ x.2.1, x.2.1.toList⟩
  nameif := (nonEmpty i.nameif).map String.toList

end Acltk.Cells
