import Verif.Model.Dict
import Verif.Model.Mask
/-!
# `Interface.__init__`
-/
namespace Acltk.Ifc
open Acltk

/-- The `type` attribute of a detail: a string, or a list (elements may be None). -/
inductive Ty where
  | str (s : String)
  | list (l : List (Option String))
  deriving DecidableEq, Repr

/-- An element of a VLAN list: `VLAN` or `VLANRange` (aclObjects.py:104-117). -/
inductive Vlan where
  | one (v : String)
  | range (a b : String)
  deriving DecidableEq, Repr

/-- `value` of a `switchport` detail (ios.bnf:305-326). -/
inductive Switch where
  | mode (m : String)
  | trunkSet (l : List Vlan)
  | trunkAdd (l : List Vlan)
  deriving DecidableEq, Repr

/-- The `value` attribute of a detail: a text (for an address object its `str()`), a list of texts
and Nones, or a switchport command. -/
inductive Val where
  | str (s : String)
  | list (l : List (Option String))
  | switch (s : Switch)
  deriving DecidableEq, Repr

/-- One element of `details`; `none` is a detail the grammar ignores (aclObjects.py:69-70). -/
abbrev Detail := Option (Ty × Val)

/-- `Switchport` (aclObjects.py:52-56).  `access` is never set by the code. -/
structure Switchport where
  mode : String := ""
  trunk : Option (List Vlan) := none
  deriving DecidableEq, Repr

/-- `Interface` (aclObjects.py:58-66).  `addresses` are the address and the network of
`InterfaceAddress.interface`; `accessGroups` maps the key to name and direction of the
`InterfaceAccessGroup` (its interface is the object itself). -/
structure Intf where
  alias : String
  addresses : List (Addr × Net) := []
  accessGroups : Dict String (String × String) := []
  nameif : Option String := none
  description : Option String := none
  switchport : Option Switchport := none
  deriving DecidableEq, Repr

/-- `l[i]` -/
def index {α : Type} (l : List α) (i : Nat) : Py α :=
  match l[i]? with
  | some x => .ok x
  | none => .error .index

/-- `value[i]` on a list, as an f-string shows it (`None` for None); a text is indexed by character,
a switchport dictionary has no integer keys. -/
def valIndex (v : Val) (i : Nat) : Py String :=
  match v with
  | .list l =>
    match index l i with
    | .error e => .error e
    | .ok (some s) => .ok s
    | .ok none => .ok "None"
  | .str s =>
    match index s.toList i with
    | .error e => .error e
    | .ok c => .ok (String.ofList [c])
  | .switch _ => .error .key

/-- `InterfaceAddress(address, netmask)`, aclObjects.py:40-43: `ip_interface(f"{address}/{netmask}")`
is the address and the network around it, host bits cleared. -/
def mkIfAddr (address netmask : String) : Py (Addr × Net) :=
  match mkNetwork address.toList netmask.toList with
  | .error e => .error e
  | .ok n =>
    match ipAddress address.toList with
    | .error e => .error e
    | .ok a => .ok (a, n)

/-- Two indexings in a row. -/
def two (v : Val) (i j : Nat) : Py (String × String) :=
  match valIndex v i with
  | .error e => .error e
  | .ok a =>
    match valIndex v j with
    | .error e => .error e
    | .ok b => .ok (a, b)

/-- `self.addresses.append(InterfaceAddress(a, m))` -/
def addAddr (s : Intf) (am : Py (String × String)) : Py Intf :=
  match am with
  | .error e => .error e
  | .ok (a, m) =>
    match mkIfAddr a m with
    | .error e => .error e
    | .ok x => .ok { s with addresses := s.addresses ++ [x] }

/-- `self.access_groups[f"{i.type[0]}-{dir}"] = InterfaceAccessGroup(self, name, dir)` -/
def addGroup (s : Intf) (fam : String) (nd : Py (String × String)) : Py Intf :=
  match nd with
  | .error e => .error e
  | .ok (n, d) => .ok { s with accessGroups := dSet s.accessGroups (fam ++ "-" ++ d) (n, d) }

/-- A `switchport` detail, aclObjects.py:75-84.  `self.switchport.trunk.items` is an AttributeError
when there is no list yet. -/
def switchStep (s : Intf) (c : Switch) : Py Intf :=
  let sp := s.switchport.getD {}
  match c with
  | .mode m => .ok { s with switchport := some { sp with mode := m } }
  | .trunkSet l => .ok { s with switchport := some { sp with trunk := some l } }
  | .trunkAdd l =>
    match sp.trunk with
    | none => .error .attribute
    | some t => .ok { s with switchport := some { sp with trunk := some (t ++ l) } }

/-- One round of the loop, aclObjects.py:68-97.  A `type` that is a string other than the three
keywords has a one-character string at index 0, which equals neither "ip" nor "ipv6"; indexing the
empty string is an IndexError.  The grammar gives `nameif` and `description` a text value and
`switchport` a switchport value; other combinations are a KeyError or TypeError in Python, here
`.type`. -/
def detailStep (s : Intf) (d : Detail) : Py Intf :=
  match d with
  | none => .ok s
  | some (.str "nameif", .str v) => .ok { s with nameif := some v }
  | some (.str "description", .str v) => .ok { s with description := some v }
  | some (.str "switchport", .switch c) => switchStep s c
  | some (.str t, _) =>
    if t = "nameif" ∨ t = "description" ∨ t = "switchport" then .error .type
    else if t = "" then .error .index
    else .ok s
  | some (.list l, v) =>
    match index l 0 with
    | .error e => .error e
    | .ok fam =>
      if fam = some "ip" then
        match index l 2 with
        | .error e => .error e
        | .ok k =>
          if k = some "address" then addAddr s (two v 0 2)
          else if k = some "access-group" then addGroup s "ip" (two v 0 2)
          else .ok s
      else if fam = some "ipv6" then
        match index l 2 with
        | .error e => .error e
        | .ok k =>
          if k = some "address" then
            match v with
            | .list _ => addAddr s (two v 0 2)
            | .str a => addAddr s (.ok (a, "128"))
            | .switch _ => .error .value
          else if k = some "traffic-filter" then addGroup s "ipv6" (two v 0 2)
          else .ok s
      else .ok s

/-- The loop over the details. -/
def detailLoop : Intf → List Detail → Py Intf
  | s, [] => .ok s
  | s, d :: ds =>
    match detailStep s d with
    | .error e => .error e
    | .ok s' => detailLoop s' ds

/-- `Interface(alias, details)`, aclObjects.py:58-97. -/
def mkInterface (alias : String) (details : List Detail) : Py Intf :=
  detailLoop { alias := alias } details

/-! ## what the grammars produce -/

/-- The lines of an interface block the grammars know (ios.bnf:45-54, fwsm.bnf:31-38). -/
inductive Line where
  | ignored
  | nameif (v : String)
  | description (v : String)
  | ip (address netmask : String)
  | ipAccessGroup (name dir : String)
  | ipv6 (address : String) (plen : Option String)
  | ipv6Filter (name dir : String)
  | switch (c : Switch)
  deriving DecidableEq, Repr

/-- The detail a line becomes.  White space matches None (aclSemantics.py:57-58) and stays in the
list; `ip6 ["/" int]` is a single value when there is no prefix length. -/
def Line.detail : Line → Detail
  | .ignored => none
  | .nameif v => some (.str "nameif", .str v)
  | .description v => some (.str "description", .str v)
  | .ip a m => some (.list [some "ip", none, some "address"], .list [some a, none, some m])
  | .ipAccessGroup n d => some (.list [some "ip", none, some "access-group"], .list [some n, none, some d])
  | .ipv6 a none => some (.list [some "ipv6", none, some "address"], .str a)
  | .ipv6 a (some p) => some (.list [some "ipv6", none, some "address"], .list [some a, some "/", some p])
  | .ipv6Filter n d => some (.list [some "ipv6", none, some "traffic-filter"], .list [some n, none, some d])
  | .switch c => some (.str "switchport", .switch c)

/-- `interface` block: the interface the semantics builds (aclSemantics.py:65-71). -/
def interfaceOf (alias : String) (lines : List Line) : Py Intf :=
  mkInterface alias (lines.map Line.detail)

end Acltk.Ifc
