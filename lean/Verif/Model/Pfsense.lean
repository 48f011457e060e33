import Verif.Model.Iface
import Verif.Model.Host
import Verif.Model.Port
import Verif.Model.Summarize
/-!
# pfSense configurations (`pfsenseSemantics.py`)

The input is the element tree; reading XML (`ET.fromstring`), `html.unescape`, the conversion of
time stamps and fetching URL tables are parameters.
-/
namespace Acltk.Pf
open Acltk Acltk.Ifc

/-- An element of `xml.etree.ElementTree`: tag, text (None for an empty element), children. -/
inductive Elem where
  | mk (tag : String) (text : Option String) (children : List Elem)

/-- `e.tag` -/
def Elem.tag : Elem → String | .mk t _ _ => t
/-- `e.text` -/
def Elem.text : Elem → Option String | .mk _ t _ => t
/-- `list(e)` -/
def Elem.children : Elem → List Elem | .mk _ _ c => c

/-- What the `port` of a node can be: a port or range, or a port group (shared by reference with the
table of groups; represented by its name and members). -/
inductive PortRef where
  | leaf (p : PortLeaf)
  | group (name : Option String) (members : List PortLeaf)

/-- `ACLNode` (aclObjects.py:1021-1041) -/
structure PNode where
  host : Host
  port : Option PortRef := none

/-- The tables of the parser (aclSemantics.py `aclParser.__init__`, pfsenseSemantics.py:40-43).  Keys
that come from the text of an element may be None. -/
structure Tables where
  nets : Dict (Option String) Host := []
  ports : Dict (Option String) PortRef := []
  ifaces : Dict String Intf := []
  ifmap : Dict String String := []

/-- The things from outside: `html.unescape`, `datetime.fromtimestamp(int(text))`,
the current time, `options.fetch_urltable` and the text behind a URL (`none`: an exception). -/
structure Env (T : Type) where
  unesc : String → String
  stamp : Option String → Py T
  now : T
  fetch : Bool
  url : Option String → Option String

/-- `html.unescape(s)`: TypeError for None. -/
def Env.unescape {T : Type} (v : Env T) : Option String → Py String
  | none => .error .type
  | some s => .ok (v.unesc s)

/-- `values = {}; for v in list(i): values[v.tag] = v.text` (pfsenseSemantics.py:120-122, 203, 85-87) -/
def childVals (e : Elem) : Dict String (Option String) :=
  e.children.foldl (fun d c => dSet d c.tag c.text) []

/-- `values[k]` -/
def need (d : Dict String (Option String)) (k : String) : Py (Option String) :=
  match dGet d k with
  | none => .error .key
  | some v => .ok v

/-- `Network(*parts)` (aclObjects.py:387-392): too few or too many arguments are a TypeError, a third
argument is not a Name. -/
def networkOf : List (List Char) → Py Host
  | [a, m] =>
    match mkNetwork a m with
    | .error e => .error e
    | .ok n => .ok (.net n)
  | [a, m, _] =>
    match mkNetwork a m with
    | .error e => .error e
    | .ok _ => .error .assertion
  | _ => .error .type

/-- `NetworkHost(text)` (aclObjects.py:566-571) -/
def hostOf (s : List Char) : Py Host :=
  match ipAddress s with
  | .error e => .error e
  | .ok a => .ok (.host a)

/-- `PortRange(*parts)` (aclObjects.py:903-911) -/
def rangeOf : List (List Char) → Py PortLeaf
  | [a, b] => mkPortRange (String.ofList a) (String.ofList b)
  | _ => .error .type

/-- Run a fallible function over a list, stopping at the first exception. -/
def mapPy {α β : Type} (f : α → Py β) : List α → Py (List β)
  | [] => .ok []
  | x :: xs => do
    let y ← f x
    let ys ← mapPy f xs
    .ok (y :: ys)

/-! ## aliases -/

/-- One entry of a host alias, pfsenseSemantics.py:131-137. -/
def hostEntry (s : List Char) : Py Host :=
  match hostOf s with
  | .ok h => .ok h
  | .error .value => .ok .any
  | .error e => .error e

/-- One entry of a network alias, pfsenseSemantics.py:142-143. -/
def netEntry (s : List Char) : Py Host := networkOf (splitOn '/' s)

/-- One entry of a port alias, pfsenseSemantics.py:179-183. -/
def portEntry (s : List Char) : Py PortLeaf :=
  if ':' ∈ s then rangeOf (splitOn ':' s) else .ok (.port ⟨some "eq", some (String.ofList s)⟩)

/-- One line of a URL table, pfsenseSemantics.py:153-168: every exception is swallowed.
`ip_network(line)` is strict about host bits.  `str.strip` is modelled for ASCII. -/
def urlLine (l : List Char) : Option Host :=
  let s := strip l
  if '/' ∈ s then
    match splitOn '/' s with
    | [a, m] =>
      match strictNet a m with
      | .error _ => none
      | .ok _ =>
        match mkNetwork a m with
        | .error _ => none
        | .ok n => some (.net n)
    | _ => none
  else
    match ipAddress s with
    | .error _ => none
    | .ok a => some (.host a)

/-- `if values["address"]: for addr in values["address"].split(" ")` -/
def entries (d : Dict String (Option String)) : Py (List (List Char)) := do
  let a ← need d "address"
  match a with
  | none => .ok []
  | some s => if s.toList = [] then .ok [] else .ok (splitOn ' ' s.toList)

/-- A group made by an alias. -/
inductive AliasGroup where
  | net (name : Option String) (descr : String) (members : List Host)
  | port (name : Option String) (descr : String) (members : List PortLeaf)

/-- One alias, pfsenseSemantics.py:119-187.  The description is the unescaped text (empty for an
empty element; the element must be there). -/
def parseAlias {T : Type} (v : Env T) (i : Elem) : Py AliasGroup := do
  let d := childVals i
  let descr ← need d "descr"
  let descr := v.unesc (descr.getD "")
  let ty ← need d "type"
  if ty = some "host" then
    let name ← need d "name"
    let l ← entries d
    let m ← mapPy hostEntry l
    .ok (.net name descr m)
  else if ty = some "network" then
    let name ← need d "name"
    let l ← entries d
    let m ← mapPy netEntry l
    .ok (.net name descr m)
  else if ty = some "urltable" then
    let name ← need d "name"
    if v.fetch then
      match dGet d "url" with
      | none => .ok (.net name descr [])
      | some u =>
        match v.url u with
        | none => .ok (.net name descr [])
        | some data => .ok (.net name descr ((splitOn '\n' data.toList).filterMap urlLine))
    else .ok (.net name descr [.any])
  else if ty = some "port" then
    let name ← need d "name"
    let l ← entries d
    let m ← mapPy portEntry l
    .ok (.port name descr m)
  else .error .value

/-- `self.network_groups[name] = g` / `self.port_groups[name] = g`.  (For a host alias the group is
entered after its members are complete, for the others it does not matter.) -/
def Tables.addGroup (t : Tables) : AliasGroup → Tables
  | .net n _ m => { t with nets := dSet t.nets n (.group (n.getD "None") m) }
  | .port n _ m => { t with ports := dSet t.ports n (.group n m) }

/-- `_parse_aliases`, pfsenseSemantics.py:116-188 -/
def parseAliases {T : Type} (v : Env T) (t : Tables) : List Elem → Py (Tables × List AliasGroup)
  | [] => .ok (t, [])
  | i :: is => do
    let g ← parseAlias v i
    let (t', gs) ← parseAliases v (t.addGroup g) is
    .ok (t', g :: gs)

/-! ## interfaces -/

/-- `alias.startswith("opt")` -/
def isOpt (tag : String) : Bool := "opt".toList.isPrefixOf tag.toList

/-- The details made for one interface element, pfsenseSemantics.py:85-106, and its alias.  A nameif
detail whose value is None leaves `nameif` None; it is represented by an ignored detail. -/
def ifaceDetails {T : Type} (v : Env T) (i : Elem) : Py (String × List Detail) := do
  let d := childVals i
  let first ← (match dGet d "ipaddr" with
    | some a =>
      if a = some "dhcp" then do
        let n ← need d "if"
        .ok (n.map (fun n => (Ty.str "nameif", Val.str n)))
      else do
        let s ← need d "subnet"
        .ok (some (Ty.list [some "ip", some "address"], Val.list [a, s]))
    | none => do
        let n ← need d "if"
        .ok (n.map (fun n => (Ty.str "nameif", Val.str n))) : Py Detail)
  if isOpt i.tag then do
    let alias ← v.unescape ((dGet d "descr").getD (some i.tag))
    .ok (alias, [first, some (Ty.str "description", Val.str i.tag)])
  else do
    let descr ← v.unescape ((dGet d "descr").getD (some ""))
    .ok (i.tag, [first, some (Ty.str "description", Val.str descr)])

/-- One interface element, pfsenseSemantics.py:85-112. -/
def parseIface {T : Type} (v : Env T) (t : Tables) (i : Elem) : Py (Tables × Intf) := do
  let (alias, details) ← ifaceDetails v i
  let obj ← mkInterface alias details
  .ok ({ t with
      ifaces := dSet t.ifaces obj.alias obj
      ifmap := match obj.description with
        | some k => dSet t.ifmap k obj.alias
        | none => t.ifmap }, obj)

/-- `_parse_interfaces`, pfsenseSemantics.py:82-114 -/
def parseIfaces {T : Type} (v : Env T) (t : Tables) : List Elem → Py (Tables × List Intf)
  | [] => .ok (t, [])
  | i :: is => do
    let (t', o) ← parseIface v t i
    let (t'', os) ← parseIfaces v t' is
    .ok (t'', o :: os)

/-! ## rules -/

/-- `address` child of a source or destination, pfsenseSemantics.py:272-279. -/
def addressChild (t : Tables) (text : Option String) : Py Host :=
  match dGet t.nets text with
  | some g => .ok g
  | none =>
    match text with
    | none => .error .type
    | some s => if '/' ∈ s.toList then networkOf (splitOn '/' s.toList) else hostOf s.toList

/-- `s.split("-", 2)`: at most three parts. -/
def splitMax2 (s : List Char) : List (List Char) :=
  match splitOn '-' s with
  | a :: b :: c :: rest => [a, b, joinWith '-' (c :: rest)]
  | l => l

/-- `port` child, pfsenseSemantics.py:281-288. -/
def portChild (t : Tables) (text : Option String) : Py PortRef :=
  match dGet t.ports text with
  | some g => .ok g
  | none =>
    match text with
    | none => .error .type
    | some s =>
      if '-' ∈ s.toList then
        match rangeOf (splitMax2 s.toList) with
        | .error e => .error e
        | .ok r => .ok (.leaf r)
      else .ok (.leaf (.port ⟨some "eq", some s⟩))

/-- `network` child, pfsenseSemantics.py:290-294. -/
def networkChild (t : Tables) (text : Option String) : Py Host :=
  match text with
  | none => .error .value
  | some s =>
    match dGet t.ifaces s with
    | some o => .ok (.iface o.alias)
    | none => .error .value

/-- The loop over the children of a source or destination, pfsenseSemantics.py:267-296. -/
def nodeLoop (t : Tables) : Option Host → Option PortRef → List Elem → Py (Option Host × Option PortRef)
  | a, p, [] => .ok (a, p)
  | a, p, n :: ns =>
    if n.tag = "any" then nodeLoop t (some .any) p ns
    else if n.tag = "address" then do
      let h ← addressChild t n.text
      nodeLoop t (some h) p ns
    else if n.tag = "port" then do
      let q ← portChild t n.text
      nodeLoop t a (some q) ns
    else if n.tag = "network" then do
      let h ← networkChild t n.text
      nodeLoop t (some h) p ns
    else .error .value

/-- A source or destination element; `ACLNode(None, …)` is an AssertionError. -/
def parseNode (t : Tables) (e : Elem) : Py PNode := do
  let (a, p) ← nodeLoop t none none e.children
  match a with
  | none => .error .assertion
  | some h => .ok ⟨h, p⟩

/-- The dictionary `values` of `_parse_filter__rule`, pfsenseSemantics.py:234-243, as a record: the
outer option of the tags without a default is "the key is there". -/
structure Vals (T : Type) where
  protocol : Option String := some "any"
  source : PNode := ⟨.any, none⟩
  destination : PNode := ⟨.any, none⟩
  created : T
  updated : T
  log : Bool := false
  statetype : Option String := some "keep state"
  floating : Option String := some "no"
  tracker : Option (Option String) := none
  type : Option (Option String) := none
  interface : Option (Option String) := none
  direction : Option (Option String) := none
  descr : Option String := none
  disabled : Bool := false
  icmp : Option (Option String) := none

/-- The last `time` child of a `created`/`updated` element, if any (pfsenseSemantics.py:299-301). -/
def stampLoop {T : Type} (v : Env T) : T → List Elem → Py T
  | x, [] => .ok x
  | x, n :: ns =>
    if n.tag = "time" then do
      let y ← v.stamp n.text
      stampLoop v y ns
    else stampLoop v x ns

/-- Tags that are accepted and dropped, pfsenseSemantics.py:304-318.  `quick` is stored in `values`
but never read. -/
def droppedTags : List String :=
  ["id", "ipprotocol", "tag", "tagged", "max", "max-src-nodes", "max-src-conn", "max-src-states",
   "statetimeout", "os"]

/-- One round of the loop over the children of a rule, pfsenseSemantics.py:256-320. -/
def ruleStep {T : Type} (v : Env T) (t : Tables) (s : Vals T) (c : Elem) : Py (Vals T) :=
  if c.tag = "tracker" then .ok { s with tracker := some c.text }
  else if c.tag = "type" then .ok { s with type := some c.text }
  else if c.tag = "interface" then .ok { s with interface := some c.text }
  else if c.tag = "floating" then .ok { s with floating := c.text }
  else if c.tag = "direction" then .ok { s with direction := some c.text }
  else if c.tag = "quick" then .ok s
  else if c.tag = "protocol" then .ok { s with protocol := c.text }
  else if c.tag = "descr" then .ok { s with descr := some (v.unesc (c.text.getD "")) }
  else if c.tag = "disabled" then .ok { s with disabled := true }
  else if c.tag = "statetype" then .ok { s with statetype := c.text }
  else if c.tag = "log" then .ok { s with log := true }
  else if c.tag = "source" then do
    let n ← parseNode t c
    .ok { s with source := n }
  else if c.tag = "destination" then do
    let n ← parseNode t c
    .ok { s with destination := n }
  else if c.tag = "created" then do
    let x ← stampLoop v s.created c.children
    .ok { s with created := x }
  else if c.tag = "updated" then do
    let x ← stampLoop v s.updated c.children
    .ok { s with updated := x }
  else if c.tag = "icmptype" then .ok { s with icmp := some c.text }
  else if c.tag ∈ droppedTags then .ok s
  else .error .value

/-- The loop. -/
def ruleLoop {T : Type} (v : Env T) (t : Tables) : Vals T → List Elem → Py (Vals T)
  | s, [] => .ok s
  | s, c :: cs => do
    let s' ← ruleStep v t s c
    ruleLoop v t s' cs

/-- Values of the option dictionary. -/
inductive OptVal where
  | xref (tracker : Option (Option String))
  | floating (interfaces : List String) (direction : Option String)
  | inactive
  | log
  | statetype (s : Option String)

/-- `ACLCaption` (aclObjects.py:1136-1139) -/
structure Caption where
  text : String
  bg : Option String
  deriving DecidableEq

/-- `ACLRule` as the pfSense parser fills it (pfsenseSemantics.py:349-358); the remark is the
description and the two dates. -/
structure PfRule (T : Type) where
  id : Option String
  mode : String
  protocol : Option String
  src : PNode
  dst : PNode
  descr : String
  created : T
  updated : T
  options : Dict String OptVal
  icmp : Option (Option String)
  head : Option (List Caption) := none

/-- `self.interface_map.get(i, i)` -/
def Tables.mapped (t : Tables) (s : String) : String := (dGet t.ifmap s).getD s

/-- What follows the loop, pfsenseSemantics.py:322-358. -/
def finishRule {T : Type} (t : Tables) (s : Vals T) : Py (PfRule T) := do
  let o0 : Dict String OptVal := [("xref", .xref s.tracker)]
  let (iface, o1) ← (
    if s.floating = some "yes" then
      match s.interface with
      | none => .error .key
      | some none => .error .attribute
      | some (some i) =>
        let names := (splitOn ',' i.toList).map (fun n => t.mapped (String.ofList n))
        match s.direction with
        | none => .error .key
        | some d => .ok (some "floating", dSet o0 "floating" (.floating names d))
    else
      match s.interface with
      | none => .error .key
      | some i => .ok (i.map t.mapped, o0) : Py (Option String × Dict String OptVal))
  let o2 := if s.disabled then dSet o1 "inactive" .inactive else o1
  let o3 := if s.log then dSet o2 "log" .log else o2
  let o4 := if s.statetype ≠ some "keep state" then dSet o3 "statetype" (.statetype s.statetype) else o3
  match s.type with
  | none => .error .key
  | some ty =>
    match s.descr with
    | none => .error .key
    | some d =>
      .ok { id := iface, mode := if ty = some "pass" then "permit" else "deny", protocol := s.protocol,
            src := s.source, dst := s.destination, descr := d, created := s.created, updated := s.updated,
            options := o4, icmp := s.icmp }

/-- `_parse_filter__rule`, pfsenseSemantics.py:231-358 -/
def parseRule {T : Type} (v : Env T) (t : Tables) (e : Elem) : Py (PfRule T) := do
  let s ← ruleLoop v t { created := v.now, updated := v.now } e.children
  finishRule t s

/-! ## separators -/

/-- `separators[iface][row].append(caption)` -/
abbrev Seps := Dict (Option String) (Dict Int (List Caption))

/-- One separator, pfsenseSemantics.py:202-213: interface, row and caption.  Subscripting None is a
TypeError. -/
def parseSep {T : Type} (v : Env T) (t : Tables) (sep : Elem) : Py (Option String × Int × Caption) := do
  match pyInt (sep.tag.toList.drop 3) with
  | none => .error .value
  | some _ =>
    let d := childVals sep
    let i ← need d "if"
    let iface := if i = some "floatingrules" then some "floating" else i.map t.mapped
    let r ← need d "row"
    match r with
    | none => .error .type
    | some r =>
      match pyInt (r.toList.drop 2) with
      | none => .error .value
      | some row =>
        let color ← need d "color"
        let text ← need d "text"
        let text ← v.unescape text
        .ok (iface, row, ⟨text, color⟩)

/-- The `append`, on dictionaries with default. -/
def addSep (s : Seps) (x : Option String × Int × Caption) : Seps :=
  let rows := (dGet s x.1).getD []
  dSet s x.1 (dSet rows x.2.1 ((dGet rows x.2.1).getD [] ++ [x.2.2]))

/-- pfsenseSemantics.py:198-213 -/
def collectSeps {T : Type} (v : Env T) (t : Tables) (e : Elem) : Py Seps := do
  let l ← mapPy (parseSep v t) (e.children.flatMap Elem.children)
  .ok (l.foldl addSep [])

/-- pfsenseSemantics.py:215-226: the loop over the rules so far with the variables `ifname`, `last`
and the index. -/
def sepLoop {T : Type} (s : Seps) : Option String → Nat → Nat → List (PfRule T) → List (PfRule T)
  | _, _, _, [] => []
  | ifname, last, idx, r :: rs =>
    let last := if r.id ≠ ifname then idx else last
    let ifname := r.id
    let r' := match dGet s ifname with
      | none => r
      | some rows =>
        match dGet rows (idx - last : Nat) with
        | none => r
        | some caps => { r with head := some caps }
    r' :: sepLoop s ifname last (idx + 1) rs

/-- `_parse_filter`, pfsenseSemantics.py:190-229 -/
def filterLoop {T : Type} (v : Env T) (t : Tables) : List (PfRule T) → List Elem → Py (List (PfRule T))
  | rules, [] => .ok rules
  | rules, c :: cs =>
    if c.tag = "rule" then do
      let r ← parseRule v t c
      filterLoop v t (rules ++ [r]) cs
    else if c.tag = "separator" then do
      let s ← collectSeps v t c
      filterLoop v t (sepLoop s none 0 0 rules) cs
    else .error .value

/-! ## the whole configuration -/

/-- What `parse` hands to `pfsenseConfig`: groups, interfaces, rules, host name (in that order; the
time stamp of the revision is lost: `ast.extend` of a dictionary adds only its key). -/
structure Parsed (T : Type) where
  groups : List AliasGroup := []
  interfaces : List Intf := []
  rules : List (PfRule T) := []
  hostname : Option String := none

/-- `root.findall(tag)` -/
def findall (root : Elem) (tag : String) : List Elem := root.children.filter (fun c => c.tag == tag)

/-- `_parse_revision`, pfsenseSemantics.py:61-69: the first time stamp is read. -/
def parseRevision {T : Type} (v : Env T) (e : Elem) : Py T :=
  match e.children.find? (fun c => c.tag == "time") with
  | some c => v.stamp c.text
  | none => .ok v.now

/-- `_parse_system`, pfsenseSemantics.py:71-80: `f"{hostname}.{domain}"`. -/
def parseSystem (e : Elem) : String :=
  let d := childVals e
  ((dGet d "hostname").getD none).getD "None" ++ "." ++ ((dGet d "domain").getD none).getD "None"

/-- One section after the other, pfsenseSemantics.py:50-58. -/
def foldPy {α β : Type} (f : α → β → Py α) : α → List β → Py α
  | a, [] => .ok a
  | a, x :: xs => do
    let a' ← f a x
    foldPy f a' xs

/-- `pfsenseParser.parse`, pfsenseSemantics.py:45-59, after reading the XML. -/
def parse {T : Type} (v : Env T) (root : Elem) : Py (Parsed T) := do
  if root.tag ≠ "pfsense" ∧ root.tag ≠ "opnsense" then .error .value
  else
    let _ ← mapPy (parseRevision v) (findall root "revision")
    let (t1, groups) ← foldPy (fun (t, gs) e => do
        let (t', gs') ← parseAliases v t e.children
        .ok (t', gs ++ gs')) (({} : Tables), []) (findall root "aliases")
    let (t2, ifs) ← foldPy (fun (t, l) e => do
        let (t', l') ← parseIfaces v t e.children
        .ok (t', l ++ l')) (t1, []) (findall root "interfaces")
    let rules ← foldPy (fun (l : List (PfRule T)) e => do
        let l' ← filterLoop v t2 [] e.children
        .ok (l ++ l')) [] (findall root "filter")
    let names := (findall root "system").map parseSystem
    .ok { groups := groups, interfaces := ifs, rules := rules, hostname := names.getLast? }

end Acltk.Pf
