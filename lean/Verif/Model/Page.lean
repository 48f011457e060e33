import Verif.Model.Resolve
import Verif.Model.Sort
import Verif.Model.Config
/-!
# The template examples/render/tpl/static.jinja2

What the page lists, in which order, with which numbers, anchors and links; not the HTML around it.  `show.jinja2` extends this
template and adds nothing to the lists.
-/
namespace Acltk.Page
open Acltk Acltk.Resolve

/-- `selection` of the template: None, or a set. -/
abbrev Sel := Option (List El)

/-- `selection is none or x in selection or args.show_not_selected` (static.jinja2:221, 232, 778 and in each section) -/
def lists (sel : Sel) (sns : Bool) (x : El) : Bool :=
  match sel with
  | none => true
  | some s => decide (x ∈ s) || sns

/-- `selection is not none and x not in selection`: the row is grey (the macro `visible`, static.jinja2:120-124, and 722, 825). -/
def grey (sel : Sel) (x : El) : Bool :=
  match sel with
  | none => false
  | some s => decide (x ∉ s)

/-! ## the access control list -/

/-- The class of the row of a rule. -/
inductive Cls where
  | inactive
  | even
  | odd
  | filtered
  deriving DecidableEq, Repr

/-- A row of the access control list: the head of a list, or a rule with its number `major.minor`. -/
inductive Row where
  | head (id : Option String)
  | rule (o : Oid) (major minor : Nat) (cls : Cls)
  deriving DecidableEq, Repr

/-- The id of a rule as an element of the selection. -/
def idEl : Option String → El
  | some s => .str s
  | none => .none

/-- The state of the loop: the argument of the last `loop.changed`, and `idx` (static.jinja2:775). -/
structure St where
  last : Option (Option String) := none
  iface : Nat := 0
  rule : Nat := 0

/-- One round of the loop over the rules (static.jinja2:776-879). -/
def step (idOf : Oid → Option String) (inactive : Oid → Bool) (sel : Sel) (sns : Bool) (s : St) (o : Oid) : St × List Row :=
  let changed : Bool := decide (s.last ≠ some (idOf o))
  let h := if changed && lists sel sns (idEl (idOf o)) then [Row.head (idOf o)] else []
  let s : St := if changed then ⟨some (idOf o), s.iface + 1, 1⟩ else s
  let cls := if inactive o then Cls.inactive else if s.rule % 2 = 1 then .even else .odd
  let s' : St := { s with rule := s.rule + 1 }
  if grey sel (.obj o) then
    if sns then (s', h ++ [.rule o s.iface s.rule .filtered]) else (s', h)
  else (s', h ++ [.rule o s.iface s.rule cls])

/-- The loop. -/
def rowsFrom (idOf : Oid → Option String) (inactive : Oid → Bool) (sel : Sel) (sns : Bool) : St → List Oid → List Row
  | _, [] => []
  | s, o :: t =>
    let p := step idOf inactive sel sns s o
    p.2 ++ rowsFrom idOf inactive sel sns p.1 t

/-- The access control list of the page (static.jinja2:773-880). -/
def rows (idOf : Oid → Option String) (inactive : Oid → Bool) (sel : Sel) (sns : Bool) (rules : List Oid) : List Row :=
  rowsFrom idOf inactive sel sns {} rules

/-! ## the other sections -/

/-- The classes of groups. -/
inductive GroupClass where
  | network
  | service
  | port
  | icmp
  | protocol
  deriving DecidableEq, Repr

/-- What the template distinguishes of the objects, by `obj.__class__.__name__`, and what it reads of them. -/
inductive Obj where
  /-- `NetworkHost`, `Network`: with the name (`Name`) it was written with -/
  | address (target : Option Oid)
  | name (hostname : String)
  | group (c : GroupClass) (name : String) (members : List El)
  | netObject (name : String) (addresses : List El)
  | svcObject (name : String)
  | timeRange (name : String)
  /-- `NetworkInterface` -/
  | netInterface (name : String)
  | protocol (name : String)
  /-- `ACLRule`; of `options` the objects -/
  | rule (id : Option String) (protocol srcHost srcPort dstHost dstPort : El) (icmp : Option El) (options : List El)
  | nat (real mapped : SideInfo)
  /-- `Interface`, with `nameif` -/
  | interface (nameif : Option String)
  /-- anything else: ports, services, wildcards, any-networks, ICMP types -/
  | other
  deriving DecidableEq, Repr

/-- The sections with anchors. -/
inductive Sect where
  | interface
  | names
  | netObject
  | svcObject
  | time
  | group (c : GroupClass)
  deriving DecidableEq, Repr

/-- The class name of a group (aclObjects.py:293, 336, 583, 709, 917): what `resolve` adds. -/
def GroupClass.cls : GroupClass → String
  | .network => "NetworkGroup"
  | .service => "ServiceGroup"
  | .port => "PortGroup"
  | .icmp => "ICMPGroup"
  | .protocol => "ProtocolGroup"

/-- What the template asks for (static.jinja2:368, 458, 519, 564, 604). -/
def GroupClass.label : GroupClass → String
  | .network => "NetworkGroup"
  | .service => "ServiceGroup"
  | .port => "PortGroup"
  | .icmp => "ICMPGroup"
  | .protocol => "ProtocolGroup"

/-- The string that opens a section (static.jinja2:221, 314, 338, 368, 416, 458, 519, 564, 604, 646). -/
def Sect.label : Sect → String
  | .interface => "Interface"
  | .names => "Names"
  | .netObject => "NetworkObject"
  | .svcObject => "ServiceObject"
  | .time => "TimeRange"
  | .group c => c.label

/-- A link, or an anchor: the section and the name.  (In the page the section is a prefix of the anchor, `network_group_` and so on;
no prefix begins another.) -/
abbrev Link := Sect × String

/-- The tables of the configuration that the template lists: `aclconfig.names.objects`, the dictionaries of `objects` and `groups`,
the NAT entries in order of their sections and the rules. -/
structure Tables where
  names : List Oid
  table : Sect → Dict String Oid
  nat : List Oid
  rules : List Oid

/-- The tables of a configuration that `ACLConfig.__init__` has built (aclObjects.py:1191-1248), as the template reads them. -/
def tablesOf (c : Config.Cfg) : Tables where
  names := c.names
  table
    | .interface => c.interfaces.map fun p => (p.1, p.2.oid)
    | .names => []
    | .netObject => c.network
    | .svcObject => c.service
    | .time => c.time
    | .group .network => c.gNetwork
    | .group .service => c.gService
    | .group .port => c.gPort
    | .group .icmp => c.gIcmp
    | .group .protocol => c.gProtocol
  nat := c.nat1 ++ c.nat2 ++ c.nat3
  rules := c.rules

/-- `keys()|sort` of Jinja: by the text in lower case. -/
def sortKeys (lower : String → String) (l : List String) : List String := l.mergeSort (fun a b => decide (lower a ≤ lower b))

/-- An entry of a section: its name, its object and whether it is grey. -/
structure Item where
  name : String
  obj : Oid
  grey : Bool
  deriving DecidableEq, Repr

/-- How a section is sorted: the pairs of an alias and an interface (static.jinja2:224) as they are, names by their lower case. -/
def sortKey (lower : String → String) : Sect → String → String
  | .interface => id
  | _ => lower

/-- A section with a dictionary (static.jinja2:221-312, 338-680: the sections of interfaces, objects, groups and time ranges). -/
def dictSection (lower : String → String) (tb : Tables) (sel : Sel) (sns : Bool) (s : Sect) : List Item :=
  if lists sel sns (.str s.label) then
    (sortKeys (sortKey lower s) (dKeys (tb.table s))).filterMap fun n =>
      match dGet (tb.table s) n with
      | some o => if lists sel sns (.obj o) then some ⟨n, o, grey sel (.obj o)⟩ else none
      | none => none
  else []

/-- The row of a name (static.jinja2:323-334). -/
def nameItem (heap : Oid → Obj) (sel : Sel) (o : Oid) : Option Item :=
  match heap o with
  | .name h => some ⟨h, o, grey sel (.obj o)⟩
  | _ => none

/-- The section of names (static.jinja2:314-336). -/
def nameSection (heap : Oid → Obj) (tb : Tables) (sel : Sel) (sns : Bool) : List Item :=
  if lists sel sns (.str "Names") then
    tb.names.filterMap fun o => if lists sel sns (.obj o) then nameItem heap sel o else none
  else []

/-- The entries of a section. -/
def entries (lower : String → String) (heap : Oid → Obj) (tb : Tables) (sel : Sel) (sns : Bool) (s : Sect) : List Item :=
  if s = .names then nameSection heap tb sel sns else dictSection lower tb sel sns s

/-- The NAT entries (static.jinja2:682-768). -/
def natRows (tb : Tables) (sel : Sel) (sns : Bool) : List Oid :=
  if lists sel sns (.str "NAT") then tb.nat.filter fun o => lists sel sns (.obj o) else []

/-! ## links -/

/-- The macro `host` (static.jinja2:1-33). -/
def hostLinks (heap : Oid → Obj) : El → List Link
  | .obj o =>
    match heap o with
    | .address (some t) => match heap t with | .name h => [(.names, h)] | _ => []
    | .group .network n _ => [(.group .network, n)]
    | .netObject n _ => [(.netObject, n)]
    | .netInterface n => [(.interface, n)]
    | _ => []
  | _ => []

/-- The macro `port` (static.jinja2:35-46). -/
def portLinks (heap : Oid → Obj) : El → List Link
  | .obj o => match heap o with | .group .port n _ => [(.group .port, n)] | _ => []
  | _ => []

/-- The macro `protocol` (static.jinja2:48-60). -/
def protoLinks (heap : Oid → Obj) : El → List Link
  | .obj o =>
    match heap o with
    | .group .protocol n _ => [(.group .protocol, n)]
    | .group .service n _ => [(.group .service, n)]
    | .svcObject n => [(.svcObject, n)]
    | _ => []
  | _ => []

/-- The macro `icmp` (static.jinja2:62-72). -/
def icmpLinks (heap : Oid → Obj) : El → List Link
  | .obj o => match heap o with | .group .icmp n _ => [(.group .icmp, n)] | _ => []
  | _ => []

/-- The macro `options` (static.jinja2:79-103). -/
def optionLinks (heap : Oid → Obj) : El → List Link
  | .obj o => match heap o with | .timeRange n => [(.time, n)] | _ => []
  | _ => []

/-- `obj.protocol.__class__.__name__ == 'Protocol' and obj.protocol.name == 'icmp'` (static.jinja2:858) -/
def isIcmp (heap : Oid → Obj) : El → Bool
  | .obj o => match heap o with | .protocol n => decide (n = "icmp") | _ => false
  | _ => false

/-- The links in the row of an object: of a rule (static.jinja2:850-864), of a NAT entry (729-738), of a member of a group
(408, 489-512, 556, 596, 638), of the addresses of a network object (361). -/
def links (heap : Oid → Obj) (o : Oid) : List Link :=
  match heap o with
  | .rule _ p sh sp dh dp ic os =>
    protoLinks heap p ++ hostLinks heap sh ++ portLinks heap sp ++ hostLinks heap dh ++
      (if isIcmp heap p then ic.toList.flatMap (icmpLinks heap) else portLinks heap dp) ++ os.flatMap (optionLinks heap)
  | .nat r m =>
    hostLinks heap r.iface ++ r.src.toList.flatMap (hostLinks heap) ++ r.dst.toList.flatMap (hostLinks heap) ++
      hostLinks heap m.iface ++ m.src.toList.flatMap (hostLinks heap) ++ m.dst.toList.flatMap (hostLinks heap)
  | .group .network _ l => l.flatMap (hostLinks heap)
  | .group .port _ l => l.flatMap (portLinks heap)
  | .group .icmp _ l => l.flatMap (icmpLinks heap)
  | .group .protocol _ l => l.flatMap (protoLinks heap)
  | .group .service _ l => l.flatMap fun x => (protoLinks heap x).filter fun k => k.1 = .svcObject || k.1 = .group .service
  | .netObject _ l => l.flatMap (hostLinks heap)
  | _ => []

/-- `protocol.name`; None when that is an AttributeError. -/
def protocolName (heap : Oid → Obj) : El → Option String
  | .obj q =>
    match heap q with
    | .protocol n => some n
    | .group _ n _ => some n
    | .svcObject n => some n
    | _ => none
  | _ => none

/-- An option value that is a `TimeRange`. -/
def isTimeRange (heap : Oid → Obj) : El → Bool
  | .obj q => match heap q with | .timeRange _ => true | _ => false
  | _ => false

/-- The objects as `resolve` sees them (the classes of aclObjects.py:1293-1350). -/
def info (heap : Oid → Obj) (o : Oid) : Info :=
  match heap o with
  | .address t => .host (t.map .obj)
  | .group c _ l => .group c.cls l
  | .netObject _ _ => .named "NetworkObject"
  | .svcObject _ => .named "ServiceObject"
  | .timeRange _ => .named "TimeRange"
  | .nat r m => .nat (some r) (some m)
  | .rule id p sh sp dh dp ic os => .rule ⟨p, protocolName heap p, sh, sp, dp, dh, id, ic, os.filter (isTimeRange heap)⟩
  | _ => .plain

/-! ## the option --sort of examples/render/static.py -/

/-- `key_of` of the classes of groups, with the order of the keys (`Sort`: `netKey`, `svcKey`, `portKey`, `protoKey`).  The key of a member
depends on its class, name, address and ports, never on the members of a group. -/
structure Keys where
  κ : GroupClass → Type
  dec : ∀ c, DecidableEq (κ c)
  key : ∀ c, El → Py (κ c)
  le : ∀ c, κ c → κ c → Bool

/-- The members of groups as the classes of `Sort`. -/
structure Members where
  net : Oid → Host
  port : Oid → GTree PortLeaf
  svc : Oid → GTree (SvcLeaf (GTree PortLeaf))
  proto : Oid → GTree Protocol

/-- The keys of service groups are tuples, all others integers. -/
def KeyType : GroupClass → Type
  | .service => SvcKey
  | _ => Int

/-- `key_of` of the four classes (aclObjects.py:299-309, 644-657, 715-730, 936-956); ICMP groups have none. -/
def classKeys (getserv : String → Option Nat) (M : Members) : Keys where
  κ := KeyType
  dec
    | .service => inferInstanceAs (DecidableEq SvcKey)
    | .network => inferInstanceAs (DecidableEq Int)
    | .port => inferInstanceAs (DecidableEq Int)
    | .icmp => inferInstanceAs (DecidableEq Int)
    | .protocol => inferInstanceAs (DecidableEq Int)
  key
    | .network, .obj o => netKey (M.net o)
    | .service, .obj o => svcKey getserv (M.svc o)
    | .port, .obj o => portKey getserv (M.port o)
    | .protocol, .obj o => protoKey (M.proto o)
    | _, _ => .error .value
  le
    | .service => svcLe
    | .network => intLe
    | .port => intLe
    | .icmp => intLe
    | .protocol => intLe

/-- `grp.sort()` (aclObjects.py:311-319, 659-667, 732-740, 958-966) of the group in that place.  (ICMP groups
have no `sort`, and are not sorted.) -/
def sortGroup (K : Keys) (heap : Oid → Obj) (o : Oid) : (Oid → Obj) × Py Unit :=
  match heap o with
  | .group c n l =>
    match pySorted (K.key c) (K.le c) l with
    | .error e => (heap, .error e)
    | .ok l' => (fun q => if q = o then .group c n l' else heap q, .ok ())
  | _ => (heap, .error .attribute)

/-- The loop over groups: the first exception ends it. -/
def sortGroups (K : Keys) : (Oid → Obj) → List Oid → (Oid → Obj) × Py Unit
  | heap, [] => (heap, .ok ())
  | heap, o :: t =>
    match sortGroup K heap o with
    | (heap', .error e) => (heap', .error e)
    | (heap', .ok _) => sortGroups K heap' t

/-- `--sort` (examples/render/static.py:53-57). -/
def sortAll (K : Keys) (heap : Oid → Obj) (tb : Tables) : (Oid → Obj) × Py Unit :=
  sortGroups K heap ([GroupClass.network, .service, .port, .protocol].flatMap fun c => dVals (tb.table (.group c)))

end Acltk.Page
