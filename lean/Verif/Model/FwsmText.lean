import Verif.Model.AclText
import Verif.Model.Summarize
import Verif.Model.Iface
import Verif.Model.Nat
/-!
# A whole FWSM/ASA configuration, from the text

`grammar = @:{command ~}+ $` (fwsm.bnf:4-7) with all its commands, the tables the parser fills while
reading (`_learn`, aclSemantics.py:520-533) and the items it returns.

NAT commands are read into the trees of Model/Nat.lean, which has their actions.  Simplification: the target a name
leaves in hosts and networks is not kept.  An action enters
its definition when the rule is complete, and no command can fail behind such a point, so a parse
that goes back never has learned anything.
-/
namespace Acltk.FwsmText
open Acltk Acltk.Lookup Acltk.Peg Acltk.AclText

/-! ## what definitions contain -/

/-- `Service`/`ServiceObject` (aclObjects.py:681-701). -/
structure Svc where
  protocol : String
  src : Option PortVal := none
  dst : Option PortVal := none
  icmpType : Option String := none
  icmpCode : Option String := none
  deriving DecidableEq, Repr

/-- A member of a service group: a service, or a service object or service group by identity. -/
inductive SvcMember where
  | svc (s : Svc)
  | obj (o : Nat)
  | group (o : Nat)
  deriving DecidableEq, Repr

/-- A member of a port group.  The number of a `Port` may be None. -/
inductive PortMember where
  | port (op : String) (num : Option String)
  | range (start stop : String)
  | group (o : Nat)
  deriving DecidableEq, Repr

/-- A member of an ICMP group: `ICMP(name, None)` or a group. -/
inductive IcmpMember where
  | icmp (type : String)
  | group (o : Nat)
  deriving DecidableEq, Repr

/-- A member of a protocol group. -/
inductive ProtoMember where
  | protocol (name : String)
  | group (o : Nat)
  deriving DecidableEq, Repr

/-- `datetime.time` -/
structure Time where
  hour : Nat
  minute : Nat
  deriving DecidableEq, Repr

/-- `datetime.datetime` -/
structure Date where
  time : Time
  day : Nat
  month : Nat
  year : Nat
  deriving DecidableEq, Repr

/-- `TimeRangeObjectAbsolute`, `TimeRangeObjectPeriodic` (aclObjects.py:988-1018). -/
inductive TimeObj where
  | absolute (start stop : Option Date)
  | periodic (days : List String) (start : Time) (endDay : Option String) (stop : Time)
  deriving DecidableEq, Repr

/-- One element of the parse result. -/
inductive Item where
  | version (s : List Char)
  | hostname (s : String)
  | domain (s : String)
  | iface (i : Ifc.Intf)
  | name (hostname : String) (address : Addr) (description : Option (List Char))
  | timeRange (o : Nat) (name : String) (objects : List TimeObj)
  | netObj (name : String) (addresses : List Host) (nat : Option NatCmd.Nat') (description : Option (List Char))
  | svcObj (o : Nat) (name : String) (s : Svc) (description : Option (List Char))
  | netGroup (name : String) (members : List Host) (description : Option (List Char))
  | portGroup (o : Nat) (name protocol : String) (members : List PortMember) (description : Option (List Char))
  | svcGroup (o : Nat) (name : String) (members : List SvcMember) (description : Option (List Char))
  | icmpGroup (o : Nat) (name : String) (members : List IcmpMember) (description : Option (List Char))
  | protoGroup (o : Nat) (name : String) (members : List ProtoMember) (description : Option (List Char))
  | rule (r : PRule)
  | remarks (l : List (List Char))
  | accessGroup (name direction iface : String)
  | nat (n : NatCmd.Nat')
  | nothing

/-- The parser's tables, the interfaces, the service objects defined, and the next identity. -/
structure St where
  env : Env
  ifaces : Dict String Ifc.Intf := []
  svcDefs : List (Nat × String × Svc) := []
  next : Nat := 0

/-! ## single lines -/

/-- `version` (fwsm.bnf:9-12): `/ASA Version [^\n]*/` or `/FWSM Version [^\n]*/`, then NL. -/
def version : P Item := do
  let v ← alt
    (pat (.seq (.chr 'A') (.seq (.chr 'S') (.seq (.chr 'A') (.seq (.chr ' ') (.seq (.chr 'V') (.seq (.chr 'e')
      (.seq (.chr 'r') (.seq (.chr 's') (.seq (.chr 'i') (.seq (.chr 'o') (.seq (.chr 'n') (.seq (.chr ' ')
        (.star (· != '\n')))))))))))))))
    (pat (.seq (.chr 'F') (.seq (.chr 'W') (.seq (.chr 'S') (.seq (.chr 'M') (.seq (.chr ' ') (.seq (.chr 'V')
      (.seq (.chr 'e') (.seq (.chr 'r') (.seq (.chr 's') (.seq (.chr 'i') (.seq (.chr 'o') (.seq (.chr 'n')
        (.seq (.chr ' ') (.star (· != '\n'))))))))))))))))
  nl
  pure (.version v)

/-- `hostname` (acl.bnf:13-15) -/
def hostname (g : Guard) : P Item := do
  let _ ← tok g "hostname"
  ws
  let h ← identifier
  nl
  pure (.hostname (String.ofList h))

/-- `domain_name` (acl.bnf:17-19): the line end is not part of it. -/
def domainName (g : Guard) : P Item := do
  let _ ← tok g "domain-name"
  ws
  let h ← identifier
  pure (.domain (String.ofList h))

/-- `/[^\n]+/` -/
def restOfLine : P (List Char) := pat (.plus (· != '\n'))

/-- `description` (acl.bnf:22-24) -/
def description (g : Guard) : P (List Char) := do
  let _ ← tok g "description"
  ws
  let d ← restOfLine
  nl
  pure d

/-- `[SP >description]` -/
def optDescription (g : Guard) : P (Option (List Char)) := opt (do
  sp
  description g)

/-- `name` (fwsm.bnf:41-43, fwsmSemantics.py:29-32): the name is entered directly. -/
def name (s : St) : P (Item × St) := do
  let _ ← tok s.env.guard "name"
  ws
  let a ← alt ip4 ip6
  ws
  let n ← identifier
  let d ← opt (do
    ws
    let _ ← tok s.env.guard "description"
    restOfLine)
  nl
  let n := String.ofList n
  pure (.name n a d, { s with env := { s.env with names := dSet s.env.names n a } })

/-- `"ip" WS "address"` and `"ipv6" WS "address"` -/
def addressKey (g : Guard) (fam : String) : P Unit := do
  let _ ← tok g fam
  ws
  let _ ← tok g "address"
  pure ()

/-- `interface_detail` (fwsm.bnf:31-38): the line it stands for; any other line is taken without type. -/
def interfaceDetail (g : Guard) : P Ifc.Line := alts
  [ do
      let _ ← tok g "description"
      ws
      let d ← toeol
      nl
      pure (.description (String.ofList d)),
    do
      let _ ← tok g "nameif"
      ws
      let n ← identifier
      let _ ← opt ws
      nl
      pure (.nameif (String.ofList n)),
    do
      addressKey g "ip"
      ws
      let a ← ip4
      ws
      let m ← ip4
      ws
      let _ ← tok g "standby"
      ws
      let _ ← ip4
      let _ ← opt ws
      nl
      pure (.ip (String.ofList a.text) (String.ofList m.text)),
    do
      addressKey g "ipv6"
      ws
      let a ← ip6
      slashP
      let p ← intP
      ws
      let _ ← tok g "standby"
      ws
      let _ ← ip6
      let _ ← opt ws
      nl
      pure (.ipv6 (String.ofList a.text) (some (String.ofList p))),
    do
      let _ ← opt (do
        let _ ← tok g "no"
        ws)
      let _ ← toeol
      nl
      pure .ignored,
    pure .ignored ]

/-- `{SP x}` -/
def indented {α : Type} (p : P α) : P (List α) := many (do
  sp
  p)

/-- `interface` (acl.bnf:27-34, aclSemantics.py:65-71): learned by alias and by nameif. -/
def interface (s : St) : P (Item × St) := do
  let _ ← tok s.env.guard "interface"
  ws
  let a ← stringP
  nl
  let l ← indented (interfaceDetail s.env.guard)
  let i ← act (Ifc.interfaceOf (String.ofList a) l)
  let d := dSet s.ifaces i.alias i
  let d := match i.nameif with
    | some n => dSet d n i
    | none => d
  pure (.iface i, { s with ifaces := d })

/-! ## time ranges -/

/-- `[0-9]{1,2}` with `int` -/
def twoDigits : P Nat := do
  let s ← pat (.seq (.cls Char.isDigit) (.optional (.cls Char.isDigit)))
  pure (Nat.ofDigitChars 10 s 0)

/-- `[0-9]{4}` with `int` -/
def fourDigits : P Nat := do
  let d := Re.cls Char.isDigit
  let s ← pat (.seq d (.seq d (.seq d d)))
  pure (Nat.ofDigitChars 10 s 0)

/-- `":"` -/
def colonP : P Unit := fun t =>
  match t with
  | ':' :: r => .ok () r
  | _ => .fail

/-- `hour:hour ":" minute:minute` (acl.bnf:420-430) -/
def clock : P Time := do
  let h ← twoDigits
  colonP
  let m ← twoDigits
  pure ⟨h, m⟩

/-- `datetime.time(hour, minute)` -/
def checkTime (t : Time) : Py Time := if t.hour < 24 ∧ t.minute < 60 then .ok t else .error .value

/-- `time` with its action (aclSemantics.py:106-107) -/
def time : P Time := do
  let t ← clock
  act (checkTime t)

/-- `day_of_the_week` (acl.bnf:461-469) -/
def weekdays : List String := ["Monday", "Tuesday", "Wednesday", "Thursday", "Friday", "Saturday", "Sunday"]

/-- `month` (acl.bnf:471-484) -/
def months : List String :=
  ["January", "February", "March", "April", "May", "June", "July", "August", "September", "October", "November",
   "December"]

/-- A leap year of the Gregorian calendar. -/
def leap (y : Nat) : Bool := y % 4 == 0 && (y % 100 != 0 || y % 400 == 0)

/-- The days of a month. -/
def daysIn (y m : Nat) : Nat :=
  if m = 2 then (if leap y then 29 else 28) else if m ∈ [4, 6, 9, 11] then 30 else 31

/-- `datetime.datetime(year, month, day, hour, minute)`: ValueError unless it is a date. -/
def checkDate (d : Date) : Py Date :=
  if 1 ≤ d.year ∧ d.year ≤ 9999 ∧ 1 ≤ d.month ∧ d.month ≤ 12 ∧ 1 ≤ d.day ∧ d.day ≤ daysIn d.year d.month ∧
      d.time.hour < 24 ∧ d.time.minute < 60 then .ok d else .error .value

/-- `timedate = >time WS >date` (acl.bnf:441-447) with its action (aclSemantics.py:109-110): the rule
`time` is included without its action. -/
def timedate (g : Guard) : P Date := do
  let t ← clock
  ws
  let d ← twoDigits
  ws
  let m ← oneOf g months
  ws
  let y ← fourDigits
  act (checkDate ⟨t, d, months.idxOf m + 1, y⟩)

/-- `time_range_object` (acl.bnf:449-454, aclSemantics.py:112-119); `no` gives None. -/
def timeRangeObject (g : Guard) : P (Option TimeObj) := alts
  [ do
      let _ ← tok g "periodic"
      ws
      let days ← many1 (oneOf g weekdays)
      ws
      let a ← time
      ws
      let _ ← tok g "to"
      ws
      let e ← opt (do
        let d ← oneOf g weekdays
        ws
        pure d)
      let b ← time
      nl
      pure (some (.periodic days a e b)),
    do
      let _ ← tok g "periodic"
      ws
      let d ← oneOf g ["weekdays", "weekend", "daily"]
      ws
      let a ← time
      ws
      let _ ← tok g "to"
      ws
      let b ← time
      nl
      pure (some (.periodic [d] a none b)),
    do
      let _ ← tok g "absolute"
      let a ← opt (do
        ws
        let _ ← tok g "start"
        ws
        timedate g)
      let b ← opt (do
        ws
        let _ ← tok g "end"
        ws
        timedate g)
      nl
      pure (some (.absolute a b)),
    do
      let _ ← tok g "no"
      ws
      let _ ← toeol
      nl
      pure none ]

/-- `for i in ast.objects: t.add(i)`: `add` refuses None (aclObjects.py:978-982, 241-245).  TatSu keeps a None
of the first round of a closure in the list and drops that of a later round (assumption; the test
`time_ranges` relies on the second part). -/
def addAll {α : Type} : List (Option α) → Py (List α)
  | [] => .ok []
  | none :: _ => .error .assertion
  | some a :: l => .ok (a :: l.filterMap id)

/-- `time_range` (acl.bnf:456-458, aclSemantics.py:121-126) -/
def timeRange (s : St) : P (Item × St) := do
  let _ ← tok s.env.guard "time-range"
  ws
  let n ← stringP
  nl
  let l ← indented (timeRangeObject s.env.guard)
  let l ← act (addAll l)
  let n := String.ofList n
  pure (.timeRange s.next n l,
    { s with env := { s.env with timeRanges := dSet s.env.timeRanges n s.next }, next := s.next + 1 })

/-! ## NAT lines -/

/-- `acl_interface_id`: a known interface (acl.bnf:147-149, aclSemantics.py:535-551). -/
def interfaceRef (s : St) : P Ifc.Intf := fun t =>
  match internalIds s.env.guard (keys s.ifaces) t with
  | some (n, r) =>
    match dGet s.ifaces n with
    | some i => .ok i r
    | none => .raise .key
  | none => .fail

/-- `"any"|acl_interface_id` (acl.bnf:282) with what `nat_interfaces` makes of it (aclSemantics.py:493-502): an
interface of this name without details, or the known interface. -/
def natIface (s : St) : P NatCmd.IfRef := alt
  (do
    let _ ← tok s.env.guard "any"
    pure ⟨"any", none⟩)
  (do
    let i ← interfaceRef s
    pure ⟨i.alias, i.nameif⟩)

/-- A single character. -/
def chr (c : Char) : P Unit := fun t =>
  match t with
  | d :: r => if d = c then .ok () r else .fail
  | [] => .fail

/-- `nat_interfaces` (acl.bnf:281-283, aclSemantics.py:493-502) -/
def natInterfaces (s : St) : P (NatCmd.IfRef × NatCmd.IfRef) := do
  chr '('
  let a ← natIface s
  chr ','
  let b ← natIface s
  chr ')'
  pure (a, b)

/-- `acl_object_network`, `acl_object_group_network` as words. -/
def netRef (s : St) : P Host := alt
  (refer s.env.guard wsOrNl s.env.netObjs)
  (refer s.env.guard wsOrNl s.env.netGroups)

/-- `nat_mapped_fallback` (acl.bnf:294-296, aclSemantics.py:490-491) -/
def fallback (g : Guard) : P NatCmd.Fallback := do
  let _ ← tok g "interface"
  let v6 ← opt (do
    ws
    tok g "ipv6")
  pure ⟨some none, v6.isSome⟩

/-- `[WS nat_mapped_fallback]` -/
def optFallback (g : Guard) : P (Option NatCmd.Fallback) := opt (do
  ws
  fallback g)

/-- `pat_pool` (acl.bnf:310-327): the range; its options are read over. -/
def patPool (s : St) : P Host := do
  let _ ← tok s.env.guard "pat-pool"
  ws
  let h ← alt (refer s.env.guard wsOrNl s.env.netGroups) (refer s.env.guard wsOrNl s.env.netObjs)
  let _ ← many (do
    ws
    alts
      [ do let _ ← tok s.env.guard "round-robin"; pure (),
        do let _ ← tok s.env.guard "extended"; pure (),
        do
          let _ ← tok s.env.guard "flat"
          let _ ← opt (do
            ws
            tok s.env.guard "include-reserve")
          pure () ])
  pure h

/-- `NetworkHost(address)` or `Network(address, mask)` (aclSemantics.py:417-421). -/
def mappedAddress (a : Addr) : Option (List Char) → Py Host
  | some m =>
    match mkNetwork a.text m with
    | .ok n => .ok (.net n)
    | .error e => .error e
  | none => .ok (.host a)

/-- `network_nat_mapped` (acl.bnf:285-292, aclSemantics.py:410-429): the mapped node and the fallback. -/
def natMapped (s : St) : P (NatCmd.Node' × Option NatCmd.Fallback) := alts
  [ do
      let h ← netRef s
      let f ← optFallback s.env.guard
      pure (.host h, f),
    do
      let a ← ip4
      let f ← optFallback s.env.guard
      pure (.host (.host a), f),
    do
      let a ← ip6
      let m ← opt (do
        slashP
        intP)
      let h ← act (mappedAddress a m)
      let f ← optFallback s.env.guard
      pure (.host h, f),
    do
      let _ ← fallback s.env.guard
      pure (.interface, none),
    do
      let h ← patPool s
      let f ← optFallback s.env.guard
      pure (.host h, f) ]

/-- `network_object_nat_service` (acl.bnf:304-307, aclSemantics.py:484-488) -/
def objectNatService (g : Guard) : P NatCmd.ObjService := alt
  (do
    let _ ← tok g "service"
    ws
    let p ← oneOf g ["tcp", "udp"]
    ws
    let a ← port g
    ws
    let b ← port g
    pure (.service p a b))
  (do
    let _ ← tok g "dns"
    pure .dns)

/-- `"nat" WS iface:nat_interfaces WS type:… WS mapped:network_nat_mapped`, the beginning of both alternatives of
`network_object_nat` (acl.bnf:276-279). -/
def objectNatHead (s : St) (ty : String) : P ((NatCmd.IfRef × NatCmd.IfRef) × NatCmd.Node' × Option NatCmd.Fallback) := do
  let _ ← tok s.env.guard "nat"
  ws
  let i ← natInterfaces s
  ws
  let _ ← tok s.env.guard ty
  ws
  let m ← natMapped s
  pure (i, m)

/-- `options:{WS network_object_nat_options}* [WS] NL` (acl.bnf:276-279, 298-302) -/
def objectNatTail (g : Guard) : P (List String) := do
  let l ← many (do
    ws
    oneOf g ["route-lookup", "no-proxy-arp", "dns"])
  let _ ← opt ws
  nl
  pure l

/-- `network_object_nat` (acl.bnf:276-279): the tree its action gets. -/
def objectNat (s : St) : P NatCmd.ObjNat := alt
  (do
    let (i, m) ← objectNatHead s "dynamic"
    let l ← objectNatTail s.env.guard
    pure { real := i.1, mapped := i.2, type := "dynamic", node := m.1, fallback := m.2, service := none, options := l })
  (do
    let (i, m) ← objectNatHead s "static"
    let v ← opt (do
      ws
      objectNatService s.env.guard)
    let l ← objectNatTail s.env.guard
    pure { real := i.1, mapped := i.2, type := "static", node := m.1, fallback := m.2, service := v, options := l })

/-- `nat_mapped_node` (fwsm.bnf:172-177) with the choice of `nat_src` and `nat_dst` (fwsmSemantics.py:166-202); a fallback
is not kept. -/
def mappedNode (s : St) : P NatCmd.Node' := alts
  [ do
      let h ← netRef s
      pure (.host h),
    do
      let _ ← fallback s.env.guard
      pure .interface,
    do
      let _ ← tok s.env.guard "any"
      pure (.host .any) ]

/-- `nat_mapped_src_dynamic_node` (fwsm.bnf:179-184) with the choice of `nat_src` (fwsmSemantics.py:166-184) -/
def mappedDynamic (s : St) : P (NatCmd.Node' × Option NatCmd.Fallback) := alts
  [ do
      let h ← netRef s
      let f ← optFallback s.env.guard
      pure (.host h, f),
    do
      let _ ← fallback s.env.guard
      pure (.interface, none),
    do
      let h ← patPool s
      let f ← optFallback s.env.guard
      pure (.host h, f) ]

/-- `nat_real_node` (fwsm.bnf:186-190, fwsmSemantics.py:158-164): a reference followed by WS. -/
def realNode (s : St) : P NatCmd.Node' := alts
  [ do
      ahead (do
        let _ ← refer s.env.guard wsOrNl s.env.netObjs
        ws)
      let h ← refer s.env.guard wsOrNl s.env.netObjs
      pure (.host h),
    do
      ahead (do
        let _ ← refer s.env.guard wsOrNl s.env.netGroups
        ws)
      let h ← refer s.env.guard wsOrNl s.env.netGroups
      pure (.host h),
    do
      let _ ← tok s.env.guard "any"
      pure (.host .any) ]

/-- `nat_src` (fwsm.bnf:192-195, fwsmSemantics.py:166-184) -/
def natSrc (s : St) : P NatCmd.SrcSpec := alt
  (do
    let _ ← tok s.env.guard "source"
    ws
    let ty ← tok s.env.guard "dynamic"
    ws
    let r ← realNode s
    ws
    let m ← mappedDynamic s
    pure ⟨ty, r, m.1, m.2⟩)
  (do
    let _ ← tok s.env.guard "source"
    ws
    let ty ← tok s.env.guard "static"
    ws
    let r ← realNode s
    ws
    let m ← mappedNode s
    pure ⟨ty, r, m, none⟩)

/-- `nat_dst` (fwsm.bnf:197-199, fwsmSemantics.py:186-202): real and mapped node. -/
def natDst (s : St) : P (NatCmd.Node' × NatCmd.Node') := do
  let _ ← tok s.env.guard "destination"
  ws
  let _ ← tok s.env.guard "static"
  ws
  let m ← mappedNode s
  ws
  let r ← netRef s
  pure (.host r, m)

/-- `nat_options` (fwsm.bnf:209-217) -/
def natOption (g : Guard) : P (String × Option String) := alts
  [ do
      let k ← oneOf g ["net-to-net", "dns", "unidirectional", "no-proxy-arp", "inactive"]
      pure (k, none),
    do
      let k ← tok g "description"
      ws
      let d ← toeol
      pure (k, some (String.ofList d)),
    do
      let k ← tok g "route-lookup"
      pure (k, none) ]

/-- The service object behind an identity (`self.parser.service_objects`). -/
def svcObject (s : St) (o : Nat) : NatCmd.Svc :=
  match s.svcDefs.find? (fun p => p.1 == o) with
  | some (_, n, v) => { name := some n, protocol := v.protocol, src := v.src.map .cond, dst := v.dst.map .cond,
                        icmpType := v.icmpType, icmpCode := v.icmpCode }
  | none => { protocol := "", src := none, dst := none }

/-- What the action `nat` returns (fwsmSemantics.py:92-93, 145-152): the entry or None. -/
def natItem : Option NatCmd.Nat' → Item
  | some n => .nat n
  | none => .nothing

/-- `nat` (fwsm.bnf:167-170, fwsmSemantics.py:85-156): the PIX form gives None and leaves the line end. -/
def nat (s : St) : P Item := alt
  (do
    let _ ← tok s.env.guard "nat"
    ws
    let i ← natInterfaces s
    let pos ← opt (do
      ws
      let _ ← tok s.env.guard "after-"
      let _ ← oneOf s.env.guard ["object", "auto"]
      let _ ← opt (do
        ws
        intP)
      pure ())
    ws
    let src ← natSrc s
    let dst ← opt (do
      ws
      natDst s)
    let sv ← opt (do
      ws
      let _ ← tok s.env.guard "service"
      ws
      let a ← refer s.env.guard wsOrNl s.env.svcObjs
      ws
      let b ← refer s.env.guard wsOrNl s.env.svcObjs
      pure (svcObject s a, svcObject s b))
    let l ← many (do
      ws
      natOption s.env.guard)
    let _ ← opt ws
    nl
    let n ← act (NatCmd.twiceNat { iface := some i, pos := pos.isSome, src := src, dst := dst, service := sv, options := l })
    pure (natItem n))
  (do
    let _ ← tok s.env.guard "nat"
    ws
    chr '('
    let _ ← interfaceRef s
    chr ')'
    let _ ← toeol
    pure .nothing)

/-! ## objects -/

/-- `network_object` (acl.bnf:225-233) without its NAT alternative: the arguments. -/
def networkArgs (g : Guard) : P ObjArgs := alts
  [ do
      let _ ← tok g "host"
      ws
      let a ← alt ip4 ip6
      nl
      pure (.host a.text),
    do
      let _ ← tok g "subnet"
      ws
      let a ← ip4
      ws
      let m ← ip4
      nl
      pure (.subnet a.text m.text),
    do
      let _ ← tok g "subnet"
      ws
      let a ← ip6
      slashP
      let m ← intP
      nl
      pure (.subnet a.text m),
    do
      let _ ← tok g "range"
      ws
      let a ← ip4
      ws
      let b ← ip4
      nl
      pure (.range a.text b.text),
    do
      let _ ← tok g "range"
      ws
      let a ← ip6
      ws
      let b ← ip6
      nl
      pure (.range a.text b.text),
    do
      let _ ← tok g "fqdn"
      ws
      let l ← opt (do
        let l ← oneOf g ["v4", "v6"]
        ws
        pure l)
      let _ ← stringP
      nl
      pure (.fqdn l) ]

/-- `object network` (acl.bnf:220-221, aclSemantics.py:128-159): the object is entered only if the name is
new. -/
def objectNetwork (s : St) : P (Item × St) := do
  let g := s.env.guard
  let _ ← tok g "network"
  ws
  let n ← objName
  let args ← opt (do
    nl
    sp
    alt (do
        let a ← networkArgs g
        pure (a, none))
      (do
        let n ← objectNat s
        pure (ObjArgs.nat, some n)))
  let nt ← opt (do
    sp
    objectNat s)
  let d ← optDescription g
  let l ← act (objAddresses (match args with
    | some (a, _) => a
    | none => .empty))
  let n := String.ofList n
  let nat := match args with
    | some (_, some x) => some x
    | _ => nt
  let e' := if (dGet s.env.netObjs n).isSome then s.env
    else { s.env with netObjs := dSet s.env.netObjs n (.obj n l) }
  pure (.netObj n l (NatCmd.objectType ⟨n, some l, nat⟩).2 d, { s with env := e' })

/-- `service_object_op` (acl.bnf:337-340, aclSemantics.py:278-282) -/
def serviceOp (g : Guard) : P PortVal := alt
  (do
    let op ← oneOf g ["lt", "gt", "eq", "neq"]
    ws
    let p ← port g
    pure (.port op p))
  (do
    let _ ← tok g "range"
    ws
    let a ← port g
    ws
    let b ← port g
    let _ ← act (mkPortRange a b)
    pure (.range a b))

/-- `service_object_source` and `service_object_destination` (acl.bnf:342-350) -/
def serviceSide (g : Guard) (key : String) : P (Option PortVal) := alt
  (do
    let _ ← tok g key
    ws
    let p ← serviceOp g
    pure (some p))
  (pure none)

/-- `[WS icmp_type [WS icmp_code_int]]` -/
def icmpPart (g : Guard) : P (Option (String × Option String)) := opt (do
  ws
  let t ← icmpType g
  let c ← opt (do
    ws
    let c ← intP
    let n ← act (icmpCodeInt c)
    pure (String.ofList n))
  pure (t, c))

/-- `protocol:protocol_icmp [...]` of a service. -/
def svcIcmp (g : Guard) : P Svc := do
  let p ← oneOf g ["icmp", "icmp6"]
  let i ← icmpPart g
  pure { protocol := p, icmpType := i.map (·.1), icmpCode := i.bind (·.2) }

/-- `protocol:protocol_tcp_udp [WS] src [WS] dst [WS]` of a service. -/
def svcPorts (g : Guard) : P Svc := do
  let p ← oneOf g ["tcp-udp", "tcp", "udp"]
  let _ ← opt ws
  let a ← serviceSide g "source"
  let _ ← opt ws
  let b ← serviceSide g "destination"
  let _ ← opt ws
  pure { protocol := p, src := a, dst := b }

/-- `protocol_int` (aclSemantics.py:218-220) -/
def protocolNumber : P String := do
  let s ← intP
  let n ← act (protocolInt s)
  pure (String.ofList n)

/-- `service_object` (acl.bnf:331-335): a protocol name other than icmp, icmp6, tcp, udp, tcp-udp is not
known. -/
def serviceArgs (g : Guard) : P Svc := alts
  [ do
      let _ ← tok g "service"
      ws
      let s ← svcIcmp g
      nl
      pure s,
    do
      let _ ← tok g "service"
      ws
      let s ← svcPorts g
      nl
      pure s,
    do
      let _ ← tok g "service"
      ws
      let p ← protocolNumber
      nl
      pure { protocol := p } ]

/-- `object service` (acl.bnf:222, aclSemantics.py:128-159): without arguments `Service.__init__` raises. -/
def objectService (s : St) : P (Item × St) := do
  let g := s.env.guard
  let _ ← tok g "service"
  ws
  let n ← objName
  let args ← opt (do
    nl
    sp
    serviceArgs g)
  let d ← optDescription g
  let v ← act (match args with
    | some v => (.ok v : Py Svc)
    | none => .error .assertion)
  let n := String.ofList n
  let e' := if (dGet s.env.svcObjs n).isSome then s.env
    else { s.env with svcObjs := dSet s.env.svcObjs n s.next }
  pure (.svcObj s.next n v d, { s with env := e', svcDefs := s.svcDefs ++ [(s.next, n, v)], next := s.next + 1 })

/-- `object` (acl.bnf:216-218) -/
def object (s : St) : P (Item × St) := do
  let _ ← tok s.env.guard "object"
  ws
  alt (objectNetwork s) (objectService s)

/-! ## groups -/

/-- `network_group_object` (acl.bnf:393-400, aclSemantics.py:234-253); a line of no known form raises. -/
def networkMember (e : Env) : P Host := alts
  [ do
      let _ ← tok e.guard "network-object"
      ws
      let _ ← tok e.guard "host"
      ws
      let a ← alts [nameWs e, ip4, ip6]
      nl
      pure (.host a),
    do
      let _ ← tok e.guard "network-object"
      ws
      let _ ← tok e.guard "object"
      ws
      let h ← refer e.guard wsOrNl e.netObjs
      nl
      pure h,
    do
      let _ ← tok e.guard "network-object"
      ws
      let a ← alt (nameWs e) ip4
      ws
      let m ← ip4
      nl
      let n ← act (mkNetwork a.text m.text)
      pure (.net n),
    do
      let _ ← tok e.guard "network-object"
      ws
      let a ← alt (nameSlash e) ip6
      slashP
      let m ← intP
      nl
      let n ← act (mkNetwork a.text m)
      pure (.net n),
    do
      let _ ← tok e.guard "group-object"
      ws
      let h ← refer e.guard wsOrNl e.netGroups
      nl
      pure h,
    act (.error .assertion) ]

/-- `port_group_object` (acl.bnf:386-391, aclSemantics.py:284-292): `port-object eq` does not keep the
port; a line of no known form gives None, which `add` refuses in the first
place (`addAll`). -/
def portMember (e : Env) : P (Option PortMember) := alts
  [ do
      let _ ← tok e.guard "port-object"
      ws
      let _ ← tok e.guard "eq"
      ws
      let _ ← port e.guard
      nl
      pure (some (.port "eq" none)),
    do
      let _ ← tok e.guard "port-object"
      ws
      let _ ← tok e.guard "range"
      ws
      let a ← port e.guard
      ws
      let b ← port e.guard
      nl
      let _ ← act (mkPortRange a b)
      pure (some (.range a b)),
    do
      let _ ← tok e.guard "group-object"
      ws
      let o ← refer e.guard wsOrNl e.portGroups
      nl
      pure (some (.group o)),
    pure none ]

/-- `service_group_object` (acl.bnf:377-384, aclSemantics.py:253-267); a line of no known form raises. -/
def serviceMember (e : Env) : P SvcMember := alts
  [ do
      let _ ← tok e.guard "service-object"
      ws
      let s ← svcIcmp e.guard
      let _ ← opt ws
      nl
      pure (.svc s),
    do
      let _ ← tok e.guard "service-object"
      ws
      let s ← svcPorts e.guard
      nl
      pure (.svc s),
    do
      let _ ← tok e.guard "service-object"
      ws
      let p ← alt (oneOf e.guard protocolCodes) protocolNumber
      let _ ← opt ws
      nl
      pure (.svc { protocol := p }),
    do
      let _ ← tok e.guard "service-object"
      ws
      let _ ← tok e.guard "object"
      ws
      let o ← refer e.guard wsOrNl e.svcObjs
      let _ ← opt ws
      nl
      pure (.obj o),
    do
      let _ ← tok e.guard "group-object"
      ws
      let o ← refer e.guard wsOrNl e.svcGroups
      let _ ← opt ws
      nl
      pure (.group o),
    act (.error .assertion) ]

/-- `icmp_group_object` (acl.bnf:402-406, aclSemantics.py:301-306) -/
def icmpMember (e : Env) : P IcmpMember := alts
  [ do
      let _ ← tok e.guard "icmp-object"
      ws
      let t ← icmpType e.guard
      nl
      pure (.icmp t),
    do
      let _ ← tok e.guard "group-object"
      ws
      let o ← refer e.guard wsOrNl e.icmpGroups
      nl
      pure (.group o),
    act (.error .assertion) ]

/-- `protocol_group_object` (acl.bnf:409-413, aclSemantics.py:294-299): any name is taken. -/
def protocolMember (e : Env) : P ProtoMember := alts
  [ do
      let _ ← tok e.guard "protocol-object"
      ws
      let n ← objName
      nl
      pure (.protocol (String.ofList n)),
    do
      let _ ← tok e.guard "group-object"
      ws
      let o ← refer e.guard wsOrNl e.protoGroups
      nl
      pure (.group o),
    act (.error .assertion) ]

/-- `WS name [WS] NL [SP >description] objects:{SP member}` behind the type of a group. -/
def groupBody {α : Type} (g : Guard) (member : P α) : P (String × Option (List Char) × List α) := do
  ws
  let n ← objName
  let _ ← opt ws
  nl
  let d ← optDescription g
  let l ← indented member
  pure (String.ofList n, d, l)

/-- `object_group_type` (acl.bnf:367-375, aclSemantics.py:165-196): the alternatives in their order. -/
def objectGroupType (s : St) : P (Item × St) :=
  let e := s.env
  let g := e.guard
  alts
  [ do
      let _ ← tok g "network"
      let (n, d, l) ← groupBody g (networkMember e)
      pure (.netGroup n l d, { s with env := { e with netGroups := dSet e.netGroups n (.group n l) } }),
    do
      let _ ← tok g "service"
      ws
      let n ← objName
      ws
      let p ← oneOf g ["tcp-udp", "tcp", "udp"]
      let _ ← opt ws
      nl
      let d ← optDescription g
      let l ← indented (portMember e)
      let l ← act (addAll l)
      let n := String.ofList n
      pure (.portGroup s.next n p l d,
        { s with env := { e with portGroups := dSet e.portGroups n s.next }, next := s.next + 1 }),
    do
      let _ ← tok g "service"
      let (n, d, l) ← groupBody g (serviceMember e)
      pure (.svcGroup s.next n l d,
        { s with env := { e with svcGroups := dSet e.svcGroups n s.next }, next := s.next + 1 }),
    do
      let _ ← tok g "icmp-type"
      let (n, d, l) ← groupBody g (icmpMember e)
      pure (.icmpGroup s.next n l d,
        { s with env := { e with icmpGroups := dSet e.icmpGroups n s.next }, next := s.next + 1 }),
    do
      let _ ← tok g "protocol"
      let (n, d, l) ← groupBody g (protocolMember e)
      pure (.protoGroup s.next n l d,
        { s with env := { e with protoGroups := dSet e.protoGroups n s.next }, next := s.next + 1 }) ]

/-- `object_group` (acl.bnf:352-354) -/
def objectGroup (s : St) : P (Item × St) := do
  let _ ← tok s.env.guard "object-group"
  ws
  objectGroupType s

/-! ## the other commands -/

/-- `access_group` (fwsm.bnf:86-89, fwsmSemantics.py:78-83): the global form gives None. -/
def accessGroup (g : Guard) : P Item := alt
  (do
    let _ ← tok g "access-group"
    ws
    let n ← objName
    ws
    let d ← objName
    ws
    let _ ← tok g "interface"
    ws
    let i ← objName
    let _ ← opt ws
    nl
    pure (.accessGroup (String.ofList n) (String.ofList d) (String.ofList i)))
  (do
    let _ ← tok g "access-group"
    ws
    let _ ← objName
    ws
    let _ ← tok g "global"
    let _ ← opt ws
    nl
    pure .nothing)

/-- How an ignored command goes on behind its keyword. -/
inductive Tail where
  | ws          -- `WS TOEOL NL`
  | eol         -- `TOEOL NL`
  | optWs       -- `[WS TOEOL] NL`
  | bare        -- `NL`
  | wsIndent    -- `WS TOEOL NL ignored_indent`
  | eolIndent   -- `TOEOL NL ignored_indent`
  deriving DecidableEq, Repr

/-- `ignored` (fwsm.bnf:223-315): keyword and form, in the order of the grammar.  `[WS] TOEOL` is the same as
`TOEOL`. -/
def ignoredList : List (String × Tail) :=
  [(":", .eol), ("!", .eol), ("aaa-server", .wsIndent), ("aaa", .ws), ("app-agent", .eol), ("arp-inspection", .ws),
   ("arp", .ws), ("asdm", .ws), ("auth-prompt", .ws), ("boot", .eol), ("call-home", .eolIndent), ("class-map", .wsIndent),
   ("clock", .eol), ("console", .ws), ("command-alias", .eol), ("Cryptochecksum:", .eol), ("crypto", .wsIndent),
   ("dhcpd", .ws), ("dhcprelay", .ws), ("dns-guard", .eol), ("dns", .eolIndent),
   ("dynamic-access-policy-record", .wsIndent), ("enable", .eol), ("eou", .ws), ("established", .ws), ("failover", .optWs),
   ("firewall", .eol), ("flow-export", .eol), ("fragment", .eol), ("ftp", .eol), ("global", .ws),
   ("group-policy", .wsIndent), ("hpm", .eol), ("http", .ws), ("icmp", .ws), ("ipv6", .ws), ("ip", .ws),
   ("license", .wsIndent), ("ldap", .wsIndent), ("logging", .ws), ("mac-address-table", .eol), ("mac-address", .eol),
   ("management-access", .eol), ("monitor-interface", .ws), ("mtu", .ws), ("multicast-routing", .eol),
   ("nac-policy", .eolIndent), ("names", .bare), ("nat-control", .eol), ("no", .eol), ("ntp", .ws), ("pager", .ws),
   ("passwd", .eol), ("password-policy", .ws), ("policy-map", .wsIndent), ("privilege", .ws), ("prompt", .ws),
   ("resource", .eol), ("router", .wsIndent), ("route", .ws), ("same-security-traffic", .eol), ("service-module", .ws),
   ("service-policy", .ws), ("service", .ws), ("sla", .wsIndent), ("snmp-map", .wsIndent), ("snmp-server", .ws),
   ("smtp-server", .ws), ("ssh", .wsIndent), ("ssl", .ws), ("static", .ws), ("sysopt", .ws), ("tcp-map", .wsIndent),
   ("telnet", .ws), ("terminal", .ws), ("tftp-server", .ws), ("threat-detection", .ws), ("timeout", .ws),
   ("tls-proxy", .ws), ("tunnel-group-map", .ws), ("tunnel-group", .wsIndent), ("user-identity", .ws),
   ("username", .wsIndent), ("url-cache", .ws), ("virtual", .eol), ("vpdn", .eol), ("vpn-group-policy", .eol),
   ("vpn", .eolIndent), ("webvpn", .eolIndent), ("xlate-bypass", .eol), ("xlate", .ws)]

/-- `ignored_indent = {[NL] /^ [^\n]*/ NL}*` (fwsm.bnf:219-221).  The position is always at the beginning of a
line, so `^` holds there. -/
def ignoredIndent : P Unit := do
  let _ ← many (do
    let _ ← opt nl
    sp
    let _ ← toeol
    nl)
  pure ()

/-- What follows the keyword. -/
def tail : Tail → P Unit
  | .ws => do
    ws
    let _ ← toeol
    nl
  | .eol => do
    let _ ← toeol
    nl
  | .optWs => do
    let _ ← opt (do
      ws
      toeol)
    nl
  | .bare => nl
  | .wsIndent => do
    ws
    let _ ← toeol
    nl
    ignoredIndent
  | .eolIndent => do
    let _ ← toeol
    nl
    ignoredIndent

/-- `ignored` (fwsm.bnf:223-315) -/
def ignored (g : Guard) : P Item := alts (ignoredList.map (fun kt => do
  let _ ← tok g kt.1
  tail kt.2
  pure .nothing))

/-- A rule that learns nothing. -/
def keep (s : St) (p : P Item) : P (Item × St) := do
  let i ← p
  pure (i, s)

/-- `command` (fwsm.bnf:14-29) -/
def command (s : St) : P (Item × St) :=
  let e := s.env
  let g := e.guard
  alts
  [ keep s version,
    keep s (hostname g),
    keep s (domainName g),
    interface s,
    name s,
    timeRange s,
    object s,
    objectGroup s,
    keep s (do
      let r ← accessList e
      pure (match r with
        | some r => .rule r
        | none => .nothing)),
    keep s (do
      let l ← many1 (remarkLine e)
      pure (.remarks l)),
    keep s (accessGroup g),
    keep s (nat s),
    keep s (ignored g),
    keep s (do
      nl
      pure .nothing) ]

/-- `{command ~}+`: a command that does not move ends the closure. -/
def commands (s : St) (t : Text) : Res (List Item × St) :=
  match command s t with
  | .ok (i, s') r =>
    if r.length < t.length then
      match commands s' r with
      | .ok (l, s'') u => .ok (i :: l, s'') u
      | .fail => .fail
      | .raise e => .raise e
    else .ok ([], s) t
  | .fail => .ok ([], s) t
  | .raise e => .raise e
termination_by t.length

/-- `grammar = @:{command ~}+ $` (fwsm.bnf:4-7) of a new parser: at least one command, and the end of the
text. -/
def parseFile (g : Guard) (t : Text) : Res (List Item) :=
  match commands { env := { guard := g } } t with
  | .ok (l, _) [] => if l.isEmpty then .fail else .ok l []
  | .ok _ _ => .fail
  | .fail => .fail
  | .raise e => .raise e

end Acltk.FwsmText
