import Verif.Model.FwsmText
import Verif.Model.IosHost
import Verif.Model.Banner
import Verif.Model.Config
/-!
# A whole IOS configuration, from the text

`grammar = @:{command ~}+ ("line"|"end"|$)` (ios.bnf:24-27) with all its commands and the semantic actions of
iosSemantics.py; the rules it shares with the FWSM/ASA grammar (acl.bnf) are those of Model/AclText.lean and
Model/FwsmText.lean.

Simplification: as there, the target a name leaves in hosts and networks is not kept.
-/
namespace Acltk.IosText
open Acltk Acltk.Lookup Acltk.Peg Acltk.AclText
open Acltk.FwsmText (St Svc SvcMember hostname domainName indented groupBody optDescription portMember icmpMember
  protocolMember addAll svcIcmp svcPorts protocolNumber interfaceRef chr)

/-- `ACLRule` (aclObjects.py:1067-1101) as the IOS parser builds it.  The options are a dictionary of texts or None
(iosSemantics.py:185-206); `seq` of a named list is not kept by the constructor. -/
structure IRule where
  id : String
  extended : Option String := none
  mode : String
  protocol : Proto
  src : PNode
  dst : PNode
  remark : List (List Char) := []
  options : Dict String (Option String) := []
  icmp : Option IcmpVal := none

/-- The gateway of a route: an interface or an address (iosObjects.py:8-18). -/
inductive Gateway where
  | iface (i : Ifc.Intf)
  | addr (a : Addr)
  deriving DecidableEq, Repr

/-- `Route` (iosObjects.py:8-18) -/
structure Route where
  net : Net
  gw : Gateway
  deriving DecidableEq, Repr

/-- One element of the parse result. -/
inductive Item where
  | base (i : FwsmText.Item)
  | rule (r : IRule)
  | rules (l : List IRule)
  | route (r : Route)

/-! ## object groups -/

/-- `network_group_object` (ios.bnf:4-12, aclSemantics.py:234-253): a range raises ValueError, a line of no known form
AssertionError. -/
def networkMember (e : Env) : P Host := alts
  [ do
      let _ ← tok e.guard "host"
      ws
      let a ← alts [nameWs e, ip4, ip6]
      let _ ← opt ws
      nl
      pure (.host a),
    do
      let _ ← tok e.guard "range"
      ws
      let _ ← alts [nameWs e, ip4, ip6]
      ws
      let _ ← alts [nameWs e, ip4, ip6]
      let _ ← opt ws
      nl
      act (.error .value),
    do
      let a ← alt (nameWs e) ip4
      ws
      let m ← ip4
      let _ ← opt ws
      nl
      let n ← act (mkNetwork a.text m.text)
      pure (.net n),
    do
      let a ← alt (nameSlash e) ip6
      slashP
      let m ← intP
      let _ ← opt ws
      nl
      let n ← act (mkNetwork a.text m)
      pure (.net n),
    do
      let _ ← tok e.guard "group-object"
      ws
      let h ← refer e.guard wsOrNl e.netGroups
      nl
      pure h,
    act (.error .assertion) ]

/-- `service_group_object` (ios.bnf:14-21, aclSemantics.py:255-267) -/
def serviceMember (e : Env) : P SvcMember := alts
  [ do
      let s ← svcIcmp e.guard
      let _ ← opt ws
      nl
      pure (.svc s),
    do
      let s ← svcPorts e.guard
      nl
      pure (.svc s),
    do
      let p ← alt (oneOf e.guard protocolCodes) protocolNumber
      let _ ← opt ws
      nl
      pure (.svc { protocol := p }),
    do
      let _ ← tok e.guard "group-object"
      ws
      let o ← refer e.guard wsOrNl e.svcGroups
      let _ ← opt ws
      nl
      pure (.group o),
    act (.error .assertion) ]

/-- `object_group_type` (acl.bnf:367-375, aclSemantics.py:165-196) with the members of IOS. -/
def objectGroupType (s : St) : P (FwsmText.Item × St) :=
  let e := s.env
  let g := e.guard
  alts
  [ do
      let _ ← tok g "network"
      let (n, d, l) ← groupBody g (networkMember e)
      pure (.netGroup n l d, { s with env := { e with netGroups := dSet e.netGroups n (.group n l) } }),
    do
      let _ ← tok g "service"
      ws
      let n ← objName
      ws
      let p ← oneOf g ["tcp-udp", "tcp", "udp"]
      let _ ← opt ws
      nl
      let d ← optDescription g
      let l ← indented (portMember e)
      let l ← act (addAll l)
      let n := String.ofList n
      pure (.portGroup s.next n p l d,
        { s with env := { e with portGroups := dSet e.portGroups n s.next }, next := s.next + 1 }),
    do
      let _ ← tok g "service"
      let (n, d, l) ← groupBody g (serviceMember e)
      pure (.svcGroup s.next n l d,
        { s with env := { e with svcGroups := dSet e.svcGroups n s.next }, next := s.next + 1 }),
    do
      let _ ← tok g "icmp-type"
      let (n, d, l) ← groupBody g (icmpMember e)
      pure (.icmpGroup s.next n l d,
        { s with env := { e with icmpGroups := dSet e.icmpGroups n s.next }, next := s.next + 1 }),
    do
      let _ ← tok g "protocol"
      let (n, d, l) ← groupBody g (protocolMember e)
      pure (.protoGroup s.next n l d,
        { s with env := { e with protoGroups := dSet e.protoGroups n s.next }, next := s.next + 1 }) ]

/-- `object_group` (acl.bnf:352-354) -/
def objectGroup (s : St) : P (Item × St) := do
  let _ ← tok s.env.guard "object-group"
  ws
  let (i, s') ← objectGroupType s
  pure (.base i, s')

/-! ## interfaces -/

/-- `vlan` (ios.bnf:310-313, iosSemantics.py:219-223) -/
def vlan : P Ifc.Vlan := alt
  (do
    let a ← intP
    chr '-'
    let b ← intP
    pure (.range (String.ofList a) (String.ofList b)))
  (do
    let a ← intP
    pure (.one (String.ofList a)))

/-- `vlan_list = ",".{vlan}+` (ios.bnf:315-317) -/
def vlanList : P (List Ifc.Vlan) := do
  let v ← vlan
  let l ← (many (do
    chr ','
    vlan) : P (List Ifc.Vlan))
  pure (v :: l)

/-- `switchport_cmd` (ios.bnf:305-327) -/
def switchport (g : Guard) : P Ifc.Switch := alt
  (do
    let _ ← tok g "mode"
    ws
    let m ← oneOf g ["access", "trunk"]
    let _ ← toeol
    pure (.mode m))
  (do
    let _ ← tok g "trunk"
    ws
    let _ ← tok g "allowed"
    ws
    let _ ← tok g "vlan"
    ws
    let c ← alt
      (do
        let _ ← tok g "add"
        ws
        let l ← vlanList
        pure (Ifc.Switch.trunkAdd l))
      (do
        let l ← vlanList
        pure (.trunkSet l))
    let _ ← toeol
    pure c)

/-- `"ip" WS "address"` and the like. -/
def twoWords (g : Guard) (a b : String) : P Unit := do
  let _ ← tok g a
  ws
  let _ ← tok g b
  pure ()

/-- `obj_name WS ("in"|"out")` -/
def nameDir (g : Guard) : P (String × String) := do
  let n ← objName
  ws
  let d ← oneOf g ["in", "out"]
  pure (String.ofList n, d)

/-- `interface_detail` (ios.bnf:45-54) -/
def interfaceDetail (g : Guard) : P Ifc.Line := alts
  [ do
      let _ ← tok g "description"
      ws
      let d ← toeol
      nl
      pure (.description (String.ofList d)),
    do
      twoWords g "ip" "address"
      ws
      let a ← ip4
      ws
      let m ← ip4
      let _ ← opt (do
        ws
        tok g "secondary")
      let _ ← opt ws
      nl
      pure (.ip (String.ofList a.text) (String.ofList m.text)),
    do
      twoWords g "ip" "access-group"
      ws
      let nd ← nameDir g
      let _ ← opt ws
      nl
      pure (.ipAccessGroup nd.1 nd.2),
    do
      twoWords g "ipv6" "address"
      ws
      let a ← ip6
      let p ← opt (do
        slashP
        intP)
      let _ ← opt (do
        ws
        tok g "link-local")
      let _ ← opt ws
      nl
      pure (.ipv6 (String.ofList a.text) (p.map String.ofList)),
    do
      twoWords g "ipv6" "traffic-filter"
      ws
      let nd ← nameDir g
      let _ ← opt ws
      nl
      pure (.ipv6Filter nd.1 nd.2),
    do
      let _ ← tok g "switchport"
      ws
      let c ← switchport g
      let _ ← opt ws
      nl
      pure (.switch c),
    do
      let _ ← toeol
      nl
      pure .ignored,
    pure .ignored ]

/-- `interface` (acl.bnf:27-34, aclSemantics.py:65-71) with the details of IOS. -/
def interface (s : St) : P (Item × St) := do
  let _ ← tok s.env.guard "interface"
  ws
  let a ← stringP
  nl
  let l ← indented (interfaceDetail s.env.guard)
  let i ← act (Ifc.interfaceOf (String.ofList a) l)
  let d := dSet s.ifaces i.alias i
  let d := match i.nameif with
    | some n => dSet d n i
    | none => d
  pure (.base (.iface i), { s with ifaces := d })

/-! ## hosts and options -/

/-- `ios_host` (ios.bnf:200-206, iosSemantics.py:21-34) -/
def iosHost (e : Env) : P Host := alts
  [ do
      let a ← ip4
      ws
      let w ← ip4
      act (iosWildcardHost a w),
    do
      let a ← ip4
      act (mkHost a),
    do
      let _ ← tok e.guard "host"
      ws
      let a ← ip4
      act (mkHost a),
    do
      let _ ← tok e.guard "object-group"
      ws
      refer e.guard wsOrNl e.netGroups,
    do
      let _ ← tok e.guard "any"
      pure .any ]

/-- `ACLNode(host, port)` asserts that the port is no service group (aclObjects.py:1036-1039). -/
def mkNode (h : Host) : Option PortVal → Py PNode
  | some (.service _) => .error .assertion
  | p => .ok ⟨h, p⟩

/-- `[WS port:acl_port]` -/
def optPort (e : Env) : P (Option PortVal) := opt (do
  ws
  AclText.aclPort e)

/-- `ios_node` (ios.bnf:208-210, iosSemantics.py:36-37) -/
def iosNode (e : Env) : P PNode := do
  let h ← iosHost e
  let p ← optPort e
  act (mkNode h p)

/-- `ios_ipv6_host` (ios.bnf:212-216, iosSemantics.py:39-45) -/
def ios6Host (g : Guard) : P Host := alts
  [ do
      let a ← ip6
      slashP
      let p ← intP
      act (iosIpv6Host (some a) (some p)),
    do
      let _ ← tok g "host"
      ws
      let a ← ip6
      act (iosIpv6Host (some a) none),
    do
      let _ ← tok g "any"
      act (iosIpv6Host none none) ]

/-- `ios_ipv6_node` (ios.bnf:218-220, iosSemantics.py:47-48) -/
def ios6Node (e : Env) : P PNode := do
  let h ← ios6Host e.guard
  let p ← optPort e
  act (mkNode h p)

/-- What stands behind the keyword of an option. -/
inductive Arg where
  | none        -- nothing
  | ident       -- `WS value:identifier`
  | optIdent    -- `[WS value:identifier]`
  | int         -- `value:int`
  | optInt      -- `[value:int]`
  deriving DecidableEq, Repr

/-- The argument of an option. -/
def optArg : Arg → P (Option String)
  | .none => pure Option.none
  | .ident => do
    ws
    let v ← identifier
    pure (some (String.ofList v))
  | .optIdent => do
    let v ← opt (do
      ws
      identifier)
    pure (v.map String.ofList)
  | .int => do
    let v ← intP
    pure (some (String.ofList v))
  | .optInt => do
    let v ← opt intP
    pure (v.map String.ofList)

/-- An option: keyword and argument, the alternatives in the order of the list. -/
def optionOf (g : Guard) (l : List (String × Arg)) : P (String × Option String) :=
  alts (l.map (fun ka => do
    let k ← tok g ka.1
    let v ← optArg ka.2
    pure (k, v)))

/-- `{WS option}*` as a dictionary (iosSemantics.py:182-206). -/
def optionsOf (g : Guard) (l : List (String × Arg)) : P (Dict String (Option String)) := do
  let os ← (many (do
    ws
    optionOf g l) : P (List (String × Option String)))
  pure (os.foldl (fun d o => dSet d o.1 o.2) [])

/-- `ip_access_list_extended_rule_option` (ios.bnf:227-236) -/
def extOptions : List (String × Arg) :=
  [("precedence", .ident), ("dscp", .ident), ("tos", .ident), ("time-range", .ident), ("fragments", .none),
   ("log-input", .optIdent), ("log", .optIdent), ("established", .none)]

/-- `ip_access_list_standard_rule_option` (ios.bnf:184-186) -/
def stdOptions : List (String × Arg) := [("log", .optIdent)]

/-- `ipv6_access_list_rule_option` (ios.bnf:124-136) -/
def ip6Options : List (String × Arg) :=
  [("dest-option-type", .ident), ("dscp", .ident), ("flow-label", .ident), ("fragments", .none), ("log", .none),
   ("log-input", .none), ("mobility", .none), ("mobility-type", .int), ("routing", .none), ("routing-type", .optInt),
   ("time-range", .ident)]

/-- `ipv6_access_list_icmp_rule_option` (ios.bnf:144-151) -/
def ip6IcmpOptions : List (String × Arg) :=
  ([("nd-ns", .none), ("nd-na", .none), ("router-solicitation", .none), ("router-advertisement", .none),
    ("redirect", .none)] : List (String × Arg)) ++ icmpNames.map (fun n => (n, Arg.none))

/-! ## numbered lists -/

/-- `[a-b]` followed by digits: a pattern of single characters. -/
def digitsRe : List (Char × Char) → Re
  | [] => .empty
  | r :: l => .seq (.rng r.1 r.2) (digitsRe l)

/-- `access_list_ip_standard_id` (ios.bnf:295-298): `/[1-9][0-9]?/ &WS | /13[0-9][0-9]/ &WS` -/
def standardId : P (List Char) := alt
  (do
    let i ← pat (.seq (.rng '1' '9') (.optional (.rng '0' '9')))
    ahead ws
    pure i)
  (do
    let i ← pat (digitsRe [('1', '1'), ('3', '3'), ('0', '9'), ('0', '9')])
    ahead ws
    pure i)

/-- `access_list_ip_extended_id` (ios.bnf:300-303): `/1[0-9][0-9]/ &WS | /2[0-6][0-9][0-9]/ &WS` -/
def extendedId : P (List Char) := alt
  (do
    let i ← pat (digitsRe [('1', '1'), ('0', '9'), ('0', '9')])
    ahead ws
    pure i)
  (do
    let i ← pat (digitsRe [('2', '2'), ('0', '6'), ('0', '9'), ('0', '9')])
    ahead ws
    pure i)

/-- `"access-list" WS id WS mode:acl_mode WS` -/
def numHead (g : Guard) (i : P (List Char)) : P (String × String) := do
  let _ ← tok g "access-list"
  ws
  let n ← i
  ws
  let m ← mode g
  ws
  pure (String.ofList n, m)

/-- `access_list_ip_extended_rule` (ios.bnf:285-288, iosSemantics.py:145-155) -/
def numExtended (e : Env) : P IRule := alt
  (do
    let (i, m) ← numHead e.guard extendedId
    let p ← oneOf e.guard ["icmp", "icmp6"]
    ws
    let s ← aclHost e
    ws
    let d ← aclHost e
    let c ← icmpOptions e
    let o ← optionsOf e.guard extOptions
    nl
    pure { id := i, mode := m, protocol := .name p, src := ⟨s, none⟩, dst := ⟨d, none⟩, options := o, icmp := c })
  (do
    let (i, m) ← numHead e.guard extendedId
    let p ← aclProtocol e
    ws
    let s ← node e
    ws
    let d ← node e
    let o ← optionsOf e.guard extOptions
    nl
    pure { id := i, mode := m, protocol := p, src := s, dst := d, options := o })

/-- `access_list_ip_standard_rule` (ios.bnf:258-260, iosSemantics.py:121-134) -/
def numStandard (e : Env) : P IRule := do
  let (i, m) ← numHead e.guard standardId
  let s ← iosHost e
  let o ← optionsOf e.guard stdOptions
  nl
  pure { id := i, mode := m, protocol := .name "ip", src := ⟨s, none⟩, dst := ⟨.any, none⟩, options := o }

/-- `access_list_remark` (ios.bnf:267-269): the id is read and dropped. -/
def numRemark (g : Guard) : P (List Char) := do
  let _ ← tok g "access-list"
  ws
  let _ ← objName
  ws
  let _ ← tok g "remark"
  ws
  let r ← toeol
  nl
  pure r

/-- `remark:{...}+ >rule | >rule` -/
def remarked (rem : P (List Char)) (p : P IRule) : P IRule := alt
  (do
    let rs ← many1 rem
    let r ← p
    pure { r with remark := rs })
  p

/-- `access_list` (ios.bnf:271-274) with `access_list_ip_extended` (ios.bnf:290-293, iosSemantics.py:136-143) and
`access_list_ip_standard` (ios.bnf:262-265, iosSemantics.py:112-119). -/
def accessList (e : Env) : P IRule := alt
  (remarked (numRemark e.guard) (numExtended e))
  (remarked (numRemark e.guard) (numStandard e))

/-! ## named lists -/

/-- `[seq:int WS] mode:acl_mode WS` -/
def seqMode (g : Guard) : P String := do
  let _ ← opt (do
    let _ ← intP
    ws)
  let m ← mode g
  ws
  pure m

/-- `ip_access_list_extended_rule` (ios.bnf:242-246).  The name of the list is filled in by `ip_access_list`. -/
def namedExtended (e : Env) : P IRule := alts
  [ do
      let m ← seqMode e.guard
      let p ← oneOf e.guard ["icmp", "icmp6"]
      ws
      let s ← iosHost e
      ws
      let d ← iosHost e
      let c ← icmpOptions e
      let o ← optionsOf e.guard extOptions
      nl
      pure { id := "", mode := m, protocol := .name p, src := ⟨s, none⟩, dst := ⟨d, none⟩, options := o, icmp := c },
    do
      let m ← seqMode e.guard
      let p ← aclProtocol e
      ws
      let s ← iosNode e
      ws
      let d ← iosNode e
      let o ← optionsOf e.guard extOptions
      nl
      pure { id := "", mode := m, protocol := p, src := s, dst := d, options := o },
    do
      let m ← seqMode e.guard
      let p ← aclProtocol e
      ws
      let s ← iosHost e
      ws
      let d ← iosHost e
      let o ← optionsOf e.guard extOptions
      nl
      pure { id := "", mode := m, protocol := p, src := ⟨s, none⟩, dst := ⟨d, none⟩, options := o } ]

/-- `ip_access_list_standard_rule` (ios.bnf:196-198): everything from the host to anywhere
(iosSemantics.py:92-109). -/
def namedStandard (e : Env) : P IRule := do
  let m ← seqMode e.guard
  let s ← iosHost e
  let o ← optionsOf e.guard stdOptions
  nl
  pure { id := "", mode := m, protocol := .name "ip", src := ⟨s, none⟩, dst := ⟨.any, none⟩, options := o }

/-- `SP ip_access_list_remark` (ios.bnf:192-194) -/
def namedRemark (g : Guard) : P (List Char) := do
  sp
  let _ ← opt (do
    let _ ← intP
    ws)
  let _ ← tok g "remark"
  sp
  let r ← toeol
  nl
  pure r

/-- `ip_access_list_standard`, `ip_access_list_extended` (ios.bnf:222-225, 248-251, iosSemantics.py:62-78) -/
def namedEntry (g : Guard) (p : P IRule) : P IRule := remarked (namedRemark g) (do
  sp
  p)

/-- `ip_access_list` (ios.bnf:178-182, iosSemantics.py:80-110) -/
def ipAccessList (e : Env) : P (List IRule) := alt
  (do
    let x ← tok e.guard "standard"
    ws
    let n ← objName
    nl
    let l ← (many (namedEntry e.guard (namedStandard e)) : P (List IRule))
    pure (l.map (fun r => { r with id := String.ofList n, extended := some x })))
  (do
    let x ← tok e.guard "extended"
    ws
    let n ← objName
    nl
    let l ← (many (namedEntry e.guard (namedExtended e)) : P (List IRule))
    pure (l.map (fun r => { r with id := String.ofList n, extended := some x })))

/-! ## the ip commands -/

/-- How an ignored command goes on behind its keyword. -/
inductive Tail where
  | ws          -- `WS TOEOL NL`
  | eol         -- `TOEOL NL`
  | bare        -- `NL`
  | wsIndent    -- `WS TOEOL NL ignored_indent`
  | eolIndent   -- `TOEOL NL ignored_indent`
  | bareIndent  -- `NL ignored_indent`
  | pool        -- `{/[^(!|\n)]*/ NL}*`
  | open        -- `TOEOL`
  | wsOpen      -- `WS TOEOL`
  deriving DecidableEq, Repr

/-- `ignored_indent = {/^ [^\n]*/ NL}*` (ios.bnf:328-330).  The position is always at the beginning of a line, so `^`
holds there. -/
def ignoredIndent : P Unit := do
  let _ ← many (do
    sp
    let _ ← toeol
    nl)
  pure ()

/-- `[^(!|\n)]` -/
def isPoolChar (c : Char) : Bool := !(c == '(' || c == '!' || c == '|' || c == '\n' || c == ')')

/-- What follows the keyword. -/
def tail : Tail → P Unit
  | .ws => do
    ws
    let _ ← toeol
    nl
  | .eol => do
    let _ ← toeol
    nl
  | .bare => nl
  | .wsIndent => do
    ws
    let _ ← toeol
    nl
    ignoredIndent
  | .eolIndent => do
    let _ ← toeol
    nl
    ignoredIndent
  | .bareIndent => do
    nl
    ignoredIndent
  | .pool => do
    let _ ← many (do
      let _ ← pat (.star isPoolChar)
      nl)
    pure ()
  | .open => do
    let _ ← toeol
    pure ()
  | .wsOpen => do
    ws
    let _ ← toeol
    pure ()

/-- The first of these keywords that is there, and what follows it. -/
def ignoredOf (g : Guard) (l : List (String × Tail)) : P Unit := alts (l.map (fun kt => do
  let _ ← tok g kt.1
  tail kt.2))

/-- `ip_ignored` (ios.bnf:404-438) -/
def ipIgnored : List (String × Tail) :=
  [("cef", .bare), ("as-path", .eol), ("inspect", .eol), ("domain", .eol), ("name-server", .eol), ("route", .eol),
   ("http", .eol), ("nat", .eol), ("subnet-zero", .bare), ("dhcp excluded-address", .eol), ("dhcp pool", .pool),
   ("tcp", .eol), ("scp", .eol), ("ssh", .eolIndent), ("classless", .bare), ("forward-protocol", .eol), ("ips", .eol),
   ("flow-cache", .eol), ("flow-export", .eol), ("vrf", .eolIndent), ("multicast-routing", .eol),
   ("accounting-threshold", .eol), ("host", .eol), ("ftp", .eol), ("default-gateway", .eol), ("sla", .eolIndent),
   ("slb", .eolIndent), ("flow-aggregation", .eolIndent), ("flow-top-talkers", .eolIndent), ("prefix-list", .eol),
   ("pim", .eol), ("routing", .eol), ("tftp", .eol)]

/-- `ipaddress.ip_network(f"{prefix}/{mask}")`: ValueError when host bits are set (ipaddress.py:1509-1513). -/
def strictNetwork (a m : Addr) : Py Net :=
  match mkNetwork a.text m.text with
  | .error e => .error e
  | .ok n => if n.addr = a.ip then .ok n else .error .value

/-- The gateway of `ip_route` (ios.bnf:173-176): an address or a known interface. -/
def routeGateway (s : St) : P Gateway := alt
  (do
    let x ← ip4
    pure (Gateway.addr x))
  (do
    let i ← interfaceRef s
    pure (.iface i))

/-- The second form of `ip_route` (ios.bnf:173-176, iosSemantics.py:208-217) -/
def routeTo (s : St) : P Item := do
  let a ← ip4
  ws
  let m ← ip4
  ws
  let gw ← routeGateway s
  nl
  let n ← act (strictNetwork a m)
  pure (.route ⟨n, gw⟩)

/-- `ip_route` (ios.bnf:173-176, iosSemantics.py:208-217); the profile form gives None. -/
def ipRoute (s : St) : P Item := alt
  (do
    let _ ← tok s.env.guard "profile"
    nl
    pure (.base .nothing))
  (routeTo s)

/-- `"access-list" WS ip_access_list` (ios.bnf:157-166) -/
def ipLists (e : Env) : P Item := do
  let _ ← tok e.guard "access-list"
  ws
  let l ← ipAccessList e
  pure (.rules l)

/-- `"domain name" WS obj_name` (ios.bnf:161-166) -/
def ipDomain (g : Guard) : P Item := do
  let _ ← tok g "domain name"
  ws
  let n ← objName
  pure (.base (.domain (String.ofList n)))

/-- `"route" WS ip_route` (ios.bnf:157-166) -/
def ipRoutes (s : St) : P Item := do
  let _ ← tok s.env.guard "route"
  ws
  ipRoute s

/-- `ip_ignored` as the last alternative (ios.bnf:157-166) -/
def ipRest (g : Guard) : P Item := do
  ignoredOf g ipIgnored
  pure (.base .nothing)

/-- `ip` (ios.bnf:157-166, iosSemantics.py:50-60) -/
def ip (s : St) : P Item := do
  let _ ← tok s.env.guard "ip"
  ws
  alts [ipLists s.env, ipDomain s.env.guard, ipRoutes s, ipRest s.env.guard]

/-! ## IPv6 lists -/

/-- `ipv6_access_list_rule` (ios.bnf:104-122) -/
def ip6Rule (e : Env) : P IRule := alt
  (do
    let m ← mode e.guard
    ws
    let p ← aclProtocol e
    ws
    let s ← ios6Node e
    ws
    let d ← ios6Node e
    let o ← optionsOf e.guard ip6Options
    nl
    pure { id := "", mode := m, protocol := p, src := s, dst := d, options := o })
  (do
    let m ← mode e.guard
    ws
    let p ← oneOf e.guard ["icmp", "icmp6"]
    ws
    let s ← ios6Node e
    ws
    let d ← ios6Node e
    let o ← optionsOf e.guard ip6IcmpOptions
    nl
    pure { id := "", mode := m, protocol := .name p, src := s, dst := d, options := o })

/-- `ipv6_access_list_seq` (ios.bnf:100-102, iosSemantics.py:175-177): the number is kept in the options. -/
def ip6Seq (e : Env) : P IRule := do
  sp
  let _ ← tok e.guard "sequence"
  ws
  let n ← intP
  ws
  let r ← ip6Rule e
  pure { r with options := dSet r.options "sequence" (some (String.ofList n)) }

/-- `ipv6_access_list` (ios.bnf:96-98, iosSemantics.py:164-173): `extended` is None. -/
def ip6AccessList (e : Env) : P (List IRule) := do
  let _ ← tok e.guard "access-list"
  ws
  let n ← objName
  nl
  let l ← many1 (ip6Seq e)
  pure (l.map (fun r => { r with id := String.ofList n }))

/-- `ipv6_ignored` (ios.bnf:88-94) -/
def ip6Ignored : List (String × Tail) :=
  [("unicast-routing", .open), ("nd", .wsOpen), ("route", .wsOpen), ("prefix-list", .wsOpen), ("ipv6", .eolIndent)]

/-- `ipv6` (ios.bnf:79-86, iosSemantics.py:157-162) -/
def ipv6 (e : Env) : P Item := do
  let _ ← tok e.guard "ipv6"
  ws
  alt
    (do
      let l ← ip6AccessList e
      pure (.rules l))
    (do
      ignoredOf e.guard ip6Ignored
      pure (.base .nothing))

/-! ## ignored commands -/

/-- The second alternative of `delim_start` (ios.bnf:66-69): any character of the line. -/
def delimChar : P Banner.Delim := fun t => match t with
  | c :: r => if c = '\n' then .fail else .ok (.char c) r
  | [] => .fail

/-- `delim_start` (ios.bnf:66-69): `^C` or any character of the line. -/
def delimStart (g : Guard) : P Banner.Delim := alt
  (do
    let _ ← tok g "^C"
    pure .caretC)
  delimChar

/-- `delim_msg` and `delim_stop` (ios.bnf:70-77) as Model/Banner.lean has them. -/
def delimMsg (d : Banner.Delim) : P (List Char) := fun t => match Banner.banner d t with
  | some (m, r) => .ok m r
  | none => .fail

/-- `banner` (ios.bnf:56-63) with `_delim_msg_` and `_delim_stop_` (iosSemantics.py:234-258), see Model/Banner.lean. -/
def banner (g : Guard) : P Unit := do
  let _ ← tok g "banner"
  ws
  let _ ← tok g "motd"
  ws
  let d ← delimStart g
  let _ ← delimMsg d
  nl

/-- `"Using" int "out of" int "bytes" NL` (ios.bnf:395) -/
def usingLine (g : Guard) : P Unit := do
  let _ ← tok g "Using"
  let _ ← intP
  let _ ← tok g "out of"
  let _ ← intP
  let _ ← tok g "bytes"
  nl

/-- `"define" WS "interface-range" TOEOL NL` (ios.bnf:352) -/
def defineRange (g : Guard) : P Unit := do
  let _ ← tok g "define"
  ws
  let _ ← tok g "interface-range"
  tail .eol

/-- `ignored` (ios.bnf:333-402) up to the banner. -/
def ignored1 : List (String × Tail) :=
  [("!", .eol), (":", .eol), ("aaa", .eol), ("alias", .eol), ("appfw", .eolIndent), ("archive", .eolIndent), ("arp", .eol)]

/-- `ignored` between the banner and `define`. -/
def ignored2 : List (String × Tail) :=
  [("boot-start-marker", .bare), ("boot-end-marker", .bare), ("boot", .eol), ("bridge", .eol), ("call-home", .eolIndent),
   ("class-map", .wsIndent), ("clock", .eol), ("control-plane", .bareIndent), ("crypto", .eolIndent), ("cts", .eol),
   ("Current configuration", .eol)]

/-- `ignored` between `define` and `Using`. -/
def ignored3 : List (String × Tail) :=
  [("diagnostic", .eol), ("dialer-list", .eol), ("dial-peer", .eol), ("dot11", .eolIndent), ("enable", .eol),
   ("encryption", .eol), ("errdisable", .eol), ("file", .eol), ("firewall", .eol), ("hw-module", .eol), ("isdn", .eol),
   ("key", .eolIndent), ("license", .eol), ("lldp", .eol), ("logging", .eol), ("login", .eol),
   ("mac-address-table", .eol), ("mac-address", .eol), ("memory", .eol), ("mls", .eol), ("mmi", .eol), ("multilink", .eol),
   ("no", .eol), ("platform", .ws), ("policy-map", .wsIndent), ("port-channel", .eol), ("power", .eol),
   ("redundancy", .eolIndent), ("resource", .eol), ("rmon", .eol), ("route-map", .eolIndent), ("router", .eolIndent),
   ("rtr", .eol), ("security", .eol), ("switch", .eol), ("service", .eol), ("snmp-server", .eol), ("snmp", .eol),
   ("spanning-tree", .eol), ("system", .eol), ("transceiver", .eolIndent), ("username", .eol)]

/-- `ignored` behind `Using`. -/
def ignored4 : List (String × Tail) :=
  [("vlan", .eolIndent), ("vpdn", .eolIndent), ("vrf", .eolIndent), ("vtp", .eol), ("wism", .eol)]

/-- `ignored` (ios.bnf:333-402, iosSemantics.py:188-190): the alternatives in their order, the last one an empty line. -/
def ignored (g : Guard) : P Unit := alts
  [ignoredOf g ignored1, banner g, ignoredOf g ignored2, defineRange g, ignoredOf g ignored3, usingLine g,
   ignoredOf g ignored4, nl]

/-! ## the file -/

/-- `version` (ios.bnf:29-31, aclSemantics.py:62-63) -/
def version (g : Guard) : P FwsmText.Item := do
  let _ ← tok g "version"
  let v ← toeol
  nl
  pure (.version v)

/-- A command that learns nothing. -/
def keep (s : St) (p : P Item) : P (Item × St) := do
  let i ← p
  pure (i, s)

/-- An item shared with the other grammar. -/
def base (p : P FwsmText.Item) : P Item := do
  let i ← p
  pure (.base i)

/-- `access_list` as a command (ios.bnf:33-43) -/
def ruleCommand (e : Env) : P Item := do
  let r ← accessList e
  pure (.rule r)

/-- `ignored` as a command (ios.bnf:33-43, iosSemantics.py:188-190) -/
def ignoredCommand (g : Guard) : P Item := do
  ignored g
  pure (.base .nothing)

/-- `command` (ios.bnf:33-43) -/
def command (s : St) : P (Item × St) := alts
  [ keep s (base (version s.env.guard)),
    keep s (base (hostname s.env.guard)),
    keep s (base (domainName s.env.guard)),
    interface s,
    objectGroup s,
    keep s (ruleCommand s.env),
    keep s (ip s),
    keep s (ipv6 s.env),
    keep s (ignoredCommand s.env.guard) ]

/-- `{command ~}+`: a command that does not move ends the closure. -/
def commands (s : St) (t : Text) : Res (List Item × St) :=
  match command s t with
  | .ok (i, s') r =>
    if r.length < t.length then
      match commands s' r with
      | .ok (l, s'') u => .ok (i :: l, s'') u
      | .fail => .fail
      | .raise e => .raise e
    else .ok ([], s) t
  | .fail => .ok ([], s) t
  | .raise e => .raise e
termination_by t.length

/-- `grammar = @:{command ~}+ ("line"|"end"|$)` (ios.bnf:24-27) of a new parser: at least one command, then the word
`line` or `end` — whatever follows it is not read — or the end of the text. -/
def parseFile (g : Guard) (t : Text) : Res (List Item) :=
  match commands { env := { guard := g } } t with
  | .ok (l, _) r =>
    if l.isEmpty then .fail
    else match oneOf g ["line", "end"] r with
      | .ok _ u => .ok l u
      | _ => if r.isEmpty then .ok l [] else .fail
  | .fail => .fail
  | .raise e => .raise e

/-- The rules of the configuration (iosObjects.py:23-33): those of the items, in their order. -/
def rulesOf : List Item → List IRule
  | [] => []
  | .rule r :: t => r :: rulesOf t
  | .rules l :: t => l ++ rulesOf t
  | _ :: t => rulesOf t

/-- The routes of the configuration (iosObjects.py:35-39). -/
def routesOf : List Item → List Route
  | [] => []
  | .route r :: t => r :: routesOf t
  | _ :: t => routesOf t

end Acltk.IosText
