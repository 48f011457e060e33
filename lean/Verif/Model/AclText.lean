import Verif.Model.Peg
import Verif.Model.Mask
import Verif.Model.Dict
import Verif.Model.Host
/-!
# Access lists of FWSM/ASA, from the text

The rules of acl.bnf and fwsm.bnf that read access-list lines, with the semantic actions of
aclSemantics.py and fwsmSemantics.py.
-/
namespace Acltk.AclText
open Acltk Acltk.Lookup Acltk.Peg

/-- What the parser knows (`aclParser.__init__`, aclSemantics.py:505-518) when it reads a line, and
the token guard.  Names are kept with their address, network objects and groups as hosts, the other
objects by identity. -/
structure Env where
  guard : Guard
  names : Dict String Addr := []
  netObjs : Dict String Host := []
  netGroups : Dict String Host := []
  svcObjs : Dict String Nat := []
  svcGroups : Dict String Nat := []
  portGroups : Dict String Nat := []
  icmpGroups : Dict String Nat := []
  protoGroups : Dict String Nat := []
  timeRanges : Dict String Nat := []

/-- The keys of a dictionary. -/
def keys {β : Type} (d : Dict String β) : List String := d.map (·.1)

/-- A reference `&(id term) name:id` with its action `self.parser.table[ast.name]` (acl.bnf:63-156,
aclSemantics.py:377-408). -/
def refer {β : Type} (g : Guard) (term : Text → Bool) (d : Dict String β) : P β := fun t =>
  match reference g term (keys d) t with
  | none => .fail
  | some (n, r) =>
    match dGet d n with
    | some v => .ok v r
    | none => .raise .key

/-- `ip4` with its action `ipaddress.ip_address(ast)` (ip.bnf:1, aclSemantics.py:196-197). -/
def ip4 : P Addr := do
  let s ← pat ip4Re
  act (ipAddress s)

/-- `ip6` with its action (ip.bnf:3, aclSemantics.py:199-200). -/
def ip6 : P Addr := do
  let s ← pat ip6Re
  act (ipAddress s)

/-- `acl_name_ws` (acl.bnf:125-127) -/
def nameWs (e : Env) : P Addr := refer e.guard wsOrNl e.names

/-- `acl_name_slash` (acl.bnf:129-131) -/
def nameSlash (e : Env) : P Addr := refer e.guard slash e.names

/-- `"/"` -/
def slashP : P Unit := fun t =>
  match t with
  | '/' :: r => .ok () r
  | _ => .fail

/-- `acl_host` (acl.bnf:163-171) with its action (aclSemantics.py:318-333): the target a name leaves
in the object is not kept here. -/
def aclHost (e : Env) : P Host := alts
  [ do
      let _ ← oneOf e.guard ["host", "ip"]
      ws
      let a ← alts [nameWs e, nameSlash e, ip4, ip6]
      pure (.host a),
    do
      let _ ← tok e.guard "interface"
      ws
      let n ← identifier
      pure (.iface (String.ofList n)),
    do
      let w ← oneOf e.guard ["any", "any4", "any6"]
      pure (if w = "any4" then .any4 else if w = "any6" then .any6 else .any),
    do
      let _ ← tok e.guard "object"
      ws
      refer e.guard wsOrNl e.netObjs,
    do
      let _ ← tok e.guard "object-group"
      ws
      refer e.guard wsOrNl e.netGroups,
    do
      let a ← alt (nameWs e) ip4
      ws
      let m ← ip4
      let n ← act (mkNetwork a.text m.text)
      pure (.net n),
    do
      let a ← alt (nameSlash e) ip6
      slashP
      let m ← intP
      let n ← act (mkNetwork a.text m)
      pure (.net n) ]

/-- `port_code` (acl.bnf:588-665) -/
def portCodes : List String :=
  ["xdmcp", "www", "whois", "who", "uucp", "time", "tftp", "telnet", "talk", "tacacs", "syslog", "sunrpc", "ssh",
   "sqlnet", "snmptrap", "snmp", "smtp", "sip", "secureid-udp", "rtsp", "rsh", "rpc", "rip", "radius-acct", "radius",
   "pptp", "pop3", "pop2", "pim-auto-rp", "pcanywhere-status", "pcanywhere-data", "ntp", "non500-isakmp", "nntp",
   "nfs", "netbios-ssn", "netbios-ss", "netbios-ns", "netbios-dgm", "nameserver", "mobile-ip", "lpd", "lotusnotes",
   "login", "ldaps", "ldap", "kshell", "klogin", "kerberos", "isakmp", "irc", "imap4", "ident", "https", "http",
   "hostname", "h323", "gopher", "ftp-data", "ftp", "finger", "exec", "echo", "domain", "dnsix", "discard", "daytime",
   "ctiqbe", "cmd", "citrix-ica", "chargen", "bootps", "bootpc", "biff", "bgp", "aol"]

/-- `WS|NL` -/
def endOfWord : P Unit := fun t => if wsOrNl t then .ok () t else .fail

/-- `port` (acl.bnf:415-418) with `port_int` (aclSemantics.py:222-224). -/
def port (g : Guard) : P String := alt
  (do
    ahead (do
      let _ ← oneOf g portCodes
      endOfWord)
    oneOf g portCodes)
  (do
    let s ← intP
    let n ← act (portInt s)
    pure (String.ofList n))

/-- The port of a node: a `Port`, a `PortRange`, a `PortGroup`, or (refused by `ACLNode`) a service
group. -/
inductive PortVal where
  | port (op num : String)
  | range (start stop : String)
  | group (o : Nat)
  | service (o : Nat)
  deriving DecidableEq, Repr

/-- `acl_port` (acl.bnf:173-178) with its action (aclSemantics.py:335-342). -/
def aclPort (e : Env) : P PortVal := alts
  [ do
      let _ ← tok e.guard "object-group"
      ws
      let o ← refer e.guard wsOrNl e.svcGroups
      pure (.service o),
    do
      let _ ← tok e.guard "object-group"
      ws
      let o ← refer e.guard wsOrNl e.portGroups
      pure (.group o),
    do
      let op ← oneOf e.guard ["gt", "lt", "eq", "neq"]
      ws
      let p ← port e.guard
      pure (.port op p),
    do
      let _ ← tok e.guard "range"
      ws
      let a ← port e.guard
      ws
      let b ← port e.guard
      let _ ← act (mkPortRange a b)
      pure (.range a b) ]

/-- `ACLNode` (aclObjects.py:1021-1041) as the parser builds it. -/
structure PNode where
  host : Host
  port : Option PortVal

/-- `node` (acl.bnf:59-61) with its action (aclSemantics.py:355-356): `ACLNode` asserts that the port is
no service group (aclObjects.py:1036-1039). -/
def node (e : Env) : P PNode := do
  let h ← aclHost e
  let p ← opt (do
    ws
    aclPort e)
  act (match p with
    | some (.service _) => .error .assertion
    | p => .ok ⟨h, p⟩)

/-- The protocol of a rule (`acl_protocol`, acl.bnf:53-57): a `Protocol` by name or number, or an
object. -/
inductive Proto where
  | name (s : String)
  | svcGroup (o : Nat)
  | protoGroup (o : Nat)
  | svcObj (o : Nat)
  deriving DecidableEq, Repr

/-- `protocol_code` (acl.bnf:559-582) -/
def protocolCodes : List String :=
  ["udp", "tcp", "snp", "pptp", "pim", "pcp", "ospf", "nos", "ipsec", "ipinip", "ip", "ipv6", "igrp", "igmp", "icmp6",
   "icmpv6", "icmp", "gre", "esp", "eigrp", "ahp", "ah"]

/-- `acl_protocol` (acl.bnf:53-57, aclSemantics.py:308-316) with `protocol_int` (aclSemantics.py:218-220).
`object-group` takes a service group, else a protocol group. -/
def aclProtocol (e : Env) : P Proto := alts
  [ do
      let _ ← tok e.guard "object-group"
      ws
      alt (do let o ← refer e.guard wsOrNl e.svcGroups; pure (.svcGroup o))
        (do let o ← refer e.guard wsOrNl e.protoGroups; pure (.protoGroup o)),
    do
      let _ ← tok e.guard "object"
      ws
      let o ← refer e.guard wsOrNl e.svcObjs
      pure (.svcObj o),
    alt (do let s ← oneOf e.guard protocolCodes; pure (.name s))
      (do
        let s ← intP
        let n ← act (protocolInt s)
        pure (.name (String.ofList n))) ]

/-- `icmp_type_name` (acl.bnf:493-549) -/
def icmpNames : List String :=
  ["unreachable", "ttl-exceeded", "traceroute", "timestamp-request", "timestamp-reply", "time-exceeded",
   "source-route-failed", "source-quench", "router-solicitation", "router-renumbering", "router-advertisement",
   "redirect", "reassembly-timeout", "protocol-unreachable", "precedence-unreachable", "port-unreachable",
   "parameter-problem", "packet-too-big", "option-missing", "no-room-for-option", "network-unknown",
   "net-unreachable", "net-tos-unreachable", "net-tos-redirect", "net-redirect", "neighbor-solicitation",
   "neighbor-redirect", "neighbor-advertisement", "mobile-redirect", "membership-report", "membership-reduction",
   "membership-query", "mask-request", "mask-reply", "information-request", "information-reply", "host-unreachable",
   "host-unknown", "host-tos-unreachable", "host-tos-redirect", "host-redirect", "host-precedence-unreachable",
   "host-isolated", "general-parameter-problem", "echo-request", "echo-reply", "echo", "dod-net-prohibited",
   "dod-host-prohibited", "destination-unreachable", "conversion-error", "alternate-address",
   "administratively-prohibited", "address-mask-request", "address-mask-reply"]

/-- `icmp_type` (acl.bnf:488-491) with `icmp_type_int` (aclSemantics.py:226-228). -/
def icmpType (g : Guard) : P String := alt
  (do
    ahead (do
      let _ ← oneOf g icmpNames
      endOfWord)
    oneOf g icmpNames)
  (do
    let s ← intP
    let n ← act (icmpTypeInt s)
    pure (String.ofList n))

/-- `ICMP(type, code)` (aclObjects.py:327-333) or an ICMP group. -/
inductive IcmpVal where
  | icmp (type : String) (code : Option String)
  | group (o : Nat)
  deriving DecidableEq, Repr

/-- `acl_icmp_options` (acl.bnf:180-184, aclSemantics.py:347-354). -/
def icmpOptions (e : Env) : P (Option IcmpVal) := alts
  [ do
      ws
      let _ ← tok e.guard "object-group"
      ws
      let o ← refer e.guard wsOrNl e.icmpGroups
      pure (some (.group o)),
    do
      ws
      let ty ← icmpType e.guard
      let c ← opt (do
        ws
        let s ← intP
        let n ← act (icmpCodeInt s)
        pure (String.ofList n))
      pure (some (.icmp ty c)),
    pure none ]

/-- One option of a rule as parsed.  A log option is the list of its arguments, each given by its
words. -/
inductive Opt where
  | log (options : List (List String))
  | timeRange (o : Nat)
  | inactive
  | none
  deriving DecidableEq, Repr

/-- `acl_option_log_option` (acl.bnf:201-206) -/
def logOption (g : Guard) : P (List String) := alts
  [ do
      let s ← oneOf g ["debugging", "disable", "default", "notifications", "warnings", "critical"]
      pure [s],
    do
      let _ ← tok g "interval"
      ws
      let n ← intP
      pure ["interval", String.ofList n],
    do
      let s ← oneOf g ["0", "1", "2", "3", "4", "5", "6", "7"]
      pure [s],
    pure [] ]

/-- `acl_option` (acl.bnf:190-195).  The empty alternative of `acl_option_log_option` contributes
nothing to the list of arguments (simplification: TatSu's list may hold a None for it). -/
def aclOption (e : Env) : P Opt := alts
  [ do
      let _ ← tok e.guard "log"
      let l ← many (do
        ws
        logOption e.guard)
      pure (.log (l.filter (fun x => !x.isEmpty))),
    do
      let _ ← tok e.guard "time-range"
      ws
      let o ← refer e.guard wsOrNl e.timeRanges
      pure (.timeRange o),
    do
      let _ ← tok e.guard "inactive"
      pure .inactive,
    pure .none ]

/-- The key of an option in the dictionary. -/
def Opt.key : Opt → Option String
  | .log _ => some "log"
  | .timeRange _ => some "time-range"
  | .inactive => some "inactive"
  | .none => Option.none

/-- `acl_options` (acl.bnf:186-188, aclSemantics.py:358-372): a dictionary by type. -/
def aclOptions (e : Env) : P (Dict String Opt) := do
  let l ← (many (do
    let o ← aclOption e
    let _ ← opt ws
    pure o) : P (List Opt))
  pure (l.foldl (fun d o => match o.key with
    | some k => dSet d k o
    | Option.none => d) [])

/-- `ACLRule` (aclObjects.py:1067-1101) as the parser builds it. -/
structure PRule where
  id : String
  extended : String
  mode : String
  protocol : Proto
  src : PNode
  dst : PNode
  remark : List (List Char) := []
  options : Dict String Opt := []
  icmp : Option IcmpVal := none
  url : Option (List Char) := none

/-- `"access-list" WS id:acl_id WS` -/
def head (g : Guard) : P String := do
  let _ ← tok g "access-list"
  ws
  let i ← objName
  ws
  pure (String.ofList i)

/-- `acl_mode` (acl.bnf:49-51) -/
def mode (g : Guard) : P String := oneOf g ["permit", "deny"]

/-- `[WS options:acl_options] [WS] NL` -/
def lineEnd (e : Env) : P (Dict String Opt) := do
  let o ← opt (do
    ws
    aclOptions e)
  let _ ← opt ws
  nl
  pure (o.getD [])

/-- `access_list_rule_extended` (fwsm.bnf:45-48), `ACLRule(**ast)` (fwsmSemantics.py:54-55).  The icmp
form is tried first. -/
def ruleExtended (e : Env) : P PRule := alt
  (do
    let i ← head e.guard
    let x ← tok e.guard "extended"
    ws
    let m ← mode e.guard
    ws
    let p ← oneOf e.guard ["icmp", "icmp6"]
    ws
    let s ← aclHost e
    ws
    let d ← aclHost e
    let c ← icmpOptions e
    let o ← lineEnd e
    pure { id := i, extended := x, mode := m, protocol := .name p, src := ⟨s, none⟩, dst := ⟨d, none⟩, options := o,
           icmp := c })
  (do
    let i ← head e.guard
    let x ← tok e.guard "extended"
    ws
    let m ← mode e.guard
    ws
    let p ← aclProtocol e
    ws
    let s ← node e
    ws
    let d ← node e
    let o ← lineEnd e
    pure { id := i, extended := x, mode := m, protocol := p, src := s, dst := d, options := o })

/-- `access_list_rule_standard` (fwsm.bnf:51-53, fwsmSemantics.py:57-63): protocol ip, any destination. -/
def ruleStandard (e : Env) : P PRule := do
  let i ← head e.guard
  let x ← tok e.guard "standard"
  ws
  let m ← mode e.guard
  ws
  let s ← aclHost e
  let _ ← opt ws
  nl
  pure { id := i, extended := x, mode := m, protocol := .name "ip", src := ⟨s, none⟩, dst := ⟨.any, none⟩ }

/-- `access_list_rule_webtype` (fwsm.bnf:58-61, fwsmSemantics.py:65-76): any source; the URL is kept in
the destination, a `Webtype` (a kind of `NetworkAny`, fwsmObjects.py:7-10). -/
def ruleWebtype (e : Env) : P PRule := alt
  (do
    let i ← head e.guard
    let x ← tok e.guard "webtype"
    ws
    let m ← mode e.guard
    ws
    let p ← tok e.guard "url"
    ws
    let u ← alt stringP (do let s ← tok e.guard "any"; pure s.toList)
    let o ← lineEnd e
    pure { id := i, extended := x, mode := m, protocol := .name p, src := ⟨.any, none⟩, dst := ⟨.any, none⟩,
           options := o, url := some u })
  (do
    let i ← head e.guard
    let x ← tok e.guard "webtype"
    ws
    let m ← mode e.guard
    ws
    let p ← tok e.guard "tcp"
    ws
    let d ← node e
    let o ← lineEnd e
    pure { id := i, extended := x, mode := m, protocol := .name p, src := ⟨.any, none⟩, dst := d, options := o })

/-- `access_list_rule_ethertype` (fwsm.bnf:65-67): the line is read and dropped (fwsmSemantics.py:51-52). -/
def ruleEthertype (e : Env) : P Unit := do
  let _ ← head e.guard
  let _ ← tok e.guard "ethertype"
  let _ ← toeol
  nl

/-- `access_list_remark` (fwsm.bnf:82-84): the id is read and dropped. -/
def remarkLine (e : Env) : P (List Char) := do
  let _ ← head e.guard
  let _ ← tok e.guard "remark"
  sp
  let r ← toeol
  nl
  pure r

/-- `remark:{access_list_remark}+ >rule` -/
def remarked (e : Env) (p : P (Option PRule)) : P (Option PRule) := do
  let rs ← many1 (remarkLine e)
  let r ← p
  pure (r.map (fun r => { r with remark := rs }))

/-- `access_list` (fwsm.bnf:70-79, fwsmSemantics.py:34-51): the alternatives in their order. -/
def accessList (e : Env) : P (Option PRule) :=
  let x : P (Option PRule) := do let r ← ruleExtended e; pure (some r)
  let s : P (Option PRule) := do let r ← ruleStandard e; pure (some r)
  let w : P (Option PRule) := do let r ← ruleWebtype e; pure (some r)
  let t : P (Option PRule) := do ruleEthertype e; pure none
  alts [remarked e x, x, remarked e s, s, remarked e w, w, remarked e t, t]

end Acltk.AclText
