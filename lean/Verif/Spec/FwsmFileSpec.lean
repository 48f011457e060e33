import Verif.Model.FwsmText
import Verif.Spec.AclTextSpec
import Verif.Spec.RangeSpec
import Verif.Spec.FwsmNatSpec
/-!
# Specification: a whole configuration as a sequence of written commands

Which text stands for which definition, on lines and words, without the grammar.  `Cmd` says what a
single command means for a parser that already knows the definitions in front of it; `File` puts
the commands one after the other.  The words of NAT commands are in `FwsmNatSpec`; what the entry of such a command
says about its words is stated in C50, C51, C54 and C62.
-/
namespace Acltk.FwsmText
open Acltk Acltk.AclText

/-- A line made of these words, without blanks at its end. -/
def Bare (ws : List String) (text : List Char) : Prop :=
  ∃ t n, Spaced ws t ∧ (n = ['\n'] ∨ n = ['\r', '\n']) ∧ text = t ++ n

/-- The rest of a line behind a word. -/
def LineRest (u : List Char) : Prop :=
  '\n' ∉ u ∧ (u = [] ∨ u = ['\r'] ∨ ∃ c v, u = c :: v ∧ (c = ' ' ∨ c = '\t'))

/-- An optional ` description TEXT` line: the text is everything from the first character that is no blank
up to the line feed. -/
inductive Descr : List Char → Option (List Char) → Prop
  | none : Descr [] none
  | some (b d : List Char) : b ≠ [] → Blanks b → d ≠ [] → '\n' ∉ d → (∀ c ∈ d.head?, c ≠ ' ' ∧ c ≠ '\t') →
      Descr (' ' :: ("description".toList ++ (b ++ (d ++ ['\n'])))) (some d)

/-- Indented lines; `M` says what the words of a line mean, `L` how a line is written. -/
inductive Members {α : Type} (M : List String → α → Prop) (L : List String → List Char → Prop) :
    List Char → List α → Prop
  | nil : Members M L [] []
  | cons (ws : List String) (v : α) (l t : List Char) (vs : List α) : M ws v → L ws l → Members M L t vs →
      Members M L (' ' :: (l ++ t)) (v :: vs)

/-! ## members of groups -/

/-- The word is the text of an address. -/
inductive AddrLit (w : String) : Addr → Prop
  | v4 (n : Nat) : n < 2 ^ 32 → w.toList = Dotted n → AddrLit w ⟨.v4, n⟩
  | v6 (n : Nat) : V6Text w.toList n → AddrLit w ⟨.v6, n⟩

/-- The words of a member of a network group. -/
inductive NetMember (e : Env) : List String → Host → Prop
  | host (w : String) (a : Addr) : AddrWord e w a → NetMember e ["network-object", "host", w] (.host a)
  | object (w : String) (h : Host) : Known e.netObjs w h → NetMember e ["network-object", "object", w] h
  | masked (w m : String) (x q p : Nat) (n : Net) : x < 2 ^ 32 → w.toList = Dotted x →
      q < 2 ^ 32 → m.toList = Dotted q → MaskText .v4 m.toList p → NetworkOf ⟨.v4, x⟩ p n →
      NetMember e ["network-object", w, m] (.net n)
  | maskedName (w m : String) (x q p : Nat) (n : Net) : Known e.names w ⟨.v4, x⟩ → x < 2 ^ 32 →
      w ∉ ["host", "object"] →
      q < 2 ^ 32 → m.toList = Dotted q → MaskText .v4 m.toList p → NetworkOf ⟨.v4, x⟩ p n →
      NetMember e ["network-object", w, m] (.net n)
  | slash (w : String) (a m : List Char) (x p : Nat) (n : Net) : V6Text a x → w.toList = a ++ '/' :: m →
      (∀ c ∈ m, c.isDigit = true) → MaskText .v6 m p → NetworkOf ⟨.v6, x⟩ p n →
      NetMember e ["network-object", w] (.net n)
  | slashName (w a : String) (m : List Char) (x : Addr) (p : Nat) (n : Net) : Known e.names a x → x.Valid →
      w.toList = a.toList ++ '/' :: m →
      (∀ c ∈ m, c.isDigit = true) → MaskText x.ver m p → NetworkOf x p n → NetMember e ["network-object", w] (.net n)
  | group (w : String) (h : Host) : Known e.netGroups w h → NetMember e ["group-object", w] h

/-- The words of a member of a port group.  The port of `eq` is not kept (C53). -/
inductive PortMemberW (e : Env) : List String → PortMember → Prop
  | eq (w : String) : PortWord w → PortMemberW e ["port-object", "eq", w] (.port "eq" none)
  | range (a b : String) : PortWord a → PortWord b → (DigitText a.toList → DigitText b.toList → a < b) →
      PortMemberW e ["port-object", "range", a, b] (.range a b)
  | group (w : String) (o : Nat) : Known e.portGroups w o → PortMemberW e ["group-object", w] (.group o)

/-- The words of a port condition of a service. -/
inductive OpWords : List String → PortVal → Prop
  | op (o w : String) : o ∈ ["lt", "gt", "eq", "neq"] → PortWord w → OpWords [o, w] (.port o w)
  | range (a b : String) : PortWord a → PortWord b → (DigitText a.toList → DigitText b.toList → a < b) →
      OpWords ["range", a, b] (.range a b)

/-- An optional side of a service. -/
inductive SideWords (key : String) : List String → Option PortVal → Prop
  | none : SideWords key [] none
  | some (ws : List String) (v : PortVal) : OpWords ws v → SideWords key (key :: ws) (some v)

/-- The words of an ICMP service. -/
inductive SvcIcmpWords : List String → Svc → Prop
  | plain (p : String) : p ∈ ["icmp", "icmp6"] → SvcIcmpWords [p] { protocol := p }
  | type (p w : String) : p ∈ ["icmp", "icmp6"] → w ∈ Words.icmpTypes ∨ ByteWord w →
      SvcIcmpWords [p, w] { protocol := p, icmpType := some w }
  | code (p w c : String) : p ∈ ["icmp", "icmp6"] → w ∈ Words.icmpTypes ∨ ByteWord w → ByteWord c →
      SvcIcmpWords [p, w, c] { protocol := p, icmpType := some w, icmpCode := some c }

/-- The words of a service with ports. -/
inductive SvcPortWords : List String → Svc → Prop
  | mk (p : String) (sw dw : List String) (s d : Option PortVal) : p ∈ ["tcp-udp", "tcp", "udp"] →
      SideWords "source" sw s → SideWords "destination" dw d →
      SvcPortWords (p :: (sw ++ dw)) { protocol := p, src := s, dst := d }

/-- The words of a member of a service group. -/
inductive SvcMemberW (e : Env) : List String → SvcMember → Prop
  | icmp (ws : List String) (s : Svc) : SvcIcmpWords ws s → SvcMemberW e ("service-object" :: ws) (.svc s)
  | ports (ws : List String) (s : Svc) : SvcPortWords ws s → SvcMemberW e ("service-object" :: ws) (.svc s)
  | protocol (p : String) : p ∈ Words.protocols → p ∉ ["icmp", "icmp6", "tcp", "udp"] →
      SvcMemberW e ["service-object", p] (.svc { protocol := p })
  | number (p : String) : ByteWord p → SvcMemberW e ["service-object", p] (.svc { protocol := p })
  | object (w : String) (o : Nat) : Known e.svcObjs w o → SvcMemberW e ["service-object", "object", w] (.obj o)
  | group (w : String) (o : Nat) : Known e.svcGroups w o → SvcMemberW e ["group-object", w] (.group o)

/-- The words of a member of an ICMP group. -/
inductive IcmpMemberW (e : Env) : List String → IcmpMember → Prop
  | type (w : String) : w ∈ Words.icmpTypes ∨ ByteWord w → IcmpMemberW e ["icmp-object", w] (.icmp w)
  | group (w : String) (o : Nat) : Known e.icmpGroups w o → IcmpMemberW e ["group-object", w] (.group o)

/-- The words of a member of a protocol group. -/
inductive ProtoMemberW (e : Env) : List String → ProtoMember → Prop
  | protocol (w : String) : IdWord w → ProtoMemberW e ["protocol-object", w] (.protocol w)
  | group (w : String) (o : Nat) : Known e.protoGroups w o → ProtoMemberW e ["group-object", w] (.group o)

/-! ## objects -/

/-- The words of a network object's line and the addresses it stands for. -/
inductive ObjWords : List String → List Host → Prop
  | host (w : String) (a : Addr) : AddrLit w a → ObjWords ["host", w] [.host a]
  | subnet (w m : String) (x q p : Nat) (n : Net) : x < 2 ^ 32 → w.toList = Dotted x →
      q < 2 ^ 32 → m.toList = Dotted q → MaskText .v4 m.toList p → NetworkOf ⟨.v4, x⟩ p n →
      ObjWords ["subnet", w, m] [.net n]
  | subnet6 (w : String) (a m : List Char) (x p : Nat) (n : Net) : V6Text a x → w.toList = a ++ '/' :: m →
      (∀ c ∈ m, c.isDigit = true) → MaskText .v6 m p → NetworkOf ⟨.v6, x⟩ p n → ObjWords ["subnet", w] [.net n]
  | range (w v : String) (a b : Addr) (nets : List Net) : AddrLit w a → AddrLit v b → a.ver = b.ver → a.ip ≤ b.ip →
      RangeBlocks a.ver a.ip b.ip nets → ObjWords ["range", w, v] (nets.map .net)
  | fqdn (w : String) : UrlWord w → w ∉ ["v4", "v6"] → ObjWords ["fqdn", w] [.any]
  | fqdn4 (w : String) : UrlWord w → ObjWords ["fqdn", "v4", w] [.any4]
  | fqdn6 (w : String) : UrlWord w → ObjWords ["fqdn", "v6", w] [.any6]

/-- The words of a service object's line. -/
inductive SvcObjWords : List String → Svc → Prop
  | icmp (ws : List String) (s : Svc) : SvcIcmpWords ws s → SvcObjWords ("service" :: ws) s
  | ports (ws : List String) (s : Svc) : SvcPortWords ws s → SvcObjWords ("service" :: ws) s
  | number (p : String) : ByteWord p → SvcObjWords ["service", p] { protocol := p }

/-! ## time ranges -/

/-- `H:M` -/
def TimeWord (w : String) (t : Time) : Prop :=
  ∃ a b, w.toList = a ++ ':' :: b ∧ DigitText a ∧ a.length ≤ 2 ∧ DigitText b ∧ b.length ≤ 2 ∧
    t = ⟨digitValue a, digitValue b⟩ ∧ t.hour < 24 ∧ t.minute < 60

/-- Time, day, month and year: a date of the Gregorian calendar. -/
inductive DateWords : List String → Date → Prop
  | mk (tw dw mw yw : String) (t : Time) (m k : Nat) : TimeWord tw t →
      DigitText dw.toList → dw.toList.length ≤ 2 → Words.months[m]? = some mw →
      DigitText yw.toList → yw.toList.length = 4 → 1 ≤ digitValue yw.toList →
      Words.MonthLength (digitValue yw.toList) (m + 1) k →
      1 ≤ digitValue dw.toList → digitValue dw.toList ≤ k →
      DateWords [tw, dw, mw, yw] ⟨t, digitValue dw.toList, m + 1, digitValue yw.toList⟩

/-- An optional end of an absolute time range. -/
inductive BoundWords (key : String) : List String → Option Date → Prop
  | none : BoundWords key [] none
  | some (ws : List String) (d : Date) : DateWords ws d → BoundWords key (key :: ws) (some d)

/-- The words of a member of a time range: a single day or a named period (several days: C78), or an absolute range. -/
inductive TimeMemberW : List String → TimeObj → Prop
  | day (d tw uw : String) (t u : Time) : d ∈ Words.weekdays → TimeWord tw t → TimeWord uw u →
      TimeMemberW ["periodic", d, tw, "to", uw] (.periodic [d] t none u)
  | days (d c tw uw : String) (t u : Time) : d ∈ Words.weekdays → c ∈ Words.weekdays → TimeWord tw t → TimeWord uw u →
      TimeMemberW ["periodic", d, tw, "to", c, uw] (.periodic [d] t (some c) u)
  | period (d tw uw : String) (t u : Time) : d ∈ ["weekdays", "weekend", "daily"] → TimeWord tw t → TimeWord uw u →
      TimeMemberW ["periodic", d, tw, "to", uw] (.periodic [d] t none u)
  | absolute (sw ew : List String) (s e : Option Date) : BoundWords "start" sw s → BoundWords "end" ew e →
      TimeMemberW ("absolute" :: (sw ++ ew)) (.absolute s e)

/-! ## interfaces -/

/-- A line of an interface block (without the blank in front) and what it says. -/
inductive IfaceLine : List Char → Ifc.Line → Prop
  | description (b d : List Char) : b ≠ [] → Blanks b → '\n' ∉ d → (∀ c ∈ d.head?, c ≠ ' ' ∧ c ≠ '\t') →
      IfaceLine ("description".toList ++ (b ++ (d ++ ['\n']))) (.description (String.ofList d))
  | nameif (w : String) (l : List Char) : Identifier w → Line ["nameif", w] l → IfaceLine l (.nameif w)
  | ip (a m s : String) (x y z : Nat) (l : List Char) : x < 2 ^ 32 → a.toList = Dotted x → y < 2 ^ 32 →
      m.toList = Dotted y → z < 2 ^ 32 → s.toList = Dotted z →
      Line ["ip", "address", a, m, "standby", s] l → IfaceLine l (.ip a m)
  | ip6 (a m s : String) (x z : Nat) (w : String) (l : List Char) : V6Text a.toList x → DigitText m.toList →
      w.toList = a.toList ++ '/' :: m.toList → V6Text s.toList z →
      Line ["ipv6", "address", w, "standby", s] l → IfaceLine l (.ipv6 (String.ofList (Addr.text ⟨.v6, x⟩)) (some m))
  | plainIp (a m : String) (x y : Nat) (l : List Char) : x < 2 ^ 32 → a.toList = Dotted x → y < 2 ^ 32 →
      m.toList = Dotted y → Line ["ip", "address", a, m] l → IfaceLine l .ignored
  | plainIp6 (a m : List Char) (x : Nat) (w : String) (l : List Char) : V6Text a x → DigitText m →
      w.toList = a ++ '/' :: m → Line ["ipv6", "address", w] l → IfaceLine l .ignored
  | otherAddress (w : String) (b b' u : List Char) : Word w → (∀ c ∈ w.toList.head?, c.isDigit = false) →
      b ≠ [] → Blanks b → b' ≠ [] → Blanks b' → LineRest u →
      IfaceLine ("ip".toList ++ (b ++ ("address".toList ++ (b' ++ (w.toList ++ (u ++ ['\n'])))))) .ignored
  | otherIp (f w : String) (b u : List Char) : f ∈ ["ip", "ipv6"] → Word w → w ≠ "address" → b ≠ [] → Blanks b →
      LineRest u →
      IfaceLine (f.toList ++ (b ++ (w.toList ++ (u ++ ['\n'])))) .ignored
  | other (w : String) (u : List Char) : Word w → w ∉ ["description", "nameif", "ip", "ipv6"] →
      LineRest u → IfaceLine (w.toList ++ (u ++ ['\n'])) .ignored

/-- The lines of an interface block. -/
inductive IfaceLines : List Char → List Ifc.Line → Prop
  | nil : IfaceLines [] []
  | cons (l t : List Char) (v : Ifc.Line) (vs : List Ifc.Line) : IfaceLine l v → IfaceLines t vs →
      IfaceLines (' ' :: (l ++ t)) (v :: vs)

/-! ## commands -/

/-- Lines without line feeds inside, each with the given beginning. -/
inductive Indented : List Char → Prop
  | nil : Indented []
  | cons (l t : List Char) : '\n' ∉ l → Indented t → Indented (' ' :: (l ++ '\n' :: t))

/-- The rest of an ignored command behind its keyword. -/
inductive TailText : Tail → List Char → Prop
  | ws (c : Char) (u : List Char) : c = ' ' ∨ c = '\t' → '\n' ∉ u → TailText .ws (c :: (u ++ ['\n']))
  | eol (u : List Char) : LineRest u → TailText .eol (u ++ ['\n'])
  | optWs (c : Char) (u : List Char) : c = ' ' ∨ c = '\t' → '\n' ∉ u → TailText .optWs (c :: (u ++ ['\n']))
  | optNone (n : List Char) : n = ['\n'] ∨ n = ['\r', '\n'] → TailText .optWs n
  | bare (n : List Char) : n = ['\n'] ∨ n = ['\r', '\n'] → TailText .bare n
  | wsIndent (c : Char) (u l : List Char) : c = ' ' ∨ c = '\t' → '\n' ∉ u → Indented l →
      TailText .wsIndent (c :: (u ++ '\n' :: l))
  | eolIndent (u l : List Char) : LineRest u → Indented l →
      TailText .eolIndent (u ++ '\n' :: l)

/-- The commands that are read over, and how each goes on (fwsm.bnf:225-322). -/
def ignoredForms : List (String × Tail) :=
  [(":", .eol), ("!", .eol), ("aaa-server", .wsIndent), ("aaa", .ws), ("app-agent", .eol),
   ("arp-inspection", .ws), ("arp", .ws), ("asdm", .ws), ("auth-prompt", .ws), ("boot", .eol),
   ("call-home", .eolIndent), ("class-map", .wsIndent), ("clock", .eol), ("console", .ws),
   ("command-alias", .eol), ("Cryptochecksum:", .eol), ("crypto", .wsIndent), ("dhcpd", .ws),
   ("dhcprelay", .ws), ("dns-guard", .eol), ("dns", .eolIndent), ("dynamic-access-policy-record", .wsIndent),
   ("enable", .eol), ("eou", .ws), ("established", .ws), ("failover", .optWs), ("firewall", .eol),
   ("flow-export", .eol), ("fragment", .eol), ("ftp", .eol), ("global", .ws), ("group-policy", .wsIndent),
   ("hpm", .eol), ("http", .ws), ("icmp", .ws), ("ipv6", .ws), ("ip", .ws), ("license", .wsIndent),
   ("ldap", .wsIndent), ("logging", .ws), ("mac-address-table", .eol), ("mac-address", .eol),
   ("management-access", .eol), ("monitor-interface", .ws), ("mtu", .ws), ("multicast-routing", .eol),
   ("nac-policy", .eolIndent), ("names", .bare), ("nat-control", .eol), ("no", .eol), ("ntp", .ws),
   ("pager", .ws), ("passwd", .eol), ("password-policy", .ws), ("policy-map", .wsIndent), ("privilege", .ws),
   ("prompt", .ws), ("resource", .eol), ("router", .wsIndent), ("route", .ws), ("same-security-traffic", .eol),
   ("service-module", .ws), ("service-policy", .ws), ("service", .ws), ("sla", .wsIndent),
   ("snmp-map", .wsIndent), ("snmp-server", .ws), ("smtp-server", .ws), ("ssh", .wsIndent), ("ssl", .ws),
   ("static", .ws), ("sysopt", .ws), ("tcp-map", .wsIndent), ("telnet", .ws), ("terminal", .ws),
   ("tftp-server", .ws), ("threat-detection", .ws), ("timeout", .ws), ("tls-proxy", .ws),
   ("tunnel-group-map", .ws), ("tunnel-group", .wsIndent), ("user-identity", .ws), ("username", .wsIndent),
   ("url-cache", .ws), ("virtual", .eol), ("vpdn", .eol), ("vpn-group-policy", .eol), ("vpn", .eolIndent),
   ("webvpn", .eolIndent), ("xlate-bypass", .eol), ("xlate", .ws)]

/-- A definition of a network object counts only if the name is new. -/
def enter {β : Type} (d : Dict String β) (n : String) (v : β) : Dict String β :=
  if (dGet d n).isSome then d else dSet d n v

/-- A command, the items it adds and what is known behind it. -/
inductive Cmd (s : St) : List Char → List Item → St → Prop
  | version (p v : List Char) : p = "ASA Version ".toList ∨ p = "FWSM Version ".toList → '\n' ∉ v →
      Cmd s (p ++ (v ++ ['\n'])) [.version (p ++ v)] s
  | hostname (w : String) (l : List Char) : Identifier w → Bare ["hostname", w] l → Cmd s l [.hostname w] s
  | domain (w : String) (l : List Char) : Identifier w → Bare ["domain-name", w] l → Cmd s l [.domain w, .nothing] s
  | interface (w : String) (l t : List Char) (vs : List Ifc.Line) (i : Ifc.Intf) : UrlWord w → Bare ["interface", w] l →
      IfaceLines t vs → Ifc.interfaceOf w vs = .ok i →
      Cmd s (l ++ t) [.iface i] { s with ifaces := match i.nameif with
        | some n => dSet (dSet s.ifaces i.alias i) n i
        | none => dSet s.ifaces i.alias i }
  | name (w n : String) (a : Addr) (l : List Char) : AddrLit w a → Identifier n → Bare ["name", w, n] l →
      Cmd s l [.name n a none] { s with env := { s.env with names := dSet s.env.names n a } }
  | nameDescription (w n : String) (a : Addr) (l d : List Char) : AddrLit w a → Identifier n →
      Spaced ["name", w, n, "description"] l → d ≠ [] → LineRest d →
      Cmd s (l ++ (d ++ ['\n'])) [.name n a (some d)] { s with env := { s.env with names := dSet s.env.names n a } }
  | timeRange (w : String) (l t : List Char) (vs : List TimeObj) : UrlWord w → Bare ["time-range", w] l →
      Members TimeMemberW Bare t vs →
      Cmd s (l ++ t) [.timeRange s.next w vs]
        { s with env := { s.env with timeRanges := dSet s.env.timeRanges w s.next }, next := s.next + 1 }
  | netObj (n : String) (ws : List String) (l x dt : List Char) (h : List Host) (d : Option (List Char)) : IdWord n →
      Bare ["object", "network", n] l → ObjWords ws h → Bare ws x → Descr dt d →
      Cmd s (l ++ (' ' :: (x ++ dt))) [.netObj n h none d]
        { s with env := { s.env with netObjs := enter s.env.netObjs n (.obj n h) } }
  | netObjNat (n : String) (ws nw : List String) (l x y dt : List Char) (h : List Host) (a : NatCmd.ObjNat)
      (d : Option (List Char)) : IdWord n → Bare ["object", "network", n] l → ObjWords ws h → Bare ws x →
      ObjNatWords s nw a → Line nw y → Descr dt d →
      Cmd s (l ++ (' ' :: (x ++ (' ' :: (y ++ dt))))) [.netObj n h (NatCmd.objectType ⟨n, some h, some a⟩).2 d]
        { s with env := { s.env with netObjs := enter s.env.netObjs n (.obj n h) } }
  | natOfObj (n : String) (nw : List String) (l y dt : List Char) (a : NatCmd.ObjNat)
      (d : Option (List Char)) : IdWord n → Bare ["object", "network", n] l → ObjNatWords s nw a → Line nw y → Descr dt d →
      Cmd s (l ++ (' ' :: (y ++ dt))) [.netObj n [] (NatCmd.objectType ⟨n, none, some a⟩).2 d]
        { s with env := { s.env with netObjs := enter s.env.netObjs n (.obj n []) } }
  | svcObj (n : String) (ws : List String) (l x dt : List Char) (v : Svc) (d : Option (List Char)) : IdWord n →
      Bare ["object", "service", n] l → SvcObjWords ws v → Bare ws x → Descr dt d →
      Cmd s (l ++ (' ' :: (x ++ dt))) [.svcObj s.next n v d]
        { s with env := { s.env with svcObjs := enter s.env.svcObjs n s.next },
                 svcDefs := s.svcDefs ++ [(s.next, n, v)], next := s.next + 1 }
  | netGroup (n : String) (l dt t : List Char) (d : Option (List Char)) (vs : List Host) : IdWord n →
      Line ["object-group", "network", n] l → Descr dt d → Members (NetMember s.env) Bare t vs →
      Cmd s (l ++ (dt ++ t)) [.netGroup n vs d]
        { s with env := { s.env with netGroups := dSet s.env.netGroups n (.group n vs) } }
  | portGroup (n p : String) (l dt t : List Char) (d : Option (List Char)) (vs : List PortMember) : IdWord n →
      p ∈ ["tcp-udp", "tcp", "udp"] →
      Line ["object-group", "service", n, p] l → Descr dt d → Members (PortMemberW s.env) Bare t vs →
      Cmd s (l ++ (dt ++ t)) [.portGroup s.next n p vs d]
        { s with env := { s.env with portGroups := dSet s.env.portGroups n s.next }, next := s.next + 1 }
  | svcGroup (n : String) (l dt t : List Char) (d : Option (List Char)) (vs : List SvcMember) : IdWord n →
      Line ["object-group", "service", n] l → Descr dt d → Members (SvcMemberW s.env) Line t vs →
      Cmd s (l ++ (dt ++ t)) [.svcGroup s.next n vs d]
        { s with env := { s.env with svcGroups := dSet s.env.svcGroups n s.next }, next := s.next + 1 }
  | icmpGroup (n : String) (l dt t : List Char) (d : Option (List Char)) (vs : List IcmpMember) : IdWord n →
      Line ["object-group", "icmp-type", n] l → Descr dt d → Members (IcmpMemberW s.env) Bare t vs →
      Cmd s (l ++ (dt ++ t)) [.icmpGroup s.next n vs d]
        { s with env := { s.env with icmpGroups := dSet s.env.icmpGroups n s.next }, next := s.next + 1 }
  | protoGroup (n : String) (l dt t : List Char) (d : Option (List Char)) (vs : List ProtoMember) : IdWord n →
      Line ["object-group", "protocol", n] l → Descr dt d → Members (ProtoMemberW s.env) Bare t vs →
      Cmd s (l ++ (dt ++ t)) [.protoGroup s.next n vs d]
        { s with env := { s.env with protoGroups := dSet s.env.protoGroups n s.next }, next := s.next + 1 }
  | rule (rt l : List Char) (rs : List (List Char)) (ws : List String) (r : PRule) : RemarkLines rt rs →
      RuleWords s.env ws r → Line ws l → Cmd s (rt ++ l) [.rule { r with remark := rs }] s
  | accessGroup (n d i : String) (l : List Char) : IdWord n → IdWord d → IdWord i →
      Line ["access-group", n, d, "interface", i] l → Cmd s l [.accessGroup n d i] s
  | accessGroupGlobal (n : String) (l : List Char) : IdWord n → Line ["access-group", n, "global"] l →
      Cmd s l [.nothing] s
  | nat (ws : List String) (c : NatCmd.Cmd) (n : NatCmd.Nat') (l : List Char) : TwiceWords s ws c →
      NatCmd.twiceNat c = .ok (some n) → Line ws l → Cmd s l [.nat n] s
  | natDescription (ws : List String) (c : NatCmd.Cmd) (n : NatCmd.Nat') (l b d : List Char) : TwiceWords s ws c →
      Spaced (ws ++ ["description"]) l → b ≠ [] → Blanks b → '\n' ∉ d → (∀ c ∈ d.head?, c ≠ ' ' ∧ c ≠ '\t') →
      NatCmd.twiceNat { c with options := c.options ++ [("description", some (String.ofList d))] } = .ok (some n) →
      Cmd s (l ++ (b ++ (d ++ ['\n']))) [.nat n] s
  | natPix (w : String) (i : Ifc.Intf) (b u : List Char) : PlainIfaces s → Known s.ifaces w i → b ≠ [] → Blanks b → '\n' ∉ u →
      Cmd s ("nat".toList ++ (b ++ ('(' :: (w.toList ++ ')' :: (u ++ ['\n']))))) [.nothing, .nothing] s
  | ignored (k : String) (f : Tail) (u : List Char) : (k, f) ∈ ignoredForms → k ∉ [":", "!", "Cryptochecksum:"] →
      TailText f u → Cmd s (k.toList ++ u) [.nothing] s
  | comment (k : String) (u : List Char) : k ∈ [":", "!", "Cryptochecksum:"] → '\n' ∉ u →
      Cmd s (k.toList ++ (u ++ ['\n'])) [.nothing] s
  | blank (n : List Char) : n = ['\n'] ∨ n = ['\r', '\n'] → Cmd s n [.nothing] s

/-- Commands one after the other.  Remarks in front of a rule belong to it (`Cmd.rule`); others stand alone. -/
inductive File : St → List Char → List Item → St → Prop
  | nil (s : St) : File s [] [] s
  | cmd (s s' s'' : St) (t u : List Char) (is js : List Item) : Cmd s t is s' → File s' u js s'' →
      File s (t ++ u) (is ++ js) s''
  | remarks (s s' : St) (t u : List Char) (rs : List (List Char)) (js : List Item) : RemarkLines t rs → rs ≠ [] →
      ¬ "access-list".toList <+: u → File s u js s' → File s (t ++ u) (.remarks rs :: js) s'

/-- The same item, where the options of a rule are compared as a dictionary. -/
inductive Same : Item → Item → Prop
  | rule (r r' : PRule) : (∀ k, dGet r'.options k = dGet r.options k) → { r' with options := r.options } = r →
      Same (.rule r) (.rule r')
  | other (i : Item) : Same i i

/-- Item by item the same. -/
inductive SameItems : List Item → List Item → Prop
  | nil : SameItems [] []
  | cons (i j : Item) (is js : List Item) : Same i j → SameItems is js → SameItems (i :: is) (j :: js)

/-- How TatSu treats tokens in front of further characters (`nameguard`): only a token of letters and digits
that begins with a letter is refused, and only in front of a letter or digit. -/
structure NameGuard (g : Lookup.Guard) : Prop where
  passes : ∀ n c t, c.isAlphanum = false → g n (c :: t) = true
  refuses : ∀ n c t, (∃ a l, n.toList = a :: l ∧ a.isAlpha = true) → (∀ d ∈ n.toList, d.isAlphanum = true) →
    c.isAlphanum = true → g n (c :: t) = false
  symbols : ∀ n t, (∃ d ∈ n.toList, d.isAlphanum = false) → g n t = true

end Acltk.FwsmText
