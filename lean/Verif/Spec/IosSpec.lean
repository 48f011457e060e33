import Verif.Model.IosText
import Verif.Spec.FwsmFileSpec
/-!
# Specification: an IOS configuration as a sequence of written commands

Which text stands for which definition, on lines and words, without the grammar.  The words shared with the other
kind of configuration are those of AclTextSpec and FwsmFileSpec.
-/
namespace Acltk.IosText
open Acltk Acltk.AclText
open Acltk.FwsmText (St Bare LineRest Descr Members Indented AddrLit PortMemberW SvcMember SvcIcmpWords SvcPortWords
  IcmpMemberW ProtoMemberW)

/-! ## options -/

/-- The options of a kind of rule: plain keywords, keywords with a value, and keywords that may have one. -/
structure OptForms where
  flags : List String
  values : List String := []
  logs : List String := []

/-- The options of extended rules. -/
def extForms : OptForms :=
  { flags := ["fragments", "established"], values := ["precedence", "dscp", "tos", "time-range"], logs := ["log", "log-input"] }

/-- The options of standard rules. -/
def stdForms : OptForms := { flags := [], logs := ["log"] }

/-- The options of IPv6 rules. -/
def ip6Forms : OptForms :=
  { flags := ["fragments", "log", "mobility", "routing"], values := ["dest-option-type", "dscp", "flow-label", "time-range"] }

/-- What may stand at the end of an IPv6 rule for ICMP. -/
def ip6IcmpForms : OptForms :=
  { flags := ["nd-ns", "nd-na", "router-solicitation", "router-advertisement", "redirect"] ++ Words.icmpTypes }

/-- The words of the options, and the options in the order written.  `log` takes a following word as its value. -/
inductive OptW (f : OptForms) : List String → List (String × Option String) → Prop
  | nil : OptW f [] []
  | flag (k : String) (ws : List String) (os : List (String × Option String)) : k ∈ f.flags → OptW f ws os →
      OptW f (k :: ws) ((k, none) :: os)
  | value (k v : String) (ws : List String) (os : List (String × Option String)) : k ∈ f.values → Identifier v → OptW f ws os →
      OptW f (k :: v :: ws) ((k, some v) :: os)
  | log (k : String) : k ∈ f.logs → OptW f [k] [(k, none)]
  | logWord (k v : String) (ws : List String) (os : List (String × Option String)) : k ∈ f.logs → Identifier v → OptW f ws os →
      OptW f (k :: v :: ws) ((k, some v) :: os)

/-- The dictionary holds the last option of each name. -/
def OptionsAre (d : Dict String (Option String)) (os : List (String × Option String)) : Prop :=
  ∀ k, dGet d k = ((os.filter (fun o => o.1 == k)).getLast?).map (·.2)

/-! ## hosts -/

/-- The words of a host in a standard list or a named list: an address and a wildcard, an address, a group, anything.
A wildcard that is also the text of a netmask is read as that netmask (C20). -/
inductive HostW (e : Env) : List String → Host → Prop
  | network (w m : String) (x q p : Nat) (n : Net) : x < 2 ^ 32 → w.toList = Dotted x → q < 2 ^ 32 →
      m.toList = Dotted q → MaskText .v4 m.toList p → NetworkOf ⟨.v4, x⟩ p n → HostW e [w, m] (.net n)
  | wildcard (w m : String) (x q : Nat) : x < 2 ^ 32 → w.toList = Dotted x → q < 2 ^ 32 →
      m.toList = Dotted q → (∀ p, ¬ MaskText .v4 m.toList p) → HostW e [w, m] (.wild x q)
  | address (w : String) (x : Nat) : x < 2 ^ 32 → w.toList = Dotted x → HostW e [w] (.host ⟨.v4, x⟩)
  | host (w : String) (x : Nat) : x < 2 ^ 32 → w.toList = Dotted x → HostW e ["host", w] (.host ⟨.v4, x⟩)
  | group (w : String) (h : Host) : Known e.netGroups w h → HostW e ["object-group", w] h
  | any : HostW e ["any"] .any

/-- A host, and a port condition or none. -/
inductive NodeW (e : Env) (H : List String → Host → Prop) : List String → PNode → Prop
  | host (hw : List String) (h : Host) : H hw h → NodeW e H hw ⟨h, none⟩
  | port (hw pw : List String) (h : Host) (p : PortVal) : H hw h → PortWords e pw p → NodeW e H (hw ++ pw) ⟨h, some p⟩

/-- A single address in front of another address: the two are read as address and wildcard. -/
def Joined (sw dw : List String) : Prop :=
  (∃ w x, sw = [w] ∧ x < 2 ^ 32 ∧ w.toList = Dotted x) ∧ ∃ v vl y, dw = v :: vl ∧ y < 2 ^ 32 ∧ v.toList = Dotted y

/-- The words of an IPv6 host. -/
inductive Host6W : List String → Host → Prop
  | network (w : String) (a m : List Char) (x p : Nat) (n : Net) : V6Text a x → w.toList = a ++ '/' :: m →
      (∀ c ∈ m, c.isDigit = true) → MaskText .v6 m p → NetworkOf ⟨.v6, x⟩ p n → Host6W [w] (.net n)
  | host (w : String) (x : Nat) : V6Text w.toList x → Host6W ["host", w] (.host ⟨.v6, x⟩)
  | any : Host6W ["any"] .any

/-! ## rules -/

/-- The words of an extended rule behind the number or the name of its list; `H` for its hosts. -/
inductive ExtBody (e : Env) (H : List String → Host → Prop) : List String → IRule → Prop
  | general (m : String) (pw sw dw ow : List String) (p : Proto) (s d : PNode) (o : Dict String (Option String))
      (os : List (String × Option String)) : m ∈ ["permit", "deny"] → ProtoWords e pw p → pw ≠ ["icmp"] → pw ≠ ["icmp6"] →
      NodeW e H sw s → NodeW e H dw d → ¬ Ambiguous e s dw → ¬ Joined sw dw → OptW extForms ow os → OptionsAre o os →
      ExtBody e H (m :: (pw ++ (sw ++ (dw ++ ow)))) { id := "", mode := m, protocol := p, src := s, dst := d, options := o }
  | icmp (m p : String) (sw dw cw ow : List String) (s d : Host) (c : Option IcmpVal) (o : Dict String (Option String))
      (os : List (String × Option String)) : m ∈ ["permit", "deny"] → p ∈ ["icmp", "icmp6"] → H sw s → H dw d →
      ¬ Joined sw dw → IcmpWords e cw c → OptW extForms ow os → OptionsAre o os →
      ExtBody e H (m :: p :: (sw ++ (dw ++ (cw ++ ow))))
        { id := "", mode := m, protocol := .name p, src := ⟨s, none⟩, dst := ⟨d, none⟩, options := o, icmp := c }

/-- The words of a standard rule: everything from the host to anywhere, protocol ip. -/
inductive StdBody (e : Env) : List String → IRule → Prop
  | mk (m : String) (sw ow : List String) (s : Host) (o : Dict String (Option String)) (os : List (String × Option String)) :
      m ∈ ["permit", "deny"] → HostW e sw s → OptW stdForms ow os → OptionsAre o os →
      StdBody e (m :: (sw ++ ow))
        { id := "", mode := m, protocol := .name "ip", src := ⟨s, none⟩, dst := ⟨.any, none⟩, options := o }

/-- The number of a standard list: 1-99 or 1300-1399 (1400-1999 are not read, C81). -/
def StdNumber (i : String) : Prop := ∃ n, (1 ≤ n ∧ n ≤ 99 ∨ 1300 ≤ n ∧ n ≤ 1399) ∧ i = toString n

/-- The number of an extended list: 100-199 or 2000-2699. -/
def ExtNumber (i : String) : Prop := ∃ n, (100 ≤ n ∧ n ≤ 199 ∨ 2000 ≤ n ∧ n ≤ 2699) ∧ i = toString n

/-- The words of a rule of a numbered list. -/
inductive NumRule (e : Env) : List String → IRule → Prop
  | extended (i : String) (ws : List String) (r : IRule) : ExtNumber i → ExtBody e (HostWords e) ws r →
      NumRule e ("access-list" :: i :: ws) { r with id := i }
  | standard (i : String) (ws : List String) (r : IRule) : StdNumber i → StdBody e ws r →
      NumRule e ("access-list" :: i :: ws) { r with id := i }

/-- Remarks in front of a rule of a numbered list: the text of a remark is everything from the first character that
is no blank up to the line feed. -/
inductive NumRemarks : List Char → List (List Char) → Prop
  | nil : NumRemarks [] []
  | cons (i : String) (h b r t : List Char) (rs : List (List Char)) : IdWord i → Spaced ["access-list", i, "remark"] h →
      b ≠ [] → Blanks b → '\n' ∉ r → (∀ c ∈ r.head?, c ≠ ' ' ∧ c ≠ '\t') → NumRemarks t rs →
      NumRemarks (h ++ (b ++ (r ++ '\n' :: t))) (r :: rs)

/-- An optional sequence number. -/
inductive SeqW : List String → Prop
  | none : SeqW []
  | some (n : String) : DigitText n.toList → SeqW [n]

/-- Remarks inside a named list: one blank, an optional number, `remark`, a blank and the text. -/
inductive Remarks : List Char → List (List Char) → Prop
  | nil : Remarks [] []
  | cons (sq : List String) (h r t : List Char) (rs : List (List Char)) : SeqW sq → Spaced (sq ++ ["remark"]) h → '\n' ∉ r →
      Remarks t rs → Remarks (' ' :: (h ++ (' ' :: (r ++ '\n' :: t)))) (r :: rs)

/-- The entries of a named list: rules, each with the remarks in front of it. -/
inductive Entries (B : List String → IRule → Prop) : List Char → List IRule → Prop
  | nil : Entries B [] []
  | cons (rt l t : List Char) (rs : List (List Char)) (sq ws : List String) (r : IRule) (l' : List IRule) : Remarks rt rs →
      SeqW sq → B ws r → Bare (sq ++ ws) l → Entries B t l' →
      Entries B (rt ++ (' ' :: (l ++ t))) ({ r with remark := rs } :: l')

/-- The words of an IPv6 rule behind its sequence number. -/
inductive Ip6Body (e : Env) : List String → IRule → Prop
  | general (n m : String) (pw sw dw ow : List String) (p : Proto) (s d : PNode) (o : Dict String (Option String))
      (os : List (String × Option String)) : DigitText n.toList → m ∈ ["permit", "deny"] → ProtoWords e pw p →
      NodeW e Host6W sw s → NodeW e Host6W dw d → OptW ip6Forms ow os → OptionsAre o (os ++ [("sequence", some n)]) →
      Ip6Body e ("sequence" :: n :: m :: (pw ++ (sw ++ (dw ++ ow))))
        { id := "", mode := m, protocol := p, src := s, dst := d, options := o }
  | icmp (n m p : String) (sw dw ow : List String) (s d : PNode) (o : Dict String (Option String))
      (os : List (String × Option String)) : DigitText n.toList → m ∈ ["permit", "deny"] → p ∈ ["icmp", "icmp6"] →
      NodeW e Host6W sw s → NodeW e Host6W dw d → OptW ip6IcmpForms ow os → ow ≠ [] →
      OptionsAre o (os ++ [("sequence", some n)]) →
      Ip6Body e ("sequence" :: n :: m :: p :: (sw ++ (dw ++ ow)))
        { id := "", mode := m, protocol := .name p, src := s, dst := d, options := o }

/-! ## groups -/

/-- The words of a member of a network group. -/
inductive NetMemberW (e : Env) : List String → Host → Prop
  | host (w : String) (a : Addr) : AddrWord e w a → NetMemberW e ["host", w] (.host a)
  | masked (w m : String) (x q p : Nat) (n : Net) : x < 2 ^ 32 → w.toList = Dotted x →
      q < 2 ^ 32 → m.toList = Dotted q → MaskText .v4 m.toList p → NetworkOf ⟨.v4, x⟩ p n → NetMemberW e [w, m] (.net n)
  | slash (w : String) (a m : List Char) (x p : Nat) (n : Net) : V6Text a x → w.toList = a ++ '/' :: m →
      (∀ c ∈ m, c.isDigit = true) → MaskText .v6 m p → NetworkOf ⟨.v6, x⟩ p n → NetMemberW e [w] (.net n)
  | group (w : String) (h : Host) : Known e.netGroups w h → NetMemberW e ["group-object", w] h

/-- The line of a member of a network group: blanks may stand at its end, but not behind the name of a group. -/
inductive NetLine : List String → List Char → Prop
  | bare (ws : List String) (l : List Char) : Bare ws l → NetLine ws l
  | line (ws : List String) (l : List Char) : ws.head? ≠ some "group-object" → Line ws l → NetLine ws l

/-- The words of a member of a service group. -/
inductive SvcMemberW (e : Env) : List String → SvcMember → Prop
  | icmp (ws : List String) (s : FwsmText.Svc) : SvcIcmpWords ws s → SvcMemberW e ws (.svc s)
  | ports (ws : List String) (s : FwsmText.Svc) : SvcPortWords ws s → SvcMemberW e ws (.svc s)
  | protocol (p : String) : p ∈ Words.protocols → p ∉ ["icmp", "icmp6", "tcp", "udp"] → SvcMemberW e [p] (.svc { protocol := p })
  | number (p : String) : ByteWord p → SvcMemberW e [p] (.svc { protocol := p })
  | group (w : String) (o : Nat) : Known e.svcGroups w o → SvcMemberW e ["group-object", w] (.group o)

/-! ## interfaces -/

/-- The text of a VLAN or a range of VLANs. -/
inductive VlanText : List Char → Ifc.Vlan → Prop
  | one (a : List Char) : DigitText a → VlanText a (.one (String.ofList a))
  | range (a b : List Char) : DigitText a → DigitText b → VlanText (a ++ '-' :: b) (.range (String.ofList a) (String.ofList b))

/-- VLANs and ranges with commas between them. -/
inductive VlansText : List Char → List Ifc.Vlan → Prop
  | one (t : List Char) (v : Ifc.Vlan) : VlanText t v → VlansText t [v]
  | cons (t u : List Char) (v : Ifc.Vlan) (l : List Ifc.Vlan) : VlanText t v → VlansText u l → VlansText (t ++ ',' :: u) (v :: l)

/-- A line of an interface block (without the blank in front) and what it says. -/
inductive IfaceLine : List Char → Ifc.Line → Prop
  | description (b d : List Char) : b ≠ [] → Blanks b → '\n' ∉ d → (∀ c ∈ d.head?, c ≠ ' ' ∧ c ≠ '\t') →
      IfaceLine ("description".toList ++ (b ++ (d ++ ['\n']))) (.description (String.ofList d))
  | ip (a m : String) (more : List String) (x y : Nat) (l : List Char) : x < 2 ^ 32 → a.toList = Dotted x → y < 2 ^ 32 →
      m.toList = Dotted y → more = [] ∨ more = ["secondary"] → Line ("ip" :: "address" :: a :: m :: more) l →
      IfaceLine l (.ip a m)
  | accessGroup (n d : String) (l : List Char) : IdWord n → d ∈ ["in", "out"] → Line ["ip", "access-group", n, d] l →
      IfaceLine l (.ipAccessGroup n d)
  | ip6 (a m w : String) (more : List String) (x : Nat) (l : List Char) : V6Text a.toList x → DigitText m.toList →
      w.toList = a.toList ++ '/' :: m.toList → more = [] ∨ more = ["link-local"] →
      Line ("ipv6" :: "address" :: w :: more) l → IfaceLine l (.ipv6 (String.ofList (Addr.text ⟨.v6, x⟩)) (some m))
  | ip6Host (a : String) (more : List String) (x : Nat) (l : List Char) : V6Text a.toList x →
      more = [] ∨ more = ["link-local"] → Line ("ipv6" :: "address" :: a :: more) l →
      IfaceLine l (.ipv6 (String.ofList (Addr.text ⟨.v6, x⟩)) none)
  | trafficFilter (n d : String) (l : List Char) : IdWord n → d ∈ ["in", "out"] → Line ["ipv6", "traffic-filter", n, d] l →
      IfaceLine l (.ipv6Filter n d)
  | switchMode (m : String) (h u : List Char) : m ∈ ["access", "trunk"] → Spaced ["switchport", "mode", m] h → LineRest u →
      IfaceLine (h ++ (u ++ ['\n'])) (.switch (.mode m))
  | trunkSet (h b v u : List Char) (l : List Ifc.Vlan) : Spaced ["switchport", "trunk", "allowed", "vlan"] h → b ≠ [] → Blanks b →
      VlansText v l → LineRest u → IfaceLine (h ++ (b ++ (v ++ (u ++ ['\n'])))) (.switch (.trunkSet l))
  | trunkAdd (h b v u : List Char) (l : List Ifc.Vlan) : Spaced ["switchport", "trunk", "allowed", "vlan", "add"] h → b ≠ [] →
      Blanks b → VlansText v l → LineRest u → IfaceLine (h ++ (b ++ (v ++ (u ++ ['\n'])))) (.switch (.trunkAdd l))
  | otherAddress (w : String) (b b' u : List Char) : Word w → (∀ c ∈ w.toList.head?, c.isDigit = false) →
      b ≠ [] → Blanks b → b' ≠ [] → Blanks b' → LineRest u →
      IfaceLine ("ip".toList ++ (b ++ ("address".toList ++ (b' ++ (w.toList ++ (u ++ ['\n'])))))) .ignored
  | otherIp (f w : String) (b u : List Char) : f ∈ ["ip", "ipv6"] → Word w →
      w ∉ ["address", "access-group", "traffic-filter"] → b ≠ [] → Blanks b → LineRest u →
      IfaceLine (f.toList ++ (b ++ (w.toList ++ (u ++ ['\n'])))) .ignored
  | otherSwitch (w : String) (b u : List Char) : Word w → w ∉ ["mode", "trunk"] → b ≠ [] → Blanks b → LineRest u →
      IfaceLine ("switchport".toList ++ (b ++ (w.toList ++ (u ++ ['\n'])))) .ignored
  | other (w : String) (u : List Char) : Word w → w ∉ ["description", "ip", "ipv6", "switchport"] → LineRest u →
      IfaceLine (w.toList ++ (u ++ ['\n'])) .ignored

/-- The lines of an interface block. -/
inductive IfaceLines : List Char → List Ifc.Line → Prop
  | nil : IfaceLines [] []
  | cons (l t : List Char) (v : Ifc.Line) (vs : List Ifc.Line) : IfaceLine l v → IfaceLines t vs →
      IfaceLines (' ' :: (l ++ t)) (v :: vs)

/-! ## ignored commands -/

/-- The rest of an ignored command behind its keyword. -/
inductive TailText : Tail → List Char → Prop
  | ws (c : Char) (u : List Char) : c = ' ' ∨ c = '\t' → '\n' ∉ u → TailText .ws (c :: (u ++ ['\n']))
  | eol (u : List Char) : LineRest u → TailText .eol (u ++ ['\n'])
  | bare (n : List Char) : n = ['\n'] ∨ n = ['\r', '\n'] → TailText .bare n
  | wsIndent (c : Char) (u l : List Char) : c = ' ' ∨ c = '\t' → '\n' ∉ u → Indented l → TailText .wsIndent (c :: (u ++ '\n' :: l))
  | eolIndent (u l : List Char) : LineRest u → Indented l → TailText .eolIndent (u ++ '\n' :: l)
  | bareIndent (n l : List Char) : n = ['\n'] ∨ n = ['\r', '\n'] → Indented l → TailText .bareIndent (n ++ l)

/-- The commands that are read over, and how each goes on (ios.bnf:333-402). -/
def ignoredForms : List (String × Tail) :=
  [("!", .eol), (":", .eol), ("aaa", .eol), ("alias", .eol), ("appfw", .eolIndent), ("archive", .eolIndent), ("arp", .eol),
   ("boot-start-marker", .bare), ("boot-end-marker", .bare), ("boot", .eol), ("bridge", .eol), ("call-home", .eolIndent),
   ("class-map", .wsIndent), ("clock", .eol), ("control-plane", .bareIndent), ("crypto", .eolIndent), ("cts", .eol),
   ("diagnostic", .eol), ("dialer-list", .eol), ("dial-peer", .eol), ("dot11", .eolIndent), ("enable", .eol),
   ("encryption", .eol), ("errdisable", .eol), ("file", .eol), ("firewall", .eol), ("hw-module", .eol), ("isdn", .eol),
   ("key", .eolIndent), ("license", .eol), ("lldp", .eol), ("logging", .eol), ("login", .eol),
   ("mac-address-table", .eol), ("mac-address", .eol), ("memory", .eol), ("mls", .eol), ("mmi", .eol), ("multilink", .eol),
   ("no", .eol), ("platform", .ws), ("policy-map", .wsIndent), ("port-channel", .eol), ("power", .eol),
   ("redundancy", .eolIndent), ("resource", .eol), ("rmon", .eol), ("route-map", .eolIndent), ("router", .eolIndent),
   ("rtr", .eol), ("security", .eol), ("switch", .eol), ("service", .eol), ("snmp-server", .eol), ("snmp", .eol),
   ("spanning-tree", .eol), ("system", .eol), ("transceiver", .eolIndent), ("username", .eol),
   ("vlan", .eolIndent), ("vpdn", .eolIndent), ("vrf", .eolIndent), ("vtp", .eol), ("wism", .eol)]

/-- The commands behind `ip` that are read over (ios.bnf:404-438), but for routes and address pools. -/
def ipForms : List (String × Tail) :=
  [("cef", .bare), ("as-path", .eol), ("inspect", .eol), ("name-server", .eol),
   ("http", .eol), ("nat", .eol), ("subnet-zero", .bare),
   ("tcp", .eol), ("scp", .eol), ("ssh", .eolIndent), ("classless", .bare), ("forward-protocol", .eol), ("ips", .eol),
   ("flow-cache", .eol), ("flow-export", .eol), ("vrf", .eolIndent), ("multicast-routing", .eol),
   ("accounting-threshold", .eol), ("host", .eol), ("ftp", .eol), ("default-gateway", .eol), ("sla", .eolIndent),
   ("slb", .eolIndent), ("flow-aggregation", .eolIndent), ("flow-top-talkers", .eolIndent), ("prefix-list", .eol),
   ("pim", .eol), ("routing", .eol), ("tftp", .eol)]

/-- Lines of an address pool: none has a parenthesis, an exclamation mark or a bar. -/
inductive PoolLines : List Char → Prop
  | nil : PoolLines []
  | cons (l t : List Char) : (∀ c ∈ l, c ∉ ['(', ')', '!', '|', '\n']) → PoolLines t → PoolLines (l ++ '\n' :: t)

/-! ## commands -/

/-- The gateway of a route. -/
inductive GatewayW (s : St) : String → Gateway → Prop
  | address (w : String) (x : Nat) : x < 2 ^ 32 → w.toList = Dotted x → GatewayW s w (.addr ⟨.v4, x⟩)
  | interface (w : String) (i : Ifc.Intf) : Known s.ifaces w i → (∀ c ∈ w.toList.head?, c.isDigit = false) →
      GatewayW s w (.iface i)

/-- A command, the items it adds and what is known behind it. -/
inductive Cmd (s : St) : List Char → List Item → St → Prop
  | version (u : List Char) : LineRest u → Cmd s ("version".toList ++ (u ++ ['\n'])) [.base (.version u)] s
  | hostname (w : String) (l : List Char) : Identifier w → Bare ["hostname", w] l → Cmd s l [.base (.hostname w)] s
  | domain (w : String) (l : List Char) : Identifier w → Bare ["domain-name", w] l →
      Cmd s l [.base (.domain w), .base .nothing] s
  | ipDomain (w : String) (b b' n : List Char) : IdWord w → b ≠ [] → Blanks b → b' ≠ [] → Blanks b' →
      n = ['\n'] ∨ n = ['\r', '\n'] →
      Cmd s ("ip".toList ++ (b ++ ("domain name".toList ++ (b' ++ (w.toList ++ n))))) [.base (.domain w), .base .nothing] s
  | interface (w : String) (l t : List Char) (vs : List Ifc.Line) (i : Ifc.Intf) : UrlWord w → Bare ["interface", w] l →
      IfaceLines t vs → Ifc.interfaceOf w vs = .ok i →
      Cmd s (l ++ t) [.base (.iface i)] { s with ifaces := dSet s.ifaces w i }
  | netGroup (n : String) (l dt t : List Char) (d : Option (List Char)) (vs : List Host) : IdWord n →
      Line ["object-group", "network", n] l → Descr dt d → Members (NetMemberW s.env) NetLine t vs →
      Cmd s (l ++ (dt ++ t)) [.base (.netGroup n vs d)]
        { s with env := { s.env with netGroups := dSet s.env.netGroups n (.group n vs) } }
  | portGroup (n p : String) (l dt t : List Char) (d : Option (List Char)) (vs : List FwsmText.PortMember) : IdWord n →
      p ∈ ["tcp-udp", "tcp", "udp"] → Line ["object-group", "service", n, p] l → Descr dt d →
      Members (PortMemberW s.env) Bare t vs →
      Cmd s (l ++ (dt ++ t)) [.base (.portGroup s.next n p vs d)]
        { s with env := { s.env with portGroups := dSet s.env.portGroups n s.next }, next := s.next + 1 }
  | svcGroup (n : String) (l dt t : List Char) (d : Option (List Char)) (vs : List SvcMember) : IdWord n →
      Line ["object-group", "service", n] l → Descr dt d → Members (SvcMemberW s.env) Line t vs →
      Cmd s (l ++ (dt ++ t)) [.base (.svcGroup s.next n vs d)]
        { s with env := { s.env with svcGroups := dSet s.env.svcGroups n s.next }, next := s.next + 1 }
  | icmpGroup (n : String) (l dt t : List Char) (d : Option (List Char)) (vs : List FwsmText.IcmpMember) : IdWord n →
      Line ["object-group", "icmp-type", n] l → Descr dt d → Members (IcmpMemberW s.env) Bare t vs →
      Cmd s (l ++ (dt ++ t)) [.base (.icmpGroup s.next n vs d)]
        { s with env := { s.env with icmpGroups := dSet s.env.icmpGroups n s.next }, next := s.next + 1 }
  | protoGroup (n : String) (l dt t : List Char) (d : Option (List Char)) (vs : List FwsmText.ProtoMember) : IdWord n →
      Line ["object-group", "protocol", n] l → Descr dt d → Members (ProtoMemberW s.env) Bare t vs →
      Cmd s (l ++ (dt ++ t)) [.base (.protoGroup s.next n vs d)]
        { s with env := { s.env with protoGroups := dSet s.env.protoGroups n s.next }, next := s.next + 1 }
  | rule (rt l : List Char) (rs : List (List Char)) (ws : List String) (r : IRule) : NumRemarks rt rs → NumRule s.env ws r →
      Bare ws l → Cmd s (rt ++ l) [.rule { r with remark := rs }] s
  | extended (n : String) (l t : List Char) (rs : List IRule) : IdWord n → Bare ["ip", "access-list", "extended", n] l →
      Entries (ExtBody s.env (HostW s.env)) t rs →
      Cmd s (l ++ t) [.rules (rs.map (fun r => { r with id := n, extended := some "extended" }))] s
  | standard (n : String) (l t : List Char) (rs : List IRule) : IdWord n → Bare ["ip", "access-list", "standard", n] l →
      Entries (StdBody s.env) t rs →
      Cmd s (l ++ t) [.rules (rs.map (fun r => { r with id := n, extended := some "standard" }))] s
  | ipv6List (n : String) (l t : List Char) (rs : List IRule) : IdWord n → Bare ["ipv6", "access-list", n] l →
      Members (Ip6Body s.env) Bare t rs → rs ≠ [] → Cmd s (l ++ t) [.rules (rs.map (fun r => { r with id := n }))] s
  | route (w m v : String) (x q p : Nat) (n : Net) (gw : Gateway) (l : List Char) : x < 2 ^ 32 → w.toList = Dotted x →
      q < 2 ^ 32 → m.toList = Dotted q → MaskText .v4 m.toList p → NetworkOf ⟨.v4, x⟩ p n → n.addr = x → GatewayW s v gw →
      Bare ["ip", "route", w, m, v] l → Cmd s l [.route ⟨n, gw⟩] s
  | routeMore (w m v : String) (x q : Nat) (gw : Gateway) (h u : List Char) (c : Char) : x < 2 ^ 32 → w.toList = Dotted x →
      q < 2 ^ 32 → m.toList = Dotted q → GatewayW s v gw → Spaced ["ip", "route", w, m, v] h → c = ' ' ∨ c = '\t' → '\n' ∉ u →
      Cmd s (h ++ (c :: (u ++ ['\n']))) [.base .nothing] s
  | routeUnknown (w m v : String) (x q : Nat) (h u : List Char) : x < 2 ^ 32 → w.toList = Dotted x →
      q < 2 ^ 32 → m.toList = Dotted q → Word v → (∀ c ∈ v.toList.head?, c.isDigit = false) → (∀ i, ¬ Known s.ifaces v i) →
      Spaced ["ip", "route", w, m, v] h → LineRest u → Cmd s (h ++ (u ++ ['\n'])) [.base .nothing] s
  | ipDomainIgnored (b u : List Char) : b ≠ [] → Blanks b → '\n' ∉ u → (∀ c ∈ u.head?, c.isAlphanum = false) →
      ¬ " name".toList <+: u → Cmd s ("ip".toList ++ (b ++ ("domain".toList ++ (u ++ ['\n'])))) [.base .nothing] s
  | excluded (b u : List Char) : b ≠ [] → Blanks b → '\n' ∉ u →
      Cmd s ("ip".toList ++ (b ++ ("dhcp excluded-address".toList ++ (u ++ ['\n'])))) [.base .nothing] s
  | ipIgnored (k : String) (f : Tail) (b u : List Char) : (k, f) ∈ ipForms → b ≠ [] → Blanks b → TailText f u →
      Cmd s ("ip".toList ++ (b ++ (k.toList ++ u))) [.base .nothing] s
  | pool (b l v : List Char) : b ≠ [] → Blanks b → PoolLines l → l ≠ [] → l.head? = some ' ' ∨ l.head? = some '\t' → '\n' ∉ v →
      Cmd s ("ip".toList ++ (b ++ ("dhcp pool".toList ++ (l ++ ('!' :: (v ++ ['\n'])))))) [.base .nothing, .base .nothing] s
  | ipv6Routing (b u : List Char) : b ≠ [] → Blanks b → LineRest u →
      Cmd s ("ipv6".toList ++ (b ++ ("unicast-routing".toList ++ (u ++ ['\n'])))) [.base .nothing, .base .nothing] s
  | ipv6Ignored (k : String) (b b' u : List Char) : k ∈ ["nd", "route", "prefix-list"] → b ≠ [] → Blanks b → b' ≠ [] → Blanks b' →
      '\n' ∉ u → (∀ c ∈ u.head?, c ≠ ' ' ∧ c ≠ '\t') →
      Cmd s ("ipv6".toList ++ (b ++ (k.toList ++ (b' ++ (u ++ ['\n']))))) [.base .nothing, .base .nothing] s
  | banner (b b' m : List Char) (d : Char) (n : List Char) : b ≠ [] → Blanks b → b' ≠ [] → Blanks b' → d.toNat < 128 →
      d ∉ ['^', ' ', '\t', '\n'] → d ∉ m → n = ['\n'] ∨ n = ['\r', '\n'] →
      Cmd s ("banner".toList ++ (b ++ ("motd".toList ++ (b' ++ (d :: (m ++ (d :: n))))))) [.base .nothing] s
  | bannerCaret (b b' m n : List Char) : b ≠ [] → Blanks b → b' ≠ [] → Blanks b' → '^' ∉ m → n = ['\n'] ∨ n = ['\r', '\n'] →
      Cmd s ("banner".toList ++ (b ++ ("motd".toList ++ (b' ++ ('^' :: 'C' :: (m ++ ('^' :: 'C' :: n))))))) [.base .nothing] s
  | defineRange (b u : List Char) : b ≠ [] → Blanks b → '\n' ∉ u →
      Cmd s ("define".toList ++ (b ++ ("interface-range".toList ++ (u ++ ['\n'])))) [.base .nothing] s
  | ignored (k : String) (f : Tail) (u : List Char) : (k, f) ∈ ignoredForms → k ∉ [":", "!"] → TailText f u →
      Cmd s (k.toList ++ u) [.base .nothing] s
  | comment (k : String) (u : List Char) : k ∈ [":", "!", "Current configuration"] → '\n' ∉ u →
      Cmd s (k.toList ++ (u ++ ['\n'])) [.base .nothing] s
  | blank (n : List Char) : n = ['\n'] ∨ n = ['\r', '\n'] → Cmd s n [.base .nothing] s

/-- Commands one after the other. -/
inductive File : St → List Char → List Item → St → Prop
  | nil (s : St) : File s [] [] s
  | cmd (s s' s'' : St) (t u : List Char) (is js : List Item) : Cmd s t is s' → File s' u js s'' →
      File s (t ++ u) (is ++ js) s''

/-- What ends a configuration: nothing, or the word `line` or `end`; the rest is not looked at. -/
inductive Ends : List Char → Prop
  | eof : Ends []
  | word (k : String) (u : List Char) : k ∈ ["line", "end"] →
      (∃ v, u = ' ' :: v ∨ u = '\t' :: v ∨ u = '\n' :: v ∨ u = '\r' :: '\n' :: v) → Ends (k.toList ++ u)

/-- The same rule, where the options are compared as a dictionary. -/
def SameRule (r r' : IRule) : Prop := (∀ k, dGet r'.options k = dGet r.options k) ∧ { r' with options := r.options } = r

/-- Rule by rule the same. -/
inductive SameRules : List IRule → List IRule → Prop
  | nil : SameRules [] []
  | cons (r r' : IRule) (l l' : List IRule) : SameRule r r' → SameRules l l' → SameRules (r :: l) (r' :: l')

/-- The same item. -/
inductive Same : Item → Item → Prop
  | rule (r r' : IRule) : SameRule r r' → Same (.rule r) (.rule r')
  | rules (l l' : List IRule) : SameRules l l' → Same (.rules l) (.rules l')
  | other (i : Item) : Same i i

/-- Item by item the same. -/
inductive SameItems : List Item → List Item → Prop
  | nil : SameItems [] []
  | cons (i j : Item) (is js : List Item) : Same i j → SameItems is js → SameItems (i :: is) (j :: js)

end Acltk.IosText
