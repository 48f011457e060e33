import Verif.Model.AclText
import Verif.Spec.AddrTextSpec
import Verif.Spec.PortSpec
import Verif.Spec.Words
/-!
# Specification: access-list lines as sequences of words

Written on words, without the grammar: which words stand for which host, port, protocol, option and
rule.
-/
namespace Acltk.AclText
open Acltk

/-- A word: not empty, without blanks, tabs and line ends. -/
def Word (w : String) : Prop := w.toList ≠ [] ∧ ∀ c ∈ w.toList, c ∉ [' ', '\t', '\n', '\r']

/-- Only blanks and tabs. -/
def Blanks (b : List Char) : Prop := ∀ c ∈ b, c = ' ' ∨ c = '\t'

/-- The text consists of these words, separated by runs of blanks and tabs. -/
inductive Spaced : List String → List Char → Prop
  | one (w : String) : Spaced [w] w.toList
  | cons (w : String) (b : List Char) (ws : List String) (t : List Char) :
      b ≠ [] → Blanks b → Spaced ws t → Spaced (w :: ws) (w.toList ++ (b ++ t))

/-- A line made of these words; blanks may stand at its end. -/
def Line (ws : List String) (text : List Char) : Prop :=
  ∃ t b n, Spaced ws t ∧ Blanks b ∧ (n = ['\n'] ∨ n = ['\r', '\n']) ∧ text = t ++ (b ++ n)

/-- The name of an access list: letters, digits, `_ - . +`. -/
def IdWord (w : String) : Prop :=
  w.toList ≠ [] ∧ ∀ c ∈ w.toList, c.isAlphanum = true ∨ c ∈ ['_', '-', '.', '+']

/-- An identifier: a letter or `_`, then letters, digits, `_ - .`. -/
def Identifier (w : String) : Prop :=
  ∃ c t, w.toList = c :: t ∧ (c.isAlpha = true ∨ c = '_') ∧
    ∀ d ∈ t, d.isAlphanum = true ∨ d ∈ ['_', '-', '.']

/-- What a table gives for a name. -/
abbrev Known {β : Type} (d : Dict String β) (n : String) (v : β) : Prop := dGet d n = some v

/-- The word is an address, or the name of one. -/
inductive AddrWord (e : Env) (w : String) : Addr → Prop
  | v4 (n : Nat) : n < 2 ^ 32 → w.toList = Dotted n → AddrWord e w ⟨.v4, n⟩
  | v6 (n : Nat) : V6Text w.toList n → AddrWord e w ⟨.v6, n⟩
  | name (a : Addr) : Known e.names w a → AddrWord e w a

/-- The network of prefix length `p` the address `x` belongs to. -/
def NetworkOf (x : Addr) (p : Nat) (n : Net) : Prop :=
  n.ver = x.ver ∧ n.plen = p ∧ (∀ y : Addr, n.Denotes y ↔ AgreeTop p y x) ∧
    ∀ i, i < x.ver.width - p → n.addr.testBit i = false

/-- The words that begin another kind of host or a port. -/
def keywords : List String :=
  ["host", "ip", "interface", "any", "any4", "any6", "object", "object-group", "gt", "lt", "eq", "neq", "range"]

/-- A name that is not mistaken for a keyword: it is none, and it does not begin with `any`, `any4` or
`any6` followed by something else than a letter or digit. -/
def PlainName (w : String) : Prop :=
  w ∉ keywords ∧ ∀ k ∈ ["any", "any4", "any6"], ∀ c u, w.toList = k.toList ++ c :: u → c.isAlphanum = true

/-- The words of a host. -/
inductive HostWords (e : Env) : List String → Host → Prop
  | any : HostWords e ["any"] .any
  | any4 : HostWords e ["any4"] .any4
  | any6 : HostWords e ["any6"] .any6
  | host (k w : String) (a : Addr) : k ∈ ["host", "ip"] → AddrWord e w a → HostWords e [k, w] (.host a)
  | interface (w : String) : Identifier w → HostWords e ["interface", w] (.iface w)
  | object (w : String) (h : Host) : Known e.netObjs w h → HostWords e ["object", w] h
  | group (w : String) (h : Host) : Known e.netGroups w h → HostWords e ["object-group", w] h
  | masked (w m : String) (x q p : Nat) (n : Net) : x < 2 ^ 32 → w.toList = Dotted x →
      q < 2 ^ 32 → m.toList = Dotted q → MaskText .v4 m.toList p → NetworkOf ⟨.v4, x⟩ p n →
      HostWords e [w, m] (.net n)
  | maskedName (w m : String) (x q p : Nat) (n : Net) : Known e.names w ⟨.v4, x⟩ → x < 2 ^ 32 → PlainName w →
      q < 2 ^ 32 → m.toList = Dotted q → MaskText .v4 m.toList p → NetworkOf ⟨.v4, x⟩ p n →
      HostWords e [w, m] (.net n)
  | slash (w : String) (a m : List Char) (x p : Nat) (n : Net) : V6Text a x → w.toList = a ++ '/' :: m →
      (∀ c ∈ m, c.isDigit = true) → MaskText .v6 m p → NetworkOf ⟨.v6, x⟩ p n → HostWords e [w] (.net n)
  | slashName (w a : String) (m : List Char) (x : Addr) (p : Nat) (n : Net) : Known e.names a x → x.Valid →
      PlainName a → w.toList = a.toList ++ '/' :: m →
      (∀ c ∈ m, c.isDigit = true) → MaskText x.ver m p → NetworkOf x p n → HostWords e [w] (.net n)

/-- A port: one of the names, or a number up to 65535. -/
def PortWord (w : String) : Prop :=
  w ∈ Words.ports ∨ (DigitText w.toList ∧ w.toList.length ≤ 4300 ∧ digitValue w.toList ≤ 65535)

/-- The words of a port condition. -/
inductive PortWords (e : Env) : List String → PortVal → Prop
  | op (o w : String) : o ∈ ["gt", "lt", "eq", "neq"] → PortWord w → PortWords e [o, w] (.port o w)
  | range (a b : String) : PortWord a → PortWord b →
      (DigitText a.toList → DigitText b.toList → a < b) → PortWords e ["range", a, b] (.range a b)
  | group (w : String) (o : Nat) : Known e.portGroups w o → (∀ v, ¬ Known e.svcGroups w v) →
      PortWords e ["object-group", w] (.group o)

/-- A host, and a port condition or none. -/
inductive NodeWords (e : Env) : List String → PNode → Prop
  | host (hw : List String) (h : Host) : HostWords e hw h → NodeWords e hw ⟨h, none⟩
  | port (hw pw : List String) (h : Host) (p : PortVal) : HostWords e hw h → PortWords e pw p →
      NodeWords e (hw ++ pw) ⟨h, some p⟩

/-- The protocol of a rule. -/
inductive ProtoWords (e : Env) : List String → Proto → Prop
  | code (w : String) : w ∈ Words.protocols → ProtoWords e [w] (.name w)
  | number (w : String) : DigitText w.toList → w.toList.length ≤ 4300 → digitValue w.toList ≤ 255 →
      ProtoWords e [w] (.name w)
  | svcGroup (w : String) (o : Nat) : Known e.svcGroups w o → ProtoWords e ["object-group", w] (.svcGroup o)
  | protoGroup (w : String) (o : Nat) : Known e.protoGroups w o → (∀ v, ¬ Known e.svcGroups w v) →
      ProtoWords e ["object-group", w] (.protoGroup o)
  | svcObj (w : String) (o : Nat) : Known e.svcObjs w o → ProtoWords e ["object", w] (.svcObj o)

/-- A number up to 255. -/
def ByteWord (w : String) : Prop :=
  DigitText w.toList ∧ w.toList.length ≤ 4300 ∧ digitValue w.toList ≤ 255

/-- The icmp part of a rule. -/
inductive IcmpWords (e : Env) : List String → Option IcmpVal → Prop
  | none : IcmpWords e [] none
  | group (w : String) (o : Nat) : Known e.icmpGroups w o → IcmpWords e ["object-group", w] (some (.group o))
  | type (w : String) : w ∈ Words.icmpTypes ∨ ByteWord w → IcmpWords e [w] (some (.icmp w Option.none))
  | code (w c : String) : w ∈ Words.icmpTypes ∨ ByteWord w → ByteWord c → IcmpWords e [w, c] (some (.icmp w (some c)))

/-- The arguments of `log`. -/
inductive LogWords : List String → List (List String) → Prop
  | nil : LogWords [] []
  | level (w : String) (ws : List String) (l : List (List String)) :
      w ∈ ["debugging", "disable", "default", "notifications", "warnings", "critical", "0", "1", "2", "3", "4", "5",
        "6", "7"] → LogWords ws l → LogWords (w :: ws) ([w] :: l)
  | interval (n : String) (ws : List String) (l : List (List String)) : DigitText n.toList → LogWords ws l →
      LogWords ("interval" :: n :: ws) (["interval", n] :: l)

/-- The options of a rule, in the order written. -/
inductive OptWords (e : Env) : List String → List Opt → Prop
  | nil : OptWords e [] []
  | log (lw : List String) (l : List (List String)) (ws : List String) (os : List Opt) : LogWords lw l →
      OptWords e ws os → OptWords e ("log" :: (lw ++ ws)) (.log l :: os)
  | timeRange (w : String) (o : Nat) (ws : List String) (os : List Opt) : Known e.timeRanges w o →
      OptWords e ws os → OptWords e ("time-range" :: w :: ws) (.timeRange o :: os)
  | inactive (ws : List String) (os : List Opt) : OptWords e ws os → OptWords e ("inactive" :: ws) (.inactive :: os)

/-- The dictionary holds the last option of each type. -/
def OptionsAre (d : Dict String Opt) (os : List Opt) : Prop :=
  ∀ k, dGet d k = (os.filter (fun o => o.key == some k)).getLast?

/-- The source has no port and the destination is a group whose name is also the name of a service or
port group: then the words can be read in two ways. -/
def Ambiguous (e : Env) (s : PNode) (dw : List String) : Prop :=
  s.port = none ∧ ∃ w rest, dw = "object-group" :: w :: rest ∧
    ((∃ v, Known e.svcGroups w v) ∨ ∃ v, Known e.portGroups w v)

/-- The words of an `extended` rule and the rule. -/
inductive ExtendedWords (e : Env) : List String → PRule → Prop
  | general (i m : String) (pw sw dw ow : List String) (r : PRule) (os : List Opt) :
      IdWord i → m ∈ ["permit", "deny"] → ProtoWords e pw r.protocol → pw ≠ ["icmp"] → pw ≠ ["icmp6"] →
      NodeWords e sw r.src → NodeWords e dw r.dst → ¬ Ambiguous e r.src dw → OptWords e ow os →
      r.id = i → r.extended = "extended" → r.mode = m → OptionsAre r.options os → r.icmp = none →
      r.remark = [] → r.url = none →
      ExtendedWords e (["access-list", i, "extended", m] ++ (pw ++ (sw ++ (dw ++ ow)))) r
  | icmp (i m p : String) (sw dw cw ow : List String) (r : PRule) (os : List Opt) (s d : Host) :
      IdWord i → m ∈ ["permit", "deny"] → p ∈ ["icmp", "icmp6"] →
      HostWords e sw s → HostWords e dw d → IcmpWords e cw r.icmp → OptWords e ow os →
      r.id = i → r.extended = "extended" → r.mode = m → r.protocol = .name p → r.src = ⟨s, none⟩ →
      r.dst = ⟨d, none⟩ → OptionsAre r.options os → r.remark = [] → r.url = none →
      ExtendedWords e (["access-list", i, "extended", m, p] ++ (sw ++ (dw ++ (cw ++ ow)))) r

/-- The words of a `standard` rule: everything from the host to anywhere, protocol ip. -/
inductive StandardWords (e : Env) : List String → PRule → Prop
  | mk (i m : String) (sw : List String) (h : Host) : IdWord i → m ∈ ["permit", "deny"] → HostWords e sw h →
      StandardWords e (["access-list", i, "standard", m] ++ sw)
        { id := i, extended := "standard", mode := m, protocol := .name "ip", src := ⟨h, none⟩, dst := ⟨.any, none⟩ }

/-- A word of a URL: no white space at all. -/
def UrlWord (w : String) : Prop := w.toList ≠ [] ∧ ∀ c ∈ w.toList, isSpace c = false

/-- The words of a `webtype` rule: a URL, or a destination for tcp. -/
inductive WebtypeWords (e : Env) : List String → PRule → Prop
  | url (i m u : String) (ow : List String) (r : PRule) (os : List Opt) : IdWord i → m ∈ ["permit", "deny"] → UrlWord u →
      OptWords e ow os → r.id = i → r.extended = "webtype" → r.mode = m → r.protocol = .name "url" →
      r.src = ⟨.any, none⟩ → r.dst = ⟨.any, none⟩ → r.url = some u.toList → OptionsAre r.options os → r.icmp = none →
      r.remark = [] → WebtypeWords e (["access-list", i, "webtype", m, "url", u] ++ ow) r
  | tcp (i m : String) (dw ow : List String) (r : PRule) (os : List Opt) : IdWord i → m ∈ ["permit", "deny"] →
      NodeWords e dw r.dst → OptWords e ow os → r.id = i → r.extended = "webtype" → r.mode = m →
      r.protocol = .name "tcp" → r.src = ⟨.any, none⟩ → r.url = none → OptionsAre r.options os → r.icmp = none →
      r.remark = [] → WebtypeWords e (["access-list", i, "webtype", m, "tcp"] ++ (dw ++ ow)) r

/-- The words of a rule. -/
def RuleWords (e : Env) (ws : List String) (r : PRule) : Prop :=
  ExtendedWords e ws r ∨ StandardWords e ws r ∨ WebtypeWords e ws r

/-- Remark lines, one after the other, and their texts.  The text of a remark is everything between the
blank behind `remark` and the line feed. -/
inductive RemarkLines : List Char → List (List Char) → Prop
  | nil : RemarkLines [] []
  | cons (i : String) (h r t : List Char) (rs : List (List Char)) : IdWord i →
      Spaced ["access-list", i, "remark"] h → '\n' ∉ r → RemarkLines t rs →
      RemarkLines (h ++ (' ' :: (r ++ '\n' :: t))) (r :: rs)

/-- The tables are as the parser fills them: the names of addresses are identifiers, the other
names are words; and the token guard works as documented: a token is accepted in front
of anything that is no letter or digit, and a token of letters and digits that begins with a letter is
refused in front of a letter or digit. -/
structure Env.WF (e : Env) : Prop where
  names : ∀ p ∈ e.names, Identifier p.1
  netObjs : ∀ p ∈ e.netObjs, Word p.1
  netGroups : ∀ p ∈ e.netGroups, Word p.1
  svcObjs : ∀ p ∈ e.svcObjs, Word p.1
  svcGroups : ∀ p ∈ e.svcGroups, Word p.1
  portGroups : ∀ p ∈ e.portGroups, Word p.1
  icmpGroups : ∀ p ∈ e.icmpGroups, Word p.1
  protoGroups : ∀ p ∈ e.protoGroups, Word p.1
  timeRanges : ∀ p ∈ e.timeRanges, Word p.1
  passes : ∀ n c t, c.isAlphanum = false → e.guard n (c :: t) = true
  refuses : ∀ n c t, (∃ a l, n.toList = a :: l ∧ a.isAlpha = true) → (∀ d ∈ n.toList, d.isAlphanum = true) →
    c.isAlphanum = true → e.guard n (c :: t) = false

end Acltk.AclText
