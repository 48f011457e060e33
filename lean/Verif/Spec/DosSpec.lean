import Verif.Model.IosText
/-!
# Texts with DOS line ends

What the conversion does to a text, and what may differ in the items that are read.
-/
namespace Acltk.Dos
open Acltk Acltk.Lookup
open Acltk.FwsmText (Item)

/-- The second text is the first one with some of its line ends `\n` written as `\r\n`. -/
inductive LineEnds : Text → Text → Prop
  | done : LineEnds [] []
  | char {t t' : Text} (c : Char) : c ≠ '\n' → LineEnds t t' → LineEnds (c :: t) (c :: t')
  | unix {t t' : Text} : LineEnds t t' → LineEnds ('\n' :: t) ('\n' :: t')
  | dos {t t' : Text} : LineEnds t t' → LineEnds ('\n' :: t) ('\r' :: '\n' :: t')

/-- Every line end `\n` becomes `\r\n`. -/
def dos : Text → Text
  | [] => []
  | c :: t => if c = '\n' then '\r' :: '\n' :: dos t else c :: dos t

/-- No line of the text ends with the word `k`, apart from blanks. -/
def NoLineEndsIn (k : String) (t : Text) : Prop :=
  ∀ a b c, t = a ++ (k.toList ++ (b ++ '\n' :: c)) → ∃ d ∈ b, d ≠ ' ' ∧ d ≠ '\t'

/-- How TatSu treats tokens in front of further characters (`nameguard`): it looks at the next character only, and never refuses a
token in front of a character that is no letter or digit. -/
structure NextChar (g : Guard) : Prop where
  one : ∀ n c t t', g n (c :: t) = g n (c :: t')
  passes : ∀ n c t, c.isAlphanum = false → g n (c :: t) = true

/-- The same text, or with a carriage return at its end. -/
def Cr (v v' : List Char) : Prop := v' = v ∨ v' = v ++ ['\r']

/-- Element by element. -/
inductive All2 {α β : Type} (R : α → β → Prop) : List α → List β → Prop
  | nil : All2 R [] []
  | cons {a b l m} : R a b → All2 R l m → All2 R (a :: l) (b :: m)

/-- Both None, or related. -/
inductive Opt2 {α β : Type} (R : α → β → Prop) : Option α → Option β → Prop
  | none : Opt2 R none none
  | some {a b} : R a b → Opt2 R (some a) (some b)

/-- `Cr` of strings. -/
def CrS (v v' : String) : Prop := Cr v.toList v'.toList

/-- The same interface but for its description. -/
def SameIntf (i i' : Ifc.Intf) : Prop :=
  { i' with description := i.description } = i ∧ Opt2 CrS i.description i'.description

/-- The same NAT entry but for its description. -/
def SameNat (n n' : NatCmd.Nat') : Prop :=
  { n' with description := n.description } = n ∧ Opt2 CrS n.description n'.description

/-- The same rule but for its remarks. -/
def SameRule (r r' : AclText.PRule) : Prop :=
  { r' with remark := r.remark } = r ∧ All2 Cr r.remark r'.remark

/-- The same element of a configuration, apart from a carriage return at the end of the version text, descriptions and remarks. -/
inductive SameItem : Item → Item → Prop
  | version {s s'} : Cr s s' → SameItem (.version s) (.version s')
  | hostname (s) : SameItem (.hostname s) (.hostname s)
  | domain (s) : SameItem (.domain s) (.domain s)
  | iface {i i'} : SameIntf i i' → SameItem (.iface i) (.iface i')
  | name (n a) {d d'} : Opt2 Cr d d' → SameItem (.name n a d) (.name n a d')
  | timeRange (o n l) : SameItem (.timeRange o n l) (.timeRange o n l)
  | netObj (n l x) {d d'} : Opt2 Cr d d' → SameItem (.netObj n l x d) (.netObj n l x d')
  | svcObj (o n s) {d d'} : Opt2 Cr d d' → SameItem (.svcObj o n s d) (.svcObj o n s d')
  | netGroup (n l) {d d'} : Opt2 Cr d d' → SameItem (.netGroup n l d) (.netGroup n l d')
  | portGroup (o n p l) {d d'} : Opt2 Cr d d' → SameItem (.portGroup o n p l d) (.portGroup o n p l d')
  | svcGroup (o n l) {d d'} : Opt2 Cr d d' → SameItem (.svcGroup o n l d) (.svcGroup o n l d')
  | icmpGroup (o n l) {d d'} : Opt2 Cr d d' → SameItem (.icmpGroup o n l d) (.icmpGroup o n l d')
  | protoGroup (o n l) {d d'} : Opt2 Cr d d' → SameItem (.protoGroup o n l d) (.protoGroup o n l d')
  | rule {r r'} : SameRule r r' → SameItem (.rule r) (.rule r')
  | remarks {l l'} : All2 Cr l l' → SameItem (.remarks l) (.remarks l')
  | accessGroup (n d i) : SameItem (.accessGroup n d i) (.accessGroup n d i)
  | nat {n n'} : SameNat n n' → SameItem (.nat n) (.nat n')
  | nothing : SameItem .nothing .nothing

/-- The same IOS rule but for its remarks. -/
def SameIRule (r r' : IosText.IRule) : Prop :=
  { r' with remark := r.remark } = r ∧ All2 Cr r.remark r'.remark

/-- The same gateway but for the description of the interface. -/
inductive SameGateway : IosText.Gateway → IosText.Gateway → Prop
  | iface {i i'} : SameIntf i i' → SameGateway (.iface i) (.iface i')
  | addr (a) : SameGateway (.addr a) (.addr a)

/-- `SameItem` of IOS configurations. -/
inductive SameIos : IosText.Item → IosText.Item → Prop
  | base {i i'} : SameItem i i' → SameIos (.base i) (.base i')
  | rule {r r'} : SameIRule r r' → SameIos (.rule r) (.rule r')
  | rules {l l'} : All2 SameIRule l l' → SameIos (.rules l) (.rules l')
  | route (n) {g g'} : SameGateway g g' → SameIos (.route ⟨n, g⟩) (.route ⟨n, g'⟩)

/-- Both texts are refused, or raise the same exception, or are read with related results. -/
inductive SameOutcome {α β : Type} (R : α → β → Prop) : Peg.Res α → Peg.Res β → Prop
  | parsed {a b r r'} : R a b → SameOutcome R (.ok a r) (.ok b r')
  | refused : SameOutcome R .fail .fail
  | raised (e) : SameOutcome R (.raise e) (.raise e)

end Acltk.Dos
