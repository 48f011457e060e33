import Verif.Model.FwsmText
import Verif.Spec.AclTextSpec
/-!
# Specification: NAT commands as sequences of words

Written on words, without the grammar: which words stand for which NAT command.
-/
namespace Acltk.FwsmText
open Acltk Acltk.AclText NatCmd

/-- The word is not mistaken for the keyword: it is another word, and it does not begin with the keyword followed
by something else than a letter or digit. -/
def Apart (k w : String) : Prop := w ≠ k ∧ ∀ c u, w.toList = k.toList ++ c :: u → c.isAlphanum = true

/-- The interface a word of a pair stands for. -/
inductive IfWord (s : St) : String → IfRef → Prop
  | any : IfWord s "any" ⟨"any", none⟩
  | known (w : String) (i : Ifc.Intf) : Known s.ifaces w i → Apart "any" w → IfWord s w ⟨i.alias, i.nameif⟩

/-- No known interface has a comma or a closing parenthesis in its name. -/
def PlainIfaces (s : St) : Prop := ∀ p ∈ s.ifaces, ',' ∉ p.1.toList ∧ ')' ∉ p.1.toList

/-- `(real,mapped)` -/
def PairWord (s : St) (w : String) (r m : IfRef) : Prop :=
  Word w ∧ PlainIfaces s ∧
    ∃ a b, IfWord s a r ∧ IfWord s b m ∧ w.toList = '(' :: (a.toList ++ (',' :: (b.toList ++ [')'])))

/-- An optional fallback to the interface. -/
inductive FallbackWords : List String → Option Fallback → Prop
  | none : FallbackWords [] none
  | v4 : FallbackWords ["interface"] (some ⟨some Option.none, false⟩)
  | v6 : FallbackWords ["interface", "ipv6"] (some ⟨some Option.none, true⟩)

/-- No network object and no network group has this name. -/
def Fresh (e : Env) (w : String) : Prop := (∀ h, ¬ Known e.netObjs w h) ∧ ∀ h, ¬ Known e.netGroups w h

/-- The name of a network object, else of a network group. -/
inductive NetName (e : Env) (w : String) : Host → Prop
  | object (h : Host) : Known e.netObjs w h → NetName e w h
  | group (h : Host) : (∀ o, ¬ Known e.netObjs w o) → Known e.netGroups w h → NetName e w h

/-- The name of a pool: a network group, else a network object. -/
inductive PoolName (e : Env) (w : String) : Host → Prop
  | group (h : Host) : Known e.netGroups w h → PoolName e w h
  | object (h : Host) : (∀ o, ¬ Known e.netGroups w o) → Known e.netObjs w h → PoolName e w h

/-- The options of a pool, which are read over. -/
inductive PoolOptions : List String → Prop
  | nil : PoolOptions []
  | word (w : String) (ws : List String) : w ∈ ["round-robin", "extended", "flat"] → PoolOptions ws → PoolOptions (w :: ws)
  | reserve (ws : List String) : PoolOptions ws → PoolOptions ("flat" :: "include-reserve" :: ws)

/-- A pool. -/
inductive PoolWords (e : Env) : List String → Host → Prop
  | mk (w : String) (os : List String) (h : Host) : PoolName e w h → PoolOptions os → PoolWords e ("pat-pool" :: w :: os) h

/-- The keyword `interface`. -/
inductive IfaceWords (e : Env) : List String → Prop
  | v4 : Fresh e "interface" → IfaceWords e ["interface"]
  | v6 : Fresh e "interface" → IfaceWords e ["interface", "ipv6"]

/-! ## NAT of a network object -/

/-- The mapped side of an object NAT line: node and fallback. -/
inductive ObjMapped (e : Env) : List String → Node' → Option Fallback → Prop
  | name (w : String) (h : Host) (fw : List String) (f : Option Fallback) : NetName e w h → FallbackWords fw f →
      ObjMapped e (w :: fw) (.host h) f
  | v4 (w : String) (n : Nat) (fw : List String) (f : Option Fallback) : Fresh e w → n < 2 ^ 32 → w.toList = Dotted n →
      FallbackWords fw f → ObjMapped e (w :: fw) (.host (.host ⟨.v4, n⟩)) f
  | v6 (w : String) (n : Nat) (fw : List String) (f : Option Fallback) : Fresh e w → V6Text w.toList n →
      FallbackWords fw f → ObjMapped e (w :: fw) (.host (.host ⟨.v6, n⟩)) f
  | slash (w : String) (a m : List Char) (x p : Nat) (n : Net) (fw : List String) (f : Option Fallback) : Fresh e w →
      V6Text a x → w.toList = a ++ '/' :: m → (∀ c ∈ m, c.isDigit = true) → MaskText .v6 m p → NetworkOf ⟨.v6, x⟩ p n →
      FallbackWords fw f → ObjMapped e (w :: fw) (.host (.net n)) f
  | interface (ws : List String) : IfaceWords e ws → ObjMapped e ws .interface none
  | pool (ws fw : List String) (h : Host) (f : Option Fallback) : Fresh e "pat-pool" → PoolWords e ws h →
      FallbackWords fw f → ObjMapped e (ws ++ fw) (.host h) f

/-- The options of an object NAT line. -/
def objNatOptions : List String := ["route-lookup", "no-proxy-arp", "dns"]

/-- `service PROTOCOL REAL MAPPED`, `dns`, or nothing. -/
inductive ObjSvcWords : List String → Option ObjService → Prop
  | none : ObjSvcWords [] none
  | service (p a b : String) : p ∈ ["tcp", "udp"] → PortWord a → PortWord b →
      ObjSvcWords ["service", p, a, b] (some (.service p a b))
  | dns : ObjSvcWords ["dns"] (some .dns)

/-- The words of a NAT line of a network object. -/
inductive ObjNatWords (s : St) : List String → ObjNat → Prop
  | dynamic (p : String) (r m : IfRef) (mw os : List String) (n : Node') (f : Option Fallback) : PairWord s p r m →
      ObjMapped s.env mw n f → (∀ o ∈ os, o ∈ objNatOptions) →
      ObjNatWords s ("nat" :: p :: "dynamic" :: (mw ++ os))
        { real := r, mapped := m, type := "dynamic", node := n, fallback := f, service := none, options := os }
  | static (p : String) (r m : IfRef) (mw sw os : List String) (n : Node') (f : Option Fallback) (v : Option ObjService) :
      PairWord s p r m → ObjMapped s.env mw n f → ObjSvcWords sw v → (∀ o ∈ os, o ∈ objNatOptions) →
      (v = none → os.head? ≠ some "dns") →
      ObjNatWords s ("nat" :: p :: "static" :: (mw ++ (sw ++ os)))
        { real := r, mapped := m, type := "static", node := n, fallback := f, service := v, options := os }

/-! ## twice NAT -/

/-- The real side of the source. -/
inductive RealWord (e : Env) : String → Node' → Prop
  | name (w : String) (h : Host) : NetName e w h → RealWord e w (.host h)
  | any : Fresh e "any" → RealWord e "any" (.host .any)

/-- The mapped side of a static translation. -/
inductive StaticMapped (e : Env) : List String → Node' → Prop
  | name (w : String) (h : Host) : NetName e w h → StaticMapped e [w] (.host h)
  | interface (ws : List String) : IfaceWords e ws → StaticMapped e ws .interface
  | any : Fresh e "any" → StaticMapped e ["any"] (.host .any)

/-- The mapped side of a dynamic translation. -/
inductive DynMapped (e : Env) : List String → Node' → Option Fallback → Prop
  | name (w : String) (h : Host) (fw : List String) (f : Option Fallback) : NetName e w h → FallbackWords fw f →
      DynMapped e (w :: fw) (.host h) f
  | interface (ws : List String) : IfaceWords e ws → DynMapped e ws .interface none
  | pool (ws fw : List String) (h : Host) (f : Option Fallback) : Fresh e "pat-pool" → PoolWords e ws h →
      FallbackWords fw f → DynMapped e (ws ++ fw) (.host h) f

/-- `source …` -/
inductive SrcWords (e : Env) : List String → SrcSpec → Prop
  | dynamic (r : String) (mw : List String) (rn mn : Node') (f : Option Fallback) : RealWord e r rn →
      DynMapped e mw mn f → SrcWords e ("source" :: "dynamic" :: r :: mw) ⟨"dynamic", rn, mn, f⟩
  | static (r : String) (mw : List String) (rn mn : Node') : RealWord e r rn →
      StaticMapped e mw mn → SrcWords e ("source" :: "static" :: r :: mw) ⟨"static", rn, mn, none⟩

/-- `after-auto` or `after-object`, with or without a line number. -/
inductive PosWords : List String → Bool → Prop
  | none : PosWords [] false
  | after (k : String) : k ∈ ["after-auto", "after-object"] → PosWords [k] true
  | line (k n : String) : k ∈ ["after-auto", "after-object"] → DigitText n.toList → PosWords [k, n] true

/-- `destination static …`: the mapped side first; the pair is real, mapped. -/
inductive DstWords (e : Env) : List String → Option (Node' × Node') → Prop
  | none : DstWords e [] none
  | some (mw : List String) (w : String) (mn : Node') (h : Host) : StaticMapped e mw mn → NetName e w h →
      (mw = ["interface"] → Apart "ipv6" w) →
      DstWords e ("destination" :: "static" :: (mw ++ [w])) (some (.host h, mn))

/-- The service object of that name. -/
inductive SvcName (s : St) (w : String) : NatCmd.Svc → Prop
  | mk (o : Nat) (n : String) (v : Svc) : Known s.env.svcObjs w o → s.svcDefs.find? (fun p => p.1 == o) = some (o, n, v) →
      SvcName s w { name := some n, protocol := v.protocol, src := v.src.map .cond, dst := v.dst.map .cond,
                    icmpType := v.icmpType, icmpCode := v.icmpCode }

/-- `service A B` -/
inductive TwiceSvc (s : St) : List String → Option (NatCmd.Svc × NatCmd.Svc) → Prop
  | none : TwiceSvc s [] none
  | some (a b : String) (x y : NatCmd.Svc) : SvcName s a x → SvcName s b y → TwiceSvc s ["service", a, b] (some (x, y))

/-- The options of a twice NAT command besides the description. -/
def twiceOptions : List String := ["net-to-net", "dns", "unidirectional", "no-proxy-arp", "inactive", "route-lookup"]

/-- The words of a twice NAT command, without description. -/
inductive TwiceWords (s : St) : List String → NatCmd.Cmd → Prop
  | mk (p : String) (r m : IfRef) (pw sw dw vw os : List String) (pos : Bool) (src : SrcSpec) (dst : Option (Node' × Node'))
      (svc : Option (NatCmd.Svc × NatCmd.Svc)) : PairWord s p r m → PosWords pw pos → SrcWords s.env sw src →
      DstWords s.env dw dst → TwiceSvc s vw svc → (∀ o ∈ os, o ∈ twiceOptions) →
      TwiceWords s ("nat" :: p :: (pw ++ (sw ++ (dw ++ (vw ++ os)))))
        { iface := some (r, m), pos := pos, src := src, dst := dst, service := svc, options := os.map (fun o => (o, none)) }

end Acltk.FwsmText
